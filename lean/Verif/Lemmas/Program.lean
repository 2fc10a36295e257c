import Verif.SpecProgram
import Verif.Lemmas.Patch
import Verif.Lemmas.SessionInv
import Verif.Lemmas.EndToEnd
import Verif.Lemmas.RefineA
import Verif.Lemmas.Reading

/-! # Whole programs -/

set_option linter.unusedSectionVars false

namespace Acs

open Spec

section
variable {K : Type} [Field K] [LinearOrder K] [IsStrictOrderedRing K] [FloorRing K]
variable {E : Env K} {j d d' : Json K} {w w' : World K} {c c' : Cfg K} {p : Phase K} {k : Nat}
variable {mat res vec : Vec Int} {m n : Nat} {h : List Op}

/-! ## Configurations with the same effective parameters -/

theorem cfgOk_same (S : SameEffective c c') (h : CfgOk c) : CfgOk c' := by
  have e1 := S.mode
  have e2 := S.split
  have e3 := S.wBit
  have e4 := S.iBit
  unfold CfgOk at h ⊢
  rw [e1, e2]
  cases hm : c.mode <;> simp only [hm] at h ⊢ <;> simp only [hm, Mode.family, reduceCtorEq, or_true, true_or, or_false,
    forall_const, true_implies] at e3 e4 <;> first | exact h | (rw [e3, e4]; exact h) | (rw [e3]; exact h)

theorem legalW_same (S : SameEffective c c') {v : Int} (h : LegalW c v) : LegalW c' v := by
  have e1 := S.mode
  have e3 := S.wBit
  unfold LegalW at h ⊢
  rw [e1]
  cases hm : c.mode <;> simp only [hm] at h ⊢ <;> simp only [hm, Mode.family, reduceCtorEq, or_true, true_or, or_false,
    forall_const, true_implies] at e3 <;> first | exact h | (rw [e3]; exact h)

theorem legalX_same (S : SameEffective c c') {v : Int} (h : LegalX c v) : LegalX c' v := by
  have e1 := S.mode
  have e3 := S.iBit
  unfold LegalX at h ⊢
  rw [e1]
  cases hm : c.mode <;> simp only [hm] at h ⊢ <;> simp only [hm, Mode.family, reduceCtorEq, 
    forall_const, true_implies] at e3 <;> first | exact h | (rw [e3]; exact h)

theorem peak_same (S : SameEffective c c') : peak c' n = peak c n := by
  have e1 := S.mode
  have e3 := S.wBit
  have e4 := S.iBit
  unfold peak
  rw [e1]
  cases hm : c.mode <;> simp only [hm, Mode.family, reduceCtorEq, or_true, true_or, or_false,
    forall_const, true_implies] at e3 e4 ⊢ <;> first | rfl | rw [e3, e4]

theorem accepted_same (S : SameEffective c c') (h : Accepted c m n) : Accepted c' m n := by
  unfold Accepted at h ⊢
  rw [S.dims.1, S.dims.2]
  exact h

theorem histOk_same (S : SameEffective c c') (h' : HistOk c k h) : HistOk c' k h :=
  ⟨fun i j v hv => legalW_same S (h'.vals i j v hv), fun hk => h'.width (S.mode ▸ hk)⟩

theorem legalWrite_same (S : SameEffective c c') (h' : LegalWrite c k mat m n) : LegalWrite c' k mat m n where
  dims := accepted_same S h'.dims
  buf := h'.buf
  vals := fun i j hi hj => legalW_same S (h'.vals i j hi hj)
  sums := fun hi hm => by
    rw [S.mode] at hi
    rw [S.wBit (.inl (isInt_iff.1 hi))]
    exact h'.sums hi hm
  width := fun hk => h'.width (S.mode ▸ hk)

theorem legalMvm_same (S : SameEffective c c') (h' : LegalMvm c k h res vec m n) : LegalMvm c' k h res vec m n where
  dims := accepted_same S h'.dims
  resBuf := h'.resBuf
  vecBuf := h'.vecBuf
  vals := fun j hj => legalX_same S (h'.vals j hj)
  room := fun i hi => by rw [peak_same S]; exact h'.room i hi
  written := h'.written
  width := fun hk => h'.width (S.mode ▸ hk)

theorem ideal_same (S : SameEffective c c') (hr : c'.readDisturb = false) (hp : c'.adcProfile = false) (h : Ideal c) :
    Ideal c' := by
  have ha := h.analog
  refine ⟨S.digital.trans ha, (S.par ha).trans h.par, (S.vari ha).2.trans h.c2c, hr, hp, ?_, ?_, fun hi s hs => ?_⟩
  · have := h.quiet
    unfold Quiet at this ⊢
    rw [S.mode, (S.noise ha).1, (S.noise ha).2]
    exact this
  · rw [(S.states ha).1, (S.states ha).2]
    exact h.ne
  · rw [S.mode] at hi
    rw [S.split] at hs
    exact h.split hi s hs

/-! ## Readings -/

theorem realAdc_same (S : SameEffective c c') : RealAdc c' ↔ RealAdc c := by
  unfold RealAdc
  rw [S.digital]
  constructor <;> rintro ⟨h1, h2⟩
  · exact ⟨h1, by rw [S.adcType h1] at h2; exact h2⟩
  · exact ⟨h1, by rw [S.adcType h1]; exact h2⟩

theorem adcRange_same (S : SameEffective c c') (hr : RealAdc c) (l : String) : adcRange c' l = adcRange c l := by
  unfold adcRange
  rw [(S.adc hr.1 hr.2).2, S.adcType hr.1, (S.states hr.1).1, (S.states hr.1).2, S.dims.2]
  cases hc : c.calibMode with
  | calib => rw [S.dict hr.1 hr.2 hc]
  | max => cases c.adcType <;> rfl

theorem adcStep_same (S : SameEffective c c') (hr : RealAdc c) (lo hi : K) : adcStep c' lo hi = adcStep c lo hi := by
  unfold adcStep adcLevels
  rw [S.adcType hr.1, (S.adc hr.1 hr.2).1]

theorem adcOk_same (S : SameEffective c c') (hr : RealAdc c) {l : String} {lo hi : K} (h : AdcOk c l lo hi) :
    AdcOk c' l lo hi where
  real := by rw [S.adcType hr.1]; exact h.real
  res := by rw [S.adcType hr.1, (S.adc hr.1 hr.2).1]; exact h.res
  res30 := by rw [(S.adc hr.1 hr.2).1]; exact h.res30
  range := by rw [adcRange_same S hr]; exact h.range
  lt := h.lt

theorem reading_same (S : SameEffective c c') (hr : RealAdc c) (lo hi : K) : reading c' lo hi = reading c lo hi := by
  funext a
  unfold reading
  rw [adcStep_same S hr]

theorem leakage_same (S : SameEffective c c') (hr : RealAdc c) : leakage c' = leakage c := by
  unfold leakage
  rw [S.split, (S.states hr.1).1, (S.states hr.1).2]

theorem nominal_same (S : SameEffective c c') (hr : RealAdc c) : nominal c' = nominal c := by
  funext r g
  unfold nominal
  rw [S.mode, S.split, (S.states hr.1).1, (S.states hr.1).2]

theorem encP_same (S : SameEffective c c') : encP c' = encP c := by
  funext v s
  have e := S.wBit
  unfold encP
  rw [S.mode, S.split]
  cases hm : c.mode <;> simp only [hm, Mode.family, true_or, forall_const] at e ⊢
  rw [e]

theorem encM_same (S : SameEffective c c') : encM c' = encM c := by
  funext v s
  unfold encM
  rw [S.mode, S.split]

theorem conversions_same (S : SameEffective c c') (hr : RealAdc c) : conversions c' = conversions c := by
  funext W y n i
  have e := S.iBit
  unfold conversions
  rw [nominal_same S hr, encP_same S, encM_same S, S.mode, S.split, (S.states hr.1).1, (S.states hr.1).2]
  cases hm : c.mode <;> simp only [hm, Mode.family, reduceCtorEq, forall_const] at e ⊢ <;> rw [e]

theorem rowResult_same (S : SameEffective c c') (hr : RealAdc c) (lo hi : K) : rowResult c' lo hi = rowResult c lo hi := by
  funext W y n i
  have e := S.iBit
  have e' := S.wBit
  unfold rowResult
  rw [conversions_same S hr, reading_same S hr, leakage_same S hr, S.mode, S.split]
  cases hm : c.mode <;> simp only [hm, Mode.family, reduceCtorEq, true_or, forall_const] at e e' ⊢ <;>
    first | rw [e, e'] | rw [e] | rw [e']

theorem readRoom_same (S : SameEffective c c') (hr : RealAdc c) {lo hi : K} {W : Nat → Nat → Int}
    (h : ReadRoom c lo hi W res vec m n) : ReadRoom c' lo hi W res vec m n where
  parts := fun i hi' => by rw [peak_same S, conversions_same S hr]; exact h.parts i hi'
  whole := fun hm i hi' => by rw [rowResult_same S hr]; exact h.whole (S.mode ▸ hm) i hi'

theorem bits_ok (h : BitsOk c) (hi : c.mode.family = .int → CfgOk c) : CfgOk c := by
  obtain ⟨_, h1, h2⟩ := h
  unfold CfgOk at hi ⊢
  cases hm : c.mode <;> simp only [hm, Mode.family, reduceCtorEq, ne_eq, not_true_eq_false, not_false_eq_true, or_true,
    true_or, or_self, forall_const, true_implies, false_implies] at hi h1 h2 ⊢ <;>
    first | exact hi | exact h2 | exact ⟨h1.2, h1.1⟩

/-! ## What is left of earlier configurations -/

/-- Neither read disturb nor profiling, and a resolution a converter can be built with. -/
structure Stale (c : Cfg K) : Prop where
  resolution : c.resolution ≠ -1 ∧ c.resolution ≤ 30
  rd : c.readDisturb = false
  prof : c.adcProfile = false

theorem stale_apply (ho : Stale c) (hu : Usable E j c') {e : Cfg K} (h : applyConfig E j c = .ok e) : Stale e := by
  have S := fromDoc_unique hu.doc hu.admissible (loaded_of h) (applyConfig_ok h)
  obtain ⟨_, _, hdig, hinf⟩ := apply_twice h h
  rcases hu.kind with hd | ⟨_, hi⟩
  · have hd' := S.digital.trans hd
    have a := (hdig hd').1.adc
    have v := (hdig hd').1.volt
    simp only [Cfg.adcPart, Cfg.voltPart, Prod.mk.injEq] at a v
    exact ⟨a.1 ▸ ho.1, v.1.trans ho.2, a.2.2.2.1.trans ho.3⟩
  · have sw := fromDoc_switches hu.doc (loaded_of h) hi.analog
    by_cases ht : c'.adcType = .inf
    · have hd' := S.digital.trans hi.analog
      have a := (hinf hd' ((S.adcType hi.analog).trans ht)).1
      simp only [Cfg.adcPart, Prod.mk.injEq] at a
      exact ⟨a.1 ▸ ho.1, sw.1.trans hi.rd, a.2.2.2.1.trans ho.3⟩
    · exact ⟨by rw [(S.adc hi.analog ht).1]; exact hu.resolution ⟨hi.analog, ht⟩, sw.1.trans hi.rd,
        (sw.2 ht).trans hi.prof⟩

theorem Spec.Usable.ok (hu : Usable E d c) : CfgOk c := bits_ok hu.admissible.2.2.1 hu.slices

theorem Spec.Usable.buildable (hu : Usable E d c) (hE : E.strict = false) (ho : Stale c') : Buildable E c' c where
  resolution := by
    unfold usedResolution
    split
    · exact ho.1.2
    · next hn =>
      rw [not_or, Bool.not_eq_true] at hn
      exact (hu.resolution hn).2
  wires := fun hd hp => by
    rcases hu.kind with hd' | ⟨_, hi⟩
    · rw [hd] at hd'; cases hd'
    · rw [hi.par] at hp; cases hp
  slices := fun hf => by
    have := hu.ok
    unfold CfgOk at this
    cases hm : c.mode <;> simp only [hm, Mode.family, reduceCtorEq, or_false, or_true, true_or, or_self] at hf this <;>
      first | exact this.2.2.2.1 | (intro s hs; rw [this.1] at hs; simp at hs; omega)
  offset := fun hm s hs => by
    have := hu.ok
    unfold CfgOk at this
    simp only [hm] at this
    exact fits_of this.2.1 this.2.2.1.le hs
  current := fun hs => by rw [hE] at hs; cases hs
  disturb := fun hr => by
    unfold usedDisturb at hr
    split at hr
    · rw [ho.2] at hr; cases hr
    · next hd =>
      rcases hu.kind with hd' | ⟨_, hi⟩
      · exact absurd hd' hd
      · rw [hi.rd] at hr; cases hr

/-! ## The state of the library -/

/-- The state `w` of the library is what the user knows as `p`. -/
structure Knows (E : Env K) (p : Phase K) (w : World K) : Prop where
  find : ∀ k, w.data.find k = p.doc.find k
  usable : Usable E p.doc p.cfg
  doc : FromDoc E p.doc w.cfg
  adm : Admissible w.cfg
  session : Session E p.hist w
  settled : w.cfg.digitalOnly = false → Settled E p.hist w
  hist : HistOk p.cfg p.width p.hist
  stale : Stale w.cfg

/-- The same for a process that may have no configuration yet. -/
def KnowsOr (E : Env K) : Option (Phase K) → World K → Prop
  | none, w => w.xbar = none ∧ Stale w.cfg
  | some p, w => Knows E p w

theorem Knows.same (hk : Knows E p w) : SameEffective p.cfg w.cfg :=
  fromDoc_unique hk.usable.doc hk.usable.admissible hk.doc hk.adm

theorem Knows.xbar (hk : Knows E p w) : ∃ x, w.xbar = some x := by
  obtain ⟨_, x, hx⟩ := session_inv hk.session
  exact ⟨x, hx.xbar⟩

theorem Knows.releasable (hk : Knows E p w) : Releasable w := by
  have S := hk.same
  unfold Releasable
  rw [S.verbose, S.mode]
  exact .inr hk.usable.quiet

theorem Knows.kind (hk : Knows E p w) : w.cfg.digitalOnly = true ∨ (ExactArith E ∧ Ideal w.cfg) := by
  have S := hk.same
  rcases hk.usable.kind with hd | ⟨hA, hi⟩
  · exact .inl (S.digital.trans hd)
  · exact .inr ⟨hA, ideal_same S hk.stale.rd hk.stale.prof hi⟩

theorem Knows.editable (hk : Knows E p w) : Editable w.data := by
  obtain ⟨v, hv, _⟩ := hk.doc.M
  rw [← hk.find] at hv
  cases hd : w.data with
  | obj l => exact .inr ⟨l, rfl⟩
  | _ => rw [hd] at hv; cases hv

theorem changes_find (h : ∀ k, d'.find k = d.find k) {key : String} : Changes E d' j key ↔ Changes E d j key := by
  unfold Changes
  rw [h]

theorem patched_same {e : Json K} (h : ∀ k, d'.find k = d.find k) : Patched E d' j e ↔ Patched E d j e := by
  unfold Patched
  simp only [changes_find h, h]

/-! ## Configurations -/

theorem load_knows (hE : E.strict = false) (hu : Usable E j c) (hr : Releasable w) (ho : Stale w.cfg) (k : Nat) :
    ∃ w', setConfig E (.good j) w = .ok w' ∧ Knows E ⟨j, c, k, []⟩ w' := by
  obtain ⟨w', h⟩ := setConfig_iff.2 ⟨hr, c, hu.doc, hu.admissible, fun _ _ => ho.1.1, hu.buildable hE ho⟩
  refine ⟨w', h, ?_⟩
  obtain ⟨_, x, h1, h2, h3⟩ := setConfig_inv h
  rcases h3 with ⟨h3, _⟩ | ⟨j', e, h4, h5⟩
  · cases h3
  · cases e
    exact ⟨fun k => by rw [h4], hu, loaded_of h5, applyConfig_ok h5, .load h, fun _ => .load h, .nil, stale_apply ho hu h5⟩

theorem update_code (h : updateConfig E (.good j) w = .ok (w', z)) (hx : w.xbar ≠ none) : z = 0 := by
  rcases updateConfig_inv h with ⟨_, _, h | h⟩ | ⟨_, _, _, _, _, h, _⟩
  · exact absurd h hx
  · cases h
  · exact h

theorem rebuild_knows (hE : E.strict = false) (hK : Knows E p w) (hk : DistinctKeys j)
    (hc : ∃ key, structural key ∧ Changes E p.doc j key) (hd : Patched E p.doc j d) (hu : Usable E d c) (k : Nat) :
    ∃ w', updateConfig E (.good j) w = .ok (w', 0) ∧ Knows E ⟨d, c, k, []⟩ w' := by
  obtain ⟨x, hx⟩ := hK.xbar
  have hx' : w.xbar ≠ none := by rw [hx]; exact Option.some_ne_none x
  have hd' := (patched_same hK.find).2 hd
  have hc' : ∃ key, structural key ∧ Changes E w.data j key := by simpa only [changes_find hK.find] using hc
  obtain ⟨⟨w', z⟩, h⟩ := (updateConfig_iff hk hx' hd').2 fun _ => ⟨hK.editable, c, hu.doc, hu.admissible, fun _ _ => hK.stale.1.1,
    fun _ => ⟨hu.buildable hE hK.stale, hu.quiet⟩⟩
  obtain rfl := update_code h hx'
  obtain ⟨x', h1, _, h2⟩ := update_rebuild hc' hk h
  have hp : Patched E w.data j w'.data := by
    rcases updateConfig_inv h with ⟨_, h3, _⟩ | ⟨_, _, q, _, e, _, hq, h3⟩
    · cases h3
    · cases e
      have := updateCfg_patched hk hq
      rcases h3 with ⟨_, _, _, _, _, _, _, h4⟩ | ⟨_, rfl⟩
      · rw [h4]; exact this
      · exact this
  have hf := patched_find hk hd' hp
  have F := fromDoc_find (fun k => (hf k).symm) (loaded_of h2)
  refine ⟨w', h, hf, hu, F, applyConfig_ok h2, .rebuild hK.session hc' hk h, fun _ => .rebuild hc' hk h, .nil, ?_⟩
  have hu' : Usable E w'.data c := ⟨fromDoc_find hf hu.doc, hu.2, hu.3, hu.4, hu.5, hu.6⟩
  exact stale_apply hK.stale hu' h2

theorem same_knows (hK : Knows E p w) (hk : DistinctKeys j) (hc : ∀ key, ¬Changes E p.doc j key) :
    updateConfig E (.good j) w = .ok (w, 0) := by
  obtain ⟨x, hx⟩ := hK.xbar
  have hx' : w.xbar ≠ none := by rw [hx]; exact Option.some_ne_none x
  have hc' : ∀ key, ¬Changes E w.data j key := by simpa only [changes_find hK.find] using hc
  have hp : Patched E w.data j w.data := ⟨fun k v _ h => absurd h (hc' k), fun _ _ => rfl⟩
  obtain ⟨⟨w', z⟩, h⟩ := (updateConfig_iff hk hx' hp).2 fun ⟨k, h⟩ => absurd h (hc' k)
  obtain rfl := update_code h hx'
  obtain ⟨_, q, h1, _, rfl⟩ := update_keep (fun k _ => hc' k) hk h
  obtain ⟨_, _, _, h2, _, _, h3, _⟩ := updateCfg_inv hk h1
  rw [h, h3 (by
    cases hq : q.2.1 with
    | false => rfl
    | true => obtain ⟨k, hh⟩ := h2.1 hq; exact absurd hh (hc' k))]

theorem structural_find (hc : ∀ key, structural key → ¬Changes E d j key) (hp : Patched E d j d') {key : String}
    (h : structural key) : d'.find key = d.find key := hp.2 key (hc key h)

theorem keep_hist (F : FromDoc E d c) (F' : FromDoc E d' c') (hm : d'.find "m_mode" = d.find "m_mode")
    (hw : d'.find "W_BIT" = d.find "W_BIT") (hh : HistOk c k h) : HistOk c' k h := by
  have em : c'.mode = c.mode := by
    obtain ⟨v, h1, h2⟩ := F.mode
    obtain ⟨v', h3, h4⟩ := F'.mode
    rw [hm, h1] at h3
    cases h3
    unfold StrIs at h2 h4
    rw [h2] at h4
    exact modeName_inj (Json.str.inj h4).symm
  have ew : c.mode.family = .int ∨ c.mode = .tnn4 ∨ c.mode = .tnn5 → c'.wBit = c.wBit := fun hi => by
    have g := F'.wBit (em ▸ hi)
    unfold Gives at g
    rw [hw] at g
    exact one (reqNat.2 (F.wBit hi)) (reqNat.2 g)
  refine ⟨fun i l v hv => ?_, fun hk => hh.width (em ▸ hk)⟩
  have := hh.vals i l v hv
  unfold LegalW at this ⊢
  rw [em]
  cases hmd : c.mode <;> simp only [hmd] at this ⊢ <;> simp only [hmd, Mode.family, reduceCtorEq, or_true, true_or, or_false,
    forall_const, true_implies] at ew <;> first | exact this | (rw [ew]; exact this)

theorem keep_knows (hK : Knows E p w) (hk : DistinctKeys j) (hc : ∀ key, structural key → ¬Changes E p.doc j key)
    (hd : Patched E p.doc j d) (hu : Usable E d c) (hdig : p.cfg.digitalOnly = true) :
    ∃ w', updateConfig E (.good j) w = .ok (w', 0) ∧ Knows E ⟨d, c, p.width, p.hist⟩ w' := by
  obtain ⟨x, hx⟩ := hK.xbar
  have hx' : w.xbar ≠ none := by rw [hx]; exact Option.some_ne_none x
  have hd' := (patched_same hK.find).2 hd
  have hc' : ∀ key, structural key → ¬Changes E w.data j key := by simpa only [changes_find hK.find] using hc
  obtain ⟨⟨w', z⟩, h⟩ := (updateConfig_iff hk hx' hd').2 fun _ => ⟨hK.editable, c, hu.doc, hu.admissible, fun _ _ => hK.stale.1.1,
    fun ⟨k, h1, h2⟩ => absurd h2 (hc' k h1)⟩
  obtain rfl := update_code h hx'
  obtain ⟨_, q, h1, _, rfl⟩ := update_keep hc' hk h
  have hf := patched_find hk hd' (updateCfg_patched hk h1)
  have hu' : Usable E q.1.data c := ⟨fromDoc_find hf hu.doc, hu.2, hu.3, hu.4, hu.5, hu.6⟩
  obtain ⟨_, _, _, _, _, h5, h6, _⟩ := updateCfg_inv hk h1
  have key : FromDoc E d q.1.cfg ∧ Admissible q.1.cfg ∧ Stale q.1.cfg := by
    cases hq : q.2.1 with
    | true =>
      exact ⟨fromDoc_find (fun k => (hf k).symm) (loaded_of (h5 hq)), applyConfig_ok (h5 hq), stale_apply hK.stale hu' (h5 hq)⟩
    | false =>
      have e := h6 hq
      rw [e] at hf ⊢
      exact ⟨fromDoc_find (fun k => (hf k).symm.trans (hK.find k)) hK.doc, hK.adm, hK.stale⟩
  refine ⟨q.1, h, hf, hu, key.1, key.2.1, .keep hK.session hc' hk h, fun hdo => ?_, ?_, key.2.2⟩
  · have e1 : c.digitalOnly = q.1.cfg.digitalOnly := one (reqBool.2 key.1.digital) (reqBool.2 hu.doc.digital)
    have g := hu.doc.digital
    unfold Gives at g
    rw [structural_find hc hd (by simp [structural])] at g
    have e2 : c.digitalOnly = p.cfg.digitalOnly := one (reqBool.2 hK.usable.doc.digital) (reqBool.2 g)
    rw [← e1, e2, hdig] at hdo
    cases hdo
  · exact keep_hist hK.usable.doc hu.doc (structural_find hc hd (by simp [structural]))
      (structural_find hc hd (by simp [structural])) hK.hist

/-! ## Writes and multiplications -/

theorem Knows.ok (hK : Knows E p w) : CfgOk w.cfg := cfgOk_same hK.same hK.usable.ok

theorem write_knows (hK : Knows E p w) (hm : m < 2147483648)
    (hl : LegalWrite p.cfg p.width mat m n) :
    ∃ w', cpyMtrx E mat m n w = .ok (w', 0) ∧ Knows E { p with hist := .write mat m n :: p.hist } w' := by
  have S := hK.same
  have hl' := legalWrite_same S hl
  have hn : n < 2147483648 := by have := hl.dims.2.2; omega
  obtain ⟨w', h⟩ : ∃ w', cpyMtrx E mat m n w = .ok (w', 0) := by
    rcases hK.kind with hd | ⟨hA, hi⟩
    · exact session_write hK.session hK.ok hd hl' ⟨hm, hn⟩
    · obtain ⟨x, hx, hr⟩ := settled_runs (hK.settled hi.analog)
      obtain ⟨x1, h1⟩ := xWrite_ideal hA hK.ok hi hr hl'.dims hl'.buf hl'.vals hl'.sums
      refine ⟨{ w with xbar := some x1 }, ?_⟩
      unfold cpyMtrx
      rw [hx]
      dsimp only
      rw [if_neg (not_tooBig hl'.dims ⟨hm, hn⟩), toSize_cast hm, toSize_cast hn, h1]
      rfl
  have hs : w'.cfg = w.cfg ∧ w'.data = w.data := by
    rcases cpyMtrx_inv h with ⟨_, h2, _⟩ | ⟨y, y', _, _, _, _, rfl⟩
    · cases h2
    · exact ⟨rfl, rfl⟩
  refine ⟨w', h, fun k => by rw [hs.2]; exact hK.find k, hK.usable, by rw [hs.1]; exact hK.doc, by rw [hs.1]; exact hK.adm,
    .write hK.session ⟨hm, hn⟩ h, fun hd => .write (hK.settled (by rw [← hs.1]; exact hd)) ⟨hm, hn⟩ h, hK.hist.write hl,
    by rw [hs.1]; exact hK.stale⟩

theorem adds_eq {r : Vec Int} {W : Nat → Nat → Int} (h : Adds r res W vec m n) : r = added res W vec m n := by
  obtain ⟨sz, g⟩ := r
  obtain ⟨h1, h2, h3⟩ := h
  unfold added
  simp only at h1 h2 h3
  rw [h1]
  congr 1
  funext i
  split
  · next hi => exact h2 i hi
  · next hi => exact h3 i (by omega)

/-- One multiplication of an analog crossbar. -/
theorem exec_mvm {x : Xbar K} {l : String} (hd : Accepted w.cfg m n) (hm : m < 2147483648 ∧ n < 2147483648) {x1 : Xbar K}
    {rs : List (Vec Int)} {G : List Op → Vec Int → Vec Int → Nat → Nat → String → Vec Int → Prop} (hx : w.xbar = some x)
    (h1 : exec E w.cfg x [.mvm res vec mat m n l] = .ok (x1, rs))
    (h2 : AnswersBy G h [.mvm res vec mat m n l] rs) :
    ∃ w' r, exeMvm E res vec mat m n l w = .ok (w', r, 0) ∧ G h res vec m n l r := by
  cases h2 with
  | mvm a a' =>
    cases a'
    obtain ⟨q, h3, h4⟩ := bind_eq_ok.1 h1
    obtain ⟨q', h5, h6⟩ := bind_eq_ok.1 h4
    cases h5
    have h7 := ok_inj.1 h6
    simp only [Prod.mk.injEq, List.cons.injEq, and_true] at h7
    refine ⟨{ w with xbar := some q.1 }, q.2, ?_, by rw [h7.2]; exact a⟩
    unfold exeMvm
    rw [hx]
    dsimp only
    rw [if_neg (not_tooBig hd hm), toSize_cast hm.1, toSize_cast hm.2, h3]
    rfl

theorem addsRead_eq {r : Vec Int} {l : String} {lo hi : K} (hc : RealAdc c) (ha : adcRange c l = some (lo, hi))
    (h' : AddsRead c lo hi r res (stored h) vec m n) : r = answer c h res vec m n l := by
  unfold answer
  rw [if_pos hc, ha]
  obtain ⟨sz, g⟩ := r
  obtain ⟨h1, h2, h3⟩ := h'
  simp only at h1 h2 h3 ⊢
  rw [h1]
  congr 1
  funext i
  split
  · next hi => exact h2 i hi
  · next hi => exact h3 i (by omega)

theorem mvm_knows (hE : E.strict = false) (hK : Knows E p w)
    (hm : m < 2147483648) (hl : LegalMvm p.cfg p.width p.hist res vec m n) (mat : Vec Int) (l : String)
    (hr : Readable p.cfg p.hist res vec m n l) :
    ∃ w', exeMvm E res vec mat m n l w = .ok (w', answer p.cfg p.hist res vec m n l, 0) ∧
      Knows E { p with hist := .mvm res vec mat m n l :: p.hist } w' := by
  have S := hK.same
  have hl' := legalMvm_same S hl
  have hh := histOk_same S hK.hist
  have hn : n < 2147483648 := by have := hl.dims.2.2; omega
  obtain ⟨w', r, h, ha⟩ : ∃ w' r, exeMvm E res vec mat m n l w = .ok (w', r, 0) ∧
      r = answer p.cfg p.hist res vec m n l := by
    by_cases hc : RealAdc p.cfg
    · obtain ⟨lo, hi, hA, hroom⟩ := hr hc
      rcases hK.kind with hd | ⟨hex, hid⟩
      · rw [S.digital, hc.1] at hd
        cases hd
      · obtain ⟨x, hx, hr'⟩ := settled_runs (hK.settled hid.analog)
        obtain ⟨x1, rs, h1, h2⟩ := exec_reads (ops := [.mvm res vec mat m n l]) (rg := fun _ => (lo, hi))
          hex hK.ok hid (fun _ => hE) hr' hh ⟨hl', trivial⟩ ⟨⟨adcOk_same S hc hA, readRoom_same S hc hroom⟩, trivial⟩
        obtain ⟨w', r, h3, h4⟩ := exec_mvm (G := fun h res vec m n l r => AddsRead w.cfg lo hi r res (stored h) vec m n)
          hl'.dims ⟨hm, hn⟩ hx h1 h2
        refine ⟨w', r, h3, addsRead_eq hc hA.range ⟨h4.size, fun i hi => ?_, h4.tail⟩⟩
        rw [h4.head i hi, rowResult_same S hc]
    · obtain ⟨w', r, h, ha⟩ : ∃ w' r, exeMvm E res vec mat m n l w = .ok (w', r, 0) ∧
          Adds r res (stored p.hist) vec m n := by
        rcases hK.kind with hd | ⟨hA, hi⟩
        · exact session_mvm hK.session hK.ok (fun _ => hE) hd hh hl' ⟨hm, hn⟩
        · have ht : w.cfg.adcType = .inf := by
            by_contra ht
            exact hc ((realAdc_same S).1 ⟨hi.analog, ht⟩)
          obtain ⟨x, hx, hr'⟩ := settled_runs (hK.settled hi.analog)
          obtain ⟨x1, rs, h1, h2⟩ := exec_refines_inf (ops := [.mvm res vec mat m n l])
            hA hK.ok hi ht (fun _ => hE) hr' hh ⟨hl', trivial⟩
          cases h2 with
          | mvm a a' =>
            cases a'
            exact exec_mvm (G := fun h res vec m n _ r => Adds r res (stored h) vec m n) hl'.dims ⟨hm, hn⟩ hx h1
              (.mvm a .nil)
      exact ⟨w', r, h, by rw [answer, if_neg hc]; exact adds_eq ha⟩
  have hs : w'.cfg = w.cfg ∧ w'.data = w.data := by
    rcases exeMvm_inv h with ⟨_, _, h2, _⟩ | ⟨y, y', _, _, _, _, rfl⟩
    · cases h2
    · exact ⟨rfl, rfl⟩
  subst ha
  refine ⟨w', h, fun k => by rw [hs.2]; exact hK.find k, hK.usable, by rw [hs.1]; exact hK.doc, by rw [hs.1]; exact hK.adm,
    .mvm hK.session ⟨hm, hn⟩ h, fun hd => .mvm (hK.settled (by rw [← hs.1]; exact hd)) ⟨hm, hn⟩ h, hK.hist.mvm,
    by rw [hs.1]; exact hK.stale⟩

theorem mvmPb_same (hK : Knows E p w) (hm : m < 2147483648) (hl : LegalMvm p.cfg p.width p.hist res vec m n) :
    exeMvmPb E res vec mat m n w = exeMvm E res vec mat m n "Unknown" w := by
  obtain ⟨x, hx⟩ := hK.xbar
  have hn : n < 2147483648 := by have := hl.dims.2.2; omega
  unfold exeMvmPb exeMvm
  rw [hx]
  dsimp only
  rw [if_neg (not_tooBig (accepted_same hK.same hl.dims) ⟨hm, hn⟩)]

theorem off_knows (hK : Knows E p w) {m n : Int} (ho : OffSize p.cfg m n) (l : String) :
    cpyMtrx E mat m n w = .ok (w, -1) ∧ exeMvm E res vec mat m n l w = .ok (w, res, -1) := by
  obtain ⟨x, hx⟩ := hK.xbar
  obtain ⟨h1, h2, h3, h4, h5⟩ := ho
  have hb : tooBig w m n := tooBig_of h1 h2 (by rw [hK.same.dims.1, hK.same.dims.2]; omega)
  unfold cpyMtrx exeMvm
  rw [hx]
  dsimp only
  rw [if_pos hb, if_pos hb]
  exact ⟨rfl, rfl⟩

/-! ## Programs -/

theorem Knows.or_releasable {s : Option (Phase K)} (h : KnowsOr E s w) : Releasable w ∧ Stale w.cfg := by
  cases s with
  | none => exact ⟨.inl h.1, h.2⟩
  | some p => exact ⟨Knows.releasable h, Knows.stale h⟩

theorem play_cons {ca : Call K} {cs : List (Call K)} {r : Reply} {rs : List Reply} (h : reply E w ca = .ok (w', r))
    (h' : ∃ w'', play E w' cs = .ok (w'', rs)) : ∃ w'', play E w (ca :: cs) = .ok (w'', r :: rs) := by
  obtain ⟨w'', h'⟩ := h'
  refine ⟨w'', ?_⟩
  rw [play, h]
  change (play E w' cs >>= fun q => _) = _
  rw [h']
  rfl

theorem null_update (w : World K) : updateConfig E .null w = .ok (w, -1) := by
  unfold updateConfig
  cases w.xbar <;> rfl

theorem play_head {ca : Call K} {cs : List (Call K)} {r : Reply} {rs : List Reply}
    (h : play E w (ca :: cs) = .ok (w', r :: rs)) :
    ∃ w1, reply E w ca = .ok (w1, r) ∧ play E w1 cs = .ok (w', rs) := by
  rw [play] at h
  obtain ⟨q, h1, h2⟩ := rbind_ok.1 h
  obtain ⟨q', h3, h4⟩ := rbind_ok.1 h2
  have h5 := rok_inj.1 h4
  simp only [Prod.mk.injEq, List.cons.injEq] at h5
  refine ⟨q.1, ?_, ?_⟩
  · rw [h1, ← h5.2.1]
  · rw [h3, ← h5.1, ← h5.2.2]

theorem program_plays (hE : E.strict = false) {s : Option (Phase K)} {cs : List (Call K)}
    {rs : List Reply} (hp : Program E s cs rs) (hK : KnowsOr E s w) : ∃ w', play E w cs = .ok (w', rs) := by
  induction hp generalizing w with
  | done => exact ⟨w, rfl⟩
  | load hu _ ih =>
    obtain ⟨hr, ho⟩ := Knows.or_releasable hK
    obtain ⟨w1, h1, h2⟩ := load_knows hE hu hr ho _
    exact play_cons (by rw [reply, h1]; rfl) (ih h2)
  | rebuild hk hc hd hu _ ih =>
    obtain ⟨w1, h1, h2⟩ := rebuild_knows hE hK hk hc hd hu _
    exact play_cons (by rw [reply, h1]; rfl) (ih h2)
  | keep hk hc hd hu hdig _ ih =>
    obtain ⟨w1, h1, h2⟩ := keep_knows hK hk hc hd hu hdig
    exact play_cons (by rw [reply, h1]; rfl) (ih h2)
  | same hk hc _ ih => exact play_cons (by rw [reply, same_knows hK hk hc]; rfl) (ih hK)
  | null _ ih => exact play_cons (by rw [reply, null_update]; rfl) (ih hK)
  | empty _ ih => exact play_cons (by rw [reply]; rfl) (ih hK)
  | updatePb _ ih =>
    obtain ⟨w', h⟩ := ih hK
    obtain ⟨w1, h1, h2⟩ := play_head h
    refine play_cons (w' := w1) ?_ ⟨w', h2⟩
    unfold reply at h1 ⊢
    unfold updateConfigPb
    dsimp only at h1 ⊢
    cases hq : updateConfig E _ w with
    | error e => rw [hq] at h1; cases h1
    | ok q =>
      rw [hq] at h1
      have := rok_inj.1 h1
      simp only [Prod.mk.injEq] at this
      change Except.ok (q.1, Reply.nothing) = _
      rw [this.1]
  | write hm hl _ ih =>
    obtain ⟨w1, h1, h2⟩ := write_knows hK hm hl
    exact play_cons (by rw [reply, h1]; rfl) (ih h2)
  | mvm hm hl hr _ ih =>
    obtain ⟨w1, h1, h2⟩ := mvm_knows hE hK hm hl _ _ hr
    exact play_cons (by rw [reply, h1]; rfl) (ih h2)
  | mvmPb hm hl hr _ ih =>
    obtain ⟨w1, h1, h2⟩ := mvm_knows hE hK hm hl _ _ hr
    exact play_cons (by rw [reply, mvmPb_same hK hm hl, h1]; rfl) (ih h2)
  | offWrite ho _ ih =>
    exact play_cons (by rw [reply, (off_knows (res := ⟨0, fun _ => 0⟩) (vec := ⟨0, fun _ => 0⟩) hK ho "").1]; rfl) (ih hK)
  | offMvm ho _ ih => exact play_cons (by rw [reply, (off_knows hK ho _).2]; rfl) (ih hK)
  | noWrite _ ih => exact play_cons (by rw [reply, cpyMtrx, hK.1]; rfl) (ih hK)
  | noMvm _ ih => exact play_cons (by rw [reply, exeMvm, hK.1]; rfl) (ih hK)
  | noUpdate _ ih => exact play_cons (by unfold reply updateConfig; rw [hK.1]; rfl) (ih hK)

end

end Acs
