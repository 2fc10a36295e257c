import Verif.SpecWireTest
import Verif.Lemmas.ShippedLoad
import Verif.Lemmas.ShippedInt
import Verif.Lemmas.Program
import Verif.Lemmas.WireRun
import Verif.Lemmas.WireIntRun

/-! # The tests of the wires -/

set_option linter.unusedSectionVars false

namespace Acs

open Finset Spec

section
variable {K : Type} [Field K] [LinearOrder K] [IsStrictOrderedRing K] [FloorRing K]
variable {E : Env K} {c : Cfg K} {md : Mode} {v r : Json K} {V R : K} {w w₁ w₂ : World K} {z : Int}

/-- The document after the update. -/
def wiredFile (md : Mode) (v r : Json K) : Json K :=
  .obj ([("V_read", v), ("parasitics", .bool true), ("w_res", r)] ++ (analogFile md).items)

theorem wired_other {k : String} (h1 : k ≠ "V_read") (h2 : k ≠ "parasitics") (h3 : k ≠ "w_res") :
    (wiredFile md v r).find k = (analogFile md : Json K).find k := by
  have : ∃ l, (analogFile md : Json K) = .obj l := by cases md <;> exact ⟨_, rfl⟩
  obtain ⟨l, hl⟩ := this
  unfold wiredFile
  rw [hl]
  show List.lookup k (("V_read", v) :: ("parasitics", .bool true) :: ("w_res", r) :: l) = List.lookup k l
  simp only [List.lookup, beq_eq_false_iff_ne.2 h1, beq_eq_false_iff_ne.2 h2, beq_eq_false_iff_ne.2 h3]

theorem numIs_null {x : K} (h : NumIs E v x) : v.isNull = false := by
  unfold NumIs at h
  cases v <;> first | rfl | exact h.elim

theorem wire_distinct : DistinctKeys (wireUpdate v r) := by
  show (["V_read", "parasitics", "w_res"] : List String).Nodup
  decide

theorem wire_changes (hv : NumIs E v V) (hr : NumIs E r R) {k : String} :
    Changes E (analogFile md) (wireUpdate v r) k ↔ k = "V_read" ∨ k = "parasitics" ∨ k = "w_res" := by
  constructor
  · rintro ⟨u, hu, _⟩
    simp [wireUpdate, Json.items] at hu
    tauto
  · rintro (rfl | rfl | rfl)
    · refine ⟨v, by simp [wireUpdate, Json.items], ?_⟩
      rw [show (analogFile md : Json K).find "V_read" = none by cases md <;> rfl]
      exact numIs_null hv
    · refine ⟨.bool true, by simp [wireUpdate, Json.items], ?_⟩
      rw [show (analogFile md : Json K).find "parasitics" = none by cases md <;> rfl]
      rfl
    · refine ⟨r, by simp [wireUpdate, Json.items], ?_⟩
      rw [show (analogFile md : Json K).find "w_res" = none by cases md <;> rfl]
      exact numIs_null hr

theorem wire_patched (hv : NumIs E v V) (hr : NumIs E r R) :
    Patched E (analogFile md) (wireUpdate v r) (wiredFile md v r) := by
  constructor
  · intro k u hu _
    simp [wireUpdate, Json.items] at hu
    rcases hu with ⟨rfl, rfl⟩ | ⟨rfl, rfl⟩ | ⟨rfl, rfl⟩ <;> rfl
  · intro k hk
    rw [wire_changes hv hr] at hk
    exact wired_other (fun e => hk (.inl e)) (fun e => hk (.inr (.inl e))) fun e => hk (.inr (.inr e))

/-- The meaning of the document after the update: a crossbar of the file whose wires have a resistance. -/
structure WiredSet (md : Mode) (V R : K) (c : Cfg K) : Prop where
  base : AnalogShipped md { c with parasitics := false }
  par : c.parasitics = true
  vRead : c.vRead = V
  wRes : c.wRes = R

theorem numIs_eq {x y : K} (h : NumIs E v x) (h' : NumIs E v y) : x = y := by
  unfold NumIs at h h'
  cases v <;> first | exact h.elim | exact h.trans h'.symm

theorem wired_set (h0 : E.f32 0 = 0) (h5 : E.f32 5 = 5) (h30 : E.f32 30 = 30) (hv : NumIs E v V) (hr : NumIs E r R)
    (hR : R ≠ 0) (h : FromDoc E (wiredFile md v r) c) : WiredSet md V R c := by
  have g : ∀ {k : String}, k ∉ ["V_read", "parasitics", "w_res"] → ∀ {α : Type} {P : Json K → α → Prop} {x : α},
      Gives (wiredFile md v r) k P x → Gives (analogFile md) k P x := by
    intro k hk α P x ⟨u, hu, hp⟩
    simp only [List.mem_cons, List.not_mem_nil, or_false, not_or] at hk
    exact ⟨u, by rw [← hu, wired_other hk.1 hk.2.1 hk.2.2], hp⟩
  have o : ∀ {k : String}, k ∉ ["V_read", "parasitics", "w_res"] → ∀ {α : Type} {T : Json K → Prop} {P : Json K → α → Prop}
      {x y : α}, GivesOr (wiredFile md v r) k T P y x → GivesOr (analogFile md) k T P y x := by
    intro k hk α T P x y hg
    simp only [List.mem_cons, List.not_mem_nil, or_false, not_or] at hk
    unfold GivesOr Gives at hg ⊢
    rw [← wired_other (v := v) (r := r) hk.1 hk.2.1 hk.2.2]
    exact hg
  have hd : c.digitalOnly = false :=
    (Json.bool.inj (Gives.eq (g (by decide) h.digital) (v := .bool false) (by cases md <;> rfl))).symm
  have A := h.analog hd
  have hrd : c.readDisturb = false := GivesOr.none (o (by decide) A.readDisturb) (by cases md <;> rfl)
  obtain ⟨p, p1, p2, p3, p4⟩ := A.par
  have hp : p = true := by
    rcases p1 with ⟨u, hu, hb⟩ | ⟨hn, _⟩
    · have : (wiredFile md v r).find "parasitics" = some (.bool true) := rfl
      rw [this] at hu
      cases hu
      exact (Json.bool.inj hb).symm
    · exact absurd trivial (hn _ (show (wiredFile md v r).find "parasitics" = some (.bool true) from rfl))
  have hw : c.wRes = R := numIs_eq (Gives.eq (p2 hp) (v := r) rfl) hr
  have hV : c.vRead = V := numIs_eq (Gives.eq (p4 (.inl hp)).1 (v := v) rfl) hv
  refine ⟨analog_shipped h0 h5 h30 ?_, p3.2 ⟨hp, by rw [hw]; exact hR⟩, hV, hw⟩
  exact
    { M := g (by decide) h.M
      N := g (by decide) h.N
      mode := g (by decide) h.mode
      digital := g (by decide) h.digital
      verbose := g (by decide) h.verbose
      analog := fun _ =>
        { hrs := g (by decide) A.hrs
          lrs := g (by decide) A.lrs
          adcType := g (by decide) A.adcType
          adc := fun q => ⟨g (by decide) (A.adc q).resolution, o (by decide) (A.adc q).calib,
            fun s => g (by decide) ((A.adc q).dict s), o (by decide) (A.adc q).profile,
            fun s => o (by decide) ((A.adc q).bin s)⟩
          hrsNoise := g (by decide) A.hrsNoise
          lrsNoise := g (by decide) A.lrsNoise
          d2d := o (by decide) A.d2d
          c2c := o (by decide) A.c2c
          readDisturb := o (by decide) A.readDisturb
          rd := fun q => by rw [show c.readDisturb = true from q] at hrd; cases hrd
          par := ⟨false, find_or (by cases md <;> rfl), (fun q => by cases q), ⟨(fun q => by cases q), fun q => by cases q.1⟩,
            fun q => by
              rcases q with q | q
              · cases q
              · rw [show c.readDisturb = true from q] at hrd; cases hrd⟩ }
      wBit := fun q => g (by decide) (h.wBit q)
      iBit := fun q => g (by decide) (h.iBit q)
      split := fun q => g (by decide) (h.split q) }

/-! ## The update -/

theorem wired_update (hv : NumIs E v V) (hr : NumIs E r R) (h1 : setConfig E (.good (analogFile md)) w = .ok w₁)
    (h2 : updateConfig E (.good (wireUpdate v r)) w₁ = .ok (w₂, z)) :
    z = 0 ∧ Settled E [] w₂ ∧ FromDoc E (wiredFile md v r) w₂.cfg ∧ Admissible w₂.cfg := by
  obtain ⟨_, x, hx, _, hj⟩ := setConfig_inv h1
  rcases hj with ⟨hj, _⟩ | ⟨j, hj, hdat, ha⟩
  · cases hj
  cases hj
  have hx' : w₁.xbar ≠ none := by rw [hx]; exact Option.some_ne_none x
  obtain rfl := update_code h2 hx'
  have hc : ∃ k, structural k ∧ Changes E w₁.data (wireUpdate v r) k :=
    ⟨"parasitics", by simp [structural], by rw [hdat]; exact (wire_changes hv hr).2 (.inr (.inl rfl))⟩
  obtain ⟨x', h3, _, h4⟩ := update_rebuild hc wire_distinct h2
  have hp : Patched E w₁.data (wireUpdate v r) w₂.data := by
    rcases updateConfig_inv h2 with ⟨_, h3, _⟩ | ⟨_, _, q, _, e, _, hq, h3⟩
    · cases h3
    · cases e
      have := updateCfg_patched wire_distinct hq
      rcases h3 with ⟨_, _, _, _, _, _, _, h4⟩ | ⟨_, rfl⟩
      · rw [h4]; exact this
      · exact this
  have hd : Patched E w₁.data (wireUpdate v r) (wiredFile md v r) := by rw [hdat]; exact wire_patched hv hr
  exact ⟨rfl, .rebuild hc wire_distinct h2, fromDoc_find (fun k => (patched_find wire_distinct hd hp k).symm) (loaded_of h4),
    applyConfig_ok h4⟩

def wiredCfg (md : Mode) (V R : K) : Cfg K := { analogShippedCfg md with parasitics := true, vRead := V, wRes := R }

theorem wired_fromDoc (h0 : E.f32 0 = 0) (h5 : E.f32 5 = 5) (h30 : E.f32 30 = 30) (hv : NumIs E v V) (hr : NumIs E r R)
    (hV : V < 0) (hR : R ≠ 0) : FromDoc E (wiredFile md v r) (wiredCfg md V R) := by
  have F : FromDoc E (analogFile md) (analogShippedCfg md : Cfg K) := analog_fromDoc h0 h5 h30
  have A := F.analog rfl
  have g : ∀ {k : String}, k ∉ ["V_read", "parasitics", "w_res"] → ∀ {α : Type} {P : Json K → α → Prop} {x : α},
      Gives (analogFile md) k P x → Gives (wiredFile md v r) k P x := by
    intro k hk α P x ⟨u, hu, hp⟩
    simp only [List.mem_cons, List.not_mem_nil, or_false, not_or] at hk
    exact ⟨u, by rw [← hu, wired_other hk.1 hk.2.1 hk.2.2], hp⟩
  have o : ∀ {k : String}, k ∉ ["V_read", "parasitics", "w_res"] → ∀ {α : Type} {T : Json K → Prop} {P : Json K → α → Prop}
      {x y : α}, GivesOr (analogFile md) k T P y x → GivesOr (wiredFile md v r) k T P y x := by
    intro k hk α T P x y hg
    simp only [List.mem_cons, List.not_mem_nil, or_false, not_or] at hk
    unfold GivesOr Gives at hg ⊢
    rw [wired_other (v := v) (r := r) hk.1 hk.2.1 hk.2.2]
    exact hg
  exact
    { M := g (by decide) F.M
      N := g (by decide) F.N
      mode := g (by decide) F.mode
      digital := g (by decide) F.digital
      verbose := g (by decide) F.verbose
      analog := fun _ =>
        { hrs := g (by decide) A.hrs
          lrs := g (by decide) A.lrs
          adcType := g (by decide) A.adcType
          adc := fun q => ⟨g (by decide) (A.adc q).resolution, o (by decide) (A.adc q).calib,
            fun s => g (by decide) ((A.adc q).dict s), o (by decide) (A.adc q).profile,
            fun s => o (by decide) ((A.adc q).bin s)⟩
          hrsNoise := g (by decide) A.hrsNoise
          lrsNoise := g (by decide) A.lrsNoise
          d2d := o (by decide) A.d2d
          c2c := o (by decide) A.c2c
          readDisturb := o (by decide) A.readDisturb
          rd := fun q => by cases q
          par := ⟨true, .inl ⟨_, rfl, rfl⟩, fun _ => ⟨r, rfl, hr⟩, ⟨fun _ => ⟨rfl, hR⟩, fun _ => rfl⟩,
            fun _ => ⟨⟨v, rfl, hv⟩, hV⟩⟩ }
      wBit := fun q => g (by decide) (F.wBit q)
      iBit := fun q => g (by decide) (F.iBit q)
      split := fun q => g (by decide) (F.split q) }

theorem wired_admissible (hV : V < 0) (hR : 0 < R) : Admissible (wiredCfg md V R : Cfg K) := by
  have A : Admissible (analogShippedCfg md : Cfg K) := analog_admissible
  refine ⟨A.1, A.2.1, A.2.2.1, fun _ => ?_⟩
  have B := A.2.2.2 rfl
  exact ⟨B.states, B.adc, B.calib, fun _ => hV, B.family, B.software, B.cell, B.variability, fun _ => hR.ne'⟩

theorem wired_buildable {old : Cfg K} (hm : md ≠ .iTcWDiff) : Buildable E old (wiredCfg md V R : Cfg K) := by
  have B : Buildable E old (analogShippedCfg md : Cfg K) := analog_buildable
  exact ⟨B.resolution, fun _ _ => hm, B.slices, B.offset, B.current, fun h => by cases h⟩

/-! ## Binary and ternary mappings -/

theorem steady_fifth {k : Int} {e : K} (he : e < 1 / 10) : Steady (2 * (k : K) * (5 / (30 - 5))) e := fun j => by
  refine he.trans_le ?_
  have e1 : (2 * (k : K) * (5 / (30 - 5)) - (j + 1 / 2)) = ((4 * k - 10 * j - 5 : Int) : K) / 10 := by
    push_cast
    ring
  rw [e1, abs_div, abs_of_nonneg (by norm_num : (0 : K) ≤ 10)]
  refine div_le_div_of_nonneg_right ?_ (by norm_num)
  have : (1 : Int) ≤ |4 * k - 10 * j - 5| := by
    rcases abs_cases (4 * k - 10 * j - 5) with ⟨e, _⟩ | ⟨e, _⟩ <;> rw [e] <;> omega
  exact_mod_cast this

theorem readout_line {vec : Vec Int} {n : Nat} : ∀ c ∈ readout md vec n, c.2 ≤ bitLines md * n := by
  have h0 : ∀ v, 0 ≤ count vec n v := fun v => sum_nonneg fun j _ => by split <;> norm_num
  have h1 : ∀ v, count vec n v ≤ n := fun v => by
    have : count vec n v ≤ ∑ _j ∈ range n, (1 : Int) := sum_le_sum fun j _ => by split <;> norm_num
    simpa using this
  have h2 : count vec n 1 + count vec n (-1) ≤ n := by
    unfold count
    rw [← sum_add_distrib]
    have : ∑ j ∈ range n, ((if vec.get j = 1 then (1 : Int) else 0) + if vec.get j = -1 then 1 else 0) ≤ ∑ _j ∈ range n, (1 : Int) :=
      sum_le_sum fun j _ => by split <;> split <;> omega
    simpa using this
  have a := h1 1
  have b := h1 (-1)
  have d := h1 0
  cases md <;> simp only [readout, bitLines, List.mem_cons, List.not_mem_nil, or_false, forall_eq_or_imp, forall_eq,
    IsEmpty.forall_iff, implies_true] <;> push_cast <;> first | trivial | omega

namespace WiredSet
variable (D : WiredSet md V R c)
include D

theorem mode : c.mode = md := D.base.mode
theorem M : c.M = 32 := D.base.M
theorem N : c.N = 32 := D.base.N
theorem hrs : c.hrs = 5 := D.base.hrs
theorem lrs : c.lrs = 30 := D.base.lrs

theorem adcOk (l : String) : AdcOk c l (shippedRange md).1 (shippedRange (K := K) md).2 := by
  obtain ⟨h1, h2, h3, h4, h5⟩ := D.base.adcOk l
  exact ⟨h1, h2, h3, h4, h5⟩

theorem step : adcStep c (shippedRange md).1 (shippedRange md).2 ≤ 1 / 500 := by
  have h := D.base.step
  rw [show adcStep c (shippedRange md).1 (shippedRange md).2 = _ from h]
  split <;> norm_num

theorem step_nonneg : 0 ≤ adcStep c (shippedRange md).1 (shippedRange md).2 := by
  have h := D.base.step
  rw [show adcStep c (shippedRange md).1 (shippedRange md).2 = _ from h]
  split <;> norm_num

theorem inRange (h45 : md ≠ .tnn4 ∧ md ≠ .tnn5) {W : Nat → Nat → Int} {vec : Vec Int}
    {m n i : Nat} (hn : n ≤ c.N) (hW : LegalMat c W m n) (hx : LegalVec c vec n) (hi : i < m) :
    ∀ k ∈ conversions c W vec n i, (shippedRange md).1 ≤ k.1 ∧ k.1 ≤ (shippedRange md).2 :=
  D.base.inRange h45 (c := { c with parasitics := false }) hn hW hx hi

theorem loss (n : Nat) : lineLoss c 30 (n : K) = testLoss V R n := by
  unfold lineLoss testLoss
  rw [D.N, D.vRead, D.wRes]
  push_cast
  ring

theorem resistive (hi : md.isInt = false) (hV : V < 0) (hR : 0 < R) : Resistive c where
  analog := D.base.digital
  bin := by rw [D.mode]; exact hi
  par := D.par
  prof := D.base.prof
  hrs := by rw [D.hrs]; norm_num
  lt := by rw [D.hrs, D.lrs]; norm_num
  read := by rw [D.vRead]; exact hV
  wire := by rw [D.wRes]; exact hR

theorem deviation (hV : V < 0) (hR : 0 < R) {vec : Vec Int} {n : Nat} {p : Int × Int} (hp : p ∈ readout c.mode vec n) :
    wireDeviation c (shippedRange md).1 (shippedRange md).2 0 p ≤ 2 / 25 * (testLoss V R n + 1 / 1000) := by
  obtain ⟨h1, h2⟩ := readout_scale p hp
  have h3 := readout_line p hp
  have hs := D.step
  have hs0 := D.step_nonneg
  have hb : (1 : K) ≤ bitLines c.mode := by
    have : 1 ≤ bitLines c.mode := by cases c.mode <;> decide
    exact_mod_cast this
  have hk : (p.2 : K) / bitLines c.mode ≤ n := by
    rw [div_le_iff₀ (by linarith)]
    have : ((p.2 : Int) : K) ≤ ((bitLines c.mode * n : Int) : K) := Int.cast_le.2 h3
    push_cast at this
    linarith
  have hk0 : (0 : K) ≤ (p.2 : K) / bitLines c.mode := div_nonneg (by exact_mod_cast h2) (by linarith)
  have hl : lineLoss c 30 ((p.2 : K) / bitLines c.mode) ≤ testLoss V R n := by
    rw [← D.loss]
    unfold lineLoss
    have : 0 < -c.vRead * 1000000 := by rw [D.vRead]; linarith
    refine div_le_div_of_nonneg_right (mul_le_mul_of_nonneg_right (mul_le_mul_of_nonneg_left ?_ (Nat.cast_nonneg _)) ?_) this.le
    · exact pow_le_pow_left₀ (by positivity) (by linarith) 2
    · rw [D.wRes]; exact hR.le
  have hl0 : 0 ≤ lineLoss c 30 ((p.2 : K) / bitLines c.mode) := by
    unfold lineLoss
    have : 0 < -c.vRead * 1000000 := by rw [D.vRead]; linarith
    have : 0 ≤ c.wRes := by rw [D.wRes]; exact hR.le
    positivity
  have hf : |(p.1 : K) / (c.lrs - c.hrs)| ≤ 2 / 25 := by
    rw [D.lrs, D.hrs]
    rcases h1 with e | e <;> rw [e] <;> norm_num [abs_of_pos]
  unfold wireDeviation
  rw [D.lrs] at *
  rw [add_zero, mul_zero, zero_add]
  exact mul_le_mul hf (by linarith) (by linarith) (by norm_num)

theorem absorbed (hs : sharp md) (hV : V < 0) (hR : 0 < R) {vec : Vec Int} {n : Nat}
    (hn : testLoss V R n ≤ lossLimit md) :
    WireAbsorbed c (shippedRange md).1 (shippedRange md).2 0 vec n := by
  unfold WireAbsorbed Absorbs
  have cases' : integral c.mode ∧ testLoss V R n ≤ 6 ∨ (c.mode = .bnn3 ∨ c.mode = .bnn4) ∧ testLoss V R n ≤ 6 / 5 := by
    rw [D.mode]
    cases md <;> first | exact .inl ⟨trivial, hn⟩ | exact .inr ⟨by decide, hn⟩ | exact hs.elim
  rcases cases' with ⟨hm, hl⟩ | ⟨hm, hl⟩
  · refine .inl ⟨hm, fun p hp => (D.deviation hV hR hp).trans_lt ?_⟩
    linarith
  · refine .inr ⟨hm, fun p hp => ?_⟩
    unfold shared
    rw [D.hrs, D.lrs]
    refine steady_fifth ((D.deviation hV hR hp).trans_lt ?_)
    linarith

theorem converts (hi : md.isInt = false) (h45 : md ≠ .tnn4 ∧ md ≠ .tnn5) {W : Nat → Nat → Int} {res vec : Vec Int}
    {m n : Nat} (hn : n ≤ c.N) (hW : LegalMat c W m n) (hx : LegalVec c vec n) (hr : ∀ i, i < m → |res.get i| ≤ 2 ^ 20) :
    Converts c (shippedRange md).1 (shippedRange md).2 W res vec m n := by
  refine ⟨fun i hi => D.inRange h45 hn hW hx hi, fun i hi' => ?_⟩
  have hn' : (n : Int) ≤ 32 := by rw [D.N] at hn; exact_mod_cast hn
  have h1 : ((|res.get i| + 3 * n : Int) : K) ≤ ((2 ^ 20 + 96 : Int) : K) := by
    have := hr i hi'
    exact Int.cast_le.2 (by omega)
  have ha : max |(shippedRange (K := K) md).1| |(shippedRange (K := K) md).2| ≤ 960 := by
    unfold shippedRange
    split <;> norm_num
  have ha0 : 0 ≤ max |(shippedRange (K := K) md).1| |(shippedRange (K := K) md).2| := le_max_of_le_left (abs_nonneg _)
  have h2 : convPeak (shippedRange md).1 (shippedRange md).2 (conversions c W vec n i) ≤ 100000 := by
    rw [convPeak_eq (by rw [D.mode]; exact hi), D.lrs, D.hrs]
    have key : ∀ cs : List (Int × Int), cs.length ≤ 4 → (∀ p ∈ cs, p.1 = 1 ∨ p.1 = 2) →
        (cs.map fun p => max |(shippedRange (K := K) md).1| |(shippedRange (K := K) md).2| * |(p.1 : K) / (30 - 5)|
          + 1 / 2).sum ≤ (cs.length : K) * 100 := by
      intro cs _ hc
      rw [← nsmul_eq_mul]
      refine (List.sum_le_card_nsmul _ 100 fun y hy => ?_).trans (by rw [List.length_map])
      obtain ⟨p, hp, rfl⟩ := List.mem_map.1 hy
      have h3 : |(p.1 : K) / (30 - 5)| ≤ 1 := by rcases hc p hp with e | e <;> rw [e] <;> norm_num [abs_of_pos]
      have h4 : |(p.1 : K) / (30 - 5)| ≤ 2 / 25 := by rcases hc p hp with e | e <;> rw [e] <;> norm_num [abs_of_pos]
      have := mul_le_mul ha h4 (abs_nonneg _) (by norm_num)
      linarith
    have hl : (readout c.mode vec n).length ≤ 4 := by cases c.mode <;> simp [readout]
    refine (key _ hl fun p hp => (readout_scale p hp).1).trans ?_
    have : ((readout c.mode vec n).length : K) ≤ 4 := by exact_mod_cast hl
    linarith
  refine (add_le_add h1 h2).trans ?_
  norm_num

end WiredSet

end

/-! ## Integer mappings -/

section
variable {c : Cfg ℚ} {md : Mode} {V R : ℚ} {W : Nat → Nat → Int} {res vec : Vec Int} {m n i : Nat}

theorem absorb_double {a : ℚ} (h : 0 ≤ a) : absorb a ≤ 2 * a ∧ absorb a ≤ a + 1 / 2 := by
  unfold absorb
  split <;> constructor <;> linarith

theorem testLoss_nonneg (hV : V < 0) (hR : 0 < R) : 0 ≤ testLoss V R n := by
  unfold testLoss
  have : 0 < -V * 1000000 := by linarith
  positivity

namespace WiredSet
variable (D : WiredSet md V R c)
include D

theorem factors (hf : md.family = .int) : (conversions c W vec n i).map (fun k => |k.2|) = shippedFactors md :=
  D.base.factors hf

theorem bits (hf : md.family = .int) : c.wBit = 8 ∧ c.iBit = 8 ∧ c.split = [1, 3, 4] := D.base.int hf

theorem resistiveInt (hf : md.family = .int) (hV : V < 0) (hR : 0 < R) : ResistiveInt c where
  analog := D.base.digital
  int := by rw [D.mode]; cases md <;> first | rfl | cases hf
  par := D.par
  c2c := D.base.c2c
  rd := D.base.rd
  prof := D.base.prof
  hrs := by rw [D.hrs]; norm_num
  lt := by rw [D.hrs, D.lrs]; norm_num
  read := by rw [D.vRead]; exact hV
  wire := by rw [D.wRes]; exact hR
  split := by rw [(D.bits hf).2.2]; decide
  width := by rw [(D.bits hf).1]; decide

theorem level (hV : V < 0) (hR : 0 < R) (s : ℚ) :
    0 ≤ wireLevel c (shippedRange md).1 (shippedRange md).2 n s ∧
    wireLevel c (shippedRange md).1 (shippedRange md).2 n s ≤ |s| * (testLoss V R n + 1 / 1000) := by
  have h0 : 0 ≤ testLoss V R n := testLoss_nonneg hV hR
  have h1 := D.step
  have h2 := D.step_nonneg
  unfold wireLevel
  rw [D.lrs, D.loss]
  exact ⟨mul_nonneg (abs_nonneg s) (by linarith), mul_le_mul_of_nonneg_left (by linarith) (abs_nonneg s)⟩

theorem stepInt (hf : md.family = .int) (hV : V < 0) (hR : 0 < R) (s : ℚ) :
    0 ≤ wireStep c (shippedRange md).1 (shippedRange md).2 n s ∧
    wireStep c (shippedRange md).1 (shippedRange md).2 n s ≤
      if md = .iUintWOffs then |s| * (testLoss V R n + 1 / 1000) + 1 / 2 else 2 * (|s| * (testLoss V R n + 1 / 1000)) := by
  have hr := shippedAdc_real md
  obtain ⟨h1, h2⟩ := D.level (n := n) hV hR s
  have ha : c.adcType = shippedAdc md := D.base.adc
  have h3 := absorb_double h1
  have h4 : 0 ≤ absorb (wireLevel c (shippedRange md).1 (shippedRange md).2 n s) := by
    unfold absorb
    split
    · exact le_refl _
    · linarith
  unfold wireStep
  rw [D.mode]
  cases hm : c.adcType
  · rw [hm] at ha
    exact absurd ha.symm hr
  all_goals
    by_cases hu : md = .iUintWOffs
    · subst hu
      rw [if_pos rfl]
      constructor
      · show 0 ≤ wireLevel c (shippedRange .iUintWOffs).1 (shippedRange .iUintWOffs).2 n s + 1 / 2
        linarith
      · show wireLevel c (shippedRange .iUintWOffs).1 (shippedRange .iUintWOffs).2 n s + 1 / 2 ≤ _
        linarith
    · rw [if_neg hu]
      cases md <;> first | exact ⟨h4, by linarith⟩ | exact absurd rfl hu

theorem sum_le (hf : md.family = .int) {f : ℚ × ℚ → ℚ} {g : ℚ → ℚ} (hg : ∀ k ∈ conversions c W vec n i, f k ≤ g |k.2|) :
    ((conversions c W vec n i).map f).sum ≤ ((shippedFactors md).map g).sum := by
  rw [← D.factors hf (W := W) (vec := vec) (n := n) (i := i), List.map_map]
  exact List.sum_le_sum hg

theorem rowInt (hf : md.family = .int) (hV : V < 0) (hR : 0 < R) :
    wireRow c (shippedRange md).1 (shippedRange md).2 W vec n i ≤ lossError md V R n := by
  have k := D.sum_le hf (W := W) (vec := vec) (n := n) (i := i)
    (f := fun k => wireStep c (shippedRange md).1 (shippedRange md).2 n k.2)
    (g := fun s => if md = .iUintWOffs then s * (testLoss V R n + 1 / 1000) + 1 / 2 else 2 * (s * (testLoss V R n + 1 / 1000)))
    fun k _ => (D.stepInt (n := n) hf hV hR k.2).2
  have k0 : 0 ≤ ((conversions c W vec n i).map fun k => wireStep c (shippedRange md).1 (shippedRange md).2 n k.2).sum :=
    List.sum_nonneg fun y hy => by
      obtain ⟨p, _, rfl⟩ := List.mem_map.1 hy
      exact (D.stepInt hf hV hR p.2).1
  unfold wireRow
  rw [D.mode]
  generalize ((conversions c W vec n i).map fun k => wireStep c (shippedRange md).1 (shippedRange md).2 n k.2).sum = S at k k0 ⊢
  unfold lossError
  generalize testLoss V R n + 1 / 1000 = e at k ⊢
  by_cases hm : md = .iUintWOffs
  · subst hm
    simp only [if_true] at k ⊢
    refine (absorb_double k0).2.trans ?_
    have : ((shippedFactors .iUintWOffs).map fun s => s * e + 1 / 2).sum = 2601 * e + 12 := by
      simp [shippedFactors, shippedBits, List.range_succ]
      ring
    rw [this] at k
    show S + 1 / 2 ≤ 2601 * e + 25 / 2
    linarith
  · rw [if_neg hm, if_neg hm]
    simp only [if_neg hm] at k
    refine k.trans (le_of_eq ?_)
    cases md <;> first | exact absurd rfl hm | cases hf | skip
    all_goals
      simp [shippedFactors, shippedBits, List.range_succ, lossUnits]
      ring

theorem room (hf : md.family = .int) (hV : V < 0) (hR : 0 < R) (hn : n ≤ c.N) (hW : LegalMat c W m n)
    (hx : LegalVec c vec n) (hr : ∀ i, i < m → |res.get i| ≤ 2 ^ 20) (hl : testLoss V R n ≤ 1000) (l : String) :
    WireRoom c l (shippedRange md).1 (shippedRange md).2 W res vec m n := by
  obtain ⟨b1, b2, b3⟩ := D.bits hf
  have hn' : n ≤ 32 := by rw [D.N] at hn; exact hn
  have h45 : md ≠ .tnn4 ∧ md ≠ .tnn5 := ⟨(by rintro rfl; cases hf), (by rintro rfl; cases hf)⟩
  have hin : ∀ i, i < m → ∀ k ∈ conversions c W vec n i, (shippedRange md).1 ≤ k.1 ∧ k.1 ≤ (shippedRange md).2 :=
    fun i hi => D.inRange h45 hn hW hx hi
  have h0 := testLoss_nonneg (n := n) hV hR
  refine ⟨fun _ => ?_, fun _ => ⟨D.adcOk l, ?_, ?_, hin⟩, fun i hi => ?_, fun i hi => ?_⟩
  · rw [b2]
    have : (n : Int) ≤ 32 := by exact_mod_cast hn'
    omega
  · rw [show c.resolution = 20 from D.base.res]
    decide
  · rw [D.N]
    decide
  · have k := D.sum_le hf (W := W) (vec := vec) (n := n) (i := i)
      (f := fun k => |k.1 * k.2| + wireStep c (shippedRange md).1 (shippedRange md).2 n k.2)
      (g := fun s => if md = .iUintWOffs then 960 * s + (s * 1001 + 1 / 2) else 960 * s + 2 * (s * (1000 + 1 / 1000)))
      fun k hk => by
        have h1 := hin i hi k hk
        have h2 : |k.1| ≤ 960 := by
          rw [abs_le]
          unfold shippedRange at h1
          split at h1 <;> constructor <;> linarith [h1.1, h1.2]
        have h3 := (D.stepInt (n := n) hf hV hR k.2).2
        have h4 := mul_le_mul_of_nonneg_right h2 (abs_nonneg k.2)
        have h5 := mul_le_mul_of_nonneg_left hl (abs_nonneg k.2)
        have h6 := abs_nonneg k.2
        rw [abs_mul]
        split at h3 <;> rename_i hm
        · rw [if_pos hm]
          linarith
        · rw [if_neg hm]
          linarith
    have h1 : |(res.get i : ℚ)| ≤ 2 ^ 20 := by
      have : ((|res.get i| : Int) : ℚ) ≤ ((2 ^ 20 : Int) : ℚ) := Int.cast_le.2 (hr i hi)
      push_cast at this
      exact this
    refine (add_le_add h1 k).trans ?_
    cases md <;> first | cases hf | skip
    all_goals
      simp [shippedFactors, shippedBits, List.range_succ]
      norm_num
  · have k := D.rowInt (W := W) (vec := vec) (n := n) (i := i) hf hV hR
    have h1 : |res.get i| + peak c n ≤ 2 ^ 20 + 32 * 2 ^ 17 := by
      have hp : peak c n ≤ n * 2 ^ 17 := by
        unfold peak
        rw [b1, b2, D.mode]
        cases md <;> first | (dsimp only; omega) | cases hf
      have : (n : Int) ≤ 32 := by exact_mod_cast hn'
      have := hr i hi
      omega
    have h2 : ((|res.get i| + peak c n : Int) : ℚ) ≤ ((2 ^ 20 + 32 * 2 ^ 17 : Int) : ℚ) := Int.cast_le.2 h1
    have h3 : lossError md V R n ≤ 20000000 := by
      unfold lossError lossUnits
      split <;> split <;> linarith
    refine (add_le_add h2 (k.trans h3)).trans ?_
    norm_num

end WiredSet

end

end Acs
