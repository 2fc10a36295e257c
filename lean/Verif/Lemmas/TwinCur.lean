import Verif.Lemmas.TwinMvm

/-! # Currents of equal rows -/

set_option linter.unusedSectionVars false

namespace Acs

/-- Columns of the solver that belong to the rows `i` and `i'`. -/
def colP (md : Mode) (i i' c d : Nat) : Prop :=
  match md.wEnc with
  | some .doubleCol => c / 2 = i ∧ d / 2 = i' ∧ c % 2 = d % 2
  | some .quad => c / 2 = i ∧ d / 2 = i' ∧ c % 2 = d % 2
  | _ => c = i ∧ d = i'

/-- Outputs of the solver that belong to the rows `i` and `i'`. -/
def outP (md : Mode) (i i' c d : Nat) : Prop := if md.oEncDouble then c = i ∧ d = i' else colP md i i' c d

theorem colP_double {md : Mode} {i i' c d : Nat} (h : md.oEncDouble = true) (hc : outP md i i' c d) :
    colP md i i' (2 * c) (2 * d) ∧ colP md i i' (2 * c + 1) (2 * d + 1) := by
  unfold outP at hc
  rw [if_pos h] at hc
  obtain ⟨rfl, rfl⟩ := hc
  cases md <;> first
    | exact absurd h (by decide)
    | exact ⟨⟨show 2 * c / 2 = c by omega, show 2 * d / 2 = d by omega, show 2 * c % 2 = 2 * d % 2 by omega⟩,
        show (2 * c + 1) / 2 = c by omega, show (2 * d + 1) / 2 = d by omega, show (2 * c + 1) % 2 = (2 * d + 1) % 2 by omega⟩

theorem outP_rows {md : Mode} (h : md ≠ .tnn4) (h' : md ≠ .tnn5) (i i' : Nat) : outP md i i' = atRows i i' := by
  cases md <;> first
    | exact absurd rfl h
    | exact absurd rfl h'
    | rfl

section
variable {K : Type} [Field K] [LinearOrder K] [IsStrictOrderedRing K] [FloorRing K]
variable {E : Env K} {cfg : Cfg K} {k : Core K} {res vec : Vec Int} {m n i i' : Nat}
variable {l : String} {ia : Ia K} {P : Nat → Nat → Prop}

/-- Currents of the cells. -/
structure IaTw (P : Nat → Nat → Prop) (ia : Ia K) : Prop where
  p : TwM P ia.p
  m : TwM P ia.m
  pO : TwM P ia.pO
  mO : TwM P ia.mO

/-- The solver. -/
def SolTw (md : Mode) (i i' : Nat) (o : Option (Solver K)) : Prop :=
  ∀ s, o = some s → s.mode = md ∧ (i < s.mXbar ↔ i' < s.mXbar) ∧
    ∀ g w, s.ga = some (g, w) → ∀ c d, colP md i i' c d → ∀ j, g.get j c = g.get j d

/-- The solver of the integer mappings, which knows the first `M` rows of cells. -/
def SolTwI (cfg : Cfg K) (i i' : Nat) (o : Option (Solver K)) : Prop :=
  (∀ s, o = some s → s.mXbar = cfg.M) ∧
    ∀ c d, ofRows cfg i i' c d → c < cfg.M → d < cfg.M → SolTw cfg.mode c d o

/-- The solver. -/
def ParTw (cfg : Cfg K) (i i' : Nat) (o : Option (Solver K)) : Prop :=
  if cfg.mode.isInt then SolTwI cfg i i' o else SolTw cfg.mode i i' o

theorem ParTw.int (hi : cfg.mode.isInt = true) {o : Option (Solver K)} (h : ParTw cfg i i' o) : SolTwI cfg i i' o := by
  unfold ParTw at h
  rwa [if_pos hi] at h

theorem ParTw.non (hi : cfg.mode.isInt = false) {o : Option (Solver K)} (h : ParTw cfg i i' o) : SolTw cfg.mode i i' o := by
  unfold ParTw at h
  rwa [if_neg (by rw [hi]; decide)] at h

section
variable {v u : Vec Int} {a b j : Nat}

theorem iaTerm_tw {A : Mat K} (h : TwM P A) (hab : P a b) : Same' (iaTerm E A v a j) (iaTerm E A v b j) :=
  Same'.bind (h.rd hab) fun _ => Same'.refl _

variable (h : IaTw P ia) (hab : P a b)
include h hab

theorem iaDiffTerm_tw : Same' (iaDiffTerm E ia v a j) (iaDiffTerm E ia v b j) :=
  Same'.bind (h.p.rd hab) fun _ => Same'.bind (h.m.rd hab) fun _ => Same'.refl _
theorem iaDiffTermNeg_tw : Same' (iaDiffTermNeg E ia v a j) (iaDiffTermNeg E ia v b j) :=
  Same'.bind (h.m.rd hab) fun _ => Same'.bind (h.p.rd hab) fun _ => Same'.refl _
theorem iaBnn5Term_tw : Same' (iaBnn5Term E ia v u a j) (iaBnn5Term E ia v u b j) :=
  Same'.bind (h.p.rd hab) fun _ => Same'.bind (Same'.refl _) fun _ => Same'.bind (h.m.rd hab) fun _ => Same'.refl _
theorem iaQuadTerm_tw : Same' (iaQuadTerm E ia v u a j) (iaQuadTerm E ia v u b j) :=
  Same'.bind (h.p.rd hab) fun _ => Same'.bind (h.m.rd hab) fun _ => Same'.refl _

end

theorem tw_computeCurrents {md : Mode} {s : Solver K} {v : Vec Int} {u : Option (Vec Int)} (h : SolTw md i i' (some s))
    (hm : ∀ a b, outP md i i' a b → (a < m ↔ b < m)) :
    Ok' (computeCurrents E s v u m n) (Tw (outP md i i')) := by
  obtain ⟨hmd, -, hga⟩ := h s rfl
  unfold computeCurrents
  refine Sat.bind Ok'.any fun vd _ => ?_
  cases hs : s.ga with
  | none => trivial
  | some q =>
    obtain ⟨g, w⟩ := q
    dsimp only
    have hg := hga g w hs
    refine Sat.bind (P := fun v => v.size = g.cols ∧ Tw (colP md i i') v) (Sat.loop ⟨rfl, Tw.const _ _⟩ fun j _ acc hacc => ?_)
      fun acc hacc => ?_
    · refine Sat.bind Ok'.any fun x _ => ?_
      refine Sat.mono (tw_updG hacc.2 (fun a b _ ha hb => ?_) fun a b y hab _ _ => ?_) fun r hr => ⟨hr.1.trans hacc.1, hr.2⟩
      · rw [hacc.1] at ha hb
        exact ⟨fun _ => hb, fun _ => ha⟩
      · refine Same'.bind ?_ fun _ => Same'.refl _
        split
        · refine Same'.of fun r t hr ht => ?_
          rw [Mat.rd_eq_ok] at hr ht
          rw [← hr.2, ← ht.2, hg a b hab j]
        · exact Same'.refl _
    · unfold oEnc
      refine Sat.mono (tw_setG (Tw.const _ _) (fun a b hab _ _ => hm a b hab) fun a b hab _ _ => ?_) fun r hr => hr.2
      rw [hmd]
      split
      · next ho =>
        have := colP_double ho hab
        exact Same'.bind (hacc.2.rd this.1) fun _ => Same'.bind (hacc.2.rd this.2) fun _ => Same'.refl _
      · next ho =>
        unfold outP at hab
        rw [if_neg ho] at hab
        exact Same'.bind (hacc.2.rd hab) fun _ => Same'.refl _

theorem tw_convVec {hs : List (String × Hist K)} {t : Vec K} {sc off : K} {A : Adc} (ht : Tw P t)
    (hm : ∀ a b, P a b → (a < m ↔ b < m)) :
    Ok' (convVec E cfg A hs t m sc off l) fun r => Tw P r.2 := by
  unfold convVec
  refine Sat.ite (fun _ => trivial) fun _ => ?_
  exact Sat.bind Ok'.any fun _ _ => Sat.bind (tw_updG ht (fun a b h _ _ => hm a b h) fun _ _ _ _ _ _ => Same'.refl _) fun _ h => h.2

/-- Entries `i` and `i'` in front of `m`. -/
def inRows (m i i' a b : Nat) : Prop := atRows i i' a b ∧ a < m ∧ b < m

theorem inRows_iff (m i i' : Nat) (a b : Nat) (h : inRows m i i' a b) : a < m ↔ b < m := ⟨fun _ => h.2.2, fun _ => h.2.1⟩

theorem Tw.inRows {α : Type} {v : Vec α} (h : Tw (atRows i i') v) : Tw (inRows m i i') v := fun a b hab ha hb => h a b hab.1 ha hb

section
variable (hm : i < m ↔ i' < m) (hr : Tw (atRows i i') res)
include hm hr

theorem tw_addTmp {t : Vec K} (h : Tw (inRows m i i') t) : Ok' (addTmp E t m res) (Tw (atRows i i')) :=
  Sat.mono (tw_updG hr (fun _ _ h _ _ => atRows_iff hm h) fun _ _ _ hab ha hb =>
    Same'.bind (h.rd ⟨hab, ha, hb⟩) fun _ => Same'.refl _) fun _ h => h.2

theorem tw_subTmp {t : Vec K} (h : Tw (inRows m i i') t) : Ok' (subTmp E t m res) (Tw (atRows i i')) :=
  Sat.mono (tw_updG hr (fun _ _ h _ _ => atRows_iff hm h) fun _ _ _ hab ha hb =>
    Same'.bind (h.rd ⟨hab, ha, hb⟩) fun _ => Same'.refl _) fun _ h => h.2

end

theorem tw_faddVec {t f : Vec K} (h : Tw (inRows m i i') t) (hf : Tw (inRows m i i') f) :
    Ok' (faddVec E t m f) (Tw (inRows m i i')) :=
  Sat.mono (tw_updG hf (fun a b h _ _ => inRows_iff m i i' a b h) fun _ _ _ hab _ _ =>
    Same'.bind (h.rd hab) fun _ => Same'.refl _) fun _ h => h.2

theorem tw_fsubVec {t f : Vec K} (h : Tw (inRows m i i') t) (hf : Tw (inRows m i i') f) :
    Ok' (fsubVec E t m f) (Tw (inRows m i i')) :=
  Sat.mono (tw_updG hf (fun a b h _ _ => inRows_iff m i i' a b h) fun _ _ _ hab _ _ =>
    Same'.bind (h.rd hab) fun _ => Same'.refl _) fun _ h => h.2

theorem tw_colCurrents (h1 : cfg.mode ≠ .tnn4) (h2 : cfg.mode ≠ .tnn5) (hs : SolTw cfg.mode i i' k.par)
    (hm : i < m ↔ i' < m) {f : Nat → Nat → C K} {v : Vec Int} {u : Option (Vec Int)} {t : Vec K}
    (hf : ∀ a b j, atRows i i' a b → Same' (f a j) (f b j)) :
    Ok' (colCurrents E cfg k f v u (t.fill 0) m n) (Tw (atRows i i')) := by
  unfold colCurrents
  refine Sat.ite (fun _ => ?_) fun _ => Sat.mono (tw_accG (Tw.fill _ _) (fun _ _ h _ _ => atRows_iff hm h)
    fun a b j hab _ => hf a b j hab) fun _ h => h.2
  cases hp : k.par with
  | none => trivial
  | some s =>
    rw [hp] at hs
    have e := outP_rows h1 h2 i i'
    have := tw_computeCurrents (E := E) (v := v) (u := u) (m := m) (n := n) hs (by rw [e]; exact fun a b h => atRows_iff hm h)
    rwa [e] at this

theorem computeCurrents_size {s : Solver K} {v : Vec Int} {u : Option (Vec Int)} {r : Vec K}
    (h : computeCurrents E s v u m n = .ok r) : r.size = s.mXbar := by
  have : Ok' (computeCurrents E s v u m n) fun r => r.size = s.mXbar := by
    unfold computeCurrents
    refine Sat.bind Ok'.any fun vd _ => ?_
    cases hs : s.ga with
    | none => trivial
    | some q =>
      refine Sat.bind Ok'.any fun acc _ => ?_
      unfold oEnc
      exact Sat.mono (tw_setG (P := fun _ _ => False) (fun _ _ h => h.elim) (fun _ _ h => h.elim) fun _ _ h => h.elim)
        fun r hr => hr.1
  exact this.of_ok h

theorem tw_intCurrents (hp : SolTwI cfg i i' k.par) (hi : cfg.mode.isInt = true) (hm : i < m ↔ i' < m)
    {f : Nat → Nat → C K} {v : Vec Int} {t : Vec K} (hf : ∀ a b j, ofRows cfg i i' a b → Same' (f a j) (f b j))
    (ht : Tw (ofRows cfg i i') t) : Ok' (intCurrents E cfg k f v t m n) (Tw (ofRows cfg i i')) := by
  unfold intCurrents
  refine Sat.ite (fun _ => ?_) fun _ => ?_
  · cases hs : k.par with
    | none => trivial
    | some s =>
      refine Sat.intro_ok fun r hr a b hab ha hb => ?_
      have e := computeCurrents_size hr
      rw [e, hp.1 s hs] at ha hb
      have h := hp.2 a b hab ha hb
      rw [hs] at h
      have e' := outP_rows (md := cfg.mode) (fun h => by rw [h] at hi; cases hi) (fun h => by rw [h] at hi; cases hi) a b
      have := (tw_computeCurrents h (by
        rw [e']
        exact fun c d h => atRows_iff (ofRows_blk hi hm hab) h)).of_ok hr
      rw [e'] at this
      rw [← hp.1 s hs, ← e] at ha hb
      exact this a b ⟨rfl, rfl⟩ ha hb
  exact Sat.mono (tw_accG ht (fun _ _ h _ _ => ofRows_blk hi hm h) fun a b j hab _ => hf a b j hab) fun _ h => h.2

theorem intConv_tw {t : Vec K} {sg : K} {bit s a b : Nat} (hi : cfg.mode.isInt = true) (h : Tw (ofRows cfg i i') t)
    (hab : atRows i i' a b) (hs : s < cfg.S) : Same' (intConv E cfg k t sg bit l a s) (intConv E cfg k t sg bit l b s) := by
  obtain ⟨rfl, rfl⟩ := hab
  exact Same'.bind (h.rd (ofRows_slice hi hs)) fun _ => Same'.refl _

end

end Acs
