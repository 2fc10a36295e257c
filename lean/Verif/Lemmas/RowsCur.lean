import Verif.Lemmas.RowsMvm

/-! # Currents and conversions row by row -/

set_option linter.unusedSectionVars false

namespace Acs

/-- The row of cells behind an output of the solver. -/
def outRow (md : Mode) (x : Nat) : Nat := if md.oEncDouble then x else colRow md x

theorem colRow_double {md : Mode} {x : Nat} (h : md.oEncDouble = true) : colRow md (2 * x) = x ∧ colRow md (2 * x + 1) = x := by
  cases md <;> first
    | exact absurd h (by decide)
    | exact ⟨show 2 * x / 2 = x by omega, show (2 * x + 1) / 2 = x by omega⟩

theorem outRow_id {md : Mode} {x : Nat} (h : md ≠ .tnn4) (h' : md ≠ .tnn5) : outRow md x = x := by
  cases md <;> first
    | exact absurd rfl h
    | exact absurd rfl h'
    | rfl

section
variable {K : Type} [Field K] [LinearOrder K] [IsStrictOrderedRing K] [FloorRing K]
variable {E : Env K} {cfg : Cfg K} {k : Core K} {a b : Aux K} {res res' vec : Vec Int} {m n i : Nat}
variable {l : String} {g : Gd} {ia ia' : Ia K} {p : Option (Solver K)} {P : Nat → Prop}

section
variable {v v' u u' : Vec Int} {t j : Nat}

theorem iaTerm_row {A A' : Mat K} (h : RowEq P A A') (ht : P t) (hv : v.rd j = v'.rd j) :
    iaTerm E A v t j = iaTerm E A' v' t j := by
  unfold iaTerm; rw [h.rd ht, hv]

variable (h : IaRow P ia ia') (ht : P t)
include h ht

theorem iaDiffTerm_row (hv : v.rd j = v'.rd j) : iaDiffTerm E ia v t j = iaDiffTerm E ia' v' t j := by
  unfold iaDiffTerm; rw [h.p.rd ht, h.m.rd ht, hv]
theorem iaDiffTermNeg_row (hv : v.rd j = v'.rd j) : iaDiffTermNeg E ia v t j = iaDiffTermNeg E ia' v' t j := by
  unfold iaDiffTermNeg; rw [h.p.rd ht, h.m.rd ht, hv]
theorem iaBnn5Term_row (hv : v.rd j = v'.rd j) (hu : u.rd j = u'.rd j) :
    iaBnn5Term E ia v u t j = iaBnn5Term E ia' v' u' t j := by
  unfold iaBnn5Term; rw [h.p.rd ht, h.m.rd ht, hv, hu]
theorem iaQuadTerm_row (hv : v.rd j = v'.rd j) (hu : u.rd j = u'.rd j) :
    iaQuadTerm E ia v u t j = iaQuadTerm E ia' v' u' t j := by
  unfold iaQuadTerm; rw [h.p.rd ht, h.m.rd ht, hv, hu]

end

theorem row_computeCurrents {md : Mode} {s s' : Solver K} {v v' : Vec Int} {u u' : Option (Vec Int)}
    (h : SolRow P md (some s) (some s')) (hv : Agree n v v') (hu : AgreeO n u u') :
    Rel true (On fun x => P (outRow md x)) (computeCurrents E s v u m n) (computeCurrents E s' v' u' m n) := by
  rw [computeCurrents_congr hv hu]
  obtain ⟨hm, ⟨ga', rfl⟩, hga⟩ := h
  obtain ⟨mX, nX, wR, vR, sm, ga⟩ := s
  have hm : sm = md := hm
  subst hm
  unfold computeCurrents
  refine Rel.bindEq rfl fun vd => ?_
  dsimp only at hga ⊢
  cases ga with
  | none => exact Rel.apart fun _ _ he _ => by cases he
  | some q =>
    cases ga' with
    | none => exact Rel.apart fun _ _ _ he => by cases he
    | some q' =>
      obtain ⟨A, w⟩ := q
      obtain ⟨A', w'⟩ := q'
      obtain ⟨rfl, hrows, hcols, hget⟩ := hga
      dsimp only
      refine Rel.bind (P := On fun c => P (colRow sm c)) ?_ fun acc acc' hacc => ?_
      · rw [← hcols]
        refine Rel.loop' (On.refl _) fun j s t _ hst => ?_
        refine Rel.bindEq rfl fun x => rel_updG_on hst fun c y _ hc => ?_
        have : A.rd j c = A'.rd j c := by
          unfold Mat.rd
          rw [← hrows, ← hcols, hget c hc]
        rw [this]
      · unfold oEnc
        refine rel_setG_on' (On.refl _) fun x _ hx => ?_
        dsimp only
        unfold outRow at hx
        split
        · next ho =>
          rw [if_pos ho] at hx
          rw [hacc.rd (show P (colRow sm (2 * x)) by rw [(colRow_double ho).1]; exact hx),
            hacc.rd (show P (colRow sm (2 * x + 1)) by rw [(colRow_double ho).2]; exact hx)]
        · next ho =>
          rw [if_neg ho] at hx
          rw [hacc.rd hx]

theorem row_convVec {hs hs' : List (String × Hist K)} {t t' : Vec K} {c : Nat} {sc off : K} {A : Adc} (ht : On P t t') :
    Rel true (fun r r' => On P r.2 r'.2) (convVec E cfg A hs t c sc off l) (convVec E cfg A hs' t' c sc off l) := by
  unfold convVec
  rw [ht.size]
  refine Rel.ite (fun _ => Rel.err) fun _ => ?_
  exact Rel.bind (P := fun _ _ => True) Rel.any fun _ _ _ => Rel.bind (rel_updG_on ht fun _ _ _ _ => rfl) fun _ _ h => Rel.ok h

theorem row_addTmp {t t' : Vec K} (h : On (fun x => x < m ∧ P x) t t') (hr : On P res res') :
    Rel true (On P) (addTmp E t m res) (addTmp E t' m res') :=
  rel_updG_on hr fun x _ hm hx => by rw [h.rd ⟨hm, hx⟩]

theorem row_subTmp {t t' : Vec K} (h : On (fun x => x < m ∧ P x) t t') (hr : On P res res') :
    Rel true (On P) (subTmp E t m res) (subTmp E t' m res') :=
  rel_updG_on hr fun x _ hm hx => by rw [h.rd ⟨hm, hx⟩]

theorem row_faddVec {t t' f f' : Vec K} (h : On P t t') (hf : On P f f') : Rel true (On P) (faddVec E t m f) (faddVec E t' m f') :=
  rel_updG_on hf fun x _ _ hx => by rw [h.rd hx]

theorem row_fsubVec {t t' f f' : Vec K} (h : On P t t') (hf : On P f f') : Rel true (On P) (fsubVec E t m f) (fsubVec E t' m f') :=
  rel_updG_on hf fun x _ _ hx => by rw [h.rd hx]

section
variable (hk : PutRow cfg i k g ia p)
include hk

/-- The solver of both cores. -/
theorem PutRow.sol (hm : cfg.mode ≠ .tnn4 ∧ cfg.mode ≠ .tnn5) {v v' : Vec Int} {u u' : Option (Vec Int)} {s s' : Solver K}
    {c : Nat} (h1 : k.par = some s) (h2 : p = some s') (hv : Agree n v v') (hu : AgreeO n u u') :
    Rel true (On (inRow cfg i)) (computeCurrents E s v u c n) (computeCurrents E s' v' u' c n) := by
  have := hk.par
  rw [h1, h2] at this
  exact (row_computeCurrents this hv hu).mono fun _ _ h => h.mono fun x hx => by rw [outRow_id hm.1 hm.2]; exact hx

theorem row_colCurrents (hm : cfg.mode ≠ .tnn4 ∧ cfg.mode ≠ .tnn5) {f f' : Nat → Nat → C K} {v v' : Vec Int}
    {u u' : Option (Vec Int)} {t t' : Vec K} (hf : ∀ x j, j < n → inRow cfg i x → f x j = f' x j) (hv : Agree n v v')
    (hu : AgreeO n u u') (ht : t.size = t'.size) :
    Rel true (On (inRow cfg i)) (colCurrents E cfg k f v u (t.fill 0) m n)
      (colCurrents E cfg (k.put g ia p) f' v' u' (t'.fill 0) m n) := by
  unfold colCurrents
  refine Rel.ite (fun _ => ?_) fun _ => rel_accG_on (On.fill ht 0) fun x j _ hj hx => hf x j hj hx
  show Rel true _ _ (match p with | none => _ | some s => _)
  cases h1 : k.par with
  | none => exact Rel.apart fun _ _ he _ => by cases he
  | some s =>
    cases h2 : p with
    | none => exact Rel.apart fun _ _ _ he => by cases he
    | some s' => exact hk.sol hm h1 h2 hv hu

theorem row_intCurrents (hm : cfg.mode ≠ .tnn4 ∧ cfg.mode ≠ .tnn5) {f f' : Nat → Nat → C K} {v v' : Vec Int} {t t' : Vec K}
    (hf : ∀ x j, j < n → inRow cfg i x → f x j = f' x j) (hv : Agree n v v')
    (ht : cfg.parasitics = false → On (inRow cfg i) t t') :
    Rel true (On (inRow cfg i)) (intCurrents E cfg k f v t m n) (intCurrents E cfg (k.put g ia p) f' v' t' m n) := by
  unfold intCurrents
  refine Rel.ite (fun _ => ?_) fun hp => rel_accG_on (ht (by simpa using hp)) fun x j _ hj hx => hf x j hj hx
  show Rel true _ _ (match p with | none => _ | some s => _)
  cases h1 : k.par with
  | none => exact Rel.apart fun _ _ he _ => by cases he
  | some s =>
    cases h2 : p with
    | none => exact Rel.apart fun _ _ _ he => by cases he
    | some s' => exact hk.sol hm h1 h2 hv trivial

end

theorem intConv_row {t t' : Vec K} {sg : K} {bit s : Nat} (hi : cfg.mode.isInt = true) (h : On (inRow cfg i) t t')
    (hs : s < cfg.S) : intConv E cfg k t sg bit l i s = intConv E cfg (k.put g ia p) t' sg bit l i s := by
  unfold intConv
  rw [h.rd ((inRow_int hi).2 (blk_div hs))]
  rfl

end

end Acs
