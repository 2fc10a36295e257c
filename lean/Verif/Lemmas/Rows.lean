import Verif.Lemmas.DetMvm
import Verif.Lemmas.HistMvm

/-! # Two runs that agree on one row of the weight matrix -/

set_option linter.unusedSectionVars false

namespace Acs

/-- Equal lengths, equal entries where `P` holds. -/
structure On {α : Type} (P : Nat → Prop) (v v' : Vec α) : Prop where
  size : v.size = v'.size
  get : ∀ i, P i → i < v.size → v.get i = v'.get i

/-- Equal shapes, equal rows where `P` holds. -/
structure RowEq {α : Type} (P : Nat → Prop) (A A' : Mat α) : Prop where
  rows : A.rows = A'.rows
  cols : A.cols = A'.cols
  get : ∀ r, P r → ∀ j, A.get r j = A'.get r j

section
variable {α β : Type} {P Q : Nat → Prop} {n : Nat}

/-- Results that agree under a condition. -/
theorem rel_cond {p : Prop} {x y : C α} (h : p → x = y) : Rel true (fun a b => p → a = b) x y := by
  cases x with
  | ok a =>
    cases y with
    | ok b => exact fun hp => Except.ok.inj (h hp)
    | error _ => exact rfl
  | error _ =>
    cases y with
    | ok _ => exact rfl
    | error _ => exact Or.inl rfl

theorem Rel.any {x : C α} {y : C β} : Rel true (fun _ _ => True) x y := by
  cases x <;> cases y <;> simp [Rel]

/-- Two results that are described separately. -/
theorem Rel.apart {R : α → β → Prop} {x : C α} {y : C β} (h : ∀ a b, x = .ok a → y = .ok b → R a b) : Rel true R x y := by
  cases x with
  | ok a =>
    cases y with
    | ok b => exact h a b rfl rfl
    | error _ => exact rfl
  | error _ =>
    cases y with
    | ok _ => exact rfl
    | error _ => exact Or.inl rfl

theorem On.refl (v : Vec α) : On P v v := ⟨rfl, fun _ _ _ => rfl⟩

theorem On.mono {v v' : Vec α} (h : On P v v') (hq : ∀ i, Q i → P i) : On Q v v' := ⟨h.size, fun i hi => h.get i (hq i hi)⟩

theorem On.rd {v v' : Vec α} {i : Nat} (h : On P v v') (hi : P i) : v.rd i = v'.rd i := by
  unfold Vec.rd
  rw [← h.size]
  split
  · next hs => rw [h.get i hi hs]
  · rfl

theorem On.wr {v v' : Vec α} {i : Nat} {x y : α} (h : On P v v') (hx : P i → x = y) :
    Rel true (On P) (v.wr i x) (v'.wr i y) := by
  unfold Vec.wr
  rw [← h.size]
  split
  · refine ⟨rfl, fun j hj hs => ?_⟩
    show (if j = i then x else v.get j) = if j = i then y else v'.get j
    split
    · next e => exact hx (e ▸ hj)
    · exact h.get j hj hs
  · exact Or.inl rfl

theorem On.updAt {v v' : Vec α} {i : Nat} {f g : α → C α} (h : On P v v') (hf : P i → ∀ a, f a = g a) :
    Rel true (On P) (updAt v i f) (updAt v' i g) := by
  unfold Acs.updAt
  refine Rel.bind (rel_cond h.rd) fun a a' ha => ?_
  refine Rel.bind (rel_cond fun hp => by rw [ha hp, hf hp]) fun x x' hx => h.wr hx

theorem rel_setG_on {f g : Nat → C α} {v v' : Vec α} (hs : v.size = v'.size) (h : ∀ i, i < n → P i → f i = g i) :
    Rel true (On fun i => i < n ∧ P i) (setG n f v) (setG n g v') := by
  unfold setG
  refine Rel.loop (fun k => On fun i => i < k ∧ P i) ⟨hs, fun i hi => absurd hi.1 (Nat.not_lt_zero i)⟩ fun i s t hi hst => ?_
  refine Rel.bind (rel_cond (h i hi)) fun a b hab => ?_
  unfold Vec.wr
  rw [← hst.size]
  split
  · refine ⟨rfl, fun j hj hs => ?_⟩
    show (if j = i then a else s.get j) = if j = i then b else t.get j
    split
    · next e => exact hab (e ▸ hj.2)
    · next e => exact hst.get j ⟨by omega, hj.2⟩ hs
  · exact Or.inl rfl

theorem rel_setG_on' {f g : Nat → C α} {v v' : Vec α} (hv : On P v v') (h : ∀ i, i < n → P i → f i = g i) :
    Rel true (On P) (setG n f v) (setG n g v') := by
  unfold setG
  exact Rel.loop' hv fun i s t hi hst => Rel.bind (rel_cond (h i hi)) fun a b hab => hst.wr hab

theorem rel_updG_on {f g : Nat → α → C α} {v v' : Vec α} (hv : On P v v') (h : ∀ i a, i < n → P i → f i a = g i a) :
    Rel true (On P) (updG n f v) (updG n g v') := by
  unfold updG
  exact Rel.loop' hv fun i s t hi hst => hst.updAt fun hp a => h i a hi hp

theorem rel_accRow_on {add : α → β → C α} {t N : Nat} {f g : Nat → C β} {v v' : Vec α} (hv : On P v v')
    (h : P t → ∀ j, j < N → f j = g j) : Rel true (On P) (accRow add t N f v) (accRow add t N g v') := by
  unfold accRow
  exact Rel.loop' hv fun j s s' hj hs => Rel.bind (rel_cond fun hp => h hp j hj) fun b b' hb =>
    hs.updAt fun hp a => by rw [hb hp]

theorem rel_accG_on {add : α → β → C α} {T N : Nat} {f g : Nat → Nat → C β} {v v' : Vec α} (hv : On P v v')
    (h : ∀ t j, t < T → j < N → P t → f t j = g t j) : Rel true (On P) (accG add T N f v) (accG add T N g v') := by
  unfold accG
  exact Rel.loop' hv fun t s s' ht hs => rel_accRow_on hs fun hp j hj => h t j ht hj hp

theorem RowEq.refl (A : Mat α) : RowEq P A A := ⟨rfl, rfl, fun _ _ _ => rfl⟩

theorem RowEq.rd {A A' : Mat α} {r j : Nat} (h : RowEq P A A') (hr : P r) : A.rd r j = A'.rd r j := by
  unfold Mat.rd
  rw [← h.rows, ← h.cols, h.get r hr]

theorem RowEq.wr {A A' : Mat α} {r j : Nat} {x y : α} (h : RowEq P A A') (hx : P r → x = y) :
    Rel true (RowEq P) (A.wr r j x) (A'.wr r j y) := by
  unfold Mat.wr
  rw [← h.rows, ← h.cols]
  split
  · refine ⟨rfl, rfl, fun k hk l => ?_⟩
    show (if k = r ∧ l = j then x else A.get k l) = if k = r ∧ l = j then y else A'.get k l
    split
    · next e => exact hx (e.1 ▸ hk)
    · exact h.get k hk l
  · exact Or.inl rfl

theorem RowEq.over {A A' : Mat α} {T N : Nat} {f g : Nat → Nat → α} (h : RowEq P A A')
    (hf : ∀ t j, P t → t < T → j < N → f t j = g t j) : RowEq P (A.over T N f) (A'.over T N g) := by
  refine ⟨h.rows, h.cols, fun r hr j => ?_⟩
  show (if r < T ∧ j < N then f r j else A.get r j) = if r < T ∧ j < N then g r j else A'.get r j
  split
  · next e => exact hf r j hr e.1 e.2
  · exact h.get r hr j

theorem On.over {v v' : Vec α} {T : Nat} {f g : Nat → α} (h : On P v v') (hf : ∀ t, P t → t < T → f t = g t) :
    On P (v.over T f) (v'.over T g) := by
  refine ⟨h.size, fun r hr hs => ?_⟩
  show (if r < T then f r else v.get r) = if r < T then g r else v'.get r
  split
  · next e => exact hf r hr e
  · exact h.get r hr hs

end

/-- The cell rows that hold row `i` of the weight matrix. -/
def inRow {K : Type} (cfg : Cfg K) (i r : Nat) : Prop := if cfg.mode.isInt then r / cfg.S = i else r = i

theorem inRow_non {K : Type} {cfg : Cfg K} {i : Nat} (h : cfg.mode.isInt = false) : inRow cfg i = (· = i) := by
  funext r
  unfold inRow
  simp [h]

theorem inRow_int {K : Type} {cfg : Cfg K} {i r : Nat} (h : cfg.mode.isInt = true) : inRow cfg i r ↔ r / cfg.S = i := by
  unfold inRow
  simp [h]

structure GdRow (P : Nat → Prop) (i : Nat) (g g' : Gd) : Prop where
  p : RowEq P g.p g'.p
  m : RowEq P g.m g'.m
  sumW : On (· = i) g.sumW g'.sumW

structure IaRow {K : Type} (P : Nat → Prop) (a a' : Ia K) : Prop where
  p : RowEq P a.p a'.p
  m : RowEq P a.m a'.m
  pO : RowEq P a.pO a'.pO
  mO : RowEq P a.mO a'.mO

/-- The row of cells behind a column of the solver. -/
def colRow (md : Mode) (c : Nat) : Nat :=
  match md.wEnc with
  | some .doubleCol => c / 2
  | some .quad => c / 2
  | _ => c

/-- Two solvers: same object up to the conductances of other rows. -/
def SolRow {K : Type} (P : Nat → Prop) (md : Mode) : Option (Solver K) → Option (Solver K) → Prop
  | some s, some s' => s.mode = md ∧ (∃ g, s' = { s with ga := g }) ∧
    match s.ga, s'.ga with
    | some (g, w), some (g', w') => w = w' ∧ g.rows = g'.rows ∧ g.cols = g'.cols ∧ ∀ c, P (colRow md c) → ∀ j, g.get j c = g'.get j c
    | _, _ => True
  | _, _ => True

/-- The core with other cells. -/
def Core.put {K : Type} (k : Core K) (g : Gd) (a : Ia K) (p : Option (Solver K)) : Core K := { k with gd := g, ia := a, par := p }

structure PutRow {K : Type} (cfg : Cfg K) (i : Nat) (k : Core K) (g : Gd) (a : Ia K) (p : Option (Solver K)) : Prop where
  gd : GdRow (inRow cfg i) i k.gd g
  ia : IaRow (inRow cfg i) k.ia a
  par : SolRow (inRow cfg i) cfg.mode k.par p

abbrev ResRow {K : Type} (i : Nat) (r r' : Aux K × Vec Int) : Prop := On (· = i) r.2 r'.2

section
variable {P : Nat → Prop} {i t j : Nat} {g g' : Gd} {v v' u u' : Vec Int}

theorem On.fill {α : Type} {w w' : Vec α} (h : w.size = w'.size) (a : α) : On P (w.fill a) (w'.fill a) :=
  ⟨h, fun i _ hi => by
    have hi : i < w.size := hi
    show (if i < w.size then a else w.get i) = if i < w'.size then a else w'.get i
    rw [if_pos hi, if_pos (h ▸ hi)]⟩

section
variable (h : GdRow P i g g') (ht : P t)
include h ht

theorem diffTerm_row (hv : v.rd j = v'.rd j) : diffTerm g v t j = diffTerm g' v' t j := by
  unfold diffTerm; rw [h.p.rd ht, h.m.rd ht, hv]
theorem diffTermNeg_row (hv : v.rd j = v'.rd j) : diffTermNeg g v t j = diffTermNeg g' v' t j := by
  unfold diffTermNeg; rw [h.p.rd ht, h.m.rd ht, hv]
theorem posTerm_row (hv : v.rd j = v'.rd j) : posTerm g v t j = posTerm g' v' t j := by
  unfold posTerm; rw [h.p.rd ht, hv]
theorem diffTerm2_row {s : Bool} (hv : v.rd j = v'.rd j) : diffTerm2 s g v t j = diffTerm2 s g' v' t j := by
  unfold diffTerm2; rw [diffTerm_row h ht hv]
theorem bnn34Term_row (hv : v.rd j = v'.rd j) (hu : u.rd j = u'.rd j) : bnn34Term g v u t j = bnn34Term g' v' u' t j := by
  unfold bnn34Term; rw [h.p.rd ht, hv, hu]
theorem bnn5Term_row {s : Bool} (hv : v.rd j = v'.rd j) (hu : u.rd j = u'.rd j) :
    bnn5Term s g v u t j = bnn5Term s g' v' u' t j := by
  unfold bnn5Term; rw [h.p.rd ht, h.m.rd ht, hv, hu]
theorem quadTerm_row (hv : v.rd j = v'.rd j) (hu : u.rd j = u'.rd j) : quadTerm g v u t j = quadTerm g' v' u' t j := by
  unfold quadTerm; rw [h.p.rd ht, h.m.rd ht, hv, hu]
theorem tcTerms_row {s : Bool} (hv : v.rd j = v'.rd j) (hu : u.rd j = u'.rd j) :
    tcTerms s g v u t j = tcTerms s g' v' u' t j := by
  unfold tcTerms; rw [h.p.rd ht, h.m.rd ht, hv, hu]

end

end

end Acs
