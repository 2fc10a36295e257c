import Verif.Lemmas.Sat

/-!
# Two runs side by side

`Rel w R x y`: the computations `x` and `y` both end normally with related results, or both with the
same fault; with `w = true` any pair of outcomes is fine unless both end normally.
-/

set_option linter.unusedSectionVars false

namespace Acs

def Rel {α β : Type} (w : Bool) (R : α → β → Prop) (x : C α) (y : C β) : Prop :=
  match x, y with
  | .ok a, .ok b => R a b
  | .error e, .error e' => w = true ∨ e = e'
  | _, _ => w = true

/-- Equal lengths, equal contents below `k`. -/
structure Agree {α : Type} (k : Nat) (v v' : Vec α) : Prop where
  size : v.size = v'.size
  get : ∀ i, i < k → i < v.size → v.get i = v'.get i

section
variable {α β γ δ σ τ : Type} {w : Bool}

theorem Rel.bind {x : C α} {y : C β} {f : α → C γ} {g : β → C δ} {P : α → β → Prop}
    {Q : γ → δ → Prop} (h : Rel w P x y) (h' : ∀ a b, P a b → Rel w Q (f a) (g b)) :
    Rel w Q (x >>= f) (y >>= g) := by
  cases x with
  | ok a =>
    cases y with
    | ok b => exact h' a b h
    | error e =>
      show Rel w Q (f a) (.error e)
      cases f a with
      | ok _ => exact h
      | error _ => exact Or.inl h
  | error e =>
    cases y with
    | ok b =>
      show Rel w Q (.error e) (g b)
      cases g b with
      | ok _ => exact h
      | error _ => exact Or.inl h
    | error e' => exact h

theorem Rel.mono {x : C α} {y : C β} {P Q : α → β → Prop} (h : Rel w P x y)
    (h' : ∀ a b, P a b → Q a b) : Rel w Q x y := by
  cases x with
  | ok a =>
    cases y with
    | ok b => exact h' a b h
    | error _ => exact h
  | error _ =>
    cases y with
    | ok _ => exact h
    | error _ => exact h

theorem Rel.refl (x : C α) : Rel w Eq x x := by
  cases x with
  | ok _ => exact rfl
  | error _ => exact Or.inr rfl

theorem Rel.of_eq {x y : C α} (h : x = y) : Rel w Eq x y := h ▸ Rel.refl x

/-- Sequencing after two equal computations. -/
theorem Rel.bindEq {x y : C α} {f : α → C γ} {g : α → C δ} {Q : γ → δ → Prop} (h : x = y)
    (h' : ∀ a, Rel w Q (f a) (g a)) : Rel w Q (x >>= f) (y >>= g) :=
  Rel.bind (Rel.of_eq h) fun a _ e => e ▸ h' a

theorem Rel.ok {a : α} {b : β} {Q : α → β → Prop} (h : Q a b) : Rel w Q (.ok a) (.ok b) := h

theorem Rel.err {e : Fault} {Q : α → β → Prop} : Rel w Q (.error e) (.error e) := Or.inr rfl

theorem Rel.ite {p : Prop} [Decidable p] {x x' : C α} {y y' : C β} {Q : α → β → Prop}
    (h : p → Rel w Q x y) (h' : ¬p → Rel w Q x' y') :
    Rel w Q (if p then x else x') (if p then y else y') := by
  split
  · next hp => exact h hp
  · next hp => exact h' hp

theorem Rel.loop {n : Nat} {f : Nat → σ → C σ} {g : Nat → τ → C τ} {s : σ} {t : τ}
    (I : Nat → σ → τ → Prop) (h0 : I 0 s t)
    (h : ∀ i s t, i < n → I i s t → Rel w (I (i + 1)) (f i s) (g i t)) :
    Rel w (I n) (Acs.loop n f s) (Acs.loop n g t) := by
  induction n with
  | zero => exact h0
  | succ n ih =>
    exact Rel.bind (ih fun i s t hi => h i s t (Nat.lt_succ_of_lt hi))
      fun a b hab => h n a b (Nat.lt_succ_self n) hab

/-- A loop with a fixed relation. -/
theorem Rel.loop' {n : Nat} {f : Nat → σ → C σ} {g : Nat → τ → C τ} {s : σ} {t : τ}
    {I : σ → τ → Prop} (h0 : I s t) (h : ∀ i s t, i < n → I s t → Rel w I (f i s) (g i t)) :
    Rel w I (Acs.loop n f s) (Acs.loop n g t) :=
  Rel.loop (fun _ => I) h0 h

theorem loop_congr' {n : Nat} {f g : Nat → σ → C σ} {s : σ} (h : ∀ i s, i < n → f i s = g i s) :
    Acs.loop n f s = Acs.loop n g s := by
  induction n with
  | zero => rfl
  | succ n ih =>
    show (Acs.loop n f s >>= f n) = (Acs.loop n g s >>= g n)
    rw [ih fun i s hi => h i s (Nat.lt_succ_of_lt hi)]
    congr 1
    funext s
    exact h n s (Nat.lt_succ_self n)

/-! ## Vectors -/

theorem Agree.refl {k : Nat} (v : Vec α) : Agree k v v := ⟨rfl, fun _ _ _ => rfl⟩

theorem Agree.rd {k i : Nat} {v v' : Vec α} (h : Agree k v v') (hi : i < k) : v.rd i = v'.rd i := by
  unfold Vec.rd
  rw [← h.size]
  split
  · next hs => rw [h.get i hi hs]
  · rfl

theorem Agree.fill {k : Nat} {v v' : Vec α} (h : v.size = v'.size) (a : α) :
    Agree k (v.fill a) (v'.fill a) :=
  ⟨h, fun i _ hi => by
    have hi : i < v.size := hi
    show (if i < v.size then a else v.get i) = if i < v'.size then a else v'.get i
    rw [if_pos hi, if_pos (h ▸ hi)]⟩

theorem Agree.wr {k i : Nat} {v v' : Vec α} {a : α} (h : Agree k v v') :
    Rel w (Agree k) (v.wr i a) (v'.wr i a) := by
  unfold Vec.wr
  rw [← h.size]
  split
  · refine ⟨rfl, fun j hj hs => ?_⟩
    show (if j = i then a else v.get j) = if j = i then a else v'.get j
    rw [h.get j hj hs]
  · exact Or.inr rfl

/-- Writing in order extends the agreement. -/
theorem Agree.wr_next {i : Nat} {v v' : Vec α} {a : α} (h : Agree i v v') :
    Rel w (Agree (i + 1)) (v.wr i a) (v'.wr i a) := by
  unfold Vec.wr
  rw [← h.size]
  split
  · refine ⟨rfl, fun j hj hs => ?_⟩
    show (if j = i then a else v.get j) = if j = i then a else v'.get j
    split
    · rfl
    · next hne => exact h.get j (by omega) hs
  · exact Or.inr rfl

theorem Agree.updAt {k i : Nat} {v v' : Vec α} {f g : α → C α} (h : Agree k v v') (hi : i < k)
    (hf : ∀ a, Rel w Eq (f a) (g a)) : Rel w (Agree k) (updAt v i f) (updAt v' i g) := by
  unfold Acs.updAt
  refine Rel.bindEq (h.rd hi) fun a => ?_
  refine Rel.bind (hf a) fun x _ e => ?_
  subst e
  exact h.wr

theorem rel_setG {n : Nat} {f g : Nat → C α} {v v' : Vec α} (hs : v.size = v'.size)
    (h : ∀ i, i < n → f i = g i) : Rel w (Agree n) (setG n f v) (setG n g v') := by
  unfold setG
  refine Rel.loop (fun k => Agree k) ⟨hs, fun i hi => absurd hi (Nat.not_lt_zero i)⟩
    fun i s t hi hst => ?_
  exact Rel.bindEq (h i hi) fun a => hst.wr_next

theorem rel_updG {n k : Nat} {f g : Nat → α → C α} {v v' : Vec α} (hv : Agree k v v') (hn : n ≤ k)
    (h : ∀ i a, i < n → f i a = g i a) : Rel w (Agree k) (updG n f v) (updG n g v') := by
  unfold updG
  exact Rel.loop' hv fun i s t hi hst =>
    hst.updAt (lt_of_lt_of_le hi hn) fun a => Rel.of_eq (h i a hi)

theorem updG_congr {n : Nat} {f g : Nat → α → C α} {v : Vec α}
    (h : ∀ i a, i < n → f i a = g i a) : updG n f v = updG n g v := by
  unfold updG
  refine loop_congr' fun i s hi => ?_
  unfold updAt
  congr 1
  funext a
  rw [h i a hi]

theorem accRow_congr {add : α → β → C α} {t N : Nat} {f g : Nat → C β} {v : Vec α}
    (h : ∀ j, j < N → f j = g j) : accRow add t N f v = accRow add t N g v := by
  unfold accRow
  refine loop_congr' fun j s hj => ?_
  rw [h j hj]

theorem accG_congr {add : α → β → C α} {T N : Nat} {f g : Nat → Nat → C β} {v : Vec α}
    (h : ∀ t j, t < T → j < N → f t j = g t j) : accG add T N f v = accG add T N g v := by
  unfold accG
  exact loop_congr' fun t s ht => accRow_congr fun j hj => h t j ht hj

theorem rel_accRow {add : α → β → C α} {t N k : Nat} {f g : Nat → C β} {v v' : Vec α}
    (hv : Agree k v v') (ht : t < k) (h : ∀ j, j < N → f j = g j) :
    Rel w (Agree k) (accRow add t N f v) (accRow add t N g v') := by
  unfold accRow
  exact Rel.loop' hv fun j s s' hj hs => Rel.bindEq (h j hj) fun b =>
    hs.updAt ht fun a => Rel.refl _

theorem rel_accG {add : α → β → C α} {T N k : Nat} {f g : Nat → Nat → C β} {v v' : Vec α}
    (hv : Agree k v v') (hT : T ≤ k) (h : ∀ t j, t < T → j < N → f t j = g t j) :
    Rel w (Agree k) (accG add T N f v) (accG add T N g v') := by
  unfold accG
  exact Rel.loop' hv fun t s s' ht hs => rel_accRow hs (lt_of_lt_of_le ht hT) fun j hj => h t j ht hj

end

end Acs
