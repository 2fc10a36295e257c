import Verif.Lemmas.Rows
import Verif.Lemmas.IntMod
import Verif.Lemmas.RdInv
import Verif.Lemmas.Sat

/-! # Pairs of entries with the same value -/

set_option linter.unusedSectionVars false

namespace Acs

/-- Entries related by `P` have the same value. -/
def Tw {α : Type} (P : Nat → Nat → Prop) (v : Vec α) : Prop :=
  ∀ a b, P a b → a < v.size → b < v.size → v.get a = v.get b

/-- Rows related by `P` have the same cells. -/
def TwM {α : Type} (P : Nat → Nat → Prop) (A : Mat α) : Prop := ∀ a b, P a b → ∀ j, A.get a j = A.get b j

/-- Outcomes of successful runs. -/
abbrev Ok' {α : Type} (x : C α) (Q : α → Prop) : Prop := Sat (fun _ => True) x Q

/-- The same value, unless one of the runs fails. -/
abbrev Same' {α : Type} (x y : C α) : Prop := Rel true Eq x y

section
variable {α β : Type} {P : Nat → Nat → Prop} {a b m N : Nat} {v : Vec α}

theorem Ok'.any {x : C α} : Ok' x fun _ => True := Sat.intro_ok fun _ _ => trivial

theorem Same'.of {x y : C α} (h : ∀ r s, x = .ok r → y = .ok s → r = s) : Same' x y := Rel.apart h

theorem Same'.elim {x y : C α} {r s : α} (h : Same' x y) (hx : x = .ok r) (hy : y = .ok s) : r = s := by
  rw [hx, hy] at h; exact h

theorem Same'.bind {x y : C α} {f g : α → C β} (h : Same' x y) (h' : ∀ r, Same' (f r) (g r)) :
    Same' (x >>= f) (y >>= g) := Rel.bind h fun r s e => by subst e; exact h' r

theorem Same'.refl (x : C α) : Same' x x := Same'.of fun r s h h' => by rw [h] at h'; exact Except.ok.inj h'

theorem Tw.rd (h : Tw P v) (hab : P a b) : Same' (v.rd a) (v.rd b) := Same'.of fun r s hr hs => by
  rw [Vec.rd_eq_ok] at hr hs
  rw [← hr.2, ← hs.2, h a b hab hr.1 hs.1]

theorem TwM.rd {A : Mat α} {j : Nat} (h : TwM P A) (hab : P a b) : Same' (A.rd a j) (A.rd b j) := Same'.of fun r s hr hs => by
  rw [Mat.rd_eq_ok] at hr hs
  rw [← hr.2, ← hs.2, h a b hab j]

theorem Tw.fill (v : Vec α) (x : α) : Tw P (v.fill x) := fun a b _ ha hb => by
  have ha : a < v.size := ha
  have hb : b < v.size := hb
  show (if a < v.size then x else _) = if b < v.size then x else _
  rw [if_pos ha, if_pos hb]

theorem Tw.const (n : Nat) (x : α) : Tw P (Vec.const n x) := fun _ _ _ _ _ => rfl

theorem TwM.const (r c : Nat) (x : α) : TwM P (Mat.const r c x) := fun _ _ _ _ => rfl

theorem Tw.over {f : Nat → α} (h : Tw P v) (hm : ∀ a b, P a b → (a < m ↔ b < m)) (hf : ∀ a b, P a b → a < m → b < m → f a = f b) :
    Tw P (v.over m f) := fun a b hab ha hb => by
  show (if a < m then f a else v.get a) = if b < m then f b else v.get b
  by_cases h1 : a < m
  · rw [if_pos h1, if_pos ((hm a b hab).1 h1), hf a b hab h1 ((hm a b hab).1 h1)]
  · rw [if_neg h1, if_neg fun h2 => h1 ((hm a b hab).2 h2)]
    exact h a b hab ha hb

theorem TwM.over {A : Mat α} {f : Nat → Nat → α} (h : TwM P A) (hm : ∀ a b, P a b → (a < m ↔ b < m))
    (hf : ∀ a b j, P a b → a < m → b < m → j < N → f a j = f b j) : TwM P (A.over m N f) := fun a b hab j => by
  show (if a < m ∧ j < N then f a j else A.get a j) = if b < m ∧ j < N then f b j else A.get b j
  by_cases h1 : a < m ∧ j < N
  · have h2 : b < m := (hm a b hab).1 h1.1
    rw [if_pos h1, if_pos ⟨h2, h1.2⟩, hf a b j hab h1.1 h2 h1.2]
  · rw [if_neg h1, if_neg fun h2 => h1 ⟨(hm a b hab).2 h2.1, h2.2⟩]
    exact h a b hab j

/-! ## Loops over entries -/

/-- Only entry `c` changes, by `h`. -/
def Acts (c : Nat) (h : α → C α) (r r' : Vec α) : Prop :=
  r'.size = r.size ∧ (∀ k, k ≠ c → r'.get k = r.get k) ∧ h (r.get c) = .ok (r'.get c)

theorem Acts.comp {c : Nat} {h h' : α → C α} {r r1 r2 : Vec α} (e : Acts c h r r1) (e' : Acts c h' r1 r2) :
    Acts c (fun x => h x >>= h') r r2 :=
  ⟨e'.1.trans e.1, fun k hk => (e'.2.1 k hk).trans (e.2.1 k hk), by dsimp only; rw [e.2.2]; exact e'.2.2⟩

theorem acts_wr {c : Nat} {x : α} {r r' : Vec α} (h : r.wr c x = .ok r') : Acts c (fun _ => .ok x) r r' := by
  unfold Vec.wr at h
  split at h
  · rw [← Except.ok.inj h]
    exact ⟨rfl, fun k hk => if_neg hk, by rw [ok_inj]; exact (if_pos rfl).symm⟩
  · cases h

theorem acts_updAt {c : Nat} {f : α → C α} {r r' : Vec α} (h : updAt r c f = .ok r') : Acts c f r r' := by
  unfold updAt at h
  simp only [bind_eq_ok] at h
  obtain ⟨x, h1, y, h2, h3⟩ := h
  rw [Vec.rd_eq_ok] at h1
  obtain ⟨e1, e2, e3⟩ := acts_wr h3
  refine ⟨e1, e2, ?_⟩
  rw [h1.2, h2]
  exact e3

/-- Accumulation into one number. -/
def accS (add : α → β → C α) (N : Nat) (f : Nat → C β) (x : α) : C α := loop N (fun n x => do let y ← f n; add x y) x

theorem acts_accRow {add : α → β → C α} {c : Nat} {f : Nat → C β} {r r' : Vec α} (h : accRow add c N f r = .ok r') :
    Acts c (accS add N f) r r' := by
  unfold accRow at h
  unfold accS
  induction N generalizing r' with
  | zero =>
    rw [loop_zero, ok_inj] at h
    subst h
    exact ⟨rfl, fun _ _ => rfl, rfl⟩
  | succ N ih =>
    rw [loop_succ, bind_eq_ok] at h
    obtain ⟨u, h1, h2⟩ := h
    rw [bind_eq_ok] at h2
    obtain ⟨y, h2, h3⟩ := h2
    obtain ⟨e1, e2, e3⟩ := ih h1
    obtain ⟨d1, d2, d3⟩ := acts_updAt h3
    refine ⟨d1.trans e1, fun k hk => (d2 k hk).trans (e2 k hk), ?_⟩
    dsimp only at e3 ⊢
    rw [loop_succ, e3]
    show (f N >>= fun y => add (u.get c) y) = _
    rw [h2]
    exact d3

theorem same_accS {add : α → β → C α} {f g : Nat → C β} (h : ∀ n, n < N → Same' (f n) (g n)) (x : α) :
    Same' (accS add N f x) (accS add N g x) := by
  unfold accS
  exact Rel.loop' (I := Eq) rfl fun n s t hn e => by
    subst e
    exact Same'.bind (h n hn) fun y => Same'.refl _

theorem tw_loop {body : Nat → Vec α → C (Vec α)} {h : Nat → α → C α}
    (hb : ∀ c, c < m → ∀ r r', body c r = .ok r' → Acts c (h c) r r') (hv : Tw P v)
    (hm : ∀ a b, P a b → a < v.size → b < v.size → (a < m ↔ b < m))
    (hh : ∀ a b, P a b → a < m → b < m → ∀ x, Same' (h a x) (h b x)) :
    Ok' (loop m body v) fun v' => v'.size = v.size ∧ Tw P v' := by
  refine Sat.intro_ok fun v' hv' => ?_
  obtain ⟨h1, h2, h3⟩ := rowLoop_inv (P := fun c x y => h c x = .ok y) (fun c hc r r' e => hb c hc r r' e) hv'
  refine ⟨h1, fun a b hab ha hb => ?_⟩
  rw [h1] at ha hb
  by_cases hc : a < m
  · have hd := (hm a b hab ha hb).1 hc
    have e1 := h3 a hc
    have e2 := h3 b hd
    rw [← hv a b hab ha hb] at e2
    exact (hh a b hab hc hd _).elim e1 e2
  · have hd : ¬b < m := fun hd => hc ((hm a b hab ha hb).2 hd)
    rw [h2 a (by omega), h2 b (by omega), hv a b hab ha hb]

theorem tw_accG {add : α → β → C α} {f : Nat → Nat → C β} (hv : Tw P v)
    (hm : ∀ a b, P a b → a < v.size → b < v.size → (a < m ↔ b < m))
    (hf : ∀ a b n, P a b → n < N → Same' (f a n) (f b n)) : Ok' (accG add m N f v) fun v' => v'.size = v.size ∧ Tw P v' :=
  tw_loop (fun _ _ _ _ h => acts_accRow h) hv hm fun a b hab _ _ x => same_accS (fun n hn => hf a b n hab hn) x

theorem tw_updG {f : Nat → α → C α} (hv : Tw P v) (hm : ∀ a b, P a b → a < v.size → b < v.size → (a < m ↔ b < m))
    (hf : ∀ a b x, P a b → a < m → b < m → Same' (f a x) (f b x)) : Ok' (updG m f v) fun v' => v'.size = v.size ∧ Tw P v' :=
  tw_loop (fun _ _ _ _ h => acts_updAt h) hv hm fun a b hab ha hb x => hf a b x hab ha hb

theorem tw_setG {f : Nat → C α} (hv : Tw P v) (hm : ∀ a b, P a b → a < v.size → b < v.size → (a < m ↔ b < m))
    (hf : ∀ a b, P a b → a < m → b < m → Same' (f a) (f b)) : Ok' (setG m f v) fun v' => v'.size = v.size ∧ Tw P v' := by
  refine tw_loop (h := fun c _ => f c) (fun c _ r r' h => ?_) hv hm fun a b hab ha hb x => hf a b hab ha hb
  rw [bind_eq_ok] at h
  obtain ⟨x, h1, h2⟩ := h
  obtain ⟨e1, e2, e3⟩ := acts_wr h2
  exact ⟨e1, e2, by dsimp only; rw [h1]; exact e3⟩

/-- All related entries are written. -/
theorem tw_setG' {f : Nat → C α} (hm : ∀ a b, P a b → a < m ∧ b < m) (hf : ∀ a b, P a b → Same' (f a) (f b)) :
    Ok' (setG m f v) fun v' => v'.size = v.size ∧ Tw P v' := by
  refine Sat.intro_ok fun v' hv' => ?_
  obtain ⟨h1, h2, h3⟩ := rowLoop_inv (P := fun c _ y => f c = .ok y) (fun c hc r r' h => by
    rw [bind_eq_ok] at h
    obtain ⟨x, h1, h2⟩ := h
    obtain ⟨e1, e2, e3⟩ := acts_wr h2
    exact ⟨e1, e2, by rw [h1]; exact e3⟩) hv'
  exact ⟨h1, fun a b hab _ _ => (hf a b hab).elim (h3 a (hm a b hab).1) (h3 b (hm a b hab).2)⟩

/-- Cells after a loop over the first `m` rows. -/
theorem TwM.cells {A A' : Mat α} {Q : Nat → Nat → α → α → Prop} (h : TwM P A) (hm : ∀ a b, P a b → (a < m ↔ b < m))
    (hq : ∀ a b k x y z, P a b → Q a k x y → Q b k x z → y = z)
    (e : ∀ r k, if r < m ∧ k < N then Q r k (A.get r k) (A'.get r k) else A'.get r k = A.get r k) : TwM P A' := fun a b hab j => by
  have e1 := e a j
  have e2 := e b j
  have hm := hm a b hab
  by_cases h1 : a < m ∧ j < N
  · rw [if_pos h1] at e1
    rw [if_pos ⟨hm.1 h1.1, h1.2⟩, ← h a b hab j] at e2
    exact hq a b j _ _ _ hab e1 e2
  · rw [if_neg h1] at e1
    rw [if_neg fun h2 => h1 ⟨hm.2 h2.1, h2.2⟩] at e2
    rw [e1, e2, h a b hab j]

end

end Acs
