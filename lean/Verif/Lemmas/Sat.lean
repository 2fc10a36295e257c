import Verif.Lemmas.Blk
import Verif.Model.ReadDisturb

/-!
# Safety calculus

`Sat F x Q`: the computation `x` ends in a state satisfying `Q` or with a fault accepted by `F`.
Rules for container accesses ask for the bounds only when `F` does not accept out-of-bounds faults.
With `F` accepting everything, `Sat` is a statement about successful runs only; with `F` excluding
`oob` and `nullDeref` it is memory safety.
-/

set_option linter.unusedSectionVars false

namespace Acs

def Sat {α : Type} (F : Fault → Prop) (x : C α) (Q : α → Prop) : Prop :=
  match x with
  | .ok a => Q a
  | .error e => F e

/-- All faults but memory errors are accepted. -/
def Lax (F : Fault → Prop) : Prop := ∀ e, e ≠ .oob → e ≠ .nullDeref → F e

section
variable {α β σ : Type} {F : Fault → Prop}

theorem Sat.ok {a : α} {Q : α → Prop} (h : Q a) : Sat F (.ok a) Q := h
theorem Sat.pure {a : α} {Q : α → Prop} (h : Q a) : Sat F (Except.pure a) Q := h
theorem Sat.err {e : Fault} {Q : α → Prop} (h : F e) : Sat F (.error e : C α) Q := h

theorem Sat.bind {x : C α} {f : α → C β} {P : α → Prop} {Q : β → Prop} (h : Sat F x P)
    (h' : ∀ a, P a → Sat F (f a) Q) : Sat F (x >>= f) Q := by
  cases x with
  | ok a => exact h' a h
  | error e => exact h

theorem Sat.mono {x : C α} {P Q : α → Prop} (h : Sat F x P) (h' : ∀ a, P a → Q a) : Sat F x Q := by
  cases x with
  | ok a => exact h' a h
  | error e => exact h

theorem Sat.true {x : C α} {P : α → Prop} (h : Sat F x P) : Sat F x fun _ => True :=
  h.mono fun _ _ => trivial

theorem Sat.ite {p : Prop} [Decidable p] {x y : C α} {Q : α → Prop} (h : p → Sat F x Q)
    (h' : ¬p → Sat F y Q) : Sat F (if p then x else y) Q := by
  split
  · next hp => exact h hp
  · next hp => exact h' hp

/-- A successful run. -/
theorem Sat.of_ok {x : C α} {a : α} {Q : α → Prop} (h : Sat F x Q) (hx : x = .ok a) : Q a := by
  rw [hx] at h; exact h

/-- A computation whose only faults are accepted. -/
theorem Sat.elim {x : C α} {Q : α → Prop} (h : Sat F x Q) :
    (∃ a, x = .ok a ∧ Q a) ∨ ∃ e, x = .error e ∧ F e := by
  cases x with
  | ok a => exact Or.inl ⟨a, rfl, h⟩
  | error e => exact Or.inr ⟨e, rfl, h⟩

theorem Sat.intro_ok {x : C α} {Q : α → Prop} (h : ∀ a, x = .ok a → Q a) :
    Sat (fun _ => True) x Q := by
  cases x with
  | ok a => exact h a rfl
  | error e => trivial

/-- Arithmetic without memory accesses. -/
theorem Sat.lax (hF : Lax F) {x : C α} (h : ∀ e, x = .error e → e ≠ .oob ∧ e ≠ .nullDeref) :
    Sat F x fun _ => True := by
  cases x with
  | ok a => trivial
  | error e => exact hF e (h e rfl).1 (h e rfl).2

theorem Sat.vrd {v : Vec α} {i : Nat} (h : ¬F .oob → i < v.size) :
    Sat F (v.rd i) fun a => a = v.get i := by
  unfold Vec.rd
  split
  · exact rfl
  · next hi => exact not_not.1 fun hn => hi (h hn)

theorem Sat.vwr {v : Vec α} {i : Nat} {a : α} (h : ¬F .oob → i < v.size) :
    Sat F (v.wr i a) fun w => w.size = v.size := by
  unfold Vec.wr
  split
  · exact rfl
  · next hi => exact not_not.1 fun hn => hi (h hn)

theorem Sat.mrd {A : Mat α} {i j : Nat} (h : ¬F .oob → i < A.rows ∧ j < A.cols) :
    Sat F (A.rd i j) fun a => a = A.get i j := by
  unfold Mat.rd
  split
  · exact rfl
  · next hi => exact not_not.1 fun hn => hi (h hn)

theorem Sat.mwr {A : Mat α} {i j : Nat} {a : α} (h : ¬F .oob → i < A.rows ∧ j < A.cols) :
    Sat F (A.wr i j a) fun B => B.rows = A.rows ∧ B.cols = A.cols := by
  unfold Mat.wr
  split
  · exact ⟨rfl, rfl⟩
  · next hi => exact not_not.1 fun hn => hi (h hn)

theorem Sat.loop {n : Nat} {f : Nat → σ → C σ} {s : σ} {I : σ → Prop} (h0 : I s)
    (hs : ∀ i, i < n → ∀ s, I s → Sat F (f i s) I) : Sat F (Acs.loop n f s) I := by
  induction n with
  | zero => exact h0
  | succ n ih =>
    exact Sat.bind (ih fun i hi => hs i (by omega)) fun s h => hs n (by omega) s h

/-- Two nested loops. -/
theorem Sat.loop2 {m n : Nat} {f : Nat → Nat → σ → C σ} {s : σ} {I : σ → Prop} (h0 : I s)
    (hs : ∀ i j, i < m → j < n → ∀ s, I s → Sat F (f i j s) I) :
    Sat F (Acs.loop m (fun i s => Acs.loop n (f i) s) s) I :=
  Sat.loop h0 fun i hi s h => Sat.loop h fun j hj s h => hs i j hi hj s h

theorem Sat.updAt {v : Vec α} {i : Nat} {f : α → C α} (h : ¬F .oob → i < v.size)
    (hf : ∀ a, Sat F (f a) fun _ => True) : Sat F (Acs.updAt v i f) fun w => w.size = v.size :=
  Sat.bind (Sat.vrd h) fun a _ => Sat.bind (hf a) fun _ _ => Sat.vwr h

theorem Sat.accRow {add : α → β → C α} {t N : Nat} {term : Nat → C β} {v : Vec α}
    (h : ¬F .oob → 0 < N → t < v.size) (ht : ∀ n, n < N → Sat F (term n) fun _ => True)
    (ha : ∀ a b, Sat F (add a b) fun _ => True) :
    Sat F (Acs.accRow add t N term v) fun w => w.size = v.size := by
  unfold Acs.accRow
  refine Sat.loop rfl fun n hn s hs => Sat.bind (ht n hn) fun x _ => ?_
  exact (Sat.updAt (fun hF => by rw [hs]; exact h hF (by omega)) fun a => ha a x).mono
    fun w hw => hw.trans hs

theorem Sat.accG {add : α → β → C α} {T N : Nat} {term : Nat → Nat → C β} {v : Vec α}
    (h : ¬F .oob → T ≤ v.size) (ht : ∀ t n, t < T → n < N → Sat F (term t n) fun _ => True)
    (ha : ∀ a b, Sat F (add a b) fun _ => True) :
    Sat F (Acs.accG add T N term v) fun w => w.size = v.size := by
  unfold Acs.accG
  refine Sat.loop rfl fun t hT s hs => ?_
  exact (Sat.accRow (fun hF _ => by have := h hF; omega) (fun n hn => ht t n hT hn) ha).mono
    fun w hw => hw.trans hs

theorem Sat.setG {n : Nat} {f : Nat → C α} {v : Vec α} (h : ¬F .oob → n ≤ v.size)
    (hf : ∀ i, i < n → Sat F (f i) fun _ => True) :
    Sat F (Acs.setG n f v) fun w => w.size = v.size := by
  unfold Acs.setG
  refine Sat.loop rfl fun i hi s hs => Sat.bind (hf i hi) fun x _ => ?_
  exact (Sat.vwr fun hF => by have := h hF; omega).mono fun w hw => hw.trans hs

theorem Sat.updG {n : Nat} {f : Nat → α → C α} {v : Vec α} (h : ¬F .oob → n ≤ v.size)
    (hf : ∀ i a, i < n → Sat F (f i a) fun _ => True) :
    Sat F (Acs.updG n f v) fun w => w.size = v.size := by
  unfold Acs.updG
  refine Sat.loop rfl fun i hi s hs => ?_
  exact (Sat.updAt (fun hF => by have := h hF; omega) fun a => hf i a hi).mono
    fun w hw => hw.trans hs

theorem Sat.updM {R N : Nat} {f : Nat → Nat → α → C α} {A : Mat α}
    (h : ¬F .oob → R ≤ A.rows ∧ N ≤ A.cols)
    (hf : ∀ i j a, i < R → j < N → Sat F (f i j a) fun _ => True) :
    Sat F (Acs.updM R N f A) fun B => B.rows = A.rows ∧ B.cols = A.cols := by
  unfold Acs.updM
  refine Sat.loop2 ⟨rfl, rfl⟩ fun i j hi hj B hB => ?_
  have hb : ¬F .oob → i < B.rows ∧ j < B.cols := fun hF => by have := h hF; omega
  refine Sat.bind (Sat.mrd hb) fun a _ => Sat.bind (hf i j a hi hj) fun x _ => ?_
  exact (Sat.mwr hb).mono fun D hD => ⟨hD.1.trans hB.1, hD.2.trans hB.2⟩

/-- `w` has the length of `v` and the same entries from position `m` on. -/
structure Keep (m : Nat) (v w : Vec α) : Prop where
  size : w.size = v.size
  tail : ∀ i, m ≤ i → w.get i = v.get i

theorem Keep.refl {m : Nat} (v : Vec α) : Keep m v v := ⟨rfl, fun _ _ => rfl⟩
theorem Keep.trans {m : Nat} {u v w : Vec α} (h : Keep m u v) (h' : Keep m v w) : Keep m u w :=
  ⟨h'.size.trans h.size, fun i hi => (h'.tail i hi).trans (h.tail i hi)⟩

theorem Sat.vwrK {v : Vec α} {i m : Nat} {a : α} (hm : i < m) (h : ¬F .oob → i < v.size) :
    Sat F (v.wr i a) (Keep m v) := by
  unfold Vec.wr
  split
  · exact ⟨rfl, fun k hk => if_neg (by omega)⟩
  · next hi => exact not_not.1 fun hn => hi (h hn)

theorem Sat.updAtK {v : Vec α} {i m : Nat} {f : α → C α} (hm : i < m) (h : ¬F .oob → i < v.size)
    (hf : ∀ a, Sat F (f a) fun _ => True) : Sat F (Acs.updAt v i f) (Keep m v) :=
  Sat.bind (Sat.vrd h) fun a _ => Sat.bind (hf a) fun _ _ => Sat.vwrK hm h

theorem Sat.accRowK {add : α → β → C α} {t N m : Nat} {term : Nat → C β} {v : Vec α} (hm : t < m)
    (h : ¬F .oob → 0 < N → t < v.size) (ht : ∀ n, n < N → Sat F (term n) fun _ => True)
    (ha : ∀ a b, Sat F (add a b) fun _ => True) :
    Sat F (Acs.accRow add t N term v) (Keep m v) := by
  unfold Acs.accRow
  refine Sat.loop (Keep.refl v) fun n hn s hs => Sat.bind (ht n hn) fun x _ => ?_
  exact (Sat.updAtK hm (fun hF => by rw [hs.size]; exact h hF (by omega)) fun a => ha a x).mono
    fun w hw => hs.trans hw

theorem Sat.accGK {add : α → β → C α} {T N : Nat} {term : Nat → Nat → C β} {v : Vec α}
    (h : ¬F .oob → T ≤ v.size) (ht : ∀ t n, t < T → n < N → Sat F (term t n) fun _ => True)
    (ha : ∀ a b, Sat F (add a b) fun _ => True) :
    Sat F (Acs.accG add T N term v) (Keep T v) := by
  unfold Acs.accG
  refine Sat.loop (Keep.refl v) fun t hT s hs => ?_
  exact (Sat.accRowK hT (fun hF _ => by have := h hF; have := hs.size; omega)
    (fun n hn => ht t n hT hn) ha).mono fun w hw => hs.trans hw

theorem Sat.updGK {n : Nat} {f : Nat → α → C α} {v : Vec α} (h : ¬F .oob → n ≤ v.size)
    (hf : ∀ i a, i < n → Sat F (f i a) fun _ => True) :
    Sat F (Acs.updG n f v) (Keep n v) := by
  unfold Acs.updG
  refine Sat.loop (Keep.refl v) fun i hi s hs => ?_
  exact (Sat.updAtK hi (fun hF => by have := h hF; have := hs.size; omega) fun a => hf i a hi).mono
    fun w hw => hs.trans hw

theorem Sat.vrd' {v : Vec α} {i : Nat} (h : ¬F .oob → i < v.size) :
    Sat F (v.rd i) fun _ => True := (Sat.vrd h).true
theorem Sat.mrd' {A : Mat α} {i j : Nat} (h : ¬F .oob → i < A.rows ∧ j < A.cols) :
    Sat F (A.rd i j) fun _ => True := (Sat.mrd h).true

/-! ## Arithmetic -/

section
variable (hF : Lax F)
include hF

theorem Sat.i32 (z : Int) : Sat F (Acs.i32 z) fun _ => True := by
  unfold Acs.i32; split
  · trivial
  · exact hF _ (by decide) (by decide)
theorem Sat.i64 (z : Int) : Sat F (Acs.i64 z) fun _ => True := by
  unfold Acs.i64; split
  · trivial
  · exact hF _ (by decide) (by decide)
theorem Sat.addI (a b : Int) : Sat F (Acs.addI a b) fun _ => True := Sat.i32 hF _
theorem Sat.subI (a b : Int) : Sat F (Acs.subI a b) fun _ => True := Sat.i32 hF _
theorem Sat.mulI (a b : Int) : Sat F (Acs.mulI a b) fun _ => True := Sat.i32 hF _
theorem Sat.negI (a : Int) : Sat F (Acs.negI a) fun _ => True := Sat.i32 hF _
theorem Sat.addL (a b : Int) : Sat F (Acs.addL a b) fun _ => True := Sat.i64 hF _
theorem Sat.shrI (a : Int) (k : Nat) : Sat F (Acs.shrI a k) fun _ => True := by
  unfold Acs.shrI; split
  · trivial
  · exact hF _ (by decide) (by decide)
theorem Sat.shlI (st : Bool) (a : Int) (k : Nat) : Sat F (Acs.shlI st a k) fun _ => True := by
  unfold Acs.shlI
  refine Sat.ite (fun _ => Sat.ite (fun _ => Sat.ite (fun _ => hF _ (by decide) (by decide))
    fun _ => Sat.i32 hF _) fun _ => Sat.ite (fun _ => trivial)
    fun _ => hF _ (by decide) (by decide)) fun _ => hF _ (by decide) (by decide)
theorem Sat.shlL (st : Bool) (a : Int) (k : Nat) : Sat F (Acs.shlL st a k) fun _ => True := by
  unfold Acs.shlL
  refine Sat.ite (fun _ => Sat.ite (fun _ => hF _ (by decide) (by decide)) fun _ => Sat.i64 hF _)
    fun _ => hF _ (by decide) (by decide)
theorem Sat.maskOf (st : Bool) (k : Nat) : Sat F (Acs.maskOf st k) fun _ => True :=
  Sat.bind (Sat.shlI hF _ _ _) fun _ _ => Sat.subI hF _ _
theorem Sat.digit (st : Bool) (w : Int) (a b : Nat) : Sat F (Acs.digit st w a b) fun _ => True :=
  Sat.bind (Sat.shrI hF _ _) fun _ _ => Sat.bind (Sat.maskOf hF _ _) fun _ _ => trivial

variable {K : Type} [Field K] [LinearOrder K] [IsStrictOrderedRing K] [FloorRing K]

theorem Sat.fdiv (E : Env K) (a b : K) : Sat F (E.fdiv a b) fun _ => True := by
  unfold Env.fdiv; split
  · exact hF _ (by decide) (by decide)
  · trivial
theorem Sat.toI32 (a : K) : Sat F (Acs.toI32 a) fun _ => True := by
  unfold Acs.toI32; split
  · trivial
  · exact hF _ (by decide) (by decide)
theorem Sat.iaddf (E : Env K) (r : Int) (y : K) : Sat F (E.iaddf r y) fun _ => True := Sat.toI32 hF _
theorem Sat.isubf (E : Env K) (r : Int) (y : K) : Sat F (E.isubf r y) fun _ => True := Sat.toI32 hF _
theorem Sat.useField (x : Option K) : Sat F (Acs.useField x) fun _ => True := by
  cases x with
  | none => exact hF _ (by decide) (by decide)
  | some v => trivial
theorem Sat.adcScale (E : Env K) (a b : Nat) (x : K) : Sat F (Acs.adcScale E a b x) fun _ => True :=
  Sat.ite (fun _ => hF _ (by decide) (by decide)) fun _ =>
    Sat.ite (fun _ => hF _ (by decide) (by decide)) fun _ => trivial
omit hF in
theorem Sat.faddC (E : Env K) (a b : K) : Sat F (Acs.faddC E a b) fun _ => True := trivial
theorem Sat.addNoise (E : Env K) (cfg : Cfg K) (r : Nat) (x : K) (k : Int) :
    Sat F (Acs.addNoise E cfg r x k) fun _ => True := by
  unfold Acs.addNoise
  refine Sat.ite (fun _ => Sat.ite (fun _ => trivial) fun _ => trivial) fun _ =>
    Sat.ite (fun _ => Sat.ite (fun _ => trivial) fun _ => trivial) fun _ =>
      hF _ (by decide) (by decide)
theorem Sat.getCurrents (E : Env K) (cfg : Cfg K) (k : AdcType) (l : String) :
    Sat F (Acs.getCurrents E cfg k l) fun _ => True := by
  unfold Acs.getCurrents
  split
  · trivial
  · split
    · trivial
    · exact hF _ (by decide) (by decide)
theorem Sat.conv1 (E : Env K) (cfg : Cfg K) (adc : Adc) (x s o : K) (l : String) :
    Sat F (Acs.conv1 E cfg adc x s o l) fun _ => True := by
  have h : Sat F (Acs.convQuant E cfg adc x s o l) fun _ => True := by
    unfold Acs.convQuant
    exact Sat.bind (Sat.getCurrents hF _ _ _ _) fun _ _ => Sat.bind (Sat.subI hF _ _) fun _ _ =>
      Sat.bind (Sat.fdiv hF _ _ _) fun _ _ => Sat.bind (Sat.fdiv hF _ _ _) fun _ _ => trivial
  unfold Acs.conv1
  split
  · trivial
  · exact h
  · exact h
end

end

/-- Straight-line code that only reads: leaves the bounds as goals. -/
macro "sat_reads" : tactic => `(tactic| repeat' first
  | exact trivial
  | (refine Sat.bind (P := fun _ => True) ?_ (fun _ _ => ?_))
  | apply Sat.vrd'
  | apply Sat.mrd'
  | exact Sat.addI ‹_› _ _
  | exact Sat.subI ‹_› _ _
  | exact Sat.mulI ‹_› _ _
  | exact Sat.negI ‹_› _
  | exact Sat.addL ‹_› _ _
  | exact Sat.i64 ‹_› _
  | exact Sat.shrI ‹_› _ _
  | exact Sat.shlI ‹_› _ _ _
  | exact Sat.shlL ‹_› _ _ _
  | exact Sat.maskOf ‹_› _ _
  | exact Sat.digit ‹_› _ _ _ _
  | exact Sat.fdiv ‹_› _ _ _
  | exact Sat.toI32 ‹_› _
  | exact Sat.iaddf ‹_› _ _ _
  | exact Sat.isubf ‹_› _ _ _
  | exact Sat.useField ‹_› _
  | exact Sat.adcScale ‹_› _ _ _ _
  | exact Sat.conv1 ‹_› _ _ _ _ _ _ _
  | exact Sat.addNoise ‹_› _ _ _ _ _
  | (refine Sat.ite (fun _ => ?_) (fun _ => ?_))
  | exact Sat.err (‹Lax _› _ (by decide) (by decide)))

end Acs
