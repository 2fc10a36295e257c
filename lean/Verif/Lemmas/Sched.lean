import Verif.SpecSched
import Verif.Lemmas.EmuInv

/-!
# Parallel element-wise steps equal the sequential loop
-/

namespace Acs

open Finset Spec

variable {α : Type} {val : Nat → Vec α → C α} {n k : Nat} {v r : Vec α} {c c' : Conf α}

/-- The value of element `i` depends only on the size and entry `i` of the memory. -/
def Local (val : Nat → Vec α → C α) : Prop :=
  ∀ i (s t : Vec α), s.size = t.size → s.get i = t.get i → val i s = val i t

/-- The sequential loop. -/
def seqRun (val : Nat → Vec α → C α) (n : Nat) (v : Vec α) : C (Vec α) :=
  loop n (fun i s => val i s >>= fun a => s.wr i a) v

theorem setProg_same (p : Nat → Prog α) (i : Nat) (x : Prog α) : setProg p i x i = x := if_pos rfl
theorem setProg_ne {p : Nat → Prog α} {i k : Nat} {x : Prog α} (h : k ≠ i) : setProg p i x k = p k := if_neg h

structure ParInv (val : Nat → Vec α → C α) (n : Nat) (v : Vec α) (c : Conf α) : Prop where
  size : c.mem.size = v.size
  todo : ∀ i, c.prog i = .todo → c.mem.get i = v.get i
  holds : ∀ i a, c.prog i = .holds a → i < n ∧ val i v = .ok a
  done : ∀ i, c.prog i = .done → i < n ∧ i < v.size ∧ val i v = .ok (c.mem.get i)

theorem wr_eq_ok {m : Vec α} {i : Nat} {a : α} (h : v.wr i a = .ok m) :
    i < v.size ∧ m = ⟨v.size, fun k => if k = i then a else v.get k⟩ := by
  have hi := Vec.wr_lt h
  rw [Vec.wr_ok hi, ok_inj] at h
  exact ⟨hi, h.symm⟩

theorem parInv_act (hl : Local val) (h : ParInv val n v c) (ha : Act val n c c') : ParInv val n v c' := by
  cases ha with
  | @load i a hi hp hv =>
    refine ⟨h.size, fun k hk => ?_, fun k b hk => ?_, fun k hk => ?_⟩
    · dsimp only at hk
      by_cases e : k = i
      · subst e; exact h.todo k hp
      · exact h.todo k (by rw [← hk]; exact (setProg_ne e).symm)
    · dsimp only at hk
      by_cases e : k = i
      · subst e
        rw [setProg_same] at hk
        cases hk
        exact ⟨hi, by rw [← hv]; exact (hl k _ _ h.size (h.todo k hp)).symm⟩
      · exact h.holds k b (by rw [← hk]; exact (setProg_ne e).symm)
    · dsimp only at hk
      by_cases e : k = i
      · subst e; rw [setProg_same] at hk; cases hk
      · exact h.done k (by rw [← hk]; exact (setProg_ne e).symm)
  | @store i a m hp hw =>
    obtain ⟨hi, rfl⟩ := wr_eq_ok hw
    refine ⟨h.size, fun k hk => ?_, fun k b hk => ?_, fun k hk => ?_⟩
    · dsimp only at hk
      by_cases e : k = i
      · subst e; rw [setProg_same] at hk; cases hk
      · rw [setProg_ne e] at hk
        exact (if_neg e).trans (h.todo k hk)
    · dsimp only at hk
      by_cases e : k = i
      · subst e; rw [setProg_same] at hk; cases hk
      · rw [setProg_ne e] at hk; exact h.holds k b hk
    · dsimp only at hk
      by_cases e : k = i
      · subst e
        have := h.holds k a hp
        refine ⟨this.1, by rw [← h.size]; exact hi, ?_⟩
        show val k v = .ok (if k = k then a else _)
        rw [if_pos rfl]; exact this.2
      · rw [setProg_ne e] at hk
        have := h.done k hk
        refine ⟨this.1, this.2.1, ?_⟩
        show val k v = .ok (if k = i then a else _)
        rw [if_neg e]; exact this.2.2

theorem parInv_acts (hl : Local val) (h : Acts val n k (.start v) c) : ParInv val n v c := by
  generalize hs : Conf.start v = s at h
  induction h with
  | refl c =>
    subst hs
    exact ⟨rfl, fun _ _ => rfl, fun i a h => (by cases h), fun i h => (by cases h)⟩
  | step h h' ih => exact parInv_act hl (ih hs) h'

/-- The sequential loop succeeds iff every element does, with the values of the elements. -/
theorem seqRun_ok (hl : Local val) : seqRun val n v = .ok r ↔
    (∀ i, i < n → i < v.size ∧ val i v = .ok (r.get i)) ∧ r.size = v.size ∧
      ∀ i, n ≤ i → r.get i = v.get i := by
  unfold seqRun
  induction n generalizing r with
  | zero =>
    rw [loop_zero, ok_inj]
    constructor
    · rintro rfl; exact ⟨fun i h => (by omega), rfl, fun _ _ => rfl⟩
    · rintro ⟨_, h1, h2⟩; exact Vec.ext' h1.symm fun k => (h2 k (Nat.zero_le _)).symm
  | succ n ih =>
    rw [loop_succ, bind_eq_ok]
    constructor
    · rintro ⟨u, hu, h⟩
      obtain ⟨h1, h2, h3⟩ := ih.1 hu
      rw [bind_eq_ok] at h
      obtain ⟨a, ha, h⟩ := h
      obtain ⟨hi, rfl⟩ := wr_eq_ok h
      rw [hl n u v h2 (h3 n le_rfl)] at ha
      refine ⟨fun i hi' => ?_, h2, fun i hi' => ?_⟩
      · show i < v.size ∧ val i v = .ok (if i = n then a else u.get i)
        by_cases e : i = n
        · rw [if_pos e, e]; exact ⟨by omega, ha⟩
        · rw [if_neg e]; exact h1 i (by omega)
      · show (if i = n then a else u.get i) = v.get i
        rw [if_neg (by omega)]; exact h3 i (by omega)
    · rintro ⟨h1, h2, h3⟩
      let u : Vec α := ⟨v.size, fun i => if i < n then r.get i else v.get i⟩
      refine ⟨u, ih.2 ⟨fun i hi => ?_, rfl, fun i hi => if_neg (by omega)⟩, ?_⟩
      · show i < v.size ∧ val i v = .ok (if i < n then r.get i else v.get i)
        rw [if_pos hi]; exact h1 i (by omega)
      · have hn := h1 n (by omega)
        rw [hl n u v rfl (if_neg (by omega)), hn.2, ok_bind, Vec.wr_ok (show n < u.size from hn.1)]
        congr 1
        refine Vec.ext' h2.symm fun k => ?_
        show (if k = n then r.get n else if k < n then r.get k else v.get k) = r.get k
        by_cases e : k = n
        · rw [if_pos e, e]
        · rw [if_neg e]
          by_cases e' : k < n
          · rw [if_pos e']
          · rw [if_neg e', h3 k (by omega)]

/-- Every complete execution yields the sequential result. -/
theorem seq_of_par (hl : Local val) (h : ParResult val n v r) : seqRun val n v = .ok r := by
  obtain ⟨k, c, h, hf, rfl⟩ := h
  have I := parInv_acts hl h
  refine (seqRun_ok hl).2 ⟨fun i hi => (I.done i (hf i hi)).2, I.size, fun i hi => ?_⟩
  cases hp : c.prog i with
  | todo => exact I.todo i hp
  | holds a => exact absurd (I.holds i a hp).1 (by omega)
  | done => exact absurd (I.done i hp).1 (by omega)

/-- If the loop succeeds, no interleaving fails. -/
theorem no_fail (hl : Local val) (hr : seqRun val n v = .ok r) (h : Acts val n k (.start v) c) (e : Fault) :
    ¬Fails val n c e := by
  have I := parInv_acts hl h
  have H := ((seqRun_ok hl).1 hr).1
  intro hf
  cases hf with
  | @load i _ hi hp hv =>
    rw [hl i _ _ I.size (I.todo i hp), (H i hi).2] at hv
    cases hv
  | @store i a _ hp hv =>
    have hi := (H i (I.holds i a hp).1).1
    rw [Vec.wr_ok (by rw [I.size]; exact hi)] at hv
    cases hv

/-- As long as an element is unfinished, some action is possible or fails. -/
theorem progress (h : ¬c.finished n) : (∃ c', Act val n c c') ∨ ∃ e, Fails val n c e := by
  unfold Conf.finished at h
  push Not at h
  obtain ⟨i, hi, h⟩ := h
  cases hp : c.prog i with
  | todo =>
    cases hv : val i c.mem with
    | ok a => exact .inl ⟨_, .load hi hp hv⟩
    | error e => exact .inr ⟨e, .load hi hp hv⟩
  | holds a =>
    cases hv : c.mem.wr i a with
    | ok m => exact .inl ⟨_, .store hp hv⟩
    | error e => exact .inr ⟨e, .store hp hv⟩
  | done => exact absurd hp h

/-- Number of actions an element has performed. -/
def _root_.Acs.Spec.Prog.count : Prog α → Nat
  | .todo => 0
  | .holds _ => 1
  | .done => 2

theorem acts_count (hl : Local val) (h : Acts val n k (.start v) c) :
    k = ∑ i ∈ range n, Prog.count (c.prog i) := by
  generalize hs : Conf.start v = s at h
  induction h with
  | refl c =>
    subst hs
    exact (sum_eq_zero fun i _ => rfl).symm
  | @step k c0 c c' h h' ih =>
    have I := parInv_acts hl (hs ▸ h : Acts val n k (.start v) c)
    have key : ∀ (i : Nat) (x : Prog α), i < n → x.count = (c.prog i).count + 1 →
        ∑ j ∈ range n, Prog.count (setProg c.prog i x j) = ∑ j ∈ range n, Prog.count (c.prog j) + 1 := by
      intro i x hi hx
      rw [← add_sum_erase _ _ (mem_range.2 hi), ← add_sum_erase (range n) (fun j => Prog.count (c.prog j))
        (mem_range.2 hi), setProg_same, hx,
        sum_congr rfl fun j hj => by rw [setProg_ne (ne_of_mem_erase hj)]]
      omega
    rw [ih hs]
    cases h' with
    | @load i a hi hp hv => exact (key i _ hi (by rw [hp]; rfl)).symm
    | @store i a m hp hw => exact (key i _ (I.holds i a hp).1 (by rw [hp]; rfl)).symm

theorem acts_bound (hl : Local val) (h : Acts val n k (.start v) c) :
    k ≤ 2 * n ∧ (k = 2 * n ↔ c.finished n) := by
  rw [acts_count hl h]
  have h2 : ∀ x : Prog α, x.count ≤ 2 := fun x => by cases x <;> simp [Prog.count]
  have hc : ∑ _i ∈ range n, 2 = 2 * n := by simp [mul_comm]
  refine ⟨hc ▸ sum_le_sum fun i _ => h2 _, ?_⟩
  rw [← hc, sum_eq_sum_iff_of_le fun i _ => h2 _]
  unfold Conf.finished
  constructor
  · intro h i hi
    have := h i (mem_range.2 hi)
    cases hp : c.prog i with
    | todo => rw [hp] at this; cases this
    | holds a => rw [hp] at this; cases this
    | done => rfl
  · intro h i hi
    rw [h i (mem_range.1 hi)]; rfl

/-- If the loop succeeds, every execution can be continued to a complete one. -/
theorem par_exists (hl : Local val) (hr : seqRun val n v = .ok r) (h : Acts val n k (.start v) c) :
    ∃ k' c', Acts val n k' (.start v) c' ∧ k ≤ k' ∧ c'.finished n ∧ c'.mem = r := by
  obtain ⟨d, hd⟩ : ∃ d, k + d = 2 * n := ⟨2 * n - k, by have := (acts_bound hl h).1; omega⟩
  induction d generalizing k c with
  | zero =>
    have hf := (acts_bound hl h).2.1 hd
    have := seq_of_par hl ⟨k, c, h, hf, rfl⟩
    rw [hr, ok_inj] at this
    exact ⟨k, c, h, le_rfl, hf, this.symm⟩
  | succ d ih =>
    have hf : ¬c.finished n := fun hf => by have := (acts_bound hl h).2.2 hf; omega
    rcases progress (val := val) hf with ⟨c', h'⟩ | ⟨e, he⟩
    · obtain ⟨k', c'', h1, h2, h3⟩ := ih (.step h h') (by omega)
      exact ⟨k', c'', h1, by omega, h3⟩
    · exact absurd he (no_fail hl hr h e)

/-- If the loop fails, every execution fails after at most `2 * n` actions. -/
theorem par_fails {e : Fault} (hl : Local val) (hr : seqRun val n v = .error e) (h : Acts val n k (.start v) c) :
    ¬c.finished n ∧ ∃ k' c' e', Acts val n k' (.start v) c' ∧ k ≤ k' ∧ k' ≤ 2 * n ∧ Fails val n c' e' := by
  have nf : ∀ {k c}, Acts val n k (.start v) c → ¬c.finished n := fun h hf => by
    have := seq_of_par hl ⟨_, _, h, hf, rfl⟩
    rw [hr] at this
    cases this
  refine ⟨nf h, ?_⟩
  obtain ⟨d, hd⟩ : ∃ d, k + d = 2 * n := ⟨2 * n - k, by have := (acts_bound hl h).1; omega⟩
  induction d generalizing k c with
  | zero => exact absurd ((acts_bound hl h).2.1 hd) (nf h)
  | succ d ih =>
    rcases progress (val := val) (nf h) with ⟨c', h'⟩ | ⟨e, he⟩
    · obtain ⟨k', c'', e', h1, h2, h3⟩ := ih (.step h h') (by omega)
      exact ⟨k', c'', e', h1, by omega, h3⟩
    · exact ⟨k, c, e, h, le_rfl, (acts_bound hl h).1, he⟩

theorem updG_seq {f : Nat → α → C α} : updG n f v = seqRun (fun i s => s.rd i >>= f i) n v := by
  unfold updG seqRun
  refine loop_congr fun i hi s => ?_
  unfold updAt
  dsimp only
  cases s.rd i with
  | error e => rfl
  | ok a => rfl

theorem setG_seq {f : Nat → C α} : setG n f v = seqRun (fun i _ => f i) n v := rfl

theorem local_upd {f : Nat → α → C α} : Local (fun i (s : Vec α) => s.rd i >>= f i) := by
  intro i s t h1 h2
  dsimp only
  unfold Vec.rd
  rw [h1, h2]

theorem local_set {f : Nat → C α} : Local (fun i (_ : Vec α) => f i) := fun _ _ _ _ _ => rfl

end Acs
