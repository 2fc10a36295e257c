import Verif.Model.Cpp
import Mathlib.Algebra.BigOperators.Group.Finset.Basic
import Mathlib.Algebra.BigOperators.Intervals
import Mathlib.Algebra.Order.BigOperators.Group.Finset
import Mathlib.Data.Nat.Bitwise
import Mathlib.Tactic.Ring
import Mathlib.Tactic.Linarith
import Mathlib.Tactic.NormNum

/-! # Evaluation lemmas for the C++ fragment -/

namespace Acs

open Finset

/-! ## Sequencing -/

@[simp] theorem ok_bind {α β : Type} (a : α) (f : α → C β) : ((.ok a : C α) >>= f) = f a := rfl
@[simp] theorem error_bind {α β : Type} (e : Fault) (f : α → C β) :
    ((.error e : C α) >>= f) = .error e := rfl

theorem bind_ok {α β : Type} {x : C α} {a : α} (h : x = .ok a) (f : α → C β) :
    (x >>= f) = f a := by rw [h]; rfl

/-! ## Checked arithmetic -/

theorem i32_ok {z : Int} (h : InI32 z) : i32 z = .ok z := if_pos h
theorem i64_ok {z : Int} (h : InI64 z) : i64 z = .ok z := if_pos h
theorem addI_ok {a b : Int} (h : InI32 (a + b)) : addI a b = .ok (a + b) := if_pos h
theorem subI_ok {a b : Int} (h : InI32 (a - b)) : subI a b = .ok (a - b) := if_pos h
theorem mulI_ok {a b : Int} (h : InI32 (a * b)) : mulI a b = .ok (a * b) := if_pos h
theorem negI_ok {a : Int} (h : InI32 (-a)) : negI a = .ok (-a) := if_pos h
theorem addL_ok {a b : Int} (h : InI64 (a + b)) : addL a b = .ok (a + b) := if_pos h

theorem inI32_of_abs {z : Int} (h : |z| ≤ 2147483647) : InI32 z := by
  rw [abs_le] at h; exact ⟨by omega, h.2⟩

theorem wrap32_id {z : Int} (h : InI32 z) : wrap32 z = z := by
  unfold wrap32; obtain ⟨h1, h2⟩ := h; omega

theorem shrI_ok {a : Int} {k : Nat} (h : k < 32) : shrI a k = .ok (a / 2 ^ k) := if_pos h

theorem shlI_ok {strict : Bool} {a : Int} {k : Nat} (hk : k < 32) (h : InI32 (a * 2 ^ k))
    (hs : strict = true → 0 ≤ a) : shlI strict a k = .ok (a * 2 ^ k) := by
  unfold shlI
  rw [if_pos hk]
  by_cases ha : a < 0
  · rw [if_pos ha]
    cases strict with
    | false => simpa using i32_ok h
    | true => exact absurd (hs rfl) (by omega)
  · rw [if_neg ha, if_pos (by obtain ⟨_, h2⟩ := h; omega), wrap32_id h]

theorem shlL_ok {strict : Bool} {a : Int} {k : Nat} (hk : k < 64) (h : InI64 (a * 2 ^ k))
    (hs : strict = true → 0 ≤ a) : shlL strict a k = .ok (a * 2 ^ k) := by
  unfold shlL
  rw [if_pos hk, if_neg, i64_ok h]
  rintro ⟨h1, h2⟩
  have := hs h2
  omega

theorem u32sub_one {k : Nat} (h : 1 ≤ k) : u32sub k 1 = k - 1 := by unfold u32sub; rw [if_pos h]

/-! ## Bit masks -/

theorem ofInt_toNat (a : Int) : (BitVec.ofInt 32 a).toNat = (a % 4294967296).toNat := by
  simp [BitVec.toNat_ofInt]

/-- Masking with `2^k - 1` takes the residue modulo `2^k`, also of a negative number. -/
theorem and32_mask (a : Int) {k : Nat} (hk : k ≤ 31) : and32 a (2 ^ k - 1) = a % 2 ^ k := by
  unfold and32
  have h2 : (2 : Int) ^ k ∣ 4294967296 := by
    have : (4294967296 : Int) = 2 ^ 32 := by norm_num
    rw [this]; exact pow_dvd_pow 2 (by omega)
  have hpos : (0 : Int) < 2 ^ k := by positivity
  have hle : (2 : Int) ^ k ≤ 2147483648 := by
    have : (2147483648 : Int) = 2 ^ 31 := by norm_num
    rw [this]; exact pow_le_pow_right₀ (by norm_num) hk
  have hm : (BitVec.ofInt 32 ((2 : Int) ^ k - 1)).toNat = 2 ^ k - 1 := by
    rw [ofInt_toNat, Int.emod_eq_of_lt (by omega) (by omega)]
    have : ((2 : Int) ^ k - 1) = ((2 ^ k - 1 : Nat) : Int) := by
      rw [Nat.cast_sub Nat.one_le_two_pow]; push_cast; rfl
    rw [this, Int.toNat_natCast]
  have hn : (BitVec.ofInt 32 a &&& BitVec.ofInt 32 ((2 : Int) ^ k - 1)).toNat
      = (a % 4294967296).toNat % 2 ^ k := by
    rw [BitVec.toNat_and, hm, ofInt_toNat, Nat.and_two_pow_sub_one_eq_mod]
  have hz : (((a % 4294967296).toNat % 2 ^ k : Nat) : Int) = a % 2 ^ k := by
    push_cast
    rw [Int.toNat_of_nonneg (Int.emod_nonneg _ (by norm_num)), Int.emod_emod_of_dvd _ h2]
  have hlt : a % 2 ^ k < 2 ^ k := Int.emod_lt_of_pos _ hpos
  rw [BitVec.toInt_eq_toNat_of_lt, hn, hz]
  rw [hn]
  have : (((a % 4294967296).toNat % 2 ^ k : Nat) : Int) < 2147483648 := by rw [hz]; omega
  omega

theorem and32_one (a : Int) : and32 a 1 = a % 2 := by
  have := and32_mask a (k := 1) (by norm_num)
  simpa using this

theorem and32_comm (a b : Int) : and32 a b = and32 b a := by
  unfold and32; rw [BitVec.and_comm]

/-- Masking with a single bit. -/
theorem and32_bit (a : Int) {k : Nat} (hk : k ≤ 30) : and32 a (2 ^ k) = a / 2 ^ k % 2 * 2 ^ k := by
  unfold and32
  have hpos : (0 : Int) < 2 ^ k := by positivity
  have hle : (2 : Int) ^ k ≤ 1073741824 := by
    have : (1073741824 : Int) = 2 ^ 30 := by norm_num
    rw [this]; exact pow_le_pow_right₀ (by norm_num) hk
  have h2 : (2 : Int) ^ (k + 1) ∣ 4294967296 := by
    have : (4294967296 : Int) = 2 ^ 32 := by norm_num
    rw [this]; exact pow_dvd_pow 2 (by omega)
  have hm : (BitVec.ofInt 32 ((2 : Int) ^ k)).toNat = 2 ^ k := by
    rw [ofInt_toNat, Int.emod_eq_of_lt (by omega) (by omega)]
    have : ((2 : Int) ^ k) = ((2 ^ k : Nat) : Int) := by push_cast; rfl
    rw [this, Int.toNat_natCast]
  set u := (a % 4294967296).toNat with hu
  have hn : (BitVec.ofInt 32 a &&& BitVec.ofInt 32 ((2 : Int) ^ k)).toNat
      = (u / 2 ^ k % 2) * 2 ^ k := by
    rw [BitVec.toNat_and, hm, ofInt_toNat, Nat.and_two_pow, ← hu]
    congr 1
    rw [Nat.testBit_eq_decide_div_mod_eq]
    rcases Nat.mod_two_eq_zero_or_one (u / 2 ^ k) with h | h <;> simp [h]
  have hdiv : ∀ b : Int, b / 2 ^ k % 2 = b % 2 ^ (k + 1) / 2 ^ k := by
    intro b
    rw [pow_succ]
    have h1 : b = 2 ^ k * 2 * (b / (2 ^ k * 2)) + b % (2 ^ k * 2) := (Int.mul_ediv_add_emod _ _).symm
    have h2 : 0 ≤ b % (2 ^ k * 2) := Int.emod_nonneg _ (by positivity)
    have h3 : b % (2 ^ k * 2) < 2 ^ k * 2 := Int.emod_lt_of_pos _ (by positivity)
    set q := b / (2 ^ k * 2)
    set r := b % (2 ^ k * 2)
    have h4 : b / 2 ^ k = 2 * q + r / 2 ^ k := by
      rw [h1, show 2 ^ k * 2 * q + r = r + 2 ^ k * (2 * q) by ring,
        Int.add_mul_ediv_left _ _ (by omega)]; ring
    have h5 : 0 ≤ r / 2 ^ k := Int.ediv_nonneg h2 hpos.le
    have h6 : r / 2 ^ k < 2 := Int.ediv_lt_of_lt_mul hpos (by linarith)
    rw [h4]; omega
  have hz : (((u / 2 ^ k % 2) * 2 ^ k : Nat) : Int) = a / 2 ^ k % 2 * 2 ^ k := by
    push_cast
    rw [hu, Int.toNat_of_nonneg (Int.emod_nonneg _ (by norm_num)), hdiv, hdiv a,
      Int.emod_emod_of_dvd _ h2]
  have hb : a / 2 ^ k % 2 * 2 ^ k ≤ 1073741824 := by
    have h0 : 0 ≤ a / 2 ^ k % 2 := Int.emod_nonneg _ (by norm_num)
    have h1 : a / 2 ^ k % 2 ≤ 1 := by
      have := Int.emod_lt_of_pos (a / 2 ^ k) (b := 2) (by norm_num); omega
    calc a / 2 ^ k % 2 * 2 ^ k ≤ 1 * 2 ^ k := mul_le_mul_of_nonneg_right h1 hpos.le
      _ ≤ _ := by linarith
  rw [BitVec.toInt_eq_toNat_of_lt, hn, hz]
  rw [hn]
  have : (((u / 2 ^ k % 2) * 2 ^ k : Nat) : Int) < 2147483648 := by rw [hz]; omega
  omega

/-- `(1 << k) - 1`. -/
theorem two_pow_inI32 {k : Nat} (hk : k ≤ 30) : InI32 (2 ^ k) := by
  have hpos : (0 : Int) < 2 ^ k := by positivity
  have hle : (2 : Int) ^ k ≤ 1073741824 := by
    have : (1073741824 : Int) = 2 ^ 30 := by norm_num
    rw [this]; exact pow_le_pow_right₀ (by norm_num) hk
  constructor <;> omega

theorem shl_one {strict : Bool} {k : Nat} (hk : k ≤ 30) : shlI strict 1 k = .ok (2 ^ k) := by
  have := shlI_ok (strict := strict) (a := 1) (k := k) (by omega)
    (by rw [one_mul]; exact two_pow_inI32 hk) (by intro; norm_num)
  rwa [one_mul] at this

/-! ## Containers -/

theorem Vec.rd_ok {α : Type} {v : Vec α} {i : Nat} (h : i < v.size) : v.rd i = .ok (v.get i) :=
  if_pos h

theorem Vec.wr_ok {α : Type} {v : Vec α} {i : Nat} {a : α} (h : i < v.size) :
    v.wr i a = .ok ⟨v.size, fun k => if k = i then a else v.get k⟩ := if_pos h

theorem Mat.rd_ok {α : Type} {A : Mat α} {i j : Nat} (h : i < A.rows) (h' : j < A.cols) :
    A.rd i j = .ok (A.get i j) := if_pos ⟨h, h'⟩

theorem Mat.wr_ok {α : Type} {A : Mat α} {i j : Nat} {a : α} (h : i < A.rows) (h' : j < A.cols) :
    A.wr i j a = .ok ⟨A.rows, A.cols, fun i' j' => if i' = i ∧ j' = j then a else A.get i' j'⟩ :=
  if_pos ⟨h, h'⟩

theorem Vec.ext' {α : Type} {v w : Vec α} (h : v.size = w.size) (h' : ∀ i, v.get i = w.get i) :
    v = w := by
  cases v; cases w
  simp only [Vec.mk.injEq] at *
  exact ⟨h, funext h'⟩

theorem Mat.ext' {α : Type} {A B : Mat α} (h : A.rows = B.rows) (hc : A.cols = B.cols)
    (h' : ∀ i j, A.get i j = B.get i j) : A = B := by
  cases A; cases B
  simp only [Mat.mk.injEq] at *
  exact ⟨h, hc, funext fun i => funext fun j => h' i j⟩

@[simp] theorem Vec.fill_size {α : Type} (v : Vec α) (a : α) : (v.fill a).size = v.size := rfl

theorem Vec.fill_get {α : Type} {v : Vec α} {a : α} {i : Nat} (h : i < v.size) :
    (v.fill a).get i = a := if_pos h

@[simp] theorem Vec.const_size {α : Type} (n : Nat) (a : α) : (Vec.const n a).size = n := rfl
@[simp] theorem Vec.const_get {α : Type} (n : Nat) (a : α) (i : Nat) : (Vec.const n a).get i = a :=
  rfl
@[simp] theorem Mat.const_rows {α : Type} (r c : Nat) (a : α) : (Mat.const r c a).rows = r := rfl
@[simp] theorem Mat.const_cols {α : Type} (r c : Nat) (a : α) : (Mat.const r c a).cols = c := rfl
@[simp] theorem Mat.const_get {α : Type} (r c : Nat) (a : α) (i j : Nat) :
    (Mat.const r c a).get i j = a := rfl

/-- `v` with its first `T` entries replaced by `f`. -/
def Vec.over {α : Type} (v : Vec α) (T : Nat) (f : Nat → α) : Vec α :=
  ⟨v.size, fun k => if k < T then f k else v.get k⟩

/-! ## Loops -/

@[simp] theorem loop_zero {σ : Type} (f : Nat → σ → C σ) (s : σ) : loop 0 f s = .ok s := rfl
theorem loop_succ {σ : Type} (n : Nat) (f : Nat → σ → C σ) (s : σ) :
    loop (n + 1) f s = (loop n f s >>= f n) := rfl

/-- A loop whose states are known in closed form. -/
theorem loop_ok {σ : Type} {n : Nat} {f : Nat → σ → C σ} {s : σ} (inv : Nat → σ) (h0 : inv 0 = s)
    (hs : ∀ i, i < n → f i (inv i) = .ok (inv (i + 1))) : loop n f s = .ok (inv n) := by
  induction n with
  | zero => rw [loop_zero, h0]
  | succ n ih =>
    rw [loop_succ, ih (fun i hi => hs i (by omega)), ok_bind, hs n (by omega)]

/-- Two nested loops over one state. -/
theorem loop2_ok {σ : Type} {m n : Nat} {f : Nat → Nat → σ → C σ} {s : σ} (inv : Nat → Nat → σ)
    (h0 : inv 0 0 = s) (hrow : ∀ i, i < m → inv (i + 1) 0 = inv i n)
    (hs : ∀ i j, i < m → j < n → f i j (inv i j) = .ok (inv i (j + 1))) :
    loop m (fun i st => loop n (f i) st) s = .ok (inv m 0) := by
  refine loop_ok (fun i => inv i 0) h0 fun i hi => ?_
  rw [hrow i hi]
  exact loop_ok (inv i) rfl fun j hj => hs i j hi hj

theorem loop_congr {σ : Type} {n : Nat} {f g : Nat → σ → C σ} {s : σ}
    (h : ∀ i, i < n → ∀ s, f i s = g i s) : loop n f s = loop n g s := by
  induction n with
  | zero => rfl
  | succ n ih =>
    rw [loop_succ, loop_succ, ih (fun i hi => h i (by omega))]
    congr 1
    exact funext fun s => h n (by omega) s

theorem updAt_ok {α : Type} {v : Vec α} {i : Nat} {f : α → C α} {x : α} (hi : i < v.size)
    (h : f (v.get i) = .ok x) :
    updAt v i f = .ok ⟨v.size, fun k => if k = i then x else v.get k⟩ := by
  unfold updAt
  rw [Vec.rd_ok hi, ok_bind, h, ok_bind, Vec.wr_ok hi]

/-- Master lemma for the accumulation of one entry. -/
theorem accRow_ok {α β : Type} {add : α → β → C α} {t N : Nat} {term : Nat → C β} {v : Vec α}
    (acc : Nat → α) (ht : t < v.size) (h0 : acc 0 = v.get t)
    (hs : ∀ n, n < N → (term n >>= fun x => add (acc n) x) = .ok (acc (n + 1))) :
    accRow add t N term v = .ok ⟨v.size, fun k => if k = t then acc N else v.get k⟩ := by
  unfold accRow
  refine loop_ok (fun n => (⟨v.size, fun k => if k = t then acc n else v.get k⟩ : Vec α)) ?_ ?_
  · refine Vec.ext' (by rfl) ?_
    intro k
    dsimp only
    split
    · next h => rw [h, h0]
    · rfl
  · intro n hn
    have := hs n hn
    cases hx : term n with
    | error e => rw [hx] at this; cases this
    | ok x =>
      rw [hx, ok_bind] at this
      rw [ok_bind, updAt_ok (x := acc (n + 1)) (by exact ht) (by simpa using this)]
      congr 1
      refine Vec.ext' (by rfl) ?_
      intro k
      dsimp only
      split <;> rfl

/-- Master lemma for accumulation loops. -/
theorem accG_ok {α β : Type} {add : α → β → C α} {T N : Nat} {term : Nat → Nat → C β} {v : Vec α}
    (acc : Nat → Nat → α) (hT : T ≤ v.size) (h0 : ∀ t, t < T → acc t 0 = v.get t)
    (hs : ∀ t n, t < T → n < N → (term t n >>= fun x => add (acc t n) x) = .ok (acc t (n + 1))) :
    accG add T N term v = .ok (v.over T fun k => acc k N) := by
  unfold accG
  refine (loop_ok (fun t => (⟨v.size, fun k => if k < t then acc k N else v.get k⟩ : Vec α)) ?_ ?_)
  · refine Vec.ext' (by rfl) ?_; intro k; simp
  · intro t ht
    rw [accRow_ok (acc t) (by dsimp only; omega) (by dsimp only; rw [if_neg (by omega)]; exact h0 t ht)
      (fun n hn => hs t n ht hn)]
    congr 1
    refine Vec.ext' (by rfl) ?_
    intro k
    dsimp only
    rcases lt_trichotomy k t with h | h | h
    · rw [if_neg (by omega), if_pos h, if_pos (by omega)]
    · subst h; rw [if_pos rfl, if_pos (by omega)]
    · rw [if_neg (by omega), if_neg (by omega), if_neg (by omega)]

theorem setG_ok {α : Type} {n : Nat} {f : Nat → C α} {v : Vec α} (g : Nat → α) (hn : n ≤ v.size)
    (hs : ∀ i, i < n → f i = .ok (g i)) :
    setG n f v = .ok (v.over n g) := by
  unfold setG
  refine (loop_ok (fun t => (⟨v.size, fun k => if k < t then g k else v.get k⟩ : Vec α)) ?_ ?_)
  · refine Vec.ext' (by rfl) ?_; intro k; simp
  · intro i hi
    rw [hs i hi, ok_bind, Vec.wr_ok (by dsimp only; omega)]
    congr 1
    refine Vec.ext' (by rfl) ?_
    intro k
    dsimp only
    rcases lt_trichotomy k i with h | h | h
    · rw [if_neg (by omega), if_pos h, if_pos (by omega)]
    · subst h; rw [if_pos rfl, if_pos (by omega)]
    · rw [if_neg (by omega), if_neg (by omega), if_neg (by omega)]

theorem updG_ok {α : Type} {n : Nat} {f : Nat → α → C α} {v : Vec α} (g : Nat → α) (hn : n ≤ v.size)
    (hs : ∀ i, i < n → f i (v.get i) = .ok (g i)) :
    updG n f v = .ok (v.over n g) := by
  unfold updG
  refine (loop_ok (fun t => (⟨v.size, fun k => if k < t then g k else v.get k⟩ : Vec α)) ?_ ?_)
  · refine Vec.ext' (by rfl) ?_; intro k; simp
  · intro i hi
    rw [updAt_ok (x := g i) (by dsimp only; omega)
      (by dsimp only; rw [if_neg (by omega)]; exact hs i hi)]
    congr 1
    refine Vec.ext' (by rfl) ?_
    intro k
    dsimp only
    rcases lt_trichotomy k i with h | h | h
    · rw [if_neg (by omega), if_pos h, if_pos (by omega)]
    · subst h; rw [if_pos rfl, if_pos (by omega)]
    · rw [if_neg (by omega), if_neg (by omega), if_neg (by omega)]

/-! ## Integer accumulation -/

theorem abs_add_sum_le {g : Nat → Int} {a B : Int} {N k : Nat} (hk : k ≤ N)
    (h : |a| + ∑ n ∈ range N, |g n| ≤ B) : |a + ∑ n ∈ range k, g n| ≤ B := by
  have h1 : |∑ n ∈ range k, g n| ≤ ∑ n ∈ range k, |g n| := abs_sum_le_sum_abs _ _
  have h2 : ∑ n ∈ range k, |g n| ≤ ∑ n ∈ range N, |g n| :=
    sum_le_sum_of_subset_of_nonneg (range_subset_range.2 hk) (fun _ _ _ => abs_nonneg _)
  have h3 := abs_add_le a (∑ n ∈ range k, g n)
  linarith

theorem accRow_addI {t N : Nat} {term : Nat → C Int} {v : Vec Int} (g : Nat → Int)
    (ht : t < v.size) (hterm : ∀ n, n < N → term n = .ok (g n))
    (hb : |v.get t| + ∑ n ∈ range N, |g n| ≤ 2147483647) :
    accRow addI t N term v
      = .ok ⟨v.size, fun k => if k = t then v.get t + ∑ n ∈ range N, g n else v.get k⟩ := by
  refine accRow_ok (fun n => v.get t + ∑ n ∈ range n, g n) ht (by simp) fun n hn => ?_
  rw [hterm n hn, ok_bind, addI_ok, sum_range_succ, add_assoc]
  rw [add_assoc, ← sum_range_succ]
  exact inI32_of_abs (abs_add_sum_le (by omega) hb)

theorem accG_addI {T N : Nat} {term : Nat → Nat → C Int} {v : Vec Int} (g : Nat → Nat → Int)
    (hT : T ≤ v.size) (hterm : ∀ t n, t < T → n < N → term t n = .ok (g t n))
    (hb : ∀ t, t < T → |v.get t| + ∑ n ∈ range N, |g t n| ≤ 2147483647) :
    accG addI T N term v
      = .ok (v.over T fun k => v.get k + ∑ n ∈ range N, g k n) := by
  refine accG_ok (fun t n => v.get t + ∑ n ∈ range n, g t n) hT (by simp) fun t n ht hn => ?_
  rw [hterm t n ht hn, ok_bind, addI_ok, sum_range_succ, add_assoc]
  rw [add_assoc, ← sum_range_succ]
  exact inI32_of_abs (abs_add_sum_le (by omega) (hb t ht))

theorem accG_subI {T N : Nat} {term : Nat → Nat → C Int} {v : Vec Int} (g : Nat → Nat → Int)
    (hT : T ≤ v.size) (hterm : ∀ t n, t < T → n < N → term t n = .ok (g t n))
    (hb : ∀ t, t < T → |v.get t| + ∑ n ∈ range N, |g t n| ≤ 2147483647) :
    accG subI T N term v
      = .ok (v.over T fun k => v.get k - ∑ n ∈ range N, g k n) := by
  refine accG_ok (fun t n => v.get t - ∑ n ∈ range n, g t n) hT (by simp) fun t n ht hn => ?_
  have h1 : v.get t - ∑ n ∈ range n, g t n - g t n = v.get t - ∑ n ∈ range (n + 1), g t n := by
    rw [sum_range_succ]; ring
  rw [hterm t n ht hn, ok_bind, subI_ok, h1]
  rw [h1]
  have := abs_add_sum_le (g := fun n => - g t n) (a := v.get t) (k := n + 1) (N := N)
    (B := 2147483647) (by omega) (by simpa using hb t ht)
  rw [sum_neg_distrib, ← sub_eq_add_neg] at this
  exact inI32_of_abs this

end Acs
