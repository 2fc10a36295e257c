import Mathlib.Algebra.BigOperators.ModEq
import Verif.Lemmas.EmuInv
import Verif.Lemmas.HistInv
import Verif.Lemmas.XDigital
import Verif.SpecMod

/-! # Digital integer multiplications of any operands, modulo `2^32` -/

set_option linter.unusedSectionVars false

namespace Acs

open Finset Spec

/-- Congruent as 32 bit numbers. -/
abbrev Cong (a b : Int) : Prop := a ≡ b [ZMOD 4294967296]

theorem cong_eq {a b : Int} (h : a = b) : Cong a b := by rw [h]

theorem cong_sum {n : Nat} {f g : Nat → Int} (h : ∀ i, i < n → Cong (f i) (g i)) :
    Cong (∑ i ∈ range n, f i) (∑ i ∈ range n, g i) := by
  induction n with
  | zero => simp [Cong, Int.ModEq]
  | succ n ih =>
    rw [sum_range_succ, sum_range_succ]
    exact (ih fun i hi => h i (by omega)).add (h n (by omega))

/-! ## Loops -/

theorem rowLoop_inv {α : Type} {m : Nat} {body : Nat → Vec α → C (Vec α)} {P : Nat → α → α → Prop} {v v' : Vec α}
    (hb : ∀ i, i < m → ∀ r r', body i r = .ok r' → r'.size = r.size ∧ (∀ k, k ≠ i → r'.get k = r.get k) ∧
      P i (r.get i) (r'.get i)) (h : loop m body v = .ok v') :
    v'.size = v.size ∧ (∀ k, m ≤ k → v'.get k = v.get k) ∧ ∀ k, k < m → P k (v.get k) (v'.get k) := by
  induction m generalizing v' with
  | zero => cases h; exact ⟨rfl, fun _ _ => rfl, fun k hk => by omega⟩
  | succ m ih =>
    rw [loop_succ, bind_eq_ok] at h
    obtain ⟨u, h1, h2⟩ := h
    obtain ⟨a1, a2, a3⟩ := ih (fun i hi => hb i (by omega)) h1
    obtain ⟨b1, b2, b3⟩ := hb m (by omega) u v' h2
    refine ⟨b1.trans a1, fun k hk => (b2 k (by omega)).trans (a2 k (by omega)), fun k hk => ?_⟩
    rcases Nat.lt_or_ge k m with hk' | hk'
    · rw [b2 k (by omega)]
      exact a3 k hk'
    · obtain rfl : k = m := by omega
      rw [← a2 k le_rfl]
      exact b3

/-- `op a x` is `a + e * x`, or it overflows. -/
def Adds' (op : Int → Int → C Int) (e : Int) : Prop := ∀ a x c, op a x = .ok c → InI32 c ∧ c = a + e * x

theorem adds_addI : Adds' addI 1 := fun a x c h => by
  obtain ⟨h1, h2⟩ := addI_eq_ok.1 h
  rw [h2] at h1
  exact ⟨h1, by rw [← h2, one_mul]⟩

theorem adds_subI : Adds' subI (-1) := fun a x c h => by
  obtain ⟨h1, h2⟩ := subI_eq_ok.1 h
  rw [h2] at h1
  exact ⟨h1, by rw [← h2]; ring⟩

theorem accRow_lin {op : Int → Int → C Int} {e : Int} (ho : Adds' op e) {t N : Nat} {term : Nat → C Int}
    {f : Nat → Int} {v v' : Vec Int} (hf : ∀ n x, n < N → term n = .ok x → x = f n)
    (h : accRow op t N term v = .ok v') : v'.size = v.size ∧ (∀ k, k ≠ t → v'.get k = v.get k) ∧
      v'.get t = v.get t + e * ∑ n ∈ range N, f n ∧ (0 < N → InI32 (v'.get t)) := by
  unfold accRow at h
  induction N generalizing v' with
  | zero => cases h; exact ⟨rfl, fun _ _ => rfl, by simp, fun h => by omega⟩
  | succ N ih =>
    rw [loop_succ, bind_eq_ok] at h
    obtain ⟨u, h1, h2⟩ := h
    rw [bind_eq_ok] at h2
    obtain ⟨x, h2, h3⟩ := h2
    rw [updAt_eq_ok] at h3
    obtain ⟨_, y, h4, rfl⟩ := h3
    obtain ⟨a1, a2, a3, _⟩ := ih (fun n x hn => hf n x (by omega)) h1
    obtain ⟨b1, b2⟩ := ho _ _ _ h4
    refine ⟨a1, fun k hk => (if_neg hk).trans (a2 k hk), ?_, fun _ => ?_⟩
    · dsimp only
      rw [if_pos rfl, b2, a3, hf N x (by omega) h2, sum_range_succ]
      ring
    · dsimp only
      rw [if_pos rfl]
      exact b1

theorem accG_lin {op : Int → Int → C Int} {e : Int} (ho : Adds' op e) {T N : Nat} {term : Nat → Nat → C Int}
    {f : Nat → Nat → Int} {v v' : Vec Int} (hf : ∀ t n x, t < T → n < N → term t n = .ok x → x = f t n)
    (h : accG op T N term v = .ok v') : v'.size = v.size ∧ (∀ k, T ≤ k → v'.get k = v.get k) ∧
      ∀ t, t < T → v'.get t = v.get t + e * ∑ n ∈ range N, f t n ∧ (0 < N → InI32 (v'.get t)) :=
  rowLoop_inv (P := fun t a b => b = a + e * ∑ n ∈ range N, f t n ∧ (0 < N → InI32 b))
    (fun i hi _ _ h => accRow_lin ho (fun n x => hf i n x hi) h) h

/-! ## Terms -/

/-- The value of `a << k`, if there is one. -/
def shlVal (a : Int) (k : Nat) : Int := if a < 0 then a * 2 ^ k else wrap32 (a * 2 ^ k)

theorem wrap32_cong (z : Int) : Cong (wrap32 z) z := by
  unfold Cong Int.ModEq wrap32
  omega

theorem wrap32_in (z : Int) : InI32 (wrap32 z) := by
  unfold InI32 wrap32
  omega

theorem shlVal_cong (a : Int) (k : Nat) : Cong (shlVal a k) (a * 2 ^ k) := by
  unfold shlVal
  split
  · exact .rfl
  · exact wrap32_cong _

theorem shlI_inv {b : Bool} {a c : Int} {k : Nat} (h : shlI b a k = .ok c) : c = shlVal a k := by
  unfold shlI at h
  unfold shlVal
  split at h
  · split at h
    · next ha =>
      rw [if_pos ha]
      split at h
      · cases h
      · exact (i32_eq_ok.1 h).2.symm
    · next ha =>
      rw [if_neg ha]
      split at h
      · exact (ok_inj.1 h).symm
      · cases h
  · cases h

theorem shlL_inv {b : Bool} {a c : Int} {k : Nat} (h : shlL b a k = .ok c) : c = a * 2 ^ k := by
  unfold shlL at h
  split at h
  · split at h
    · cases h
    · unfold i64 at h
      split at h
      · exact (ok_inj.1 h).symm
      · cases h
  · cases h

theorem shiftedTmp_inv {b : Bool} {S : Nat} {sh : Vec Nat} {t : Vec Int} {i s : Nat} {x : Int}
    (h : shiftedTmp b S sh t i s = .ok x) : x = shlVal (t.get (i * S + s)) (sh.get s) := by
  unfold shiftedTmp at h
  simp only [bind_eq_ok, Vec.rd_eq_ok] at h
  obtain ⟨a, ⟨_, rfl⟩, k, ⟨_, rfl⟩, h⟩ := h
  exact shlI_inv h

theorem diffTerm_inv {gd : Gd} {v : Vec Int} {t j : Nat} {x : Int} (h : diffTerm gd v t j = .ok x) :
    x = (gd.p.get t j - gd.m.get t j) * v.get j := by
  unfold diffTerm at h
  simp only [bind_eq_ok, Vec.rd_eq_ok, Mat.rd_eq_ok, subI_eq_ok, mulI_eq_ok] at h
  obtain ⟨a, ⟨_, rfl⟩, b, ⟨_, rfl⟩, c, ⟨_, rfl⟩, d, ⟨_, rfl⟩, _, rfl⟩ := h
  rfl

theorem diffTermNeg_inv {gd : Gd} {v : Vec Int} {t j : Nat} {x : Int} (h : diffTermNeg gd v t j = .ok x) :
    x = (gd.m.get t j - gd.p.get t j) * v.get j := by
  unfold diffTermNeg at h
  simp only [bind_eq_ok, Vec.rd_eq_ok, Mat.rd_eq_ok, subI_eq_ok, mulI_eq_ok] at h
  obtain ⟨a, ⟨_, rfl⟩, b, ⟨_, rfl⟩, c, ⟨_, rfl⟩, d, ⟨_, rfl⟩, _, rfl⟩ := h
  rfl

theorem posTerm_inv {gd : Gd} {v : Vec Int} {t j : Nat} {x : Int} (h : posTerm gd v t j = .ok x) :
    x = gd.p.get t j * v.get j := by
  unfold posTerm at h
  simp only [bind_eq_ok, Vec.rd_eq_ok, Mat.rd_eq_ok, mulI_eq_ok] at h
  obtain ⟨a, ⟨_, rfl⟩, d, ⟨_, rfl⟩, _, rfl⟩ := h
  rfl

theorem fill_zero_get {v : Vec Int} {k : Nat} (h : k < v.size) : (v.fill 0).get k = 0 := Vec.fill_get h

/-- The row sums of the shifted columns. -/
theorem rows_cong {S m n i : Nat} {sh : Nat → Nat} {D W : Nat → Nat → Int} {t : Vec Int} {x : Nat → Int} (hi : i < m)
    (hW : ∀ j, j < n → ∑ s ∈ range S, D (i * S + s) j * 2 ^ sh s = W i j)
    (ht : ∀ k, k < m * S → Cong (t.get k) (∑ j ∈ range n, D k j * x j)) :
    Cong (∑ s ∈ range S, shlVal (t.get (i * S + s)) (sh s)) (∑ j ∈ range n, W i j * x j) := by
  refine (cong_sum (g := fun s => (∑ j ∈ range n, D (i * S + s) j * x j) * 2 ^ sh s) fun s hs =>
    (shlVal_cong _ _).trans ((ht _ (blk_lt hi hs)).mul_right _)).trans ?_
  refine cong_eq ?_
  simp_rw [sum_mul]
  rw [sum_comm]
  refine sum_congr rfl fun j hj => ?_
  rw [← hW j (mem_range.1 hj), sum_mul]
  exact sum_congr rfl fun s _ => by ring

/-! ## Multiplications -/

section
variable {K : Type} {E : Env K} {cfg : Cfg K} {c : Core K} {a a' : Aux K} {res vec r : Vec Int}
  {m n : Nat} {W : Nat → Nat → Int}

/-- The rows of `r` are those of `res` plus `f`, modulo `2^32`. -/
def AddsMod (r res : Vec Int) (f : Nat → Int) (m : Nat) : Prop :=
  r.size = res.size ∧ (∀ i, m ≤ i → r.get i = res.get i) ∧
    ∀ i, i < m → InI32 (r.get i) ∧ Cong (r.get i) (res.get i + f i)

theorem dMvmIntIV_mod (hS : 0 < cfg.S) (ht : m * cfg.S ≤ a.tmpInt.size)
    (hW : ∀ i j, i < m → j < n → ∑ s ∈ range cfg.S, c.D (i * cfg.S + s) j * 2 ^ c.shift.get s = W i j)
    (h : dMvmIntIV E cfg c a res vec m n = .ok (a', r)) :
    AddsMod r res (fun i => ∑ j ∈ range n, W i j * vec.get j) m := by
  unfold dMvmIntIV at h
  simp only [bind_eq_ok, ok_inj, Prod.mk.injEq] at h
  obtain ⟨t, h1, q, h2, _, rfl⟩ := h
  obtain ⟨-, -, t3⟩ := accG_lin adds_addI (fun _ _ _ _ _ => diffTerm_inv) h1
  obtain ⟨q1, q2, q3⟩ := accG_lin adds_addI (fun _ _ _ _ _ => shiftedTmp_inv) h2
  refine ⟨q1, q2, fun i hi => ⟨(q3 i hi).2 hS, ?_⟩⟩
  rw [(q3 i hi).1, one_mul]
  refine Int.ModEq.rfl.add (rows_cong (m := m) (D := c.D) hi (fun j hj => hW i j hi hj) fun k hk => ?_)
  rw [(t3 k hk).1, fill_zero_get (by omega), one_mul, zero_add]
  exact .rfl

theorem encSigned_inv {vec vp vm : Vec Int} {v : Vec Int × Vec Int} (h : encSigned n vec vp vm = .ok v) :
    ∀ j, j < n → v.1.get j - v.2.get j = vec.get j := by
  unfold encSigned at h
  have key : ∀ N (v : Vec Int × Vec Int), loop N (fun i (st : Vec Int × Vec Int) => do
      let x ← vec.rd i
      if 0 ≤ x then do
        let p ← st.1.wr i x
        let q ← st.2.wr i 0
        .ok (p, q)
      else do
        let p ← st.1.wr i 0
        let y ← negI x
        let q ← st.2.wr i y
        .ok (p, q)) (vp, vm) = .ok v → ∀ j, j < N → v.1.get j - v.2.get j = vec.get j := by
    intro N
    induction N with
    | zero => intro v _ j hj; omega
    | succ N ih =>
      intro v h j hj
      rw [loop_succ, bind_eq_ok] at h
      obtain ⟨u, h1, h2⟩ := h
      have ih := ih u h1
      rw [bind_eq_ok] at h2
      obtain ⟨x, h2, h3⟩ := h2
      obtain ⟨_, rfl⟩ := Vec.rd_eq_ok.1 h2
      have wr : ∀ {v w : Vec Int} {i : Nat} {a : Int}, v.wr i a = .ok w →
          w.get = fun k => if k = i then a else v.get k := fun {v w i a} h => by
        unfold Vec.wr at h
        split at h
        · cases h; rfl
        · cases h
      split at h3
      · simp only [bind_eq_ok, ok_inj] at h3
        obtain ⟨p, h4, q, h5, rfl⟩ := h3
        dsimp only
        rw [wr h4, wr h5]
        dsimp only
        split
        · next e => rw [e, sub_zero]
        · exact ih j (by omega)
      · simp only [bind_eq_ok, ok_inj, negI_eq_ok] at h3
        obtain ⟨p, h4, y, ⟨_, rfl⟩, q, h5, rfl⟩ := h3
        dsimp only
        rw [wr h4, wr h5]
        dsimp only
        split
        · next e => rw [e, zero_sub, neg_neg]
        · exact ih j (by omega)
  exact key n v h

theorem dMvmIntI_mod (hS : 0 < cfg.S) (ht : m * cfg.S ≤ a.tmpInt.size)
    (hW : ∀ i j, i < m → j < n → ∑ s ∈ range cfg.S, c.D (i * cfg.S + s) j * 2 ^ c.shift.get s = W i j)
    (h : dMvmIntI E cfg c a res vec m n = .ok (a', r)) :
    AddsMod r res (fun i => ∑ j ∈ range n, W i j * vec.get j) m := by
  unfold dMvmIntI at h
  simp only [bind_eq_ok, ok_inj, Prod.mk.injEq] at h
  obtain ⟨v, h0, t, h1, q, h2, t', h3, q', h4, _, rfl⟩ := h
  obtain ⟨ts, -, t3⟩ := accG_lin adds_addI (fun _ _ _ _ _ => diffTerm_inv) h1
  obtain ⟨q1, q2, q3⟩ := accG_lin adds_addI (fun _ _ _ _ _ => shiftedTmp_inv) h2
  obtain ⟨-, -, t3'⟩ := accG_lin adds_addI (fun _ _ _ _ _ => diffTermNeg_inv) h3
  obtain ⟨q1', q2', q3'⟩ := accG_lin adds_addI (fun _ _ _ _ _ => shiftedTmp_inv) h4
  refine ⟨q1'.trans q1, fun i hi => (q2' i hi).trans (q2 i hi), fun i hi => ⟨(q3' i hi).2 hS, ?_⟩⟩
  rw [(q3' i hi).1, (q3 i hi).1, one_mul, one_mul, add_assoc]
  refine Int.ModEq.rfl.add ?_
  have e : ∑ j ∈ range n, W i j * vec.get j =
      ∑ j ∈ range n, W i j * v.1.get j + ∑ j ∈ range n, -W i j * v.2.get j := by
    rw [← sum_add_distrib]
    refine sum_congr rfl fun j hj => ?_
    rw [← encSigned_inv h0 j (mem_range.1 hj)]
    ring
  dsimp only
  rw [e]
  refine (rows_cong (m := m) (D := c.D) hi (fun j hj => hW i j hi hj) fun k hk => ?_).add
    (rows_cong (m := m) (D := fun t j => -c.D t j) (W := fun i j => -W i j) hi (fun j hj => ?_) fun k hk => ?_)
  · rw [(t3 k hk).1, fill_zero_get (by omega), one_mul, zero_add]
    exact .rfl
  · rw [← hW i j hi hj, ← sum_neg_distrib]
    exact sum_congr rfl fun s _ => by ring
  · rw [(t3' k hk).1, fill_zero_get (by rw [ts]; exact (by omega : k < a.tmpInt.size)), one_mul, zero_add]
    refine cong_eq (sum_congr rfl fun j _ => ?_)
    simp only [Core.D]
    ring

theorem dMvmIntII_mod (hi1 : 1 ≤ cfg.iBit) (ht : m * cfg.S ≤ a.tmpInt.size)
    (hW : ∀ i j, i < m → j < n → ∑ s ∈ range cfg.S, c.D (i * cfg.S + s) j * 2 ^ c.shift.get s = W i j)
    (h : dMvmIntII E cfg c a res vec m n = .ok (a', r)) :
    AddsMod r res (fun i => ∑ j ∈ range n, W i j * vec.get j +
      2 ^ (cfg.iBit - 1) * (∑ j ∈ range n, W i j - c.gd.sumW.get i)) m := by
  have hu : u32sub cfg.iBit 1 = cfg.iBit - 1 := if_pos hi1
  unfold dMvmIntII at h
  simp only [bind_eq_ok, ok_inj, Prod.mk.injEq] at h
  obtain ⟨v, h0, t, h1, q, h2, _, rfl⟩ := h
  unfold encOffs at h0
  obtain ⟨_, v2⟩ := setG_inv h0
  have hv : ∀ j, j < n → Cong (v.get j) (2 ^ (cfg.iBit - 1) + vec.get j) := fun j hj => by
    have := (v2 j hj).2
    simp only [bind_eq_ok, Vec.rd_eq_ok, addI_eq_ok] at this
    obtain ⟨o, h3, x, ⟨_, rfl⟩, _, h4⟩ := this
    rw [← h4, shlI_inv h3, hu]
    have := shlVal_cong 1 (cfg.iBit - 1)
    rw [one_mul] at this
    exact this.add_right _
  obtain ⟨-, -, t3⟩ := accG_lin adds_addI (fun _ _ _ _ _ => diffTerm_inv) h1
  refine rowLoop_inv (P := fun i x y => InI32 y ∧ Cong y (x + (∑ j ∈ range n, W i j * vec.get j +
      2 ^ (cfg.iBit - 1) * (∑ j ∈ range n, W i j - c.gd.sumW.get i)))) (fun i hi u u' h => ?_) h2
  simp only [bind_eq_ok] at h
  obtain ⟨w, h3, k, h4, h5⟩ := h
  obtain ⟨w1, w2, w3, _⟩ := accRow_lin adds_addI (fun _ _ _ => shiftedTmp_inv) h3
  unfold sumShift at h4
  simp only [bind_eq_ok, Vec.rd_eq_ok] at h4
  obtain ⟨_, ⟨_, rfl⟩, h4⟩ := h4
  rw [updAt_eq_ok] at h5
  obtain ⟨_, y, h6, rfl⟩ := h5
  obtain ⟨h7, h8⟩ := subI_eq_ok.1 h6
  rw [h8] at h7
  refine ⟨w1, fun k hk => (if_neg hk).trans (w2 k hk), ?_⟩
  dsimp only
  rw [if_pos rfl]
  refine ⟨h7, ?_⟩
  rw [← h8, w3, one_mul, shlI_inv h4, hu]
  have e : u.get i + (∑ j ∈ range n, W i j * vec.get j +
      2 ^ (cfg.iBit - 1) * (∑ j ∈ range n, W i j - c.gd.sumW.get i)) =
      u.get i + (∑ j ∈ range n, W i j * (2 ^ (cfg.iBit - 1) + vec.get j)) -
        c.gd.sumW.get i * 2 ^ (cfg.iBit - 1) := by
    simp_rw [mul_add]
    rw [sum_add_distrib, ← sum_mul]
    ring
  rw [e]
  refine (Int.ModEq.rfl.add ((rows_cong (m := m) (D := c.D) hi (fun j hj => hW i j hi hj) fun k hk => ?_).trans
    (cong_sum fun j hj => (hv j hj).mul_left _))).sub (shlVal_cong _ _)
  rw [(t3 k hk).1, fill_zero_get (by omega), one_mul, zero_add]
  exact .rfl

theorem twos_complement (x : Int) {p : Int} (hp : 0 < p) :
    x % p - x / p % 2 * p = (x + p) % (p + p) - p := by
  have h1 := Int.mul_ediv_add_emod x p
  have h3 := Int.emod_nonneg x hp.ne'
  have h4 := Int.emod_lt_of_pos x hp
  generalize x % p = r at *
  generalize x / p = q at *
  subst h1
  have h2 := Int.mul_ediv_add_emod q 2
  have h5 : q % 2 = 0 ∨ q % 2 = 1 := by omega
  generalize q / 2 = u at *
  rcases h5 with h5 | h5 <;> rw [h5] at h2 ⊢ <;> subst h2
  · have e : p * (2 * u + 0) + r + p = (r + p) + (p + p) * u := by ring
    rw [e, Int.add_mul_emod_self_left, Int.emod_eq_of_lt (by omega) (by omega)]
    ring
  · have e : p * (2 * u + 1) + r + p = r + (p + p) * (u + 1) := by ring
    rw [e, Int.add_mul_emod_self_left, Int.emod_eq_of_lt (by omega) (by omega)]
    ring

theorem dMvmIntIII_mod (hS : 0 < cfg.S) (hi1 : 1 ≤ cfg.iBit) (hi31 : cfg.iBit ≤ 31) (ht : m * cfg.S ≤ a.tmpInt.size)
    (hW : ∀ i j, i < m → j < n → ∑ s ∈ range cfg.S, c.D (i * cfg.S + s) j * 2 ^ c.shift.get s = W i j)
    (h : dMvmIntIII E cfg c a res vec m n = .ok (a', r)) :
    AddsMod r res (fun i => ∑ j ∈ range n, W i j *
      ((vec.get j + 2 ^ (cfg.iBit - 1)) % 2 ^ cfg.iBit - 2 ^ (cfg.iBit - 1))) m := by
  have hu : u32sub cfg.iBit 1 = cfg.iBit - 1 := if_pos hi1
  have hp : (2 : Int) ^ cfg.iBit = 2 ^ (cfg.iBit - 1) + 2 ^ (cfg.iBit - 1) := by
    obtain ⟨k, hk⟩ : ∃ k, cfg.iBit = k + 1 := ⟨cfg.iBit - 1, by omega⟩
    rw [hk, pow_succ]; simp; ring
  unfold dMvmIntIII at h
  rw [hu, maskOf_ok (by omega), ok_bind, shl_one (by omega)] at h
  simp only [bind_eq_ok, ok_inj, Prod.mk.injEq] at h
  obtain ⟨v, h0, t, h1, _, rfl, v', h0', t', h3, q, h2, _, rfl⟩ := h
  unfold encMask at h0 h0'
  obtain ⟨_, v2⟩ := setG_inv h0
  obtain ⟨_, v2'⟩ := setG_inv h0'
  have hv : ∀ j, j < n → v.get j - v'.get j =
      (vec.get j + 2 ^ (cfg.iBit - 1)) % 2 ^ cfg.iBit - 2 ^ (cfg.iBit - 1) := fun j hj => by
    have a1 := (v2 j hj).2
    have a2 := (v2' j hj).2
    simp only [bind_eq_ok, Vec.rd_eq_ok, ok_inj] at a1 a2
    obtain ⟨_, ⟨_, rfl⟩, a1⟩ := a1
    obtain ⟨_, ⟨_, rfl⟩, a2⟩ := a2
    rw [← a1, ← a2, and32_comm, and32_mask _ (by omega), and32_comm, and32_bit _ (by omega), hp]
    exact twos_complement _ (by positivity)
  obtain ⟨ts, -, t3⟩ := accG_lin adds_addI (fun _ _ _ _ _ => diffTerm_inv) h1
  obtain ⟨-, -, t3'⟩ := accG_lin adds_subI (fun _ _ _ _ _ => diffTerm_inv) h3
  obtain ⟨q1, q2, q3⟩ := accG_lin adds_addI (fun _ _ _ _ _ => shiftedTmp_inv) h2
  refine ⟨q1, q2, fun i hi => ⟨(q3 i hi).2 hS, ?_⟩⟩
  rw [(q3 i hi).1, one_mul]
  refine Int.ModEq.rfl.add (rows_cong (m := m) (D := c.D) hi (fun j hj => hW i j hi hj) fun k hk => ?_)
  rw [(t3' k hk).1, (t3 k hk).1, fill_zero_get (by omega), one_mul, zero_add]
  refine cong_eq ?_
  rw [neg_one_mul, ← sub_eq_add_neg, ← sum_sub_distrib]
  refine sum_congr rfl fun j hj => ?_
  rw [← hv j (mem_range.1 hj)]
  simp only [Core.D]
  ring

theorem inpSum_inv {z : Int} (h : inpSum n vec = .ok z) : z = ∑ j ∈ range n, vec.get j := by
  unfold inpSum at h
  refine loop_inv (fun i => ∑ j ∈ range i, vec.get j) (by simp) (fun i hi t h => ?_) h
  simp only [bind_eq_ok, Vec.rd_eq_ok] at h
  obtain ⟨_, ⟨_, rfl⟩, h⟩ := h
  unfold addL i64 at h
  split at h
  · rw [sum_range_succ]
    exact (ok_inj.1 h).symm
  · cases h

theorem dMvmIntV_mod (hw1 : 1 ≤ cfg.wBit) (ht : m * cfg.S ≤ a.tmpInt.size)
    (hW : ∀ i j, i < m → j < n → ∑ s ∈ range cfg.S, c.gd.p.get (i * cfg.S + s) j * 2 ^ c.shift.get s =
      W i j + 2 ^ (cfg.wBit - 1))
    (h : dMvmIntV E cfg c a res vec m n = .ok (a', r)) :
    AddsMod r res (fun i => ∑ j ∈ range n, W i j * vec.get j) m := by
  have hu : u32sub cfg.wBit 1 = cfg.wBit - 1 := if_pos hw1
  unfold dMvmIntV at h
  simp only [bind_eq_ok, ok_inj, Prod.mk.injEq] at h
  obtain ⟨z, h0, t, h1, q, h2, _, rfl⟩ := h
  obtain ⟨-, -, t3⟩ := accG_lin adds_addI (fun _ _ _ _ _ => posTerm_inv) h1
  refine rowLoop_inv (P := fun i x y => InI32 y ∧ Cong y (x + ∑ j ∈ range n, W i j * vec.get j))
    (fun i hi u u' h => ?_) h2
  simp only [bind_eq_ok] at h
  obtain ⟨w, h3, k, h4, h5⟩ := h
  obtain ⟨w1, w2, w3, _⟩ := accRow_lin adds_addI (fun _ _ _ => shiftedTmp_inv) h3
  rw [updAt_eq_ok] at h5
  obtain ⟨_, y, h6, rfl⟩ := h5
  simp only [bind_eq_ok, ok_inj] at h6
  obtain ⟨d, h6, h7⟩ := h6
  have hd : w.get i - k = d := by
    unfold i64 at h6
    split at h6
    · exact ok_inj.1 h6
    · cases h6
  refine ⟨w1, fun k hk => (if_neg hk).trans (w2 k hk), ?_⟩
  dsimp only
  rw [if_pos rfl, ← h7]
  refine ⟨wrap32_in _, (wrap32_cong _).trans ?_⟩
  rw [← hd, w3, one_mul, shlL_inv h4, hu, inpSum_inv h0]
  have e : u.get i + ∑ j ∈ range n, W i j * vec.get j =
      u.get i + (∑ j ∈ range n, (W i j + 2 ^ (cfg.wBit - 1)) * vec.get j) -
        (∑ j ∈ range n, vec.get j) * 2 ^ (cfg.wBit - 1) := by
    simp_rw [add_mul]
    rw [sum_add_distrib, ← mul_sum]
    ring
  rw [e]
  refine (Int.ModEq.rfl.add (rows_cong (m := m) (D := c.gd.p.get) (W := fun i j => W i j + 2 ^ (cfg.wBit - 1)) hi
    (fun j hj => hW i j hi hj) fun k hk => ?_)).sub .rfl
  rw [(t3 k hk).1, fill_zero_get (by omega), one_mul, zero_add]

end

/-! ## Crossbars -/

section
variable {K : Type} [Field K] [LinearOrder K] [IsStrictOrderedRing K] [FloorRing K]
variable {E : Env K} {cfg : Cfg K} {c : Core K} {x x' : Xbar K} {L : Nat → Nat → Option Int} {res vec mat r : Vec Int}
  {h : List Op} {m n : Nat} {l : String} {W : Nat → Nat → Int}

theorem decode_diff (hi : IntOk cfg) (hm : cfg.mode ≠ .iUintWOffs)
    (hp : ∀ w s, encP cfg w s = cellP w (shiftOf cfg.split s) (cfg.split.getD s 0))
    (hm' : ∀ w s, encM cfg w s = cellM w (shiftOf cfg.split s) (cfg.split.getD s 0))
    (hrow : ∀ r, rowOf cfg r = (r / cfg.split.length, r % cfg.split.length))
    (hc : CoreShape E cfg c) (h : Cells cfg c.gd L) {i j : Nat} {w : Int} (hl : L i j = some w) :
    ∑ s ∈ range cfg.S, c.D (i * cfg.S + s) j * 2 ^ c.shift.get s = wrapW cfg w := by
  have hD : ∀ s, s < cfg.S → c.D (i * cfg.S + s) j
      = cellP w (shiftOf cfg.split s) (cfg.split.getD s 0) - cellM w (shiftOf cfg.split s) (cfg.split.getD s 0) := by
    intro s hs
    unfold Core.D
    rw [h.p, h.m]
    simp only [hrow]
    have e1 : (i * cfg.S + s) / cfg.split.length = i := blk_div hs
    have e2 : (i * cfg.S + s) % cfg.split.length = s := blk_mod hs
    rw [e1, e2, hl]
    simp only [cellOf, hp, hm']
  have hsum := hi.sum
  unfold wrapW
  rw [if_neg hm, sum_congr rfl fun s hs => by rw [hD s (mem_range.1 hs), hi.shift hc]]
  by_cases h0 : 0 ≤ w
  · rw [if_pos h0, sum_congr rfl fun s _ => by rw [cellP, cellM, if_pos h0, if_pos h0, sub_zero]]
    rw [show (∑ s ∈ range cfg.S, dg w (shiftOf cfg.split s) (cfg.split.getD s 0)
      * 2 ^ shiftOf cfg.split s) = _ from bits_sum _ _, hsum]
  · rw [if_neg h0, sum_congr rfl fun s _ => by rw [cellP, cellM, if_neg h0, if_neg h0, zero_sub, neg_mul]]
    rw [sum_neg_distrib, show (∑ s ∈ range cfg.S, dg (-w) (shiftOf cfg.split s)
      (cfg.split.getD s 0) * 2 ^ shiftOf cfg.split s) = _ from bits_sum _ _, hsum]

theorem decode_offs (hi : IntOk cfg) (hm : cfg.mode = .iUintWOffs)
    (hp : ∀ w s, encP cfg w s = dg (w + 2 ^ (cfg.wBit - 1)) (shiftOf cfg.split s) (cfg.split.getD s 0))
    (hrow : ∀ r, rowOf cfg r = (r / cfg.split.length, r % cfg.split.length))
    (hc : CoreShape E cfg c) (h : Cells cfg c.gd L) {i j : Nat} {w : Int} (hl : L i j = some w) :
    ∑ s ∈ range cfg.S, c.gd.p.get (i * cfg.S + s) j * 2 ^ c.shift.get s = wrapW cfg w + 2 ^ (cfg.wBit - 1) := by
  have hD : ∀ s, s < cfg.S → c.gd.p.get (i * cfg.S + s) j
      = dg (w + 2 ^ (cfg.wBit - 1)) (shiftOf cfg.split s) (cfg.split.getD s 0) := by
    intro s hs
    rw [h.p]
    simp only [hrow]
    have e1 : (i * cfg.S + s) / cfg.split.length = i := blk_div hs
    have e2 : (i * cfg.S + s) % cfg.split.length = s := blk_mod hs
    rw [e1, e2, hl]
    simp only [cellOf, hp]
  have hsum := hi.sum
  unfold wrapW
  rw [if_pos hm, sum_congr rfl fun s hs => by rw [hD s (mem_range.1 hs), hi.shift hc]]
  rw [show (∑ s ∈ range cfg.S, dg (w + 2 ^ (cfg.wBit - 1)) (shiftOf cfg.split s)
    (cfg.split.getD s 0) * 2 ^ shiftOf cfg.split s) = _ from bits_sum _ _, hsum, sub_add_cancel]

/-- A digital multiplication of an integer crossbar, whatever the operands. -/
theorem xMvm_mod (hfam : cfg.mode.family = .int) (hok : CfgOk cfg) (hdo : cfg.digitalOnly = true)
    (hr : Runs E cfg h x) (hd : Accepted cfg m n)
    (hw : ∀ i j, i < m → j < n → lastWrite h i j = some (W i j)) (hs : cfg.mode = .iOffsWDiff → WidthIs n h)
    (hx : xMvm E cfg x res vec mat m n l = .ok (x', r)) :
    AddsMod r res (fun i => ∑ j ∈ range n, wrapW cfg (W i j) * usedX cfg (vec.get j) + cutError cfg (W i) n) m := by
  have hi := intOk hok (by simp [Mode.isInt, hfam])
  have sh := runs_shape hr
  have hc := sh.core
  have hcells := runs_cells hok hr
  have hS : 0 < cfg.S := by
    rcases Nat.eq_zero_or_pos cfg.S with h0 | h0
    · have h1 := hi.sum
      have h2 := hi.w1
      rw [List.length_eq_zero_iff.1 h0] at h1
      simp at h1
      omega
    · exact h0
  have ht : m * cfg.S ≤ x.mapper.aux.tmpInt.size := by
    have := Fits.row hok hd
    rw [sh.aux.tmpInt]
    omega
  unfold xMvm at hx
  dsimp only at hx
  rw [if_pos hdo, bind_eq_ok] at hx
  obtain ⟨q, hq, hx⟩ := hx
  simp only [ok_inj, Prod.mk.injEq] at hx
  obtain ⟨_, rfl⟩ := hx
  have hoff : cfg.mode ≠ .iOffsWDiff → ∀ i, cutError cfg (W i) n = 0 := fun hm i => if_neg hm
  have hus : cfg.mode ≠ .iTcWDiff → ∀ y, usedX cfg y = y := fun hm y => if_neg hm
  have dd : cfg.mode ≠ .iUintWOffs → ∀ i j, i < m → j < n →
      ∑ s ∈ range cfg.S, x.mapper.core.D (i * cfg.S + s) j * 2 ^ x.mapper.core.shift.get s = wrapW cfg (W i j) :=
    fun hm i j h1 h2 => decode_diff hi hm
      (fun w s => by cases hmd : cfg.mode <;> simp_all [encP, Mode.family] <;> rfl)
      (fun w s => by cases hmd : cfg.mode <;> simp_all [encM, Mode.family] <;> rfl)
      (fun r => by cases hmd : cfg.mode <;> simp_all [rowOf, Mode.family]) hc hcells (hw i j h1 h2)
  have hq' : dMvm E cfg x.mapper.core x.mapper.aux res vec m n = .ok (q.1, q.2) := hq
  unfold dMvm at hq'
  rw [hc.mode] at hq'
  cases hmd : cfg.mode <;> rw [hmd] at hfam hq' hoff hus dd <;> simp only [Mode.family, reduceCtorEq] at hfam <;>
    dsimp only at hq'
  case iDiffWDiff1 =>
    have := dMvmIntI_mod hS ht (dd (by decide)) hq'
    simpa only [hoff (by decide), hus (by decide), add_zero] using this
  case iDiffWDiff2 =>
    have := dMvmIntI_mod hS ht (dd (by decide)) hq'
    simpa only [hoff (by decide), hus (by decide), add_zero] using this
  case iOffsWDiff =>
    have := dMvmIntII_mod hi.i1 ht (dd (by decide)) hq'
    have e : ∀ i, i < m → cutError cfg (W i) n =
        2 ^ (cfg.iBit - 1) * (∑ j ∈ range n, wrapW cfg (W i j) - x.mapper.core.gd.sumW.get i) := fun i h1 => by
      unfold cutError
      rw [if_pos hmd, runs_sums hr (by rw [hmd]; rfl) (hs hmd), sum_sub_distrib]
      congr 2
      exact sum_congr rfl fun j hj => by rw [val, hw i j h1 (mem_range.1 hj)]; rfl
    refine ⟨this.1, this.2.1, fun i h1 => ⟨(this.2.2 i h1).1, ?_⟩⟩
    have := (this.2.2 i h1).2
    simp only [hus (by decide), e i h1]
    exact this
  case iTcWDiff =>
    have := dMvmIntIII_mod hS hi.i1 hi.i31 ht (dd (by decide)) hq'
    simpa only [hoff (by decide), usedX, if_pos hmd, add_zero] using this
  case iUintWDiff =>
    have := dMvmIntIV_mod hS ht (dd (by decide)) hq'
    simpa only [hoff (by decide), hus (by decide), add_zero] using this
  case iUintWOffs =>
    have := dMvmIntV_mod (W := fun i j => wrapW cfg (W i j)) hi.w1 ht (fun i j h1 h2 => decode_offs hi hmd
      (fun w s => by simp only [encP, hmd]; rfl) (fun r => by simp only [rowOf, hmd]) hc hcells (hw i j h1 h2)) hq'
    simpa only [hoff (by decide), hus (by decide), add_zero] using this

theorem wrapW_legal (hok : CfgOk cfg) (hfam : cfg.mode.family = .int) {w : Int} (h1 : LegalW cfg w) :
    wrapW cfg w = w := by
  have hio := intOk hok (by simp [Mode.isInt, hfam])
  have h2 : (2 : Int) ^ cfg.wBit = 2 ^ (cfg.wBit - 1) + 2 ^ (cfg.wBit - 1) := by
    obtain ⟨k, hk⟩ : ∃ k, cfg.wBit = k + 1 := ⟨cfg.wBit - 1, by have := hio.w1; omega⟩
    rw [hk, pow_succ, Nat.add_sub_cancel]; ring
  unfold wrapW
  cases hmd : cfg.mode <;> simp only [hmd, Mode.family, reduceCtorEq] at hfam <;> simp only [LegalW, hmd] at h1 <;>
    simp only [reduceCtorEq, if_true, if_false]
  case iUintWOffs => rw [Int.emod_eq_of_lt (by linarith [h1.1]) (by linarith [h1.2])]; ring
  all_goals
    rw [abs_lt] at h1
    split
    · rw [Int.emod_eq_of_lt (by assumption) h1.2]
    · rw [Int.emod_eq_of_lt (by linarith) (by linarith [h1.1]), neg_neg]

end

end Acs
