import Verif.Lemmas.FlInt

/-!
# Results of the integer mappings in floating point
-/

set_option linter.unusedSectionVars false

namespace Acs

open Finset Spec

section
variable {K : Type} [Field K] [LinearOrder K] [IsStrictOrderedRing K] [FloorRing K]
variable {E : Env K} {cfg : Cfg K} {c : Core K} {a : Aux K}
variable {mat vec res v w : Vec Int} {m n N : Nat} {l : String} {A : K} {st : Nat → K} {sg : K}
variable {D W : Nat → Nat → Int} {e : Nat → Nat → K}

theorem ConvBits.over {α : Type} {col : (Nat → Int) → Nat → K} {val : α → K} {op : α → K → C α}
    {f : Nat → Int} {τ : Nat → Nat → Nat → K} {term : Vec Int → Nat → Nat → C K} (hD : Delivers E cfg c term col m n)
    (h : ConvBits E cfg c col st A val op f sg m N l τ e) :
    ConvBits E cfg c col st A val op (v.over n f).get sg m N l τ e := by
  intro b i s hb hi hs
  rw [hD.congr (f := fun j => bitOf ((v.over n f).get j) b) (g := fun j => bitOf (f j) b) (fun _ => bitOf_cases _ _)
    (fun _ => bitOf_cases _ _) (fun j hj => by rw [Vec.over_lt hj]) (blk_lt hi hs)]
  exact h b i s hb hi hs

/-- The targets as numbers of `K`. -/
def tgtK (K : Type) [Field K] (c : Core K) (cfg : Cfg K) (D : Nat → Nat → Int) (v : Nat → Int) (n b i s : Nat) : K :=
  ((tgt c.shift.get cfg.S D v n b i s : Int) : K)

theorem tgtK_sum {v : Nat → Int} (h : Enc cfg.S c.shift.get D W m n) {i : Nat} (hi : i < m) (N : Nat) :
    ∑ b ∈ range N, ∑ s ∈ range cfg.S, tgtK K c cfg D v n b i s
      = ((∑ j ∈ range n, W i j * (v j % 2 ^ N) : Int) : K) := by
  rw [← tgt_sum h hi N]
  unfold tgtK
  push_cast
  rfl

namespace IntShape
variable (H : IntShape cfg c a st m n) (h : Enc cfg.S c.shift.get D W m n)
  (hv : n ≤ vec.size) (hr : m ≤ res.size) {col : (Nat → Int) → Nat → K}
  (hD : Delivers E cfg c (iaDiffTerm E c.ia) col m n)
include H h hv hr hD

theorem flIV (hN' : cfg.iBit ≤ 32) (hx : ∀ j, j < n → 0 ≤ vec.get j ∧ vec.get j < 2 ^ cfg.iBit)
    (h1 : ConvBits E cfg c col st A (Int.cast : Int → K) E.iaddf vec.get 1 m cfg.iBit l
      (tgtK K c cfg D vec.get n) e)
    (hA : ∀ i, i < m → |(res.get i : K)| + ∑ b ∈ range cfg.iBit, ∑ s ∈ range cfg.S,
      (|tgtK K c cfg D vec.get n b i s| + e b s) ≤ A) :
    Within (aMvmIntIV E cfg c a res vec m n l) W vec res m n (∑ b ∈ range cfg.iBit, ∑ s ∈ range cfg.S, e b s) := by
  unfold aMvmIntIV
  rw [IntHyp.encCopy_ok hv H.vdP, ok_bind]
  obtain ⟨sl, t', f, e1, -, -, hf⟩ := H.loopD hD (sl := a.vdSlice) (v := a.vdP.over n vec.get) (res := res) (l := l) (sg := 1) rfl
    hN' H.vdP H.vdS H.tmpFp hr one_ne_zero (h1.over hD) hA
  rw [e1, ok_bind]
  refine ⟨_, f, rfl, fun i hi => ?_⟩
  have := hf i hi
  rw [tgtK_sum h hi, sum_congr rfl fun j hj => by
    rw [Int.emod_eq_of_lt (hx j (mem_range.1 hj)).1 (hx j (mem_range.1 hj)).2]] at this
  rw [Int.cast_add]
  exact this

theorem flIII (hN : 1 ≤ cfg.iBit) (hN' : cfg.iBit ≤ 32)
    (hx : ∀ j, j < n → -2 ^ (cfg.iBit - 1) ≤ vec.get j ∧ vec.get j < 2 ^ (cfg.iBit - 1))
    (h1 : ConvBits E cfg c col st A (Int.cast : Int → K) E.iaddf vec.get 1 m cfg.iBit l
      (tgtK K c cfg D vec.get n) e)
    (h2 : ConvBits E cfg c col st A (Int.cast : Int → K) E.isubf vec.get 1 m cfg.iBit l
      (fun b i s => -tgtK K c cfg D vec.get n b i s) e)
    (hA : ∀ i, i < m → |(res.get i : K)| + ∑ b ∈ range cfg.iBit, ∑ s ∈ range cfg.S,
      (|tgtK K c cfg D vec.get n b i s| + e b s) ≤ A) :
    Within (aMvmIntIII E cfg c a res vec m n l) W vec res m n (∑ b ∈ range cfg.iBit, ∑ s ∈ range cfg.S, e b s) := by
  obtain ⟨N, hNN⟩ : ∃ N, cfg.iBit = N + 1 := ⟨cfg.iBit - 1, by omega⟩
  have key : ∀ g : Nat → K, ∑ b ∈ range cfg.iBit, g b = ∑ b ∈ range N, g b + g N := fun g => by
    rw [hNN, sum_range_succ]
  have hN1 : cfg.iBit - 1 = N := by omega
  have hNlt : N < cfg.iBit := by omega
  unfold aMvmIntIII
  rw [IntHyp.encCopy_ok hv H.vdP, ok_bind, u32sub_one hN, hN1]
  have h1' := h1.over (v := a.vdP) hD
  have h2' := h2.over (v := a.vdP) hD
  have n2 : ∀ i, i < m → 0 ≤ ∑ s ∈ range cfg.S, (|tgtK K c cfg D vec.get n N i s| + e N s) := fun i hi =>
    sum_nonneg fun s hs => add_nonneg (abs_nonneg _) (h1 N i s hNlt hi (mem_range.1 hs)).1
  obtain ⟨sl, t', f, e1, hsl, ht', hf⟩ := H.loopD hD (N := N) (sl := a.vdSlice) (v := a.vdP.over n vec.get) (res := res) (l := l)
    (sg := 1) (t0 := a.tmpFp) rfl (by omega) H.vdP H.vdS H.tmpFp hr one_ne_zero
    (fun b i s hb => h1' b i s (by omega))
    (fun i hi => by have := hA i hi; rw [key] at this; linarith [n2 i hi])
  rw [e1, ok_bind]
  dsimp only
  obtain ⟨t, d1, d2, d3⟩ := hD (fun j => bitOf ((a.vdP.over n vec.get).get j) N) sl t' (fun _ => bitOf_cases _ _) hsl ht'
  rw [sliceVd_ok (by exact H.vdP) hsl (by omega), ok_bind, d1, ok_bind]
  have bnd : ∀ i, i < m → |(f i : K)| + ∑ s ∈ range cfg.S, (|-tgtK K c cfg D vec.get n N i s| + e N s) ≤ A := by
    intro i hi
    have k1 := hf i hi
    have k2 := hA i hi
    rw [key] at k2
    have k4 : |∑ b' ∈ range N, ∑ s ∈ range cfg.S, tgtK K c cfg D vec.get n b' i s|
        ≤ ∑ b' ∈ range N, ∑ s ∈ range cfg.S, |tgtK K c cfg D vec.get n b' i s| :=
      (abs_sum_le_sum_abs _ _).trans (sum_le_sum fun _ _ => abs_sum_le_sum_abs _ _)
    have k5 := abs_add_le ((f i : K) - (res.get i + ∑ b ∈ range N, ∑ s ∈ range cfg.S, tgtK K c cfg D vec.get n b i s))
      (res.get i + ∑ b ∈ range N, ∑ s ∈ range cfg.S, tgtK K c cfg D vec.get n b i s)
    rw [sub_add_cancel] at k5
    have k6 := abs_add_le (res.get i : K) (∑ b ∈ range N, ∑ s ∈ range cfg.S, tgtK K c cfg D vec.get n b i s)
    have k7 : ∑ b' ∈ range N, ∑ s ∈ range cfg.S, (|tgtK K c cfg D vec.get n b' i s| + e b' s)
        = ∑ b' ∈ range N, ∑ s ∈ range cfg.S, |tgtK K c cfg D vec.get n b' i s|
          + ∑ b' ∈ range N, ∑ s ∈ range cfg.S, e b' s := by
      simp only [sum_add_distrib]
    simp only [abs_neg]
    linarith
  obtain ⟨g, e2, hg⟩ := acc_steps (A := A) (val := (Int.cast : Int → K)) (op := E.isubf) (x := res.over m f) (S := cfg.S)
    (term := intConv E cfg c t 1 N l)
    (τ := fun i s => -tgtK K c cfg D vec.get n N i s) (e := fun _ s => e N s) (m := m) hr
    (fun i s hi hs => (h2 N i s hNlt hi hs).1)
    (fun i s hi hs => by
      rw [H.intConv_ok (by omega) one_ne_zero d2 hi hs, d3 _ (blk_lt hi hs)]
      exact (h2' N i s hNlt hi hs).2)
    (fun i hi => by rw [Vec.over_lt hi]; exact bnd i hi)
  rw [e2, ok_bind, over_set]
  refine ⟨_, g, rfl, fun i hi => ?_⟩
  have k1 := hg i hi
  rw [Vec.over_lt hi] at k1
  have k2 := hf i hi
  rw [tgtK_sum h hi] at k2
  have k3 : ∑ s ∈ range cfg.S, -tgtK K c cfg D vec.get n N i s
      = -((∑ j ∈ range n, W i j * (bitOf (vec.get j) N * 2 ^ N) : Int) : K) := by
    rw [sum_neg_distrib, ← tgt_row h hi]
    unfold tgtK
    push_cast
    rfl
  rw [k3] at k1
  have k4 : ∑ j ∈ range n, W i j * vec.get j = ∑ j ∈ range n, W i j * (vec.get j % 2 ^ N)
      - ∑ j ∈ range n, W i j * (bitOf (vec.get j) N * 2 ^ N) := by
    rw [← sum_sub_distrib]
    refine sum_congr rfl fun j hj => ?_
    have := hx j (mem_range.1 hj)
    rw [hN1] at this
    have := tc_split this.1 this.2
    unfold bitOf
    rw [← mul_sub, this]
  rw [key, k4]
  have k5 := abs_add_le ((g i : K) - (f i + -((∑ j ∈ range n, W i j * (bitOf (vec.get j) N * 2 ^ N) : Int) : K)))
    ((f i : K) - (res.get i + ((∑ j ∈ range n, W i j * (vec.get j % 2 ^ N) : Int) : K)))
  refine le_trans (le_of_eq ?_) (k5.trans (by linarith))
  congr 1
  rw [Int.cast_add, Int.cast_sub]
  ring

theorem flI (hN : 1 ≤ cfg.iBit) (hN' : cfg.iBit ≤ 31) {e' : Nat → Nat → K}
    (hx : ∀ j, j < n → -2 ^ (cfg.iBit - 1) ≤ vec.get j ∧ vec.get j < 2 ^ (cfg.iBit - 1))
    (h1 : ConvBits E cfg c col st A (Int.cast : Int → K) E.iaddf
      (fun j => if 0 ≤ vec.get j then vec.get j else 0) 1 m (cfg.iBit - 1) l
      (tgtK K c cfg D (fun j => if 0 ≤ vec.get j then vec.get j else 0) n) e)
    (h2 : ConvBits E cfg c col st A (Int.cast : Int → K) E.iaddf
      (fun j => if 0 ≤ vec.get j then 0 else -vec.get j) (-1) m cfg.iBit l
      (fun b i s => -tgtK K c cfg D (fun j => if 0 ≤ vec.get j then 0 else -vec.get j) n b i s) e')
    (hA : ∀ i, i < m → |(res.get i : K)| + (∑ b ∈ range (cfg.iBit - 1), ∑ s ∈ range cfg.S,
        (|tgtK K c cfg D (fun j => if 0 ≤ vec.get j then vec.get j else 0) n b i s| + e b s)
      + ∑ b ∈ range cfg.iBit, ∑ s ∈ range cfg.S,
        (|tgtK K c cfg D (fun j => if 0 ≤ vec.get j then 0 else -vec.get j) n b i s| + e' b s)) ≤ A) :
    Within (aMvmIntI E cfg c a res vec m n l) W vec res m n
      (∑ b ∈ range (cfg.iBit - 1), ∑ s ∈ range cfg.S, e b s + ∑ b ∈ range cfg.iBit, ∑ s ∈ range cfg.S, e' b s) := by
  have hp : (2 : Int) ^ cfg.iBit = 2 * 2 ^ (cfg.iBit - 1) := by rw [← pow_succ']; congr 1; omega
  have hp2 : (0 : Int) < 2 ^ (cfg.iBit - 1) := by positivity
  have hp3 : (2 : Int) ^ (cfg.iBit - 1) ≤ 1073741824 :=
    (pow_le_pow_right₀ (by norm_num) (show cfg.iBit - 1 ≤ 30 by omega)).trans_eq (by norm_num)
  unfold aMvmIntI
  rw [encSigned_ok hv H.vdP H.vdM (fun j hj => by have := hx j hj; constructor <;> omega), ok_bind, u32sub_one hN]
  set u := fun j => if 0 ≤ vec.get j then vec.get j else 0 with hu
  set u' := fun j => if 0 ≤ vec.get j then 0 else -vec.get j with hu'
  obtain ⟨sl, t', f, e1, hsl, ht', hf⟩ := H.loopD hD (N := cfg.iBit - 1) (sl := a.vdSlice) (v := a.vdP.over n u) (res := res) (l := l)
    (sg := 1) (t0 := a.tmpFp) rfl (by omega) H.vdP H.vdS H.tmpFp hr one_ne_zero
    (h1.over hD)
    (fun i hi => by
      have := hA i hi
      have n2 : 0 ≤ ∑ b ∈ range cfg.iBit, ∑ s ∈ range cfg.S, (|tgtK K c cfg D u' n b i s| + e' b s) :=
        sum_nonneg fun b hb => sum_nonneg fun s hs =>
          add_nonneg (abs_nonneg _) (h2 b i s (mem_range.1 hb) hi (mem_range.1 hs)).1
      linarith)
  rw [e1, ok_bind]
  have bnd : ∀ i, i < m → |((res.over m f).get i : K)| + ∑ b ∈ range cfg.iBit, ∑ s ∈ range cfg.S,
      (|-tgtK K c cfg D u' n b i s| + e' b s) ≤ A := by
    intro i hi
    rw [Vec.over_lt hi]
    have k1 := hf i hi
    have k2 := hA i hi
    have k4 : |∑ b' ∈ range (cfg.iBit - 1), ∑ s ∈ range cfg.S, tgtK K c cfg D u n b' i s|
        ≤ ∑ b' ∈ range (cfg.iBit - 1), ∑ s ∈ range cfg.S, |tgtK K c cfg D u n b' i s| :=
      (abs_sum_le_sum_abs _ _).trans (sum_le_sum fun _ _ => abs_sum_le_sum_abs _ _)
    have k5 := abs_add_le ((f i : K) - (res.get i + ∑ b ∈ range (cfg.iBit - 1), ∑ s ∈ range cfg.S, tgtK K c cfg D u n b i s))
      (res.get i + ∑ b ∈ range (cfg.iBit - 1), ∑ s ∈ range cfg.S, tgtK K c cfg D u n b i s)
    rw [sub_add_cancel] at k5
    have k6 := abs_add_le (res.get i : K) (∑ b ∈ range (cfg.iBit - 1), ∑ s ∈ range cfg.S, tgtK K c cfg D u n b i s)
    have k7 : ∑ b' ∈ range (cfg.iBit - 1), ∑ s ∈ range cfg.S, (|tgtK K c cfg D u n b' i s| + e b' s)
        = ∑ b' ∈ range (cfg.iBit - 1), ∑ s ∈ range cfg.S, |tgtK K c cfg D u n b' i s|
          + ∑ b' ∈ range (cfg.iBit - 1), ∑ s ∈ range cfg.S, e b' s := by
      simp only [sum_add_distrib]
    simp only [abs_neg]
    linarith
  obtain ⟨sl', t'', g, e2, -, -, hg⟩ := H.loopD hD (N := cfg.iBit) (sl := sl) (v := a.vdM.over n u') (res := res.over m f) (l := l)
    (sg := -1) (t0 := t') rfl (by omega) H.vdM hsl ht' hr (by norm_num)
    (h2.over hD) bnd
  rw [e2, ok_bind, over_set]
  refine ⟨_, g, rfl, fun i hi => ?_⟩
  have k1 := hf i hi
  have k2 := hg i hi
  rw [Vec.over_lt hi] at k2
  simp only [sum_neg_distrib] at k2
  rw [tgtK_sum h hi] at k1 k2
  have key : ∑ j ∈ range n, W i j * vec.get j
      = ∑ j ∈ range n, W i j * (u j % 2 ^ (cfg.iBit - 1)) - ∑ j ∈ range n, W i j * (u' j % 2 ^ cfg.iBit) := by
    rw [← sum_sub_distrib]
    refine sum_congr rfl fun j hj => ?_
    have := hx j (mem_range.1 hj)
    rw [hu, hu']
    dsimp only
    rw [Int.emod_eq_of_lt (by split <;> omega) (by split <;> omega),
      Int.emod_eq_of_lt (by split <;> omega) (by split <;> omega)]
    split <;> ring
  rw [key]
  have k5 := abs_add_le ((g i : K) - (f i + -((∑ j ∈ range n, W i j * (u' j % 2 ^ cfg.iBit) : Int) : K)))
    ((f i : K) - (res.get i + ((∑ j ∈ range n, W i j * (u j % 2 ^ (cfg.iBit - 1)) : Int) : K)))
  refine le_trans (le_of_eq ?_) (k5.trans (by linarith))
  congr 1
  rw [Int.cast_add, Int.cast_sub]
  ring

theorem flII (hs : E.strict = false) (hN : 1 ≤ cfg.iBit) (hN' : cfg.iBit ≤ 31)
    (hW : ∀ i j, i < m → j < n → |W i j| ≤ 2 ^ cfg.wBit)
    (hsum : ∀ i, i < m → c.gd.sumW.get i = ∑ j ∈ range n, W i j)
    (hx : ∀ j, j < n → -2 ^ (cfg.iBit - 1) ≤ vec.get j ∧ vec.get j < 2 ^ (cfg.iBit - 1))
    (h1 : ConvBits E cfg c col st A (Int.cast : Int → K) E.iaddf
      (fun j => 2 ^ (cfg.iBit - 1) + vec.get j) 1 m (cfg.iBit + 1) l
      (tgtK K c cfg D (fun j => 2 ^ (cfg.iBit - 1) + vec.get j) n) e)
    (hA : ∀ i, i < m → |(res.get i : K)| + ∑ b ∈ range (cfg.iBit + 1), ∑ s ∈ range cfg.S,
      (|tgtK K c cfg D (fun j => 2 ^ (cfg.iBit - 1) + vec.get j) n b i s| + e b s) ≤ A)
    (hI : ∀ i, i < m → ((|res.get i| + n * 2 ^ (cfg.wBit + cfg.iBit) : Int) : K)
      + ∑ b ∈ range (cfg.iBit + 1), ∑ s ∈ range cfg.S, e b s ≤ 2147483647) :
    Within (aMvmIntII E cfg c a res vec m n l) W vec res m n (∑ b ∈ range (cfg.iBit + 1), ∑ s ∈ range cfg.S, e b s) := by
  have hp : (2 : Int) ^ cfg.iBit = 2 * 2 ^ (cfg.iBit - 1) := by rw [← pow_succ']; congr 1; omega
  have hp' : (2 : Int) ^ (cfg.iBit + 1) = 4 * 2 ^ (cfg.iBit - 1) := by rw [pow_succ, hp]; ring
  have hp2 : (0 : Int) < 2 ^ (cfg.iBit - 1) := by positivity
  have hp3 : (2 : Int) ^ (cfg.iBit - 1) ≤ 1073741824 :=
    (pow_le_pow_right₀ (by norm_num) (show cfg.iBit - 1 ≤ 30 by omega)).trans_eq (by norm_num)
  unfold aMvmIntII
  rw [encOffs_ok hN hN' hv H.vdP (fun j hj => by have := hx j hj; constructor <;> omega), ok_bind,
    show u32succ cfg.iBit = cfg.iBit + 1 by unfold u32succ; omega]
  obtain ⟨sl, t', f, e1, -, -, hf⟩ := H.loopD hD (N := cfg.iBit + 1) (sl := a.vdSlice)
    (v := a.vdP.over n fun j => 2 ^ (cfg.iBit - 1) + vec.get j) (res := res) (l := l) (sg := 1) rfl
    (by omega) H.vdP H.vdS H.tmpFp hr one_ne_zero (h1.over hD) hA
  rw [e1, ok_bind]
  have hsw := H.sw
  dsimp only
  have val : ∀ i, i < m → |(f i : K) - ((res.get i + (∑ j ∈ range n, W i j) * 2 ^ (cfg.iBit - 1)
      + ∑ j ∈ range n, W i j * vec.get j : Int) : K)| ≤ ∑ b ∈ range (cfg.iBit + 1), ∑ s ∈ range cfg.S, e b s := by
    intro i hi
    have k1 := hf i hi
    rw [tgtK_sum h hi] at k1
    have : ∑ j ∈ range n, W i j * ((2 ^ (cfg.iBit - 1) + vec.get j) % 2 ^ (cfg.iBit + 1))
        = (∑ j ∈ range n, W i j) * 2 ^ (cfg.iBit - 1) + ∑ j ∈ range n, W i j * vec.get j := by
      rw [sum_mul, ← sum_add_distrib]
      refine sum_congr rfl fun j hj => ?_
      have := hx j (mem_range.1 hj)
      rw [Int.emod_eq_of_lt (by omega) (by omega)]; ring
    rw [this] at k1
    rwa [add_assoc, Int.cast_add]
  have e0 : ∀ i, i < m → 0 ≤ ∑ b ∈ range (cfg.iBit + 1), ∑ s ∈ range cfg.S, e b s := fun i hi =>
    (abs_nonneg _).trans (val i hi)
  have hI' : ∀ i, i < m → |res.get i| + n * 2 ^ (cfg.wBit + cfg.iBit) ≤ 2147483647 := fun i hi => by
    have k1 := hI i hi
    have k2 := e0 i hi
    have : ((|res.get i| + n * 2 ^ (cfg.wBit + cfg.iBit) : Int) : K) ≤ ((2147483647 : Int) : K) := by
      rw [show ((2147483647 : Int) : K) = 2147483647 by norm_num]
      linarith
    exact Int.cast_le.1 this
  have hS : ∀ i, i < m → InI32 ((∑ j ∈ range n, W i j) * 2 ^ (cfg.iBit - 1)) := fun i hi => by
    apply inI32_of_abs
    rw [abs_mul, abs_of_pos hp2]
    have e1 : |∑ j ∈ range n, W i j| ≤ n * 2 ^ cfg.wBit :=
      (abs_sum_le_sum_abs _ _).trans (sum_abs_le fun j hj => hW i j hi hj)
    have e2 := hI' i hi
    rw [pow_add, hp] at e2
    have e3 := mul_le_mul_of_nonneg_right e1 hp2.le
    have e4 := abs_nonneg (res.get i)
    have e5 : 0 ≤ (n : Int) * 2 ^ cfg.wBit * 2 ^ (cfg.iBit - 1) := by positivity
    linarith
  have near : ∀ i, i < m → |((f i - c.gd.sumW.get i * 2 ^ (cfg.iBit - 1) : Int) : K)
      - ((res.get i + ∑ j ∈ range n, W i j * vec.get j : Int) : K)|
        ≤ ∑ b ∈ range (cfg.iBit + 1), ∑ s ∈ range cfg.S, e b s := fun i hi => by
    refine le_trans (le_of_eq ?_) (val i hi)
    congr 1
    rw [hsum i hi]
    push_cast
    ring
  have hR : ∀ i, i < m → InI32 (f i - c.gd.sumW.get i * 2 ^ (cfg.iBit - 1)) := fun i hi => by
    apply inI32_of_abs
    have e1 : |∑ j ∈ range n, W i j * vec.get j| ≤ n * 2 ^ (cfg.wBit + cfg.iBit) := by
      rw [pow_add]
      refine (abs_sum_le_sum_abs _ _).trans ?_
      simp only [abs_mul]
      refine sum_abs_mul_le (fun j hj => hW i j hi hj) (fun j hj => ⟨abs_nonneg _, ?_⟩) (by positivity)
      have := hx j hj
      rw [abs_le]; constructor <;> omega
    have e2 := near i hi
    have e3 := abs_add_le (((f i - c.gd.sumW.get i * 2 ^ (cfg.iBit - 1) : Int) : K)
      - ((res.get i + ∑ j ∈ range n, W i j * vec.get j : Int) : K))
      ((res.get i + ∑ j ∈ range n, W i j * vec.get j : Int) : K)
    rw [sub_add_cancel] at e3
    have e4 : |((res.get i + ∑ j ∈ range n, W i j * vec.get j : Int) : K)|
        ≤ ((|res.get i| + n * 2 ^ (cfg.wBit + cfg.iBit) : Int) : K) := by
      rw [← Int.cast_abs]
      exact Int.cast_le.2 ((abs_add_le _ _).trans (by linarith))
    have e5 := hI i hi
    have e6 : ((|f i - c.gd.sumW.get i * 2 ^ (cfg.iBit - 1)| : Int) : K) ≤ ((2147483647 : Int) : K) := by
      rw [show ((2147483647 : Int) : K) = 2147483647 by norm_num, Int.cast_abs]
      linarith
    exact Int.cast_le.1 e6
  rw [rowLoop_ok (v := res.over m _) (fun i => f i - c.gd.sumW.get i * 2 ^ (cfg.iBit - 1)), ok_bind]
  · rw [over_set]
    exact ⟨_, _, rfl, near⟩
  · intro i hi r hrs hri
    rw [Vec.over_lt hi] at hri
    unfold sumShift
    rw [Vec.rd_ok (by omega), ok_bind, u32sub_one hN,
      shlI_ok (by omega) (by rw [hsum i hi]; exact hS i hi) (by simp [hs]), ok_bind]
    refine updAt_set (by rw [hrs]; simp only [Vec.over]; omega) ?_
    rw [hri, subI_ok (hR i hi)]

end IntShape

/-- The last operations of the offset mapping. -/
def offsOut (E : Env K) (d : K) (w : Nat) (S : Int) (y : K) : K :=
  E.fsub y (E.fmul (E.ofInt S) (E.fadd d (E.ofInt (2 ^ (w - 1)))))

/-- `MapperIntV`. -/
theorem IntShape.flV (H : IntShape cfg c a st m n) (hv : n ≤ vec.size) (hr : m ≤ res.size) {d : K}
    {col : (Nat → Int) → Nat → K} (hD : Delivers E cfg c (iaTerm E c.ia.p) col m n) {τ : Nat → Nat → Nat → K} (hδ : c.delta = some d) (hW : 1 ≤ cfg.wBit) (hW' : cfg.wBit ≤ 31) (hN' : cfg.iBit ≤ 32)
    (hn : n ≤ 2147483647) (hx : ∀ j, j < n → InI32 (vec.get j))
    (h1 : ConvBits E cfg c col st A (fun x : K => x) (faddC E) vec.get 1 m cfg.iBit l τ e)
    (hA : ∀ i, i < m → ∑ b ∈ range cfg.iBit, ∑ s ∈ range cfg.S, (|τ b i s| + e b s) ≤ A)
    (hI : ∀ i, i < m → ∀ y : K, |y - ∑ b ∈ range cfg.iBit, ∑ s ∈ range cfg.S, τ b i s|
      ≤ ∑ b ∈ range cfg.iBit, ∑ s ∈ range cfg.S, e b s →
      |res.get i| + |roundAway (offsOut E d cfg.wBit (∑ j ∈ range n, vec.get j) y)| ≤ 2147483647) :
    ∃ (a' : Aux K) (f : Nat → K), aMvmIntV E cfg c a res vec m n l = .ok (a', res.over m fun i => res.get i +
      roundAway (offsOut E d cfg.wBit (∑ j ∈ range n, vec.get j) (f i))) ∧
      ∀ i, i < m → |f i - ∑ b ∈ range cfg.iBit, ∑ s ∈ range cfg.S, τ b i s|
        ≤ ∑ b ∈ range cfg.iBit, ∑ s ∈ range cfg.S, e b s := by
  have hrf := H.resFp
  unfold aMvmIntV
  rw [IntHyp.encCopy_ok hv H.vdP, ok_bind, inpSum_ok hv hn hx, ok_bind]
  obtain ⟨sl, t', f, e1, -, -, hf⟩ := H.loopV hD (l := l) (sl := a.vdSlice) (v := a.vdP.over n vec.get) (rf := a.resFp.fill 0)
    (N := cfg.iBit) (t0 := a.tmpFp) hN' H.vdP H.vdS H.tmpFp (by exact H.resFp) (h1.over hD)
    (fun i hi => by rw [Vec.fill_get (by omega), abs_zero, zero_add]; exact hA i hi)
  have hf' : ∀ i, i < m → |f i - ∑ b ∈ range cfg.iBit, ∑ s ∈ range cfg.S, τ b i s|
        ≤ ∑ b ∈ range cfg.iBit, ∑ s ∈ range cfg.S, e b s := fun i hi => by
    have := hf i hi
    rwa [Vec.fill_get (by omega), zero_add] at this
  rw [e1, ok_bind]
  dsimp only
  set y : Nat → K := fun i => offsOut E d cfg.wBit (∑ j ∈ range n, vec.get j) (f i) with hy
  have key : Sat (fun _ => False) (loop m (fun i (st : Vec K × Vec Int) => do
    let d ← useField c.delta
    let o ← shlI E.strict 1 (u32sub cfg.wBit 1)
    let f ← updAt st.1 i (fun x => .ok (E.fsub x (E.fmul (E.ofInt (∑ j ∈ range n, vec.get j)) (E.fadd d (E.ofInt o)))))
    let y ← f.rd i
    let z ← toI32 ((roundAway y : Int) : K)
    let res ← updAt st.2 i (fun x => addI x z)
    .ok (f, res)) ((a.resFp.fill 0).over m f, res))
      fun r => r.1.size = a.resFp.size ∧ (∀ i, i < m → m ≤ i → r.1.get i = f i) ∧
        r.2 = res.over m fun i => res.get i + roundAway (y i) := by
    refine Sat.loopI (P := fun k (r : Vec K × Vec Int) => r.1.size = a.resFp.size ∧
        (∀ i, i < m → k ≤ i → r.1.get i = f i) ∧
        r.2 = res.over k fun i => res.get i + roundAway (y i)) ?_ ?_
    · refine ⟨rfl, fun i hi _ => ?_, ?_⟩
      · rw [Vec.over_lt hi]
      · rw [Vec.over_zero]
    · rintro i hi ⟨s1, s2⟩ ⟨h1, h2, h3⟩
      dsimp only at h1 h2 h3 ⊢
      subst h3
      rw [hδ]
      simp only [useField]
      rw [ok_bind, u32sub_one hW, shl_one (by omega), ok_bind]
      rw [updAt_set (x := y i) (by omega) (by rw [h2 i hi le_rfl, hy]; rfl), ok_bind,
        Vec.rd_ok (by rw [Vec.set_size]; omega), ok_bind, Vec.set_get]
      have hb := hI i hi (f i) (hf' i hi)
      have n0 := abs_nonneg (res.get i)
      rw [toI32_int (inI32_of_abs (by rw [hy]; dsimp only; linarith)), ok_bind,
        updAt_set (x := res.get i + roundAway (y i)) (by simp only [Vec.over]; omega) (by
          rw [Vec.over_ge le_rfl, addI_ok (inI32_of_abs (by
            have := abs_add_le (res.get i) (roundAway (y i))
            rw [hy] at this ⊢; dsimp only at this ⊢; linarith))]), ok_bind]
      refine ⟨by simpa using h1, fun k hk hk' => ?_, ?_⟩
      · dsimp only
        rw [← h2 k hk (by omega)]
        simp only [Vec.set]
        rw [if_neg (by omega)]
      · dsimp only
        refine Vec.ext' (by rfl) fun k => ?_
        simp only [Vec.set, Vec.over]
        rcases lt_trichotomy k i with h | h | h
        · rw [if_neg (by omega), if_pos h, if_pos (by omega)]
        · subst h; rw [if_pos rfl, if_pos (by omega)]
        · rw [if_neg (by omega), if_neg (by omega), if_neg (by omega)]
  rcases key.elim with ⟨⟨s1, s2⟩, h1, h2, h3, h4⟩ | ⟨e, _, h⟩
  · rw [h1, ok_bind]
    dsimp only at h4
    exact ⟨_, f, by rw [h4], hf'⟩
  · exact h.elim

end

end Acs
