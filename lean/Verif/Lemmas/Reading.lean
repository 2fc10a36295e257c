import Verif.Lemmas.RefineA
import Verif.SpecReading

/-! # Multiplications through a real converter, exactly -/

set_option linter.unusedSectionVars false

namespace Acs

open Finset Spec

section
variable {K : Type} [Field K] [LinearOrder K] [IsStrictOrderedRing K] [FloorRing K]
variable {E : Env K} {cfg : Cfg K} {x : Xbar K} {L : Nat → Nat → Option Int}
variable {mat vec res : Vec Int} {m n : Nat} {l : String} {B T : Int} {lo hi : K}

theorem nearest_eq (y : K) : nearest y = roundAway y := by
  unfold nearest roundAway
  by_cases h : y < 0
  · rw [if_pos h, if_neg (not_le.2 h), ← Int.ceil_neg]
    congr 1
    ring
  · rw [if_neg h, if_pos (not_lt.1 h)]

theorem clip_eq (h : lo ≤ hi) (y : K) : clip y lo hi = max lo (min hi y) := by
  rcases le_total y lo with h1 | h1
  · rw [clip_low h h1, min_eq_right (h1.trans h), max_eq_left h1]
  · rcases le_total y hi with h2 | h2
    · rw [clip_id h1 h2, min_eq_right h2, max_eq_right h1]
    · rw [clip_high h2, min_eq_left h2, max_eq_right h]

theorem reading_eq (h : lo ≤ hi) (c : K × K) : reading cfg lo hi c = adcOut cfg lo hi c.2 c.1 := by
  unfold reading adcOut levelOf
  simp only [nearest_eq]
  rw [clip_eq h, add_comm lo]

/-- The multiplication adds what the converter reads. -/
def ReadsAs (r : C (Aux K × Vec Int)) (cfg : Cfg K) (W : Nat → Nat → Int) (vec res : Vec Int) (m n : Nat) (lo hi : K) :
    Prop :=
  ∃ a', r = .ok (a', res.over m fun i => res.get i + rowResult cfg lo hi W vec n i)

theorem ReadsAs.of {r : C (Aux K × Vec Int)} {W : Nat → Nat → Int} {f : Nat → Int}
    (h : ∃ a', r = .ok (a', res.over m f)) (hf : ∀ i, i < m → f i = res.get i + rowResult cfg lo hi W vec n i) :
    ReadsAs r cfg W vec res m n lo hi := by
  obtain ⟨a', e⟩ := h
  exact ⟨a', e.trans (congrArg _ (congrArg _ (over_congr hf)))⟩

/-- The `t`-th reading of row `i`. -/
def rdg (cfg : Cfg K) (lo hi : K) (W : Nat → Nat → Int) (vec : Vec Int) (n t i : Nat) : Int :=
  ((conversions cfg W vec n i).map (reading cfg lo hi)).getD t 0

namespace AdcHyp
variable {c : Core K} (A : AdcHyp E cfg c l lo hi res m n B T)
include A

theorem rdg_eq {W : Nat → Nat → Int} {s : Int} {X o : K} {t i : Nat}
    (h : (conversions cfg W vec n i)[t]? = some (X + o, (s : K) / (cfg.lrs - cfg.hrs))) :
    rdg cfg lo hi W vec n t i = adcOut cfg lo hi ((s : K) / (cfg.lrs - cfg.hrs)) (X + o) := by
  unfold rdg
  rw [List.getD_eq_getElem?_getD, List.getElem?_map, h]
  simp only [Option.map_some, Option.getD_some]
  rw [reading_eq A.ok.lt.le]

theorem reads' {W : Nat → Nat → Int} {s : Int} {X : Nat → K} {o : K} (t : Nat)
    (h : ∀ i, i < m → (conversions cfg W vec n i)[t]? = some (X i + o, (s : K) / (cfg.lrs - cfg.hrs))) :
    (∀ i, i < m → conv1 E cfg c.adc (X i) ((s : K) / (cfg.lrs - cfg.hrs)) o l
      = .ok (rdg cfg lo hi W vec n t i : K)) ∧
    ∀ i, i < m → |rdg cfg lo hi W vec n t i| ≤ zOf cfg lo hi s :=
  ⟨fun i hi => by rw [A.rdg_eq (h i hi), A.conv], fun i hi => by rw [A.rdg_eq (h i hi)]; exact adcOut_z A.ok s _⟩

theorem reads {W : Nat → Nat → Int} {s : Int} {X : Nat → K} (t : Nat)
    (h : ∀ i, i < m → (conversions cfg W vec n i)[t]? = some (X i, (s : K) / (cfg.lrs - cfg.hrs))) :
    (∀ i, i < m → conv1 E cfg c.adc (X i) ((s : K) / (cfg.lrs - cfg.hrs)) 0 l
      = .ok (rdg cfg lo hi W vec n t i : K)) ∧
    ∀ i, i < m → |rdg cfg lo hi W vec n t i| ≤ zOf cfg lo hi s :=
  A.reads' t fun i hi => by rw [add_zero]; exact h i hi

theorem readsL' {W : Nat → Nat → Int} {s : Int} {X : Nat → K} {o : K} (t : Nat)
    (h : ∀ i, i < m → (conversions cfg W vec n i)[t]? = some (X i + o, (s : K) / (cfg.lrs - cfg.hrs))) :
    (∀ i, i < m → conv1 E cfg c.adc (X i) ((s : K) / (cfg.lrs - cfg.hrs)) o l
      = .ok (lin 0 0 (rdg cfg lo hi W vec n t i))) ∧
    ∀ i, i < m → |rdg cfg lo hi W vec n t i| ≤ zOf cfg lo hi s :=
  ⟨fun i hi => by rw [lin_int]; exact (A.reads' t h).1 i hi, (A.reads' t h).2⟩

theorem readsL {W : Nat → Nat → Int} {s : Int} {X : Nat → K} (t : Nat)
    (h : ∀ i, i < m → (conversions cfg W vec n i)[t]? = some (X i, (s : K) / (cfg.lrs - cfg.hrs))) :
    (∀ i, i < m → conv1 E cfg c.adc (X i) ((s : K) / (cfg.lrs - cfg.hrs)) 0 l
      = .ok (lin 0 0 (rdg cfg lo hi W vec n t i))) ∧
    ∀ i, i < m → |rdg cfg lo hi W vec n t i| ≤ zOf cfg lo hi s :=
  A.readsL' t fun i hi => by rw [add_zero]; exact h i hi

end AdcHyp

section
variable {c : Core K} {a : Aux K} {P Q W : Nat → Nat → Int}
variable (H : BinHyp E cfg c a P Q vec res m n B) (A : AdcHyp E cfg c l lo hi res m n B T)
include H A

/-- TNN_IV and TNN_V: the conversions and the digital part. -/
theorem read_tnn4 (hT : 2 * zOf cfg lo hi 1 + 2 * zOf cfg lo hi 2 ≤ T) (hsp : cfg.split = [1, 1])
    (hx : ∀ j, j < n → IsTern (vec.get j)) {β γ β' γ' : Nat → Int}
    (h1 : (∀ i, i < m → conv1 E cfg c.adc (Acs.cur cfg.hrs (cfg.lrs - cfg.hrs) (∑ j ∈ range n, 2 * up (vec.get j))
      (∑ j ∈ range n, P i j * up (vec.get j))) (((1 : Int) : K) / (cfg.lrs - cfg.hrs))
      (Acs.cur cfg.hrs (cfg.lrs - cfg.hrs) (∑ j ∈ range n, vec.get j) 0) l = .ok (lin 0 0 (β i))) ∧
      ∀ i, i < m → |β i| ≤ zOf cfg lo hi 1)
    (k1 : (∀ i, i < m → conv1 E cfg c.adc (Acs.cur cfg.hrs (cfg.lrs - cfg.hrs) (∑ j ∈ range n, 2 * dn (vec.get j))
      (∑ j ∈ range n, P i j * dn (vec.get j))) (((1 : Int) : K) / (cfg.lrs - cfg.hrs))
      (Acs.cur cfg.hrs (cfg.lrs - cfg.hrs) (-∑ j ∈ range n, vec.get j) 0) l = .ok (lin 0 0 (γ i))) ∧
      ∀ i, i < m → |γ i| ≤ zOf cfg lo hi 1)
    (h2 : (∀ i, i < m → conv1 E cfg c.adc (Acs.cur cfg.hrs (cfg.lrs - cfg.hrs) (∑ j ∈ range n, 2 * up (vec.get j))
      (∑ j ∈ range n, Q i j * up (vec.get j))) (((2 : Int) : K) / (cfg.lrs - cfg.hrs)) 0 l = .ok (lin 0 0 (β' i))) ∧
      ∀ i, i < m → |β' i| ≤ zOf cfg lo hi 2)
    (k2 : (∀ i, i < m → conv1 E cfg c.adc (Acs.cur cfg.hrs (cfg.lrs - cfg.hrs) (∑ j ∈ range n, 2 * dn (vec.get j))
      (∑ j ∈ range n, Q i j * dn (vec.get j))) (((2 : Int) : K) / (cfg.lrs - cfg.hrs)) 0 l = .ok (lin 0 0 (γ' i))) ∧
      ∀ i, i < m → |γ' i| ≤ zOf cfg lo hi 2) :
    ∃ a', aMvmTnnIV E cfg c a res vec m n l
      = .ok (a', res.over m fun i => res.get i + (β i - γ i - β' i + γ' i)) := by
  have hb := H.B8
  have b6 := abs_le.1 (BinHyp.abs_sum_vec hx)
  obtain ⟨s, hs⟩ : ∃ s, s = ∑ j ∈ range n, vec.get j := ⟨_, rfl⟩
  rw [← hs] at b6 h1 k1
  have bb : ∀ i, i < m → |β i| + |γ i| + |β' i| + |γ' i| ≤ T := fun i hi => by
    have := h1.2 i hi; have := k1.2 i hi; have := h2.2 i hi; have := k2.2 i hi; omega
  have T : Tnn45 E cfg c a vec (plusOf a.vdP n vec) (minusOf a.vdM n vec) m n l 0
      (((1 : Int) : K) / (cfg.lrs - cfg.hrs))
      (((2 : Int) : K) / (cfg.lrs - cfg.hrs)) (Acs.cur cfg.hrs (cfg.lrs - cfg.hrs) s 0)
      (Acs.cur cfg.hrs (cfg.lrs - cfg.hrs) (-s) 0) s (fun _ => 0) (fun _ => 0) (fun _ => 0) (fun _ => 0)
      β γ β' γ' B := by
    constructor
    · rw [hs]; exact inpSum_ok H.vec H.n31 fun j hj => (hx j hj).in32
    · exact encTern_ok H.vec H.vdP H.vdM hx
    · rw [H.iMM]; exact H.F.sc1
    · rw [H.iMM]; exact H.F.sc2
    · exact H.tmp
    · exact H.tmpFp
    · exact H.tcP (f := fun j => up (vec.get j)) (fun j => ite_abs) H.vdP fun i hi => h1.1 i hi
    · exact H.tcP (f := fun j => dn (vec.get j)) (fun j => ite_abs) H.vdM fun i hi => k1.1 i hi
    · exact H.tcM (f := fun j => up (vec.get j)) (fun j => ite_abs) H.vdP h2.1
    · exact H.tcM (f := fun j => dn (vec.get j)) (fun j => ite_abs) H.vdM k2.1
    · intro i hi
      simp only [abs_zero]
      omega
    · intro i hi
      have := bb i hi; have := A.roomB i hi; have := abs_nonneg (res.get i); omega
  have bs : ∀ i, |β i - γ i - β' i + γ' i| ≤ |β i| + |γ i| + |β' i| + |γ' i| := fun i => (abs4 le_rfl).2.2.2.1
  exact aMvmTnnIV_val (res := res) H.par H.prof (OutOk.exact A.ex 0 B) hsp T
    (by rw [H.F.offs (abs_le.2 ⟨by omega, by omega⟩), H.F.half (abs_le.2 ⟨by omega, by omega⟩)])
    (by
      rw [H.F.offs (abs_le.2 ⟨by omega, by omega⟩), cur_neg, neg_zero,
        show -(2 * s) = 2 * -s by ring, H.F.half (abs_le.2 ⟨by omega, by omega⟩)])
    H.res (fun i hi => by simp)
    (fun i hi => by have := bb i hi; have := bs i; have := A.roomB i hi; omega)
    (fun i hi => by
      have := bb i hi; have := bs i; have := A.room i hi
      have := abs_add_le (res.get i) (β i - γ i - β' i + γ' i)
      exact inI32_of_abs (by omega))

theorem read_tnn5 (hT : 2 * zOf cfg lo hi 1 + 2 * zOf cfg lo hi 2 ≤ T) (hsp : cfg.split = [1, 1])
    (hx : ∀ j, j < n → IsTern (vec.get j)) {β γ β' γ' : Nat → Int}
    (h1 : (∀ i, i < m → conv1 E cfg c.adc (Acs.cur cfg.hrs (cfg.lrs - cfg.hrs) (∑ j ∈ range n, 2 * up (vec.get j))
      (∑ j ∈ range n, P i j * up (vec.get j))) (((1 : Int) : K) / (cfg.lrs - cfg.hrs)) 0 l = .ok (lin 0 0 (β i))) ∧
      ∀ i, i < m → |β i| ≤ zOf cfg lo hi 1)
    (k1 : (∀ i, i < m → conv1 E cfg c.adc (Acs.cur cfg.hrs (cfg.lrs - cfg.hrs) (∑ j ∈ range n, 2 * dn (vec.get j))
      (∑ j ∈ range n, P i j * dn (vec.get j))) (((1 : Int) : K) / (cfg.lrs - cfg.hrs))
      (Acs.cur cfg.hrs (cfg.lrs - cfg.hrs) (2 * (3 * ∑ j ∈ range n, vec.get j)) 0) l = .ok (lin 0 0 (γ i))) ∧
      ∀ i, i < m → |γ i| ≤ zOf cfg lo hi 1)
    (h2 : (∀ i, i < m → conv1 E cfg c.adc (Acs.cur cfg.hrs (cfg.lrs - cfg.hrs) (∑ j ∈ range n, 2 * up (vec.get j))
      (∑ j ∈ range n, Q i j * up (vec.get j))) (((2 : Int) : K) / (cfg.lrs - cfg.hrs)) 0 l = .ok (lin 0 0 (β' i))) ∧
      ∀ i, i < m → |β' i| ≤ zOf cfg lo hi 2)
    (k2 : (∀ i, i < m → conv1 E cfg c.adc (Acs.cur cfg.hrs (cfg.lrs - cfg.hrs) (∑ j ∈ range n, 2 * dn (vec.get j))
      (∑ j ∈ range n, Q i j * dn (vec.get j))) (((2 : Int) : K) / (cfg.lrs - cfg.hrs)) 0 l = .ok (lin 0 0 (γ' i))) ∧
      ∀ i, i < m → |γ' i| ≤ zOf cfg lo hi 2) :
    ∃ a', aMvmTnnV E cfg c a res vec m n l
      = .ok (a', res.over m fun i => res.get i + (β i - γ i + β' i - γ' i) - ∑ j ∈ range n, vec.get j) := by
  have hb := H.B8
  have hn31 := H.n31
  have b6 := abs_le.1 (BinHyp.abs_sum_vec hx)
  obtain ⟨s, hs⟩ : ∃ s, s = ∑ j ∈ range n, vec.get j := ⟨_, rfl⟩
  rw [← hs] at b6 k1 ⊢
  have bb : ∀ i, i < m → |β i| + |γ i| + |β' i| + |γ' i| ≤ T := fun i hi => by
    have := h1.2 i hi; have := k1.2 i hi; have := h2.2 i hi; have := k2.2 i hi; omega
  have T : Tnn45 E cfg c a vec (plusOf a.vdP n vec) (minusOf a.vdM n vec) m n l 0
      (((1 : Int) : K) / (cfg.lrs - cfg.hrs))
      (((2 : Int) : K) / (cfg.lrs - cfg.hrs)) 0 (E.fmul (E.ofInt (3 * s)) cfg.hrs) s
      (fun _ => 0) (fun _ => 0) (fun _ => 0) (fun _ => 0) β γ β' γ' B := by
    constructor
    · rw [hs]; exact inpSum_ok H.vec H.n31 fun j hj => (hx j hj).in32
    · exact encTern_ok H.vec H.vdP H.vdM hx
    · rw [H.iMM]; exact H.F.sc1
    · rw [H.iMM]; exact H.F.sc2
    · exact H.tmp
    · exact H.tmpFp
    · exact H.tcP (f := fun j => up (vec.get j)) (fun j => ite_abs) H.vdP h1.1
    · refine H.tcP (f := fun j => dn (vec.get j)) (fun j => ite_abs) H.vdM fun i hi => ?_
      rw [H.F.offs (abs_le.2 ⟨by omega, by omega⟩)]; exact k1.1 i hi
    · exact H.tcM (f := fun j => up (vec.get j)) (fun j => ite_abs) H.vdP h2.1
    · exact H.tcM (f := fun j => dn (vec.get j)) (fun j => ite_abs) H.vdM k2.1
    · intro i hi
      simp only [abs_zero]
      omega
    · intro i hi
      have := bb i hi; have := A.roomB i hi; have := abs_nonneg (res.get i); omega
  have bs : ∀ i, |β i - γ i + β' i - γ' i| ≤ |β i| + |γ i| + |β' i| + |γ' i| := fun i => (abs4 le_rfl).2.2.2.2
  exact aMvmTnnV_val (res := res) H.par H.prof (OutOk.exact A.ex 0 B) hsp T
    (i64_ok ⟨by omega, by omega⟩) H.res (fun i hi => by simp)
    (fun i hi => by have := bb i hi; have := bs i; have := A.roomB i hi; omega)
    (fun i hi => by
      have := bb i hi; have := bs i; have := A.room i hi
      have := abs_add_le (res.get i) (β i - γ i + β' i - γ' i)
      have h6 := abs_sub (res.get i + (β i - γ i + β' i - γ' i)) s
      have h7 := abs_le.2 b6
      exact ⟨inI32_of_abs (by omega), inI32_of_abs (by omega)⟩)

end

namespace AHyp
variable (A : AHyp E cfg x L res vec m n)
include A

/-- Binary and ternary mappings. -/
theorem readBin (hb : cfg.mode.isInt = false) (hE : ExactArith E) (hA : AdcOk cfg l lo hi)
    (hroom : ∀ i, i < m → ((|res.get i| + 3 * n : Int) : K) + convPeak lo hi (conversions cfg (val L) vec n i)
      ≤ 2147483647) :
    ReadsAs (aMvm E cfg x.mapper.core x.mapper.aux res vec m n l) cfg (val L) vec res m n lo hi := by
  have H := A.binHyp hb (Faith.exact hE A.id.d (B := 2147483647 + 16 * n + 16)) (by omega)
  have mkA : ∀ T : Int, (∀ i, i < m → (T : K) ≤ convPeak lo hi (conversions cfg (val L) vec n i)) →
      AdcHyp E cfg x.mapper.core l lo hi res m n (2147483647 + 16 * n + 16) T := fun T hT => by
    have hr : ∀ i, i < m → |res.get i| + T + 3 * n ≤ 2147483647 := fun i hi => by
      have h1 := hroom i hi
      have h2 := hT i hi
      have h3 : ((|res.get i| + T + 3 * n : Int) : K) ≤ ((2147483647 : Int) : K) := by
        push_cast at h1 ⊢
        linarith
      exact Int.cast_le.1 h3
    exact ⟨hE, A.shape.core.adc, hA, hr, fun i hi => by have := hr i hi; omega⟩
  have hW := fun i j (hi : i < m) (hj : j < n) => A.absW hb hi hj
  have z1 := zOf_le (cfg := cfg) (lo := lo) (hi := hi) 1
  have z2 := zOf_le (cfg := cfg) (lo := lo) (hi := hi) 2
  rw [Int.cast_one] at z1
  rw [Int.cast_ofNat] at z2
  have hx := A.hx
  have hs := A.sums
  have hok := A.ok
  unfold CfgOk at hok
  unfold LegalVec LegalX at hx
  unfold aMvm
  rw [A.shape.core.mode]
  have sw : keepsRowSums cfg.mode → ∀ i, i < m → |x.mapper.core.gd.sumW.get i| ≤ n := fun hk i hi => by
    rw [hs hk i hi]; exact abs_sum_tern fun j hj => hW i j hi hj
  cases hm : cfg.mode <;>
    simp only [hm, conversions, convPeak, List.map_cons, List.map_nil, List.sum_cons, List.sum_nil, add_zero]
      at hx hs hok mkA sw ⊢
  case bnn1 =>
    have A' := mkA (zOf cfg lo hi 2) fun i hi => z2
    have hsw := sw trivial
    obtain ⟨h1, h2⟩ := A'.reads (W := val L) (vec := vec) (s := 2) 0 fun i hi => by
      simp only [conversions, hm, List.getElem?_cons_zero]
      rw [A.colD hb hi, Int.cast_ofNat, sum_congr rfl fun j hj => by
        rw [show (if vec.get j = 1 then 1 else 0) = (vec.get j + 1) / 2 by
          rcases hx j (mem_range.1 hj) with e | e <;> rw [e] <;> norm_num]]
    refine ReadsAs.of (H.bnn1 (l := l) hx h1 (fun i hi => ?_) fun i hi => inI32_of_abs (abs_add_sub_le.trans ?_))
      fun i hi => ?_
    · have := A'.roomB i hi; have := hsw i hi; have := h2 i hi; omega
    · have := A'.room i hi; have := hsw i hi; have := h2 i hi; omega
    · rw [hs trivial i hi]
      simp only [rowResult, hm]
      rfl
  case bnn2 =>
    have A' := mkA (zOf cfg lo hi 2) fun i hi => z2
    have hsw := sw trivial
    obtain ⟨h1, h2⟩ := A'.reads (W := val L) (vec := vec) (s := 2) 0 fun i hi => by
      simp only [conversions, hm, List.getElem?_cons_zero]
      rw [A.colD hb hi, cur_neg, neg_zero, ← sum_neg_distrib, Int.cast_ofNat, sum_congr rfl fun j hj =>
        show _ = (x.mapper.core.gd.m.get i j - x.mapper.core.gd.p.get i j) * ((vec.get j - 1).tdiv (-2)) by
          rcases hx j (mem_range.1 hj) with e | e <;> rw [e] <;> norm_num]
    refine ReadsAs.of (H.bnn2 (l := l) hx h1 (fun i hi => ?_) fun i hi => inI32_of_abs (abs_add_add_le.trans ?_))
      fun i hi => ?_
    · have := A'.roomB i hi; have := hsw i hi; have := h2 i hi; omega
    · have := A'.room i hi; have := hsw i hi; have := h2 i hi; omega
    · rw [hs trivial i hi]
      simp only [rowResult, hm]
      rfl
  case bnn3 =>
    have A' := mkA (2 * zOf cfg lo hi 2) fun i hi => by push_cast; linarith
    have b4 := BinHyp.abs_sum_vec fun j hj => IsBin.tern (hx j hj)
    obtain ⟨h1, h2⟩ := A'.readsL' (W := val L) (vec := vec) (s := 2)
      (o := Acs.cur cfg.hrs (cfg.lrs - cfg.hrs) (2 * -(∑ j ∈ range n, vec.get j)) 0) 0 fun i hi => by
      simp only [conversions, hm, List.getElem?_cons_zero]
      rw [A.colP hb hi, Int.cast_ofNat, show ∀ u v : K, u - v = u + -v from fun u v => sub_eq_add_neg u v]
      congr 3
      unfold Acs.cur; push_cast; ring
    obtain ⟨k1, k2⟩ := A'.readsL (W := val L) (vec := vec) (s := 2) 1 fun i hi => by
      simp only [conversions, hm, List.getElem?_cons_succ, List.getElem?_cons_zero]
      rw [A.colP hb hi, Int.cast_ofNat]
    refine ReadsAs.of (aMvmBnnIII_val H.par H.prof (OutOk.exact hE 0 (2147483647 + 16 * n + 16)) (H.bnn34 hx h1 k1) H.res
      (fun i hi => ?_) fun i hi' => inI32_of_abs ?_) fun i hi => ?_
    · have := A'.roomB i hi; have := h2 i hi; have := k2 i hi; omega
    · have := A'.room i hi'; have := h2 i hi'; have := k2 i hi'
      have := abs_add_sub_le (r := res.get i) (x := rdg cfg lo hi (val L) vec n 0 i - rdg cfg lo hi (val L) vec n 1 i)
        (y := ∑ j ∈ range n, vec.get j)
      have := abs_sub (rdg cfg lo hi (val L) vec n 0 i) (rdg cfg lo hi (val L) vec n 1 i)
      omega
    · simp only [rowResult, hm]
      rfl
  case bnn4 =>
    have A' := mkA (2 * zOf cfg lo hi 2) fun i hi => by push_cast; linarith
    have b4 := BinHyp.abs_sum_vec fun j hj => IsBin.tern (hx j hj)
    obtain ⟨h1, h2⟩ := A'.readsL' (W := val L) (vec := vec) (s := 2)
      (o := Acs.cur cfg.hrs (cfg.lrs - cfg.hrs) (2 * -(∑ j ∈ range n, vec.get j)) 0) 0 fun i hi => by
      simp only [conversions, hm, List.getElem?_cons_zero]
      rw [A.colP hb hi, Int.cast_ofNat, show ∀ u v : K, u - v = u + -v from fun u v => sub_eq_add_neg u v]
      congr 3
      unfold Acs.cur; push_cast; ring
    obtain ⟨k1, k2⟩ := A'.readsL (W := val L) (vec := vec) (s := 2) 1 fun i hi => by
      simp only [conversions, hm, List.getElem?_cons_succ, List.getElem?_cons_zero]
      rw [A.colP hb hi, Int.cast_ofNat]
    refine ReadsAs.of (aMvmBnnIV_val H.par H.prof (OutOk.exact hE 0 (2147483647 + 16 * n + 16)) (H.bnn34 hx h1 k1) H.res
      (fun i hi => ?_) fun i hi' => inI32_of_abs ?_) fun i hi => ?_
    · have := A'.roomB i hi; have := h2 i hi; have := k2 i hi; omega
    · have := A'.room i hi'; have := h2 i hi'; have := k2 i hi'
      have := abs_add_add_le (r := res.get i) (x := rdg cfg lo hi (val L) vec n 1 i - rdg cfg lo hi (val L) vec n 0 i)
        (y := ∑ j ∈ range n, vec.get j)
      have := abs_sub (rdg cfg lo hi (val L) vec n 1 i) (rdg cfg lo hi (val L) vec n 0 i)
      omega
    · simp only [rowResult, hm]
      rfl
  case bnn5 =>
    have A' := mkA (zOf cfg lo hi 2) fun i hi => z2
    obtain ⟨h1, h2⟩ := A'.reads' (W := val L) (vec := vec) (s := 2)
      (X := fun i => Acs.cur cfg.hrs (cfg.lrs - cfg.hrs) (∑ j ∈ range n, (2 * up (vec.get j) + 2 * dn (vec.get j)))
        (∑ j ∈ range n, (x.mapper.core.gd.p.get i j * up (vec.get j) + x.mapper.core.gd.m.get i j * dn (vec.get j))))
      (o := Acs.cur cfg.hrs (cfg.lrs - cfg.hrs) (2 * -(n : Int)) 0) 0 fun i hi => by
      simp only [conversions, hm, List.getElem?_cons_zero]
      rw [A.colP hb hi, A.colM hb hi, Int.cast_ofNat, cur_add, ← sum_add_distrib, ← sum_add_distrib,
        show ∀ u v : K, u - v = u + -v from fun u v => sub_eq_add_neg u v]
      congr 3
      unfold Acs.cur; push_cast; ring
    refine ReadsAs.of (H.bnn5 (l := l) hx h1 (fun i hi => ?_) fun i hi => inI32_of_abs (abs_add_sub_le.trans ?_))
      fun i hi => ?_
    · have := A'.roomB i hi; have := h2 i hi; omega
    · have := A'.room i hi; have := h2 i hi; rw [Nat.abs_cast]; omega
    · simp only [rowResult, hm]
      rfl
  case bnn6 =>
    have A' := mkA (zOf cfg lo hi 1) fun i hi => z1
    obtain ⟨h1, h2⟩ := A'.reads (W := val L) (vec := vec) (s := 1) 0 fun i hi => by
      simp only [conversions, hm, List.getElem?_cons_zero]
      rw [A.colD hb hi, A.colD hb hi, cur_sub, sub_zero, ← sum_sub_distrib, Int.cast_one,
        sum_congr rfl fun j hj => (mul_sub _ _ _).symm]
    refine ReadsAs.of (H.bnn6 (l := l) hx h1 (fun i hi => ?_) fun i hi => inI32_of_abs ((abs_add_le _ _).trans ?_))
      fun i hi => ?_
    · have := A'.roomB i hi; have := h2 i hi; omega
    · have := A'.room i hi; have := h2 i hi; omega
    · simp only [rowResult, hm]
      rfl
  case tnn1 =>
    have A' := mkA (zOf cfg lo hi 1) fun i hi => z1
    obtain ⟨h1, h2⟩ := A'.reads (W := val L) (vec := vec) (s := 1) 0 fun i hi => by
      simp only [conversions, hm, List.getElem?_cons_zero]
      rw [A.colD hb hi, A.colD hb hi, cur_sub, sub_zero, ← sum_sub_distrib, Int.cast_one,
        sum_congr rfl fun j hj => (mul_sub _ _ _).symm]
    refine ReadsAs.of (H.tnn1 (l := l) hx h1 (fun i hi => ?_) fun i hi => inI32_of_abs ((abs_add_le _ _).trans ?_))
      fun i hi => ?_
    · have := A'.roomB i hi; have := h2 i hi; omega
    · have := A'.room i hi; have := h2 i hi; omega
    · simp only [rowResult, hm]
      rfl
  case tnn2 =>
    have A' := mkA (zOf cfg lo hi 1 + zOf cfg lo hi 2) fun i hi => by push_cast; linarith
    obtain ⟨h1, h2⟩ := A'.reads (W := val L) (vec := vec) (s := 1) 0 fun i hi => by
      simp only [conversions, hm, List.getElem?_cons_zero]
      rw [A.colD hb hi, Int.cast_one, sum_congr rfl fun j hj => by
        rw [show |vec.get j| = if vec.get j ≠ 0 then 1 else 0 by
          rcases hx j (mem_range.1 hj) with e | e | e <;> rw [e] <;> norm_num]]
    obtain ⟨k1, k2⟩ := A'.reads (W := val L) (vec := vec) (s := 2) 1 fun i hi => by
      simp only [conversions, hm, List.getElem?_cons_succ, List.getElem?_cons_zero]
      rw [A.colD hb hi, Int.cast_ofNat]
    have T := H.tnn23 (l := l) (f := fun j => if vec.get j ≠ 0 then 1 else 0) (g := fun j => dn (vec.get j))
      (fun j _ => ite_abs) (fun j _ => ite_abs) h1 k1
    refine ReadsAs.of (aMvmTnnII_val H.par H.prof H.F.out (encNonzero_ok H.vec H.vdP)
      (encNegOne_ok H.vec (by exact H.vdP)) T H.res (fun i hi => ?_) fun i hi' => ?_) fun i hi => ?_
    · have := A'.roomB i hi; have := h2 i hi; have := k2 i hi; omega
    · have := A'.room i hi'; have := h2 i hi'; have := k2 i hi'
      have := abs_add_le (res.get i) (rdg cfg lo hi (val L) vec n 0 i)
      have := abs_sub (res.get i + rdg cfg lo hi (val L) vec n 0 i) (rdg cfg lo hi (val L) vec n 1 i)
      have := abs_nonneg (rdg cfg lo hi (val L) vec n 1 i)
      exact ⟨inI32_of_abs (by omega), inI32_of_abs (by omega)⟩
    · simp only [rowResult, hm]
      exact add_sub_assoc _ _ _
  case tnn3 =>
    have A' := mkA (zOf cfg lo hi 1 + zOf cfg lo hi 2) fun i hi => by push_cast; linarith
    have hsw := sw trivial
    have v1 : ∀ j, j < n → |(vec.get j + 1) % 2| ≤ 1 := fun j hj => by
      rcases hx j hj with e | e | e <;> rw [e] <;> norm_num
    have v2 : ∀ j, j < n → |(vec.get j + 1) / 2 % 2| ≤ 1 := fun j hj => by
      rcases hx j hj with e | e | e <;> rw [e] <;> norm_num
    obtain ⟨h1, h2⟩ := A'.reads (W := val L) (vec := vec) (s := 1) 0 fun i hi => by
      simp only [conversions, hm, List.getElem?_cons_zero]
      rw [A.colD hb hi, Int.cast_one, sum_congr rfl fun j hj => by
        rw [show 1 - |vec.get j| = (vec.get j + 1) % 2 by
          rcases hx j (mem_range.1 hj) with e | e | e <;> rw [e] <;> norm_num]]
    obtain ⟨k1, k2⟩ := A'.reads (W := val L) (vec := vec) (s := 2) 1 fun i hi => by
      simp only [conversions, hm, List.getElem?_cons_succ, List.getElem?_cons_zero]
      rw [A.colD hb hi, Int.cast_ofNat, sum_congr rfl fun j hj => by
        rw [show (if vec.get j = 1 then 1 else 0) = (vec.get j + 1) / 2 % 2 by
          rcases hx j (mem_range.1 hj) with e | e | e <;> rw [e] <;> norm_num]]
    have T := H.tnn23 (l := l) v1 v2 h1 k1
    refine ReadsAs.of (aMvmTnnIII_val H.par H.prof H.F.out (encBit0_ok H.vec H.vdP fun j hj => IsTern.in1 (hx j hj))
      (encBit1_ok H.vec (by exact H.vdP) fun j hj => IsTern.in1 (hx j hj)) T H.res H.sw
      (fun i hi => ?_) fun i hi' => ?_) fun i hi => ?_
    · have := A'.roomB i hi; have := h2 i hi; have := k2 i hi; have := hsw i hi; omega
    · have := A'.room i hi'; have := h2 i hi'; have := k2 i hi'; have := hsw i hi'
      have := abs_add_le (res.get i) (rdg cfg lo hi (val L) vec n 0 i)
      have := abs_add_le (res.get i + rdg cfg lo hi (val L) vec n 0 i) (rdg cfg lo hi (val L) vec n 1 i)
      have := abs_sub (res.get i + rdg cfg lo hi (val L) vec n 0 i + rdg cfg lo hi (val L) vec n 1 i)
        (x.mapper.core.gd.sumW.get i)
      have := abs_nonneg (rdg cfg lo hi (val L) vec n 1 i)
      exact ⟨inI32_of_abs (by omega), inI32_of_abs (by omega), inI32_of_abs (by omega)⟩
    · rw [hs trivial i hi]
      simp only [rowResult, hm]
      unfold rdg
      ring
  case tnn4 =>
    have A' := mkA (2 * zOf cfg lo hi 1 + 2 * zOf cfg lo hi 2) fun i hi => by push_cast; linarith
    have h1 := A'.readsL' (W := val L) (vec := vec) (s := 1)
      (o := Acs.cur cfg.hrs (cfg.lrs - cfg.hrs) (∑ j ∈ range n, vec.get j) 0) 0 fun i hi => by
      simp only [conversions, hm, List.getElem?_cons_zero]
      rw [A.colP hb hi, Int.cast_one]
      congr 3
      unfold Acs.cur; push_cast; ring
    have k1 := A'.readsL' (W := val L) (vec := vec) (s := 1)
      (o := Acs.cur cfg.hrs (cfg.lrs - cfg.hrs) (-∑ j ∈ range n, vec.get j) 0) 1 fun i hi => by
      simp only [conversions, hm, List.getElem?_cons_succ, List.getElem?_cons_zero]
      rw [A.colP hb hi, Int.cast_one, show ∀ u v : K, u - v = u + -v from fun u v => sub_eq_add_neg u v]
      congr 3
      unfold Acs.cur; push_cast; ring
    have h2 := A'.readsL (W := val L) (vec := vec) (s := 2) 2 fun i hi => by
      simp only [conversions, hm, List.getElem?_cons_succ, List.getElem?_cons_zero]
      rw [A.colM hb hi, Int.cast_ofNat]
    have k2 := A'.readsL (W := val L) (vec := vec) (s := 2) 3 fun i hi => by
      simp only [conversions, hm, List.getElem?_cons_succ, List.getElem?_cons_zero]
      rw [A.colM hb hi, Int.cast_ofNat]
    refine ReadsAs.of (read_tnn4 H A' le_rfl hok.1 hx h1 k1 h2 k2) fun i hi => ?_
    simp only [rowResult, hm]
    rfl
  case tnn5 =>
    have A' := mkA (2 * zOf cfg lo hi 1 + 2 * zOf cfg lo hi 2) fun i hi => by push_cast; linarith
    have h1 := A'.readsL (W := val L) (vec := vec) (s := 1) 0 fun i hi => by
      simp only [conversions, hm, List.getElem?_cons_zero]
      rw [A.colP hb hi, Int.cast_one]
    have k1 := A'.readsL' (W := val L) (vec := vec) (s := 1)
      (o := Acs.cur cfg.hrs (cfg.lrs - cfg.hrs) (2 * (3 * ∑ j ∈ range n, vec.get j)) 0) 1 fun i hi => by
      simp only [conversions, hm, List.getElem?_cons_succ, List.getElem?_cons_zero]
      rw [A.colP hb hi, Int.cast_one]
      congr 3
      unfold Acs.cur; push_cast; ring
    have h2 := A'.readsL (W := val L) (vec := vec) (s := 2) 2 fun i hi => by
      simp only [conversions, hm, List.getElem?_cons_succ, List.getElem?_cons_zero]
      rw [A.colM hb hi, Int.cast_ofNat]
    have k2 := A'.readsL (W := val L) (vec := vec) (s := 2) 3 fun i hi => by
      simp only [conversions, hm, List.getElem?_cons_succ, List.getElem?_cons_zero]
      rw [A.colM hb hi, Int.cast_ofNat]
    refine ReadsAs.of (read_tnn5 H A' le_rfl hok.1 hx h1 k1 h2 k2) fun i hi => ?_
    simp only [rowResult, hm]
    exact add_sub_assoc _ _ _
  all_goals (rw [hm] at hb; exact absurd hb (by decide))

end AHyp

/-! ### Integer mappings -/

theorem slices_map {α β : Type} (g : Nat → Nat → α) (f : α → β) (N S : Nat) :
    ((List.range N).flatMap fun b => (List.range S).map fun s => g b s).map f
      = (List.range N).flatMap fun b => (List.range S).map fun s => f (g b s) := by
  simp only [List.map_flatMap, List.map_map, Function.comp_def]

theorem range_int (f : Nat → Int) (N : Nat) : ((List.range N).map f).sum = ∑ b ∈ range N, f b := by
  induction N with
  | zero => simp
  | succ N ih => rw [List.range_succ, List.map_append, List.sum_append, ih, sum_range_succ]; simp

theorem slices_total (g : Nat → Nat → Int) (N S : Nat) :
    ((List.range N).flatMap fun b => (List.range S).map fun s => g b s).sum
      = ∑ b ∈ range N, ∑ s ∈ range S, g b s := by
  induction N with
  | zero => simp
  | succ N ih =>
    rw [List.range_succ, List.flatMap_append, List.sum_append, ih, sum_range_succ]
    congr 1
    simp only [List.flatMap_cons, List.flatMap_nil, List.append_nil]
    exact range_int _ _

theorem slices_length {α : Type} (g : Nat → Nat → α) (N S : Nat) :
    ((List.range N).flatMap fun b => (List.range S).map fun s => g b s).length = N * S := by
  induction N with
  | zero => simp
  | succ N ih =>
    rw [List.range_succ, List.flatMap_append, List.length_append, ih]
    simp [Nat.succ_mul]

/-- The conversion of slice `s` and bit `b` of row `i`, for a pair of columns. -/
def pairConv (cfg : Cfg K) (W : Nat → Nat → Int) (vec : Vec Int) (n : Nat) (sg : K) (v : Int → Int) (b i s : Nat) : K × K :=
  (∑ j ∈ range n, (nominal cfg (i * cfg.split.length + s) (encP cfg (W i j) s)
      - nominal cfg (i * cfg.split.length + s) (encM cfg (W i j) s)) * (bits (v (vec.get j)) b 1 : K),
    sg * (2 ^ (shiftOf cfg.split s + b) * (2 ^ cfg.split.getD s 0 - 1)) / (cfg.lrs - cfg.hrs))

/-- The same for a single column. -/
def lineConv (cfg : Cfg K) (W : Nat → Nat → Int) (vec : Vec Int) (n : Nat) (b i s : Nat) : K × K :=
  (∑ j ∈ range n, nominal cfg (i * cfg.split.length + s) (encP cfg (W i j) s) * (bits (_root_.id (vec.get j)) b 1 : K),
    1 * (2 ^ (shiftOf cfg.split s + b) * (2 ^ cfg.split.getD s 0 - 1)) / (cfg.lrs - cfg.hrs))

namespace AHyp
variable (A : AHyp E cfg x L res vec m n)
include A

theorem readBits (hi' : cfg.mode.isInt = true) (hE : ExactArith E) (hA : AdcOk cfg l lo hi) {sg : Int}
    (hsg : sg = 1 ∨ sg = -1) {v : Int → Int} {v' : Nat → Int} (hv : ∀ j, v (vec.get j) = v' j) (N : Nat) :
    IntHyp.Bits E cfg x.mapper.core (fun s => (cfg.lrs - cfg.hrs) / (2 ^ cfg.split.getD s 0 - 1)) x.mapper.core.D v' (sg : K)
      m n N l (fun b i s => reading cfg lo hi (pairConv cfg (val L) vec n (sg : K) v b i s)) ∧
    ∀ i, i < m → ∑ b ∈ range N, ∑ s ∈ range cfg.S, |reading cfg lo hi (pairConv cfg (val L) vec n (sg : K) v b i s)|
      ≤ zI cfg x.mapper.core lo hi N := by
  have hS := A.stepOk hi'
  have e2 : ∀ b i s, (pairConv cfg (val L) vec n (sg : K) v b i s).2
      = ((sg * scI cfg x.mapper.core s b : Int) : K) / (cfg.lrs - cfg.hrs) := fun b i s => by
    rw [Int.cast_mul, A.scS hi']; rfl
  constructor
  · constructor
    intro b i s hb hi0 hs
    have h1 : (sg : K) * (2 ^ (x.mapper.core.shift.get s + b) / ((cfg.lrs - cfg.hrs) / (2 ^ cfg.split.getD s 0 - 1)))
        = ((sg * scI cfg x.mapper.core s b : Int) : K) / (cfg.lrs - cfg.hrs) := by
      rw [hS.scale hs, Int.cast_mul, mul_div_assoc]
    rw [h1, conv1_exact hE A.shape.core.adc hA, add_zero, reading_eq hA.lt.le, e2]
    have h2 : (pairConv cfg (val L) vec n (sg : K) v b i s).1
        = ((∑ j ∈ range n, x.mapper.core.D (i * cfg.S + s) j * bitOf (v' j) b : Int) : K)
          * ((cfg.lrs - cfg.hrs) / (2 ^ cfg.split.getD s 0 - 1)) := by
      rw [← A.colS hi' hi0 hs]
      simp only [pairConv, bits_one, hv]
    rw [h2]
    rfl
  · intro i hi0
    refine sum_le_sum fun b _ => sum_le_sum fun s _ => ?_
    rw [reading_eq hA.lt.le, e2]
    refine (adcOut_z hA _ _).trans (le_of_eq ?_)
    rcases hsg with e | e <;> rw [e]
    · rw [one_mul]
    · rw [neg_one_mul, zOf_neg]

/-- Integer mappings with a pair of cells per slice. -/
theorem readInt (hi' : cfg.mode.isInt = true) (hm : cfg.mode ≠ .iUintWOffs)
    (hgcc : cfg.mode = .iOffsWDiff → E.strict = false) (hE : ExactArith E) (hA : AdcOk cfg l lo hi)
    (hroom : ∀ i, i < m → ((|res.get i| + n * 2 ^ (cfg.wBit + cfg.iBit) : Int) : K)
      + convPeak lo hi (conversions cfg (val L) vec n i) ≤ 2147483647) :
    ReadsAs (aMvm E cfg x.mapper.core x.mapper.aux res vec m n l) cfg (val L) vec res m n lo hi := by
  obtain ⟨F, hst⟩ := A.exactI hE hi' 2147483647
  have H := A.intHyp hi' F hst
  obtain ⟨henc, hW⟩ := A.encD hi' hm
  have hpk : ∀ cs : List (K × K), 0 ≤ convPeak lo hi cs := fun cs => List.sum_nonneg fun y hy => by
    obtain ⟨c, _, rfl⟩ := List.mem_map.1 hy
    positivity
  have mkA : ∀ T : Int, (∀ i, i < m → (T : K) ≤ convPeak lo hi (conversions cfg (val L) vec n i)) →
      ∀ i, i < m → |res.get i| + T + n * 2 ^ (cfg.wBit + cfg.iBit) ≤ 2147483647 := fun T hT i hi => by
      have h1 := hroom i hi
      have h2 := hT i hi
      have h3 : ((|res.get i| + T + n * 2 ^ (cfg.wBit + cfg.iBit) : Int) : K) ≤ ((2147483647 : Int) : K) := by
        push_cast at h1 ⊢
        linarith
      exact Int.cast_le.1 h3
  have X := A.diff' hi' hm F (by norm_num) fun h0 => by
    have h1 := hroom 0 h0
    have h2 := hpk (conversions cfg (val L) vec n 0)
    have h3 : ((|res.get 0| + n * 2 ^ (cfg.wBit + cfg.iBit) : Int) : K) ≤ ((2147483647 : Int) : K) := by
      push_cast at h1 ⊢
      linarith
    have h4 := Int.cast_le.1 h3
    have := abs_nonneg (res.get 0)
    linarith
  have hP : (0 : Int) ≤ n * 2 ^ (cfg.wBit + cfg.iBit) := by positivity
  have hx := A.hx
  have hs := A.sums
  have hI' := intOk A.ok hi'
  have i1 := hI'.i1
  have i31 := hI'.i31
  have hp31 := two_pow_le i31
  have hp1 : (2 : Int) ^ cfg.iBit = 2 * 2 ^ (cfg.iBit - 1) := by rw [← pow_succ']; congr 1; omega
  have hp0 : (0 : Int) < 2 ^ (cfg.iBit - 1) := by positivity
  unfold LegalVec LegalX at hx
  unfold aMvm
  rw [A.shape.core.mode]
  have z := fun N => A.zI_le (lo := lo) (hi' := hi) hi' N 1 (by simp)
  have z' := fun N => A.zI_le (lo := lo) (hi' := hi) hi' N (-1) (by simp)
  have sm : ∀ y : Int, max y 0 = if 0 ≤ y then y else 0 := fun y => by split <;> omega
  have sn : ∀ y : Int, max (-y) 0 = if 0 ≤ y then 0 else -y := fun y => by split <;> omega
  have bp := fun (v : Int → Int) (v' : Nat → Int) (hv : ∀ j, v (vec.get j) = v' j) =>
    A.readBits hi' hE hA (sg := 1) (Or.inl rfl) hv
  have bm := fun (v : Int → Int) (v' : Nat → Int) (hv : ∀ j, v (vec.get j) = v' j) =>
    A.readBits hi' hE hA (sg := -1) (Or.inr rfl) hv
  simp only [Int.cast_one] at bp
  simp only [Int.cast_neg, Int.cast_one] at bm
  cases hmd : cfg.mode <;> simp only [hmd] at hx hs hm hgcc
  case iDiffWDiff1 =>
    simp only [hmd, conversions, convPeak, List.map_append, List.sum_append, slices_sum] at mkA
    have rm := mkA (zI cfg _ lo hi (cfg.iBit - 1) + zI cfg _ lo hi cfg.iBit)
      fun i _ => by rw [Int.cast_add]; exact add_le_add (z _) (z' _)
    obtain ⟨h1, h2⟩ := bp (fun y => max y 0) _ (fun j => sm _) (cfg.iBit - 1)
    obtain ⟨k1, k2⟩ := bm (fun y => max (-y) 0) _ (fun j => sn _) cfg.iBit
    refine ReadsAs.of (H.intI X A.hv A.hr i1 (by omega) (fun j hj => ?_) h1 k1 (fun i hi => ?_) fun i hi => ?_)
      fun i hi => ?_
    · have := hx j hj; constructor <;> omega
    · have := rm i hi; have := h2 i hi; have := k2 i hi; omega
    · have := rm i hi; have := h2 i hi; have := k2 i hi; omega
    · simp only [rowResult, hmd, conversions, List.map_append, List.sum_append, slices_map, slices_total, add_assoc]
      rfl
  case iDiffWDiff2 =>
    simp only [hmd, conversions, convPeak, List.map_append, List.sum_append, slices_sum] at mkA
    have rm := mkA (zI cfg _ lo hi (cfg.iBit - 1) + zI cfg _ lo hi cfg.iBit)
      fun i _ => by rw [Int.cast_add]; exact add_le_add (z _) (z' _)
    obtain ⟨h1, h2⟩ := bp (fun y => max y 0) _ (fun j => sm _) (cfg.iBit - 1)
    obtain ⟨k1, k2⟩ := bm (fun y => max (-y) 0) _ (fun j => sn _) cfg.iBit
    refine ReadsAs.of (H.intI X A.hv A.hr i1 (by omega) (fun j hj => ?_) h1 k1 (fun i hi => ?_) fun i hi => ?_)
      fun i hi => ?_
    · have := hx j hj; constructor <;> omega
    · have := rm i hi; have := h2 i hi; have := k2 i hi; omega
    · have := rm i hi; have := h2 i hi; have := k2 i hi; omega
    · simp only [rowResult, hmd, conversions, List.map_append, List.sum_append, slices_map, slices_total, add_assoc]
      rfl
  case iOffsWDiff =>
    simp only [hmd, conversions, convPeak, slices_sum] at mkA
    have rm := mkA (zI cfg _ lo hi (cfg.iBit + 1)) fun i _ => z _
    obtain ⟨h1, h2⟩ := bp (fun y => y + 2 ^ (cfg.iBit - 1)) _ (fun j => add_comm _ _) (cfg.iBit + 1)
    have hsw : ∀ i, i < m → |x.mapper.core.gd.sumW.get i * 2 ^ (cfg.iBit - 1)| ≤ n * 2 ^ (cfg.wBit + cfg.iBit) := by
      intro i hi
      rw [hs trivial i hi, abs_mul, abs_of_pos hp0, pow_add, hp1]
      have e1 : |∑ j ∈ range n, val L i j| ≤ n * 2 ^ cfg.wBit :=
        (abs_sum_le_sum_abs _ _).trans (sum_abs_le fun j hj => hW i j hi hj)
      have e3 := mul_le_mul_of_nonneg_right e1 hp0.le
      have e5 : 0 ≤ (n : Int) * 2 ^ cfg.wBit * 2 ^ (cfg.iBit - 1) := by positivity
      linarith
    have hnn : ∀ (f : Nat → Nat → Int) (N : Nat), 0 ≤ ∑ b ∈ range N, ∑ s ∈ range cfg.S, |f b s| := fun f N =>
      sum_nonneg fun _ _ => sum_nonneg fun _ _ => abs_nonneg _
    refine ReadsAs.of (H.intII X A.hv A.hr (hgcc trivial) i1 i31 (fun j hj => ?_) h1 (fun i hi => ?_) (fun i hi => ?_)
      (fun i hi => inI32_of_abs ?_) fun i hi => inI32_of_abs ?_) fun i hi => ?_
    · have := hx j hj; constructor <;> omega
    · have := rm i hi; have := h2 i hi; omega
    · have := rm i hi; have := h2 i hi; omega
    · have q1 := rm i hi; have q2 := (hnn _ _).trans (h2 i hi); have q3 := abs_nonneg (res.get i)
      exact (hsw i hi).trans (by linarith)
    · have q1 := rm i hi; have q2 := h2 i hi; have q3 := hsw i hi
      refine (abs_sub _ _).trans ?_
      refine (add_le_add_left ((abs_add_le _ _).trans (add_le_add_right ((abs_sum_le_sum_abs _ _).trans
        (sum_le_sum fun _ _ => abs_sum_le_sum_abs _ _)) _)) _).trans ?_
      linarith
    · rw [hs trivial i hi]
      simp only [rowResult, hmd, conversions, slices_map, slices_total]
      rw [add_sub_assoc, mul_comm (2 ^ (cfg.iBit - 1))]
      rfl
  case iTcWDiff =>
    simp only [hmd, conversions, convPeak, slices_sum] at mkA
    have rm := mkA (zI cfg _ lo hi cfg.iBit) fun i _ => z _
    obtain ⟨h1, h2⟩ := bp _root_.id _ (fun j => rfl) cfg.iBit
    refine ReadsAs.of (H.intIII X A.hv A.hr i1 (by omega) h1 (fun i hi => ?_) fun i hi => ?_) fun i hi => ?_
    · have := rm i hi; have := h2 i hi; omega
    · have := rm i hi; have := h2 i hi; omega
    · simp only [rowResult, hmd, conversions, slices_map]
      obtain ⟨k, hk⟩ : ∃ k, cfg.iBit = k + 1 := ⟨cfg.iBit - 1, by omega⟩
      rw [hk, Nat.add_sub_cancel, List.range_succ, List.flatMap_append, List.take_left' (slices_length _ _ _),
        List.drop_left' (slices_length _ _ _), slices_total]
      simp only [List.flatMap_cons, List.flatMap_nil, List.append_nil, range_int]
      rw [add_sub_assoc]
      rfl
  case iUintWDiff =>
    simp only [hmd, conversions, convPeak, slices_sum] at mkA
    have rm := mkA (zI cfg _ lo hi cfg.iBit) fun i _ => z _
    obtain ⟨h1, h2⟩ := bp _root_.id _ (fun j => rfl) cfg.iBit
    refine ReadsAs.of (H.intIV X A.hv A.hr (by omega) h1 (fun i hi => ?_) fun i hi => ?_) fun i hi => ?_
    · have := rm i hi; have := h2 i hi; omega
    · have := rm i hi; have := h2 i hi; omega
    · simp only [rowResult, hmd, conversions, slices_map, slices_total]
      rfl
  case iUintWOffs => exact absurd rfl hm
  all_goals (rw [hmd] at hi'; exact absurd hi' (by decide))

/-- The offset mapping. -/
theorem readIntV (hE : ExactArith E) (hm : cfg.mode = .iUintWOffs) (hA : AdcOk cfg l lo hi)
    (hroom : ∀ i, i < m → |res.get i| + |rowResult cfg lo hi (val L) vec n i| ≤ 2147483647) :
    ReadsAs (aMvm E cfg x.mapper.core x.mapper.aux res vec m n l) cfg (val L) vec res m n lo hi := by
  have hi' : cfg.mode.isInt = true := by rw [hm]; rfl
  have hI' := intOk A.ok hi'
  have i31 := hI'.i31
  obtain ⟨F, hst⟩ := A.exactI hE hi' 0
  have H := A.intHyp hi' F hst
  have hx := A.hx
  unfold LegalVec LegalX at hx
  simp only [hm] at hx
  have hS := A.stepOk hi'
  have hδ : ∑ s ∈ range cfg.S, 2 ^ x.mapper.core.shift.get s *
      (cfg.hrs / ((cfg.lrs - cfg.hrs) / (2 ^ cfg.split.getD s 0 - 1))) = leakage cfg := by
    unfold leakage
    refine sum_congr rfl fun s hs => ?_
    rw [hI'.shift A.shape.core]
    have h1 := hS.mask (mem_range.1 hs)
    have h2 := hS.ne
    field_simp
  have hsum : ∀ i, rowResult cfg lo hi (val L) vec n i = roundAway (∑ b ∈ range cfg.iBit, ∑ s ∈ range cfg.S,
      ((reading cfg lo hi (lineConv cfg (val L) vec n b i s) : Int) : K)
        - ((∑ j ∈ range n, vec.get j : Int) : K) * (leakage cfg + 2 ^ (cfg.wBit - 1))) := fun i => by
    simp only [rowResult, hm, conversions, slices_map, slices_total, nearest_eq, Int.cast_sum]
    rfl
  unfold aMvm
  rw [A.shape.core.mode, hm]
  refine ReadsAs.of (H.intV hE (l := l) (A.delta hE hm) A.hv A.hr hI'.w1 hI'.w31 (by omega) A.dims.2.2
    (IntHyp.inV hI'.i31 hx)
    (κ := fun b i s => ((reading cfg lo hi (lineConv cfg (val L) vec n b i s) : Int) : K))
    (fun b i s hb hi0 hs => ?_) fun i hi0 => ?_) fun i hi0 => ?_
  · rw [hS.scale hs, conv1_exact hE A.shape.core.adc hA, add_zero, reading_eq hA.lt.le]
    have e1 : (lineConv cfg (val L) vec n b i s).1
        = ∑ j ∈ range n, x.mapper.core.ia.p.get (i * cfg.S + s) j * (bitOf (vec.get j) b : K) := by
      rw [← A.colO hm hi0 hs]
      simp only [lineConv, bits_one, id_eq]
    have e2 : (lineConv cfg (val L) vec n b i s).2 = (scI cfg x.mapper.core s b : K) / (cfg.lrs - cfg.hrs) := by
      rw [A.scS hi']; simp only [lineConv, one_mul]
    rw [e1, e2]
    rfl
  · rw [hδ, ← hsum]
    exact hroom i hi0
  · rw [hδ, ← hsum]

/-- All mappings. -/
theorem reads (hE : ExactArith E) (hgcc : cfg.mode = .iOffsWDiff → E.strict = false) (hA : AdcOk cfg l lo hi)
    (hroom : ReadRoom cfg lo hi (val L) res vec m n) :
    ReadsAs (aMvm E cfg x.mapper.core x.mapper.aux res vec m n l) cfg (val L) vec res m n lo hi := by
  have hp := hroom.parts
  cases hi' : cfg.mode.isInt
  · have hpk : peak cfg n = 3 * n := by
      unfold peak
      cases hmd : cfg.mode <;> simp only [hmd] at hi' ⊢ <;> exact absurd hi' (by decide)
    rw [hpk] at hp
    exact A.readBin hi' hE hA hp
  · have hpk : peak cfg n = n * 2 ^ (cfg.wBit + cfg.iBit) := by
      unfold peak
      cases hmd : cfg.mode <;> simp only [hmd] at hi' ⊢ <;> exact absurd hi' (by decide)
    rw [hpk] at hp
    by_cases hm : cfg.mode = .iUintWOffs
    · exact A.readIntV hE hm hA (hroom.whole hm)
    · exact A.readInt hi' hm hgcc hE hA hp

end AHyp

/-! ## Crossbars -/

variable {h : List Op} {rg : String → K × K} {w : Nat}

theorem mvm_reads (A : AHyp E cfg x (lastWrite h) res vec m n) (hE : ExactArith E)
    (hgcc : cfg.mode = .iOffsWDiff → E.strict = false) (hA : AdcOk cfg l lo hi)
    (hroom : ReadRoom cfg lo hi (stored h) res vec m n) :
    ∃ x' r, xMvm E cfg x res vec mat m n l = .ok (x', r) ∧ AddsRead cfg lo hi r res (stored h) vec m n := by
  obtain ⟨a', e⟩ := A.reads hE hgcc hA hroom
  exact ⟨_, _, xMvm_analog A.id e, rfl, fun i hi => by rw [Vec.over_lt hi]; rfl, fun i hi => Vec.over_ge hi⟩

theorem exec_reads (hE : ExactArith E) (hok : CfgOk cfg) (hid : Ideal cfg)
    (hgcc : cfg.mode = .iOffsWDiff → E.strict = false) {ops : List Op} (hr : Runs E cfg h x)
    (hh : HistOk cfg w h) (hl : LegalOps cfg w h ops) (hC : AllReadable cfg rg h ops) :
    ∃ x' rs, exec E cfg x ops = .ok (x', rs) ∧ AnswersRead cfg rg h ops rs := by
  induction ops generalizing h x with
  | nil => exact ⟨x, [], rfl, .nil⟩
  | cons op ops ih =>
    cases op with
    | write mat m n =>
      obtain ⟨h1, h2⟩ := hl
      obtain ⟨x1, hx1⟩ := xWrite_ideal hE hok hid hr h1.dims h1.buf h1.vals h1.sums
      obtain ⟨x', rs, h3, h4⟩ := ih (.write hr hx1) (hh.write h1) h2 hC
      exact ⟨x', rs, by rw [exec, hx1, ok_bind, h3], .write h4⟩
    | mvm res vec mat m n l =>
      obtain ⟨h1, h2⟩ := hl
      have A : AHyp E cfg x (lastWrite h) res vec m n := aHyp hE hok hid hr
        (fun i j hi hj => by
          obtain ⟨v, hv⟩ := Option.isSome_iff_exists.1 (h1.written i j hi hj)
          exact ⟨v, hv, hh.vals i j v hv⟩) h1.dims
        (fun hk i _ => by
          have hw := h1.width hk
          subst hw
          exact runs_sums hr (hasSums_of_keeps hk) (hh.width hk) i) h1.vecBuf h1.resBuf h1.vals
      obtain ⟨x1, r, hx1, ha⟩ := mvm_reads (mat := mat) (l := l) A hE hgcc hC.1.1 hC.1.2
      obtain ⟨x', rs, h3, h4⟩ := ih (.mvm hr hx1) hh.mvm h2 hC.2
      refine ⟨x', r :: rs, ?_, .mvm ha h4⟩
      rw [exec, hx1, ok_bind]
      dsimp only
      rw [h3, ok_bind]

end

end Acs
