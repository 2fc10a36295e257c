import Verif.SpecTiles
import Verif.Lemmas.EndToEnd
import Verif.Lemmas.Refine
import Verif.Lemmas.RefineA

/-!
Lemmas for C112: the sums of the tiles.
-/

set_option linter.unusedSectionVars false

namespace Acs

open Finset Spec

variable {K : Type} [Field K] [LinearOrder K] [IsStrictOrderedRing K] [FloorRing K]
variable {E : Env K} {cfg : Cfg K} {W : Nat → Nat → Int} {v : Vec Int} {m N : Nat} {l : String}

/-- A single term is at most the peak of one column. -/
theorem term_peak {w z : Int} (hw : LegalW cfg w) (hz : LegalX cfg z) : |w * z| ≤ peak cfg 1 := by
  have key : ∀ a b : Nat, |w| ≤ 2 ^ a → |z| ≤ 2 ^ b → |w * z| ≤ ((1 : Nat) : Int) * 2 ^ (a + b) := fun a b h1 h2 => by
    rw [abs_mul, pow_add, Nat.cast_one, one_mul]
    exact mul_le_mul h1 h2 (abs_nonneg _) (by positivity)
  have half : ∀ k : Nat, (2 : Int) ^ (k - 1) ≤ 2 ^ k := fun k => pow_le_pow_right₀ (by norm_num) (Nat.sub_le _ _)
  unfold LegalW at hw
  unfold LegalX at hz
  unfold peak
  have h1 := half cfg.wBit
  have h2 := half cfg.iBit
  have h3 : (0 : Int) < 2 ^ cfg.iBit := by positivity
  cases hm : cfg.mode <;> simp only [hm] at hw hz ⊢
  all_goals first
    | exact key _ _ (abs_le.2 (by first | (have := abs_lt.1 hw; constructor <;> omega) | (constructor <;> omega)))
        (abs_le.2 (by constructor <;> omega))
    | (rcases hw with rfl | rfl | rfl <;> rcases hz with rfl | rfl | rfl <;> norm_num)
    | (rcases hw with rfl | rfl <;> rcases hz with rfl | rfl <;> norm_num)

theorem peak_mul (n : Nat) : peak cfg n = n * peak cfg 1 := by
  unfold peak; cases cfg.mode <;> push_cast <;> ring

theorem peak_one_nonneg : 0 ≤ peak cfg 1 := by
  unfold peak; cases cfg.mode <;> simp

/-- The columns before `c` contribute at most their peak. -/
theorem part_peak (hW : LegalMat cfg W m N) (hx : LegalVec cfg v N) {c i : Nat} (hc : c ≤ N) (hi : i < m) :
    |∑ j ∈ range c, W i j * v.get j| ≤ peak cfg c := by
  rw [peak_mul]
  calc _ ≤ ∑ j ∈ range c, |W i j * v.get j| := abs_sum_le_sum_abs _ _
    _ ≤ ∑ _j ∈ range c, peak cfg 1 := sum_le_sum fun j hj =>
        term_peak (hW i j hi (by have := mem_range.1 hj; omega)) (hx j (by have := mem_range.1 hj; omega))
    _ = _ := by simp

theorem covers_le : ∀ {ts : List Tile} {c : Nat}, Covers W v m N c ts → c ≤ N
  | [], _, h => le_of_eq h
  | _ :: _, _, h => by have := covers_le h.2.2.2.2; omega

/-- What a single write and multiplication does, in any state. -/
def TileExact (E : Env K) (cfg : Cfg K) (l : String) : Prop :=
  ∀ {h : List Op} {x : Xbar K} {mat vec res : Vec Int} {m n : Nat}, Runs E cfg h x → Accepted cfg m n → m * n ≤ mat.size →
    LegalMat cfg (entry mat n) m n → SumRoom cfg m n → n ≤ vec.size → LegalVec cfg vec n → m ≤ res.size → Room cfg res m n →
    ∃ x1 x2 r, xWrite E cfg x mat m n = .ok x1 ∧ xMvm E cfg x1 res vec mat m n l = .ok (x2, r) ∧
      Adds r res (entry mat n) vec m n

theorem tiles_exact (hT : TileExact E cfg l) (hW : LegalMat cfg W m N) (hx : LegalVec cfg v N) {res₀ : Vec Int}
    (hm : m ≤ res₀.size) (hroom : Room cfg res₀ m N) :
    ∀ (ts : List Tile) {c : Nat} {h : List Op} {x : Xbar K} {res : Vec Int}, Runs E cfg h x → TilesFit cfg m ts →
      Covers W v m N c ts → Adds res res₀ W v m c →
      ∃ h' x' r, runTiles E cfg m l ts x res = .ok (x', r) ∧ Runs E cfg h' x' ∧ Adds r res₀ W v m N
  | [], c, h, x, res, hr, _, hc, ha => ⟨h, x, res, rfl, hr, by have hc : c = N := hc; rwa [← hc]⟩
  | t :: ts, c, h, x, res, hr, hf, ⟨h1, h2, h3, h4, h5⟩, ha => by
    have hle := covers_le h5
    obtain ⟨f1, f2⟩ := hf t (by simp)
    have hlm : LegalMat cfg (entry t.mat t.n) m t.n := fun i j hi hj => by rw [h3 i j hi hj]; exact hW i _ hi (by omega)
    have hlv : LegalVec cfg t.vec t.n := fun j hj => by rw [h4 j hj]; exact hx _ (by omega)
    have hro : Room cfg res m t.n := fun i hi => by
      have a1 := part_peak hW hx (c := c) (by omega) hi
      have a2 := hroom i hi
      rw [ha.head i hi]
      have a3 := abs_add_le (res₀.get i) (prod W v c i)
      have a4 : peak cfg c + peak cfg t.n ≤ peak cfg N := by
        rw [peak_mul c, peak_mul t.n, peak_mul N, ← add_mul]
        exact mul_le_mul_of_nonneg_right (by exact_mod_cast hle) peak_one_nonneg
      unfold prod at a3 ⊢
      omega
    obtain ⟨x1, x2, r, e1, e2, e3⟩ := hT hr f1 h1 hlm f2 h2 hlv (by rw [ha.size]; exact hm) hro
    have ha' : Adds r res₀ W v m (c + t.n) := ⟨e3.size.trans ha.size, fun i hi => by
        rw [e3.head i hi, ha.head i hi]
        unfold prod
        rw [sum_range_add, add_assoc]
        congr 2
        exact sum_congr rfl fun j hj => by rw [h3 i j hi (mem_range.1 hj), h4 j (mem_range.1 hj)],
      fun i hi => (e3.tail i hi).trans (ha.tail i hi)⟩
    obtain ⟨h', x', r', g1, g2, g3⟩ := tiles_exact hT hW hx hm hroom ts (.mvm (.write hr e1) e2)
      (fun t' ht => hf t' (by simp [ht])) h5 ha'
    refine ⟨h', x', r', ?_, g2, g3⟩
    rw [runTiles, e1]
    show (xMvm E cfg x1 res t.vec t.mat m t.n l >>= fun q => runTiles E cfg m l ts q.1 q.2) = _
    rw [e2]
    exact g1

/-! ## The interface -/

theorem serveTiles_ok (hm : m < 2147483648) : ∀ (ts : List Tile) {w : World K} {x x' : Xbar K} {res r : Vec Int},
    w.xbar = some x → TilesFit w.cfg m ts → runTiles E w.cfg m l ts x res = .ok (x', r) →
    serveTiles E m l ts w res = .ok ({ w with xbar := some x' }, r, List.replicate (2 * ts.length) 0)
  | [], w, x, x', res, r, hx, _, h => by
    rw [runTiles, ok_inj] at h
    cases h
    rw [← hx]
    rfl
  | t :: ts, w, x, x', res, r, hx, hf, h => by
    obtain ⟨hd, -⟩ := hf t (by simp)
    rw [runTiles, bind_eq_ok] at h
    obtain ⟨x1, h1, h2⟩ := h
    rw [bind_eq_ok] at h2
    obtain ⟨q, h2, h3⟩ := h2
    rw [serveTiles, write_served hx hd hm, lift_ok.2 h1]
    show (do
      let q ← exeMvm E res t.vec t.mat (m : Int) (t.n : Int) l { w with xbar := some x1 }
      let s ← serveTiles E m l ts q.1 q.2.1
      (.ok (s.1, s.2.1, 0 :: q.2.2 :: s.2.2) : R K (World K × Vec Int × List Int))) = _
    rw [mvm_served (w := { w with xbar := some x1 }) rfl hd hm, lift_ok.2 h2]
    show (do
      let s ← serveTiles E m l ts { w with xbar := some q.1 } q.2
      (.ok (s.1, s.2.1, 0 :: 0 :: s.2.2) : R K (World K × Vec Int × List Int))) = _
    rw [serveTiles_ok hm ts (w := { w with xbar := some q.1 }) rfl (fun t' ht => hf t' (by simp [ht])) h3]
    rfl

/-! ## Through a real converter -/

variable {lo hi : K}

theorem convBound_nonneg (hA : AdcOk cfg l lo hi) (cs : List (K × K)) : 0 ≤ convBound cfg lo hi cs := by
  have := adcOk_step_pos hA
  unfold convBound
  refine add_nonneg (List.sum_nonneg ?_) (by split_ifs <;> norm_num)
  intro z hz
  obtain ⟨c, _, rfl⟩ := List.mem_map.1 hz
  positivity

theorem tilesErr_nonneg (hA : AdcOk cfg l lo hi) (ts : List Tile) (i : Nat) : 0 ≤ tilesErr cfg lo hi ts i := by
  refine List.sum_nonneg fun z hz => ?_
  obtain ⟨t, _, rfl⟩ := List.mem_map.1 hz
  exact convBound_nonneg hA _

theorem tiles_adc (hE : ExactArith E) (hok : CfgOk cfg) (hid : Ideal cfg) (hgcc : cfg.mode = .iOffsWDiff → E.strict = false)
    (hA : AdcOk cfg l lo hi) (hW : LegalMat cfg W m N) (hx : LegalVec cfg v N) {res₀ : Vec Int} (hm : m ≤ res₀.size) {T : Nat → K} :
    ∀ (ts : List Tile) {c : Nat} {h : List Op} {x : Xbar K} {res : Vec Int} {e : Nat → K}, Runs E cfg h x → TilesFit cfg m ts →
      Covers W v m N c ts → TilesInRange cfg lo hi m ts → TilesRoom cfg lo hi res₀ m N T ts →
      (∀ i, e i + tilesErr cfg lo hi ts i = T i) → AddsUpTo e res res₀ W v m c →
      ∃ x' r, runTiles E cfg m l ts x res = .ok (x', r) ∧ AddsUpTo T r res₀ W v m N
  | [], c, h, x, res, e, hr, _, hc, _, _, hT, ha => ⟨x, res, rfl, by
      have hc : c = N := hc
      have : e = T := funext fun i => by simpa [tilesErr] using hT i
      rwa [← hc, ← this]⟩
  | t :: ts, c, h, x, res, e, hr, hf, ⟨h1, h2, h3, h4, h5⟩, hin, hro, hT, ha => by
    have hle := covers_le h5
    obtain ⟨f1, f2⟩ := hf t (by simp)
    have hlm : LegalMat cfg (entry t.mat t.n) m t.n := fun i j hi hj => by rw [h3 i j hi hj]; exact hW i _ hi (by omega)
    have hlv : LegalVec cfg t.vec t.n := fun j hj => by rw [h4 j hj]; exact hx _ (by omega)
    have hsum : ∀ i, tilesErr cfg lo hi (t :: ts) i
        = convBound cfg lo hi (conversions cfg (entry t.mat t.n) t.vec t.n i) + tilesErr cfg lo hi ts i := fun i => by
      simp [tilesErr]
    have hro' : ∀ i, i < m → ((|res.get i| + peak cfg t.n : Int) : K)
        + convPeak lo hi (conversions cfg (entry t.mat t.n) t.vec t.n i) ≤ 2147483647 := fun i hi => by
      have a1 := part_peak hW hx (c := c) (by omega) hi
      have a2 := hro t (by simp) i hi
      have a3 := abs_add_le (res₀.get i) (prod W v c i)
      have a4 : peak cfg c + peak cfg t.n ≤ peak cfg N := by
        rw [peak_mul c, peak_mul t.n, peak_mul N, ← add_mul]
        exact mul_le_mul_of_nonneg_right (by exact_mod_cast hle) peak_one_nonneg
      have a5 : |res₀.get i + prod W v c i| + peak cfg t.n ≤ |res₀.get i| + peak cfg N := by
        unfold prod at a3 ⊢; omega
      have a6 : ((|res₀.get i + prod W v c i| + peak cfg t.n : Int) : K) ≤ ((|res₀.get i| + peak cfg N : Int) : K) :=
        Int.cast_le.2 a5
      have a7 := ha.head i hi
      have a8 := abs_sub_abs_le_abs_sub (res.get i : K) ((res₀.get i + prod W v c i : Int) : K)
      have a9 := tilesErr_nonneg (i := i) hA (t :: ts)
      have a10 := hT i
      rw [Int.cast_add, Int.cast_abs] at a6 ⊢
      linarith
    obtain ⟨x1, x2, r, e1, e2, e3⟩ := write_mvm_adc (mat' := t.mat) hE hok hid hgcc hr f1 h1 hlm f2 h2 hlv (by rw [ha.size]; exact hm)
      hA (hin t (by simp)) hro'
    have ha' : AddsUpTo (fun i => e i + convBound cfg lo hi (conversions cfg (entry t.mat t.n) t.vec t.n i)) r res₀ W v m (c + t.n) :=
      ⟨e3.size.trans ha.size, fun i hi => by
        have b1 := (e3.head i hi).trans (rowErr_le hA _)
        have b2 := ha.head i hi
        have b3 : prod W v (c + t.n) i = prod W v c i + prod (entry t.mat t.n) t.vec t.n i := by
          unfold prod
          rw [sum_range_add]
          congr 1
          exact sum_congr rfl fun j hj => by rw [h3 i j hi (mem_range.1 hj), h4 j (mem_range.1 hj)]
        rw [b3]
        push_cast at b1 b2 ⊢
        rw [abs_le] at b1 b2 ⊢
        constructor <;> linarith [b1.1, b1.2, b2.1, b2.2],
      fun i hi => (e3.tail i hi).trans (ha.tail i hi)⟩
    obtain ⟨x', r', g1, g2⟩ := tiles_adc hE hok hid hgcc hA hW hx hm ts (.mvm (.write hr e1) e2)
      (fun t' ht => hf t' (by simp [ht])) h5 (fun t' ht => hin t' (by simp [ht])) (fun t' ht => hro t' (by simp [ht]))
      (fun i => by rw [add_assoc, ← hsum]; exact hT i) ha'
    refine ⟨x', r', ?_, g2⟩
    rw [runTiles, e1]
    show (xMvm E cfg x1 res t.vec t.mat m t.n l >>= fun q => runTiles E cfg m l ts q.1 q.2) = _
    rw [e2]
    exact g1

end Acs
