import Verif.Lemmas.FlXbar
import Verif.Lemmas.FloatFix
import Verif.SpecFloat

/-! # Rounding errors of binary32 -/

set_option linter.unusedSectionVars false

namespace Acs

open Finset Spec

variable {E : Env ℚ} {cfg : Cfg ℚ} {n : Nat} {A ρ : ℚ}

theorem ieee_rounds (hE : Ieee E) : Rounds E prec32 where
  pos := by norm_num [prec32]
  err := fun x => by
    rw [hE.f32]
    have := rnd_err (p := 24) (emin := -149) x
    have e : (2 : ℚ) ^ (-149 : ℤ) / 2 = 2 ^ (-150 : ℤ) := by norm_num
    rw [e] at this
    unfold rnd32 prec32
    push_cast at this
    dsimp only
    linarith
  int := fun k hk => by rw [hE.f32]; exact rnd32_int hk

theorem ieee_scale (hE : Ieee E) (h1 : 2 ^ (-80 : ℤ) ≤ |cfg.lrs - cfg.hrs|) (h2 : |cfg.lrs - cfg.hrs| ≤ 2 ^ (80 : ℤ)) :
    ScaleError E cfg prec32 := by
  refine ⟨by norm_num [prec32], fun s hs => ?_⟩
  have R := (ieee_rounds hE).err
  unfold Env.fsub
  generalize cfg.lrs - cfg.hrs = d at h1 h2
  have hd : 0 < |d| := lt_of_lt_of_le (by positivity) h1
  have r1 := R d
  generalize E.f32 d = d' at r1 ⊢
  simp only [prec32] at R r1 ⊢
  have e1 : |d' - d| ≤ 2 ^ (-23 : ℤ) * |d| := by
    have : (2 : ℚ) ^ (-150 : ℤ) ≤ 2 ^ (-24 : ℤ) * 2 ^ (-80 : ℤ) := by norm_num
    have := mul_le_mul_of_nonneg_left h1 (by positivity : (0 : ℚ) ≤ 2 ^ (-24 : ℤ))
    have e : (2 : ℚ) ^ (-23 : ℤ) = 2 * 2 ^ (-24 : ℤ) := by norm_num
    rw [e]
    linarith
  have e2 : (1 - 2 ^ (-23 : ℤ)) * |d| ≤ |d'| := by
    have := abs_sub_abs_le_abs_sub d d'
    rw [abs_sub_comm] at this
    linarith
  have hd' : 0 < |d'| := lt_of_lt_of_le (mul_pos (by norm_num) hd) e2
  have hne : d' ≠ 0 := abs_pos.1 hd'
  have hs2 : |s| ≤ 2 := by rcases hs with rfl | rfl <;> norm_num
  have q1 : |d / d' - 1| ≤ 11 / 10 * 2 ^ (-23 : ℤ) := by
    have : d / d' - 1 = (d - d') / d' := by field_simp
    rw [this, abs_div, div_le_iff₀ hd', abs_sub_comm]
    have k : (2 : ℚ) ^ (-23 : ℤ) * |d| ≤ 11 / 10 * 2 ^ (-23 : ℤ) * ((1 - 2 ^ (-23 : ℤ)) * |d|) := by
      have : (2 : ℚ) ^ (-23 : ℤ) ≤ 11 / 10 * 2 ^ (-23 : ℤ) * (1 - 2 ^ (-23 : ℤ)) := by norm_num
      have := mul_le_mul_of_nonneg_right this hd.le
      linarith
    exact e1.trans (k.trans (mul_le_mul_of_nonneg_left e2 (by norm_num)))
  have q2 : |d / d'| ≤ 11 / 10 := by
    have := abs_add_le (d / d' - 1) 1
    rw [sub_add_cancel, abs_one] at this
    have : (11 : ℚ) / 10 * 2 ^ (-23 : ℤ) + 1 ≤ 11 / 10 := by norm_num
    linarith
  have r2 := R (s / d')
  generalize E.f32 (s / d') = y at r2 ⊢
  have split : y * d - s = (y - s / d') * d + s * (d / d' - 1) := by field_simp; ring
  rw [split]
  have t1 : |(y - s / d') * d| ≤ 2 ^ (-24 : ℤ) * (2 * (11 / 10)) + 2 ^ (-150 : ℤ) * 2 ^ (80 : ℤ) := by
    rw [abs_mul]
    have a1 := mul_le_mul_of_nonneg_right r2 hd.le
    have a2 : |s / d'| * |d| = |s| * |d / d'| := by rw [abs_div, abs_div]; ring
    have a3 : |s| * |d / d'| ≤ 2 * (11 / 10) := mul_le_mul hs2 q2 (abs_nonneg _) (by norm_num)
    have a4 := mul_le_mul_of_nonneg_left a3 (by positivity : (0 : ℚ) ≤ 2 ^ (-24 : ℤ))
    have a5 := mul_le_mul_of_nonneg_left h2 (by positivity : (0 : ℚ) ≤ 2 ^ (-150 : ℤ))
    rw [add_mul, mul_assoc, a2] at a1
    linarith
  have t2 : |s * (d / d' - 1)| ≤ 2 * (11 / 10 * 2 ^ (-23 : ℤ)) := by
    rw [abs_mul]
    exact mul_le_mul hs2 q1 (abs_nonneg _) (by norm_num)
  have t3 := abs_add_le ((y - s / d') * d) (s * (d / d' - 1))
  have : (2 : ℚ) ^ (-24 : ℤ) * (2 * (11 / 10)) + 2 ^ (-150 : ℤ) * 2 ^ (80 : ℤ) + 2 * (11 / 10 * 2 ^ (-23 : ℤ))
      ≤ 2 ^ (-21 : ℤ) := by norm_num
  linarith

/-- The deviation that covers the rounding of programmed currents. -/
def eps32 (cfg : Cfg ℚ) : ℚ := max |cfg.hrs| |cfg.lrs| * 2 ^ (-19 : ℤ)

section
variable (hd : 2 ^ (-80 : ℤ) ≤ |cfg.lrs - cfg.hrs|)

include hd

theorem top_big : 2 ^ (-81 : ℤ) ≤ max |cfg.hrs| |cfg.lrs| := by
  have h1 := window_le (cfg := cfg)
  have : (2 : ℚ) ^ (-80 : ℤ) = 2 * 2 ^ (-81 : ℤ) := by norm_num
  linarith

theorem cellRound32 : cellRound cfg (eps32 cfg) prec32 ≤ 51 / 10 * 2 ^ (-24 : ℤ) * max |cfg.hrs| |cfg.lrs| := by
  have h := top_big hd
  unfold cellRound topCurrent eps32 prec32
  generalize max |cfg.hrs| |cfg.lrs| = T at h ⊢
  norm_num at h ⊢
  linarith

theorem eps32_ok : 5 * cellRound cfg (eps32 cfg) prec32 ≤ eps32 cfg := by
  have h := top_big hd
  have h1 := cellRound32 hd
  unfold eps32 at *
  generalize max |cfg.hrs| |cfg.lrs| = T at h h1 ⊢
  norm_num at h h1 ⊢
  linarith

theorem colRound32 : colRound cfg (eps32 cfg) prec32 n ≤
    41 / 10 * (n + 1) * 2 ^ (-24 : ℤ) * max |cfg.hrs| |cfg.lrs| := by
  have h := top_big hd
  unfold colRound topCurrent eps32 prec32
  generalize max |cfg.hrs| |cfg.lrs| = T at h ⊢
  have hn : (0 : ℚ) ≤ n := Nat.cast_nonneg n
  have hT : 0 ≤ (n : ℚ) * T := mul_nonneg hn (le_trans (by positivity) h)
  norm_num at h ⊢
  nlinarith

theorem columnError32 : columnError cfg (eps32 cfg) prec32 n ≤
    (41 / 10 * n ^ 2 + 521 / 10 * n + 123 / 10) * 2 ^ (-24 : ℤ) * max |cfg.hrs| |cfg.lrs| := by
  have h1 := cellRound32 hd
  have h2 := colRound32 (n := n) hd
  unfold columnError
  have hn : (0 : ℚ) ≤ n := Nat.cast_nonneg n
  have h3 := mul_le_mul_of_nonneg_left h1 hn
  have h4 := mul_le_mul_of_nonneg_left h2 hn
  have e : (41 / 10 * (n : ℚ) ^ 2 + 521 / 10 * n + 123 / 10) * 2 ^ (-24 : ℤ) * max |cfg.hrs| |cfg.lrs| =
      7 * (n * (51 / 10 * 2 ^ (-24 : ℤ) * max |cfg.hrs| |cfg.lrs|)) +
      n * (41 / 10 * (n + 1) * 2 ^ (-24 : ℤ) * max |cfg.hrs| |cfg.lrs|) +
      3 * (41 / 10 * (n + 1) * 2 ^ (-24 : ℤ) * max |cfg.hrs| |cfg.lrs|) := by ring
  rw [e]
  linarith

variable (hρ : max |cfg.hrs| |cfg.lrs| ≤ ρ * |cfg.lrs - cfg.hrs|)

include hρ

theorem ratio_half : 1 / 2 ≤ ρ := by
  have h1 := window_le (cfg := cfg)
  have h2 : 0 < |cfg.lrs - cfg.hrs| := lt_of_lt_of_le (by positivity) hd
  by_contra h
  rw [not_le] at h
  have := mul_lt_mul_of_pos_right h h2
  linarith

theorem over_window {a b : ℚ} (ha : 0 ≤ a) (hb : b ≤ a * max |cfg.hrs| |cfg.lrs|) : b / |cfg.lrs - cfg.hrs| ≤ a * ρ := by
  have h2 : 0 < |cfg.lrs - cfg.hrs| := lt_of_lt_of_le (by positivity) hd
  rw [div_le_iff₀ h2]
  have := mul_le_mul_of_nonneg_left hρ ha
  linarith

theorem top32 : topCurrent cfg (eps32 cfg) ≤ 1001 / 1000 * max |cfg.hrs| |cfg.lrs| := by
  have h := top_big hd
  unfold topCurrent eps32
  generalize max |cfg.hrs| |cfg.lrs| = T at h ⊢
  norm_num at h ⊢
  linarith

theorem numRound32 : numRound cfg (eps32 cfg) prec32 A n ≤
    2 ^ (-24 : ℤ) * (A + 601 / 10 * (n + 1) * ρ + 11) := by
  have h := over_window hd hρ (a := 1202 / 100 * (n + 1)) (b := 12 * (n + 1) * topCurrent cfg (eps32 cfg))
    (by positivity) (by
      have h1 := mul_le_mul_of_nonneg_left (top32 hd hρ) (by positivity : (0 : ℚ) ≤ 12 * (n + 1))
      have h2 : (0 : ℚ) ≤ (n + 1) * max |cfg.hrs| |cfg.lrs| :=
        mul_nonneg (by positivity) (le_trans (by positivity) (top_big hd))
      linarith)
  unfold numRound
  generalize 12 * ((n : ℚ) + 1) * topCurrent cfg (eps32 cfg) / |cfg.lrs - cfg.hrs| = z at h ⊢
  unfold prec32
  norm_num at h ⊢
  linarith

theorem roundError32 : roundError cfg (eps32 cfg) prec32 A n ≤
    2 ^ (-24 : ℤ) * (26 * n ^ 2 * ρ + 1120 * n * ρ + 700 * ρ + 10 * A + 110) := by
  have hn : (0 : ℚ) ≤ n := Nat.cast_nonneg n
  have hT := (by positivity : (0 : ℚ) ≤ 2 ^ (-81 : ℤ)).trans (top_big hd)
  have hr := ratio_half hd hρ
  have h1 := columnError32 (n := n) hd
  have h2 := top32 hd hρ
  have h3 := numRound32 (n := n) (A := A) hd hρ
  have hg : (roundGain cfg.mode : ℚ) ≤ 6 := by
    have : roundGain cfg.mode ≤ 6 := by cases cfg.mode <;> decide
    exact_mod_cast this
  have hc0 : 0 ≤ columnError cfg (eps32 cfg) prec32 n := by
    unfold columnError cellRound colRound topCurrent eps32 prec32
    positivity
  have ht0 : 0 ≤ topCurrent cfg (eps32 cfg) := by unfold topCurrent eps32; positivity
  have hθ : (0 : ℚ) ≤ prec32.θ := by norm_num [prec32]
  have key : (roundGain cfg.mode : ℚ) * ((1 + prec32.θ) * columnError cfg (eps32 cfg) prec32 n
      + 4 * n * topCurrent cfg (eps32 cfg) * prec32.θ) ≤
      (2 ^ (-24 : ℤ) * (26 * n ^ 2 + 515 * n + 80)) * max |cfg.hrs| |cfg.lrs| := by
    have b1 : (1 + prec32.θ) * columnError cfg (eps32 cfg) prec32 n + 4 * n * topCurrent cfg (eps32 cfg) * prec32.θ ≤
        (2 ^ (-24 : ℤ) * (42 / 10 * n ^ 2 + 85 * n + 13)) * max |cfg.hrs| |cfg.lrs| := by
      have c1 : (1 + prec32.θ) * columnError cfg (eps32 cfg) prec32 n ≤ 1001 / 1000 * columnError cfg (eps32 cfg) prec32 n :=
        mul_le_mul_of_nonneg_right (by norm_num [prec32]) hc0
      have c2 := mul_le_mul_of_nonneg_left h2 (mul_nonneg (by positivity) hθ : (0 : ℚ) ≤ 4 * n * prec32.θ)
      have c3 : 4 * (n : ℚ) * prec32.θ * (1001 / 1000 * max |cfg.hrs| |cfg.lrs|)
          = 32032 / 1000 * 2 ^ (-24 : ℤ) * (n * max |cfg.hrs| |cfg.lrs|) := by
        unfold prec32
        norm_num
        ring
      have c4 : 4 * (n : ℚ) * topCurrent cfg (eps32 cfg) * prec32.θ = 4 * n * prec32.θ * topCurrent cfg (eps32 cfg) := by ring
      rw [c4]
      have d1 : (0 : ℚ) ≤ n ^ 2 * max |cfg.hrs| |cfg.lrs| := by positivity
      have d2 : (0 : ℚ) ≤ n * max |cfg.hrs| |cfg.lrs| := by positivity
      generalize max |cfg.hrs| |cfg.lrs| = T at *
      norm_num at *
      linarith
    have b2 : (0 : ℚ) ≤ (1 + prec32.θ) * columnError cfg (eps32 cfg) prec32 n
        + 4 * n * topCurrent cfg (eps32 cfg) * prec32.θ := by
      positivity
    have b3 := mul_le_mul hg b1 b2 (by norm_num)
    have d1 : (0 : ℚ) ≤ n ^ 2 * max |cfg.hrs| |cfg.lrs| := by positivity
    have d2 : (0 : ℚ) ≤ n * max |cfg.hrs| |cfg.lrs| := by positivity
    generalize max |cfg.hrs| |cfg.lrs| = T at *
    norm_num at *
    linarith
  have h4 := over_window hd hρ (by positivity) key
  unfold roundError
  have d1 : (0 : ℚ) ≤ n ^ 2 * ρ := by positivity
  have d2 : (0 : ℚ) ≤ n * ρ := by positivity
  norm_num at *
  linarith

omit hd hρ in
theorem prec32_u : prec32.u = 2 ^ (-24 : ℤ) := rfl

theorem room32 {res : Vec Int} {m : Nat} (hA0 : 0 ≤ A) (hA : ∀ i, i < m → |(res.get i : ℚ)| ≤ A)
    (hn : 26 * n ^ 2 * ρ + 1300 * n * ρ + 700 * ρ + 10 * A + 200 ≤ 2 ^ 24) :
    SmallRounding cfg (eps32 cfg) prec32 A n ∧ RoundRoom cfg (eps32 cfg) prec32 A res m n ∧
      noiseBound cfg (eps32 cfg) n + roundError cfg (eps32 cfg) prec32 A n ≤ truncations cfg.mode + 1 := by
  have hn0 : (0 : ℚ) ≤ n := Nat.cast_nonneg n
  have hT := (by positivity : (0 : ℚ) ≤ 2 ^ (-81 : ℤ)).trans (top_big hd)
  have hr := ratio_half hd hρ
  have d1 : (n : ℚ) * (1 / 2) ≤ n * ρ := mul_le_mul_of_nonneg_left hr hn0
  have d2 : (n : ℚ) ^ 2 * (1 / 2) ≤ n ^ 2 * ρ := mul_le_mul_of_nonneg_left hr (by positivity)
  have hN : noiseGain cfg.mode * n * eps32 cfg / |cfg.lrs - cfg.hrs| ≤ 2 ^ (-24 : ℤ) * (128 * n * ρ) := by
    have hg : (noiseGain cfg.mode : ℚ) ≤ 4 := by
      have : noiseGain cfg.mode ≤ 4 := by cases cfg.mode <;> decide
      exact_mod_cast this
    have := over_window hd hρ (a := 4 * n * 2 ^ (-19 : ℤ)) (b := noiseGain cfg.mode * n * eps32 cfg) (by positivity) (by
      unfold eps32
      have := mul_le_mul_of_nonneg_right hg (by positivity : (0 : ℚ) ≤ n * (max |cfg.hrs| |cfg.lrs| * 2 ^ (-19 : ℤ)))
      linarith)
    have e : 4 * (n : ℚ) * 2 ^ (-19 : ℤ) * ρ = 2 ^ (-24 : ℤ) * (128 * n * ρ) := by norm_num; ring
    linarith
  have hE := roundError32 (n := n) (A := A) hd hρ
  have hsum : noiseGain cfg.mode * n * eps32 cfg / |cfg.lrs - cfg.hrs| + roundError cfg (eps32 cfg) prec32 A n ≤ 1 := by
    have k1 : 2 ^ (-24 : ℤ) * (128 * n * ρ) +
        2 ^ (-24 : ℤ) * (26 * n ^ 2 * ρ + 1120 * n * ρ + 700 * ρ + 10 * A + 110) ≤ (2 : ℚ) ^ (-24 : ℤ) * 2 ^ 24 := by
      rw [← mul_add]
      refine mul_le_mul_of_nonneg_left ?_ (by positivity)
      linarith
    have k2 : (2 : ℚ) ^ (-24 : ℤ) * 2 ^ 24 = 1 := by norm_num
    exact (add_le_add hN hE).trans (k1.trans k2.le)
  refine ⟨⟨?_, ?_, ?_⟩, fun i hi => ⟨hA i hi, ?_⟩, ?_⟩
  · have : (3 * n : ℚ) < 2 ^ 24 := by
      have : (0 : ℚ) ≤ n ^ 2 := by positivity
      linarith
    exact_mod_cast this
  · have h1 := columnError32 (n := n) hd
    have h2 : max |cfg.hrs| |cfg.lrs| ≤ topCurrent cfg (eps32 cfg) := by
      unfold topCurrent eps32
      have : 0 ≤ max |cfg.hrs| |cfg.lrs| * 2 ^ (-19 : ℤ) := by positivity
      linarith
    have h3 : (41 / 10 * (n : ℚ) ^ 2 + 521 / 10 * n + 123 / 10) * 2 ^ (-24 : ℤ) ≤ 1 := by
      have : 41 / 10 * (n : ℚ) ^ 2 + 521 / 10 * n + 123 / 10 ≤ 2 ^ 24 := by
        have : (0 : ℚ) ≤ n ^ 2 := by positivity
        linarith
      have := mul_le_mul_of_nonneg_right this (by positivity : (0 : ℚ) ≤ 2 ^ (-24 : ℤ))
      have k2 : (2 : ℚ) ^ 24 * 2 ^ (-24 : ℤ) = 1 := by norm_num
      linarith
    have h4 := mul_le_mul_of_nonneg_right h3 hT
    linarith
  · have h1 := numRound32 (n := n) (A := A) hd hρ
    have h2 : A + 601 / 10 * (n + 1) * ρ + 11 ≤ 2 ^ 24 := by
      have : (0 : ℚ) ≤ n ^ 2 := by positivity
      linarith
    have := mul_le_mul_of_nonneg_left h2 (by positivity : (0 : ℚ) ≤ 2 ^ (-24 : ℤ))
    have k2 : (2 : ℚ) ^ (-24 : ℤ) * 2 ^ 24 = 1 := by norm_num
    linarith
  · have h1 := hA i hi
    push_cast
    have : (0 : ℚ) ≤ n ^ 2 := by positivity
    norm_num at hn
    linarith
  · unfold noiseBound
    linarith

end

/-- Single precision without variation. -/
theorem exec_single {x : Xbar ℚ} {w : Nat} (hE : Ieee E) (hok : CfgOk cfg) (hI : Imperfect cfg)
    (hrd : cfg.readDisturb = false) (hq1 : cfg.hrsNoise ≤ 0) (hq2 : cfg.lrsNoise ≤ 0)
    (h1 : 0 ≤ cfg.hrs) (h2 : 0 ≤ cfg.lrs) (hd : 2 ^ (-80 : ℤ) ≤ |cfg.lrs - cfg.hrs|)
    (hd' : |cfg.lrs - cfg.hrs| ≤ 2 ^ (80 : ℤ)) (hρ : max cfg.hrs cfg.lrs ≤ ρ * |cfg.lrs - cfg.hrs|)
    (hA0 : 0 ≤ A) {ops : List Op} {h : List Op} (hr : Runs E cfg h x) (hh : HistOk cfg w h)
    (hl : LegalOps cfg w h ops) (hR : SingleRooms ρ A ops) :
    ∃ x' rs, exec E cfg x ops = .ok (x', rs) ∧ AnswersWithin (fun _ => (truncations cfg.mode : ℚ) + 1) h ops rs := by
  have hρ' : max |cfg.hrs| |cfg.lrs| ≤ ρ * |cfg.lrs - cfg.hrs| := by rwa [abs_of_nonneg h1, abs_of_nonneg h2]
  have hT := (by positivity : (0 : ℚ) ≤ 2 ^ (-81 : ℤ)).trans (top_big hd)
  have key : ∀ op ∈ ops, match op with
      | .mvm res _ _ m n _ => SmallRounding cfg (eps32 cfg) prec32 A n ∧ RoundRoom cfg (eps32 cfg) prec32 A res m n ∧
          noiseBound cfg (eps32 cfg) n + roundError cfg (eps32 cfg) prec32 A n ≤ truncations cfg.mode + 1
      | .write .. => True := fun op ho => by
    have := hR op ho
    cases op with
    | write => trivial
    | mvm res vec mat m n l => exact room32 hd hρ' hA0 this.1 this.2
  obtain ⟨x', rs, h3, h4⟩ := exec_rounded (q := prec32) (ε := eps32 cfg) (σ := 0) (A := A) (ieee_rounds hE)
    (ieee_scale hE hd hd') hok hI hrd h1 h2
    ⟨le_rfl, fun h => by rcases h with h | h <;> linarith⟩
    (by
      have e : spread cfg (0 : ℚ) = 0 := by unfold spread; split <;> norm_num
      rw [e, zero_add]
      exact eps32_ok hd)
    (by unfold eps32; positivity) hA0 hr hh hl fun op ho => by
      have := key op ho
      cases op with
      | write => trivial
      | mvm => exact ⟨this.1, this.2.1⟩
  refine ⟨x', rs, h3, ?_⟩
  clear hR hl hr hh h3 x' x
  induction h4 with
  | nil => exact .nil
  | write a ih => exact .write (ih fun op ho => key op (List.mem_cons_of_mem _ ho))
  | mvm a a' ih =>
    have := (key _ List.mem_cons_self).2.2
    exact .mvm ⟨a.size, fun i hi => lt_of_lt_of_le (a.head i hi) this, a.tail⟩
      (ih fun op ho => key op (List.mem_cons_of_mem _ ho))

end Acs
