import Verif.Lemmas.SimpleHist
import Verif.Lemmas.FloatFix
import Verif.Props.Profile
import Mathlib.Data.List.Perm.Basic

/-! # Histograms of integers (C72) -/

set_option linter.unusedSectionVars false

namespace Acs.Props

open Spec Finset

section
variable {K : Type} [Field K] [LinearOrder K] [IsStrictOrderedRing K] [FloorRing K] {E : Env K}
variable {mn mx : Int} {vs new : List Int} {g : SHist}

/-- C72.  A histogram can be constructed for every range of `int32_t`s with fewer than `2^31 - 1` values that
stays below the largest one. -/
theorem C72_new (h1 : -2147483648 ≤ mn) (h2 : mn ≤ mx) (h3 : mx < 2147483647) (h4 : mx - mn + 1 ≤ 2147483647) :
    ∃ g, mkSimple mn mx = .ok g ∧ Collected mn mx [] g := by
  obtain ⟨n, hn⟩ := genValues_ok (mn := mn) (size := (mx - mn + 1).toNat) h1 (by omega)
  have : ∃ g, mkSimple mn mx = .ok g := by
    unfold mkSimple subI addI
    rw [i32r_ok (by omega) (by omega), ok_bind, i32r_ok (by omega) h4, ok_bind, if_neg (by omega), hn, ok_bind]
    exact ⟨_, rfl⟩
  obtain ⟨g, hg⟩ := this
  exact ⟨g, hg, .new hg⟩

/-- C72.  The last increment of the generator overflows if the range ends with the largest `int32_t`. -/
theorem C72_new_top (h : mn ≤ 2147483647) : ∀ g, mkSimple mn 2147483647 ≠ .ok g := by
  intro g hg
  unfold mkSimple at hg
  rw [bind_eq_ok] at hg
  obtain ⟨d, h1, hg⟩ := hg
  obtain ⟨rfl, _⟩ := i32r_inv h1
  rw [bind_eq_ok] at hg
  obtain ⟨s, h2, hg⟩ := hg
  obtain ⟨rfl, _⟩ := i32r_inv h2
  rw [if_neg (by omega), bind_eq_ok] at hg
  obtain ⟨r, h3, _⟩ := hg
  have := (genValues_inv h3).2.2.2 (by omega)
  omega

/-- C72.  An update is defined exactly if all values are in the range (there is no check), as long as the number
of values fits into an `int32_t`. -/
theorem C72_update (h : Collected mn mx vs g) (hl : vs.length + new.length ≤ 2147483647) :
    (∃ g', g.update new = .ok g') ↔ ∀ v ∈ new, mn ≤ v ∧ v ≤ mx := by
  have hi := collected_inv h
  constructor
  · rintro ⟨g', h'⟩ v hv
    exact (update_sinv hi h').range v (by simp [hv])
  · intro hv
    have hs := hi.size
    have hs' := hi.small
    unfold SHist.update
    rw [hi.lo, simpleIdx_ok fun v hv' => by have := hv v hv'; omega, ok_bind]
    obtain ⟨d, hd⟩ := simpleBump_ok (d := g.data) (is := new.map (· - mn)) (fun i hi' => by
      obtain ⟨v, hv', rfl⟩ := List.mem_map.1 hi'
      have := hv v hv'
      omega) fun k hk => by
      rw [hi.counts k hk, count_shift]
      have h1 := List.count_le_length (a := mn + (k : Int)) (l := vs)
      have h2 := List.count_le_length (a := mn + (k : Int)) (l := new)
      omega
    exact ⟨_, by rw [hd, ok_bind]⟩

/-- C72.  In exact arithmetic, for every stream of values and all ways of splitting it into updates, the report
lists every value of the range with the number of its occurrences, the number of values, their mean and their
variance. -/
theorem C72_report (hE : ExactArith E) (h : Collected mn mx vs g) (hne : vs ≠ [])
    (hl : vs.length < 9223372036854775808) :
    ∃ p, g.report E = .ok p ∧ p.samples = vs.length ∧ p.mean = meanOf K vs ∧ p.var = varianceOf K vs ∧
      p.hist = (List.range (mx - mn + 1).toNat).map fun k : Nat => (mn + k, (vs.count (mn + k) : Int)) := by
  have hi := collected_inv h
  refine ⟨⟨(List.range g.data.size).map fun k : Nat => (mn + k, (vs.count (mn + k) : Int)), vs.length, meanOf K vs,
    varianceOf K vs⟩, ?_, rfl, rfl, rfl, ?_⟩
  · unfold SHist.report
    rw [hi.hist, ok_bind, hi.samples hl, ok_bind, hi.mean hE hl hne, ok_bind, hi.variance hE hl hne, ok_bind]
  · rw [← hi.size, Int.toNat_natCast]

/-- C72.  The report depends neither on the order of the values nor on how they are split into updates, in any
arithmetic. -/
theorem C72_order {vs' : List Int} {g' : SHist} (h : Collected mn mx vs g) (h' : Collected mn mx vs' g')
    (hp : vs.Perm vs') : g.report E = g'.report E := by
  have hi := collected_inv h
  have hi' := collected_inv h'
  have hs : g.data.size = g'.data.size := by have := hi.size; have := hi'.size; omega
  have e : ∀ {σ : Type} (f f' : Nat → σ → C σ) (s : σ), (∀ k st, k < g.data.size → f k st = f' k st) →
      loop g.data.size f s = loop g'.data.size f' s := by
    intro σ f f' s hf
    rw [← hs]
    generalize g.data.size = n at hf
    induction n with
    | zero => rfl
    | succ n ih =>
      rw [loop_succ, loop_succ, ih fun k st hk => hf k st (by omega)]
      exact congrArg _ (funext fun st => hf n st (by omega))
  have hd : ∀ k, k < g.data.size → g.data.rd k = g'.data.rd k := fun k hk => by
    rw [Vec.rd_ok hk, Vec.rd_ok (by rwa [← hs]), hi.counts k hk, hi'.counts k (by rwa [← hs]), hp.count_eq]
  have hv : ∀ k, k < g.data.size → g.values.rd k = g'.values.rd k := fun k hk => by
    rw [Vec.rd_ok (by rw [hi.vsize]; exact hk), Vec.rd_ok (by rw [hi'.vsize, ← hs]; exact hk), hi.values k hk,
      hi'.values k (by rwa [← hs])]
  have e1 : g.samples = g'.samples := e _ _ _ fun k st hk => by rw [hd k hk]
  have e2 : g.mean E = g'.mean E := by
    unfold SHist.mean
    rw [e1, e _ _ _ fun k st hk => by rw [hd k hk, hv k hk]]
  have e3 : g.variance E = g'.variance E := by
    unfold SHist.variance
    rw [e1, e2]
    refine congrArg _ (funext fun m => ?_)
    rw [e _ _ _ fun k st hk => by rw [hd k hk, hv k hk]]
  unfold SHist.report
  rw [e1, e2, e3, e _ _ _ fun k st hk => by rw [hd k hk, hv k hk]]

/-- C72.  Without values there is no report: mean and variance are not numbers. -/
theorem C72_empty (h : Collected mn mx [] g) : g.mean E = .error .nonfinite := by
  have hi := collected_inv h
  obtain ⟨s, hs⟩ : ∃ s, loop g.data.size (fun k s => do
      let d ← g.data.rd k
      let v ← g.values.rd k
      (.ok (E.fadd s (E.fmul (E.ofInt d) (E.ofInt v))) : C K)) 0 = .ok s := by
    refine ⟨_, loop_ok (fun k => (List.range k).foldl (fun s k => E.fadd s (E.fmul (E.ofInt (g.data.get k))
      (E.ofInt (g.values.get k)))) 0) rfl fun k hk => ?_⟩
    rw [Vec.rd_ok hk, ok_bind, Vec.rd_ok (by rw [hi.vsize]; exact hk), ok_bind, List.range_succ, List.foldl_append]
    rfl
  unfold SHist.mean
  rw [hs, ok_bind, hi.samples (by simp), ok_bind, if_pos (by simp)]

end

/-- C72.  In single precision the mean is that of the values, rounded to a `double` and then to a `float`, if the
absolute values sum up to at most `2^24`. -/
theorem C72_single_precision {E : Env ℚ} (hE : Ieee E) {mn mx : Int} {vs : List Int} {g : SHist}
    (h : Collected mn mx vs g) (hne : vs ≠ []) (hl : vs.length ≤ 2 ^ 24) (hs : (vs.map fun v => |v|).sum ≤ 2 ^ 24)
    (h1 : -2 ^ 24 ≤ mn) (h2 : mx ≤ 2 ^ 24) : g.mean E = .ok (rnd32 (rnd64 (meanOf ℚ vs))) := by
  have hi := collected_inv h
  have f : ∀ z : Int, |z| ≤ 2 ^ 24 → E.f32 (z : ℚ) = z := fun z hz => by rw [hE.f32]; exact rnd32_int hz
  have hz := hi.size
  have hc : ∀ k : Nat, ((vs.count (mn + k) : Nat) : Int) ≤ 2 ^ 24 := fun k => by
    have := List.count_le_length (a := mn + (k : Int)) (l := vs)
    omega
  have ht := sum_bins (M := Int) (fun v => |v|) hi.bins
  have hp : ∀ t : Finset Nat, t ⊆ range g.data.size →
      ∑ i ∈ t, |((vs.count (mn + (i : Int)) : Nat) : Int) * (mn + i)| ≤ 2 ^ 24 := fun t htt => by
    refine le_trans (sum_le_sum_of_subset_of_nonneg htt fun _ _ _ => abs_nonneg _) (le_trans (le_of_eq ?_) hs)
    rw [← ht]
    exact sum_congr rfl fun i _ => by rw [abs_mul, abs_of_nonneg (by positivity : (0 : Int) ≤ ((vs.count (mn + (i : Int)) : Nat) : Int))]
  have h64 : rnd64 (((vs.length : Int)) : ℚ) = (vs.length : Int) := by
    have := rnd64_fix (z := (vs.length : Int)) (e := 0) (by rw [abs_of_nonneg (by positivity)]; omega) (by norm_num)
    simpa using this
  unfold SHist.mean
  rw [hi.wsum (E := E)
    (fun k _ => by
      have := f ((vs.count (mn + k) : Nat) : Int) (by rw [abs_of_nonneg (by positivity)]; exact hc k)
      rwa [Int.cast_natCast] at this)
    (fun k hk => f _ (abs_le.2 ⟨by omega, by omega⟩))
    (fun k hk => f _ (by
      have := hp {k} (by simpa using hk)
      rwa [sum_singleton] at this))
    (fun k hk => f _ (le_trans (abs_sum_le_sum_abs _ _) (hp _ (range_subset_range.2 hk)))), ok_bind,
    hi.samples (by omega), ok_bind, if_neg (by simpa using hne), hE.f32, hE.f64, hE.f64,
    h64]
  unfold meanOf
  rw [Int.cast_natCast]

/-! ## Instances -/

namespace Ex'

theorem simple : ∃ g, Collected (-2) 3 [3, -1, 3] g := by
  obtain ⟨g, _, h1⟩ := C72_new (mn := -2) (mx := 3) (by decide) (by decide) (by decide) (by decide)
  obtain ⟨g1, h2⟩ := (C72_update h1 (new := [3, -1]) (by decide)).2 (by decide)
  obtain ⟨g2, h3⟩ := (C72_update (.more h1 h2) (new := [3]) (by decide)).2 (by decide)
  exact ⟨g2, .more (.more h1 h2) h3⟩

end Ex'

/-- The hypotheses of `C72_report`, `C72_update` and `C72_order`. -/
example : ∃ (g : SHist) (p : SReport ℚ), Collected (-2) 3 [3, -1, 3] g ∧ g.report Ex.env = .ok p ∧ p.mean = 5 / 3 ∧ p.var = 32 / 9 ∧
    p.hist = [(-2, 0), (-1, 1), (0, 0), (1, 0), (2, 0), (3, 2)] ∧ ¬∃ g', g.update [0, 4] = .ok g' := by
  obtain ⟨g, h⟩ := Ex'.simple
  obtain ⟨p, h1, _, h2, h3, h4⟩ := C72_report Ex.env_exact h (by decide) (by decide)
  refine ⟨g, p, h, h1, ?_, ?_, h4.trans (by decide), fun hu => ?_⟩
  · rw [h2]; decide +kernel
  · rw [h3]; decide +kernel
  · exact absurd ((C72_update h (by decide)).1 hu) (by decide)

/-- The hypotheses of `C72_empty`. -/
example : ∃ g, Collected (-2) 3 [] g := by
  obtain ⟨g, _, h1⟩ := C72_new (mn := -2) (mx := 3) (by decide) (by decide) (by decide) (by decide)
  exact ⟨g, h1⟩

/-- The hypotheses of `C72_single_precision`. -/
example : ∃ (E : Env ℚ) (g : SHist), Ieee E ∧ g.mean E = .ok (rnd32 (rnd64 (5 / 3))) := by
  obtain ⟨g, h⟩ := Ex'.simple
  refine ⟨{ Ex.env with f32 := rnd32, f64 := rnd64 }, g, ⟨fun _ => rfl, fun _ => rfl⟩, ?_⟩
  rw [C72_single_precision ⟨fun _ => rfl, fun _ => rfl⟩ h (by decide) (by decide) (by decide) (by decide) (by decide)]
  congr 3

end Acs.Props
