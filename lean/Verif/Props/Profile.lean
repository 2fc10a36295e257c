import Verif.Lemmas.HistMvm
import Verif.Lemmas.HistRep
import Verif.Lemmas.HistFree
import Verif.Props.Analog
import Mathlib.Tactic.Linarith

/-! # Profiling of the converter inputs (C49, C50, C59, C60) -/

set_option linter.unusedSectionVars false

namespace Acs.Ex

open Spec

/-- A crossbar that profiles with bins of width 1. -/
def prCfg (md : Mode) (t : AdcType) : Cfg ℚ := { acfg md with
  adcType := t
  adcProfile := true
  binSize := 1 }

/-- One cell pair with `HRS = 1`, `LRS = 6`, the converter that fits the mapping, and profiling. -/
def prOne (md : Mode) : Cfg ℚ := { one md 1 6 8 with
  adcType := match md with
    | .iUintWOffs | .bnn3 | .bnn4 | .bnn5 | .tnn4 | .tnn5 => .pos
    | _ => .sym
  adcProfile := true
  binSize := 1 }

theorem prOne_legal {md : Mode} {w : Int} (hw : LegalW (prOne md) w) :
    LegalMat (prOne md) (entry (single w) 1) 1 1 := fun i j hi hj => by
  obtain rfl : i = 0 := by omega
  obtain rfl : j = 0 := by omega
  exact hw

theorem prOne_vec {md : Mode} {v : Int} (hv : LegalX (prOne md) v) :
    LegalVec (prOne md) (single v) 1 := fun j hj => by
  obtain rfl : j = 0 := by omega
  exact hv

end Acs.Ex

namespace Acs.Props

open Acs.Spec Finset

section
variable {K : Type} [Field K] [LinearOrder K] [IsStrictOrderedRing K] [FloorRing K]
variable {E : Env K} {cfg : Cfg K} {x x' : Xbar K} {res vec mat r : Vec Int} {m n : Nat}
variable {l : String} {h : List Op} {g g' : Hist K} {vals : Vec K} {len : Nat}

/-! ## C49 -/

/-- C49, counts.  Whatever the arithmetic: an update of a histogram that returns adds one count per value,
and the counts never go down. -/
theorem C49_update_samples (hu : g.update E vals len = .ok g') :
    total g' = total g + len ∧ ∀ k, g.data.get k ≤ g'.data.get k := by
  refine ⟨(update_total hu).1, fun k => ?_⟩
  obtain ⟨_, idx, _, rfl⟩ := update_inv hu
  exact le_add_of_nonneg_right (by positivity)

/-- C49, counts.  In exact arithmetic the counts that are added are the numbers of values in the bins, and
every value has a bin. -/
theorem C49_update_counts (hE : ExactArith E) (hb : 0 < g.bin) (hu : g.update E vals len = .ok g') :
    (∀ i, i < len → ∃! k, k < g.data.size ∧ InBin g.minV g.bin k (vals.get i)) ∧
    ∀ k, g'.data.get k = g.data.get k + tally g.minV g.bin vals.get len k := by
  obtain ⟨h1, h2⟩ := update_exact_inv hE hb hu
  refine ⟨fun i hi => ?_, h2⟩
  obtain ⟨k, hk⟩ := h1 i hi
  exact ⟨k, hk, fun k' hk' => inBin_unique hb hk'.2 hk.2⟩

/-- C49, for a multiplication: any mapping, any converter, any values.  A multiplication of `m` rows adds the
number of its conversions to the profile of its layer — none in the integer mappings and in digital
crossbars —, leaves the other layers alone, and does nothing without profiling. -/
theorem C49_mvm_samples (hr : Runs E cfg h x) (hx : xMvm E cfg x res vec mat m n l = .ok (x', r)) :
    (cfg.adcProfile = true → seen x'.mapper.aux.hists l = seen x.mapper.aux.hists l +
      (if cfg.digitalOnly then 0 else profiled cfg.mode * m : Nat)) ∧
    (cfg.adcProfile = false → x'.mapper.aux.hists = x.mapper.aux.hists) ∧
    ∀ l', l' ≠ l → x'.mapper.aux.hists.lookup l' = x.mapper.aux.hists.lookup l' := by
  have k := (prof_xMvm (coreShape_mode (runs_shape hr).core)).of_ok hx
  exact ⟨k.on, k.off, k.else_⟩

/-- C49, for a whole session: after any calls, the profile of every layer has grown by the number of
conversions made for this layer. -/
theorem C49_session_samples (hr : Runs E cfg h x) {ops : List Op} {rs : List (Vec Int)}
    (hx : exec E cfg x ops = .ok (x', rs)) :
    (cfg.adcProfile = true ∧ cfg.digitalOnly = false → ∀ l,
      seen x'.mapper.aux.hists l = seen x.mapper.aux.hists l + sampled cfg l ops) ∧
    (cfg.adcProfile = false ∨ cfg.digitalOnly = true → ∀ l,
      seen x'.mapper.aux.hists l = seen x.mapper.aux.hists l) :=
  exec_prof (runs_shape hr) hx

/-- Two layers, two multiplications of the first one, one of the second one. -/
example : ∃ x x' rs, Runs Ex.env (Ex.prCfg .bnn3 .pos) [.write Ex.mat 2 3] x ∧
    exec Ex.env (Ex.prCfg .bnn3 .pos) x [.mvm Ex.res Ex.vec Ex.mat 2 2 "a", .mvm Ex.res Ex.vec Ex.mat 1 2 "b",
      .mvm Ex.res Ex.vec Ex.mat 2 1 "a"] = .ok (x', rs) ∧
    (seen x'.mapper.aux.hists "a" == 8 && seen x'.mapper.aux.hists "b" == 2) = true := by
  obtain ⟨x, hr, h⟩ := Ex.wrote (E := Ex.env) (c := Ex.prCfg .bnn3 .pos) (mat := Ex.mat) (m := 2) (n := 3)
    (fun x => Ex.okAnd (exec Ex.env (Ex.prCfg .bnn3 .pos) x [.mvm Ex.res Ex.vec Ex.mat 2 2 "a",
      .mvm Ex.res Ex.vec Ex.mat 1 2 "b", .mvm Ex.res Ex.vec Ex.mat 2 1 "a"]) fun s =>
      seen s.1.mapper.aux.hists "a" == 8 && seen s.1.mapper.aux.hists "b" == 2) (by decide +kernel)
  obtain ⟨s, h1, h⟩ := Ex.okAnd_spec h
  exact ⟨x, s.1, s.2, hr, h1, h⟩

/-- The number of bins of a new histogram: the range divided by the width, rounded. -/
theorem mkHist_size (hE : ExactArith E) {mn mx b : K} (hb : 0 < b) (hm : mkHist E mn mx b = .ok g) :
    mx - b / 2 ≤ mn + g.data.size * b ∧ (mn ≤ mx → mn + g.data.size * b ≤ mx + b / 2) := by
  unfold mkHist Env.fdiv Env.fsub at hm
  rw [if_neg hb.ne', ok_bind, hE.f32, hE.f32] at hm
  dsimp only at hm
  split at hm
  · cases hm
  · next hn =>
    cases hm
    have hs : roundAway ((mx - mn) / b) = ((roundAway ((mx - mn) / b)).toNat : Int) := by omega
    have := (inBin_iff hb).2 hs
    unfold InBin at this
    constructor
    · show _ ≤ mn + ((roundAway ((mx - mn) / b)).toNat : K) * b
      linarith [this.2.1]
    · intro _
      show mn + ((roundAway ((mx - mn) / b)).toNat : K) * b ≤ _
      linarith [this.1]

/-- A value between the lower end and the upper end of the bins has a bin. -/
theorem has_bin {mn b v : K} {s : Nat} (hb : 0 < b) (h1 : mn - b / 2 < v) (h2 : v < mn + s * b - b / 2) :
    ∃ k, k < s ∧ InBin mn b k v := by
  have hq : -(1 / 2) < (v - mn) / b := by rw [lt_div_iff₀ hb]; linarith
  have hz : 0 ≤ roundAway ((v - mn) / b) := by
    unfold roundAway
    split
    · exact Int.floor_nonneg.2 (by linarith)
    · exact Int.lt_add_one_iff.1 (Int.add_one_le_iff.1 (by
        have : -1 < ⌈(v - mn) / b - 1 / 2⌉ := Int.lt_ceil.2 (by push_cast; linarith)
        omega))
  have hk := (inBin_iff hb).2 (show roundAway ((v - mn) / b) = ((roundAway ((v - mn) / b)).toNat : Int) by omega)
  refine ⟨_, ?_, hk⟩
  have : ((roundAway ((v - mn) / b)).toNat : K) * b < s * b := by
    unfold InBin at hk; linarith [hk.1]
  exact_mod_cast lt_of_mul_lt_mul_right this hb.le

/-- C49, bounds, partial: streams of values in `[min, max - width)` are counted in bounds by a histogram for
`[min, max]`, as long as no counter reaches `2^31`.  Missing: the last bin width below `max`; the statement
is false there (`C49_false_top`). -/
theorem C49_in_bounds_partial (hE : ExactArith E) {mn mx b : K} (hb : 0 < b) {g0 : Hist K}
    (hm : mkHist E mn mx b = .ok g0) (hg : g.minV = g0.minV ∧ g.bin = g0.bin ∧ g.data.size = g0.data.size)
    (hsz : g.data.size ≤ 2147483648) (hl : len ≤ vals.size)
    (h0 : ∀ k, k < g.data.size → 0 ≤ g.data.get k ∧ g.data.get k + len ≤ 2147483647)
    (hv : ∀ i, i < len → mn ≤ vals.get i ∧ vals.get i < mx - b) :
    ∃ g', g.update E vals len = .ok g' ∧ g'.minV = g0.minV ∧ g'.bin = g0.bin ∧
      g'.data.size = g0.data.size := by
  obtain ⟨_, e1, _, e2, _⟩ := mkHist_inv hm
  have hs := (mkHist_size hE hb hm).1
  obtain ⟨g', hu⟩ := update_exact hE (h := g) (by rw [hg.2.1, e2]; exact hb) hl hsz h0 fun i hi => by
    rw [hg.1, hg.2.1, hg.2.2, e1, e2]
    exact has_bin hb (by linarith [(hv i hi).1]) (by linarith [(hv i hi).2])
  obtain ⟨_, u1, u2, _, u3⟩ := update_total hu
  exact ⟨g', hu, u2.trans hg.1, u3.trans hg.2.1, u1.trans hg.2.2⟩

/-- A histogram of ten bins and a stream. -/
example : ∃ g0 g' : Hist ℚ, mkHist Ex.env 0 10 1 = .ok g0 ∧ g0.data.size = 10 ∧
    g0.update Ex.env (Vec.ofList [0, 3, 17 / 2, 7 / 2]) 4 = .ok g' := by
  obtain ⟨g0, h0, h1⟩ := Ex.okAnd_spec (x := mkHist Ex.env 0 10 1) (p := fun g => g.data.size == 10)
    (by decide +kernel)
  have h1 : g0.data.size = 10 := by simpa using h1
  have h2 := (mkHist_inv h0).2.2.2.2
  obtain ⟨g', h, _⟩ := C49_in_bounds_partial (E := Ex.env) ⟨fun _ => rfl, fun _ => rfl⟩ one_pos h0
    (g := g0) ⟨rfl, rfl, rfl⟩ (by rw [h1]; decide) (vals := Vec.ofList [0, 3, 17 / 2, 7 / 2]) (len := 4) (le_refl 4)
    (fun k _ => by rw [h2]; decide) (by decide +kernel)
  exact ⟨g0, g', h0, h1, h⟩

/-- C49, bounds: the statement is false for every range that is a multiple of the width: counting the upper
end of the range is an access behind the end of the data. -/
theorem C49_false_top (hE : ExactArith E) {mn b : K} (hb : 0 < b) {k : Nat} (hk : k ≤ 2147483647)
    (hm : mkHist E mn (mn + k * b) b = .ok g) {v : K} (hv : mn + k * b - b / 2 < v ∧ v ≤ mn + k * b) :
    g.update E ⟨1, fun _ => v⟩ 1 = .error .oob := by
  obtain ⟨_, e1, _, e2, _⟩ := mkHist_inv hm
  have hs := mkHist_size hE hb hm
  have hk0 : (0 : K) ≤ k * b := mul_nonneg (Nat.cast_nonneg k) hb.le
  have h2 := hs.2 (by linarith)
  refine update_oob hE (by rw [e2]; exact hb) (le_refl 1) (k := k) ?_ hk ?_
  · by_contra hc
    have : ((k + 1 : Nat) : K) ≤ (g.data.size : K) := by exact_mod_cast (by omega : k + 1 ≤ g.data.size)
    push_cast at this
    nlinarith [mul_le_mul_of_nonneg_right this hb.le]
  · rw [e1, e2]
    show InBin mn b k v
    unfold InBin
    exact ⟨hv.1.le, by linarith [hv.2], by linarith [hv.1]⟩

example : ∃ g : Hist ℚ, mkHist Ex.env (-15) (-15 + (30 : Nat) * 1) 1 = .ok g ∧
    g.update Ex.env ⟨1, fun _ => 15⟩ 1 = .error .oob := by
  obtain ⟨g, h0, _⟩ := Ex.okAnd_spec (x := mkHist Ex.env (-15) (-15 + (30 : Nat) * 1) 1) (p := fun _ => true)
    (by decide +kernel)
  exact ⟨g, h0, C49_false_top ⟨fun _ => rfl, fun _ => rfl⟩ one_pos (by decide) h0 (by constructor <;> norm_num)⟩

/-- C49, bounds: what the claim means for a crossbar that is ideal apart from profiling, with a converter
whose range covers all currents of the mapping: multiplications are not accesses outside the profile. -/
def ProfileBoundsClaim (md : Mode) : Prop :=
  ∀ (cfg : Cfg ℚ) (x : Xbar ℚ) (res vec mat : Vec Int) (m n : Nat) (l : String),
    CfgOk cfg → cfg.mode = md → Ideal { cfg with adcProfile := false } → 0 < cfg.hrs → cfg.hrs < cfg.lrs →
    0 < cfg.binSize → cfg.calibMode = .max → adcFits cfg → 2 ≤ cfg.resolution ∧ cfg.resolution ≤ 30 →
    Accepted cfg m n → LegalMat cfg (entry mat n) m n → LegalVec cfg vec n →
    m * n ≤ mat.size → n ≤ vec.size → m ≤ res.size → Runs Ex.env cfg [.write mat m n] x →
    xMvm Ex.env cfg x res vec mat m n l ≠ .error .oob

theorem bounds_false {md : Mode} (w v : Int) (hi : md.isInt = false) (hw : LegalW (Ex.prOne md) w)
    (hv : LegalX (Ex.prOne md) v)
    (h : Ex.okAnd (mkXbar Ex.env (Ex.prOne md) 0 []) (fun x =>
      Ex.okAnd (xWrite Ex.env (Ex.prOne md) x (Ex.single w) 1 1) fun x =>
        Ex.failsWith (xMvm Ex.env (Ex.prOne md) x (Ex.single 0) (Ex.single v) (Ex.single w) 1 1 "") .oob) = true) :
    ¬ProfileBoundsClaim md := by
  intro hc
  obtain ⟨x, hr, h⟩ := Ex.wrote (fun x =>
    Ex.failsWith (xMvm Ex.env (Ex.prOne md) x (Ex.single 0) (Ex.single v) (Ex.single w) 1 1 "") .oob) h
  refine hc (Ex.prOne md) x (Ex.single 0) (Ex.single v) (Ex.single w) 1 1 "" ?_ rfl ?_ ?_ ?_ ?_ rfl ?_ ?_ ?_
    (Ex.prOne_legal hw) (Ex.prOne_vec hv) (le_refl 1) (le_refl 1) (le_refl 1) hr (Ex.failsWith_spec h)
  · exact Ex.one_ok md 1 6 8
  · exact ⟨rfl, rfl, rfl, rfl, rfl, Ex.quiet md, by show (1 : ℚ) ≠ 6; norm_num, fun h => by rw [show md.isInt = true from h] at hi; cases hi⟩
  · show (0 : ℚ) < 1; norm_num
  · show (1 : ℚ) < 6; norm_num
  · show (0 : Int) < 1; norm_num
  · cases md <;> rfl
  · show (2 : Int) ≤ 8 ∧ (8 : Int) ≤ 30; decide
  · exact ⟨le_refl 1, le_refl 1, by decide⟩

/-- C49, bounds: false for every mapping that profiles — already for crossbars of a single weight: the
largest current is counted behind the last bin. -/
theorem C49_false_mvm (md : Mode) (hi : md.isInt = false) : ¬ProfileBoundsClaim md := by
  cases md
  case bnn1 => exact bounds_false 1 1 rfl (Or.inl rfl) (Or.inl rfl) (by decide +kernel)
  case bnn2 => exact bounds_false (-1) (-1) rfl (Or.inr rfl) (Or.inr rfl) (by decide +kernel)
  case bnn3 => exact bounds_false 1 1 rfl (Or.inl rfl) (Or.inl rfl) (by decide +kernel)
  case bnn4 => exact bounds_false (-1) 1 rfl (Or.inr rfl) (Or.inl rfl) (by decide +kernel)
  case bnn5 => exact bounds_false 1 1 rfl (Or.inl rfl) (Or.inl rfl) (by decide +kernel)
  case bnn6 => exact bounds_false 1 1 rfl (Or.inl rfl) (Or.inl rfl) (by decide +kernel)
  case tnn1 => exact bounds_false 1 1 rfl (Or.inl rfl) (Or.inl rfl) (by decide +kernel)
  case tnn2 => exact bounds_false 1 1 rfl (Or.inl rfl) (Or.inl rfl) (by decide +kernel)
  case tnn3 => exact bounds_false 1 1 rfl (Or.inl rfl) (Or.inl rfl) (by decide +kernel)
  case tnn4 => exact bounds_false 1 1 rfl (Or.inl rfl) (Or.inl rfl) (by decide +kernel)
  case tnn5 => exact bounds_false 1 1 rfl (Or.inl rfl) (Or.inl rfl) (by decide +kernel)
  all_goals cases hi

/-! ## C50 -/

/-- C50 for all histograms: the label of the bin in which a value is counted is within half a bin width. -/
def LabelClaim (K : Type) [Field K] [LinearOrder K] [IsStrictOrderedRing K] [FloorRing K] : Prop :=
  ∀ (E : Env K) (g : Hist K) (v y : K) (k : Nat), ExactArith E → 0 < g.bin → g.minV ≤ v →
    g.index E v = .ok (k : Int) → g.label E k = .ok y → |y - v| ≤ g.bin / 2

/-- C50, partial: the label is above the value by at most one bin width, i.e. it is the end
of the bin (the next half step), not its centre.  The centre of the bin is the label minus half a width, and this
is within half a bin width.  Missing: the label itself within half a width; this is false
(`C50_false`). -/
theorem C50_label_partial (hE : ExactArith E) (hb : 0 < g.bin) {v y : K} {k : Nat}
    (hi : g.index E v = .ok (k : Int)) (hy : g.label E k = .ok y) :
    0 < y - v ∧ y - v ≤ g.bin ∧ |y - g.bin / 2 - v| ≤ g.bin / 2 := by
  rw [label_exact hE, ok_inj] at hy
  rw [index_exact hE hb.ne'] at hi
  have := (inBin_iff hb).2 (toI32_inv hi).1
  unfold InBin at this
  subst hy
  refine ⟨by linarith [this.2.1], by linarith [this.1], abs_le.2 ⟨by linarith [this.2.1], by linarith [this.1]⟩⟩

/-- C50: false at the start of every bin but the first, for every histogram. -/
theorem C50_false_all (hE : ExactArith E) (hb : 0 < g.bin) {k : Nat} (hk : k < 2147483647) :
    ∃ v y, g.minV ≤ v ∧ g.index E v = .ok ((k + 1 : Nat) : Int) ∧ g.label E (k + 1) = .ok y ∧
      |y - v| = g.bin := by
  refine ⟨g.minV + (k + 1 : Nat) * g.bin - g.bin / 2, _, ?_, ?_, label_exact hE _, ?_⟩
  · have := mul_nonneg (Nat.cast_nonneg (α := K) k) hb.le
    push_cast
    linarith
  · rw [index_exact hE hb.ne']
    have : InBin g.minV g.bin (k + 1) (g.minV + (k + 1 : Nat) * g.bin - g.bin / 2) := by
      have := mul_nonneg (Nat.cast_nonneg (α := K) k) hb.le
      refine ⟨le_refl _, by linarith, ?_⟩
      push_cast
      linarith
    rw [(inBin_iff hb).1 this]
    exact toI32_int ⟨by omega, by omega⟩
  · rw [abs_of_pos] <;> linarith

/-- C50: false. -/
theorem C50_false : ¬LabelClaim ℚ := by
  intro hc
  obtain ⟨v, y, h1, h2, h3, h4⟩ := C50_false_all (E := Ex.env) (g := ⟨0, 10, 1, Vec.const 10 0⟩)
    ⟨fun _ => rfl, fun _ => rfl⟩ one_pos (k := 0) (by decide)
  have := hc Ex.env _ v y 1 ⟨fun _ => rfl, fun _ => rfl⟩ one_pos h1 h2 h3
  rw [h4] at this
  exact absurd this (by decide +kernel)

/-- The value 3 of a histogram that starts at 0 with width 2 is counted in bin 2 and reported as 5. -/
example : (⟨0, 10, 2, Vec.const 5 0⟩ : Hist ℚ).index Ex.env 3 = .ok ((2 : Nat) : Int) ∧
    (⟨0, 10, 2, Vec.const 5 0⟩ : Hist ℚ).label Ex.env 2 = .ok 5 := by
  refine ⟨?_, ?_⟩
  · rw [index_exact ⟨fun _ => rfl, fun _ => rfl⟩ (by decide)]
    decide +kernel
  · rw [label_exact ⟨fun _ => rfl, fun _ => rfl⟩]
    norm_num

/-! ## C59 -/

theorem label_cast {mn b : K} {size : Nat} (hb : 0 < b) (hlo : -2147483648 ≤ mn)
    (hhi : mn + size * b ≤ 2147483647) (k : Nat) (hk : k < size) :
    toI32 (lab mn b k) = .ok (truncZ (lab mn b k)) := by
  have h1 : ((k + 1 : Nat) : K) * b ≤ size * b := mul_le_mul_of_nonneg_right (by exact_mod_cast hk) hb.le
  have h2 : (0 : K) ≤ k * b := mul_nonneg (Nat.cast_nonneg k) hb.le
  push_cast at h1
  unfold toI32
  rw [if_pos]
  have hl : -2147483648 ≤ lab mn b k := by unfold lab; linarith
  have hu : lab mn b k ≤ 2147483647 := by unfold lab; linarith
  unfold truncZ InI32
  split
  · exact ⟨Int.le_floor.2 (by push_cast; exact hl), Int.cast_le (R := K).1 ((Int.floor_le _).trans (by push_cast; exact hu))⟩
  · exact ⟨Int.cast_le (R := K).1 (le_trans (by push_cast; exact hl) (Int.le_ceil _)), Int.ceil_le.2 (by push_cast; exact hu)⟩

/-- C59: the report about a layer.  In exact arithmetic, for every stream of values and all ways of splitting it
into multiplications, the report lists all bins with the number of values in each of them, the number of values, and a
mean that exceeds the mean of the values by at most one bin width.  (The last hypothesis says that the labels
are in the range of `int32_t`; the conversion in the variance is undefined otherwise.) -/
theorem C59_report (hE : ExactArith E) {mn mx b : K} (hb : 0 < b) {vs : List K} (hf : Filled E mn mx b vs g)
    (hne : vs ≠ []) (hl : vs.length < 9223372036854775808)
    (hlo : -2147483648 ≤ mn) (hhi : mn + g.data.size * b ≤ 2147483647) :
    ∃ p, g.report E = .ok p ∧ p.samples = vs.length ∧
      p.hist = (List.range g.data.size).map (fun k : Nat =>
        (mn + k * b + b / 2, ((vs.countP fun v => decide (InBin mn b k v) : Nat) : Int))) ∧
      (p.hist.map Prod.snd).sum = vs.length ∧
      vs.sum / vs.length < p.mean ∧ p.mean ≤ vs.sum / vs.length + b := by
  obtain ⟨e1, _, e2, ht, _⟩ := filled_inv hf
  have hn : (0 : K) < vs.length := by exact_mod_cast List.length_pos_iff.2 hne
  obtain ⟨V, hV⟩ : ∃ V, g.variance E = .ok V := ⟨_, variance_ok hE hf hl hne (label_cast hb hlo hhi)⟩
  have hr : g.report E = .ok ⟨(List.range g.data.size).map fun k => (lab g.minV g.bin k, g.data.get k), vs.length,
      wsum g / (vs.length : K), V⟩ := by
    unfold Hist.report
    rw [report_bins hE (by rw [e2]; exact hb), ok_bind, samples_ok hf hl, ok_bind, mean_ok hE hf hl hne, ok_bind,
      hV, ok_bind]
  obtain ⟨w1, w2, w3⟩ := filled_wsum hE hb hf
  refine ⟨_, hr, rfl, ?_, ?_, ?_, ?_⟩
  · refine List.map_congr_left fun k _ => ?_
    rw [filled_counts hE hb hf k, e1, e2]
    rfl
  · show (((List.range g.data.size).map fun k => (lab g.minV g.bin k, g.data.get k)).map Prod.snd).sum = _
    rw [List.map_map, ← ht]
    unfold total
    generalize g.data.size = s
    induction s with
    | zero => simp
    | succ s ih => rw [List.range_succ, List.map_append, List.sum_append, ih, sum_range_succ]; simp
  · exact (div_lt_div_iff_of_pos_right hn).2 (w3 hne)
  · show wsum g / _ ≤ _
    rw [div_le_iff₀ hn, add_mul, div_mul_cancel₀ _ hn.ne', mul_comm b]
    exact w2

/-- The values 3, 7 and 3 of a histogram with bins of width 2 are reported as 5, 9 and 5. -/
example : ∃ g : Hist ℚ, Filled Ex.env 0 10 2 [3, 7, 3] g ∧ Ex.okAnd (g.report Ex.env) (fun p =>
    p.samples == 3 && p.hist == [(1, 0), (3, 0), (5, 2), (7, 0), (9, 1)] && p.mean == 19 / 3) = true := by
  obtain ⟨g, h0, h⟩ := Ex.okAnd_spec (x := mkHist Ex.env 0 10 2) (p := fun g =>
    Ex.okAnd (g.update Ex.env (Vec.ofList [3, 7]) 2) fun g => Ex.okAnd (g.update Ex.env (Vec.ofList [3]) 1) fun g =>
      Ex.okAnd (g.report Ex.env) (fun p =>
        p.samples == 3 && p.hist == [(1, 0), (3, 0), (5, 2), (7, 0), (9, 1)] && p.mean == 19 / 3))
    (by decide +kernel)
  obtain ⟨g1, h1, h⟩ := Ex.okAnd_spec h
  obtain ⟨g2, h2, h⟩ := Ex.okAnd_spec h
  exact ⟨g2, .more (.more (.new h0) h1) h2, h⟩

/-- C59, variance: the reported variance is that of the reported histogram. -/
def VarianceClaim : Prop :=
  ∀ (mn mx b : ℚ) (vs : List ℚ) (g : Hist ℚ) (p : Report ℚ), 0 < b → Filled Ex.env mn mx b vs g → vs ≠ [] →
    g.report Ex.env = .ok p →
    p.var = (p.hist.map fun c => (c.2 : ℚ) * (c.1 - p.mean) ^ 2).sum / vs.length

/-- C59, variance, partial: it is, if all labels are integers (the bin size is even and the range starts at an
integer).  Missing: other labels, for which it is false (`C59_false_variance`). -/
theorem C59_variance_partial (hE : ExactArith E) {mn mx b : K} (hb : 0 < b) {vs : List K}
    (hf : Filled E mn mx b vs g) (hne : vs ≠ []) (hl : vs.length < 9223372036854775808)
    (hlo : -2147483648 ≤ mn) (hhi : mn + g.data.size * b ≤ 2147483647) {z c : Int} (hz : mn = z) (hc : b = 2 * c)
    {p : Report K} (hp : g.report E = .ok p) :
    p.var = (p.hist.map fun c => (c.2 : K) * (c.1 - p.mean) ^ 2).sum / vs.length := by
  obtain ⟨e1, _, e2, ht, _⟩ := filled_inv hf
  unfold Hist.report at hp
  rw [report_bins hE (by rw [e2]; exact hb), ok_bind, samples_ok hf hl, ok_bind, mean_ok hE hf hl hne, ok_bind,
    variance_ok hE hf hl hne (label_cast hb hlo hhi), ok_bind, ok_inj] at hp
  subst hp
  dsimp only
  congr 1
  rw [List.map_map, list_sum_range]
  refine sum_congr rfl fun k _ => ?_
  have : (truncZ (lab mn b k) : K) = lab mn b k := by
    have e : lab mn b k = ((z + k * (2 * c) + c : Int) : K) := by
      unfold lab
      rw [hz, hc]
      push_cast
      ring
    rw [e, truncZ_int]
  rw [this]
  show _ = ((g.data.get k : Int) : K) * (lab g.minV g.bin k - _) ^ 2
  rw [e1, e2]

/-- C59, variance: false — labels are cut to integers.  One value is reported with variance 1/4. -/
theorem C59_false_variance : ¬VarianceClaim := by
  intro hc
  obtain ⟨g, h0, h⟩ := Ex.okAnd_spec (x := mkHist Ex.env 0 10 1) (p := fun g =>
    Ex.okAnd (g.update Ex.env (Vec.ofList [0]) 1) fun g => Ex.okAnd (g.report Ex.env) fun p =>
      p.var == 1 / 4 && (p.hist.map fun c => (c.2 : ℚ) * (c.1 - p.mean) ^ 2).sum == 0) (by decide +kernel)
  obtain ⟨g1, h1, h⟩ := Ex.okAnd_spec h
  obtain ⟨p, h2, h⟩ := Ex.okAnd_spec h
  have := hc 0 10 1 _ g1 p one_pos (.more (.new h0) h1) (by simp) h2
  simp only [Bool.and_eq_true, beq_iff_eq] at h
  rw [h.1, h.2] at this
  norm_num at this

example : ∃ g : Hist ℚ, Filled Ex.env (-4) 6 2 [3] g ∧ ((-4 : ℚ) = ((-4 : Int) : ℚ)) ∧
    Ex.okAnd (g.report Ex.env) (fun p => p.var == 0 && p.mean == 5) = true := by
  obtain ⟨g, h0, h⟩ := Ex.okAnd_spec (x := mkHist Ex.env (-4) 6 2) (p := fun g =>
    Ex.okAnd (g.update Ex.env (Vec.ofList [3]) 1) fun g => Ex.okAnd (g.report Ex.env) fun p =>
      p.var == 0 && p.mean == 5) (by decide +kernel)
  obtain ⟨g1, h1, h⟩ := Ex.okAnd_spec h
  exact ⟨g1, .more (.new h0) h1, by norm_num, h⟩

/-! ## C60 -/

/-- C60: profiling only observes.  If any calls on a profiling crossbar return normally, then the same calls on a
crossbar without profiling return normally with the same results, and the two crossbars differ at most in the
histograms — any mapping, arithmetic, variation, disturb, parasitics, any values. -/
theorem C60_transparent {rng : Nat} {hs hs' : List (String × Hist K)} (hx : mkXbar E cfg rng hs = .ok x)
    {ops : List Op} {rs : List (Vec Int)} (he : exec E cfg x ops = .ok (x', rs)) :
    ∃ y y', mkXbar E { cfg with adcProfile := false } rng hs' = .ok y ∧
      exec E { cfg with adcProfile := false } y ops = .ok (y', rs) ∧
      x' = { y' with mapper := { y'.mapper with aux := { y'.mapper.aux with hists := x'.mapper.aux.hists } } } := by
  obtain ⟨y, hy, rfl⟩ := lead_mkXbar (hs0 := hs') x hx
  obtain ⟨y', hy', rfl⟩ := lead_exec (hs0 := hs') _ he
  exact ⟨_, _, hy, hy', rfl⟩

/-- A noisy crossbar with profiling. -/
example : ∃ x x' rs, mkXbar Ex.env { Ex.prCfg .bnn3 .pos with lrsNoise := 1 } 0 [] = .ok x ∧
    exec Ex.env { Ex.prCfg .bnn3 .pos with lrsNoise := 1 } x [.write Ex.mat 2 3, .mvm Ex.res Ex.vec Ex.mat 2 2 "a",
      .mvm Ex.res Ex.vec Ex.mat 1 2 "b"] = .ok (x', rs) ∧
    (seen x'.mapper.aux.hists "a" == 4) = true := by
  obtain ⟨x, h0, h⟩ := Ex.okAnd_spec (x := mkXbar Ex.env { Ex.prCfg .bnn3 .pos with lrsNoise := 1 } 0 []) (p := fun x =>
    Ex.okAnd (exec Ex.env { Ex.prCfg .bnn3 .pos with lrsNoise := 1 } x [.write Ex.mat 2 3,
      .mvm Ex.res Ex.vec Ex.mat 2 2 "a", .mvm Ex.res Ex.vec Ex.mat 1 2 "b"]) fun s =>
        seen s.1.mapper.aux.hists "a" == 4) (by decide +kernel)
  obtain ⟨s, h1, h⟩ := Ex.okAnd_spec h
  exact ⟨x, s.1, s.2, h0, h1, h⟩

end

end Acs.Props
