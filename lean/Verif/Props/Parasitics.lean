import Verif.Lemmas.ParCur
import Verif.Props.ExRd
import Verif.Props.Currents

/-!
# Parasitic wire resistance: C40, C41, C42
-/

set_option linter.unusedSectionVars false

namespace Acs.Ex

/-- An analog crossbar with wires of 1 MOhm per cell (a conductance of 1 µS). -/
def pcfg (md : Mode) : Cfg ℚ := { acfg md with parasitics := true, wRes := 1000000 }

/-- The same with a crossbar large enough for every mapping. -/
def pcfgL (md : Mode) : Cfg ℚ := { pcfg md with M := 4, N := 6 }

/-- With read disturb. -/
def pcfgRd (md : Mode) : Cfg ℚ := { rdCfg md with parasitics := true, wRes := 1000000 }

end Acs.Ex

namespace Acs.Props
open Spec

section
variable {K : Type} [Field K] [LinearOrder K] [IsStrictOrderedRing K] [FloorRing K]
variable {E : Env K} {cfg : Cfg K} {h : List Op} {x x1 x2 : Xbar K} {mat vec res : Vec Int}
variable {m n m' n' : Nat} {s : Solver K} {vp vm : Vec Int} {V : Option (Vec Int)}

/-! ## C42: the conductances the solver works with -/

/-- After a write that fits into the solver, and as long as only multiplications without read disturb
and cycle-to-cycle variation follow, the solver holds `current / -V_read` for every cell of the block,
and the wire conductance.

Partial: the full claim also covers blocks with `m * slices > M` or `n * lines > N` (where the write
either leaves the arrays, see C43, or skips cells, see `C42_false_slices`), later read-disturb updates
(`C42_false_disturb`) and variation (`C42_false_variation`). -/
theorem C42_programmed_conductances_partial (hr : Runs E cfg h x) (hd : cfg.digitalOnly = false)
    (hp : cfg.parasitics = true) (hv : cfg.vRead ≠ 0) (hw : cfg.wRes ≠ 0) (hS : cfg.split ≠ [])
    (hM : 0 < cfg.M) (hN : 0 < cfg.N) (hm : m * slices cfg ≤ cfg.M) (hn : n * lines cfg.mode ≤ cfg.N)
    (hx : xWrite E cfg x mat m n = .ok x1) :
    InSync E cfg x1 m n ∧
    (cfg.c2c = false → cfg.readDisturb = false → ∀ ops rs, (∀ o ∈ ops, isMvm o) →
      exec E cfg x1 ops = .ok (x2, rs) → InSync E cfg x2 m n) := by
  have h1 := write_sync hr hd hp hv hw (List.length_pos_iff.2 hS) hM hN hm hn hx
  exact ⟨h1, fun hc hq ops rs ho he => sync_exec ⟨hc, hq⟩ ho he h1⟩

/-- A full-size write and a multiplication in every mapping that has a solver, on a crossbar with room
for all lines. -/
theorem Ex.wires (md : Mode) (hmd : md ≠ .iTcWDiff) : ∃ x x' r,
    Runs Ex.env (Ex.pcfgL md) [.write Ex.mat 2 3] x ∧
    xMvm Ex.env (Ex.pcfgL md) x Ex.res (Vec.ofList [1, 1, 1]) Ex.mat 2 3 "" = .ok (x', r) ∧
    x'.mapper.core.par.isSome = true ∧
    2 * slices (Ex.pcfgL md) ≤ (Ex.pcfgL md).M ∧ 3 * lines md ≤ (Ex.pcfgL md).N := by
  cases md <;> first
    | exact absurd rfl hmd
    | exact (Ex.multiplied (fun x' _ => x'.mapper.core.par.isSome) (by decide +kernel)).elim
        fun x ⟨x', r, h1, h2, h3⟩ => ⟨x, x', r, h1, h2, h3, by decide, by decide⟩

/-! ## C40 and C41: the currents of the bit lines -/

theorem _root_.Acs.Spec.SameCells.cell {A B : Ia K} (hs : SameCells cfg A B m n) (hn : n' ≤ n) {c : Nat}
    (hc : c < m * slices cfg * pair cfg.mode) : ∀ r, r < cfg.N → driven cfg.mode vp.get vm.get n' r →
      cross cfg.mode (firstArray cfg.mode A).get (secondArray cfg.mode A).get r c =
      cross cfg.mode (firstArray cfg.mode B).get (secondArray cfg.mode B).get r c := fun r _ hd => by
  have h2 := hs _ _ (Nat.div_lt_of_lt_mul (by rw [mul_comm]; exact hc)) (lt_of_lt_of_le hd.1 hn)
  unfold cross
  split
  · exact h2.1
  · exact h2.2

theorem _root_.Acs.Spec.Conducts.cell (hpos : Conducts cfg x m n) (hn : n' ≤ n) {c : Nat}
    (hc : c < m * slices cfg * pair cfg.mode) : ∀ r, r < cfg.N → driven cfg.mode vp.get vm.get n' r →
      0 ≤ crossing cfg x r c := fun r _ hd => by
  have h2 := hpos _ _ (Nat.div_lt_of_lt_mul (by rw [mul_comm]; exact hc)) (lt_of_lt_of_le hd.1 hn)
  unfold crossing cross
  split
  · exact h2.1
  · exact h2.2

/-- The solver of a crossbar in sync delivers, for every bit line of the block, a current between 0 and
the current without wire resistance; strictly between the two as soon as a driven cell conducts, and 0
if no word line is driven.  The numbers returned to the mapping are these currents, or the differences
of neighbouring ones. -/
theorem C40_column_currents (ha : ExactArith E) (hr : Runs E cfg h x) (hs : x.mapper.core.par = some s)
    (hsy : InSync E cfg x m n) (hv : cfg.vRead < 0) (hR : 0 < cfg.wRes) (hpos : Conducts cfg x m n)
    (hV : V = some vm ∨ lines cfg.mode = 1) (hvp : n' ≤ vp.size) (hvm : n' ≤ vm.size) (hm : m' ≤ m)
    (hn : n' ≤ n) (hN : n' * lines cfg.mode ≤ cfg.N) (hM : taps cfg m' ≤ cfg.M) :
    ∃ (r : Vec K) (I : Nat → K), computeCurrents E s vp V (taps cfg m') n' = .ok r ∧ r.size = cfg.M ∧
      (∀ i, i < taps cfg m' → r.get i = tap cfg.mode I i) ∧
      ∀ c, c < m' * slices cfg * pair cfg.mode →
        0 ≤ I c ∧ I c ≤ idealOf cfg x vp vm n' c ∧
        ((∃ w, w < cfg.N ∧ driven cfg.mode vp.get vm.get n' w ∧ 0 < crossing cfg x w c) →
          0 < I c ∧ I c < idealOf cfg x vp vm n' c) ∧
        ((∀ w, ¬driven cfg.mode vp.get vm.get n' w) → I c = 0) := by
  refine ⟨_, wiredOf cfg.wRes cfg x vp vm n', sync_currents ha (runs_shape hr) (runs_tuned hr) hsy hs hv hR hpos hV
    hvp hvm hm hn hN hM, rfl, fun i hi => ?_, fun c hc => ?_⟩
  · exact if_pos hi
  · have hc' : c < m * slices cfg * pair cfg.mode :=
      lt_of_lt_of_le hc (Nat.mul_le_mul_right _ (Nat.mul_le_mul_right _ hm))
    have hu : 0 < -cfg.vRead := by linarith
    have hg := hpos.cell (vp := vp) (vm := vm) hn hc'
    exact ⟨wiredCol_nonneg hu hR hg, wiredCol_le hu hR hg, wiredCol_lt hu hR hg,
      fun h => wiredCol_zero fun w _ => h w⟩

/-- More wire resistance never gives more current: two crossbars that differ in the wire resistance and
hold the same currents. -/
theorem C41_antitone {R' : K} {s' : Solver K} {h' : List Op} (ha : ExactArith E) (hr : Runs E cfg h x)
    (hr' : Runs E { cfg with wRes := R' } h' x1) (hs : x.mapper.core.par = some s)
    (hs' : x1.mapper.core.par = some s') (hsy : InSync E cfg x m n)
    (hsy' : InSync E { cfg with wRes := R' } x1 m n) (hia : SameCells cfg x1.mapper.core.ia x.mapper.core.ia m n)
    (hv : cfg.vRead < 0) (hR : 0 < cfg.wRes) (hRR : cfg.wRes ≤ R') (hpos : Conducts cfg x m n)
    (hV : V = some vm ∨ lines cfg.mode = 1) (hvp : n' ≤ vp.size) (hvm : n' ≤ vm.size) (hm : m' ≤ m)
    (hn : n' ≤ n) (hN : n' * lines cfg.mode ≤ cfg.N) (hM : taps cfg m' ≤ cfg.M) :
    ∃ (r r' : Vec K) (I I' : Nat → K), computeCurrents E s vp V (taps cfg m') n' = .ok r ∧
      computeCurrents E s' vp V (taps cfg m') n' = .ok r' ∧
      (∀ i, i < taps cfg m' → r.get i = tap cfg.mode I i ∧ r'.get i = tap cfg.mode I' i) ∧
      ∀ c, c < m' * slices cfg * pair cfg.mode → I' c ≤ I c := by
  refine ⟨_, _, wiredOf cfg.wRes cfg x vp vm n', wiredOf R' cfg x1 vp vm n',
    sync_currents ha (runs_shape hr) (runs_tuned hr) hsy hs hv hR hpos hV hvp hvm hm hn hN hM,
    sync_currents (cfg := { cfg with wRes := R' }) ha (runs_shape hr') (runs_tuned hr') hsy' hs' hv
      (hR.trans_le hRR) ?_ hV hvp hvm hm hn hN hM, fun i hi => ⟨if_pos hi, if_pos hi⟩,
    fun c hc => ?_⟩
  · exact fun i j hi hj => by rw [(hia i j hi hj).1, (hia i j hi hj).2]; exact hpos i j hi hj
  · have hc' : c < m * slices cfg * pair cfg.mode :=
      lt_of_lt_of_le hc (Nat.mul_le_mul_right _ (Nat.mul_le_mul_right _ hm))
    exact (wiredCol_congr (hia.cell hn hc')).trans_le
      (wiredCol_anti (by linarith) hR (hpos.cell hn hc') hRR)

/-- The loss on a bit line is at most `N * I² * R / (-V_read * 10^6)`, where `I` is the current without
wire resistance. -/
theorem C41_bound (ha : ExactArith E) (hr : Runs E cfg h x) (hs : x.mapper.core.par = some s)
    (hsy : InSync E cfg x m n) (hv : cfg.vRead < 0) (hR : 0 < cfg.wRes) (hpos : Conducts cfg x m n)
    (hV : V = some vm ∨ lines cfg.mode = 1) (hvp : n' ≤ vp.size) (hvm : n' ≤ vm.size) (hm : m' ≤ m)
    (hn : n' ≤ n) (hN : n' * lines cfg.mode ≤ cfg.N) (hM : taps cfg m' ≤ cfg.M) :
    ∃ (r : Vec K) (I : Nat → K), computeCurrents E s vp V (taps cfg m') n' = .ok r ∧
      (∀ i, i < taps cfg m' → r.get i = tap cfg.mode I i) ∧
      ∀ c, c < m' * slices cfg * pair cfg.mode →
        idealOf cfg x vp vm n' c - I c ≤
          cfg.N * idealOf cfg x vp vm n' c ^ 2 * cfg.wRes / (-cfg.vRead * 1000000) := by
  refine ⟨_, wiredOf cfg.wRes cfg x vp vm n', sync_currents ha (runs_shape hr) (runs_tuned hr) hsy hs hv hR hpos hV
    hvp hvm hm hn hN hM, fun i hi => if_pos hi, fun c hc => ?_⟩
  have hc' : c < m * slices cfg * pair cfg.mode :=
    lt_of_lt_of_le hc (Nat.mul_le_mul_right _ (Nat.mul_le_mul_right _ hm))
  have := wiredCol_ge (u := -cfg.vRead) (by linarith) hR (hpos.cell (vp := vp) (vm := vm) hn hc')
  linarith

/-- The currents tend to those without wire resistance: for every `ε` there is a resistance `R₀` such
that every crossbar with at most this wire resistance and these cell currents loses at most `ε` on every
bit line. -/
theorem C41_limit (ha : ExactArith E) (ia : Ia K) {ε : K} (hε : 0 < ε) (hv : cfg.vRead < 0)
    (hV : V = some vm ∨ lines cfg.mode = 1) (hvp : n' ≤ vp.size) (hvm : n' ≤ vm.size) (hm : m' ≤ m)
    (hn : n' ≤ n) (hN : n' * lines cfg.mode ≤ cfg.N) (hM : taps cfg m' ≤ cfg.M) :
    ∃ R₀ : K, 0 < R₀ ∧ ∀ (R : K) (h : List Op) (x : Xbar K) (s : Solver K), 0 < R → R ≤ R₀ →
      Runs E { cfg with wRes := R } h x → x.mapper.core.par = some s → SameCells cfg x.mapper.core.ia ia m n →
      InSync E { cfg with wRes := R } x m n → Conducts cfg x m n →
      ∃ (r : Vec K) (I : Nat → K), computeCurrents E s vp V (taps cfg m') n' = .ok r ∧
        (∀ i, i < taps cfg m' → r.get i = tap cfg.mode I i) ∧
        ∀ c, c < m' * slices cfg * pair cfg.mode → |idealOf cfg x vp vm n' c - I c| ≤ ε := by
  -- the largest possible loss over all bit lines
  let id' : Nat → K := fun c => idealCol cfg.mode (firstArray cfg.mode ia).get (secondArray cfg.mode ia).get
    vp.get vm.get n' cfg.N c
  let S : K := (Finset.range (m' * slices cfg * pair cfg.mode)).sum fun c => id' c ^ 2
  have hS : 0 ≤ S := Finset.sum_nonneg fun _ _ => sq_nonneg _
  have hu : 0 < -cfg.vRead := by linarith
  have hN0 : (0 : K) ≤ cfg.N := Nat.cast_nonneg _
  refine ⟨ε * (-cfg.vRead * 1000000) / (cfg.N * S + 1), by positivity, ?_⟩
  intro R h x s hR hR0 hr hs hia hsy hpos
  refine ⟨_, wiredOf R cfg x vp vm n', sync_currents (cfg := { cfg with wRes := R }) ha (runs_shape hr)
    (runs_tuned hr) hsy hs hv hR hpos hV hvp hvm hm hn hN hM, fun i hi => if_pos hi, fun c hc => ?_⟩
  have hc' : c < m * slices cfg * pair cfg.mode :=
    lt_of_lt_of_le hc (Nat.mul_le_mul_right _ (Nat.mul_le_mul_right _ hm))
  have hg := hpos.cell (vp := vp) (vm := vm) hn hc'
  have g1 := wiredCol_ge (u := -cfg.vRead) hu hR hg
  have g2 := wiredCol_le (u := -cfg.vRead) hu hR hg
  rw [abs_of_nonneg (sub_nonneg.2 g2)]
  have hsq : id' c ^ 2 ≤ S := Finset.single_le_sum (f := fun c => id' c ^ 2) (fun _ _ => sq_nonneg _)
    (Finset.mem_range.2 hc)
  have hb : cfg.N * id' c ^ 2 * R / (-cfg.vRead * 1000000) ≤ ε := by
    have hU : 0 < -cfg.vRead * 1000000 := by positivity
    have hD : 0 < cfg.N * S + 1 := by positivity
    rw [div_le_iff₀ hU]
    rw [le_div_iff₀ hD] at hR0
    have e1 : cfg.N * id' c ^ 2 ≤ cfg.N * S + 1 := by nlinarith
    calc cfg.N * id' c ^ 2 * R ≤ (cfg.N * S + 1) * R := mul_le_mul_of_nonneg_right e1 hR.le
      _ ≤ _ := by linarith
  have e : idealOf cfg x vp vm n' c = id' c := idealCol_congr (hia.cell hn hc')
  have : idealOf cfg x vp vm n' c - wiredOf R cfg x vp vm n' c ≤
      cfg.N * id' c ^ 2 * R / (-cfg.vRead * 1000000) := by
    rw [← e]; linarith [g1]
  exact this.trans hb

/-- Programmed currents are not negative, so `C40` and `C41` apply after every history without read
disturb (and, in the integer mappings, without cycle-to-cycle variation). -/
theorem C40_conducts (ha : ExactArith E) (hok : CfgOk cfg) (hd : cfg.digitalOnly = false)
    (hrd : cfg.readDisturb = false) (h0 : 0 ≤ cfg.hrs) (h1 : cfg.hrs ≤ cfg.lrs)
    (hi : cfg.mode.isInt = true → cfg.c2c = false ∧ Quiet cfg) (hr : Runs E cfg h x) :
    Conducts cfg x m n := by
  have key : ∀ i j, 0 ≤ x.mapper.core.ia.p.get i j ∧ 0 ≤ x.mapper.core.ia.m.get i j := fun i j => by
    cases hint : cfg.mode.isInt with
    | false => exact C16_current_nonneg ha hok hint hd hrd h0 (h0.trans h1) hr i j
    | true =>
      obtain ⟨⟨e1, a1, b1⟩, e2, a2, b2⟩ := C15_current_is_nominal ha hok hd (hi hint).1 hrd (hi hint).2 hr i j
      have nn : ∀ g : Int, 0 ≤ g → g ≤ topState cfg i → 0 ≤ nominal cfg i g := fun g hg ht => by
        have hg' : (0 : K) ≤ g := Int.cast_nonneg hg
        have h2 : 0 ≤ cfg.lrs - cfg.hrs := sub_nonneg.2 h1
        have h3 : (1 : K) ≤ 2 ^ cfg.split.getD (i % cfg.split.length) 0 := one_le_pow₀ (by norm_num)
        have h4 : (0 : K) ≤ 2 ^ cfg.split.getD (i % cfg.split.length) 0 - 1 := sub_nonneg.2 h3
        unfold nominal
        split <;> positivity
      exact ⟨e1 ▸ nn _ a1 b1, e2 ▸ nn _ a2 b2⟩
  intro i j _ _
  unfold firstArray secondArray
  split
  · exact ⟨(key i j).2, (key i j).1⟩
  · exact key i j

/-! ## C42 is false beyond that -/

/-- With parasitics a multiplication does not depend on the stored currents `ia`: neither read disturb
nor cycle-to-cycle variation, which change `ia` and not the solver, have any effect on the result. -/
theorem C42_updates_ignored (hp : cfg.parasitics = true) (c : Core K) (ia : Ia K) (a : Aux K) (l : String) :
    aMvm E cfg { c with ia := ia } a res vec m n l = aMvm E cfg c a res vec m n l :=
  aMvm_ia hp c ia a res vec m n l

end

/-- The solver holds another conductance than `current / -V_read` at `(r, c)`. -/
def Ex.offSync (E : Env ℚ) (cfg : Cfg ℚ) (r c : Nat) (x : Xbar ℚ) : Bool :=
  match x.mapper.core.par with
  | none => false
  | some s => match s.ga with
    | none => false
    | some (g, _) => decide (g.get r c ≠ cross cfg.mode
          (fun i j => E.f32 ((firstArray cfg.mode x.mapper.core.ia).get i j / -cfg.vRead))
          (fun i j => E.f32 ((secondArray cfg.mode x.mapper.core.ia).get i j / -cfg.vRead)) r c)

theorem Ex.offSync_spec {E : Env ℚ} {cfg : Cfg ℚ} {r c m n : Nat} {x : Xbar ℚ}
    (h : Ex.offSync E cfg r c x = true) (hr : r < cfg.N) (hc : c < m * slices cfg * pair cfg.mode)
    (hn : r / lines cfg.mode < n) : ¬InSync E cfg x m n := by
  rintro ⟨s, g, w, e1, e2, -, -, -, h3⟩
  have h4 := h3 r c hr hc
  rw [if_pos hn] at h4
  simp only [Ex.offSync, e1, e2, decide_eq_true_eq] at h
  exact h h4

/-- C42 is false: with two slices per weight, only the first `M` of the `2 M` cell rows are converted to
conductances.  The others keep `HRS`, a current. -/
theorem C42_false_slices : ∃ x, Runs Ex.env (Ex.pcfg .iOffsWDiff) [.write Ex.matI 2 3] x ∧
    ¬InSync Ex.env (Ex.pcfg .iOffsWDiff) x 2 3 := by
  obtain ⟨x, h1, h2⟩ := Ex.wrote (E := Ex.env) (c := Ex.pcfg .iOffsWDiff) (mat := Ex.matI) (m := 2) (n := 3)
    (Ex.offSync Ex.env (Ex.pcfg .iOffsWDiff) 1 4) (by decide +kernel)
  exact ⟨x, h1, Ex.offSync_spec h2 (by decide) (by decide) (by decide)⟩

/-- C42 is false: read disturb changes the currents, and the solver keeps the old conductances. -/
theorem C42_false_disturb : ∃ x, Runs Ex.rdEnv (Ex.pcfgRd .bnn1) [Ex.mv, Ex.mv, Ex.wOnes] x ∧
    ¬InSync Ex.rdEnv (Ex.pcfgRd .bnn1) x 2 3 := by
  obtain ⟨x, h1, h2⟩ := Ex.played (E := Ex.rdEnv) (c := Ex.pcfgRd .bnn1) [Ex.wOnes, Ex.mv, Ex.mv]
    (Ex.offSync Ex.rdEnv (Ex.pcfgRd .bnn1) 0 0) (by decide +kernel)
  exact ⟨x, h1, Ex.offSync_spec h2 (by decide) (by decide) (by decide)⟩

/-- With cycle-to-cycle variation. -/
def Ex.pcfgVar (md : Mode) : Cfg ℚ := { Ex.c2cCfg md with parasitics := true, wRes := 1000000 }

/-- C42 is false: the variation drawn for a multiplication does not reach the solver. -/
theorem C42_false_variation : ∃ x mp, Runs Ex.env (Ex.pcfgVar .bnn1) [.write Ex.mat 2 3] x ∧
    addC2C Ex.env (Ex.pcfgVar .bnn1) x.mapper 2 3 = .ok mp ∧
    ¬InSync Ex.env (Ex.pcfgVar .bnn1) { x with mapper := mp } 2 3 := by
  obtain ⟨x, h1, h2⟩ := Ex.wrote (E := Ex.env) (c := Ex.pcfgVar .bnn1) (mat := Ex.mat) (m := 2) (n := 3)
    (fun x => Ex.okAnd (addC2C Ex.env (Ex.pcfgVar .bnn1) x.mapper 2 3) fun mp =>
      Ex.offSync Ex.env (Ex.pcfgVar .bnn1) 0 0 { x with mapper := mp }) (by decide +kernel)
  obtain ⟨mp, h3, h4⟩ := Ex.okAnd_spec h2
  exact ⟨x, mp, h1, h3, Ex.offSync_spec h4 (by decide) (by decide) (by decide)⟩

/-! ## Instances -/

/-- A written crossbar that is in sync, in every mapping that has a solver and for every positive wire
resistance that occurs below. -/
theorem Ex.ready (md : Mode) (hmd : md ≠ .iTcWDiff) (R : ℚ) (hR : R = 1000000 ∨ R = 2000000) : ∃ x₀ x s,
    mkXbar Ex.env { Ex.pcfgL md with wRes := R } 0 [] = .ok x₀ ∧
    xWrite Ex.env { Ex.pcfgL md with wRes := R } x₀ Ex.mat 2 3 = .ok x ∧
    Runs Ex.env { Ex.pcfgL md with wRes := R } [.write Ex.mat 2 3] x ∧ x.mapper.core.par = some s ∧
    InSync Ex.env { Ex.pcfgL md with wRes := R } x 2 3 ∧ Conducts { Ex.pcfgL md with wRes := R } x 2 3 := by
  have hx : Ex.okAnd (mkXbar Ex.env { Ex.pcfgL md with wRes := R } 0 []) (fun x =>
      Ex.okAnd (xWrite Ex.env { Ex.pcfgL md with wRes := R } x Ex.mat 2 3) fun x =>
      x.mapper.core.par.isSome) = true := by
    rcases hR with rfl | rfl <;> cases md <;> first
      | exact absurd rfl hmd
      | decide +kernel
  obtain ⟨x, h1, h2⟩ := Ex.okAnd_spec hx
  obtain ⟨y, h3, h4⟩ := Ex.okAnd_spec h2
  obtain ⟨s, hs⟩ := Option.isSome_iff_exists.1 h4
  have hr0 : Runs Ex.env { Ex.pcfgL md with wRes := R } [] x := .init h1
  have hr : Runs Ex.env { Ex.pcfgL md with wRes := R } [.write Ex.mat 2 3] y := .write hr0 h3
  refine ⟨x, y, s, h1, h3, hr, hs, (C42_programmed_conductances_partial (x2 := y) hr0 rfl rfl ?_ ?_ ?_ ?_ ?_ ?_ ?_ h3).1,
    C40_conducts ⟨fun _ => rfl, fun _ => rfl⟩ ?_ rfl rfl ?_ ?_ ?_ hr⟩
  · show (-1 : ℚ) ≠ 0; norm_num
  · show R ≠ 0; rcases hR with rfl | rfl <;> norm_num
  · cases md <;> simp [Ex.pcfgL, Ex.pcfg, Ex.acfg, Ex.cfg]
  · show 0 < 4; omega
  · show 0 < 6; omega
  · show 2 * slices (Ex.pcfgL md) ≤ 4; cases md <;> decide
  · show 3 * lines md ≤ 6; cases md <;> decide
  · cases md <;> simp [CfgOk, Ex.pcfgL, Ex.pcfg, Ex.acfg, Ex.cfg, Mode.isInt, Mode.family]
  · show (0 : ℚ) ≤ 5; norm_num
  · show (5 : ℚ) ≤ 10; norm_num
  · exact fun _ => ⟨rfl, fun _ => ⟨le_refl 0, le_refl 0⟩⟩

/-- The hypotheses of `C40_column_currents`, `C41_bound`: all inputs driven, all mappings. -/
example (md : Mode) (hmd : md ≠ .iTcWDiff) : ∃ x s, Runs Ex.env (Ex.pcfgL md) [.write Ex.mat 2 3] x ∧
    x.mapper.core.par = some s ∧ InSync Ex.env (Ex.pcfgL md) x 2 3 ∧ Conducts (Ex.pcfgL md) x 2 3 ∧
    (Ex.pcfgL md).vRead < 0 ∧ 0 < (Ex.pcfgL md).wRes ∧ 3 * lines (Ex.pcfgL md).mode ≤ (Ex.pcfgL md).N ∧
    taps (Ex.pcfgL md) 2 ≤ (Ex.pcfgL md).M := by
  obtain ⟨_, x, s, e1, e2, h1, h2, h3, h4⟩ := Ex.ready md hmd 1000000 (.inl rfl)
  refine ⟨x, s, h1, h2, h3, h4, ?_, ?_, ?_, ?_⟩
  · show (-1 : ℚ) < 0; norm_num
  · show (0 : ℚ) < 1000000; norm_num
  · cases md <;> decide
  · cases md <;> decide

/-- A column of three cells, 10, 5 and 10 µA, all driven, with wires of 1 MOhm: 825/901 µA are left of 25. -/
example : wiredCol (1 : ℚ) 1000000 .bnn3 (fun _ j => if j = 1 then 5 else 10) (fun _ _ => 0)
    (fun _ => 1) (fun _ => 0) 3 3 0 = 825 / 901 ∧
    idealCol (K := ℚ) .bnn3 (fun _ j => if j = 1 then 5 else 10) (fun _ _ => 0)
    (fun _ => 1) (fun _ => 0) 3 3 0 = 25 := by
  constructor <;> decide +kernel

/-- The hypotheses of `C41_antitone`: the same matrix in two crossbars with different wires. -/
example : ∃ x s x' s', Runs Ex.env (Ex.pcfgL .bnn3) [.write Ex.mat 2 3] x ∧
    Runs Ex.env { Ex.pcfgL .bnn3 with wRes := 2000000 } [.write Ex.mat 2 3] x' ∧
    x.mapper.core.par = some s ∧ x'.mapper.core.par = some s' ∧ InSync Ex.env (Ex.pcfgL .bnn3) x 2 3 ∧
    InSync Ex.env { Ex.pcfgL .bnn3 with wRes := 2000000 } x' 2 3 ∧
    SameCells (Ex.pcfgL .bnn3) x'.mapper.core.ia x.mapper.core.ia 2 3 := by
  obtain ⟨_, x, s, e1, e2, h1, h2, h3, h4⟩ := Ex.ready .bnn3 (by decide) 1000000 (.inl rfl)
  obtain ⟨_, x', s', e1', e2', h1', h2', h3', h4'⟩ := Ex.ready .bnn3 (by decide) 2000000 (.inr rfl)
  have hd : Ex.okAnd (mkXbar Ex.env (Ex.pcfgL .bnn3) 0 []) (fun a =>
      Ex.okAnd (xWrite Ex.env (Ex.pcfgL .bnn3) a Ex.mat 2 3) fun x =>
      Ex.okAnd (mkXbar Ex.env { Ex.pcfgL .bnn3 with wRes := 2000000 } 0 []) fun a' =>
      Ex.okAnd (xWrite Ex.env { Ex.pcfgL .bnn3 with wRes := 2000000 } a' Ex.mat 2 3) fun x' =>
      decide (∀ (i : Fin 2) (j : Fin 3), x'.mapper.core.ia.p.get i j = x.mapper.core.ia.p.get i j ∧
        x'.mapper.core.ia.m.get i j = x.mapper.core.ia.m.get i j)) = true := by decide +kernel
  have e1 : mkXbar Ex.env (Ex.pcfgL .bnn3) 0 [] = .ok _ := e1
  have e2 : xWrite Ex.env (Ex.pcfgL .bnn3) _ Ex.mat 2 3 = .ok x := e2
  rw [e1] at hd
  simp only [Ex.okAnd] at hd
  rw [e2] at hd
  simp only at hd
  rw [e1'] at hd
  simp only at hd
  rw [e2'] at hd
  refine ⟨x, s, x', s', h1, h1', h2, h2', h3, h3', fun i j hi hj => ?_⟩
  exact of_decide_eq_true hd ⟨i, hi⟩ ⟨j, hj⟩

end Acs.Props
