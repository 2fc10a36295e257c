import Verif.Lemmas.Oob
import Verif.Props.Disturb

/-!
# C89: The out-of-bounds flag of the read disturb model

`ReadDisturb::calc_transition_time` sets `run_out_of_bounds_` when a cell was switched so often that the
formula is not defined any more.
-/

set_option linter.unusedSectionVars false

namespace Acs.Props

open Spec

section
variable {K : Type} [Field K] [LinearOrder K] [IsStrictOrderedRing K] [FloorRing K]
variable {E : Env K} {cfg : Cfg K} {x : Xbar K} {rd : Rd K} {t : List (Step K)} {h : List Op} {w : World K}

/-- C89.  Whatever was called, the flag is set exactly if some multiplication asked the model about a number
of cycles with a wear of at least one.  In particular no call ever clears it. -/
theorem C89_flag (hrd : cfg.readDisturb = true) (hdo : cfg.digitalOnly = false) (ht : Traced E cfg t x)
    (hx : x.rd = some rd) :
    rd.oob = true ↔ ∃ s ∈ t, ∃ c, Asks cfg s c ∧ 1 ≤ wearFl E c :=
  traced_oob hrd hdo ht hx

/-- C89.  What the getter of the interface returns. -/
theorem C89_getter (hrd : cfg.readDisturb = true) (hdo : cfg.digitalOnly = false) (ht : Traced E cfg t x)
    (hw : w.xbar = some x) :
    ∃ b, getRunOut w = .ok b ∧ (b = true ↔ ∃ s ∈ t, ∃ c, Asks cfg s c ∧ 1 ≤ wearFl E c) := by
  obtain ⟨rd, hx, _⟩ := (runs_shape ht.runs).rd hrd
  refine ⟨rd.oob, ?_, traced_oob hrd hdo ht hx⟩
  unfold getRunOut getter Xbar.withRd
  rw [hw]
  dsimp only
  rw [hx]

/-- C89.  Without a crossbar, and without read disturb, the getter ends the program. -/
theorem C89_getter_exits : (w.xbar = none → getRunOut w = .error .exited) ∧
    (w.xbar = some x → cfg.readDisturb = false → Traced E cfg t x → getRunOut w = .error .exited) := by
  constructor
  · intro hw
    unfold getRunOut getter
    rw [hw]
  · intro hw hrd ht
    have hx : x.rd = none := by
      clear hw
      induction ht with
      | @init _ _ x h =>
        unfold mkXbar optRd at h
        rw [bind_eq_ok] at h
        obtain ⟨mp, _, h⟩ := h
        rw [hrd, if_neg (by simp), ok_bind, ok_inj] at h
        rw [← h]
      | @write t x x' mat m n ht h' ih =>
        unfold xWrite at h'
        rw [bind_eq_ok] at h'
        obtain ⟨q, h1, h'⟩ := h'
        rw [bind_eq_ok] at h'
        obtain ⟨mp, _, h'⟩ := h'
        rw [ok_inj] at h'
        rw [← h']
        unfold xWriteD at h1
        rw [hrd, if_neg (by simp), bind_eq_ok] at h1
        obtain ⟨_, _, h1⟩ := h1
        rw [ok_inj] at h1
        rw [← h1]
        exact ih
      | @mvm t x x' res vec mat r m n l ht h' ih =>
        cases hdo : cfg.digitalOnly
        · obtain ⟨y, hy, h2⟩ := xMvm_done (runs_shape ht.runs) hdo h'
          rw [hrd, if_neg (by simp), ok_inj] at h2
          rw [← h2]
          exact hy.rd.trans ih
        · exact (xMvm_core h' (.inl hdo)).2.1.trans ih
    unfold getRunOut getter Xbar.withRd
    rw [hw]
    dsimp only
    rw [hx]

/-- C89.  A digital crossbar never sets the flag. -/
theorem C89_digital (hrd : cfg.readDisturb = true) (hdo : cfg.digitalOnly = true) (hr : Runs E cfg h x)
    (hx : x.rd = some rd) : rd.oob = false := by
  induction hr generalizing rd with
  | @init rng hists x h =>
    unfold mkXbar optRd mkRd at h
    rw [bind_eq_ok] at h
    obtain ⟨mp, _, h⟩ := h
    rw [if_pos hrd, bind_eq_ok] at h
    obtain ⟨o, h1, h⟩ := h
    rw [ok_inj] at h
    subst h
    have hx : o = some rd := hx
    subst hx
    rw [bind_eq_ok] at h1
    obtain ⟨r, h2, h1⟩ := h1
    rw [ok_inj, Option.some.injEq] at h1
    subst h1
    rw [bind_eq_ok] at h2
    obtain ⟨p, _, h2⟩ := h2
    rw [bind_eq_ok] at h2
    obtain ⟨e, _, h2⟩ := h2
    rw [ok_inj] at h2
    rw [← h2]
  | @write h x x' mat m n hr h' ih =>
    obtain ⟨rd0, hx0, _⟩ := (runs_shape hr).rd hrd
    obtain ⟨rd', h1, h2, _⟩ := xWrite_rd (runs_shape hr) hrd hx0 h'
    rw [hx, Option.some.injEq] at h1
    subst h1
    rw [h2]
    show rd0.oob = false
    exact ih hx0
  | @mvm h x x' res vec mat r m n l hr h' ih =>
    exact ih ((xMvm_core h' (.inl hdo)).2.1.symm.trans hx)

/-- C89.  There is one limit for all cells: with monotone arithmetic a larger number of cycles is out of range
whenever a smaller one is. -/
theorem C89_upward (hE : RdArith E) {a b : Nat} (hab : a ≤ b) (ha : 1 ≤ wearFl E a) : 1 ≤ wearFl E b :=
  ha.trans (wearFl_mono hE hab)

/-- C89.  Without mitigation the calls alone decide: the flag is set exactly if a multiplication with an update
found a cell in LRS that writes had switched at least `L` times, `L` being the first number of cycles out of
range. -/
theorem C89_from_calls (hok : CfgOk cfg) (hi : cfg.mode.isInt = false)
    (hdo : cfg.digitalOnly = false) (hrd : cfg.readDisturb = true) (hst : cfg.strategy = .off)
    (hr : Runs E cfg h x) (hx : x.rd = some rd) {L : Nat} (hL : ∀ c, 1 ≤ wearFl E c ↔ L ≤ c) :
    rd.oob = true ↔ WornOut cfg L h := by
  obtain ⟨t, rfl, ht⟩ := runs_traced hr
  rw [traced_oob hrd hdo ht hx]
  have part : ∀ {t2 : List (Step K)} {s : Step K} {rd2 : Rd K}, Traced E cfg t2 s.pre → s.pre.rd = some rd2 →
      s.pre.consec = mvmsSinceWrite (calls t2) ∧ ∀ r k, r < cfg.R → k < cfg.N →
      s.pre.mapper.core.gd.p.get r k = cellAfter (fun w => encP cfg w 0) (calls t2) r k ∧
      s.pre.mapper.core.gd.m.get r k = cellAfter (fun w => encM cfg w 0) (calls t2) r k ∧
      rd2.cycP.get r k = switched (fun w => encP cfg w 0) (calls t2) r k ∧
      rd2.cycM.get r k = switched (fun w => encM cfg w 0) (calls t2) r k := by
    intro t2 s rd2 ht2 hx2
    refine ⟨(runs_no_refX (by rw [hst]; simp) ht2.runs).2, fun r k h1 h2 => ?_⟩
    have g1 := runs_gdP hok ht2.runs r k
    have g2 := runs_gdM hok ht2.runs r k
    rw [rowOf_bin hi] at g1 g2
    obtain ⟨c1, c2⟩ := C33_cycles hok hi hrd hst ht2.runs hx2 h1 h2
    exact ⟨g1, g2, c1, c2⟩
  constructor
  · rintro ⟨s, hs, c, ⟨hm, hd, rd2, hx2, ha⟩, hc⟩
    obtain ⟨t1, t2, rfl, ht2⟩ := traced_split ht hs
    obtain ⟨p0, p1⟩ := part ht2 hx2
    unfold updateDue at hd
    rw [p0] at hd
    rw [hL] at hc
    rcases ha with ⟨r, k, h1, h2, h3, rfl⟩ | ⟨hdf, r, k, h1, h2, h3, rfl⟩ | ⟨h1, _⟩
    · obtain ⟨g1, g2, c1, c2⟩ := p1 r k h1 h2
      exact ⟨calls t1, s.op, calls t2, r, k, by simp [calls], hm, hd, h1, h2,
        .inl ⟨g1.symm.trans h3, c1 ▸ hc⟩⟩
    · obtain ⟨g1, g2, c1, c2⟩ := p1 r k h1 h2
      exact ⟨calls t1, s.op, calls t2, r, k, by simp [calls], hm, hd, h1, h2,
        .inr ⟨hdf, g2.symm.trans h3, c2 ▸ hc⟩⟩
    · rw [hst] at h1; cases h1
  · rintro ⟨h1, o, h2, r, k, he, hm, hd, hrr, hk, ha⟩
    unfold calls at he
    obtain ⟨t1, t', rfl, rfl, h'⟩ := List.map_eq_append_iff.1 he
    obtain ⟨s, t2, rfl, rfl, rfl⟩ := List.map_eq_cons_iff.1 h'
    have ht2 := traced_suffix ht
    obtain ⟨rd2, hx2, _⟩ := (runs_shape ht2.runs).rd hrd
    obtain ⟨p0, p1⟩ := part ht2 hx2
    obtain ⟨g1, g2, c1, c2⟩ := p1 r k hrr hk
    have hdue : updateDue cfg s.pre := by
      unfold updateDue
      rw [p0]
      exact hd
    rcases ha with ⟨a1, a2⟩ | ⟨hdf, a1, a2⟩
    · exact ⟨s, by simp, _, ⟨hm, hdue, rd2, hx2, .inl ⟨r, k, hrr, hk, g1.trans a1, rfl⟩⟩,
        (hL _).2 (c1 ▸ a2)⟩
    · exact ⟨s, by simp, _, ⟨hm, hdue, rd2, hx2, .inr (.inl ⟨hdf, r, k, hrr, hk, g2.trans a1, rfl⟩)⟩,
        (hL _).2 (c2 ▸ a2)⟩

/-- C89.  A cell out of range carries no current any more after an update: its attenuation is zero, whatever
the number of reads. -/
theorem C89_no_current (ht : 0 ≤ cfg.tRead) {r c : Nat} (hc : 1 ≤ wear E c) :
    attenuation E cfg r c = 0 := by
  have h0 : transition E cfg.vRead c = 0 := if_pos hc
  have h1 : ¬((r : K) * cfg.tRead < transition E cfg.vRead c) := by
    rw [h0, not_lt]
    exact mul_nonneg (Nat.cast_nonneg r) ht
  unfold attenuation
  rw [if_neg h1, if_pos h0]

end

/-! ## The real functions -/

section
variable {f32 f64 : ℝ → ℝ} {gauss : Nat → ℝ} {strict : Bool} {junk : Int}

/-- C89.  Computed exactly, the limit of the shipped constants is 1423518 cycles. -/
theorem C89_limit (c : Nat) :
    1 ≤ wearFl (realEnv _root_.id _root_.id gauss strict junk) c ↔ 1423518 ≤ c := real_wear c

/-- C89.  With roundings: every number of cycles up to 1.4 million is in range, every number from 1.5 million
on is out of range. -/
theorem C89_limit_rounded (hE : RdArith (realEnv f32 f64 gauss strict junk)) (h32 : Close f32) (h64 : Close f64)
    (c : Nat) : (c ≤ 1400000 → wearFl (realEnv f32 f64 gauss strict junk) c < 1) ∧
      (1500000 ≤ c → 1 ≤ wearFl (realEnv f32 f64 gauss strict junk) c) := by
  have h64m : Monotone f64 := hE.f64
  constructor
  · intro hc
    refine (wearFl_mono hE hc).trans_lt ?_
    have := wear_below h32 h64 h64m
    unfold wearFl realEnv
    dsimp only
    exact_mod_cast this
  · intro hc
    refine le_trans ?_ (wearFl_mono hE hc)
    have := wear_above h32 h64 h64m
    unfold wearFl realEnv
    dsimp only
    exact_mod_cast this

end

/-! ## Examples -/

namespace Ex'

/-- Arithmetic with a power function for which one switch is out of range. -/
def brittle : Env ℚ := { Ex.rdEnv with pow := fun a e => if e < 0 then 1 / a else if e = 0 then 1 else 400 * a }

theorem brittle_limit (c : Nat) : 1 ≤ wearFl brittle c ↔ 1 ≤ c := by
  have e : wearFl brittle c = 3 / 1000 * (400 * c) := by
    unfold wearFl brittle Ex.rdEnv Ex.env
    norm_num
  rw [e]
  constructor
  · intro h
    by_contra hc
    have : c = 0 := by omega
    subst this
    norm_num at h
  · intro h
    have : (1 : ℚ) ≤ c := by exact_mod_cast h
    linarith

/-- Rounding down to a multiple of `2^-30`. -/
noncomputable def grid (a : ℝ) : ℝ := ⌊a * 2 ^ 30⌋ / 2 ^ 30

theorem grid_mono : Monotone grid := fun a b h => by
  unfold grid
  have : ⌊a * 2 ^ 30⌋ ≤ ⌊b * 2 ^ 30⌋ := Int.floor_le_floor (by linarith)
  have : (⌊a * 2 ^ 30⌋ : ℝ) ≤ ⌊b * 2 ^ 30⌋ := by exact_mod_cast this
  exact div_le_div_of_nonneg_right this (by norm_num)

theorem grid_close : Close grid := fun a h1 h2 => by
  unfold grid
  have l := Int.floor_le (a * 2 ^ 30)
  have u := Int.lt_floor_add_one (a * 2 ^ 30)
  generalize (⌊a * 2 ^ 30⌋ : ℝ) = z at l u
  have e : z / 2 ^ 30 * 2 ^ 30 = z := by norm_num
  generalize z / 2 ^ 30 = y at e
  rw [abs_le]
  norm_num at *
  constructor <;> linarith

theorem grid_zero : grid 0 = 0 := by unfold grid; simp
theorem grid_one : grid 1 = 1 := by
  unfold grid
  have : (1 : ℝ) * 2 ^ 30 = ((1073741824 : ℤ) : ℝ) := by norm_num
  rw [this, Int.floor_intCast]
  norm_num

end Ex'

/-- A history that sets the flag, and one that is too short to. -/
example : (∃ x, Runs Ex'.brittle (Ex.rdCfg2 .bnn1) [Ex.mv, Ex.mv, Ex.wOnes, Ex.wNegs, Ex.wOnes] x ∧
      (match x.rd with | some rd => rd.oob | none => false) = true) ∧
    (∃ x, Runs Ex'.brittle (Ex.rdCfg2 .bnn1) [Ex.mv, Ex.wOnes, Ex.wNegs, Ex.wOnes] x ∧
      (match x.rd with | some rd => !rd.oob | none => false) = true) :=
  ⟨Ex.played [Ex.wOnes, Ex.wNegs, Ex.wOnes, Ex.mv, Ex.mv]
      (fun x => match x.rd with | some rd => rd.oob | none => false) (by decide +kernel),
    Ex.played [Ex.wOnes, Ex.wNegs, Ex.wOnes, Ex.mv]
      (fun x => match x.rd with | some rd => !rd.oob | none => false) (by decide +kernel)⟩

/-- The software asks for the whole crossbar: one write is out of range although no cell was switched; the
single cells do not. -/
example : (∃ x, Runs Ex'.brittle (Ex.swCfg .bnn1) [Ex.mv, Ex.wOnes] x ∧
      (match x.rd with | some rd => rd.oob && rd.cycM.get 0 0 == 0 | none => false) = true) ∧
    (∃ x, Runs Ex'.brittle (Ex.cbCfg .bnn1) [Ex.mv, Ex.wOnes] x ∧
      (match x.rd with | some rd => !rd.oob | none => false) = true) :=
  ⟨Ex.played [Ex.wOnes, Ex.mv]
      (fun x => match x.rd with | some rd => rd.oob && rd.cycM.get 0 0 == 0 | none => false)
      (by decide +kernel),
    Ex.played [Ex.wOnes, Ex.mv]
      (fun x => match x.rd with | some rd => !rd.oob | none => false) (by decide +kernel)⟩

/-- The second array of `BNN_V` is not asked about: its cells are in LRS and were switched, the flag stays
clear. -/
example : ∃ x, Runs Ex'.brittle (Ex.rdCfg .bnn5) [Ex.mv, Ex.wNegs, Ex.wOnes, Ex.wNegs] x ∧
    (match x.rd with
      | some rd => !rd.oob && rd.cycM.get 0 0 == 1 && x.mapper.core.gd.m.get 0 0 == 1
      | none => false) = true :=
  Ex.played [Ex.wNegs, Ex.wOnes, Ex.wNegs, Ex.mv] (fun x => match x.rd with
      | some rd => !rd.oob && rd.cycM.get 0 0 == 1 && x.mapper.core.gd.m.get 0 0 == 1
      | none => false) (by decide +kernel)

/-- A digital crossbar with worn cells. -/
example : ∃ x, Runs Ex'.brittle { Ex.rdCfg .bnn1 with digitalOnly := true }
      [Ex.mv, Ex.wOnes, Ex.wNegs, Ex.wOnes] x ∧
    (match x.rd with | some rd => !rd.oob && rd.cycP.get 0 0 == 1 | none => false) = true :=
  Ex.played [Ex.wOnes, Ex.wNegs, Ex.wOnes, Ex.mv] (fun x => match x.rd with
      | some rd => !rd.oob && rd.cycP.get 0 0 == 1
      | none => false) (by decide +kernel)

/-- A crossbar without read disturb. -/
example : ∃ x, Runs Ex'.brittle (Ex.acfg .bnn1) [Ex.mv, Ex.wOnes] x ∧ x.rd.isNone = true :=
  Ex.played [Ex.wOnes, Ex.mv] (fun x => x.rd.isNone) (by decide +kernel)

/-- The hypotheses of `C89_from_calls` hold on such a history, and it wears the crossbar out. -/
example : CfgOk (Ex.rdCfg2 .bnn1) ∧ (Ex.rdCfg2 .bnn1).mode.isInt = false ∧
    (Ex.rdCfg2 .bnn1).digitalOnly = false ∧ (Ex.rdCfg2 .bnn1).readDisturb = true ∧
    (Ex.rdCfg2 .bnn1).strategy = .off ∧ (∀ c, 1 ≤ wearFl Ex'.brittle c ↔ 1 ≤ c) ∧
    WornOut (Ex.rdCfg2 .bnn1) 1 [Ex.mv, Ex.mv, Ex.wOnes, Ex.wNegs, Ex.wOnes] :=
  ⟨Ex.rdCfg2_ok _, rfl, rfl, rfl, rfl, Ex'.brittle_limit,
    [], Ex.mv, [Ex.mv, Ex.wOnes, Ex.wNegs, Ex.wOnes], 0, 0, rfl, trivial, rfl, by decide, by decide,
    .inl ⟨rfl, by decide⟩⟩

/-- The hypotheses of `C89_limit_rounded` hold for a rounding. -/
example : RdArith (realEnv Ex'.grid Ex'.grid (fun _ => 0) false 0) ∧ Close Ex'.grid ∧ Ex'.grid (1 / 3) ≠ 1 / 3 := by
  refine ⟨C32_real_functions _ _ _ Ex'.grid_mono Ex'.grid_mono Ex'.grid_zero Ex'.grid_zero Ex'.grid_one
    Ex'.grid_one, Ex'.grid_close, ?_⟩
  unfold Ex'.grid
  intro h
  have h2 : ((⌊(1 / 3 : ℝ) * 2 ^ 30⌋ * 3 : ℤ) : ℝ) = ((1073741824 : ℤ) : ℝ) := by
    push_cast
    field_simp at h
    linarith
  have h3 : ⌊(1 / 3 : ℝ) * 2 ^ 30⌋ * 3 = 1073741824 := by exact_mod_cast h2
  omega

/-- A cell out of range. -/
example : (1 : ℚ) ≤ wear Ex'.brittle 1 ∧ 0 ≤ (Ex.rdCfg .bnn1).tRead ∧
    attenuation Ex'.brittle (Ex.rdCfg .bnn1) 3 1 = 0 ∧ attenuation Ex'.brittle (Ex.rdCfg .bnn1) 1 0 ≠ 0 := by
  decide +kernel

end Acs.Props
