import Verif.Model.TnnMappers

/-!
# Read disturb

cpp/src/xbar/read_disturb.cpp and the `rd_*` functions of cpp/src/mapping/mapper.cpp.
`uint64_t` counters are natural numbers (wrap-around at `2^64` is not modelled).
-/

namespace Acs

/-- `for (i < R) for (j < N) A[i][j] = f(i, j, A[i][j]);` -/
def updM {α : Type} (R N : Nat) (f : Nat → Nat → α → C α) (A : Mat α) : C (Mat α) :=
  loop R (fun i A => loop N (fun j A => do
    let a ← A.rd i j
    let x ← f i j a
    A.wr i j x) A) A

/-- State of a `ReadDisturb` object, cpp/inc/xbar/read_disturb.h:48-65. -/
structure Rd (K : Type) where
  cycP : Mat Nat
  cycM : Mat Nat
  rdP : Mat Nat
  rdM : Mat Nat
  expTt : K
  p : K
  /-- `run_out_of_bounds_` -/
  oob : Bool

section
variable {K : Type} [Field K] [LinearOrder K] [IsStrictOrderedRing K] [FloorRing K]

/-- A `float` member initialised from a decimal literal. -/
def Env.lit (E : Env K) (x : K) : K := E.f32 (E.f64 x)

/-- `kb_T_`, read_disturb.cpp:26, 29. -/
def rdKbT (E : Env K) : C K :=
  let q := E.f64 (1602176634 / 10 ^ 28)
  if q = 0 then .error .nonfinite
  else .ok (E.f32 (E.f64 (E.fmul (E.lit (138064852 / 10 ^ 31)) (E.lit 300) / q)))

/-- `calc_p`, read_disturb.cpp:100-102 (the `float` overload of `std::exp`). -/
def rdCalcP (E : Env K) (vRead : K) : C K := do
  let kt ← rdKbT E
  let x ← E.fdiv (E.fmul (E.lit (11 / 100)) |vRead|) kt
  .ok (E.fmul (E.lit (68 / 10000)) (E.f32 (E.exp x)))

/-- `ReadDisturb::ReadDisturb`, read_disturb.cpp:15-34; `calc_exp_tt`, read_disturb.cpp:95-97. -/
def mkRd (E : Env K) (cfg : Cfg K) : C (Rd K) := do
  let p ← rdCalcP E cfg.vRead
  let e ← E.fdiv 1 p
  .ok { cycP := Mat.const cfg.R cfg.N 0
        cycM := Mat.const cfg.R cfg.N 0
        rdP := Mat.const cfg.R cfg.N 0
        rdM := Mat.const cfg.R cfg.N 0
        expTt := e
        p := p
        oob := false }

/-- The local `exp` of `calc_transition_time`, read_disturb.cpp:79: `k_ * std::pow(N_cycles, m_)`
in double precision. -/
def rdExp (E : Env K) (cycles : Nat) : K :=
  E.f64 (E.lit (3 / 1000) * E.f64 (E.pow (E.f64 (cycles : K)) (E.lit (41 / 100))))

/-- `calc_transition_time`, read_disturb.cpp:78-92. -/
def rdTime (E : Env K) (rd : Rd K) (cycles : Nat) : K :=
  let e := rdExp E cycles
  if 1 ≤ e then 0
  else
    E.f32 (E.f64 (E.fmul (E.lit (155 / 10 ^ 10)) (E.f32 (E.pow (E.lit (143339 / 10 ^ 5)) rd.expTt))
      * E.f64 (E.pow (E.f64 (1 - e)) rd.expTt)))

/-- The assignment to `run_out_of_bounds_` in `calc_transition_time`, read_disturb.cpp:80-88. -/
def rdOob (E : Env K) (cycles : Nat) : Bool := decide (1 ≤ rdExp E cycles)

/-- `t_stress`, read_disturb.cpp:69, mapper.cpp:408. -/
def rdStress (E : Env K) (cfg : Cfg K) (reads : Nat) : K :=
  E.fmul (E.f32 (reads : K)) cfg.tRead

/-- `calc_G0_scaling_factor`, read_disturb.cpp:66-75.  For `tt = 0` the quotient is `+inf` (stress
positive, `std::pow(inf, -p) = 0` for the positive `p_`) or NaN (stress zero). -/
def rdFactor (E : Env K) (cfg : Cfg K) (rd : Rd K) (reads cycles : Nat) : C K :=
  let tt := rdTime E rd cycles
  let ts := rdStress E cfg reads
  if ts < tt then .ok 1
  else if tt = 0 then
    if ts = 0 then .error .nonfinite else .ok 0
  else do
    let q ← E.fdiv ts tt
    .ok (E.f32 (E.pow q (-rd.p)))

/-- `update_cycles`, read_disturb.cpp:55-64.  The two statements of the loop body act on different
matrices and are written as two loops. -/
def updateCycles (rd : Rd K) (up um : Mat Bool) : C (Rd K) := do
  let cp ← updM rd.cycP.rows rd.cycP.cols (fun i j c => do
    let b ← up.rd i j
    .ok (c + b.toNat)) rd.cycP
  let cm ← updM rd.cycP.rows rd.cycP.cols (fun i j c => do
    let b ← um.rd i j
    .ok (c + b.toNat)) rd.cycM
  .ok { rd with cycP := cp, cycM := cm }

/-- `update_consecutive_reads`, read_disturb.cpp:112-119. -/
def updateReads (cfg : Cfg K) (rd : Rd K) (m n : Nat) : C (Rd K) := do
  let a ← updM (m * cfg.S) n (fun _ _ c => .ok (c + 1)) rd.rdP
  let b ← updM (m * cfg.S) n (fun _ _ c => .ok (c + 1)) rd.rdM
  .ok { rd with rdP := a, rdM := b }

/-- `reset_all_consecutive_reads`, read_disturb.cpp:121-128. -/
def resetReads (cfg : Cfg K) (rd : Rd K) : C (Rd K) := do
  let a ← updM cfg.R cfg.N (fun _ _ _ => .ok 0) rd.rdP
  let b ← updM cfg.R cfg.N (fun _ _ _ => .ok 0) rd.rdM
  .ok { rd with rdP := a, rdM := b }

/-! ## `rd_*` functions of the mapper -/

/-- One half of `Mapper::rd_update_conductance`, mapper.cpp:331-340, 349-358, 370-379, 388-397.
`reads` gives the number of reads of a cell: the common counter in the first overload, the per-cell
matrix in the second.  Returns the new currents and `run_out_of_bounds_`. -/
def rdUpdMat (E : Env K) (cfg : Cfg K) (rd : Rd K) (reads : Nat → Nat → C Nat) (cyc : Mat Nat)
    (gd : Mat Int) (A : Mat K) (oob : Bool) : C (Mat K × Bool) :=
  loop cyc.rows (fun i st => loop cyc.cols (fun j (st : Mat K × Bool) => do
    let g ← gd.rd i j
    if g = 1 then do
      let r ← reads i j
      let c ← cyc.rd i j
      let f ← rdFactor E cfg rd r c
      let A ← st.1.wr i j (E.fmul cfg.lrs f)
      .ok (A, st.2 || rdOob E c)
    else .ok st) st) (A, oob)

/-- `Mapper::rd_update_conductance`, mapper.cpp:325-360 and 362-399. -/
def rdUpdate (E : Env K) (cfg : Cfg K) (c : Core K) (rd : Rd K) (rp rm : Nat → Nat → C Nat) :
    C (Core K × Rd K) := do
  let p ← rdUpdMat E cfg rd rp rd.cycP c.gd.p c.ia.p rd.oob
  if c.isDiff then do
    let q ← rdUpdMat E cfg rd rm rd.cycM c.gd.m c.ia.m p.2
    .ok ({ c with ia := { c.ia with p := p.1, m := q.1 } }, { rd with oob := q.2 })
  else .ok ({ c with ia := { c.ia with p := p.1 } }, { rd with oob := p.2 })

/-- `Mapper::rd_check_software_refresh`, mapper.cpp:404-413. -/
def rdCheckSoftware (E : Env K) (cfg : Cfg K) (rd : Rd K) (reads writes : Nat) : Bool :=
  decide (E.fmul cfg.fp (rdTime E rd writes) ≤ rdStress E cfg reads)

/-- Refresh condition of one LRS cell, mapper.cpp:428-429, 450-451. -/
def rdOutside (E : Env K) (cfg : Cfg K) (x : K) : Bool :=
  decide (x < E.fmul (E.fsub 1 cfg.tol) cfg.lrs) || decide (E.fmul (E.fadd 1 cfg.tol) cfg.lrs < x)

/-- State of the refresh loop: currents, cycle counters, read counters, random stream position and
number of refreshed cells. -/
structure RefSt (K : Type) where
  A : Mat K
  cyc : Mat Nat
  rds : Mat Nat
  rng : Nat
  cnt : Int

/-- One half of `Mapper::rd_cell_based_refresh`, mapper.cpp:423-441 and 448-465, with
`update_cycle_*`, `reset_consecutive_reads_*`, read_disturb.cpp:104-110, 130-136. -/
def rdRefMat (E : Env K) (cfg : Cfg K) (gd : Mat Int) (st : RefSt K) : C (RefSt K) :=
  loop st.A.rows (fun i st => loop st.A.cols (fun j (st : RefSt K) => do
    let g ← gd.rd i j
    if g = 1 then do
      let x ← st.A.rd i j
      if rdOutside E cfg x then do
        let y ← addNoise E cfg st.rng cfg.lrs 1
        let A ← st.A.wr i j y.1
        let c ← st.cyc.rd i j
        let cyc ← st.cyc.wr i j (c + 1)
        let rds ← st.rds.wr i j 0
        let cnt ← addI st.cnt 1
        .ok ⟨A, cyc, rds, y.2, cnt⟩
      else .ok st
    else .ok st) st) st

/-- `Mapper::rd_cell_based_refresh`, mapper.cpp:416-466. -/
def rdCellRefresh (E : Env K) (cfg : Cfg K) (mp : Mapper K) (rd : Rd K) :
    C (Mapper K × Rd K × Int) := do
  let c := mp.core
  let p ← rdRefMat E cfg c.gd.p ⟨c.ia.p, rd.cycP, rd.rdP, mp.aux.rng, 0⟩
  if c.isDiff then do
    let q ← rdRefMat E cfg c.gd.m ⟨c.ia.m, rd.cycM, rd.rdM, p.rng, p.cnt⟩
    .ok (⟨{ c with ia := { c.ia with p := p.A, m := q.A } }, { mp.aux with rng := q.rng }⟩,
      { rd with cycP := p.cyc, rdP := p.rds, cycM := q.cyc, rdM := q.rds }, q.cnt)
  else
    .ok (⟨{ c with ia := { c.ia with p := p.A } }, { mp.aux with rng := p.rng }⟩,
      { rd with cycP := p.cyc, rdP := p.rds }, p.cnt)

end

end Acs
