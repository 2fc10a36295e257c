import Verif.Model.Adc

/-!
# Parasitic wire resistance

cpp/src/xbar/parasitics.cpp and the encoder tables of cpp/inc/xbar/parasitics.h.
-/

namespace Acs

/-- Weight encoders, parasitics.cpp:130-205. -/
inductive WEnc where
  | single | doubleCol | doubleRow | quad
  deriving DecidableEq, Repr

/-- `mm_to_wenc`, parasitics.h:100-116; `none` for `I_TC_W_DIFF`, which has no entry. -/
def Mode.wEnc : Mode → Option WEnc
  | .iDiffWDiff1 | .iDiffWDiff2 | .iOffsWDiff | .iUintWDiff => some .doubleCol
  | .iTcWDiff => none
  | .iUintWOffs => some .single
  | .bnn1 | .bnn2 => some .doubleCol
  | .bnn3 | .bnn4 => some .single
  | .bnn5 => some .doubleRow
  | .bnn6 => some .quad
  | .tnn1 => some .quad
  | .tnn2 | .tnn3 | .tnn4 | .tnn5 => some .doubleCol

/-- `mm_to_ienc`, parasitics.h:118-134: `true` for `i_enc_double`. -/
def Mode.iEncDouble : Mode → Bool
  | .bnn5 | .bnn6 | .tnn1 => true
  | _ => false

/-- `mm_to_oenc`, parasitics.h:136-152: `true` for `o_enc_double`. -/
def Mode.oEncDouble : Mode → Bool
  | .iDiffWDiff1 | .iDiffWDiff2 | .iOffsWDiff | .iUintWDiff => true
  | .bnn1 | .bnn2 | .bnn6 | .tnn1 | .tnn2 | .tnn3 => true
  | _ => false

section
variable {K : Type} [Field K] [LinearOrder K] [IsStrictOrderedRing K] [FloorRing K]

/-- `ParasiticSolver::ParasiticSolver`, parasitics.cpp:18-36. -/
def mkSolver (cfg : Cfg K) : C (Solver K) :=
  match cfg.mode.wEnc with
  | none => .error .thrown
  | some _ => .ok ⟨cfg.M, cfg.N, cfg.wRes, cfg.vRead, cfg.mode, none⟩

/-- `div_v_read`, parasitics.cpp:50-60: conductances of the first `M` rows; the remaining rows
keep the initial value `CFG.HRS`. -/
def divVRead (E : Env K) (cfg : Cfg K) (s : Solver K) (ia : Mat K) : C (Mat K) :=
  loop s.mXbar (fun m g => loop s.nXbar (fun n g => do
    let x ← ia.rd m n
    let y ← E.fdiv x (-s.vRead)
    g.wr m n y) g) (Mat.const (s.mXbar * cfg.S) s.nXbar cfg.hrs)

/-- `w_enc_single`, parasitics.cpp:130-146. -/
def wEncSingle (s : Solver K) (gp : Mat K) (m n : Nat) : C (Mat K) :=
  loop m (fun i g => loop n (fun j g => do
    let x ← gp.rd i j
    g.wr j i x) g) (Mat.const s.nXbar m 0)

/-- `w_enc_double_col`, parasitics.cpp:148-166. -/
def wEncDoubleCol (s : Solver K) (gp gm : Mat K) (m n : Nat) : C (Mat K) :=
  loop m (fun i g => loop n (fun j g => do
    let x ← gp.rd i j
    let y ← gm.rd i j
    let g ← g.wr j (2 * i) x
    g.wr j (2 * i + 1) y) g) (Mat.const s.nXbar (m * 2) 0)

/-- `w_enc_double_row`, parasitics.cpp:168-184. -/
def wEncDoubleRow (s : Solver K) (gp gm : Mat K) (m n : Nat) : C (Mat K) :=
  loop m (fun i g => loop n (fun j g => do
    let x ← gp.rd i j
    let y ← gm.rd i j
    let g ← g.wr (2 * j) i x
    g.wr (2 * j + 1) i y) g) (Mat.const s.nXbar m 0)

/-- `w_enc_quad`, parasitics.cpp:186-205. -/
def wEncQuad (s : Solver K) (gp gm : Mat K) (m n : Nat) : C (Mat K) :=
  loop m (fun i g => loop n (fun j g => do
    let x ← gp.rd i j
    let y ← gm.rd i j
    let g ← g.wr (2 * j) (2 * i) x
    let g ← g.wr (2 * j + 1) (2 * i) y
    let g ← g.wr (2 * j) (2 * i + 1) y
    g.wr (2 * j + 1) (2 * i + 1) x) g) (Mat.const s.nXbar (m * 2) 0)

/-- The second matrix, parasitics.cpp:64-67; `none` is the empty matrix. -/
def divVReadOpt (E : Env K) (cfg : Cfg K) (s : Solver K) (iam : Option (Mat K)) :
    C (Option (Mat K)) :=
  match iam with
  | none => .ok none
  | some A =>
    if A.rows = 0 then .ok none
    else do
      let g ← divVRead E cfg s A
      .ok (some g)

/-- The call through `weight_enc_func_`, parasitics.cpp:70.  An encoder that needs the second matrix
throws `std::bad_optional_access` without it. -/
def wEncode (s : Solver K) (gp : Mat K) (gm : Option (Mat K)) (m n : Nat) : C (Mat K) :=
  match s.mode.wEnc, gm with
  | some .single, _ => wEncSingle s gp m n
  | some .doubleCol, some gm => wEncDoubleCol s gp gm m n
  | some .doubleRow, some gm => wEncDoubleRow s gp gm m n
  | some .quad, some gm => wEncQuad s gp gm m n
  | _, _ => .error .thrown

/-- `set_conductance_matrix`, parasitics.cpp:38-74.  `iam = none` is the one-matrix overload. -/
def setConductance (E : Env K) (cfg : Cfg K) (s : Solver K) (iap : Mat K) (iam : Option (Mat K))
    (m n : Nat) : C (Solver K) := do
  let gp ← divVRead E cfg s iap
  let gm ← divVReadOpt E cfg s iam
  let g ← wEncode s gp gm m n
  if g.rows = 0 then .error .oob
  else
    let w ← E.fdiv 1 s.wRes
    .ok { s with ga := some (g, E.f32 (E.f64 (w * 1000000))) }

/-- `i_enc_single` and `i_enc_double`, parasitics.cpp:207-222. -/
def iEnc (s : Solver K) (vp : Vec Int) (vm : Option (Vec Int)) (n : Nat) : C (Vec Int) :=
  if s.mode.iEncDouble then
    loop n (fun j v => do
      let x ← vp.rd j
      let v ← v.wr (2 * j) x
      match vm with
      | none => .error .thrown
      | some vm => do
        let y ← vm.rd j
        v.wr (2 * j + 1) y) (Vec.const s.nXbar 0)
  else
    loop n (fun j v => do
      let x ← vp.rd j
      v.wr j x) (Vec.const s.nXbar 0)

/-- `reduce_par_g` then `reduce_ser_g` on one column, parasitics.cpp:107-119. -/
def serPar (E : Env K) (wire a g : K) : C K :=
  let b := E.fadd a g
  E.fdiv (E.fmul b wire) (E.fadd b wire)

/-- `o_enc_single` and `o_enc_double`, parasitics.cpp:224-239. -/
def oEnc (E : Env K) (s : Solver K) (acc : Vec K) (m : Nat) : C (Vec K) :=
  setG m (fun i =>
    if s.mode.oEncDouble then do
      let x ← acc.rd (2 * i)
      let y ← acc.rd (2 * i + 1)
      .ok (E.fmul (E.fsub x y) (-s.vRead))
    else do
      let x ← acc.rd i
      .ok (E.fmul x (-s.vRead))) (Vec.const s.mXbar 0)

/-- `compute_currents`, parasitics.cpp:76-128.  `vm = none` is the one-vector overload (an empty
vector in C++).  The result replaces the whole output vector (`res.assign(m_xbar_, 0)`). -/
def computeCurrents (E : Env K) (s : Solver K) (vp : Vec Int) (vm : Option (Vec Int))
    (m n : Nat) : C (Vec K) := do
  let vd ← iEnc s vp vm n
  match s.ga with
  | none => .error .oob
  | some (g, wire) => do
    let acc ← loop s.nXbar (fun j acc => do
      let x ← vd.rd j
      updG g.cols (fun c a => do
        let gc ← (if x ≠ 0 then g.rd j c else .ok 0)
        serPar E wire a gc) acc) (Vec.const g.cols 0)
    oEnc E s acc m

end

end Acs
