import Verif.Model.Parasitics

/-!
# The mapper base class

cpp/src/mapping/mapper.cpp: construction, weight encoding, analog cell states, noise.
Row indices (`m * SPLIT.size() + s`) are natural numbers: the truncations of such products to
`int`/`uint32_t` in the code are not modelled (they need more than `2^31` cell rows).
-/

namespace Acs

section
variable {K : Type} [Field K] [LinearOrder K] [IsStrictOrderedRing K] [FloorRing K]

/-! ## Construction -/

/-- The running value of `curr_w_bit`/`shift_`, mapper.cpp:65-69 (and int_v.cpp:24-27). -/
def shiftsFrom : Int → List Nat → List Nat
  | _, [] => []
  | w, s :: t => ((w - s) % 4294967296).toNat :: shiftsFrom (wrap32 (w - s)) t

/-- `(1 << k) - 1`. -/
def maskOf (strict : Bool) (k : Nat) : C Int := do
  let a ← shlI strict 1 k
  subI a 1

/-- Division of two floats stored in an object field: `none` stands for an infinity or NaN, which
becomes the fault `nonfinite` when it is used. -/
def fieldDiv (E : Env K) (a b : K) : Option K := if b = 0 then none else some (E.f32 (a / b))

/-- Use of a field computed by `fieldDiv`. -/
def useField (x : Option K) : C K :=
  match x with
  | some v => .ok v
  | none => .error .nonfinite

/-- `i_step_size_`, mapper.cpp:72-74. -/
def stepSizes (E : Env K) (iMM : K) (split : List Nat) : C (Vec (Option K)) :=
  setG split.length (fun s => do
    let mk ← maskOf E.strict (split.getD s 0)
    .ok (fieldDiv E iMM (E.ofInt mk))) (Vec.const split.length (some 0))

/-- `delta_` of `MapperIntV`, int_v.cpp:21-31. -/
def deltaOf (E : Env K) (cfg : Cfg K) (iMM : K) (shift : Vec Nat) : C (Option K) := do
  let d ← loop cfg.S (fun i d => do
    let sh ← shift.rd i
    let a ← shlI E.strict 1 sh
    let mk ← maskOf E.strict (cfg.split.getD i 0)
    let p ← mulI a mk
    .ok (E.fadd d (E.ofInt p))) 0
  .ok ((fieldDiv E cfg.hrs iMM).map fun r => E.fmul r d)

/-- `par_solver_`, mapper.cpp:53-59. -/
def optSolver (cfg : Cfg K) : C (Option (Solver K)) :=
  if !cfg.digitalOnly && cfg.parasitics then do
    let s ← mkSolver cfg
    .ok (some s)
  else .ok none

/-- `delta_` exists in `MapperIntV` only; the other classes get the dummy value 0. -/
def optDelta (E : Env K) (cfg : Cfg K) (iMM : K) (shift : Vec Nat) : C (Option K) :=
  if cfg.mode = .iUintWOffs then
    if cfg.digitalOnly && E.strict then .error .uninit else deltaOf E cfg iMM shift
  else .ok (some 0)

/-- `Mapper::Mapper`, mapper.cpp:33-77, and the constructor bodies of the subclasses.  In digital
mode `i_mm_` is never initialised: reading it is undefined in the strict reading, and yields
`E.junk` otherwise. -/
def mkCore (E : Env K) (cfg : Cfg K) : C (Core K) := do
  let adc ← mkAdc cfg
  let iMM := if cfg.digitalOnly then E.junk else E.fsub cfg.lrs cfg.hrs
  let par ← optSolver cfg
  let usesShift := cfg.mode.isInt || cfg.mode == .tnn4
  if usesShift && cfg.S != 0 && cfg.digitalOnly && E.strict then .error .uninit
  else
    let shift := if usesShift then Vec.ofList (shiftsFrom (wrap32 cfg.wBit) cfg.split)
      else Vec.const cfg.S 0
    let steps ← (if usesShift then stepSizes E iMM cfg.split else .ok (Vec.const cfg.S (some 0)))
    let delta ← optDelta E cfg iMM shift
    .ok {
      mode := cfg.mode
      isDiff := cfg.mode.isDiff
      gd := ⟨Mat.const cfg.R cfg.N 0, Mat.const cfg.R cfg.N 0, Vec.const cfg.M 0⟩
      shift := shift
      ia := ⟨Mat.const cfg.R cfg.N cfg.hrs, Mat.const cfg.R cfg.N cfg.hrs,
             Mat.const cfg.R cfg.N cfg.hrs, Mat.const cfg.R cfg.N cfg.hrs⟩
      iStep := steps
      numSeg := if usesShift then cfg.S else 0
      iMM := iMM
      delta := delta
      adc := adc
      par := par }

/-- Scratch vectors of the subclasses, all zero: int_i.cpp:15-21, int_ii.cpp:14-19, int_v.cpp:14-20,
bnn_i.cpp:13, bnn_iii.cpp:15-21, tnn_i.cpp:15-19, tnn_iv.cpp:15-22.  A vector a subclass does not
have is present in the model and never used. -/
def mkAux (cfg : Cfg K) (rng : Nat) (hists : List (String × Hist K)) : Aux K :=
  { vdP := Vec.const cfg.N 0
    vdM := Vec.const cfg.N 0
    vdSlice := Vec.const cfg.N 0
    tmpInt := Vec.const cfg.R 0
    tmpFp := if cfg.mode.isInt then Vec.const cfg.R 0 else Vec.const cfg.M 0
    tmp := Vec.const cfg.M 0
    tmpP := Vec.const cfg.M 0
    tmpM := Vec.const cfg.M 0
    tmpLsb := Vec.const cfg.M 0
    tmpMsb := Vec.const cfg.M 0
    resFp := Vec.const cfg.R 0
    rng := rng
    hists := hists }

/-- `Mapper::create_from_config`, mapper.cpp:79-119. -/
def mkMapper (E : Env K) (cfg : Cfg K) (rng : Nat) (hists : List (String × Hist K)) :
    C (Mapper K) := do
  let c ← mkCore E cfg
  .ok ⟨c, mkAux cfg rng hists⟩

end

/-! ## Weight encoding -/

/-- `(w >> shift) & ((1 << split) - 1)`, mapper.cpp:132-133, 137-138, 201-202. -/
def digit (strict : Bool) (w : Int) (sh sp : Nat) : C Int := do
  let a ← shrI w sh
  let mk ← maskOf strict sp
  .ok (and32 a mk)

/-- `Mapper::d_write_diff`, mapper.cpp:121-144. -/
def dWriteDiff (strict : Bool) (split : List Nat) (shift : Vec Nat) (mat : Vec Int) (m n : Nat)
    (gd : Gd) : C Gd :=
  loop m (fun i gd => do
    let r ← loop n (fun j (st : Gd × Int) => do
      let w ← mat.rd (n * i + j)
      let sum ← addI st.2 w
      let gd ← loop split.length (fun s (gd : Gd) => do
        let sh ← shift.rd s
        if 0 ≤ w then do
          let d ← digit strict w sh (split.getD s 0)
          let p ← gd.p.wr (i * split.length + s) j d
          let q ← gd.m.wr (i * split.length + s) j 0
          .ok { gd with p := p, m := q }
        else do
          let p ← gd.p.wr (i * split.length + s) j 0
          let a ← negI w
          let d ← digit strict a sh (split.getD s 0)
          let q ← gd.m.wr (i * split.length + s) j d
          .ok { gd with p := p, m := q }) st.1
      .ok (gd, sum)) (gd, 0)
    let sw ← r.1.sumW.wr i r.2
    .ok { r.1 with sumW := sw }) gd

/-- `Mapper::d_write_diff_bnn`, mapper.cpp:146-166. -/
def dWriteDiffBnn (mat : Vec Int) (m n : Nat) (gd : Gd) : C Gd :=
  loop m (fun i gd => do
    let r ← loop n (fun j (st : Gd × Int) => do
      let w ← mat.rd (n * i + j)
      let sum ← addI st.2 w
      if w = 1 then do
        let p ← st.1.p.wr i j w
        let q ← st.1.m.wr i j 0
        .ok ({ st.1 with p := p, m := q }, sum)
      else if w = -1 then do
        let p ← st.1.p.wr i j 0
        let a ← negI w
        let q ← st.1.m.wr i j a
        .ok ({ st.1 with p := p, m := q }, sum)
      else .error .aborted) (gd, 0)
    let sw ← r.1.sumW.wr i r.2
    .ok { r.1 with sumW := sw }) gd

/-- `Mapper::d_write_diff_tnn`, mapper.cpp:168-191. -/
def dWriteDiffTnn (mat : Vec Int) (m n : Nat) (gd : Gd) : C Gd :=
  loop m (fun i gd => do
    let r ← loop n (fun j (st : Gd × Int) => do
      let w ← mat.rd (n * i + j)
      let sum ← addI st.2 w
      if w = 1 then do
        let p ← st.1.p.wr i j w
        let q ← st.1.m.wr i j 0
        .ok ({ st.1 with p := p, m := q }, sum)
      else if w = -1 then do
        let p ← st.1.p.wr i j 0
        let a ← negI w
        let q ← st.1.m.wr i j a
        .ok ({ st.1 with p := p, m := q }, sum)
      else if w = 0 then do
        let p ← st.1.p.wr i j 0
        let q ← st.1.m.wr i j 0
        .ok ({ st.1 with p := p, m := q }, sum)
      else .error .aborted) (gd, 0)
    let sw ← r.1.sumW.wr i r.2
    .ok { r.1 with sumW := sw }) gd

/-- `Mapper::d_write_offs`, mapper.cpp:193-206. -/
def dWriteOffs (strict : Bool) (wBit : Nat) (split : List Nat) (shift : Vec Nat) (mat : Vec Int)
    (m n : Nat) (gd : Gd) : C Gd :=
  loop m (fun i gd => loop n (fun j gd => do
    let x ← mat.rd (n * i + j)
    let o ← shlI strict 1 (u32sub wBit 1)
    let w ← addI x o
    loop split.length (fun s (gd : Gd) => do
      let sh ← shift.rd s
      let d ← digit strict w sh (split.getD s 0)
      let p ← gd.p.wr (i * split.length + s) j d
      .ok { gd with p := p }) gd) gd) gd

/-- `Mapper::d_write_tc_tnn`, mapper.cpp:208-235. -/
def dWriteTcTnn (split : List Nat) (offset : Bool) (mat : Vec Int) (m n : Nat) (gd : Gd) : C Gd :=
  if split = [1, 1] then
    loop m (fun i gd => loop n (fun j (gd : Gd) => do
      let x ← mat.rd (n * i + j)
      let w ← (if offset then addI x 1 else .ok x)
      let p ← gd.p.wr i j (and32 w 1)
      let h ← shrI (and32 w 2) 1
      let q ← gd.m.wr i j h
      .ok { gd with p := p, m := q }) gd) gd
  else .error .exited

/-- `MapperBnnIII::d_write`, bnn_iii.cpp:25-32. -/
def dWriteBnn3 (mat : Vec Int) (m n : Nat) (gd : Gd) : C Gd :=
  loop m (fun i gd => loop n (fun j (gd : Gd) => do
    let x ← mat.rd (n * i + j)
    let a ← addI x 1
    let d ← shrI a 1
    let p ← gd.p.wr i j d
    .ok { gd with p := p }) gd) gd

/-- `MapperBnnIV::d_write`, bnn_iv.cpp:25-32; C++ integer division truncates. -/
def dWriteBnn4 (mat : Vec Int) (m n : Nat) (gd : Gd) : C Gd :=
  loop m (fun i gd => loop n (fun j (gd : Gd) => do
    let x ← mat.rd (n * i + j)
    let a ← subI x 1
    let p ← gd.p.wr i j (a.tdiv (-2))
    .ok { gd with p := p }) gd) gd

section
variable {K : Type} [Field K] [LinearOrder K] [IsStrictOrderedRing K] [FloorRing K]

/-- The virtual `d_write` on the cell array: int_i.cpp:25-28, int_ii.cpp:23-26, int_iii.cpp:23-26, int_iv.cpp:23-26,
int_v.cpp:36-39, bnn_i.cpp:17-20, bnn_ii.cpp:20-23, bnn_v.cpp:23-26, bnn_vi.cpp:23-26,
tnn_i.cpp:23-26, tnn_ii.cpp:20-23, tnn_iii.cpp:20-23, tnn_iv.cpp:26-29, tnn_v.cpp:26-29. -/
def dWriteGd (E : Env K) (cfg : Cfg K) (c : Core K) (mat : Vec Int) (m n : Nat) : C Gd :=
  match c.mode with
  | .iDiffWDiff1 | .iDiffWDiff2 | .iOffsWDiff | .iTcWDiff | .iUintWDiff =>
    dWriteDiff E.strict cfg.split c.shift mat m n c.gd
  | .iUintWOffs => dWriteOffs E.strict cfg.wBit cfg.split c.shift mat m n c.gd
  | .bnn1 | .bnn2 | .bnn5 | .bnn6 => dWriteDiffBnn mat m n c.gd
  | .bnn3 => dWriteBnn3 mat m n c.gd
  | .bnn4 => dWriteBnn4 mat m n c.gd
  | .tnn1 | .tnn2 | .tnn3 => dWriteDiffTnn mat m n c.gd
  | .tnn4 => dWriteTcTnn cfg.split false mat m n c.gd
  | .tnn5 => dWriteTcTnn cfg.split true mat m n c.gd

/-- `mapper_->d_write(...)`. -/
def dWrite (E : Env K) (cfg : Cfg K) (mp : Mapper K) (mat : Vec Int) (m n : Nat) :
    C (Mapper K) := do
  let gd ← dWriteGd E cfg mp.core mat m n
  .ok { mp with core := { mp.core with gd := gd } }

/-! ## Analog cell states -/

/-- `Mapper::add_gaussian_noise`, mapper.cpp:290-307, with `std::max(a, b) = (a < b) ? b : a`.
Returns the new current and the new position in the random stream. -/
def addNoise (E : Env K) (cfg : Cfg K) (rng : Nat) (state : K) (mask : Int) : C (K × Nat) :=
  if mask = 0 then
    if cfg.hrsNoise ≤ 0 then .ok (state, rng)
    else
      let x := E.fadd state (E.gauss rng)
      .ok (if x < 0 then 0 else x, rng + 1)
  else if mask = 1 then
    if cfg.lrsNoise ≤ 0 then .ok (state, rng)
    else
      let x := E.fadd state (E.gauss rng)
      .ok (if x < 0 then 0 else x, rng + 1)
  else .error .exited

/-- `gd * step + hrs` on floats. -/
def cellCurrent (E : Env K) (hrs step : K) (g : Int) : K :=
  E.fadd (E.fmul (E.ofInt g) step) hrs

/-- `Mapper::a_write_p_m`, mapper.cpp:237-246. -/
def aWritePM (E : Env K) (cfg : Cfg K) (c : Core K) (m n : Nat) : C (Ia K) :=
  loop (m * c.numSeg) (fun i ia => do
    let st ← c.iStep.rd (i % c.numSeg)
    loop n (fun j (ia : Ia K) => do
      let step ← useField st
      let gp ← c.gd.p.rd i j
      let p ← ia.p.wr i j (cellCurrent E cfg.hrs step gp)
      let gm ← c.gd.m.rd i j
      let q ← ia.m.wr i j (cellCurrent E cfg.hrs step gm)
      .ok { ia with p := p, m := q }) ia) c.ia

/-- `Mapper::a_write_p`, mapper.cpp:264-272. -/
def aWriteP (E : Env K) (cfg : Cfg K) (c : Core K) (m n : Nat) : C (Ia K) :=
  loop (m * c.numSeg) (fun i ia => do
    let st ← c.iStep.rd (i % c.numSeg)
    loop n (fun j (ia : Ia K) => do
      let step ← useField st
      let gp ← c.gd.p.rd i j
      let p ← ia.p.wr i j (cellCurrent E cfg.hrs step gp)
      .ok { ia with p := p }) ia) c.ia

/-- `Mapper::a_write_p_m_bnn_tnn`, mapper.cpp:248-262. -/
def aWritePMBnnTnn (E : Env K) (cfg : Cfg K) (c : Core K) (rng m n : Nat) : C (Ia K × Nat) :=
  let step := E.fsub cfg.lrs cfg.hrs
  loop m (fun i st => loop n (fun j (st : Ia K × Nat) => do
    let gp ← c.gd.p.rd i j
    let x ← addNoise E cfg st.2 (cellCurrent E cfg.hrs step gp) gp
    let p ← st.1.p.wr i j x.1
    let pO ← st.1.pO.wr i j x.1
    let gm ← c.gd.m.rd i j
    let y ← addNoise E cfg x.2 (cellCurrent E cfg.hrs step gm) gm
    let q ← st.1.m.wr i j y.1
    let qO ← st.1.mO.wr i j y.1
    .ok (⟨p, q, pO, qO⟩, y.2)) st) (c.ia, rng)

/-- `Mapper::a_write_p_bnn`, mapper.cpp:274-284. -/
def aWritePBnn (E : Env K) (cfg : Cfg K) (c : Core K) (rng m n : Nat) : C (Ia K × Nat) :=
  let step := E.fsub cfg.lrs cfg.hrs
  loop m (fun i st => loop n (fun j (st : Ia K × Nat) => do
    let gp ← c.gd.p.rd i j
    let x ← addNoise E cfg st.2 (cellCurrent E cfg.hrs step gp) gp
    let p ← st.1.p.wr i j x.1
    let pO ← st.1.pO.wr i j x.1
    .ok ({ st.1 with p := p, pO := pO }, x.2)) st) (c.ia, rng)

/-- `if (CFG.parasitics) par_solver_->set_conductance_matrix(...)` at the end of every `a_write`. -/
def pushSolver (E : Env K) (cfg : Cfg K) (par : Option (Solver K)) (iap : Mat K)
    (iam : Option (Mat K)) (m n : Nat) : C (Option (Solver K)) :=
  if cfg.parasitics then
    match par with
    | none => .error .nullDeref
    | some s => do
      let s ← setConductance E cfg s iap iam m n
      .ok (some s)
  else .ok par

/-- The virtual `a_write`: int_i.cpp:30-38 (likewise int_ii to int_iv), int_v.cpp:41-49,
bnn_i.cpp:22-29 (likewise bnn_v, bnn_vi, tnn_i to tnn_v), bnn_ii.cpp:25-33 (matrices swapped for the
solver), bnn_iii.cpp:34-41, bnn_iv.cpp:34-41. -/
def aWrite (E : Env K) (cfg : Cfg K) (mp : Mapper K) (m n : Nat) : C (Mapper K) :=
  let c := mp.core
  match c.mode with
  | .iDiffWDiff1 | .iDiffWDiff2 | .iOffsWDiff | .iTcWDiff | .iUintWDiff => do
    let ia ← aWritePM E cfg c m n
    let par ← pushSolver E cfg c.par ia.p (some ia.m) (m * cfg.S) n
    .ok { mp with core := { c with ia := ia, par := par } }
  | .iUintWOffs => do
    let ia ← aWriteP E cfg c m n
    let par ← pushSolver E cfg c.par ia.p none (m * cfg.S) n
    .ok { mp with core := { c with ia := ia, par := par } }
  | .bnn3 | .bnn4 => do
    let r ← aWritePBnn E cfg c mp.aux.rng m n
    let par ← pushSolver E cfg c.par r.1.p none m n
    .ok { core := { c with ia := r.1, par := par }, aux := { mp.aux with rng := r.2 } }
  | .bnn2 => do
    let r ← aWritePMBnnTnn E cfg c mp.aux.rng m n
    let par ← pushSolver E cfg c.par r.1.m (some r.1.p) m n
    .ok { core := { c with ia := r.1, par := par }, aux := { mp.aux with rng := r.2 } }
  | .bnn1 | .bnn5 | .bnn6 | .tnn1 | .tnn2 | .tnn3 | .tnn4 | .tnn5 => do
    let r ← aWritePMBnnTnn E cfg c mp.aux.rng m n
    let par ← pushSolver E cfg c.par r.1.p (some r.1.m) m n
    .ok { core := { c with ia := r.1, par := par }, aux := { mp.aux with rng := r.2 } }

/-- `Mapper::a_add_c2c_var`, mapper.cpp:477-484. -/
def addC2C (E : Env K) (cfg : Cfg K) (mp : Mapper K) (m n : Nat) : C (Mapper K) := do
  let c := mp.core
  let r ← loop m (fun i st => loop n (fun j (st : Ia K × Nat) => do
    let a ← st.1.pO.rd i j
    let gp ← c.gd.p.rd i j
    let x ← addNoise E cfg st.2 a gp
    let p ← st.1.p.wr i j x.1
    let b ← st.1.mO.rd i j
    let gm ← c.gd.m.rd i j
    let y ← addNoise E cfg x.2 b gm
    let q ← st.1.m.wr i j y.1
    .ok ({ st.1 with p := p, m := q }, y.2)) st) (c.ia, mp.aux.rng)
  .ok { core := { c with ia := r.1 }, aux := { mp.aux with rng := r.2 } }

/-- `Mapper::a_remove_c2c_var`, mapper.cpp:486-493. -/
def removeC2C (mp : Mapper K) (m n : Nat) : C (Mapper K) := do
  let c := mp.core
  let ia ← loop m (fun i ia => loop n (fun j (ia : Ia K) => do
    let a ← ia.pO.rd i j
    let p ← ia.p.wr i j a
    let b ← ia.mO.rd i j
    let q ← ia.m.wr i j b
    .ok { ia with p := p, m := q }) ia) c.ia
  .ok { mp with core := { c with ia := ia } }

/-- `Mapper::slice_vd`, mapper.cpp:470-475 (elements processed in index order). -/
def sliceVd (vd slice : Vec Int) (n bit : Nat) : C (Vec Int) :=
  setG n (fun i => do
    let v ← vd.rd i
    let a ← shrI v bit
    .ok (and32 a 1)) slice

end

end Acs
