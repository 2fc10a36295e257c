import Verif.Model.Mapper

/-!
# Integer mappings

cpp/src/mapping/int_mapper/int_i.cpp to int_v.cpp.

Every multiplication takes the read-only part `c : Core`, the scratch state `a : Aux`, the caller's
`res` and `vec` buffers and the sizes `m`, `n`; the unused argument `mat` of the C++ functions is
dropped (`Crossbar::mvm` still takes it).  The caller's buffers are assumed not to overlap.
-/

namespace Acs

section
variable {K : Type}

/-- Split a signed input into positive and negative part, int_i.cpp:49-57 and 95-103. -/
def encSigned (n : Nat) (vec vp vm : Vec Int) : C (Vec Int × Vec Int) :=
  loop n (fun i (st : Vec Int × Vec Int) => do
    let x ← vec.rd i
    if 0 ≤ x then do
      let p ← st.1.wr i x
      let q ← st.2.wr i 0
      .ok (p, q)
    else do
      let p ← st.1.wr i 0
      let y ← negI x
      let q ← st.2.wr i y
      .ok (p, q)) (vp, vm)

/-- `(gd_p_[t][n] - gd_m_[t][n]) * v[n]`. -/
def diffTerm (gd : Gd) (v : Vec Int) (t n : Nat) : C Int := do
  let p ← gd.p.rd t n
  let q ← gd.m.rd t n
  let d ← subI p q
  let x ← v.rd n
  mulI d x

/-- `(gd_m_[t][n] - gd_p_[t][n]) * v[n]`. -/
def diffTermNeg (gd : Gd) (v : Vec Int) (t n : Nat) : C Int := do
  let q ← gd.m.rd t n
  let p ← gd.p.rd t n
  let d ← subI q p
  let x ← v.rd n
  mulI d x

/-- `gd_p_[t][n] * v[n]`. -/
def posTerm (gd : Gd) (v : Vec Int) (t n : Nat) : C Int := do
  let p ← gd.p.rd t n
  let x ← v.rd n
  mulI p x

/-- `tmp_out_int_[m * split.size() + s] << shift_[s]`. -/
def shiftedTmp (strict : Bool) (S : Nat) (shift : Vec Nat) (tmp : Vec Int) (m s : Nat) : C Int := do
  let t ← tmp.rd (m * S + s)
  let k ← shift.rd s
  shlI strict t k

/-- `MapperIntI::d_mvm`, int_i.cpp:40-84. -/
def dMvmIntI (E : Env K) (cfg : Cfg K) (c : Core K) (a : Aux K) (res vec : Vec Int) (m n : Nat) :
    C (Aux K × Vec Int) := do
  let v ← encSigned n vec a.vdP a.vdM
  let t ← accG addI (m * cfg.S) n (diffTerm c.gd v.1) (a.tmpInt.fill 0)
  let res ← accG addI m cfg.S (shiftedTmp E.strict cfg.S c.shift t) res
  let t ← accG addI (m * cfg.S) n (diffTermNeg c.gd v.2) (t.fill 0)
  let res ← accG addI m cfg.S (shiftedTmp E.strict cfg.S c.shift t) res
  .ok ({ a with vdP := v.1, vdM := v.2, tmpInt := t }, res)

/-- `(1 << (CFG.I_BIT - 1)) + vec[n]`, int_ii.cpp:47-50 and 77-80. -/
def encOffs (strict : Bool) (iBit n : Nat) (vec vp : Vec Int) : C (Vec Int) :=
  setG n (fun i => do
    let o ← shlI strict 1 (u32sub iBit 1)
    let x ← vec.rd i
    addI o x) vp

/-- `sum_w_[m] << (CFG.I_BIT - 1)`. -/
def sumShift (strict : Bool) (iBit : Nat) (gd : Gd) (m : Nat) : C Int := do
  let s ← gd.sumW.rd m
  shlI strict s (u32sub iBit 1)

/-- `MapperIntII::d_mvm`, int_ii.cpp:38-65. -/
def dMvmIntII (E : Env K) (cfg : Cfg K) (c : Core K) (a : Aux K) (res vec : Vec Int) (m n : Nat) :
    C (Aux K × Vec Int) := do
  let v ← encOffs E.strict cfg.iBit n vec a.vdP
  let t ← accG addI (m * cfg.S) n (diffTerm c.gd v) (a.tmpInt.fill 0)
  let res ← loop m (fun i res => do
    let res ← accRow addI i cfg.S (shiftedTmp E.strict cfg.S c.shift t i) res
    let k ← sumShift E.strict cfg.iBit c.gd i
    updAt res i (fun r => subI r k)) res
  .ok ({ a with vdP := v, tmpInt := t }, res)

/-- `vd_p_[n] = mask & vec[n]`, int_iii.cpp:50-52 and 61-63. -/
def encMask (mask : Int) (n : Nat) (vec vp : Vec Int) : C (Vec Int) :=
  setG n (fun i => do
    let x ← vec.rd i
    .ok (and32 mask x)) vp

/-- `MapperIntIII::d_mvm`, int_iii.cpp:38-76. -/
def dMvmIntIII (E : Env K) (cfg : Cfg K) (c : Core K) (a : Aux K) (res vec : Vec Int) (m n : Nat) :
    C (Aux K × Vec Int) := do
  let mask ← maskOf E.strict (u32sub cfg.iBit 1)
  let v ← encMask mask n vec a.vdP
  let t ← accG addI (m * cfg.S) n (diffTerm c.gd v) (a.tmpInt.fill 0)
  let mask ← shlI E.strict 1 (u32sub cfg.iBit 1)
  let v ← encMask mask n vec v
  let t ← accG subI (m * cfg.S) n (diffTerm c.gd v) t
  let res ← accG addI m cfg.S (shiftedTmp E.strict cfg.S c.shift t) res
  .ok ({ a with vdP := v, tmpInt := t }, res)

/-- `MapperIntIV::d_mvm`, int_iv.cpp:38-60. -/
def dMvmIntIV (E : Env K) (cfg : Cfg K) (c : Core K) (a : Aux K) (res vec : Vec Int) (m n : Nat) :
    C (Aux K × Vec Int) := do
  let t ← accG addI (m * cfg.S) n (diffTerm c.gd vec) (a.tmpInt.fill 0)
  let res ← accG addI m cfg.S (shiftedTmp E.strict cfg.S c.shift t) res
  .ok ({ a with tmpInt := t }, res)

/-- `int64_t inp_sum`, int_v.cpp:60-65 and 93-98, tnn_iv.cpp:86-90, tnn_v.cpp:50-54 and 92-96. -/
def inpSum (n : Nat) (vec : Vec Int) : C Int :=
  loop n (fun i s => do
    let x ← vec.rd i
    addL s x) 0

/-- `MapperIntV::d_mvm`, int_v.cpp:51-81.  The subtraction is done in `int64_t`; its result is
converted back to `int32_t` with wrap-around. -/
def dMvmIntV (E : Env K) (cfg : Cfg K) (c : Core K) (a : Aux K) (res vec : Vec Int) (m n : Nat) :
    C (Aux K × Vec Int) := do
  let sum ← inpSum n vec
  let t ← accG addI (m * cfg.S) n (posTerm c.gd vec) (a.tmpInt.fill 0)
  let res ← loop m (fun i res => do
    let res ← accRow addI i cfg.S (shiftedTmp E.strict cfg.S c.shift t i) res
    let k ← shlL E.strict sum (u32sub cfg.wBit 1)
    updAt res i (fun r => do
      let d ← i64 (r - k)
      .ok (wrap32 d))) res
  .ok ({ a with tmpInt := t }, res)

end

section
variable {K : Type} [Field K] [LinearOrder K] [IsStrictOrderedRing K] [FloorRing K]

/-- `(ia_p_[t][n] - ia_m_[t][n]) * v[n]` in floats. -/
def iaDiffTerm (E : Env K) (ia : Ia K) (v : Vec Int) (t n : Nat) : C K := do
  let p ← ia.p.rd t n
  let q ← ia.m.rd t n
  let x ← v.rd n
  .ok (E.fmul (E.fsub p q) (E.ofInt x))

/-- `ia[t][n] * v[n]` in floats. -/
def iaTerm (E : Env K) (A : Mat K) (v : Vec Int) (t n : Nat) : C K := do
  let p ← A.rd t n
  let x ← v.rd n
  .ok (E.fmul p (E.ofInt x))

/-- `a += x` on floats. -/
def faddC (E : Env K) (a x : K) : C K := .ok (E.fadd a x)

/-- The column currents of one input slice for the differential integer mappings:
`if (!CFG.parasitics) {...} else par_solver_->compute_currents(...)`, e.g. int_i.cpp:112-122. -/
def intCurrents (E : Env K) (cfg : Cfg K) (c : Core K) (term : Nat → Nat → C K) (v : Vec Int)
    (tmp : Vec K) (m n : Nat) : C (Vec K) :=
  if cfg.parasitics then
    match c.par with
    | none => .error .nullDeref
    | some s => computeCurrents E s v none (m * cfg.S) n
  else accG (faddC E) (m * cfg.S) n term tmp

/-- `(std::pow(2, shift_[s]) * std::pow(2, i_bit)) / step` as a double, passed as `float`.
The powers are exact in double; exponents that give an infinity are `nonfinite`. -/
def adcScale (E : Env K) (sh bit : Nat) (step : K) : C K :=
  if 1024 ≤ sh + bit then .error .nonfinite
  else if step = 0 then .error .nonfinite
  else .ok (E.f32 (E.f64 (2 ^ (sh + bit) / step)))

/-- `adc_->convert(tmp_out_fp_[m * split.size() + s], scale, 0.0, l_name)`, e.g. int_i.cpp:127-131.
`sg` is `1` or `-1` for the sign in front of `i_step_size_[s]`. -/
def intConv (E : Env K) (cfg : Cfg K) (c : Core K) (tmp : Vec K) (sg : K) (bit : Nat) (l : String)
    (m s : Nat) : C K := do
  let x ← tmp.rd (m * cfg.S + s)
  let sh ← c.shift.rd s
  let st ← c.iStep.rd s
  let step ← useField st
  let sc ← adcScale E sh bit (sg * step)
  conv1 E cfg c.adc x sc 0 l

/-- One input bit of a differential integer mapping: slice, currents, conversion, clearing of the
scratch vector.  int_i.cpp:108-137 and 141-170, int_ii.cpp:85-114, int_iii.cpp:96-125,
int_iv.cpp:80-109. -/
def intBit (E : Env K) (cfg : Cfg K) (c : Core K) (v : Vec Int) (sg : K) (m n : Nat) (l : String)
    (bit : Nat) (st : Vec Int × Vec K × Vec Int) : C (Vec Int × Vec K × Vec Int) := do
  let sl ← sliceVd v st.1 n bit
  let tmp ← intCurrents E cfg c (iaDiffTerm E c.ia sl) sl st.2.1 m n
  let res ← accG E.iaddf m cfg.S (intConv E cfg c tmp sg bit l) st.2.2
  .ok (sl, tmp.fill 0, res)

/-- `MapperIntI::a_mvm`, int_i.cpp:86-171. -/
def aMvmIntI (E : Env K) (cfg : Cfg K) (c : Core K) (a : Aux K) (res vec : Vec Int) (m n : Nat)
    (l : String) : C (Aux K × Vec Int) := do
  let v ← encSigned n vec a.vdP a.vdM
  let r ← loop (u32sub cfg.iBit 1) (intBit E cfg c v.1 1 m n l) (a.vdSlice, a.tmpFp.fill 0, res)
  let r ← loop cfg.iBit (intBit E cfg c v.2 (-1) m n l) r
  .ok ({ a with vdP := v.1, vdM := v.2, vdSlice := r.1, tmpFp := r.2.1 }, r.2.2)

/-- `CFG.I_BIT + 1` as `uint32_t`. -/
def u32succ (k : Nat) : Nat := (k + 1) % 4294967296

/-- `MapperIntII::a_mvm`, int_ii.cpp:67-120. -/
def aMvmIntII (E : Env K) (cfg : Cfg K) (c : Core K) (a : Aux K) (res vec : Vec Int) (m n : Nat)
    (l : String) : C (Aux K × Vec Int) := do
  let v ← encOffs E.strict cfg.iBit n vec a.vdP
  let r ← loop (u32succ cfg.iBit) (intBit E cfg c v 1 m n l) (a.vdSlice, a.tmpFp.fill 0, res)
  let res ← loop m (fun i res => do
    let k ← sumShift E.strict cfg.iBit c.gd i
    updAt res i (fun x => subI x k)) r.2.2
  .ok ({ a with vdP := v, vdSlice := r.1, tmpFp := r.2.1 }, res)

/-- `vd_p_[n] = vec[n]`, int_iii.cpp:88-91, int_iv.cpp:72-75. -/
def encCopy (n : Nat) (vec vp : Vec Int) : C (Vec Int) := setG n (fun i => vec.rd i) vp

/-- `MapperIntIII::a_mvm`, int_iii.cpp:78-151. -/
def aMvmIntIII (E : Env K) (cfg : Cfg K) (c : Core K) (a : Aux K) (res vec : Vec Int) (m n : Nat)
    (l : String) : C (Aux K × Vec Int) := do
  let v ← encCopy n vec a.vdP
  let r ← loop (u32sub cfg.iBit 1) (intBit E cfg c v 1 m n l) (a.vdSlice, a.tmpFp.fill 0, res)
  let bit := u32sub cfg.iBit 1
  let sl ← sliceVd v r.1 n bit
  let tmp ← intCurrents E cfg c (iaDiffTerm E c.ia sl) sl r.2.1 m n
  let res ← accG E.isubf m cfg.S (intConv E cfg c tmp 1 bit l) r.2.2
  .ok ({ a with vdP := v, vdSlice := sl, tmpFp := tmp }, res)

/-- `MapperIntIV::a_mvm`, int_iv.cpp:62-110. -/
def aMvmIntIV (E : Env K) (cfg : Cfg K) (c : Core K) (a : Aux K) (res vec : Vec Int) (m n : Nat)
    (l : String) : C (Aux K × Vec Int) := do
  let v ← encCopy n vec a.vdP
  let r ← loop cfg.iBit (intBit E cfg c v 1 m n l) (a.vdSlice, a.tmpFp.fill 0, res)
  .ok ({ a with vdP := v, vdSlice := r.1, tmpFp := r.2.1 }, r.2.2)

/-- One input bit of `MapperIntV::a_mvm`, int_v.cpp:101-130: accumulates into `res_fp_`. -/
def intBitV (E : Env K) (cfg : Cfg K) (c : Core K) (v : Vec Int) (m n : Nat) (l : String)
    (bit : Nat) (st : Vec Int × Vec K × Vec K) : C (Vec Int × Vec K × Vec K) := do
  let sl ← sliceVd v st.1 n bit
  let tmp ← intCurrents E cfg c (iaTerm E c.ia.p sl) sl st.2.1 m n
  let rf ← accG (faddC E) m cfg.S (intConv E cfg c tmp 1 bit l) st.2.2
  .ok (sl, tmp.fill 0, rf)

/-- `MapperIntV::a_mvm`, int_v.cpp:83-137. -/
def aMvmIntV (E : Env K) (cfg : Cfg K) (c : Core K) (a : Aux K) (res vec : Vec Int) (m n : Nat)
    (l : String) : C (Aux K × Vec Int) := do
  let v ← encCopy n vec a.vdP
  let sum ← inpSum n vec
  let r ← loop cfg.iBit (intBitV E cfg c v m n l) (a.vdSlice, a.tmpFp.fill 0, a.resFp.fill 0)
  let rr ← loop m (fun i (st : Vec K × Vec Int) => do
    let d ← useField c.delta
    let o ← shlI E.strict 1 (u32sub cfg.wBit 1)
    let f ← updAt st.1 i (fun x => .ok (E.fsub x (E.fmul (E.ofInt sum) (E.fadd d (E.ofInt o)))))
    let y ← f.rd i
    let z ← toI32 ((roundAway y : Int) : K)
    let res ← updAt st.2 i (fun x => addI x z)
    .ok (f, res)) (r.2.2, res)
  .ok ({ a with vdP := v, vdSlice := r.1, tmpFp := r.2.1, resFp := rr.1 }, rr.2)

end

end Acs
