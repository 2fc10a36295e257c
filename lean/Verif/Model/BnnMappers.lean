import Verif.Model.IntMappers

/-!
# Binary mappings

cpp/src/mapping/bnn_mapper/bnn_i.cpp to bnn_vi.cpp.
-/

namespace Acs

section
variable {K : Type}

/-- `vd_[n] = (vec[n] + 1) >> 1`, bnn_i.cpp:33-35 and 52-54. -/
def encBnn1 (n : Nat) (vec v : Vec Int) : C (Vec Int) :=
  setG n (fun i => do
    let x ← vec.rd i
    let y ← addI x 1
    shrI y 1) v

/-- `vd_[n] = (vec[n] - 1) / (-2)`, bnn_ii.cpp:37-39 and 57-59. -/
def encBnn2 (n : Nat) (vec v : Vec Int) : C (Vec Int) :=
  setG n (fun i => do
    let x ← vec.rd i
    let y ← subI x 1
    .ok (y.tdiv (-2))) v

/-- Split a `+1`/`-1` input, e.g. bnn_v.cpp:39-50. -/
def encPM (n : Nat) (vec vp vm : Vec Int) : C (Vec Int × Vec Int) :=
  loop n (fun i (st : Vec Int × Vec Int) => do
    let x ← vec.rd i
    if x = 1 then do
      let p ← st.1.wr i 1
      let q ← st.2.wr i 0
      .ok (p, q)
    else if x = -1 then do
      let q ← st.2.wr i 1
      let p ← st.1.wr i 0
      .ok (p, q)
    else .error .aborted) (vp, vm)

/-- The same with the 32 bit input sum, bnn_iii.cpp:45-59 and 75-89, bnn_iv.cpp:45-59 and 75-89. -/
def encPMSum (n : Nat) (vec vp vm : Vec Int) : C ((Vec Int × Vec Int) × Int) :=
  loop n (fun i (st : (Vec Int × Vec Int) × Int) => do
    let x ← vec.rd i
    let s ← addI st.2 x
    if x = 1 then do
      let p ← st.1.1.wr i 1
      let q ← st.1.2.wr i 0
      .ok ((p, q), s)
    else if x = -1 then do
      let q ← st.1.2.wr i 1
      let p ← st.1.1.wr i 0
      .ok ((p, q), s)
    else .error .aborted) ((vp, vm), 0)

/-- `MapperBnnI::d_mvm`, bnn_i.cpp:31-46. -/
def dMvmBnnI (c : Core K) (a : Aux K) (res vec : Vec Int) (m n : Nat) : C (Aux K × Vec Int) := do
  let v ← encBnn1 n vec a.vdP
  let res ← accG addI m n (fun i j => do
    let x ← diffTerm c.gd v i j
    mulI x 2) res
  let res ← updG m (fun i r => do
    let s ← c.gd.sumW.rd i
    subI r s) res
  .ok ({ a with vdP := v }, res)

/-- `MapperBnnII::d_mvm`, bnn_ii.cpp:35-50. -/
def dMvmBnnII (c : Core K) (a : Aux K) (res vec : Vec Int) (m n : Nat) : C (Aux K × Vec Int) := do
  let v ← encBnn2 n vec a.vdP
  let res ← accG addI m n (fun i j => do
    let x ← diffTermNeg c.gd v i j
    mulI x 2) res
  let res ← updG m (fun i r => do
    let s ← c.gd.sumW.rd i
    addI r s) res
  .ok ({ a with vdP := v }, res)

/-- `2 * (gd_p_[m][n] * u[n] - gd_p_[m][n] * w[n])`. -/
def bnn34Term (gd : Gd) (u w : Vec Int) (i j : Nat) : C Int := do
  let g ← gd.p.rd i j
  let x ← u.rd j
  let p ← mulI g x
  let y ← w.rd j
  let q ← mulI g y
  let d ← subI p q
  mulI 2 d

/-- `MapperBnnIII::d_mvm`, bnn_iii.cpp:43-67. -/
def dMvmBnnIII (c : Core K) (a : Aux K) (res vec : Vec Int) (m n : Nat) : C (Aux K × Vec Int) := do
  let v ← encPMSum n vec a.vdP a.vdM
  let res ← loop m (fun i res => do
    let res ← updAt res i (fun r => subI r v.2)
    accRow addI i n (bnn34Term c.gd v.1.1 v.1.2 i) res) res
  .ok ({ a with vdP := v.1.1, vdM := v.1.2 }, res)

/-- `MapperBnnIV::d_mvm`, bnn_iv.cpp:43-67. -/
def dMvmBnnIV (c : Core K) (a : Aux K) (res vec : Vec Int) (m n : Nat) : C (Aux K × Vec Int) := do
  let v ← encPMSum n vec a.vdP a.vdM
  let res ← loop m (fun i res => do
    let res ← updAt res i (fun r => addI r v.2)
    accRow addI i n (bnn34Term c.gd v.1.2 v.1.1 i) res) res
  .ok ({ a with vdP := v.1.1, vdM := v.1.2 }, res)

/-- `(gd_p_[m][n] * vd_p_[n] + gd_m_[m][n] * vd_m_[n]) << 1`. -/
def bnn5Term (strict : Bool) (gd : Gd) (vp vm : Vec Int) (i j : Nat) : C Int := do
  let p ← gd.p.rd i j
  let x ← vp.rd j
  let a ← mulI p x
  let q ← gd.m.rd i j
  let y ← vm.rd j
  let b ← mulI q y
  let s ← addI a b
  shlI strict s 1

/-- `MapperBnnV::d_mvm`, bnn_v.cpp:37-58. -/
def dMvmBnnV (E : Env K) (c : Core K) (a : Aux K) (res vec : Vec Int) (m n : Nat) :
    C (Aux K × Vec Int) := do
  let v ← encPM n vec a.vdP a.vdM
  let res ← loop m (fun i res => do
    let res ← updAt res i (fun r => subI r n)
    accRow addI i n (bnn5Term E.strict c.gd v.1 v.2 i) res) res
  .ok ({ a with vdP := v.1, vdM := v.2 }, res)

/-- `gd_p_[m][n] * vd_p_[n] + gd_m_[m][n] * vd_m_[n] - gd_m_[m][n] * vd_p_[n]
- gd_p_[m][n] * vd_m_[n]`, bnn_vi.cpp:54-55, tnn_i.cpp:57-58. -/
def quadTerm (gd : Gd) (vp vm : Vec Int) (i j : Nat) : C Int := do
  let p ← gd.p.rd i j
  let q ← gd.m.rd i j
  let x ← vp.rd j
  let y ← vm.rd j
  let a ← mulI p x
  let b ← mulI q y
  let s ← addI a b
  let d ← mulI q x
  let s ← subI s d
  let e ← mulI p y
  subI s e

/-- `MapperBnnVI::d_mvm`, bnn_vi.cpp:37-58. -/
def dMvmBnnVI (c : Core K) (a : Aux K) (res vec : Vec Int) (m n : Nat) : C (Aux K × Vec Int) := do
  let v ← encPM n vec a.vdP a.vdM
  let res ← accG addI m n (quadTerm c.gd v.1 v.2) res
  .ok ({ a with vdP := v.1, vdM := v.2 }, res)

end

section
variable {K : Type} [Field K] [LinearOrder K] [IsStrictOrderedRing K] [FloorRing K]

/-- `(ia_m_[m][n] - ia_p_[m][n]) * v[n]` in floats, bnn_ii.cpp:64. -/
def iaDiffTermNeg (E : Env K) (ia : Ia K) (v : Vec Int) (t n : Nat) : C K := do
  let q ← ia.m.rd t n
  let p ← ia.p.rd t n
  let x ← v.rd n
  .ok (E.fmul (E.fsub q p) (E.ofInt x))

/-- Column currents of the binary/ternary mappings: without parasitics the accumulation loop, with
parasitics `par_solver_->compute_currents(vp, vm, tmp, ms, n)`, where `ms` is the row count passed
to the solver. -/
def colCurrents (E : Env K) (cfg : Cfg K) (c : Core K) (term : Nat → Nat → C K) (vp : Vec Int)
    (vm : Option (Vec Int)) (tmp : Vec K) (m n : Nat) : C (Vec K) :=
  if cfg.parasitics then
    match c.par with
    | none => .error .nullDeref
    | some s => computeCurrents E s vp vm m n
  else accG (faddC E) m n term tmp

/-- `MapperBnnI::a_mvm`, bnn_i.cpp:48-71. -/
def aMvmBnnI (E : Env K) (cfg : Cfg K) (c : Core K) (a : Aux K) (res vec : Vec Int) (m n : Nat)
    (l : String) : C (Aux K × Vec Int) := do
  let v ← encBnn1 n vec a.vdP
  let t ← colCurrents E cfg c (iaDiffTerm E c.ia v) v none (a.tmp.fill 0) m n
  let sc ← E.fdiv 2 c.iMM
  let r ← convVec E cfg c.adc a.hists t m sc 0 l
  let res ← updG m (fun i x => do
    let y ← r.2.rd i
    let s ← c.gd.sumW.rd i
    E.iaddf x (E.fsub y (E.ofInt s))) res
  .ok ({ a with vdP := v, tmp := r.2, hists := r.1 }, res)

/-- `MapperBnnII::a_mvm`, bnn_ii.cpp:52-76. -/
def aMvmBnnII (E : Env K) (cfg : Cfg K) (c : Core K) (a : Aux K) (res vec : Vec Int) (m n : Nat)
    (l : String) : C (Aux K × Vec Int) := do
  let v ← encBnn2 n vec a.vdP
  let t ← colCurrents E cfg c (iaDiffTermNeg E c.ia v) v none (a.tmp.fill 0) m n
  let sc ← E.fdiv 2 c.iMM
  let r ← convVec E cfg c.adc a.hists t m sc 0 l
  let res ← updG m (fun i x => do
    let y ← r.2.rd i
    let s ← c.gd.sumW.rd i
    E.iaddf x (E.fadd y (E.ofInt s))) res
  .ok ({ a with vdP := v, tmp := r.2, hists := r.1 }, res)

/-- `MapperBnnIII::a_mvm` and `MapperBnnIV::a_mvm` up to the last loop, bnn_iii.cpp:72-107,
bnn_iv.cpp:72-107.  The two accumulations share one loop in C++; they touch different vectors and
are written one after the other here. -/
def bnn34Currents (E : Env K) (cfg : Cfg K) (c : Core K) (a : Aux K) (vec : Vec Int) (m n : Nat)
    (l : String) : C (Aux K × Int) := do
  let v ← encPMSum n vec a.vdP a.vdM
  let tp ← colCurrents E cfg c (iaTerm E c.ia.p v.1.1) v.1.1 none (a.tmpP.fill 0) m n
  let tm ← colCurrents E cfg c (iaTerm E c.ia.p v.1.2) v.1.2 none (a.tmpM.fill 0) m n
  let sc ← E.fdiv 2 c.iMM
  let ns ← negI v.2
  let rp ← convVec E cfg c.adc a.hists tp m sc (E.fmul (E.ofInt ns) cfg.hrs) l
  let rm ← convVec E cfg c.adc rp.1 tm m sc 0 l
  .ok ({ a with vdP := v.1.1, vdM := v.1.2, tmp := a.tmp.fill 0, tmpP := rp.2, tmpM := rm.2,
                hists := rm.1 }, v.2)

/-- `MapperBnnIII::a_mvm`, bnn_iii.cpp:69-112. -/
def aMvmBnnIII (E : Env K) (cfg : Cfg K) (c : Core K) (a : Aux K) (res vec : Vec Int) (m n : Nat)
    (l : String) : C (Aux K × Vec Int) := do
  let r ← bnn34Currents E cfg c a vec m n l
  let res ← updG m (fun i x => do
    let p ← r.1.tmpP.rd i
    let q ← r.1.tmpM.rd i
    E.iaddf x (E.fsub (E.fsub p q) (E.ofInt r.2))) res
  .ok (r.1, res)

/-- `MapperBnnIV::a_mvm`, bnn_iv.cpp:69-112. -/
def aMvmBnnIV (E : Env K) (cfg : Cfg K) (c : Core K) (a : Aux K) (res vec : Vec Int) (m n : Nat)
    (l : String) : C (Aux K × Vec Int) := do
  let r ← bnn34Currents E cfg c a vec m n l
  let res ← updG m (fun i x => do
    let p ← r.1.tmpP.rd i
    let q ← r.1.tmpM.rd i
    E.iaddf x (E.fadd (E.fsub q p) (E.ofInt r.2))) res
  .ok (r.1, res)

/-- `ia_p_[m][n] * vd_p_[n] + ia_m_[m][n] * vd_m_[n]`, bnn_v.cpp:80. -/
def iaBnn5Term (E : Env K) (ia : Ia K) (vp vm : Vec Int) (i j : Nat) : C K := do
  let p ← ia.p.rd i j
  let x ← vp.rd j
  let q ← ia.m.rd i j
  let y ← vm.rd j
  .ok (E.fadd (E.fmul p (E.ofInt x)) (E.fmul q (E.ofInt y)))

/-- `MapperBnnV::a_mvm`, bnn_v.cpp:60-94. -/
def aMvmBnnV (E : Env K) (cfg : Cfg K) (c : Core K) (a : Aux K) (res vec : Vec Int) (m n : Nat)
    (l : String) : C (Aux K × Vec Int) := do
  let v ← encPM n vec a.vdP a.vdM
  let t ← colCurrents E cfg c (iaBnn5Term E c.ia v.1 v.2) v.1 (some v.2) (a.tmp.fill 0) m n
  let sc ← E.fdiv 2 c.iMM
  let nn ← negI n
  let r ← convVec E cfg c.adc a.hists t m sc (E.fmul (E.ofInt nn) cfg.hrs) l
  let res ← updG m (fun i x => do
    let y ← r.2.rd i
    E.iaddf x (E.fsub y (E.ofInt n))) res
  .ok ({ a with vdP := v.1, vdM := v.2, tmp := r.2, hists := r.1 }, res)

/-- The float version of `quadTerm`, bnn_vi.cpp:81-82, tnn_i.cpp:86-87. -/
def iaQuadTerm (E : Env K) (ia : Ia K) (vp vm : Vec Int) (i j : Nat) : C K := do
  let p ← ia.p.rd i j
  let q ← ia.m.rd i j
  let x ← vp.rd j
  let y ← vm.rd j
  .ok (E.fsub (E.fsub (E.fadd (E.fmul p (E.ofInt x)) (E.fmul q (E.ofInt y)))
    (E.fmul q (E.ofInt x))) (E.fmul p (E.ofInt y)))

/-- `for (m) res[m] += tmp[m];` with integer `res`. -/
def addTmp (E : Env K) (t : Vec K) (m : Nat) (res : Vec Int) : C (Vec Int) :=
  updG m (fun i x => do
    let y ← t.rd i
    E.iaddf x y) res

/-- `for (m) res[m] -= tmp[m];` with integer `res`. -/
def subTmp (E : Env K) (t : Vec K) (m : Nat) (res : Vec Int) : C (Vec Int) :=
  updG m (fun i x => do
    let y ← t.rd i
    E.isubf x y) res

/-- `MapperBnnVI::a_mvm`, bnn_vi.cpp:60-95. -/
def aMvmBnnVI (E : Env K) (cfg : Cfg K) (c : Core K) (a : Aux K) (res vec : Vec Int) (m n : Nat)
    (l : String) : C (Aux K × Vec Int) := do
  let v ← encPM n vec a.vdP a.vdM
  let t ← colCurrents E cfg c (iaQuadTerm E c.ia v.1 v.2) v.1 (some v.2) (a.tmp.fill 0) m n
  let sc ← E.fdiv 1 c.iMM
  let r ← convVec E cfg c.adc a.hists t m sc 0 l
  let res ← addTmp E r.2 m res
  .ok ({ a with vdP := v.1, vdM := v.2, tmp := r.2, hists := r.1 }, res)

end

end Acs
