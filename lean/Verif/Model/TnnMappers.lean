import Verif.Model.BnnMappers

/-!
# Ternary mappings

cpp/src/mapping/tnn_mapper/tnn_i.cpp to tnn_v.cpp.
-/

namespace Acs

section
variable {K : Type}

/-- Split a `+1`/`0`/`-1` input, e.g. tnn_i.cpp:39-53. -/
def encTern (n : Nat) (vec vp vm : Vec Int) : C (Vec Int × Vec Int) :=
  loop n (fun i (st : Vec Int × Vec Int) => do
    let x ← vec.rd i
    if x = 1 then do
      let p ← st.1.wr i 1
      let q ← st.2.wr i 0
      .ok (p, q)
    else if x = -1 then do
      let q ← st.2.wr i 1
      let p ← st.1.wr i 0
      .ok (p, q)
    else if x = 0 then do
      let q ← st.2.wr i 0
      let p ← st.1.wr i 0
      .ok (p, q)
    else .error .aborted) (vp, vm)

/-- `MapperTnnI::d_mvm`, tnn_i.cpp:37-61. -/
def dMvmTnnI (c : Core K) (a : Aux K) (res vec : Vec Int) (m n : Nat) : C (Aux K × Vec Int) := do
  let v ← encTern n vec a.vdP a.vdM
  let res ← accG addI m n (quadTerm c.gd v.1 v.2) res
  .ok ({ a with vdP := v.1, vdM := v.2 }, res)

/-- `vd_p_[n] = (vec[n] != 0) ? 1 : 0`, tnn_ii.cpp:38-40 and 64-66. -/
def encNonzero (n : Nat) (vec v : Vec Int) : C (Vec Int) :=
  setG n (fun i => do
    let x ← vec.rd i
    .ok (if x ≠ 0 then 1 else 0)) v

/-- `vd_p_[n] = (vec[n] == -1) ? 1 : 0`, tnn_ii.cpp:48-50 and 85-87. -/
def encNegOne (n : Nat) (vec v : Vec Int) : C (Vec Int) :=
  setG n (fun i => do
    let x ← vec.rd i
    .ok (if x = -1 then 1 else 0)) v

/-- `((gd_p_[m][n] - gd_m_[m][n]) * v[n]) << 1`. -/
def diffTerm2 (strict : Bool) (gd : Gd) (v : Vec Int) (i j : Nat) : C Int := do
  let x ← diffTerm gd v i j
  shlI strict x 1

/-- `MapperTnnII::d_mvm`, tnn_ii.cpp:34-56. -/
def dMvmTnnII (E : Env K) (c : Core K) (a : Aux K) (res vec : Vec Int) (m n : Nat) :
    C (Aux K × Vec Int) := do
  let v ← encNonzero n vec a.vdP
  let res ← accG addI m n (diffTerm c.gd v) res
  let v ← encNegOne n vec v
  let res ← accG subI m n (diffTerm2 E.strict c.gd v) res
  .ok ({ a with vdP := v }, res)

/-- `vd_p_[n] = (vec[n] + 1) & 0b01`, tnn_iii.cpp:38-41 and 70-73. -/
def encBit0 (n : Nat) (vec v : Vec Int) : C (Vec Int) :=
  setG n (fun i => do
    let x ← vec.rd i
    let y ← addI x 1
    .ok (and32 y 1)) v

/-- `vd_p_[n] = ((vec[n] + 1) & 0b10) >> 1`, tnn_iii.cpp:49-52 and 93-96. -/
def encBit1 (n : Nat) (vec v : Vec Int) : C (Vec Int) :=
  setG n (fun i => do
    let x ← vec.rd i
    let y ← addI x 1
    shrI (and32 y 2) 1) v

/-- `MapperTnnIII::d_mvm`, tnn_iii.cpp:34-63. -/
def dMvmTnnIII (E : Env K) (c : Core K) (a : Aux K) (res vec : Vec Int) (m n : Nat) :
    C (Aux K × Vec Int) := do
  let v ← encBit0 n vec a.vdP
  let res ← accG addI m n (diffTerm c.gd v) res
  let v ← encBit1 n vec v
  let res ← accG addI m n (diffTerm2 E.strict c.gd v) res
  let res ← updG m (fun i r => do
    let s ← c.gd.sumW.rd i
    subI r s) res
  .ok ({ a with vdP := v }, res)

/-- `gd_p_[m][n] * (vd_p_[n] - vd_m_[n])` and `gd_m_[m][n] * (vd_p_[n] - vd_m_[n]) << 1`,
tnn_iv.cpp:68-69, tnn_v.cpp:74-75. -/
def tcTerms (strict : Bool) (gd : Gd) (vp vm : Vec Int) (i j : Nat) : C (Int × Int) := do
  let p ← gd.p.rd i j
  let x ← vp.rd j
  let y ← vm.rd j
  let d ← subI x y
  let a ← mulI p d
  let q ← gd.m.rd i j
  let e ← mulI q d
  let b ← shlI strict e 1
  .ok (a, b)

/-- `MapperTnnIV::d_mvm`, tnn_iv.cpp:40-72. -/
def dMvmTnnIV (E : Env K) (cfg : Cfg K) (c : Core K) (a : Aux K) (res vec : Vec Int) (m n : Nat) :
    C (Aux K × Vec Int) := do
  if cfg.split ≠ [1, 1] then .error .exited
  else
    let v ← encTern n vec a.vdP a.vdM
    let res ← accG addI m n (fun i j => do
      let t ← tcTerms E.strict c.gd v.1 v.2 i j
      subI t.1 t.2) res
    .ok ({ a with vdP := v.1, vdM := v.2 }, res)

/-- `MapperTnnV::d_mvm`, tnn_v.cpp:40-79.  `inp_sum` is an `int64_t`; the difference is converted back
to `int32_t` with wrap-around. -/
def dMvmTnnV (E : Env K) (cfg : Cfg K) (c : Core K) (a : Aux K) (res vec : Vec Int) (m n : Nat) :
    C (Aux K × Vec Int) := do
  if cfg.split ≠ [1, 1] then .error .exited
  else
    let sum ← inpSum n vec
    let v ← encTern n vec a.vdP a.vdM
    let res ← loop m (fun i res => do
      let res ← accRow addI i n (fun j => do
        let t ← tcTerms E.strict c.gd v.1 v.2 i j
        addI t.1 t.2) res
      updAt res i (fun r => do
        let d ← i64 (r - sum)
        .ok (wrap32 d))) res
    .ok ({ a with vdP := v.1, vdM := v.2 }, res)

end

section
variable {K : Type} [Field K] [LinearOrder K] [IsStrictOrderedRing K] [FloorRing K]

/-- `MapperTnnI::a_mvm`, tnn_i.cpp:63-100. -/
def aMvmTnnI (E : Env K) (cfg : Cfg K) (c : Core K) (a : Aux K) (res vec : Vec Int) (m n : Nat)
    (l : String) : C (Aux K × Vec Int) := do
  let v ← encTern n vec a.vdP a.vdM
  let t ← colCurrents E cfg c (iaQuadTerm E c.ia v.1 v.2) v.1 (some v.2) (a.tmp.fill 0) m n
  let sc ← E.fdiv 1 c.iMM
  let r ← convVec E cfg c.adc a.hists t m sc 0 l
  let res ← addTmp E r.2 m res
  .ok ({ a with vdP := v.1, vdM := v.2, tmp := r.2, hists := r.1 }, res)

/-- `MapperTnnII::a_mvm`, tnn_ii.cpp:58-104. -/
def aMvmTnnII (E : Env K) (cfg : Cfg K) (c : Core K) (a : Aux K) (res vec : Vec Int) (m n : Nat)
    (l : String) : C (Aux K × Vec Int) := do
  let v ← encNonzero n vec a.vdP
  let t ← colCurrents E cfg c (iaDiffTerm E c.ia v) v none (a.tmp.fill 0) m n
  let sc ← E.fdiv 1 c.iMM
  let r ← convVec E cfg c.adc a.hists t m sc 0 l
  let res ← addTmp E r.2 m res
  let v ← encNegOne n vec v
  let t ← colCurrents E cfg c (iaDiffTerm E c.ia v) v none (r.2.fill 0) m n
  let sc ← E.fdiv 2 c.iMM
  let r ← convVec E cfg c.adc r.1 t m sc 0 l
  let res ← subTmp E r.2 m res
  .ok ({ a with vdP := v, tmp := r.2, hists := r.1 }, res)

/-- `MapperTnnIII::a_mvm`, tnn_iii.cpp:65-118. -/
def aMvmTnnIII (E : Env K) (cfg : Cfg K) (c : Core K) (a : Aux K) (res vec : Vec Int) (m n : Nat)
    (l : String) : C (Aux K × Vec Int) := do
  let v ← encBit0 n vec a.vdP
  let t ← colCurrents E cfg c (iaDiffTerm E c.ia v) v none (a.tmp.fill 0) m n
  let sc ← E.fdiv 1 c.iMM
  let r ← convVec E cfg c.adc a.hists t m sc 0 l
  let res ← addTmp E r.2 m res
  let v ← encBit1 n vec v
  let t ← colCurrents E cfg c (iaDiffTerm E c.ia v) v none (r.2.fill 0) m n
  let sc ← E.fdiv 2 c.iMM
  let r ← convVec E cfg c.adc r.1 t m sc 0 l
  let res ← addTmp E r.2 m res
  let res ← updG m (fun i x => do
    let s ← c.gd.sumW.rd i
    subI x s) res
  .ok ({ a with vdP := v, tmp := r.2, hists := r.1 }, res)

/-- `for (m) acc[m] += t[m];` on floats. -/
def faddVec (E : Env K) (t : Vec K) (m : Nat) (acc : Vec K) : C (Vec K) :=
  updG m (fun i x => do
    let y ← t.rd i
    .ok (E.fadd x y)) acc

/-- `for (m) acc[m] -= t[m];` on floats. -/
def fsubVec (E : Env K) (t : Vec K) (m : Nat) (acc : Vec K) : C (Vec K) :=
  updG m (fun i x => do
    let y ← t.rd i
    .ok (E.fsub x y)) acc

/-- One of the four ideal-wire steps of `MapperTnnIV::a_mvm` and `MapperTnnV::a_mvm`, tnn_iv.cpp:112-160,
tnn_v.cpp:118-165: clear `tmp_out_`, accumulate `A * v`, convert. -/
def tcStep (E : Env K) (cfg : Cfg K) (c : Core K) (A : Mat K) (v : Vec Int) (m n : Nat)
    (scale off : K) (l : String) (tmp : Vec K) (hs : List (String × Hist K)) :
    C (List (String × Hist K) × Vec K) := do
  let t ← accG (faddC E) m n (iaTerm E A v) (tmp.fill 0)
  convVec E cfg c.adc hs t m scale off l

/-- One of the two solver steps, tnn_iv.cpp:164-172 and 179-187, tnn_v.cpp:168-176 and 183-191: solve
for `2 * m` columns, split into LSB and MSB currents, convert both.  Returns the histograms,
`tmp_out_`, `tmp_out_lsb_`, `tmp_out_msb_`. -/
def tcSolve (E : Env K) (cfg : Cfg K) (c : Core K) (v : Vec Int) (m n : Nat) (s1 s2 off : K)
    (l : String) (lsb msb : Vec K) (hs : List (String × Hist K)) :
    C (List (String × Hist K) × Vec K × Vec K × Vec K) := do
  match c.par with
  | none => .error .nullDeref
  | some s => do
    let t ← computeCurrents E s v none (2 * m) n
    let lsb ← setG m (fun i => t.rd (2 * i)) lsb
    let msb ← setG m (fun i => t.rd (2 * i + 1)) msb
    let r1 ← convVec E cfg c.adc hs lsb m s1 off l
    let r2 ← convVec E cfg c.adc r1.1 msb m s2 0 l
    .ok (r2.1, t, r1.2, r2.2)

/-- `MapperTnnIV::a_mvm`, tnn_iv.cpp:74-197. -/
def aMvmTnnIV (E : Env K) (cfg : Cfg K) (c : Core K) (a : Aux K) (res vec : Vec Int) (m n : Nat)
    (l : String) : C (Aux K × Vec Int) := do
  if cfg.split ≠ [1, 1] then .error .exited
  else
    let sum ← inpSum n vec
    let v ← encTern n vec a.vdP a.vdM
    let corr := E.fmul (E.ofInt sum) cfg.hrs
    let s1 ← E.fdiv 1 c.iMM
    let s2 ← E.fdiv 2 c.iMM
    let h ← E.fdiv corr 2
    let h' ← E.fdiv (-corr) 2
    let fp := a.tmpFp.fill 0
    if cfg.parasitics then do
      let r ← tcSolve E cfg c v.1 m n s1 s2 h l a.tmpLsb a.tmpMsb a.hists
      let fp ← faddVec E r.2.2.1 m fp
      let fp ← fsubVec E r.2.2.2 m fp
      let r ← tcSolve E cfg c v.2 m n s1 s2 h' l r.2.2.1 r.2.2.2 r.1
      let fp ← fsubVec E r.2.2.1 m fp
      let fp ← faddVec E r.2.2.2 m fp
      let res ← addTmp E fp m res
      .ok ({ a with vdP := v.1, vdM := v.2, tmpFp := fp, tmp := r.2.1, tmpLsb := r.2.2.1,
                    tmpMsb := r.2.2.2, hists := r.1 }, res)
    else do
      let r ← tcStep E cfg c c.ia.p v.1 m n s1 h l a.tmp a.hists
      let fp ← faddVec E r.2 m fp
      let r ← tcStep E cfg c c.ia.p v.2 m n s1 h' l r.2 r.1
      let fp ← fsubVec E r.2 m fp
      let r ← tcStep E cfg c c.ia.m v.1 m n s2 0 l r.2 r.1
      let fp ← fsubVec E r.2 m fp
      let r ← tcStep E cfg c c.ia.m v.2 m n s2 0 l r.2 r.1
      let fp ← faddVec E r.2 m fp
      let res ← addTmp E fp m res
      .ok ({ a with vdP := v.1, vdM := v.2, tmpFp := fp, tmp := r.2, hists := r.1 }, res)

/-- `MapperTnnV::a_mvm`, tnn_v.cpp:81-202. -/
def aMvmTnnV (E : Env K) (cfg : Cfg K) (c : Core K) (a : Aux K) (res vec : Vec Int) (m n : Nat)
    (l : String) : C (Aux K × Vec Int) := do
  if cfg.split ≠ [1, 1] then .error .exited
  else
    let sum ← inpSum n vec
    let v ← encTern n vec a.vdP a.vdM
    let s3 ← i64 (3 * sum)
    let corr := E.fmul (E.ofInt s3) cfg.hrs
    let s1 ← E.fdiv 1 c.iMM
    let s2 ← E.fdiv 2 c.iMM
    let fp := a.tmpFp.fill 0
    let fin : Vec K → C (Vec Int) := fun fp => loop m (fun i res => do
      let y ← fp.rd i
      let res ← updAt res i (fun x => E.iaddf x y)
      updAt res i (fun x => do
        let d ← i64 (x - sum)
        .ok (wrap32 d))) res
    if cfg.parasitics then do
      let r ← tcSolve E cfg c v.1 m n s1 s2 0 l a.tmpLsb a.tmpMsb a.hists
      let fp ← faddVec E r.2.2.1 m fp
      let fp ← faddVec E r.2.2.2 m fp
      let r ← tcSolve E cfg c v.2 m n s1 s2 corr l r.2.2.1 r.2.2.2 r.1
      let fp ← fsubVec E r.2.2.1 m fp
      let fp ← fsubVec E r.2.2.2 m fp
      let res ← fin fp
      .ok ({ a with vdP := v.1, vdM := v.2, tmpFp := fp, tmp := r.2.1, tmpLsb := r.2.2.1,
                    tmpMsb := r.2.2.2, hists := r.1 }, res)
    else do
      let r ← tcStep E cfg c c.ia.p v.1 m n s1 0 l a.tmp a.hists
      let fp ← faddVec E r.2 m fp
      let r ← tcStep E cfg c c.ia.p v.2 m n s1 corr l r.2 r.1
      let fp ← fsubVec E r.2 m fp
      let r ← tcStep E cfg c c.ia.m v.1 m n s2 0 l r.2 r.1
      let fp ← faddVec E r.2 m fp
      let r ← tcStep E cfg c c.ia.m v.2 m n s2 0 l r.2 r.1
      let fp ← fsubVec E r.2 m fp
      let res ← fin fp
      .ok ({ a with vdP := v.1, vdM := v.2, tmpFp := fp, tmp := r.2, hists := r.1 }, res)

/-! ## Dispatch -/

/-- The virtual call `mapper_->d_mvm(...)`. -/
def dMvm (E : Env K) (cfg : Cfg K) (c : Core K) (a : Aux K) (res vec : Vec Int) (m n : Nat) :
    C (Aux K × Vec Int) :=
  match c.mode with
  | .iDiffWDiff1 | .iDiffWDiff2 => dMvmIntI E cfg c a res vec m n
  | .iOffsWDiff => dMvmIntII E cfg c a res vec m n
  | .iTcWDiff => dMvmIntIII E cfg c a res vec m n
  | .iUintWDiff => dMvmIntIV E cfg c a res vec m n
  | .iUintWOffs => dMvmIntV E cfg c a res vec m n
  | .bnn1 => dMvmBnnI c a res vec m n
  | .bnn2 => dMvmBnnII c a res vec m n
  | .bnn3 => dMvmBnnIII c a res vec m n
  | .bnn4 => dMvmBnnIV c a res vec m n
  | .bnn5 => dMvmBnnV E c a res vec m n
  | .bnn6 => dMvmBnnVI c a res vec m n
  | .tnn1 => dMvmTnnI c a res vec m n
  | .tnn2 => dMvmTnnII E c a res vec m n
  | .tnn3 => dMvmTnnIII E c a res vec m n
  | .tnn4 => dMvmTnnIV E cfg c a res vec m n
  | .tnn5 => dMvmTnnV E cfg c a res vec m n

/-- The virtual call `mapper_->a_mvm(...)`. -/
def aMvm (E : Env K) (cfg : Cfg K) (c : Core K) (a : Aux K) (res vec : Vec Int) (m n : Nat)
    (l : String) : C (Aux K × Vec Int) :=
  match c.mode with
  | .iDiffWDiff1 | .iDiffWDiff2 => aMvmIntI E cfg c a res vec m n l
  | .iOffsWDiff => aMvmIntII E cfg c a res vec m n l
  | .iTcWDiff => aMvmIntIII E cfg c a res vec m n l
  | .iUintWDiff => aMvmIntIV E cfg c a res vec m n l
  | .iUintWOffs => aMvmIntV E cfg c a res vec m n l
  | .bnn1 => aMvmBnnI E cfg c a res vec m n l
  | .bnn2 => aMvmBnnII E cfg c a res vec m n l
  | .bnn3 => aMvmBnnIII E cfg c a res vec m n l
  | .bnn4 => aMvmBnnIV E cfg c a res vec m n l
  | .bnn5 => aMvmBnnV E cfg c a res vec m n l
  | .bnn6 => aMvmBnnVI E cfg c a res vec m n l
  | .tnn1 => aMvmTnnI E cfg c a res vec m n l
  | .tnn2 => aMvmTnnII E cfg c a res vec m n l
  | .tnn3 => aMvmTnnIII E cfg c a res vec m n l
  | .tnn4 => aMvmTnnIV E cfg c a res vec m n l
  | .tnn5 => aMvmTnnV E cfg c a res vec m n l

end

end Acs
