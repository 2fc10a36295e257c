import Verif.Model.ReadDisturb

/-!
# The crossbar

cpp/src/xbar/crossbar.cpp.
-/

namespace Acs

/-- State of a `Crossbar` object, cpp/inc/xbar/crossbar.h:43-52. -/
structure Xbar (K : Type) where
  mapper : Mapper K
  rd : Option (Rd K)
  writes : Nat
  mvms : Nat
  consec : Nat
  refX : Nat
  refC : Nat

section
variable {K : Type} [Field K] [LinearOrder K] [IsStrictOrderedRing K] [FloorRing K]

/-- `rd_model_`, crossbar.cpp:22-24. -/
def optRd (E : Env K) (cfg : Cfg K) : C (Option (Rd K)) :=
  if cfg.readDisturb then do
    let r ← mkRd E cfg
    .ok (some r)
  else .ok none

/-- `Crossbar::Crossbar`, crossbar.cpp:15-26. -/
def mkXbar (E : Env K) (cfg : Cfg K) (rng : Nat) (hists : List (String × Hist K)) :
    C (Xbar K) := do
  let mp ← mkMapper E cfg rng hists
  let rd ← optRd E cfg
  .ok ⟨mp, rd, 0, 0, 0, 0, 0⟩

/-- `update[i][j] = (prev[i][j] == 1 && curr[i][j] == 0)`, crossbar.cpp:50-59. -/
def resetMat (cfg : Cfg K) (prev curr : Mat Int) : C (Mat Bool) :=
  updM cfg.R cfg.N (fun i j b => do
    let a ← prev.rd i j
    if a = 1 then do
      let c ← curr.rd i j
      if c = 0 then .ok true else .ok b
    else .ok b) (Mat.const cfg.R cfg.N false)

/-- The digital part of `Crossbar::write` with the bookkeeping of the read-disturb model,
crossbar.cpp:34-68. -/
def xWriteD (E : Env K) (cfg : Cfg K) (x : Xbar K) (mat : Vec Int) (m n : Nat) :
    C (Mapper K × Option (Rd K)) :=
  if cfg.readDisturb then do
    let mp ← dWrite E cfg x.mapper mat m n
    let up ← resetMat cfg x.mapper.core.gd.p mp.core.gd.p
    let um ← resetMat cfg x.mapper.core.gd.m mp.core.gd.m
    match x.rd with
    | none => .error .nullDeref
    | some rd => do
      let rd ← updateCycles rd up um
      let rd ← (if cfg.strategy = .cellBased then resetReads cfg rd else .ok rd)
      .ok (mp, some rd)
  else do
    let mp ← dWrite E cfg x.mapper mat m n
    .ok (mp, x.rd)

/-- `Crossbar::write`, crossbar.cpp:28-74. -/
def xWrite (E : Env K) (cfg : Cfg K) (x : Xbar K) (mat : Vec Int) (m n : Nat) : C (Xbar K) := do
  let r ← xWriteD E cfg x mat m n
  let mp ← (if cfg.digitalOnly then .ok r.1 else aWrite E cfg r.1 m n)
  .ok { x with mapper := mp, rd := r.2, writes := x.writes + 1, consec := 0 }

/-- The cells marked for a software refresh and their number, crossbar.cpp:131-145. -/
def lrsMat (cfg : Cfg K) (gd : Mat Int) (cnt : Nat) : C (Mat Bool × Nat) :=
  loop cfg.R (fun i st => loop cfg.N (fun j (st : Mat Bool × Nat) => do
    let g ← gd.rd i j
    if g = 1 then do
      let b ← st.1.wr i j true
      .ok (b, st.2 + 1)
    else .ok st) st) (Mat.const cfg.R cfg.N false, cnt)

/-- The `SOFTWARE` branch after a refresh was found necessary, crossbar.cpp:113-156. -/
def softwareRefresh (E : Env K) (cfg : Cfg K) (x : Xbar K) (rd : Rd K) : C (Xbar K) := do
  let c := x.mapper.core
  let p ← lrsMat cfg c.gd.p x.refC
  let q ← (if c.isDiff then lrsMat cfg c.gd.m p.2 else .ok (Mat.const cfg.R cfg.N false, p.2))
  let rd ← updateCycles rd p.1 q.1
  let mp ← aWrite E cfg x.mapper cfg.M cfg.N
  .ok { x with mapper := mp, rd := some rd, refX := x.refX + 1, refC := q.2, consec := 0 }

/-- The read-disturb part of `Crossbar::mvm`, crossbar.cpp:92-183; the counters are already
incremented. -/
def rdStep (E : Env K) (cfg : Cfg K) (x : Xbar K) (m n : Nat) : C (Xbar K) :=
  match cfg.strategy with
  | .off =>
    if cfg.updFreq = 0 then .error .modZero
    else if x.consec % cfg.updFreq = 0 then
      match x.rd with
      | none => .error .nullDeref
      | some rd => do
        let r ← rdUpdate E cfg x.mapper.core rd (fun _ _ => .ok x.consec) (fun _ _ => .ok x.consec)
        .ok { x with mapper := { x.mapper with core := r.1 }, rd := some r.2 }
    else .ok x
  | .software =>
    if cfg.updFreq = 0 then .error .modZero
    else if x.consec % cfg.updFreq = 0 then
      match x.rd with
      | none => .error .nullDeref
      | some rd => do
        let r ← rdUpdate E cfg x.mapper.core rd (fun _ _ => .ok x.consec) (fun _ _ => .ok x.consec)
        let rd := { r.2 with oob := r.2.oob || rdOob E (x.writes + x.refX) }
        let x := { x with mapper := { x.mapper with core := r.1 }, rd := some rd }
        if rdCheckSoftware E cfg rd x.consec (x.writes + x.refX) then softwareRefresh E cfg x rd
        else .ok x
    else .ok x
  | .cellBased =>
    match x.rd with
    | none => .error .nullDeref
    | some rd => do
      let rd ← updateReads cfg rd m n
      if cfg.updFreq = 0 then .error .modZero
      else if x.consec % cfg.updFreq = 0 then do
        let r ← rdUpdate E cfg x.mapper.core rd rd.rdP.rd rd.rdM.rd
        let s ← rdCellRefresh E cfg { x.mapper with core := r.1 } r.2
        .ok { x with mapper := s.1, rd := some s.2.1, refC := x.refC + s.2.2.toNat }
      else .ok { x with rd := some rd }

/-- `Crossbar::mvm`, crossbar.cpp:76-186.  `mat` is passed on to the mapper, which never reads it. -/
def xMvm (E : Env K) (cfg : Cfg K) (x : Xbar K) (res vec _mat : Vec Int) (m n : Nat) (l : String) :
    C (Xbar K × Vec Int) := do
  let x := { x with mvms := x.mvms + 1, consec := x.consec + 1 }
  if cfg.digitalOnly then do
    let r ← dMvm E cfg x.mapper.core x.mapper.aux res vec m n
    .ok ({ x with mapper := { x.mapper with aux := r.1 } }, r.2)
  else do
    let mp ← (if cfg.c2c then addC2C E cfg x.mapper m n else .ok x.mapper)
    let r ← aMvm E cfg mp.core mp.aux res vec m n l
    let mp := { mp with aux := r.1 }
    let mp ← (if cfg.c2c then removeC2C mp m n else .ok mp)
    let x := { x with mapper := mp }
    let x ← (if cfg.readDisturb then rdStep E cfg x m n else .ok x)
    .ok (x, r.2)

/-- `Crossbar::~Crossbar`, crossbar.cpp:188-248: with `verbose` every mode without a case in the
switch ends the program. -/
def destroyXbar (cfg : Cfg K) : C Unit :=
  if cfg.verbose then
    match cfg.mode with
    | .iDiffWDiff1 | .iDiffWDiff2 | .iOffsWDiff | .iTcWDiff | .iUintWDiff | .iUintWOffs => .ok ()
    | _ => .error .exited
  else .ok ()

end

end Acs
