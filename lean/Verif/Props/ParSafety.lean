import Verif.Props.Parasitics

/-!
# Memory accesses of the wire-resistance solver
-/

namespace Acs.Props

open Finset Spec

variable {K : Type} [Field K] [LinearOrder K] [IsStrictOrderedRing K] [FloorRing K]
variable {E : Env K} {cfg : Cfg K} {mat vec res : Vec Int} {m n k : Nat} {l : String}
variable {x : Xbar K} {h : List Op}

/-! ## C43: the solver stays inside its arrays -/

/-- C43 for writes, as stated. -/
def WiredWriteClaim : Prop := ∀ (E : Env ℚ) (cfg : Cfg ℚ) (h : List Op) (x : Xbar ℚ) (mat : Vec Int)
  (m n : Nat), cfg.digitalOnly = false → cfg.parasitics = true → CfgOk cfg → Runs E cfg h x →
  Accepted cfg m n → m * n ≤ mat.size → xWrite E cfg x mat m n ≠ .error .oob

/-- C43 for multiplications, as stated. -/
def WiredMvmClaim : Prop := ∀ (E : Env ℚ) (cfg : Cfg ℚ) (h : List Op) (x : Xbar ℚ)
  (res vec mat : Vec Int) (m n : Nat) (l : String), cfg.digitalOnly = false → cfg.parasitics = true →
  CfgOk cfg → Runs E cfg h x → Accepted cfg m n → m ≤ res.size → n ≤ vec.size →
  xMvm E cfg x res vec mat m n l ≠ .error .oob

theorem Ex.pcfg_ok (md : Mode) : CfgOk (Ex.pcfg md) := by
  cases md <;> simp [CfgOk, Ex.pcfg, Ex.acfg, Ex.cfg, Mode.isInt, Mode.family]

/-- BNN_VI with wires and software refreshes. -/
def Ex.pcfgSw : Cfg ℚ := { Ex.swCfg .bnn6 with
  parasitics := true
  wRes := 1000000 }

/-- In the mappings with two word lines per input a matrix that uses more than half of the columns is
accepted and written past the end of the conductance matrix. -/
theorem C43_false_write_lines (md : Mode) (hmd : md = .bnn5 ∨ md = .bnn6 ∨ md = .tnn1) :
    ∃ x, Runs Ex.env (Ex.pcfg md) [] x ∧ Accepted (Ex.pcfg md) 2 3 ∧
      xWrite Ex.env (Ex.pcfg md) x Ex.mat 2 3 = .error .oob := by
  obtain ⟨x, h1, h2⟩ := Ex.built (E := Ex.env) (c := Ex.pcfg md)
    (fun x => Ex.failsWith (xWrite Ex.env (Ex.pcfg md) x Ex.mat 2 3) .oob)
    (by rcases hmd with rfl | rfl | rfl <;> decide +kernel)
  exact ⟨x, h1, ⟨le_refl 2, le_refl 3, by decide⟩, Ex.failsWith_spec h2⟩

theorem C43_false_write : ¬WiredWriteClaim := by
  intro hc
  obtain ⟨x, h1, h2, h3⟩ := C43_false_write_lines .bnn6 (by decide)
  exact hc _ _ _ _ _ _ _ rfl rfl (Ex.pcfg_ok _) h1 h2 (by decide) h3

/-- A multiplication before the first write reads a conductance matrix that does not exist. -/
theorem C43_false_mvm_unwritten : ∃ x, Runs Ex.env (Ex.pcfg .bnn3) [] x ∧
    xMvm Ex.env (Ex.pcfg .bnn3) x Ex.res Ex.vec Ex.mat 2 3 "" = .error .oob := by
  obtain ⟨x, h1, h2⟩ := Ex.built (E := Ex.env) (c := Ex.pcfg .bnn3)
    (fun x => Ex.failsWith (xMvm Ex.env (Ex.pcfg .bnn3) x Ex.res Ex.vec Ex.mat 2 3 "") .oob)
    (by decide +kernel)
  exact ⟨x, h1, Ex.failsWith_spec h2⟩

/-- A multiplication with more rows than the latest write reads past the end of the currents, even if
these rows were written before. -/
theorem C43_false_mvm_rows : ∃ x, Runs Ex.env (Ex.pcfg .bnn3) [.write Ex.mat 1 3, .write Ex.mat 2 3] x ∧
    xMvm Ex.env (Ex.pcfg .bnn3) x Ex.res Ex.vec Ex.mat 2 3 "" = .error .oob := by
  obtain ⟨x, h1, h2⟩ := Ex.played (E := Ex.env) (c := Ex.pcfg .bnn3) [.write Ex.mat 2 3, .write Ex.mat 1 3]
    (fun x => Ex.failsWith (xMvm Ex.env (Ex.pcfg .bnn3) x Ex.res Ex.vec Ex.mat 2 3 "") .oob)
    (by decide +kernel)
  exact ⟨x, h1, Ex.failsWith_spec h2⟩

/-- The result vector of the solver has `M` entries.  The integer mappings with several slices and
TNN_IV and TNN_V need more than one entry per row: multiplying with the matrix that was just written
writes past its end. -/
theorem C43_false_mvm_taps (md : Mode) (hmd : md = .iDiffWDiff1 ∨ md = .iDiffWDiff2 ∨ md = .iOffsWDiff ∨
      md = .iUintWDiff ∨ md = .iUintWOffs ∨ md = .tnn4 ∨ md = .tnn5) :
    ∃ x, Runs Ex.env (Ex.pcfg md) [.write Ex.mat 2 3] x ∧
      xMvm Ex.env (Ex.pcfg md) x Ex.res (Vec.ofList [1, 1, 1]) Ex.mat 2 3 "" = .error .oob := by
  obtain ⟨x, h1, h2⟩ := Ex.wrote (E := Ex.env) (c := Ex.pcfg md) (mat := Ex.mat) (m := 2) (n := 3)
    (fun x => Ex.failsWith (xMvm Ex.env (Ex.pcfg md) x Ex.res (Vec.ofList [1, 1, 1]) Ex.mat 2 3 "") .oob)
    (by rcases hmd with rfl | rfl | rfl | rfl | rfl | rfl | rfl <;> decide +kernel)
  exact ⟨x, h1, Ex.failsWith_spec h2⟩

/-- A software refresh rewrites all `N` columns: in a mapping with two word lines per input it leaves the
conductance matrix, whatever the size of the matrix in use. -/
theorem C43_false_refresh : ∃ x, Runs Ex.rdEnv Ex.pcfgSw
      [.mvm Ex.res Ex.vec Ex.mat 2 1 "", .mvm Ex.res Ex.vec Ex.mat 2 1 "", .write Ex.mat 2 1] x ∧
    xMvm Ex.rdEnv Ex.pcfgSw x Ex.res Ex.vec Ex.mat 2 1 "" = .error .oob := by
  obtain ⟨x, h1, h2⟩ := Ex.played (E := Ex.rdEnv) (c := Ex.pcfgSw)
    [.write Ex.mat 2 1, .mvm Ex.res Ex.vec Ex.mat 2 1 "", .mvm Ex.res Ex.vec Ex.mat 2 1 ""]
    (fun x => Ex.failsWith (xMvm Ex.rdEnv Ex.pcfgSw x Ex.res Ex.vec Ex.mat 2 1 "") .oob)
    (by decide +kernel)
  exact ⟨x, h1, Ex.failsWith_spec h2⟩

theorem C43_false_mvm : ¬WiredMvmClaim := by
  intro hc
  obtain ⟨x, h1, h2⟩ := C43_false_mvm_taps .tnn4 (by decide)
  exact hc _ _ _ _ _ _ _ _ _ _ rfl rfl (Ex.pcfg_ok _) h1 ⟨by decide, by decide, by decide⟩ (by decide) (by decide) h2

/-- C43 for writes, proved part: if the word lines of the matrix fit into the crossbar, a write of
accepted size in any reachable state stays inside all arrays.
Missing: mappings with two word lines per input and more than `N / 2` columns, where it is false
(`C43_false_write_lines`). -/
theorem C43_write_safe_partial (hok : CfgOk cfg) (hr : Runs E cfg h x) (hd : Accepted cfg m n)
    (hN : 0 < cfg.N) (hlines : n * lines cfg.mode ≤ cfg.N) (hbuf : m * n ≤ mat.size) :
    xWrite E cfg x mat m n ≠ .error .oob ∧ xWrite E cfg x mat m n ≠ .error .nullDeref := by
  have hs := sat_xWrite (F := fun e => e ≠ .oob ∧ e ≠ .nullDeref) (fun e h1 h2 => ⟨h1, h2⟩)
    (runs_shape hr) (Fits.mk' fun _ => ⟨hd.1, hd.2.1, cfgOk_S_pos hok⟩) (fun _ => hbuf)
    (fun _ _ _ => ⟨hN, hlines, cfgOk_S_pos hok⟩)
  constructor <;> intro h <;> rw [h] at hs
  exacts [hs.1 rfl, hs.2 rfl]

/-- C43 for multiplications, proved part: at most as many rows as the latest write, the currents the
solver returns fit into its result vector, the word lines fit into the crossbar, and a software refresh
(which rewrites all columns) occurs only with one word line per input.
Missing: the other cases, where it is false (`C43_false_mvm_unwritten`, `C43_false_mvm_rows`,
`C43_false_mvm_taps`, `C43_false_refresh`), and ADC profiling. -/
theorem C43_mvm_safe_partial (hok : CfgOk cfg) (hq : cfg.adcProfile = false)
    (hr : Runs E cfg h x) (hd : Accepted cfg m n) (hN : 0 < cfg.N)
    (hrows : lastRows h = some k) (hk : m ≤ k) (hkM : k ≤ cfg.M)
    (hlines : n * lines cfg.mode ≤ cfg.N) (htaps : taps cfg m ≤ cfg.M)
    (hsw : cfg.readDisturb = true → cfg.strategy = .software → lines cfg.mode = 1)
    (hres : m ≤ res.size) (hvec : n ≤ vec.size) :
    xMvm E cfg x res vec mat m n l ≠ .error .oob ∧
    xMvm E cfg x res vec mat m n l ≠ .error .nullDeref := by
  have hs := sat_xMvm (F := fun e => e ≠ .oob ∧ e ≠ .nullDeref) (mat := mat) (l := l)
    (fun e h1 h2 => ⟨h1, h2⟩) (runs_shape hr) (fun _ => ⟨hd.1, hd.2.1, cfgOk_S_pos hok⟩)
    (fun _ => hres) (fun _ => hvec) (fun _ hdo => ⟨hq, fun hp => ⟨hlines, htaps,
      (runs_wired hdo hp hr hrows hkM).mono hk, fun h1 h2 => ⟨hN, hsw h1 h2⟩⟩⟩)
  constructor <;> intro h <;> rw [h] at hs
  exacts [hs.1 rfl, hs.2 rfl]

/-- A multiplication on one row after a write of two, in every mapping. -/
example (md : Mode) (hmd : md ≠ .iTcWDiff) : ∃ x, Runs Ex.env (Ex.pcfgL md) [.write Ex.mat 2 3] x ∧
    CfgOk (Ex.pcfgL md) ∧ lastRows [.write Ex.mat 2 3] = some 2 ∧ 3 * lines (Ex.pcfgL md).mode ≤ (Ex.pcfgL md).N ∧
    taps (Ex.pcfgL md) 1 ≤ (Ex.pcfgL md).M ∧ Accepted (Ex.pcfgL md) 1 3 := by
  obtain ⟨_, x, s, e1, e2, h1, h2, h3, h4⟩ := Ex.ready md hmd 1000000 (.inl rfl)
  refine ⟨x, h1, ?_, rfl, ?_, ?_, by show (1 : Nat) ≤ 4; decide, by show (3 : Nat) ≤ 6; decide, by decide⟩
  · cases md <;> simp [CfgOk, Ex.pcfgL, Ex.pcfg, Ex.acfg, Ex.cfg, Mode.isInt, Mode.family]
  · cases md <;> decide
  · cases md <;> decide

end Acs.Props
