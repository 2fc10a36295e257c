import Verif.Lemmas.RdHist
import Verif.Props.ExRd

/-! # Counters (C30, C31) -/

set_option linter.unusedSectionVars false

namespace Acs.Props

open Acs.Spec

section
variable {K : Type} [Field K] [LinearOrder K] [IsStrictOrderedRing K] [FloorRing K]
variable {E : Env K} {cfg : Cfg K} {x : Xbar K} {rd : Rd K} {t : List (Step K)} {h : List Op} {r k : Nat}

/-- C30.  After every history, in every mode, the write counter and the multiplication counter count the
accepted calls. -/
theorem C30_counts (hr : Runs E cfg h x) : x.writes = writesIn h ∧ x.mvms = mvmsIn h := runs_counts hr

example : ∃ x, Runs Ex.rdEnv (Ex.swCfg .bnn1) [Ex.mv, Ex.mv, Ex.mv, Ex.wOnes] x ∧
    (x.writes == 1 && x.mvms == 3) = true :=
  Ex.played [Ex.wOnes, Ex.mv, Ex.mv, Ex.mv] (fun x => x.writes == 1 && x.mvms == 3) (by decide +kernel)

/-- C30.  The counter of consecutive multiplications counts those since the last write or software
refresh, and the refresh counter counts the software refreshes. -/
theorem C30_consecutive (ht : Traced E cfg t x) :
    x.consec = mvmsSinceRenewal t ∧ x.refX = times softRefresh t := ⟨traced_consec ht, traced_refX ht⟩

/-- Every history has a trace, so the statements about traces are about all histories. -/
theorem C30_all_traced (hr : Runs E cfg h x) : ∃ t, calls t = h ∧ Traced E cfg t x := runs_traced hr

example : ∃ x, Runs Ex.rdEnv (Ex.swCfg .bnn1) [Ex.mv, Ex.mv, Ex.mv, Ex.mv, Ex.wOnes] x ∧
    (x.consec == 1 && x.refX == 1) = true :=
  Ex.played [Ex.wOnes, Ex.mv, Ex.mv, Ex.mv, Ex.mv] (fun x => x.consec == 1 && x.refX == 1) (by decide +kernel)

/-- C30.  Without the software mitigation nothing but a write restarts the counter. -/
theorem C30_no_software_refresh
    (hs : ¬(cfg.digitalOnly = false ∧ cfg.readDisturb = true ∧ cfg.strategy = .software))
    (hr : Runs E cfg h x) : x.refX = 0 ∧ x.consec = mvmsSinceWrite h := runs_no_refX hs hr

example : ∃ x, Runs Ex.rdEnv (Ex.rdCfg .bnn1) [Ex.mv, Ex.mv, Ex.wOnes, Ex.mv] x ∧
    (x.consec == 2 && x.refX == 0) = true :=
  Ex.played [Ex.mv, Ex.wOnes, Ex.mv, Ex.mv] (fun x => x.consec == 2 && x.refX == 0) (by decide +kernel)

/-- C30.  With cell-based mitigation the read counter of a cell counts the multiplications that read the
cell since the last write or the last refresh of the cell. -/
theorem C30_cell_reads (hrd : cfg.readDisturb = true) (hdo : cfg.digitalOnly = false)
    (hst : cfg.strategy = .cellBased) (ht : Traced E cfg t x) (hx : x.rd = some rd) (hr : r < cfg.R)
    (hk : k < cfg.N) :
    rd.rdP.get r k = readsSince cfg (fun s => RefreshP E cfg s r k) r k t ∧
    (cfg.mode.isDiff = true → rd.rdM.get r k = readsSince cfg (fun s => RefreshM E cfg s r k) r k t) :=
  traced_reads hrd hdo hst ht hx hr hk

example : ∃ x, Runs Ex.rdEnv (Ex.cbCfg .bnn1) [Ex.mv, Ex.mv, Ex.wNegs, Ex.mv, Ex.wOnes] x ∧
    (match x.rd with
      | some rd => rd.rdP.get 0 0 == 2 && rd.rdM.get 0 0 == 2
      | none => false) = true :=
  Ex.played [Ex.wOnes, Ex.mv, Ex.wNegs, Ex.mv, Ex.mv] (fun x => match x.rd with
      | some rd => rd.rdP.get 0 0 == 2 && rd.rdM.get 0 0 == 2
      | none => false) (by decide +kernel)

/-- C31, with the restriction that is missing in the claim (`hd`): the cycle counter of a cell is the
number of writes that switched the cell from LRS to HRS plus the number of refreshes of the cell — for
every cell of the first array, and for the cells of the second array in the differential mappings.
The full claim has no `hd`; it is false without it, see `C31_false_for_minus`. -/
theorem C31_cycles_partial (hok : CfgOk cfg) (hrd : cfg.readDisturb = true) (ht : Traced E cfg t x)
    (hx : x.rd = some rd) (hr : r < cfg.R) (hk : k < cfg.N) :
    rd.cycP.get r k = switched (fun w => encP cfg w (rowOf cfg r).2) (calls t) (rowOf cfg r).1 k +
      times (fun s => RefreshP E cfg s r k) t ∧
    (∀ _hd : cfg.mode.isDiff = true, rd.cycM.get r k =
      switched (fun w => encM cfg w (rowOf cfg r).2) (calls t) (rowOf cfg r).1 k +
        times (fun s => RefreshM E cfg s r k) t) := by
  obtain ⟨h1, h2⟩ := traced_cycles hok hrd ht hx hr hk
  refine ⟨h1, fun hd => ?_⟩
  rw [h2]
  congr 2
  funext s
  simp only [hd, true_and]

/-- Two writes that switch every cell, no refresh. -/
example : ∃ x, Runs Ex.rdEnv (Ex.cbCfg .bnn1) [Ex.mv, Ex.mv, Ex.wNegs, Ex.mv, Ex.wOnes] x ∧
    (match x.rd with
      | some rd => rd.cycP.get 0 0 == 1 && rd.cycM.get 0 0 == 0
      | none => false) = true :=
  Ex.played [Ex.wOnes, Ex.mv, Ex.wNegs, Ex.mv, Ex.mv] (fun x => match x.rd with
      | some rd => rd.cycP.get 0 0 == 1 && rd.cycM.get 0 0 == 0
      | none => false) (by decide +kernel)

/-- A refresh of every cell in LRS. -/
example : ∃ x, Runs Ex.rdEnv (Ex.swCfg .bnn1) [Ex.mv, Ex.mv, Ex.mv, Ex.wOnes] x ∧
    (match x.rd with
      | some rd => rd.cycP.get 0 0 == 1 && x.refX == 1
      | none => false) = true :=
  Ex.played [Ex.wOnes, Ex.mv, Ex.mv, Ex.mv] (fun x => match x.rd with
      | some rd => rd.cycP.get 0 0 == 1 && x.refX == 1
      | none => false) (by decide +kernel)

/-- C31.  In the mappings that are not differential the counter of a cell of the second array counts the
switching writes only, whatever is refreshed. -/
theorem C31_minus_counts_writes_only (hok : CfgOk cfg) (hrd : cfg.readDisturb = true)
    (hd : cfg.mode.isDiff = false) (ht : Traced E cfg t x) (hx : x.rd = some rd) (hr : r < cfg.R)
    (hk : k < cfg.N) :
    rd.cycM.get r k = switched (fun w => encM cfg w (rowOf cfg r).2) (calls t) (rowOf cfg r).1 k := by
  rw [(traced_cycles hok hrd ht hx hr hk).2]
  have : times (fun s => cfg.mode.isDiff = true ∧ RefreshM E cfg s r k) t = 0 := by
    have e : (fun s => cfg.mode.isDiff = true ∧ RefreshM E cfg s r k) = fun _ => False := by
      funext s; simp [hd]
    rw [e]
    clear ht
    induction t with
    | nil => rfl
    | cons s t ih => simp [times, ih]
  omega

end

/-- C31 is false without the restriction: a software refresh in `BNN_V` programs a cell of the second
array again — the cell is in LRS and its current changes — but its cycle counter stays at zero. -/
theorem C31_false_for_minus : ∃ (t : List (Step ℚ)) (x : Xbar ℚ) (rd : Rd ℚ),
    Traced Ex.rdEnv { Ex.swCfg .bnn5 with lrsNoise := 1 } t x ∧ x.rd = some rd ∧
    (∃ s ∈ t, s.post.mapper.core.ia.m.get 0 0 ≠ s.pre.mapper.core.ia.m.get 0 0 ∧
      RefreshM Ex.rdEnv { Ex.swCfg .bnn5 with lrsNoise := 1 } s 0 0) ∧
    rd.cycM.get 0 0 ≠
      switched (fun w => encM { Ex.swCfg .bnn5 with lrsNoise := 1 } w 0) (calls t) 0 0 +
        times (fun s => RefreshM Ex.rdEnv { Ex.swCfg .bnn5 with lrsNoise := 1 } s 0 0) t := by
  obtain ⟨x, x', r, h1, h2, h3⟩ := Ex.stepped (E := Ex.rdEnv) (c := { Ex.swCfg .bnn5 with lrsNoise := 1 })
    (res := Ex.res) (vec := Ex.vec) (mat := Ex.mat) (m := 2) (n := 3) (l := "")
    [Ex.wNegs, Ex.mv, Ex.mv] (fun x x' _ => x'.refX != x.refX && x.mapper.core.gd.m.get 0 0 == 1
      && x'.mapper.core.ia.m.get 0 0 != x.mapper.core.ia.m.get 0 0
      && x.rd.isSome && match x'.rd with
        | some rd => rd.cycM.get 0 0 == 0
        | none => false) (by decide +kernel)
  simp only [Bool.and_eq_true, bne_iff_ne, ne_eq, beq_iff_eq, Option.isSome_iff_exists] at h3
  obtain ⟨⟨⟨⟨h4, h5⟩, h6⟩, rd, h7⟩, h8⟩ := h3
  obtain ⟨t, _, ht⟩ := runs_traced h1
  cases hrd : x'.rd with
  | none => rw [hrd] at h8; cases h8
  | some rd' =>
    rw [hrd] at h8
    have h8 : rd'.cycM.get 0 0 = 0 := by simpa using h8
    have hm : RefreshM Ex.rdEnv { Ex.swCfg .bnn5 with lrsNoise := 1 }
        ⟨.mvm Ex.res Ex.vec Ex.mat 2 3 "", x, x'⟩ 0 0 := ⟨rd, h7, rfl, trivial, h5, h4⟩
    refine ⟨_, x', rd', .mvm ht h2, hrd, ⟨_, List.mem_cons_self, h6, hm⟩, ?_⟩
    have : times (fun s => RefreshM Ex.rdEnv { Ex.swCfg .bnn5 with lrsNoise := 1 } s 0 0)
        (⟨.mvm Ex.res Ex.vec Ex.mat 2 3 "", x, x'⟩ :: t) ≠ 0 := by
      simp only [times, if_pos hm]
      omega
    omega

end Acs.Props
