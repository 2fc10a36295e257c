import Verif.Lemmas.NearRd
import Verif.Props.Noise
import Verif.Props.Disturb

/-! # Results of a disturbed crossbar (C64) -/

set_option linter.unusedSectionVars false

namespace Acs.Props

open Finset Spec

section
variable {K : Type} [Field K] [LinearOrder K] [IsStrictOrderedRing K] [FloorRing K]
variable {E : Env K} {cfg : Cfg K} {h : List Op} {x x' : Xbar K}
variable {res vec mat r : Vec Int} {m n w : Nat} {ε : K} {l : String}

/-- C36 in every state, for any update frequency: cells only change when an update is due, and then they are brought back
into the band.  As in `C36_within_tolerance_partial`, variation in LRS is excluded (`hn`), which the claim does not do. -/
theorem C36_every_state_partial {r k : Nat} (hE : ExactArith E) (hok : CfgOk cfg) (hi : cfg.mode.isInt = false)
    (hdo : cfg.digitalOnly = false) (hrd : cfg.readDisturb = true) (hst : cfg.strategy = .cellBased)
    (hn : cfg.lrsNoise ≤ 0) (ht : 0 ≤ cfg.tol) (hl : 0 ≤ cfg.lrs) (hr : Runs E cfg h x)
    (h1 : r < cfg.R) (h2 : k < cfg.N) :
    (x.mapper.core.gd.p.get r k = 1 → (1 - cfg.tol) * cfg.lrs ≤ x.mapper.core.ia.p.get r k ∧
      x.mapper.core.ia.p.get r k ≤ (1 + cfg.tol) * cfg.lrs) ∧
    (x.mapper.core.gd.m.get r k = 1 → (1 - cfg.tol) * cfg.lrs ≤ x.mapper.core.ia.m.get r k ∧
      x.mapper.core.ia.m.get r k ≤ (1 + cfg.tol) * cfg.lrs) := by
  have hh := runs_band hok hi hdo hrd hst hr
  have ho := runs_origCur hok hi hdo hr
  have nom : (1 - cfg.tol) * cfg.lrs ≤ cfg.lrs ∧ cfg.lrs ≤ (1 + cfg.tol) * cfg.lrs := by
    have := mul_nonneg ht hl
    constructor <;> nlinarith
  have key : ∀ y, Varied E cfg.lrsNoise cfg.lrs y ∨ ¬OutOfBand E cfg y →
      (1 - cfg.tol) * cfg.lrs ≤ y ∧ y ≤ (1 + cfg.tol) * cfg.lrs := by
    rintro y (hv | hv)
    · unfold Varied at hv
      rw [if_pos hn] at hv
      rw [hv]; exact nom
    · rw [outOfBand_exact hE, not_or, not_lt, not_lt] at hv
      exact hv
  have prog : ∀ y, Programmed E cfg 1 y → Varied E cfg.lrsNoise cfg.lrs y := by
    rintro y ⟨_, hy⟩
    have e : cfg.hrs + ((1 : Int) : K) * (cfg.lrs - cfg.hrs) = cfg.lrs := by push_cast; ring
    rw [e] at hy
    exact hy
  have g1 := runs_gdP hok hr r k
  have g2 := runs_gdM hok hr r k
  rw [rowOf_bin hi] at g1 g2
  refine ⟨fun hg => key _ ?_, fun hg => key _ ?_⟩
  · rcases hh.p r k h1 h2 with h4 | ⟨_, h4⟩
    · have h3 := set_programmed hE hi (ho.p r k)
      rw [hg] at h3
      refine Or.inl (prog _ (h4 ▸ h3.resolve_right fun h5 => ?_))
      rw [g1, cellAfter_none h5.1] at hg
      cases hg
    · exact h4
  · rcases hh.m r k h1 h2 with h4 | ⟨_, _, h4⟩
    · by_cases hb : cfg.mode = .bnn3 ∨ cfg.mode = .bnn4
      · rw [gdM_bnn34 hok hb hr] at hg; cases hg
      · have h3 := set_programmed hE hi (ho.m (by rw [not_or] at hb; exact hb) r k)
        rw [hg] at h3
        refine Or.inl (prog _ (h4 ▸ h3.resolve_right fun h5 => ?_))
        rw [g2, cellAfter_none h5.1] at hg
        cases hg
    · exact h4

/-- With updates after every second multiplication, a cell is attenuated but within the band. -/
example : ∃ x, Runs Ex.rdEnv { Ex.cbCfg .bnn1 with updFreq := 2 } [Ex.mv, Ex.mv, Ex.mv, Ex.wOnes] x ∧
    (x.mapper.core.gd.p.get 0 0 == 1 && x.mapper.core.ia.p.get 0 0 != 10) = true :=
  Ex.played [Ex.wOnes, Ex.mv, Ex.mv, Ex.mv] (fun x => x.mapper.core.gd.p.get 0 0 == 1 && x.mapper.core.ia.p.get 0 0 != 10)
    (by decide +kernel)

/-- C64.  Cell-based mitigation, with any update frequency: whenever a legal sequence of calls returns, the error of every
result is that of cells that deviate by the tolerance (or by the programming noise, if it is larger). -/
theorem C64_cell_based (hE : ExactArith E) (hok : CfgOk cfg) (hI : Imperfect cfg) (hc2 : cfg.c2c = false)
    (hrd : cfg.readDisturb = true) (hst : cfg.strategy = .cellBased) (h1 : 0 ≤ cfg.hrs) (h2 : 0 ≤ cfg.lrs)
    (h0 : 0 ≤ ε) (hg : Quiet cfg ∨ ∀ k, |E.gauss k| ≤ ε) (ht : cfg.tol * cfg.lrs ≤ ε)
    {rng : Nat} {hists : List (String × Hist K)} (hx : mkXbar E cfg rng hists = .ok x) {ops : List Op}
    {rs : List (Vec Int)} (hl : LegalOps cfg w [] ops) (hR : NoiseRooms cfg ε ops)
    (he : exec E cfg x ops = .ok (x', rs)) : AnswersWithin (noiseBound cfg ε) [] ops rs := by
  exact exec_near hE hok hI hc2 h0 (fun hr hd => near_cell_based hE hok hI.bin hI.analog hrd hst h1 h2 h0 hg ht hr hd)
    (.init hx) .nil hl hR he

/-- C64.  Refreshes by the software: likewise with the attenuation at the tolerated multiple `fp` of the transition
time. -/
theorem C64_software (hA : RdArith E) (hE : ExactArith E) (hok : CfgOk cfg) (hI : Imperfect cfg)
    (hc2 : cfg.c2c = false) (hrd : cfg.readDisturb = true) (hst : cfg.strategy = .software) (hfp : 1 ≤ cfg.fp)
    (h1 : 0 ≤ cfg.hrs) (h2 : 0 ≤ cfg.lrs) (h0 : 0 ≤ ε) (hg : Quiet cfg ∨ ∀ k, |E.gauss k| ≤ ε)
    (ht : cfg.lrs * (1 - E.pow cfg.fp (-decay E cfg.vRead)) ≤ ε)
    {rng : Nat} {hists : List (String × Hist K)} (hx : mkXbar E cfg rng hists = .ok x) {ops : List Op}
    {rs : List (Vec Int)} (hl : LegalOps cfg w [] ops) (hR : NoiseRooms cfg ε ops)
    (he : exec E cfg x ops = .ok (x', rs)) : AnswersWithin (noiseBound cfg ε) [] ops rs := by
  exact exec_near hE hok hI hc2 h0
    (fun hr hd => near_software hA hE hok hI.bin hI.analog hrd hst hfp h1 h2 h0 hg ht hr hd) (.init hx) .nil hl hR he

/-- C64.  No mitigation: the error of a multiplication is that of cells which have lost what the reads and writes so far can
take at most. -/
theorem C64_unmitigated (hA : RdArith E) (hE : ExactArith E) (hok : CfgOk cfg) (hI : Imperfect cfg)
    (hc2 : cfg.c2c = false) (hrd : cfg.readDisturb = true) (hst : cfg.strategy = .off) (htr : 0 ≤ cfg.tRead)
    (h1 : 0 ≤ cfg.hrs) (h2 : 0 ≤ cfg.lrs) (hg : Quiet cfg ∨ ∀ k, |E.gauss k| ≤ ε)
    (ht : cfg.lrs * (1 - attenuation E cfg (mvmsIn h) (writesIn h)) ≤ ε)
    (hr : Runs E cfg h x) (hl : Legal cfg (lastWrite h) m n) (hwid : keepsRowSums cfg.mode → WidthIs n h)
    (hd : Accepted cfg m n) (hv : n ≤ vec.size) (hres : m ≤ res.size)
    (hx : LegalVec cfg vec n) (hR : NoiseRoom cfg ε res m n)
    (hm : xMvm E cfg x res vec mat m n l = .ok (x', r)) :
    AddsWithin (noiseBound cfg ε n) r res (stored h) vec m n := by
  obtain ⟨h0, hnear⟩ := near_unmitigated hA hE hok hI.bin hI.analog hrd hst htr h1 h2 hg ht hr hd
  exact C62_deviating_cells hE hok hI hc2 hr hl hwid hd h0 hnear hv hres hx hR hm

end

namespace Ex'

/-- A session whose third product is disturbed. -/
def disturbed : List Op := [Ex.w, Ex.mv, Ex.mv, Ex.mv]

/-- The exact products are 9 and 17; the third multiplication answers 20. -/
def off (rs : List (Vec Int)) : Bool := rs.map (fun r => (r.get 0, r.get 1)) == [(9, 17), (9, 17), (9, 20)]

theorem disturbed_legal (c : Cfg ℚ) (h1 : Accepted c 2 3) (h2 : LegalMat c (entry Ex.mat 3) 2 3) (h3 : SumRoom c 2 3)
    (h4 : LegalVec c Ex.vec 3) (h5 : Room c Ex.res 2 3) : LegalOps c 3 [] disturbed := by
  refine ⟨⟨h1, by decide, h2, h3, fun _ => rfl⟩, ⟨h1, by decide, by decide, h4, h5, ?_, fun _ => rfl⟩,
    ⟨h1, by decide, by decide, h4, h5, ?_, fun _ => rfl⟩, ⟨h1, by decide, by decide, h4, h5, ?_, fun _ => rfl⟩, trivial⟩ <;>
  · intro i j hi hj
    simp [lastWrite, Ex.w, Ex.mv, hi, hj]

theorem disturbed_rooms {c : Cfg ℚ} {ε : ℚ} (h : NoiseRoom c ε Ex.res 2 3) : NoiseRooms c ε disturbed := fun op hop => by
  simp only [disturbed, List.mem_cons, List.not_mem_nil, or_false, or_self] at hop
  rcases hop with rfl | rfl
  · trivial
  · exact h

end Ex'

/-- The hypotheses of `C64_cell_based`: the third answer is off by 3. -/
example : ∃ x x' rs, mkXbar Ex.rdEnv (Ex.cbCfg .bnn1) 0 [] = .ok x ∧
    exec Ex.rdEnv (Ex.cbCfg .bnn1) x Ex'.disturbed = .ok (x', rs) ∧ Ex'.off rs = true ∧
    AnswersWithin (noiseBound (Ex.cbCfg .bnn1) 5) [] Ex'.disturbed rs := by
  obtain ⟨x, hx, h⟩ := Ex.okAnd_spec (x := mkXbar Ex.rdEnv (Ex.cbCfg .bnn1) 0 [])
    (p := fun x => Ex.okAnd (exec Ex.rdEnv (Ex.cbCfg .bnn1) x Ex'.disturbed) fun q => Ex'.off q.2) (by decide +kernel)
  obtain ⟨⟨x', rs⟩, he, ho⟩ := Ex.okAnd_spec h
  exact ⟨x, x', rs, hx, he, ho, C64_cell_based (cfg := Ex.cbCfg .bnn1) (w := 3) Ex.rdEnv_exact (Ex.cbCfg_ok _)
    ⟨rfl, rfl, rfl, rfl, rfl, by decide +kernel⟩ rfl rfl rfl (by decide +kernel) (by decide +kernel) (by decide +kernel)
    (.inl fun _ => by decide +kernel) (by decide +kernel) hx
    (Ex'.disturbed_legal _ (Ex.accepted .bnn1) (Ex.legal_mat .bnn1) (Ex.sum_room .bnn1)
      (Ex.legal_vec .bnn1 (by decide)) (Ex.room .bnn1))
    (Ex'.disturbed_rooms (Ex.two (by decide +kernel) (by decide +kernel))) he⟩

/-- The hypotheses of `C64_software`, likewise. -/
example : ∃ x x' rs, mkXbar Ex.rdEnv (Ex.swCfg .bnn1) 0 [] = .ok x ∧
    exec Ex.rdEnv (Ex.swCfg .bnn1) x Ex'.disturbed = .ok (x', rs) ∧ Ex'.off rs = true ∧
    AnswersWithin (noiseBound (Ex.swCfg .bnn1) 5) [] Ex'.disturbed rs := by
  obtain ⟨x, hx, h⟩ := Ex.okAnd_spec (x := mkXbar Ex.rdEnv (Ex.swCfg .bnn1) 0 [])
    (p := fun x => Ex.okAnd (exec Ex.rdEnv (Ex.swCfg .bnn1) x Ex'.disturbed) fun q => Ex'.off q.2) (by decide +kernel)
  obtain ⟨⟨x', rs⟩, he, ho⟩ := Ex.okAnd_spec h
  exact ⟨x, x', rs, hx, he, ho, C64_software (cfg := Ex.swCfg .bnn1) (w := 3) Ex.rdEnv_arith Ex.rdEnv_exact (Ex.swCfg_ok _)
    ⟨rfl, rfl, rfl, rfl, rfl, by decide +kernel⟩ rfl rfl rfl (by decide +kernel) (by decide +kernel) (by decide +kernel)
    (by decide +kernel) (.inl fun _ => by decide +kernel) (by decide +kernel) hx
    (Ex'.disturbed_legal _ (Ex.accepted .bnn1) (Ex.legal_mat .bnn1) (Ex.sum_room .bnn1)
      (Ex.legal_vec .bnn1 (by decide)) (Ex.room .bnn1))
    (Ex'.disturbed_rooms (Ex.two (by decide +kernel) (by decide +kernel))) he⟩

/-- The hypotheses of `C64_unmitigated` in a state with attenuated cells. -/
example : ∃ x x' r, Runs Ex.rdEnv (Ex.rdCfg .bnn1) [Ex.mv, Ex.mv, Ex.w] x ∧
    xMvm Ex.rdEnv (Ex.rdCfg .bnn1) x Ex.res Ex.vec Ex.mat 2 3 "" = .ok (x', r) ∧ Ex'.off [Vec.ofList [9, 17], Vec.ofList [9, 17], r] = true ∧
    AddsWithin (noiseBound (Ex.rdCfg .bnn1) 5 3) r Ex.res (stored [Ex.mv, Ex.mv, Ex.w]) Ex.vec 2 3 := by
  obtain ⟨x, x', r, hr, hm, ho⟩ := Ex.stepped (E := Ex.rdEnv) (c := Ex.rdCfg .bnn1) (res := Ex.res) (vec := Ex.vec)
    (mat := Ex.mat) (m := 2) (n := 3) (l := "") [Ex.w, Ex.mv, Ex.mv]
    (fun _ _ r => Ex'.off [Vec.ofList [9, 17], Vec.ofList [9, 17], r]) (by decide +kernel)
  exact ⟨x, x', r, hr, hm, ho, C64_unmitigated (cfg := Ex.rdCfg .bnn1) (ε := 5) Ex.rdEnv_arith Ex.rdEnv_exact (Ex.rdCfg_ok _)
    ⟨rfl, rfl, rfl, rfl, rfl, by decide +kernel⟩ rfl rfl rfl (by decide +kernel) (by decide +kernel) (by decide +kernel)
    (.inl fun _ => by decide +kernel) (by decide +kernel) hr
    (fun i j hi hj => ⟨_, by simp [lastWrite, Ex.w, Ex.mv, hi, hj], Ex.legal_mat .bnn1 i j hi hj⟩)
    (fun _ op hop => by
      simp only [List.reverse_cons, List.reverse_nil, List.nil_append, List.cons_append, List.mem_cons, List.not_mem_nil, or_false] at hop
      rcases hop with rfl | rfl | rfl <;> first | rfl | trivial)
    (Ex.accepted .bnn1) (by decide) (by decide) (Ex.legal_vec .bnn1 (by decide))
    (Ex.two (by decide +kernel) (by decide +kernel)) hm⟩

end Acs.Props
