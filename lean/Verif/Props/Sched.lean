import Verif.Lemmas.Sched
import Verif.Model.Mapper
import Verif.Props.Adc

/-!
# Thread scheduling: C52

`ParResult val n v r` (Verif/SpecSched.lean): some interleaving of the elements turns `v` into `r`.
-/

namespace Acs.Props

open Finset Spec

variable {K : Type} [Field K] [LinearOrder K] [IsStrictOrderedRing K] [FloorRing K]
variable {E : Env K} {cfg : Cfg K} {adc : Adc} {hs hs' : List (String × Hist K)} {v r : Vec K} {len k : Nat}
variable {s o : K} {l : String}

/-- What the element `i` of the conversion does: read `in[i]`, convert it (adc.cpp:45-48). -/
def convElem (E : Env K) (cfg : Cfg K) (adc : Adc) (s o : K) (l : String) (i : Nat) (mem : Vec K) : C K :=
  mem.rd i >>= fun c => conv1 E cfg adc c s o l

/-- C52.  The conversion modelled as a loop in index order returns `r` iff some parallel execution does.  In
particular the result of a parallel execution does not depend on the schedule. -/
theorem C52_convert : convVec E cfg adc hs v len s o l = .ok (hs', r) ↔
    len ≤ v.size ∧ (if cfg.adcProfile then profileInputs E cfg adc hs v len l else .ok hs) = .ok hs' ∧
      ParResult (convElem E cfg adc s o l) len v r := by
  have hpar : ParResult (convElem E cfg adc s o l) len v r ↔
      updG len (fun _ c => conv1 E cfg adc c s o l) v = .ok r := by
    rw [updG_seq]
    constructor
    · exact seq_of_par local_upd
    · intro h
      obtain ⟨k, c, h1, _, h2⟩ := par_exists (k := 0) local_upd h (.refl _)
      exact ⟨k, c, h1, h2⟩
  rw [hpar]
  unfold convVec
  by_cases hv : v.size < len
  · rw [if_pos hv]
    exact ⟨fun h => (by cases h), fun h => absurd h.1 (by omega)⟩
  · rw [if_neg hv, bind_eq_ok]
    constructor
    · rintro ⟨a, h1, h2⟩
      rw [bind_eq_ok] at h2
      obtain ⟨b, h2, h3⟩ := h2
      rw [ok_inj, Prod.mk.injEq] at h3
      obtain ⟨rfl, rfl⟩ := h3
      exact ⟨by omega, h1, h2⟩
    · rintro ⟨_, h1, h2⟩
      exact ⟨_, h1, by rw [h2, ok_bind]⟩

/-- C52.  Two schedules of the conversion give the same values. -/
theorem C52_convert_unique {r' : Vec K} (h : ParResult (convElem E cfg adc s o l) len v r)
    (h' : ParResult (convElem E cfg adc s o l) len v r') : r = r' := by
  have h1 := seq_of_par local_upd h
  rw [seq_of_par local_upd h', ok_inj] at h1
  exact h1.symm

/-- C52.  If the loop returns, no interleaving fails or blocks: after `2 * len` actions it is complete. -/
theorem C52_convert_total (h : convVec E cfg adc hs v len s o l = .ok (hs', r)) {c : Conf K}
    (ha : Acts (convElem E cfg adc s o l) len k (.start v) c) :
    (∀ e, ¬Fails (convElem E cfg adc s o l) len c e) ∧ k ≤ 2 * len ∧
      ((∃ c', Act (convElem E cfg adc s o l) len c c') ∨ (k = 2 * len ∧ c.mem = r)) := by
  have hr := seq_of_par local_upd (C52_convert.1 h).2.2
  have hb := acts_bound local_upd ha
  refine ⟨no_fail local_upd hr ha, hb.1, ?_⟩
  by_cases hf : c.finished len
  · refine .inr ⟨hb.2.2 hf, ?_⟩
    exact C52_convert_unique ⟨k, c, ha, hf, rfl⟩ (C52_convert.1 h).2.2
  · rcases progress (val := convElem E cfg adc s o l) hf with h' | ⟨e, he⟩
    · exact .inl h'
    · exact absurd he (no_fail local_upd hr ha e)

/-- What the element `i` of `slice_vd` does (mapper.cpp:472-474). -/
def sliceElem (vd : Vec Int) (bit i : Nat) (_ : Vec Int) : C Int := do
  let x ← vd.rd i
  let a ← shrI x bit
  .ok (and32 a 1)

/-- C52.  Input slicing: the loop returns `r` iff some parallel execution does, and then all do. -/
theorem C52_slice {vd sl r : Vec Int} {n bit : Nat} :
    (sliceVd vd sl n bit = .ok r ↔ ParResult (sliceElem vd bit) n sl r) ∧
      ∀ r', ParResult (sliceElem vd bit) n sl r → ParResult (sliceElem vd bit) n sl r' → r = r' := by
  have key : ∀ r, sliceVd vd sl n bit = .ok r ↔ ParResult (sliceElem vd bit) n sl r := fun r => by
    constructor
    · intro h
      obtain ⟨k, c, h1, _, h2⟩ := par_exists (val := sliceElem vd bit) (k := 0) local_set h (.refl _)
      exact ⟨k, c, h1, h2⟩
    · exact seq_of_par local_set
  refine ⟨key r, fun r' h h' => ?_⟩
  have h1 := (key r).2 h
  rw [(key r').2 h', ok_inj] at h1
  exact h1.symm

/-- C52.  If the slicing loop fails, so does every interleaving. -/
theorem C52_slice_fails {vd sl : Vec Int} {n bit : Nat} {e : Fault} (h : sliceVd vd sl n bit = .error e)
    {c : Conf Int} (ha : Acts (sliceElem vd bit) n k (.start sl) c) :
    ¬c.finished n ∧ ∃ k' c' e', Acts (sliceElem vd bit) n k' (.start sl) c' ∧ k ≤ k' ∧ k' ≤ 2 * n ∧
      Fails (sliceElem vd bit) n c' e' :=
  par_fails (val := sliceElem vd bit) local_set h ha

/-- What the element `i` of the index computation of `BinnedHistogram::update` does (histogram.cpp:101-104). -/
def indexElem (E : Env K) (h : Hist K) (vals : Vec K) (i : Nat) (_ : Vec Int) : C Int :=
  vals.rd i >>= fun x => h.index E x

/-- C52.  Profiling: updating a histogram is computing the indices in any interleaving and then counting. -/
theorem C52_profile {h h' : Hist K} {vals : Vec K} : h.update E vals len = .ok h' ↔
    ∃ idx, ParResult (indexElem E h vals) len (Vec.const len 0) idx ∧
      loop len (fun i h => idx.rd i >>= fun k => h.bump k) h = .ok h' := by
  unfold Hist.update
  rw [bind_eq_ok]
  refine exists_congr fun idx => and_congr_left fun _ => ?_
  constructor
  · intro h
    obtain ⟨k, c, h1, _, h2⟩ := par_exists (val := indexElem E _ vals) (k := 0) local_set h (.refl _)
    exact ⟨k, c, h1, h2⟩
  · exact seq_of_par (val := indexElem E _ vals) local_set

/-- Two currents through a quantising converter, with profiling. -/
example : ∃ hs r, convVec Ex.env { Ex.symCfg .bnn1 with
      adcProfile := true
      binSize := 2 } ⟨.sym, 15⟩ [] (Vec.ofList [7, 10]) 2 (2 / 5) 0 "" = .ok (hs, r) ∧
    r.get 0 = 3 ∧ r.get 1 = 4 ∧ hs.length = 1 := by
  obtain ⟨⟨hs, r⟩, h, h'⟩ := Ex.okAnd_spec (x := convVec Ex.env { Ex.symCfg .bnn1 with
      adcProfile := true
      binSize := 2 } ⟨.sym, 15⟩ [] (Vec.ofList [7, 10]) 2 (2 / 5) 0 "")
    (p := fun q => q.2.get 0 == 3 && (q.2.get 1 == 4 && q.1.length == 1)) (by decide +kernel)
  simp only [Bool.and_eq_true, beq_iff_eq] at h'
  exact ⟨hs, r, h, h'⟩

/-! Two elements, interleaved: both read before either writes, and the second is finished first. -/

example : ParResult (sliceElem (Vec.ofList [2, 1]) 1) 2 (Vec.ofList [5, 5]) (Vec.ofList [1, 0]) := by
  refine ⟨4, _, .step (.step (.step (.step (.refl _) (.load (i := 1) (a := 0) (by decide) rfl rfl))
    (.load (i := 0) (a := 1) (by decide) rfl rfl)) (.store (i := 1) (a := 0) rfl rfl))
    (.store (i := 0) (a := 1) rfl rfl), ?_, ?_⟩
  · intro i hi
    have : i = 0 ∨ i = 1 := by omega
    rcases this with rfl | rfl <;> rfl
  · refine Vec.ext' rfl fun i => ?_
    rcases i with _ | _ | i <;> rfl

end Acs.Props
