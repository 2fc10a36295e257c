import Verif.Lemmas.XDigital

/-! # Call sequences on a digital crossbar -/

set_option linter.unusedSectionVars false

namespace Acs

open Finset Spec

section
variable {K : Type} [Field K] [LinearOrder K] [IsStrictOrderedRing K] [FloorRing K]
variable {E : Env K} {cfg : Cfg K} {mat vec res : Vec Int} {m n m' n' w : Nat} {l : String}
variable {x x' : Xbar K} {h : List Op}

/-- Everything stored is legal, and all writes have the common width where that matters. -/
structure HistOk (cfg : Cfg K) (w : Nat) (h : List Op) : Prop where
  vals : ∀ i j v, lastWrite h i j = some v → LegalW cfg v
  width : keepsRowSums cfg.mode → WidthIs w h

theorem HistOk.nil : HistOk cfg w [] :=
  ⟨fun _ _ _ h => by simp [lastWrite] at h, fun _ _ h => by simp at h⟩

theorem HistOk.write (hh : HistOk cfg w h) (hl : LegalWrite cfg w mat m n) :
    HistOk cfg w (.write mat m n :: h) := by
  refine ⟨fun i j v hv => ?_, fun hk op hop => ?_⟩
  · simp only [lastWrite] at hv
    split at hv
    · next hij => rw [← Option.some.inj hv]; exact hl.vals i j hij.1 hij.2
    · exact hh.vals i j v hv
  · rcases List.mem_cons.1 hop with rfl | hop
    · exact hl.width hk
    · exact hh.width hk op hop

theorem HistOk.mvm (hh : HistOk cfg w h) : HistOk cfg w (.mvm res vec mat m n l :: h) := by
  refine ⟨fun i j v hv => hh.vals i j v hv, fun hk op hop => ?_⟩
  rcases List.mem_cons.1 hop with rfl | hop
  · trivial
  · exact hh.width hk op hop

theorem mvm_of_hist (hok : CfgOk cfg) (hgcc : shiftsSigned cfg.mode → E.strict = false)
    (hdo : cfg.digitalOnly = true) (hr : Runs E cfg h x) (hh : HistOk cfg w h)
    (hl : LegalMvm cfg w h res vec m n) :
    ∃ x' r, xMvm E cfg x res vec mat m n l = .ok (x', r) ∧ Adds r res (stored h) vec m n := by
  obtain ⟨x', r, h1, _, _, h2⟩ := xMvm_exact (L := lastWrite h) (mat := mat) (l := l) hgcc hok
    (runs_shape hr) hdo (runs_cells hok hr)
    (fun i j hi hj => by
      obtain ⟨v, hv⟩ := Option.isSome_iff_exists.1 (hl.written i j hi hj)
      exact ⟨v, hv, hh.vals i j v hv⟩) hl.dims
    (fun hk i _ => by
      have hw := hl.width hk
      subst hw
      exact runs_sums hr (hasSums_of_keeps hk) (hh.width hk) i) hl.vecBuf hl.resBuf hl.vals hl.room
  exact ⟨x', r, h1, h2⟩

theorem exec_refines (hok : CfgOk cfg) (hgcc : shiftsSigned cfg.mode → E.strict = false)
    (hdo : cfg.digitalOnly = true) {ops : List Op} (hr : Runs E cfg h x) (hh : HistOk cfg w h)
    (hl : LegalOps cfg w h ops) :
    ∃ x' rs, exec E cfg x ops = .ok (x', rs) ∧ Answers h ops rs := by
  induction ops generalizing h x with
  | nil => exact ⟨x, [], rfl, .nil⟩
  | cons op ops ih =>
    cases op with
    | write mat m n =>
      obtain ⟨h1, h2⟩ := hl
      obtain ⟨x1, hx1⟩ := xWrite_total hok (runs_shape hr) hdo h1.dims h1.buf h1.vals h1.sums
      obtain ⟨x', rs, h3, h4⟩ := ih (.write hr hx1) (hh.write h1) h2
      exact ⟨x', rs, by rw [exec, hx1, ok_bind, h3], .write h4⟩
    | mvm res vec mat m n l =>
      obtain ⟨h1, h2⟩ := hl
      obtain ⟨x1, r, hx1, ha⟩ := mvm_of_hist (mat := mat) (l := l) hok hgcc hdo hr hh h1
      obtain ⟨x', rs, h3, h4⟩ := ih (.mvm hr hx1) hh.mvm h2
      refine ⟨x', r :: rs, ?_, .mvm ha h4⟩
      rw [exec, hx1, ok_bind]
      dsimp only
      rw [h3, ok_bind]

theorem adds_congr {r : Vec Int} {W W' : Nat → Nat → Int} (h : Adds r res W vec m n)
    (hW : ∀ i j, i < m → j < n → W i j = W' i j) : Adds r res W' vec m n :=
  ⟨h.size, fun i hi => by
    rw [h.head i hi, prod, prod]
    congr 1
    exact sum_congr rfl fun j hj => by rw [hW i j hi (mem_range.1 hj)], h.tail⟩

/-- A legal write followed by a legal multiplication of a leading block, in any state. -/
theorem write_mvm (hok : CfgOk cfg) (hgcc : shiftsSigned cfg.mode → E.strict = false)
    (hdo : cfg.digitalOnly = true) (hr : Runs E cfg h x) {mat' : Vec Int}
    (hd : Accepted cfg m n) (hbuf : m * n ≤ mat.size) (hW : LegalMat cfg (entry mat n) m n)
    (hsum : SumRoom cfg m n) (hm' : m' ≤ m) (hn' : n' ≤ n) (hn : keepsRowSums cfg.mode → n' = n)
    (hv : n' ≤ vec.size) (hx : LegalVec cfg vec n') (hres : m' ≤ res.size)
    (hroom : Room cfg res m' n') :
    ∃ x1 x2 r, xWrite E cfg x mat m n = .ok x1 ∧ xMvm E cfg x1 res vec mat' m' n' l = .ok (x2, r) ∧
      Adds r res (entry mat n) vec m' n' := by
  obtain ⟨x1, hx1⟩ := xWrite_total hok (runs_shape hr) hdo hd hbuf hW hsum
  have hr1 : Runs E cfg (.write mat m n :: h) x1 := .write hr hx1
  have hL : ∀ i j, i < m' → j < n' → lastWrite (.write mat m n :: h) i j = some (entry mat n i j) :=
    fun i j hi hj => by simp only [lastWrite]; rw [if_pos ⟨by omega, by omega⟩]
  obtain ⟨x2, r, h1, _, _, h2⟩ := xMvm_exact (L := lastWrite (.write mat m n :: h)) (mat := mat')
    (l := l) hgcc hok (runs_shape hr1) hdo (runs_cells hok hr1)
    (fun i j hi hj => ⟨_, hL i j hi hj, hW i j (by omega) (by omega)⟩)
    ⟨hm'.trans hd.1, hn'.trans hd.2.1, hn'.trans hd.2.2⟩
    (fun hk i hi => by
      have hw := hn hk
      subst hw
      rw [dWriteGd_sums (runs_shape hr).core (hasSums_of_keeps hk) (xWrite_frame hx1).1,
        Vec.over_lt (by omega)]
      refine sum_congr rfl fun j hj => ?_
      rw [val, hL i j hi (mem_range.1 hj)]
      rfl) hv hres hx hroom
  exact ⟨x1, x2, r, hx1, h1, adds_congr h2 fun i j hi hj => by rw [val, hL i j hi hj]; rfl⟩

end

end Acs
