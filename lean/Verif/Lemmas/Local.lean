import Verif.SpecLocal
import Verif.Lemmas.DetMvm
import Verif.Model.Api

/-! # Calls do not look behind the operands -/

set_option linter.unusedSectionVars false

namespace Acs

open Spec

theorem Spec.SameFront.rd {k i : Nat} {v v' : Vec Int} (h : SameFront k v v') (hi : i < k) : v.rd i = v'.rd i := by
  unfold Vec.rd
  rw [if_pos (lt_of_lt_of_le hi h.1), if_pos (lt_of_lt_of_le hi h.2.1), h.2.2 i hi]

section
variable {w : Bool} {k : Nat} {v v' : Vec Int}

theorem Spec.SameFront.updAt {i : Nat} {f : Int → C Int} (h : SameFront k v v') (hi : i < k) :
    Rel w (SameFront k) (updAt v i f) (updAt v' i f) := by
  unfold Acs.updAt
  refine Rel.bindEq (h.rd hi) fun a => Rel.bindEq rfl fun x => ?_
  unfold Vec.wr
  rw [if_pos (lt_of_lt_of_le hi h.1), if_pos (lt_of_lt_of_le hi h.2.1)]
  refine ⟨h.1, h.2.1, fun j hj => ?_⟩
  dsimp only
  rw [h.2.2 j hj]

theorem reads_accRow {β : Type} {add : Int → β → C Int} {t N : Nat} {f : Nat → C β} (hv : SameFront k v v') (ht : t < k) :
    Rel w (SameFront k) (accRow add t N f v) (accRow add t N f v') := by
  unfold accRow
  exact Rel.loop' hv fun j s s' _ hs => Rel.bindEq rfl fun b => hs.updAt ht

theorem reads_accG {β : Type} {add : Int → β → C Int} {N : Nat} {f : Nat → Nat → C β} (hv : SameFront k v v') :
    Rel w (SameFront k) (accG add k N f v) (accG add k N f v') := by
  unfold accG
  exact Rel.loop' hv fun t s s' ht hs => reads_accRow hs ht

theorem reads_updG {f : Nat → Int → C Int} (hv : SameFront k v v') : Rel w (SameFront k) (updG k f v) (updG k f v') := by
  unfold updG
  exact Rel.loop' hv fun t s s' ht hs => hs.updAt ht

end

/-! ## Inputs -/

section
variable {n k : Nat} {s : Bool} {b : Int} {vec vec' v u : Vec Int}

theorem encSigned_reads (h : SameFront n vec vec') : encSigned n vec v u = encSigned n vec' v u :=
  loop_congr' fun i _ hi => by rw [h.rd hi]
theorem encOffs_reads (h : SameFront n vec vec') : encOffs s k n vec v = encOffs s k n vec' v :=
  loop_congr' fun i _ hi => by dsimp only; rw [h.rd hi]
theorem encMask_reads (h : SameFront n vec vec') : encMask b n vec v = encMask b n vec' v :=
  loop_congr' fun i _ hi => by dsimp only; rw [h.rd hi]
theorem encCopy_reads (h : SameFront n vec vec') : encCopy n vec v = encCopy n vec' v :=
  loop_congr' fun i _ hi => by dsimp only; rw [h.rd hi]
theorem inpSum_reads (h : SameFront n vec vec') : inpSum n vec = inpSum n vec' :=
  loop_congr' fun i _ hi => by rw [h.rd hi]
theorem encBnn1_reads (h : SameFront n vec vec') : encBnn1 n vec v = encBnn1 n vec' v :=
  loop_congr' fun i _ hi => by dsimp only; rw [h.rd hi]
theorem encBnn2_reads (h : SameFront n vec vec') : encBnn2 n vec v = encBnn2 n vec' v :=
  loop_congr' fun i _ hi => by dsimp only; rw [h.rd hi]
theorem encPM_reads (h : SameFront n vec vec') : encPM n vec v u = encPM n vec' v u :=
  loop_congr' fun i _ hi => by rw [h.rd hi]
theorem encPMSum_reads (h : SameFront n vec vec') : encPMSum n vec v u = encPMSum n vec' v u :=
  loop_congr' fun i _ hi => by rw [h.rd hi]
theorem encTern_reads (h : SameFront n vec vec') : encTern n vec v u = encTern n vec' v u :=
  loop_congr' fun i _ hi => by rw [h.rd hi]
theorem encNonzero_reads (h : SameFront n vec vec') : encNonzero n vec v = encNonzero n vec' v :=
  loop_congr' fun i _ hi => by dsimp only; rw [h.rd hi]
theorem encNegOne_reads (h : SameFront n vec vec') : encNegOne n vec v = encNegOne n vec' v :=
  loop_congr' fun i _ hi => by dsimp only; rw [h.rd hi]
theorem encBit0_reads (h : SameFront n vec vec') : encBit0 n vec v = encBit0 n vec' v :=
  loop_congr' fun i _ hi => by dsimp only; rw [h.rd hi]
theorem encBit1_reads (h : SameFront n vec vec') : encBit1 n vec v = encBit1 n vec' v :=
  loop_congr' fun i _ hi => by dsimp only; rw [h.rd hi]

end

section
variable {K : Type} [Field K] [LinearOrder K] [IsStrictOrderedRing K] [FloorRing K]
variable {w : Bool} {E : Env K} {cfg : Cfg K} {c : Core K} {a : Aux K} {x : Xbar K} {mat mat' res res' vec vec' : Vec Int}
variable {m n : Nat} {l : String}

theorem dMvm_vec (h : SameFront n vec vec') : dMvm E cfg c a res vec m n = dMvm E cfg c a res vec' m n := by
  unfold dMvm
  cases c.mode <;> dsimp only
  case iUintWDiff =>
    unfold dMvmIntIV
    rw [accG_congr (f := diffTerm c.gd vec) (g := diffTerm c.gd vec') fun t j _ hj => by unfold diffTerm; rw [h.rd hj]]
  case iUintWOffs =>
    unfold dMvmIntV
    rw [inpSum_reads h,
      accG_congr (f := posTerm c.gd vec) (g := posTerm c.gd vec') fun t j _ hj => by unfold posTerm; rw [h.rd hj]]
  all_goals
    simp only [dMvmIntI, dMvmIntII, dMvmIntIII, dMvmBnnI, dMvmBnnII, dMvmBnnIII, dMvmBnnIV, dMvmBnnV, dMvmBnnVI, dMvmTnnI,
      dMvmTnnII, dMvmTnnIII, dMvmTnnIV, dMvmTnnV, encSigned_reads h, encOffs_reads h, encMask_reads h, encBnn1_reads h,
      encBnn2_reads h, encPM_reads h, encPMSum_reads h, encTern_reads h, encNonzero_reads h, encNegOne_reads h,
      encBit0_reads h, encBit1_reads h, inpSum_reads h]

theorem aMvm_vec (h : SameFront n vec vec') : aMvm E cfg c a res vec m n l = aMvm E cfg c a res vec' m n l := by
  unfold aMvm
  cases c.mode <;> dsimp only <;>
    simp only [aMvmIntI, aMvmIntII, aMvmIntIII, aMvmIntIV, aMvmIntV, aMvmBnnI, aMvmBnnII, aMvmBnnIII, aMvmBnnIV, aMvmBnnV,
      aMvmBnnVI, aMvmTnnI, aMvmTnnII, aMvmTnnIII, aMvmTnnIV, aMvmTnnV, bnn34Currents, encSigned_reads h, encOffs_reads h,
      encCopy_reads h, encBnn1_reads h, encBnn2_reads h, encPM_reads h, encPMSum_reads h, encTern_reads h,
      encNonzero_reads h, encNegOne_reads h, encBit0_reads h, encBit1_reads h, inpSum_reads h]

/-! ## Results -/

/-- The same state, and results that read the same. -/
def Out {σ : Type} (m : Nat) (s t : σ × Vec Int) : Prop := s.1 = t.1 ∧ SameFront m s.2 t.2

theorem Out.ok {σ : Type} {s : σ} (h : SameFront m res res') : Rel w (Out m) (.ok (s, res)) (.ok (s, res')) := ⟨rfl, h⟩

theorem dMvm_res (h : SameFront m res res') : Rel w (Out m) (dMvm E cfg c a res vec m n) (dMvm E cfg c a res' vec m n) := by
  unfold dMvm
  cases c.mode <;> dsimp only
  case iDiffWDiff1 =>
    exact Rel.bindEq rfl fun _ => Rel.bindEq rfl fun _ => Rel.bind (reads_accG h) fun _ _ h => Rel.bindEq rfl fun _ =>
      Rel.bind (reads_accG h) fun _ _ h => Out.ok h
  case iDiffWDiff2 =>
    exact Rel.bindEq rfl fun _ => Rel.bindEq rfl fun _ => Rel.bind (reads_accG h) fun _ _ h => Rel.bindEq rfl fun _ =>
      Rel.bind (reads_accG h) fun _ _ h => Out.ok h
  case iOffsWDiff =>
    exact Rel.bindEq rfl fun _ => Rel.bindEq rfl fun _ => Rel.bind (Rel.loop' h fun i _ _ hi h =>
      Rel.bind (reads_accRow h hi) fun _ _ h => Rel.bindEq rfl fun _ => h.updAt hi) fun _ _ h => Out.ok h
  case iTcWDiff =>
    exact Rel.bindEq rfl fun _ => Rel.bindEq rfl fun _ => Rel.bindEq rfl fun _ => Rel.bindEq rfl fun _ =>
      Rel.bindEq rfl fun _ => Rel.bindEq rfl fun _ => Rel.bind (reads_accG h) fun _ _ h => Out.ok h
  case iUintWDiff => exact Rel.bindEq rfl fun _ => Rel.bind (reads_accG h) fun _ _ h => Out.ok h
  case iUintWOffs =>
    exact Rel.bindEq rfl fun _ => Rel.bindEq rfl fun _ => Rel.bind (Rel.loop' h fun i _ _ hi h =>
      Rel.bind (reads_accRow h hi) fun _ _ h => Rel.bindEq rfl fun _ => h.updAt hi) fun _ _ h => Out.ok h
  case bnn1 => exact Rel.bindEq rfl fun _ => Rel.bind (reads_accG h) fun _ _ h => Rel.bind (reads_updG h) fun _ _ h => Out.ok h
  case bnn2 => exact Rel.bindEq rfl fun _ => Rel.bind (reads_accG h) fun _ _ h => Rel.bind (reads_updG h) fun _ _ h => Out.ok h
  case bnn3 =>
    exact Rel.bindEq rfl fun _ => Rel.bind (Rel.loop' h fun i _ _ hi h => Rel.bind (h.updAt hi) fun _ _ h =>
      reads_accRow h hi) fun _ _ h => Out.ok h
  case bnn4 =>
    exact Rel.bindEq rfl fun _ => Rel.bind (Rel.loop' h fun i _ _ hi h => Rel.bind (h.updAt hi) fun _ _ h =>
      reads_accRow h hi) fun _ _ h => Out.ok h
  case bnn5 =>
    exact Rel.bindEq rfl fun _ => Rel.bind (Rel.loop' h fun i _ _ hi h => Rel.bind (h.updAt hi) fun _ _ h =>
      reads_accRow h hi) fun _ _ h => Out.ok h
  case bnn6 => exact Rel.bindEq rfl fun _ => Rel.bind (reads_accG h) fun _ _ h => Out.ok h
  case tnn1 => exact Rel.bindEq rfl fun _ => Rel.bind (reads_accG h) fun _ _ h => Out.ok h
  case tnn2 =>
    exact Rel.bindEq rfl fun _ => Rel.bind (reads_accG h) fun _ _ h => Rel.bindEq rfl fun _ =>
      Rel.bind (reads_accG h) fun _ _ h => Out.ok h
  case tnn3 =>
    exact Rel.bindEq rfl fun _ => Rel.bind (reads_accG h) fun _ _ h => Rel.bindEq rfl fun _ =>
      Rel.bind (reads_accG h) fun _ _ h => Rel.bind (reads_updG h) fun _ _ h => Out.ok h
  case tnn4 =>
    exact Rel.ite (fun _ => Rel.err) fun _ => Rel.bindEq rfl fun _ => Rel.bind (reads_accG h) fun _ _ h => Out.ok h
  case tnn5 =>
    exact Rel.ite (fun _ => Rel.err) fun _ => Rel.bindEq rfl fun _ => Rel.bindEq rfl fun _ =>
      Rel.bind (Rel.loop' h fun i _ _ hi h => Rel.bind (reads_accRow h hi) fun _ _ h => h.updAt hi) fun _ _ h => Out.ok h

/-- The state of an integer multiplication between two input bits. -/
def Out3 {σ τ : Type} (m : Nat) (s t : σ × τ × Vec Int) : Prop := s.1 = t.1 ∧ s.2.1 = t.2.1 ∧ SameFront m s.2.2 t.2.2

theorem intBit_res {v : Vec Int} {sg : K} {bit : Nat} {s t : Vec Int × Vec K × Vec Int} (h : Out3 m s t) :
    Rel w (Out3 m) (intBit E cfg c v sg m n l bit s) (intBit E cfg c v sg m n l bit t) := by
  obtain ⟨s1, s2, s3⟩ := s
  obtain ⟨t1, t2, t3⟩ := t
  obtain ⟨h1, h2, h3⟩ := h
  dsimp only at h1 h2 h3
  subst h1 h2
  exact Rel.bindEq rfl fun _ => Rel.bindEq rfl fun _ => Rel.bind (reads_accG h3) fun _ _ h => Rel.ok ⟨rfl, rfl, h⟩

theorem intBits_res {v : Vec Int} {sg : K} {k : Nat} {s t : Vec Int × Vec K × Vec Int} (h : Out3 m s t) :
    Rel w (Out3 m) (loop k (intBit E cfg c v sg m n l) s) (loop k (intBit E cfg c v sg m n l) t) :=
  Rel.loop' h fun _ _ _ _ h => intBit_res h

theorem addTmp_res {t : Vec K} (h : SameFront m res res') : Rel w (SameFront m) (addTmp E t m res) (addTmp E t m res') := reads_updG h

theorem subTmp_res {t : Vec K} (h : SameFront m res res') : Rel w (SameFront m) (subTmp E t m res) (subTmp E t m res') := reads_updG h

theorem aMvm_res (h : SameFront m res res') : Rel w (Out m) (aMvm E cfg c a res vec m n l) (aMvm E cfg c a res' vec m n l) := by
  have key : ∀ {s : Vec Int} {t : Vec K}, Out3 m (s, t, res) (s, t, res') := ⟨rfl, rfl, h⟩
  unfold aMvm
  cases c.mode <;> dsimp only
  case iDiffWDiff1 =>
    refine Rel.bindEq rfl fun _ => Rel.bind (intBits_res key) fun _ _ h => Rel.bind (intBits_res h) fun r r' h => ?_
    rw [h.1, h.2.1]
    exact Out.ok h.2.2
  case iDiffWDiff2 =>
    refine Rel.bindEq rfl fun _ => Rel.bind (intBits_res key) fun _ _ h => Rel.bind (intBits_res h) fun r r' h => ?_
    rw [h.1, h.2.1]
    exact Out.ok h.2.2
  case iOffsWDiff =>
    refine Rel.bindEq rfl fun _ => Rel.bind (intBits_res key) fun _ _ h => Rel.bind (Rel.loop' h.2.2 fun i _ _ hi h =>
      Rel.bindEq rfl fun _ => h.updAt hi) fun _ _ h' => ?_
    rw [h.1, h.2.1]
    exact Out.ok h'
  case iTcWDiff =>
    refine Rel.bindEq rfl fun _ => Rel.bind (intBits_res key) fun r r' h => ?_
    rw [h.1, h.2.1]
    exact Rel.bindEq rfl fun _ => Rel.bindEq rfl fun _ => Rel.bind (reads_accG h.2.2) fun _ _ h => Out.ok h
  case iUintWDiff =>
    refine Rel.bindEq rfl fun _ => Rel.bind (intBits_res key) fun r r' h => ?_
    rw [h.1, h.2.1]
    exact Out.ok h.2.2
  case iUintWOffs =>
    refine Rel.bindEq rfl fun _ => Rel.bindEq rfl fun _ => Rel.bindEq rfl fun r => Rel.bind
      (P := Out m) (Rel.loop' ⟨rfl, h⟩ fun i s t hi h => ?_) fun r r' h => ?_
    · rw [h.1]
      exact Rel.bindEq rfl fun _ => Rel.bindEq rfl fun _ => Rel.bindEq rfl fun _ => Rel.bindEq rfl fun _ =>
        Rel.bindEq rfl fun _ => Rel.bind (h.2.updAt hi) fun _ _ h => Out.ok h
    · rw [h.1]
      exact Out.ok h.2
  case bnn1 =>
    exact Rel.bindEq rfl fun _ => Rel.bindEq rfl fun _ => Rel.bindEq rfl fun _ => Rel.bindEq rfl fun _ =>
      Rel.bind (reads_updG h) fun _ _ h => Out.ok h
  case bnn2 =>
    exact Rel.bindEq rfl fun _ => Rel.bindEq rfl fun _ => Rel.bindEq rfl fun _ => Rel.bindEq rfl fun _ =>
      Rel.bind (reads_updG h) fun _ _ h => Out.ok h
  case bnn3 => exact Rel.bindEq rfl fun _ => Rel.bind (reads_updG h) fun _ _ h => Out.ok h
  case bnn4 => exact Rel.bindEq rfl fun _ => Rel.bind (reads_updG h) fun _ _ h => Out.ok h
  case bnn5 =>
    exact Rel.bindEq rfl fun _ => Rel.bindEq rfl fun _ => Rel.bindEq rfl fun _ => Rel.bindEq rfl fun _ =>
      Rel.bindEq rfl fun _ => Rel.bind (reads_updG h) fun _ _ h => Out.ok h
  case bnn6 =>
    exact Rel.bindEq rfl fun _ => Rel.bindEq rfl fun _ => Rel.bindEq rfl fun _ => Rel.bindEq rfl fun _ =>
      Rel.bind (addTmp_res h) fun _ _ h => Out.ok h
  case tnn1 =>
    exact Rel.bindEq rfl fun _ => Rel.bindEq rfl fun _ => Rel.bindEq rfl fun _ => Rel.bindEq rfl fun _ =>
      Rel.bind (addTmp_res h) fun _ _ h => Out.ok h
  case tnn2 =>
    exact Rel.bindEq rfl fun _ => Rel.bindEq rfl fun _ => Rel.bindEq rfl fun _ => Rel.bindEq rfl fun _ =>
      Rel.bind (addTmp_res h) fun _ _ h => Rel.bindEq rfl fun _ => Rel.bindEq rfl fun _ => Rel.bindEq rfl fun _ =>
      Rel.bindEq rfl fun _ => Rel.bind (subTmp_res h) fun _ _ h => Out.ok h
  case tnn3 =>
    exact Rel.bindEq rfl fun _ => Rel.bindEq rfl fun _ => Rel.bindEq rfl fun _ => Rel.bindEq rfl fun _ =>
      Rel.bind (addTmp_res h) fun _ _ h => Rel.bindEq rfl fun _ => Rel.bindEq rfl fun _ => Rel.bindEq rfl fun _ =>
      Rel.bindEq rfl fun _ => Rel.bind (addTmp_res h) fun _ _ h => Rel.bind (reads_updG h) fun _ _ h => Out.ok h
  case tnn4 =>
    refine Rel.ite (fun _ => Rel.err) fun _ => Rel.bindEq rfl fun _ => Rel.bindEq rfl fun _ => Rel.bindEq rfl fun _ =>
      Rel.bindEq rfl fun _ => Rel.bindEq rfl fun _ => Rel.bindEq rfl fun _ => Rel.ite (fun _ => ?_) fun _ => ?_
    · exact Rel.bindEq rfl fun _ => Rel.bindEq rfl fun _ => Rel.bindEq rfl fun _ => Rel.bindEq rfl fun _ =>
        Rel.bindEq rfl fun _ => Rel.bindEq rfl fun _ => Rel.bind (addTmp_res h) fun _ _ h => Out.ok h
    · exact Rel.bindEq rfl fun _ => Rel.bindEq rfl fun _ => Rel.bindEq rfl fun _ => Rel.bindEq rfl fun _ =>
        Rel.bindEq rfl fun _ => Rel.bindEq rfl fun _ => Rel.bindEq rfl fun _ => Rel.bindEq rfl fun _ =>
        Rel.bind (addTmp_res h) fun _ _ h => Out.ok h
  case tnn5 =>
    have fin : ∀ (s : Int) (fp : Vec K), Rel w (SameFront m)
        (loop m (fun i res => do
          let y ← fp.rd i
          let res ← updAt res i (fun x => E.iaddf x y)
          updAt res i (fun x => do
            let d ← i64 (x - s)
            .ok (wrap32 d))) res)
        (loop m (fun i res => do
          let y ← fp.rd i
          let res ← updAt res i (fun x => E.iaddf x y)
          updAt res i (fun x => do
            let d ← i64 (x - s)
            .ok (wrap32 d))) res') := fun s fp =>
      Rel.loop' h fun i _ _ hi h => Rel.bindEq rfl fun _ => Rel.bind (h.updAt hi) fun _ _ h => h.updAt hi
    refine Rel.ite (fun _ => Rel.err) fun _ => Rel.bindEq rfl fun s => Rel.bindEq rfl fun _ => Rel.bindEq rfl fun _ =>
      Rel.bindEq rfl fun _ => Rel.bindEq rfl fun _ => Rel.ite (fun _ => ?_) fun _ => ?_
    · exact Rel.bindEq rfl fun _ => Rel.bindEq rfl fun _ => Rel.bindEq rfl fun _ => Rel.bindEq rfl fun _ =>
        Rel.bindEq rfl fun _ => Rel.bindEq rfl fun fp => Rel.bind (fin s fp) fun _ _ h => Out.ok h
    · exact Rel.bindEq rfl fun _ => Rel.bindEq rfl fun _ => Rel.bindEq rfl fun _ => Rel.bindEq rfl fun _ =>
        Rel.bindEq rfl fun _ => Rel.bindEq rfl fun _ => Rel.bindEq rfl fun _ => Rel.bindEq rfl fun fp =>
        Rel.bind (fin s fp) fun _ _ h => Out.ok h

/-! ## Calls -/

theorem xMvm_local (hr : SameFront m res res') (hv : SameFront n vec vec') :
    Rel w (Out m) (xMvm E cfg x res vec mat m n l) (xMvm E cfg x res' vec' mat' m n l) := by
  unfold xMvm
  refine Rel.ite (fun _ => ?_) fun _ => ?_
  · rw [dMvm_vec hv]
    refine Rel.bind (dMvm_res hr) fun r r' h => ?_
    rw [h.1]
    exact Out.ok h.2
  · refine Rel.bindEq rfl fun mp => ?_
    rw [aMvm_vec hv]
    refine Rel.bind (aMvm_res hr) fun r r' h => ?_
    rw [h.1]
    exact Rel.bindEq rfl fun _ => Rel.bindEq rfl fun _ => Out.ok h.2

theorem dWriteGd_local (h : SameFront (m * n) mat mat') : dWriteGd E cfg c mat m n = dWriteGd E cfg c mat' m n := by
  have key : ∀ i j, i < m → j < n → mat.rd (n * i + j) = mat'.rd (n * i + j) := fun i j hi hj => h.rd (by
    calc n * i + j < n * i + n := by omega
      _ = n * (i + 1) := (Nat.mul_succ n i).symm
      _ ≤ n * m := Nat.mul_le_mul_left n hi
      _ = m * n := Nat.mul_comm n m)
  have keyA : ∀ {σ : Type} {f g : Nat → Nat → σ → C σ} {s : σ}, (∀ i j s, i < m → j < n → f i j s = g i j s) →
      loop m (fun i s => loop n (f i) s) s = loop m (fun i s => loop n (g i) s) s := fun hfg =>
    loop_congr' fun i s hi => loop_congr' fun j s hj => hfg i j s hi hj
  unfold dWriteGd
  cases c.mode <;> dsimp only
  case bnn3 => exact keyA fun i j s hi hj => by rw [key i j hi hj]
  case bnn4 => exact keyA fun i j s hi hj => by rw [key i j hi hj]
  case iUintWOffs => exact keyA fun i j s hi hj => by rw [key i j hi hj]
  case tnn4 =>
    unfold dWriteTcTnn
    split
    · exact keyA fun i j s hi hj => by rw [key i j hi hj]
    · rfl
  case tnn5 =>
    unfold dWriteTcTnn
    split
    · exact keyA fun i j s hi hj => by rw [key i j hi hj]
    · rfl
  all_goals
    refine loop_congr' fun i s hi => ?_
    dsimp only
    congr 1
    exact loop_congr' fun j s hj => by rw [key i j hi hj]

theorem xWrite_local (h : SameFront (m * n) mat mat') : xWrite E cfg x mat m n = xWrite E cfg x mat' m n := by
  unfold xWrite xWriteD dWrite
  rw [dWriteGd_local h]

/-- Both calls stop in the same way, or return the same state and code and results with the same first numbers. -/
def SameOutcome (m : Nat) (a b : R K (World K × Vec Int × Int)) : Prop :=
  (∃ e, a = .error e ∧ b = .error e) ∨
    ∃ w r r' k, a = .ok (w, r, k) ∧ b = .ok (w, r', k) ∧ SameFront m r r'

theorem alike_lift {W : World K} {p q : C (Xbar K × Vec Int)} (h : Rel false (Out m) p q) :
    SameOutcome m (do let r ← lift W p; .ok ({ W with xbar := some r.1 }, r.2, 0))
      (do let r ← lift W q; .ok ({ W with xbar := some r.1 }, r.2, 0)) := by
  cases p with
  | ok s =>
    cases q with
    | ok t =>
      obtain ⟨s1, s2⟩ := s
      obtain ⟨t1, t2⟩ := t
      obtain ⟨h1, h2⟩ : Out m (s1, s2) (t1, t2) := h
      dsimp only at h1 h2
      subst h1
      exact .inr ⟨_, s2, t2, 0, rfl, rfl, h2⟩
    | error f => exact absurd (show false = true from h) (by decide)
  | error e =>
    cases q with
    | ok t => exact absurd (show false = true from h) (by decide)
    | error f =>
      rcases (show false = true ∨ e = f from h) with h | h
      · exact absurd h (by decide)
      · subst h
        cases e <;> exact .inl ⟨_, rfl, rfl⟩

end

end Acs
