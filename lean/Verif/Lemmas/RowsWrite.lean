import Verif.Lemmas.RowsAna
import Verif.Lemmas.WriteInv

/-! # Writes row by row -/

set_option linter.unusedSectionVars false

namespace Acs

/-- The same row `i` of two weight matrices with `m` rows and `n` columns. -/
def SameW (i m n : Nat) (mat mat' : Vec Int) : Prop := i < m → ∀ j, j < n → mat.get (n * i + j) = mat'.get (n * i + j)

theorem SameW.rd {i m n c j : Nat} {mat mat' : Vec Int} (h : SameW i m n mat mat') (hc : c < m) (hj : j < n) :
    Rel true (fun x y => c = i → x = y) (mat.rd (n * c + j)) (mat'.rd (n * c + j)) :=
  Rel.apart fun a b ha hb e => by
    rw [Vec.rd_eq_ok] at ha hb
    subst e
    rw [← ha.2, ← hb.2, h hc j hj]

section
variable {P : Nat → Prop} {i m n : Nat} {mat mat' : Vec Int} {g g' : Gd}

/-- One matrix of cells, written cell by cell. -/
theorem row_dWriteBnn3 (h : GdRow (· = i) i g g') (hw : SameW i m n mat mat') :
    Rel true (GdRow (· = i) i) (dWriteBnn3 mat m n g) (dWriteBnn3 mat' m n g') := by
  unfold dWriteBnn3
  refine Rel.loop' h fun c s t hcm hst => Rel.loop' hst fun j s t hj hst => ?_
  refine Rel.bind (hw.rd hcm hj) fun x x' hx => ?_
  refine Rel.bind (rel_cond fun hc => by rw [hx hc]) fun y y' hy => ?_
  refine Rel.bind (rel_cond fun hc => by rw [hy hc]) fun z z' hz => ?_
  exact Rel.bind (hst.p.wr hz) fun p p' hp => ⟨hp, hst.m, hst.sumW⟩

theorem row_dWriteBnn4 (h : GdRow (· = i) i g g') (hw : SameW i m n mat mat') :
    Rel true (GdRow (· = i) i) (dWriteBnn4 mat m n g) (dWriteBnn4 mat' m n g') := by
  unfold dWriteBnn4
  refine Rel.loop' h fun c s t hcm hst => Rel.loop' hst fun j s t hj hst => ?_
  refine Rel.bind (hw.rd hcm hj) fun x x' hx => ?_
  refine Rel.bind (rel_cond fun hc => by rw [hx hc]) fun y y' hy => ?_
  exact Rel.bind (hst.p.wr fun hc => by rw [hy hc]) fun p p' hp => ⟨hp, hst.m, hst.sumW⟩

theorem row_dWriteTcTnn {sp : List Nat} {o : Bool} (h : GdRow (· = i) i g g') (hw : SameW i m n mat mat') :
    Rel true (GdRow (· = i) i) (dWriteTcTnn sp o mat m n g) (dWriteTcTnn sp o mat' m n g') := by
  unfold dWriteTcTnn
  refine Rel.ite (fun _ => ?_) fun _ => Rel.err
  refine Rel.loop' h fun c s t hcm hst => Rel.loop' hst fun j s t hj hst => ?_
  refine Rel.bind (hw.rd hcm hj) fun x x' hx => ?_
  refine Rel.bind (rel_cond (p := c = i) fun hc => by rw [hx hc]) fun y y' hy => ?_
  refine Rel.bind (hst.p.wr fun hc => by rw [hy hc]) fun p p' hp => ?_
  refine Rel.bind (rel_cond (p := c = i) fun hc => by rw [hy hc]) fun z z' hz => ?_
  exact Rel.bind (hst.m.wr hz) fun q q' hq => ⟨hp, hq, hst.sumW⟩

theorem row_dWriteOffs {st : Bool} {w : Nat} {sp : List Nat} {sh : Vec Nat}
    (h : GdRow (fun r => r / sp.length = i) i g g') (hw : SameW i m n mat mat') :
    Rel true (GdRow (fun r => r / sp.length = i) i) (dWriteOffs st w sp sh mat m n g) (dWriteOffs st w sp sh mat' m n g') := by
  unfold dWriteOffs
  refine Rel.loop' h fun c s t hcm hst => Rel.loop' hst fun j s t hj hst => ?_
  refine Rel.bind (hw.rd hcm hj) fun x x' hx => ?_
  refine Rel.bindEq rfl fun o => ?_
  refine Rel.bind (rel_cond (p := c = i) fun hc => by rw [hx hc]) fun y y' hy => ?_
  refine Rel.loop' hst fun u s t hu hst => ?_
  refine Rel.bindEq rfl fun k => ?_
  refine Rel.bind (rel_cond (p := c = i) fun hc => by rw [hy hc]) fun z z' hz => ?_
  exact Rel.bind (hst.p.wr fun hc => hz (by have hc : (c * sp.length + u) / sp.length = i := hc; rwa [blk_div hu] at hc))
    fun p p' hp => ⟨hp, hst.m, hst.sumW⟩

theorem lt_of_blk {t S : Nat} (h : t < m * S) : t / S < m := Nat.div_lt_of_lt_mul (by rwa [Nat.mul_comm] at h)

theorem row_gdDiff {sp : List Nat} {sh : Vec Nat} (h : GdRow (fun r => r / sp.length = i) i g g') (hw : SameW i m n mat mat') :
    GdRow (fun r => r / sp.length = i) i (gdDiff sp sh mat m n g) (gdDiff sp sh mat' m n g') :=
  ⟨h.p.over fun t j ht hT hj => by rw [ht, hw (ht ▸ lt_of_blk hT) j hj],
    h.m.over fun t j ht hT hj => by rw [ht, hw (ht ▸ lt_of_blk hT) j hj],
    h.sumW.over fun t ht hT => by
      have ht : t = i := ht
      subst ht
      exact Finset.sum_congr rfl fun j hj => hw hT j (Finset.mem_range.1 hj)⟩

theorem row_gdPM (h : GdRow (· = i) i g g') (hw : SameW i m n mat mat') :
    GdRow (· = i) i (gdPM mat m n g) (gdPM mat' m n g') :=
  ⟨h.p.over fun t j ht hT hj => by subst ht; rw [hw hT j hj], h.m.over fun t j ht hT hj => by subst ht; rw [hw hT j hj],
    h.sumW.over fun t ht hT => by
      have ht : t = i := ht
      subst ht
      exact Finset.sum_congr rfl fun j hj => hw hT j (Finset.mem_range.1 hj)⟩

end

section
variable {K : Type} [Field K] [LinearOrder K] [IsStrictOrderedRing K] [FloorRing K]
variable {E : Env K} {cfg : Cfg K} {k : Core K} {m n i : Nat} {mat mat' : Vec Int} {P : Nat → Prop}
variable {g : Gd} {ia : Ia K} {p : Option (Solver K)}

theorem row_dWriteGd (hk : GdRow (inRow cfg i) i k.gd g) (hm : k.mode = cfg.mode) (hw : SameW i m n mat mat') :
    Rel true (GdRow (inRow cfg i) i) (dWriteGd E cfg k mat m n) (dWriteGd E cfg (k.put g ia p) mat' m n) := by
  have int : ∀ {md : Mode}, k.mode = md → md.isInt = true → inRow cfg i = fun r => r / cfg.split.length = i := by
    intro md h1 h2
    funext r
    exact propext (inRow_int (by rw [← hm, h1, h2]))
  have non : ∀ {md : Mode}, k.mode = md → md.isInt = false → inRow cfg i = fun r => r = i := by
    intro md h1 h2
    exact inRow_non (by rw [← hm, h1, h2])
  unfold dWriteGd
  have e : (k.put g ia p).mode = k.mode := rfl
  rw [e]
  split <;> rename_i hmd
  case h_6 =>
    rw [int hmd rfl] at hk ⊢
    exact row_dWriteOffs hk hw
  case h_11 =>
    rw [non hmd rfl] at hk ⊢
    exact row_dWriteBnn3 hk hw
  case h_12 =>
    rw [non hmd rfl] at hk ⊢
    exact row_dWriteBnn4 hk hw
  case h_16 =>
    rw [non hmd rfl] at hk ⊢
    exact row_dWriteTcTnn hk hw
  case h_17 =>
    rw [non hmd rfl] at hk ⊢
    exact row_dWriteTcTnn hk hw
  all_goals
    first
      | rw [int hmd rfl] at hk ⊢
        refine Rel.apart fun a b ha hb => ?_
        rw [dWriteDiff_inv ha, dWriteDiff_inv hb]
        exact row_gdDiff hk hw
      | rw [non hmd rfl] at hk ⊢
        refine Rel.apart fun a b ha hb => ?_
        first
          | rw [(dWriteDiffBnn_inv ha).1, (dWriteDiffBnn_inv hb).1]; exact row_gdPM hk hw
          | rw [(dWriteDiffTnn_inv ha).1, (dWriteDiffTnn_inv hb).1]; exact row_gdPM hk hw

/-! ## Currents -/

theorem row_addNoise (hn : cfg.hrsNoise ≤ 0 ↔ cfg.lrsNoise ≤ 0) {q : Prop} {r : Nat} {x x' : K} {c c' : Int}
    (h : q → x = x') (h' : q → c = c') :
    Rel true (fun y y' => (q → y.1 = y'.1) ∧ y.2 = y'.2) (addNoise E cfg r x c) (addNoise E cfg r x' c') := by
  refine Rel.apart fun a b ha hb => ⟨fun hq => ?_, ?_⟩
  · rw [← h hq, ← h' hq, ha] at hb
    rw [Except.ok.inj hb]
  · unfold addNoise at ha hb
    by_cases hh : cfg.hrsNoise ≤ 0
    · have hl := hn.1 hh
      simp only [if_pos hh, if_pos hl] at ha hb
      have : ∀ {z : K} {d : Int} {y : K × Nat}, (if d = 0 then Except.ok (z, r) else if d = 1 then Except.ok (z, r)
          else Except.error Fault.exited : C (K × Nat)) = .ok y → y.2 = r := by
        intro z d y hy
        split at hy
        · rw [← Except.ok.inj hy]
        · split at hy
          · rw [← Except.ok.inj hy]
          · cases hy
      rw [this ha, this hb]
    · have hl : ¬cfg.lrsNoise ≤ 0 := fun hl => hh (hn.2 hl)
      simp only [if_neg hh, if_neg hl] at ha hb
      have : ∀ {z : K} {d : Int} {y : K × Nat}, (if d = 0 then Except.ok (z, r + 1) else if d = 1 then Except.ok (z, r + 1)
          else Except.error Fault.exited : C (K × Nat)) = .ok y → y.2 = r + 1 := by
        intro z d y hy
        split at hy
        · rw [← Except.ok.inj hy]
        · split at hy
          · rw [← Except.ok.inj hy]
          · cases hy
      rw [this ha, this hb]

theorem row_aWritePM (hg : GdRow P i k.gd g) (hi : IaRow P k.ia ia) :
    Rel true (IaRow P) (aWritePM E cfg k m n) (aWritePM E cfg (k.put g ia p) m n) := by
  unfold aWritePM
  refine Rel.loop' hi fun c s t _ hst => Rel.bindEq rfl fun st => Rel.loop' hst fun j s t _ hst => ?_
  refine Rel.bindEq rfl fun step => ?_
  refine Rel.bind (rel_cond (p := P c) fun hc => hg.p.rd hc) fun x x' hx => ?_
  refine Rel.bind (hst.p.wr fun hc => by rw [hx hc]) fun y y' hy => ?_
  refine Rel.bind (rel_cond (p := P c) fun hc => hg.m.rd hc) fun x x' hx => ?_
  exact Rel.bind (hst.m.wr fun hc => by rw [hx hc]) fun z z' hz => ⟨hy, hz, hst.pO, hst.mO⟩

theorem row_aWriteP (hg : GdRow P i k.gd g) (hi : IaRow P k.ia ia) :
    Rel true (IaRow P) (aWriteP E cfg k m n) (aWriteP E cfg (k.put g ia p) m n) := by
  unfold aWriteP
  refine Rel.loop' hi fun c s t _ hst => Rel.bindEq rfl fun st => Rel.loop' hst fun j s t _ hst => ?_
  refine Rel.bindEq rfl fun step => ?_
  refine Rel.bind (rel_cond (p := P c) fun hc => hg.p.rd hc) fun x x' hx => ?_
  exact Rel.bind (hst.p.wr fun hc => by rw [hx hc]) fun y y' hy => ⟨hy, hst.m, hst.pO, hst.mO⟩

/-- Cells and position in the random stream. -/
def IaRng (P : Nat → Prop) (s t : Ia K × Nat) : Prop := IaRow P s.1 t.1 ∧ s.2 = t.2

theorem row_aWritePMBnnTnn (hn : cfg.hrsNoise ≤ 0 ↔ cfg.lrsNoise ≤ 0) {r : Nat} (hg : GdRow P i k.gd g) (hi : IaRow P k.ia ia) :
    Rel true (IaRng P) (aWritePMBnnTnn E cfg k r m n) (aWritePMBnnTnn E cfg (k.put g ia p) r m n) := by
  unfold aWritePMBnnTnn
  refine Rel.loop' (I := IaRng P) ⟨hi, rfl⟩ fun c s t _ hst => Rel.loop' hst fun j s t _ hst => ?_
  obtain ⟨s, sr⟩ := s
  obtain ⟨t, tr⟩ := t
  obtain ⟨hst, rfl⟩ := hst
  refine Rel.bind (rel_cond (p := P c) fun hc => hg.p.rd hc) fun x x' hx => ?_
  refine Rel.bind (row_addNoise hn (q := P c) (fun hc => by rw [hx hc]) hx) fun y y' hy => ?_
  refine Rel.bind (hst.p.wr hy.1) fun p p' hp => ?_
  refine Rel.bind (hst.pO.wr hy.1) fun pO pO' hpO => ?_
  refine Rel.bind (rel_cond (p := P c) fun hc => hg.m.rd hc) fun x x' hx => ?_
  rw [hy.2]
  refine Rel.bind (row_addNoise hn (q := P c) (fun hc => by rw [hx hc]) hx) fun y y' hy => ?_
  refine Rel.bind (hst.m.wr hy.1) fun q q' hq => ?_
  exact Rel.bind (hst.mO.wr hy.1) fun qO qO' hqO => ⟨⟨hp, hq, hpO, hqO⟩, hy.2⟩

theorem row_aWritePBnn (hn : cfg.hrsNoise ≤ 0 ↔ cfg.lrsNoise ≤ 0) {r : Nat} (hg : GdRow P i k.gd g) (hi : IaRow P k.ia ia) :
    Rel true (IaRng P) (aWritePBnn E cfg k r m n) (aWritePBnn E cfg (k.put g ia p) r m n) := by
  unfold aWritePBnn
  refine Rel.loop' (I := IaRng P) ⟨hi, rfl⟩ fun c s t _ hst => Rel.loop' hst fun j s t _ hst => ?_
  obtain ⟨s, sr⟩ := s
  obtain ⟨t, tr⟩ := t
  obtain ⟨hst, rfl⟩ := hst
  refine Rel.bind (rel_cond (p := P c) fun hc => hg.p.rd hc) fun x x' hx => ?_
  refine Rel.bind (row_addNoise hn (q := P c) (fun hc => by rw [hx hc]) hx) fun y y' hy => ?_
  refine Rel.bind (hst.p.wr hy.1) fun p p' hp => ?_
  exact Rel.bind (hst.pO.wr hy.1) fun pO pO' hpO => ⟨⟨hp, hst.m, hpO, hst.mO⟩, hy.2⟩

/-! ## The solver -/

/-- Optional second matrices. -/
def OptRow (P : Nat → Prop) : Option (Mat K) → Option (Mat K) → Prop
  | none, none => True
  | some A, some A' => RowEq P A A'
  | _, _ => False

/-- Conductances seen by the solver. -/
structure ColEq (P : Nat → Prop) (A A' : Mat K) : Prop where
  rows : A.rows = A'.rows
  cols : A.cols = A'.cols
  get : ∀ c, P c → ∀ j, A.get j c = A'.get j c

theorem ColEq.refl (A : Mat K) : ColEq P A A := ⟨rfl, rfl, fun _ _ _ => rfl⟩

theorem ColEq.wr {A A' : Mat K} {r j : Nat} {x y : K} (h : ColEq P A A') (hx : P j → x = y) :
    Rel true (ColEq P) (A.wr r j x) (A'.wr r j y) := by
  unfold Mat.wr
  rw [← h.rows, ← h.cols]
  split
  · refine ⟨rfl, rfl, fun k hk l => ?_⟩
    show (if l = r ∧ k = j then x else A.get l k) = if l = r ∧ k = j then y else A'.get l k
    split
    · next e => exact hx (e.2 ▸ hk)
    · exact h.get k hk l
  · exact Or.inl rfl

theorem row_divVRead {s : Solver K} {A A' : Mat K} (h : RowEq P A A') :
    Rel true (RowEq P) (divVRead E cfg s A) (divVRead E cfg s A') := by
  unfold divVRead
  refine Rel.loop' (RowEq.refl _) fun c u v _ huv => Rel.loop' huv fun j u v _ huv => ?_
  refine Rel.bind (rel_cond (p := P c) fun hc => h.rd hc) fun x x' hx => ?_
  exact Rel.bind (rel_cond (p := P c) fun hc => by rw [hx hc]) fun y y' hy => huv.wr hy

theorem row_divVReadOpt {s : Solver K} {B B' : Option (Mat K)} (h : OptRow P B B') :
    Rel true (OptRow P) (divVReadOpt E cfg s B) (divVReadOpt E cfg s B') := by
  cases B with
  | none =>
    cases B' with
    | none => exact trivial
    | some _ => exact absurd h id
  | some A =>
    cases B' with
    | none => exact absurd h id
    | some A' =>
      have h : RowEq P A A' := h
      unfold divVReadOpt
      dsimp only
      rw [← h.rows]
      exact Rel.ite (fun _ => trivial) fun _ => Rel.bind (row_divVRead h) fun x x' hx => hx

theorem row_wEncode {s : Solver K} {A A' : Mat K} {B B' : Option (Mat K)} (hA : RowEq P A A') (hB : OptRow P B B') :
    Rel true (ColEq fun c => P (colRow s.mode c)) (wEncode s A B m n) (wEncode s A' B' m n) := by
  unfold wEncode colRow
  have two : ∀ x : Nat, 2 * x / 2 = x := fun x => by omega
  have two' : ∀ x : Nat, (2 * x + 1) / 2 = x := fun x => by omega
  cases hw : s.mode.wEnc with
  | none => exact Rel.apart fun _ _ he _ => by cases he
  | some w =>
    cases w with
    | single =>
      dsimp only
      unfold wEncSingle
      refine Rel.loop' (ColEq.refl _) fun c u v _ huv => Rel.loop' huv fun j u v _ huv => ?_
      exact Rel.bind (rel_cond (p := P c) fun hc => hA.rd hc) fun x x' hx => huv.wr hx
    | doubleCol =>
      cases B with
      | none => exact Rel.apart fun _ _ he _ => by cases he
      | some B =>
        cases B' with
        | none => exact absurd hB id
        | some B' =>
          have hB : RowEq P B B' := hB
          dsimp only
          unfold wEncDoubleCol
          refine Rel.loop' (ColEq.refl _) fun c u v _ huv => Rel.loop' huv fun j u v _ huv => ?_
          refine Rel.bind (rel_cond (p := P c) fun hc => hA.rd hc) fun x x' hx => ?_
          refine Rel.bind (rel_cond (p := P c) fun hc => hB.rd hc) fun y y' hy => ?_
          refine Rel.bind (huv.wr fun hc => hx (by rwa [two] at hc)) fun u v huv => ?_
          exact huv.wr fun hc => hy (by rwa [two'] at hc)
    | doubleRow =>
      cases B with
      | none => exact Rel.apart fun _ _ he _ => by cases he
      | some B =>
        cases B' with
        | none => exact absurd hB id
        | some B' =>
          have hB : RowEq P B B' := hB
          dsimp only
          unfold wEncDoubleRow
          refine Rel.loop' (ColEq.refl _) fun c u v _ huv => Rel.loop' huv fun j u v _ huv => ?_
          refine Rel.bind (rel_cond (p := P c) fun hc => hA.rd hc) fun x x' hx => ?_
          refine Rel.bind (rel_cond (p := P c) fun hc => hB.rd hc) fun y y' hy => ?_
          refine Rel.bind (huv.wr hx) fun u v huv => ?_
          exact huv.wr hy
    | quad =>
      cases B with
      | none => exact Rel.apart fun _ _ he _ => by cases he
      | some B =>
        cases B' with
        | none => exact absurd hB id
        | some B' =>
          have hB : RowEq P B B' := hB
          dsimp only
          unfold wEncQuad
          refine Rel.loop' (ColEq.refl _) fun c u v _ huv => Rel.loop' huv fun j u v _ huv => ?_
          refine Rel.bind (rel_cond (p := P c) fun hc => hA.rd hc) fun x x' hx => ?_
          refine Rel.bind (rel_cond (p := P c) fun hc => hB.rd hc) fun y y' hy => ?_
          refine Rel.bind (huv.wr fun hc => hx (by rwa [two] at hc)) fun u v huv => ?_
          refine Rel.bind (huv.wr fun hc => hy (by rwa [two] at hc)) fun u v huv => ?_
          refine Rel.bind (huv.wr fun hc => hy (by rwa [two'] at hc)) fun u v huv => ?_
          exact huv.wr fun hc => hx (by rwa [two'] at hc)

theorem row_pushSolver {md : Mode} {q q' : Option (Solver K)} {A A' : Mat K} {B B' : Option (Mat K)} (hq : SolRow P md q q')
    (hA : RowEq P A A') (hB : OptRow P B B') :
    Rel true (SolRow P md) (pushSolver E cfg q A B m n) (pushSolver E cfg q' A' B' m n) := by
  unfold pushSolver
  refine Rel.ite (fun _ => ?_) fun _ => hq
  cases q with
  | none => exact Rel.apart fun _ _ he _ => by cases he
  | some s =>
    cases q' with
    | none => exact Rel.apart fun _ _ _ he => by cases he
    | some s' =>
      obtain ⟨hm, ⟨ga', rfl⟩, -⟩ := hq
      dsimp only
      unfold setConductance
      refine Rel.bind (P := fun s s' => SolRow P md (some s) (some s')) ?_ fun u v h => h
      refine Rel.bind (row_divVRead (s := s) hA) fun x x' hx => ?_
      refine Rel.bind (row_divVReadOpt (s := s) hB) fun y y' hy => ?_
      refine Rel.bind (row_wEncode (s := s) hx hy) fun z z' hz => ?_
      rw [← hz.rows]
      refine Rel.ite (fun _ => Rel.err) fun _ => Rel.bindEq rfl fun w => ?_
      refine ⟨hm, ⟨_, rfl⟩, rfl, hz.rows, hz.cols, fun c hc => hz.get c ?_⟩
      rw [hm]
      exact hc

end

end Acs
