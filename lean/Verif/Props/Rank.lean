import Verif.Lemmas.Rank
import Verif.Props.Reading

/-!
# C109: the order of the results
-/

set_option linter.unusedSectionVars false

namespace Acs.Props

open Finset Spec

section
variable {K : Type} [Field K] [LinearOrder K] [IsStrictOrderedRing K] [FloorRing K]
variable {E : Env K} {cfg : Cfg K} {mat vec res : Vec Int} {m n : Nat} {l : String}
variable {x : Xbar K} {h : List Op} {lo hi : K}

/-- C109.  Through any real converter, however coarse and wherever its range is, a mapping with one reading per row never adds
less to the row with the larger product. -/
theorem C109_order (ho : oneReading cfg.mode) (hE : ExactArith E) (hok : CfgOk cfg) (hid : Ideal cfg)
    (hr : Runs E cfg h x) (hl : Legal cfg (lastWrite h) m n) (hd : Accepted cfg m n)
    (hv : n ≤ vec.size) (hres : m ≤ res.size) (hx : LegalVec cfg vec n) (hA : AdcOk cfg l lo hi)
    (hroom : ReadRoom cfg lo hi (stored h) res vec m n) :
    ∃ x' r, xMvm E cfg x res vec mat m n l = .ok (x', r) ∧ KeepsOrder r res (stored h) vec m n := by
  obtain ⟨x', r, h1, h2⟩ := C91_reads (mat := mat) hE hok hid (fun e => by rw [e] at ho; exact ho.elim) hr hl
    (fun hk => by cases hm : cfg.mode <;> simp only [hm, oneReading, keepsRowSums] at ho hk) hd hv hres hx hA hroom
  have hW : ∀ i, i < m → ∀ j, j < n → LegalW cfg (stored h i j) := fun i hi j hj => by
    obtain ⟨w, e, hw⟩ := hl i j hi hj
    rw [stored, e]
    exact hw
  refine ⟨x', r, h1, fun i i' hi hi' hp => ?_⟩
  rw [h2.head i hi, h2.head i' hi', add_sub_cancel_left, add_sub_cancel_left]
  exact rowResult_mono ho hA hx (hW i hi) (hW i' hi') hp

/-- C109, for every legal sequence of calls on a new crossbar. -/
theorem C109_session (ho : oneReading cfg.mode) (hE : ExactArith E) (hok : CfgOk cfg) (hid : Ideal cfg) {rng w : Nat}
    {hists : List (String × Hist K)} (hx : mkXbar E cfg rng hists = .ok x) {ops : List Op} (hl : LegalOps cfg w [] ops)
    {rg : String → K × K} (hC : AllReadable cfg rg [] ops) :
    ∃ x' rs, exec E cfg x ops = .ok (x', rs) ∧ AnswersOrdered [] ops rs := by
  obtain ⟨x', rs, h1, h2⟩ := C91_session hE hok hid (fun e => by rw [e] at ho; exact ho.elim) hx hl hC
  exact ⟨x', rs, h1, answers_ordered ho .nil hl hC h2⟩

/-- C109, from the configuration to the results of the interface. -/
theorem C109_interface {wd : World K} {ops : List Op} {k : Nat} {rg : String → K × K} (ho : oneReading wd.cfg.mode)
    (hE : ExactArith E) (hw : Settled E [] wd) (hid : Ideal wd.cfg) (hl : LegalOps wd.cfg k [] ops) (hh : Heights ops)
    (hC : AllReadable wd.cfg rg [] ops) :
    ∃ w' rs, serve E wd ops = .ok (w', rs, ops.map fun _ => 0) ∧ AnswersOrdered [] ops rs := by
  obtain ⟨w', rs, h1, h2⟩ := C91_interface hE hw hid (fun e => by rw [e] at ho; exact ho.elim)
    (fun e => by cases hm : wd.cfg.mode <;> rw [hm] at ho e <;> first | exact ho.elim | cases e) hl hh hC
  exact ⟨w', rs, h1, answers_ordered ho .nil hl hC h2⟩

/-- C109.  Rows with equal products get equal results, and the row with the largest product has the largest result. -/
theorem C109_largest {r : Vec Int} {W : Nat → Nat → Int} (hk : KeepsOrder r res W vec m n) :
    (∀ i i', i < m → i' < m → prod W vec n i = prod W vec n i' → r.get i - res.get i = r.get i' - res.get i') ∧
    ∀ t, t < m → (∀ i, i < m → prod W vec n i ≤ prod W vec n t) → ∀ i, i < m → r.get i - res.get i ≤ r.get t - res.get t :=
  ⟨fun i i' hi hi' e => le_antisymm (hk i i' hi hi' e.le) (hk i' i hi' hi e.ge), fun t ht h i hi => hk i t hi ht (h i hi)⟩

end

/-- The claim for one mapping, with the converter that the configuration allows for it and the range of the `MAX` calibration. -/
def OrderClaim (md : Mode) : Prop :=
  ∀ (cfg : Cfg ℚ) (h : List Op) (x x' : Xbar ℚ) (vec res r mat : Vec Int) (m n : Nat) (lo hi : ℚ), cfg.mode = md → CfgOk cfg →
    Ideal cfg → 0 ≤ cfg.hrs → cfg.hrs < cfg.lrs → cfg.calibMode = .max → adcFits cfg → Runs Ex.env cfg h x →
    Legal cfg (lastWrite h) m n → WidthIs n h → Accepted cfg m n → n ≤ vec.size → m ≤ res.size → LegalVec cfg vec n →
    AdcOk cfg "" lo hi → ReadRoom cfg lo hi (stored h) res vec m n → xMvm Ex.env cfg x res vec mat m n "" = .ok (x', r) →
    KeepsOrder r res (stored h) vec m n

namespace Ex'

/-- A converter with two bits for four columns. -/
def twoBit (md : Mode) : Cfg ℚ :=
  { Ex.acfg md with
    N := 4
    adcType := match md with
      | .iUintWOffs | .bnn3 | .bnn4 | .bnn5 | .tnn4 | .tnn5 => .pos
      | _ => .sym
    resolution := 2 }

def twoBitRange : Mode → ℚ × ℚ
  | .iUintWOffs | .bnn3 | .bnn4 | .bnn5 | .tnn4 | .tnn5 => (0, 40)
  | _ => (-20, 20)

/-- Two rows whose products the converter turns around: the first product is smaller. -/
def turnedMat : Mode → Vec Int
  | .iDiffWDiff1 | .iDiffWDiff2 | .iTcWDiff => Vec.ofList [-1, 6, 1, 1]
  | .iOffsWDiff => Vec.ofList [-7, -7, -7, -1]
  | .iUintWDiff => Vec.ofList [1, 1, -7, 6]
  | .iUintWOffs => Vec.ofList [-4, -1, -4, 2]
  | .bnn1 => Vec.ofList [1, 1, -1, 1, 1, 1]
  | .bnn2 | .tnn2 => Vec.ofList [1, 1, 1, 1, 1, -1]
  | .bnn3 => Vec.ofList [1, 1, 1, 1, 1, -1, -1, -1]
  | .bnn4 => Vec.ofList [1, 1, 1, -1, -1, -1, -1, -1]
  | _ => Vec.ofList [1, 1, 1, 1, -1, 0]

def turnedVec : Mode → Vec Int
  | .iDiffWDiff1 | .iDiffWDiff2 | .iTcWDiff => Vec.ofList [-2, -2]
  | .iOffsWDiff => Vec.ofList [1, 1]
  | .iUintWDiff | .iUintWOffs => Vec.ofList [1, 3]
  | .bnn1 | .tnn4 => Vec.ofList [-1, -1, 1]
  | .bnn2 | .tnn2 => Vec.ofList [1, 1, -1]
  | .bnn3 => Vec.ofList [-1, 1, -1, -1]
  | .bnn4 => Vec.ofList [1, -1, -1, -1]
  | _ => Vec.ofList [1, -1, 1]

theorem twoBit_ok (md : Mode) : CfgOk (twoBit md) := Ex.acfg_ok md

theorem twoBit_ideal (md : Mode) : Ideal (twoBit md) :=
  ⟨rfl, rfl, rfl, rfl, rfl, fun _ => ⟨le_refl 0, le_refl 0⟩, by show (5 : ℚ) ≠ 10; norm_num, by cases md <;> decide⟩

theorem twoBit_adc (md : Mode) : AdcOk (twoBit md) "" (twoBitRange md).1 (twoBitRange md).2 := by
  cases md <;> exact ⟨by decide, by decide, by show (2 : Int) ≤ 30; decide, by decide +kernel, by decide +kernel⟩

theorem twoBit_fits (md : Mode) : adcFits (twoBit md) := by cases md <;> rfl

theorem twoBit_accepted {md : Mode} {n : Nat} (h : n ≤ 4) : Accepted (twoBit md) 2 n :=
  ⟨le_refl 2, h, by omega⟩

/-- The claim is refuted by one run of the two rows. -/
theorem turned {md : Mode} {n : Nat} (hn : n ≤ 4) (hv : n ≤ (turnedVec md).size)
    (hW : ∀ i j, i < 2 → j < n → LegalW (twoBit md) (entry (turnedMat md) n i j)) (hx : LegalVec (twoBit md) (turnedVec md) n)
    (hroom : ReadRoom (twoBit md) (twoBitRange md).1 (twoBitRange md).2 (stored [.write (turnedMat md) 2 n]) Ex.res
      (turnedVec md) 2 n)
    (hp : prod (stored [.write (turnedMat md) 2 n]) (turnedVec md) n 0 < prod (stored [.write (turnedMat md) 2 n]) (turnedVec md) n 1)
    (hrun : Ex.okAnd (mkXbar Ex.env (twoBit md) 0 []) (fun x => Ex.okAnd (xWrite Ex.env (twoBit md) x (turnedMat md) 2 n) fun y =>
      Ex.okAnd (xMvm Ex.env (twoBit md) y Ex.res (turnedVec md) (turnedMat md) 2 n "") fun q =>
        decide (q.2.get 1 - 20 < q.2.get 0 - 10)) = true) : ¬OrderClaim md := fun hc => by
  obtain ⟨x, x', r, h1, h2, h3⟩ := Ex.multiplied (p := fun _ r => decide (r.get 1 - 20 < r.get 0 - 10)) hrun
  have := hc (twoBit md) _ x x' (turnedVec md) Ex.res r (turnedMat md) 2 n _ _ rfl (twoBit_ok md) (twoBit_ideal md)
    (by show (0 : ℚ) ≤ 5; norm_num) (by show (5 : ℚ) < 10; norm_num) rfl (twoBit_fits md) h1
    (fun i j hi hj => ⟨_, by simp [lastWrite, hi, hj], hW i j hi hj⟩)
    (fun op hop => by obtain rfl := List.mem_singleton.1 hop; rfl) (twoBit_accepted hn) hv (by decide) hx (twoBit_adc md) hroom h2
    0 1 (by decide) (by decide) hp.le
  exact absurd this (not_le.2 (of_decide_eq_true h3))

theorem forall_lt {P : Nat → Prop} {n : Nat} (h : ∀ j : Fin n, P j) (j : Nat) (hj : j < n) : P j := h ⟨j, hj⟩

theorem forall_block {P : Nat → Nat → Prop} {m n : Nat} (h : ∀ i : Fin m, ∀ j : Fin n, P i j) (i j : Nat) (hi : i < m)
    (hj : j < n) : P i j := h ⟨i, hi⟩ ⟨j, hj⟩

end Ex'

/-- C109.  Every other mapping turns some products around, already with ideal cells and the converter meant for it. -/
theorem C109_others (md : Mode) (hmd : ¬oneReading md) : ¬OrderClaim md := by
  cases md <;> first | exact absurd trivial hmd | skip
  case iDiffWDiff1 =>
    refine Ex'.turned (n := 2) (by decide) (by decide) (Ex'.forall_block ?_) (Ex'.forall_lt ?_)
      ⟨Ex.two (by decide +kernel) (by decide +kernel), fun h => by cases h⟩ (by decide +kernel) (by decide +kernel)
    · show ∀ i j : Fin 2, |entry (Ex'.turnedMat .iDiffWDiff1) 2 i j| < 2 ^ 3
      decide
    · show ∀ j : Fin 2, -2 ^ 2 ≤ (Ex'.turnedVec .iDiffWDiff1).get j ∧ (Ex'.turnedVec .iDiffWDiff1).get j < 2 ^ 2
      decide
  case iDiffWDiff2 =>
    refine Ex'.turned (n := 2) (by decide) (by decide) (Ex'.forall_block ?_) (Ex'.forall_lt ?_)
      ⟨Ex.two (by decide +kernel) (by decide +kernel), fun h => by cases h⟩ (by decide +kernel) (by decide +kernel)
    · show ∀ i j : Fin 2, |entry (Ex'.turnedMat .iDiffWDiff2) 2 i j| < 2 ^ 3
      decide
    · show ∀ j : Fin 2, -2 ^ 2 ≤ (Ex'.turnedVec .iDiffWDiff2).get j ∧ (Ex'.turnedVec .iDiffWDiff2).get j < 2 ^ 2
      decide
  case iOffsWDiff =>
    refine Ex'.turned (n := 2) (by decide) (by decide) (Ex'.forall_block ?_) (Ex'.forall_lt ?_)
      ⟨Ex.two (by decide +kernel) (by decide +kernel), fun h => by cases h⟩ (by decide +kernel) (by decide +kernel)
    · show ∀ i j : Fin 2, |entry (Ex'.turnedMat .iOffsWDiff) 2 i j| < 2 ^ 3
      decide
    · show ∀ j : Fin 2, -2 ^ 2 ≤ (Ex'.turnedVec .iOffsWDiff).get j ∧ (Ex'.turnedVec .iOffsWDiff).get j < 2 ^ 2
      decide
  case iTcWDiff =>
    refine Ex'.turned (n := 2) (by decide) (by decide) (Ex'.forall_block ?_) (Ex'.forall_lt ?_)
      ⟨Ex.two (by decide +kernel) (by decide +kernel), fun h => by cases h⟩ (by decide +kernel) (by decide +kernel)
    · show ∀ i j : Fin 2, |entry (Ex'.turnedMat .iTcWDiff) 2 i j| < 2 ^ 3
      decide
    · show ∀ j : Fin 2, -2 ^ 2 ≤ (Ex'.turnedVec .iTcWDiff).get j ∧ (Ex'.turnedVec .iTcWDiff).get j < 2 ^ 2
      decide
  case iUintWDiff =>
    refine Ex'.turned (n := 2) (by decide) (by decide) (Ex'.forall_block ?_) (Ex'.forall_lt ?_)
      ⟨Ex.two (by decide +kernel) (by decide +kernel), fun h => by cases h⟩ (by decide +kernel) (by decide +kernel)
    · show ∀ i j : Fin 2, |entry (Ex'.turnedMat .iUintWDiff) 2 i j| < 2 ^ 3
      decide
    · show ∀ j : Fin 2, 0 ≤ (Ex'.turnedVec .iUintWDiff).get j ∧ (Ex'.turnedVec .iUintWDiff).get j < 2 ^ 3
      decide
  case iUintWOffs =>
    refine Ex'.turned (n := 2) (by decide) (by decide) (Ex'.forall_block ?_) (Ex'.forall_lt ?_)
      ⟨Ex.two (by decide +kernel) (by decide +kernel), fun _ => Ex.two (by decide +kernel) (by decide +kernel)⟩
      (by decide +kernel) (by decide +kernel)
    · show ∀ i j : Fin 2, -2 ^ 2 ≤ entry (Ex'.turnedMat .iUintWOffs) 2 i j ∧ entry (Ex'.turnedMat .iUintWOffs) 2 i j < 2 ^ 2
      decide
    · show ∀ j : Fin 2, 0 ≤ (Ex'.turnedVec .iUintWOffs).get j ∧ (Ex'.turnedVec .iUintWOffs).get j < 2 ^ 3
      decide
  case bnn1 =>
    refine Ex'.turned (n := 3) (by decide) (by decide) (Ex'.forall_block ?_) (Ex'.forall_lt ?_)
      ⟨Ex.two (by decide +kernel) (by decide +kernel), fun h => by cases h⟩ (by decide +kernel) (by decide +kernel)
    · show ∀ i : Fin 2, ∀ j : Fin 3, entry (Ex'.turnedMat .bnn1) 3 i j = 1 ∨ entry (Ex'.turnedMat .bnn1) 3 i j = -1
      decide
    · show ∀ j : Fin 3, (Ex'.turnedVec .bnn1).get j = 1 ∨ (Ex'.turnedVec .bnn1).get j = -1
      decide
  case bnn2 =>
    refine Ex'.turned (n := 3) (by decide) (by decide) (Ex'.forall_block ?_) (Ex'.forall_lt ?_)
      ⟨Ex.two (by decide +kernel) (by decide +kernel), fun h => by cases h⟩ (by decide +kernel) (by decide +kernel)
    · show ∀ i : Fin 2, ∀ j : Fin 3, entry (Ex'.turnedMat .bnn2) 3 i j = 1 ∨ entry (Ex'.turnedMat .bnn2) 3 i j = -1
      decide
    · show ∀ j : Fin 3, (Ex'.turnedVec .bnn2).get j = 1 ∨ (Ex'.turnedVec .bnn2).get j = -1
      decide
  case bnn3 =>
    refine Ex'.turned (n := 4) (by decide) (by decide) (Ex'.forall_block ?_) (Ex'.forall_lt ?_)
      ⟨Ex.two (by decide +kernel) (by decide +kernel), fun h => by cases h⟩ (by decide +kernel) (by decide +kernel)
    · show ∀ i : Fin 2, ∀ j : Fin 4, entry (Ex'.turnedMat .bnn3) 4 i j = 1 ∨ entry (Ex'.turnedMat .bnn3) 4 i j = -1
      decide
    · show ∀ j : Fin 4, (Ex'.turnedVec .bnn3).get j = 1 ∨ (Ex'.turnedVec .bnn3).get j = -1
      decide
  case bnn4 =>
    refine Ex'.turned (n := 4) (by decide) (by decide) (Ex'.forall_block ?_) (Ex'.forall_lt ?_)
      ⟨Ex.two (by decide +kernel) (by decide +kernel), fun h => by cases h⟩ (by decide +kernel) (by decide +kernel)
    · show ∀ i : Fin 2, ∀ j : Fin 4, entry (Ex'.turnedMat .bnn4) 4 i j = 1 ∨ entry (Ex'.turnedMat .bnn4) 4 i j = -1
      decide
    · show ∀ j : Fin 4, (Ex'.turnedVec .bnn4).get j = 1 ∨ (Ex'.turnedVec .bnn4).get j = -1
      decide
  case tnn2 =>
    refine Ex'.turned (n := 3) (by decide) (by decide) (Ex'.forall_block ?_) (Ex'.forall_lt ?_)
      ⟨Ex.two (by decide +kernel) (by decide +kernel), fun h => by cases h⟩ (by decide +kernel) (by decide +kernel)
    · show ∀ i : Fin 2, ∀ j : Fin 3, entry (Ex'.turnedMat .tnn2) 3 i j = 1 ∨ entry (Ex'.turnedMat .tnn2) 3 i j = -1 ∨
        entry (Ex'.turnedMat .tnn2) 3 i j = 0
      decide
    · show ∀ j : Fin 3, (Ex'.turnedVec .tnn2).get j = 1 ∨ (Ex'.turnedVec .tnn2).get j = -1 ∨ (Ex'.turnedVec .tnn2).get j = 0
      decide
  case tnn3 =>
    refine Ex'.turned (n := 3) (by decide) (by decide) (Ex'.forall_block ?_) (Ex'.forall_lt ?_)
      ⟨Ex.two (by decide +kernel) (by decide +kernel), fun h => by cases h⟩ (by decide +kernel) (by decide +kernel)
    · show ∀ i : Fin 2, ∀ j : Fin 3, entry (Ex'.turnedMat .tnn3) 3 i j = 1 ∨ entry (Ex'.turnedMat .tnn3) 3 i j = -1 ∨
        entry (Ex'.turnedMat .tnn3) 3 i j = 0
      decide
    · show ∀ j : Fin 3, (Ex'.turnedVec .tnn3).get j = 1 ∨ (Ex'.turnedVec .tnn3).get j = -1 ∨ (Ex'.turnedVec .tnn3).get j = 0
      decide
  case tnn4 =>
    refine Ex'.turned (n := 3) (by decide) (by decide) (Ex'.forall_block ?_) (Ex'.forall_lt ?_)
      ⟨Ex.two (by decide +kernel) (by decide +kernel), fun h => by cases h⟩ (by decide +kernel) (by decide +kernel)
    · show ∀ i : Fin 2, ∀ j : Fin 3, entry (Ex'.turnedMat .tnn4) 3 i j = 1 ∨ entry (Ex'.turnedMat .tnn4) 3 i j = -1 ∨
        entry (Ex'.turnedMat .tnn4) 3 i j = 0
      decide
    · show ∀ j : Fin 3, (Ex'.turnedVec .tnn4).get j = 1 ∨ (Ex'.turnedVec .tnn4).get j = -1 ∨ (Ex'.turnedVec .tnn4).get j = 0
      decide
  case tnn5 =>
    refine Ex'.turned (n := 3) (by decide) (by decide) (Ex'.forall_block ?_) (Ex'.forall_lt ?_)
      ⟨Ex.two (by decide +kernel) (by decide +kernel), fun h => by cases h⟩ (by decide +kernel) (by decide +kernel)
    · show ∀ i : Fin 2, ∀ j : Fin 3, entry (Ex'.turnedMat .tnn5) 3 i j = 1 ∨ entry (Ex'.turnedMat .tnn5) 3 i j = -1 ∨
        entry (Ex'.turnedMat .tnn5) 3 i j = 0
      decide
    · show ∀ j : Fin 3, (Ex'.turnedVec .tnn5).get j = 1 ∨ (Ex'.turnedVec .tnn5).get j = -1 ∨ (Ex'.turnedVec .tnn5).get j = 0
      decide

/-- C109.  Exactly the mappings with one reading per row keep the order. -/
theorem C109_iff (md : Mode) : OrderClaim md ↔ oneReading md := by
  refine ⟨fun hc => by_contra fun h => C109_others md h hc, fun ho => ?_⟩
  rintro cfg h x x' vec res r mat m n lo hi rfl hok hid - - - - hr hl - hd hv hres hx hA hroom h1
  obtain ⟨y, s, h2, h3⟩ := C109_order (mat := mat) ho Ex.env_exact hok hid hr hl hd hv hres hx hA hroom
  rw [h1] at h2
  rw [(Prod.mk.inj (ok_inj.1 h2)).2]
  exact h3

/-! ## Instances -/

/-- The hypotheses of `C109_order` with two bits; the products are `-1` and `-3`. -/
example : ∃ x x' r, Runs Ex.env (Ex'.twoBit .tnn1) [.write Ex.mat 2 3] x ∧
    xMvm Ex.env (Ex'.twoBit .tnn1) x Ex.res Ex.vec Ex.mat 2 3 "" = .ok (x', r) ∧
    KeepsOrder r Ex.res (stored [.write Ex.mat 2 3]) Ex.vec 2 3 ∧
    prod (stored [.write Ex.mat 2 3]) Ex.vec 3 1 < prod (stored [.write Ex.mat 2 3]) Ex.vec 3 0 := by
  obtain ⟨x, h1, _⟩ := Ex.wrote (E := Ex.env) (c := Ex'.twoBit .tnn1) (mat := Ex.mat) (m := 2) (n := 3)
    (fun _ => true) (by decide +kernel)
  obtain ⟨x', r, h2, h3⟩ := C109_order (cfg := Ex'.twoBit .tnn1) (mat := Ex.mat) (l := "") (vec := Ex.vec) (res := Ex.res)
    trivial Ex.env_exact (Ex'.twoBit_ok .tnn1) (Ex'.twoBit_ideal .tnn1) h1
    (fun i j hi hj => ⟨_, by simp [lastWrite, hi, hj], Ex.legal_mat .tnn1 i j hi hj⟩) (Ex'.twoBit_accepted (by decide)) (by decide)
    (by decide) (Ex.legal_vec .tnn1 (by decide)) (Ex'.twoBit_adc .tnn1)
    ⟨Ex.two (by decide +kernel) (by decide +kernel), fun h => by cases h⟩
  exact ⟨x, x', r, h1, h2, h3, by decide +kernel⟩

/-- The hypotheses of `C109_session`, in each of the mappings. -/
example (md : Mode) (ho : oneReading md) : ∃ x x' rs, mkXbar Ex.env (Ex'.twoBit md) 0 [] = .ok x ∧
    exec Ex.env (Ex'.twoBit md) x Ex'.pair = .ok (x', rs) ∧ AnswersOrdered [] Ex'.pair rs := by
  obtain ⟨x, hx, _⟩ := Ex.okAnd_spec (x := mkXbar Ex.env (Ex'.twoBit md) 0 []) (p := fun _ => true)
    (by revert md; intro md _; cases md <;> decide +kernel)
  obtain ⟨x', rs, h1, h2⟩ := C109_session (cfg := Ex'.twoBit md) (w := 3) (ops := Ex'.pair) (rg := fun _ => Ex'.twoBitRange md)
    ho Ex.env_exact (Ex'.twoBit_ok md) (Ex'.twoBit_ideal md) hx
    (Ex'.pair_legal (Ex'.twoBit_accepted (by decide)) (Ex.legal_mat md) (Ex.sum_room md)
      (Ex.legal_vec md (by cases md <;> first | exact ho.elim | decide)) (Ex.room md))
    ⟨⟨Ex'.twoBit_adc md, by cases md <;> first | exact ho.elim | exact ⟨Ex.two (by decide +kernel) (by decide +kernel), fun h => by cases h⟩⟩, trivial⟩
  exact ⟨x, x', rs, hx, h1, h2⟩

/-- What `set_config` makes of a document with a signed converter. -/
def Ex'.loadedRank : Cfg ℚ := { Ex'.loaded .tnn1 10 0 with adcType := .sym, resolution := 8 }

/-- The hypotheses of `C109_interface`. -/
example : ∃ w w' rs, Settled Ex.env [] w ∧ serve Ex.env w Ex'.pair = .ok (w', rs, [0, 0]) ∧ AnswersOrdered [] Ex'.pair rs := by
  obtain ⟨w, h1, h2⟩ := Ex'.load Ex.env (Ex.analog .tnn1 [("adc_type", .str "SYM_RANGE_ADC")]) Ex'.loadedRank (by decide +kernel)
  obtain ⟨w', rs, h3, h4⟩ := C109_interface (rg := fun _ => (-15, 15)) (ops := Ex'.pair) (k := 3)
    (by rw [h2]; trivial) Ex.env_exact h1
    (by rw [h2]; exact ⟨rfl, rfl, rfl, rfl, rfl, fun _ => ⟨le_refl 0, le_refl 0⟩, by show (5 : ℚ) ≠ 10; norm_num, by decide⟩)
    (by
      rw [h2]
      exact Ex'.pair_legal ⟨le_refl 2, le_refl 3, by decide⟩ (Ex.legal_mat .tnn1) (fun h => by cases h)
        (Ex.legal_vec .tnn1 (by decide)) (Ex.two (by decide) (by decide))) Ex'.pair_heights
    (by
      rw [h2]
      exact ⟨⟨⟨by decide, by decide, by decide, by decide +kernel, by norm_num⟩,
        Ex.two (by decide +kernel) (by decide +kernel), fun h => by cases h⟩, trivial⟩)
  exact ⟨w, w', rs, h1, h3, h4⟩

/-- The hypothesis of `C109_largest`: `-1` and `-4` added for the products `-1` and `-3`. -/
example : KeepsOrder (Vec.ofList [9, 16, 30]) Ex.res (stored [.write Ex.mat 2 3]) Ex.vec 2 3 := fun i i' hi hi' => by
  revert i'
  revert i
  exact Ex.two (Ex.two (by decide +kernel) (by decide +kernel)) (Ex.two (by decide +kernel) (by decide +kernel))

end Acs.Props
