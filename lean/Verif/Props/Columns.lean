import Verif.Lemmas.Columns
import Verif.Props.Reading
import Verif.Props.Float
import Verif.Props.Digital

/-!
# C110: the order of the columns
-/

set_option linter.unusedSectionVars false

namespace Acs.Props

open Finset Spec

section
variable {K : Type} [Field K] [LinearOrder K] [IsStrictOrderedRing K] [FloorRing K]
variable {E : Env K} {cfg : Cfg K} {mat mat' vec vec' res : Vec Int} {m n : Nat} {l : String}
variable {x y : Xbar K} {h h' : List Op} {lo hi : K} {π : Nat → Nat}

/-- C110.  In exact arithmetic the columns of a matrix can be stored in any order, if the input is reordered in the same way:
in any two states of crossbars with ideal cells the multiplications return the same entries, through any real
converter, also if currents leave its range. -/
theorem C110_columns (hE : ExactArith E) (hok : CfgOk cfg) (hid : Ideal cfg) (hgcc : cfg.mode = .iOffsWDiff → E.strict = false)
    (hr : Runs E cfg h x) (hr' : Runs E cfg h' y) (hl : Legal cfg (lastWrite h) m n) (hl' : ∀ i j, i < m → j < n → (lastWrite h' i j).isSome)
    (hwid : keepsRowSums cfg.mode → WidthIs n h ∧ WidthIs n h') (hd : Accepted cfg m n)
    (hv : n ≤ vec.size) (hv' : n ≤ vec'.size) (hres : m ≤ res.size) (hx : LegalVec cfg vec n) (hA : AdcOk cfg l lo hi)
    (hroom : ReadRoom cfg lo hi (stored h) res vec m n) (hp : Reordered π (stored h) (stored h') vec vec' m n) :
    ∃ x' y' r r', xMvm E cfg x res vec mat m n l = .ok (x', r) ∧ xMvm E cfg y res vec' mat' m n l = .ok (y', r') ∧
      r'.size = r.size ∧ ∀ i, r'.get i = r.get i := by
  obtain ⟨x', r, h1, h2⟩ := C91_reads (mat := mat) hE hok hid hgcc hr hl (fun hk => (hwid hk).1) hd hv hres hx hA hroom
  have hL : Legal cfg (lastWrite h') m n := fun i j hi hj => by
    obtain ⟨v, hv⟩ := Option.isSome_iff_exists.1 (hl' i j hi hj)
    obtain ⟨w, hw, hw'⟩ := hl i (π j) hi (hp.maps j hj)
    refine ⟨v, hv, ?_⟩
    have e := hp.mat i j hi hj
    rw [stored, stored, hv, hw] at e
    rw [show v = w from e]
    exact hw'
  obtain ⟨y', r', h3, h4⟩ := C91_reads (mat := mat') hE hok hid hgcc hr' hL (fun hk => (hwid hk).2) hd hv' hres
    (fun j hj => by rw [hp.vec j hj]; exact hx _ (hp.maps j hj)) hA (readRoom_reordered hp hroom)
  refine ⟨x', y', r, r', h1, h3, h4.size.trans h2.size.symm, fun i => ?_⟩
  rcases lt_or_ge i m with hi' | hi'
  · rw [h2.head i hi', h4.head i hi', rowResult_reordered hp hi']
  · rw [h2.tail i hi', h4.tail i hi']

/-- C110.  The same in digital crossbars with any arithmetic: two legal sessions that store the same columns in different orders
return the same entries. -/
theorem C110_digital (hok : CfgOk cfg) (hdo : cfg.digitalOnly = true) (hgcc : shiftsSigned cfg.mode → E.strict = false)
    {rng w : Nat} {hists : List (String × Hist K)} (hx : mkXbar E cfg rng hists = .ok x)
    (hl : LegalOps cfg w [] [.write mat m n, .mvm res vec mat m n l])
    (hl' : LegalOps cfg w [] [.write mat' m n, .mvm res vec' mat' m n l])
    (hp : Reordered π (entry mat n) (entry mat' n) vec vec' m n) :
    ∃ x' y' r r', exec E cfg x [.write mat m n, .mvm res vec mat m n l] = .ok (x', [r]) ∧
      exec E cfg x [.write mat' m n, .mvm res vec' mat' m n l] = .ok (y', [r']) ∧ r'.size = r.size ∧ ∀ i, r'.get i = r.get i := by
  obtain ⟨x', rs, h1, h2⟩ := C06_refines_matrix_store hok hdo hgcc hx hl
  obtain ⟨y', rs', h3, h4⟩ := C06_refines_matrix_store hok hdo hgcc hx hl'
  cases h2 with | write a =>
  cases a with | mvm a b =>
  cases b
  cases h4 with | write c =>
  cases c with | mvm c d =>
  cases d
  have e : ∀ {M : Vec Int} {i j : Nat}, i < m → j < n → stored [.write M m n] i j = entry M n i j := fun hi hj => by
    simp [stored, lastWrite, hi, hj]
  have hp' : Reordered π (stored [.write mat m n]) (stored [.write mat' m n]) vec vec' m n :=
    ⟨hp.maps, hp.inj, fun i j hi hj => by rw [e hi hj, e hi (hp.maps j hj)]; exact hp.mat i j hi hj, hp.vec⟩
  refine ⟨x', y', _, _, h1, h3, c.size.trans a.size.symm, fun i => ?_⟩
  rcases lt_or_ge i m with hi' | hi'
  · rw [a.head i hi', c.head i hi', prod_reordered hp' hi']
  · rw [a.tail i hi', c.tail i hi']

end

/-- The claim for `float`: one multiplication after one write, with the converter meant for the mapping. -/
def ColumnClaim (E : Env ℚ) : Prop :=
  ∀ (cfg : Cfg ℚ) (mat mat' vec vec' res r r' : Vec Int) (m n : Nat) (lo hi : ℚ) (π : Nat → Nat) (x x' y y' : Xbar ℚ),
    CfgOk cfg → Ideal cfg → 0 ≤ cfg.hrs → cfg.hrs < cfg.lrs → adcFits cfg →
    Runs E cfg [.write mat m n] x → Runs E cfg [.write mat' m n] y → Accepted cfg m n → LegalMat cfg (entry mat n) m n →
    LegalVec cfg vec n → AdcOk cfg "" lo hi → Reordered π (entry mat n) (entry mat' n) vec vec' m n →
    xMvm E cfg x res vec mat m n "" = .ok (x', r) → xMvm E cfg y res vec' mat' m n "" = .ok (y', r') →
    ∀ i, r'.get i = r.get i

namespace Ex'

/-- Conductances that are `float`, with a difference of `2 ^ 23 + 3`. -/
def odd : Cfg ℚ :=
  { Ex.acfg .tnn1 with
    N := 4
    hrs := 5
    lrs := 8388616
    adcType := .sym
    resolution := 2
    calibMode := .calib
    calibDict := [("", (0, 67108888))] }

def ones : Vec Int := Vec.ofList [1, 1, 1, 1]
def minusLast : Vec Int := Vec.ofList [1, 1, 1, -1]
def minusFirst : Vec Int := Vec.ofList [-1, 1, 1, 1]

theorem odd_ideal : Ideal odd :=
  ⟨rfl, rfl, rfl, rfl, rfl, fun _ => ⟨le_refl 0, le_refl 0⟩, by show (5 : ℚ) ≠ 8388616; norm_num, by decide⟩

theorem odd_adc : AdcOk odd "" 0 67108888 :=
  ⟨by decide, by decide, by show (2 : Int) ≤ 30; decide, by decide +kernel, by norm_num⟩

theorem four {P : Nat → Prop} (h : ∀ j : Fin 4, P j) (j : Nat) (hj : j < 4) : P j := h ⟨j, hj⟩

theorem turned_round : Reordered (fun j => (j + 3) % 4) (entry ones 4) (entry ones 4) minusLast minusFirst 1 4 :=
  ⟨fun j _ => Nat.mod_lt _ (by decide), fun j k hj hk e => by omega,
    fun i j hi hj => by
      obtain rfl : i = 0 := by omega
      exact four (P := fun j => entry ones 4 0 j = entry ones 4 0 ((j + 3) % 4)) (by decide) j hj,
    four (by decide)⟩

end Ex'

/-- C110.  In `float` the order of the columns matters: the sum of the currents is rounded after each column.  The product is `2`, and
the results are `0` and `4`. -/
theorem C110_float_false : ¬ColumnClaim Ex.fenv := fun hc => by
  obtain ⟨x, x', r, h1, h2, h3⟩ := Ex.multiplied (E := Ex.fenv) (c := Ex'.odd) (mat := Ex'.ones) (mat' := Ex'.ones) (res := Ex.single 0)
    (vec := Ex'.minusLast) (m := 1) (n := 4) (m' := 1) (n' := 4) (l := "") (fun _ r => decide (r.get 0 = 0)) (by decide +kernel)
  obtain ⟨y, y', r', k1, k2, k3⟩ := Ex.multiplied (E := Ex.fenv) (c := Ex'.odd) (mat := Ex'.ones) (mat' := Ex'.ones) (res := Ex.single 0)
    (vec := Ex'.minusFirst) (m := 1) (n := 4) (m' := 1) (n' := 4) (l := "") (fun _ r => decide (r.get 0 = 4)) (by decide +kernel)
  have := hc Ex'.odd Ex'.ones Ex'.ones Ex'.minusLast Ex'.minusFirst (Ex.single 0) r r' 1 4 _ _ _ x x' y y' (Ex.acfg_ok .tnn1)
    Ex'.odd_ideal (by show (0 : ℚ) ≤ 5; norm_num) (by show (5 : ℚ) < 8388616; norm_num) rfl h1 k1
    ⟨by decide, by decide, by decide⟩
    (fun i j hi hj => by
      obtain rfl : i = 0 := by omega
      exact Ex'.four (P := fun j => entry Ex'.ones 4 0 j = 1 ∨ entry Ex'.ones 4 0 j = -1 ∨ entry Ex'.ones 4 0 j = 0) (by decide) j hj)
    (Ex'.four (P := fun j => Ex'.minusLast.get j = 1 ∨ Ex'.minusLast.get j = -1 ∨ Ex'.minusLast.get j = 0) (by decide))
    Ex'.odd_adc Ex'.turned_round h2 k2 0
  rw [of_decide_eq_true h3, of_decide_eq_true k3] at this
  exact absurd this (by decide)

/-! ## Instances -/

namespace Ex'

/-- `Ex.mat` and `Ex.vec` from right to left. -/
def revMat : Vec Int := Vec.ofList [1, -1, 1, 1, -1, -1]
def revVec : Vec Int := Vec.ofList [-1, 1, 1]

theorem rev_mat (i j : Nat) (hi : i < 2) (hj : j < 3) : entry revMat 3 i j = entry Ex.mat 3 i (2 - j) :=
  Ex.block (P := fun i j => entry revMat 3 i j = entry Ex.mat 3 i (2 - j)) (by decide) i j hi hj

theorem rev : Reordered (2 - ·) (entry Ex.mat 3) (entry revMat 3) Ex.vec revVec 2 3 :=
  ⟨fun j _ => by show 2 - j < 3; omega, fun j k hj hk e => by have e : 2 - j = 2 - k := e; omega, rev_mat,
    Ex.three (by decide) (by decide) (by decide)⟩

theorem rev_stored : Reordered (2 - ·) (stored [.write Ex.mat 2 3]) (stored [.write revMat 2 3]) Ex.vec revVec 2 3 :=
  ⟨rev.maps, rev.inj, fun i j hi hj => by
    have h := rev.mat i j hi hj
    have h2 : 2 - j < 3 := by omega
    simp only [stored, lastWrite, hi, hj, h2, and_self, if_true, Option.getD_some]
    exact h, rev.vec⟩

end Ex'

/-- The hypotheses of `C110_columns` in a mapping that keeps row sums, where currents leave the range. -/
example : ∃ x y x' y' r r', Runs Ex.env Ex'.clipped [.write Ex.mat 2 3] x ∧ Runs Ex.env Ex'.clipped [.write Ex'.revMat 2 3] y ∧
    xMvm Ex.env Ex'.clipped x Ex.res Ex.vec Ex.mat 2 3 "" = .ok (x', r) ∧
    xMvm Ex.env Ex'.clipped y Ex.res Ex'.revVec Ex'.revMat 2 3 "" = .ok (y', r') ∧ r'.size = r.size ∧ ∀ i, r'.get i = r.get i := by
  obtain ⟨x, h1, _⟩ := Ex.wrote (E := Ex.env) (c := Ex'.clipped) (mat := Ex.mat) (m := 2) (n := 3) (fun _ => true) (by decide +kernel)
  obtain ⟨y, h2, _⟩ := Ex.wrote (E := Ex.env) (c := Ex'.clipped) (mat := Ex'.revMat) (m := 2) (n := 3) (fun _ => true)
    (by decide +kernel)
  obtain ⟨x', y', r, r', h⟩ := C110_columns (cfg := Ex'.clipped) (mat := Ex.mat) (mat' := Ex'.revMat) (l := "") (vec := Ex.vec)
    (vec' := Ex'.revVec) (res := Ex.res) Ex.env_exact (Ex.acfg_ok .tnn3) Ex'.clipped_ideal (fun h => by cases h) h1 h2
    (fun i j hi hj => ⟨_, by simp [lastWrite, hi, hj], Ex.legal_mat .tnn3 i j hi hj⟩) (fun i j hi hj => by simp [lastWrite, hi, hj])
    (fun _ => ⟨fun op hop => by obtain rfl := List.mem_singleton.1 hop; rfl, fun op hop => by obtain rfl := List.mem_singleton.1 hop; rfl⟩)
    (Ex.accepted .tnn3) (by decide) (by decide) (by decide) (Ex.legal_vec .tnn3 (by decide)) Ex'.clipped_ok Ex'.clipped_room Ex'.rev_stored
  exact ⟨x, y, x', y', r, r', h1, h2, h⟩

/-- The hypotheses of `C110_digital`, in every mapping with signed inputs. -/
example (md : Mode) (h : md ≠ .iUintWDiff ∧ md ≠ .iUintWOffs) : ∃ x x' y' r r', mkXbar Ex.env (Ex.cfg md) 0 [] = .ok x ∧
    exec Ex.env (Ex.cfg md) x [.write Ex.mat 2 3, .mvm Ex.res Ex.vec Ex.mat 2 3 ""] = .ok (x', [r]) ∧
    exec Ex.env (Ex.cfg md) x [.write Ex'.revMat 2 3, .mvm Ex.res Ex'.revVec Ex'.revMat 2 3 ""] = .ok (y', [r']) ∧
    r'.size = r.size ∧ ∀ i, r'.get i = r.get i := by
  obtain ⟨x, hx, _⟩ := Ex.okAnd_spec (x := mkXbar Ex.env (Ex.cfg md) 0 []) (p := fun _ => true) (by cases md <;> decide +kernel)
  have hd := Ex.accepted md
  obtain ⟨x', y', r, r', k⟩ := C110_digital (E := Ex.env) (cfg := Ex.cfg md) (w := 3) (l := "") (mat := Ex.mat) (mat' := Ex'.revMat)
    (vec := Ex.vec) (vec' := Ex'.revVec) (res := Ex.res) (m := 2) (n := 3) (Ex.cfg_ok md) rfl (fun _ => rfl) hx
    ⟨⟨hd, by decide, Ex.legal_mat md, Ex.sum_room md, fun _ => rfl⟩,
      ⟨hd, by decide, by decide, Ex.legal_vec md h, Ex.room md, fun i j hi hj => by simp [lastWrite, hi, hj], fun _ => rfl⟩, trivial⟩
    ⟨⟨hd, by decide, fun i j hi hj => by rw [Ex'.rev_mat i j hi hj]; exact Ex.legal_mat md i _ hi (by omega), Ex.sum_room md, fun _ => rfl⟩,
      ⟨hd, by decide, by decide, fun j hj => by rw [Ex'.rev.vec j hj]; exact Ex.legal_vec md h _ (Ex'.rev.maps j hj), Ex.room md,
        fun i j hi hj => by simp [lastWrite, hi, hj], fun _ => rfl⟩, trivial⟩ Ex'.rev
  exact ⟨x, x', y', r, r', hx, k⟩

end Acs.Props
