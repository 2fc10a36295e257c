import Verif.Lemmas.WriteIff
import Verif.Lemmas.AWrite

/-! # Which analog writes return -/

set_option linter.unusedSectionVars false

namespace Acs

open Finset Spec

variable {K : Type} [Field K] [LinearOrder K] [IsStrictOrderedRing K] [FloorRing K]
variable {E : Env K} {cfg : Cfg K} {x : Xbar K} {L : Nat → Nat → Option Int} {mat : Vec Int} {m n : Nat}

theorem tdiv_two_bit (a : Int) : ((1 - a).tdiv 2 = 0 ∨ (1 - a).tdiv 2 = 1) ↔ -2 ≤ a ∧ a ≤ 2 := by
  rcases le_total 0 (1 - a) with k | k
  · rw [Int.tdiv_eq_ediv_of_nonneg k]
    omega
  · rw [← neg_sub a 1, Int.neg_tdiv, Int.tdiv_eq_ediv_of_nonneg (by omega)]
    omega

/-- The cells have two states exactly for these weights. -/
theorem two_states (hi : cfg.mode.isInt = false) {W : Nat → Nat → Int}
    (h32 : ∀ i j, -2147483648 ≤ W i j ∧ W i j ≤ 2147483647) :
    (Writable cfg W m n ∧ ∀ i j, i < m → j < n →
      (encP cfg (W i j) 0 = 0 ∨ encP cfg (W i j) 0 = 1) ∧ (encM cfg (W i j) 0 = 0 ∨ encM cfg (W i j) 0 = 1)) ↔
      Programmable cfg W m n := by
  unfold Programmable Writable encP encM
  cases hm : cfg.mode <;> rw [hm] at hi <;> first | (cases hi; done) | skip
  case bnn3 =>
    dsimp only
    constructor
    · rintro ⟨_, h⟩ i j h1 h2
      have := (h i j h1 h2).1
      omega
    · intro h
      refine ⟨fun i j h1 h2 => ?_, fun i j h1 h2 => ⟨?_, .inl rfl⟩⟩ <;> have := h i j h1 h2 <;> omega
  case bnn4 =>
    dsimp only
    constructor
    · rintro ⟨_, h⟩ i j h1 h2
      exact (tdiv_two_bit _).1 (h i j h1 h2).1
    · intro h
      exact ⟨fun i j h1 h2 => by have := h i j h1 h2; omega,
        fun i j h1 h2 => ⟨(tdiv_two_bit _).2 (h i j h1 h2), .inl rfl⟩⟩
  all_goals
    dsimp only
    refine and_iff_left fun i j _ _ => ?_
    first
      | (constructor <;> split <;> simp; done)
      | (unfold bits; constructor <;> omega)

/-- Steps are finite where slices have bits. -/
theorem iStep_some_a (hE : ExactArith E) (hok : CfgOk cfg) (hs : Shape E cfg x) (hi : cfg.mode.isInt = true)
    (h : ∀ s ∈ cfg.split, 0 < s) : ∀ s, s < cfg.S → x.mapper.core.iStep.get s ≠ none := fun s hs' => by
  rw [iStep_get (intOk hok hi) hs.core hs']
  refine fieldDiv_some ?_
  unfold Env.ofInt
  rw [hE.f32, Int.cast_ne_zero]
  have hp : 0 < cfg.split.getD s 0 := by
    rw [List.getD_eq_getElem _ _ hs']; exact h _ (List.getElem_mem hs')
  have : (2 : Int) ^ 1 ≤ 2 ^ cfg.split.getD s 0 := pow_le_pow_right₀ (by norm_num) hp
  omega

/-- An analog write without wires returns exactly when the mapping can process the weights and cells can store them. -/
theorem xWrite_iff_a (hok : CfgOk cfg) (hs : Shape E cfg x) (hL : Cells cfg x.mapper.core.gd L) (hp : cfg.parasitics = false)
    (hdo : cfg.digitalOnly = false) (hd : Accepted cfg m n) (h32 : Int32s mat)
    (hst : cfg.mode.isInt = true → ∀ s, s < cfg.S → x.mapper.core.iStep.get s ≠ none) :
    (∃ x', xWrite E cfg x mat m n = .ok x') ↔ m * n ≤ mat.size ∧ Programmable cfg (entry mat n) m n := by
  have hprog : cfg.mode.isInt = true → (Programmable cfg (entry mat n) m n ↔ Writable cfg (entry mat n) m n) := by
    intro hi
    unfold Programmable
    cases hm : cfg.mode <;> rw [hm] at hi <;> first | (cases hi; done) | exact Iff.rfl
  have hdw := dWriteGd_iff hok hs.core hd h32 (mat := mat) (m := m) (n := n)
  have put_at : ∀ i j, i < m → j < n → put L mat m n i j = some (entry mat n i j) := fun i j h1 h2 => if_pos ⟨h1, h2⟩
  constructor
  · rintro ⟨x', h⟩
    obtain ⟨gd, h1, h2, h3⟩ := xWrite_aWrite hdo h
    obtain ⟨h4, h5⟩ := hdw.1 ⟨gd, h1⟩
    refine ⟨h4, ?_⟩
    cases hi : cfg.mode.isInt
    · refine (two_states hi fun i j => h32 _).1 ⟨h5, fun i j him hjn => ?_⟩
      have hcell := dWriteGd_cells hok hs.core hL h1
      obtain ⟨_, hb⟩ := cont_aWrite_ok hs h hdo rfl
      have hb := hb hi
      have e1 : x'.mapper.core.gd = gd := h2
      have hg1 : gd.p.get i j = encP cfg (entry mat n i j) 0 := by
        rw [hcell.p, rowOf_bin hi, put_at i j him hjn]; rfl
      have hg2 : gd.m.get i j = encM cfg (entry mat n i j) 0 := by
        rw [hcell.m, rowOf_bin hi, put_at i j him hjn]; rfl
      show (encP cfg (entry mat n i j) 0 = 0 ∨ encP cfg (entry mat n i j) 0 = 1) ∧
        (encM cfg (entry mat n i j) 0 = 0 ∨ encM cfg (entry mat n i j) 0 = 1)
      rw [← hg1, ← hg2]
      constructor
      · have := hb.p i j
        rw [if_pos ⟨him, hjn⟩] at this
        have k := this.1
        dsimp only at k
        rw [e1] at k
        rcases k with ⟨k, _⟩ | ⟨k, _⟩
        · exact .inl k
        · exact .inr k
      · by_cases hm : cfg.mode = .bnn3 ∨ cfg.mode = .bnn4
        · rw [hg2]
          unfold encM
          rcases hm with hm | hm <;> rw [hm] <;> exact .inl rfl
        · have := hb.m (by dsimp only; rw [hs.core.mode]; exact not_or.1 hm) i j
          rw [if_pos ⟨him, hjn⟩] at this
          have k := this.1
          dsimp only at k
          rw [e1] at k
          rcases k with ⟨k, _⟩ | ⟨k, _⟩
          · exact .inl k
          · exact .inr k
    · exact (hprog hi).2 h5
  · rintro ⟨h4, h5⟩
    have hbin : cfg.mode.isInt = false → ∀ i j, i < m → j < n →
        (encP cfg (entry mat n i j) 0 = 0 ∨ encP cfg (entry mat n i j) 0 = 1) ∧
        (encM cfg (entry mat n i j) 0 = 0 ∨ encM cfg (entry mat n i j) 0 = 1) := fun hi =>
      ((two_states hi fun i j => h32 _).2 h5).2
    have hw : Writable cfg (entry mat n) m n := by
      cases hi : cfg.mode.isInt
      · exact ((two_states hi fun i j => h32 _).2 h5).1
      · exact (hprog hi).1 h5
    obtain ⟨gd, h2⟩ := hdw.2 ⟨h4, hw⟩
    obtain ⟨r, h1⟩ := xWriteD_of_gd hs h2
    obtain ⟨gd', h2', h3⟩ := xWriteD_mapper h1
    rw [h2] at h2'
    cases h2'
    have hgs : GdShape cfg gd := (sat_dWriteGd lax_true hs.core (Fits.mk' fun h => absurd trivial h)
      (fun h => absurd trivial h)).of_ok h2
    have hfit := Fits.row hok hd
    have hns := hs.core.numSeg
    have hmd := hs.core.mode
    have hS := cfgOk_S_pos hok
    unfold xWrite
    rw [h1, ok_bind, h3]
    have key : Sat (fun _ => False)
        (aWrite E cfg { x.mapper with core := { x.mapper.core with gd := gd } } m n) fun _ => True := by
      refine (cont_aWrite ?_ (fun h => by rw [hp] at h; cases h) (fun _ hi s h => ?_)
        fun _ hi i j him hj => ?_).true
      · refine ⟨hgs.p, hgs.m, hs.core.ia, fun _ => hfit.1, fun _ => ?_, fun _ => hd.2.1, fun _ => ?_⟩
        · dsimp only
          rw [hns]
          split
          · exact hfit.2
          · omega
        · dsimp only
          rw [hns, hs.core.iStep_size]
          split <;> omega
      · dsimp only at hi h ⊢
        rw [hmd] at hi
        rw [hns, hi, if_pos (by simp)] at h
        exact hst hi s h
      · dsimp only at hi ⊢
        rw [hmd] at hi
        have hcell := dWriteGd_cells hok hs.core hL h2
        have := hbin hi i j him hj
        rw [hcell.p, hcell.m, rowOf_bin hi, put_at i j him hj]
        exact this
    rcases key.elim with ⟨mp, h6, _⟩ | ⟨e, _, h⟩
    · rw [hdo, if_neg (by simp)]
      exact ⟨_, by rw [h6, ok_bind]⟩
    · exact h.elim

end Acs
