import Verif.Lemmas.SessionInv
import Verif.Model.Getters
import Verif.SpecGet
import Verif.SpecRd

/-! # The getters -/

set_option linter.unusedSectionVars false

namespace Acs

open Spec Finset

section
variable {α β : Type}

theorem numElems_eq (A : Mat α) : numElems A = A.rows * A.cols % 4294967296 := by
  unfold numElems
  have key : ∀ n s, (List.range n).foldl (fun s _ => (s + A.cols) % 4294967296) s % 4294967296 =
      (s + n * A.cols) % 4294967296 := by
    intro n
    induction n with
    | zero => intro s; simp
    | succ n ih =>
      intro s
      rw [List.range_succ, List.foldl_append]
      simp only [List.foldl_cons, List.foldl_nil]
      rw [Nat.mod_mod, Nat.add_mod, ih, ← Nat.add_mod, Nat.succ_mul, Nat.add_assoc]
  have hlt : ∀ n, (List.range n).foldl (fun s _ => (s + A.cols) % 4294967296) 0 < 4294967296 := by
    intro n
    cases n with
    | zero => simp
    | succ n =>
      rw [List.range_succ, List.foldl_append]
      exact Nat.mod_lt _ (by decide)
  rw [← Nat.mod_eq_of_lt (hlt A.rows), key, Nat.zero_add]

/-- The loop copies everything. -/
theorem copyOut_ok (fresh : Nat → Nat → β) (conv : α → β) (A : Mat α) :
    ∃ B, copyOut fresh conv A = .ok B ∧
      Shows B A.rows (if A.rows > 0 then A.cols else 0) fun i j => conv (A.get i j) := by
  have hc : ∀ i, i < A.rows → (if A.rows > 0 then A.cols else 0) = A.cols := fun i hi => by
    rw [if_pos (by omega)]
  refine ⟨⟨A.rows, if A.rows > 0 then A.cols else 0, fun i j =>
    if i < A.rows ∧ j < A.cols then conv (A.get i j) else fresh i j⟩, ?_, rfl, rfl, fun i j hi hj => ?_⟩
  · unfold copyOut
    dsimp only
    refine loop_ok (fun k => (⟨A.rows, if A.rows > 0 then A.cols else 0, fun i j =>
      if i < k ∧ j < A.cols then conv (A.get i j) else fresh i j⟩ : Mat β)) ?_ (fun k hk => ?_)
    · congr 1
    · refine (loop_ok (fun l => (⟨A.rows, if A.rows > 0 then A.cols else 0, fun i j =>
        if i < k ∧ j < A.cols ∨ i = k ∧ j < l then conv (A.get i j) else fresh i j⟩ : Mat β)) ?_
        (fun l hl => ?_)).trans ?_
      · congr 1
        funext i j
        congr 1
        simp
      · rw [hc k hk] at hl
        unfold Mat.rd
        rw [if_pos ⟨hk, hl⟩, ok_bind]
        unfold Mat.wr
        rw [if_pos ⟨hk, by dsimp only; rw [hc k hk]; exact hl⟩]
        congr 2
        funext i j
        dsimp only
        by_cases h1 : i = k ∧ j = l
        · obtain ⟨rfl, rfl⟩ := h1
          rw [if_pos ⟨rfl, rfl⟩, if_pos (by omega)]
        · rw [if_neg h1]
          congr 1
          apply propext
          omega
      · congr 2
        funext i j
        congr 1
        apply propext
        rw [hc k hk]
        omega
  · dsimp only
    rw [hc i hi] at hj
    rw [if_pos ⟨hi, hj⟩]

end

section
variable {K : Type} [Field K] [LinearOrder K] [IsStrictOrderedRing K] [FloorRing K]
variable {E : Env K} {w : World K} {hs : List Op} {x : Xbar K} {α β : Type}

theorem getPb_ok {f : Xbar K → C (Mat α)} {A : Mat α} (fresh : Nat → Nat → β) (conv : α → β)
    (hx : w.xbar = some x) (hf : f x = .ok A) {r c : Nat} (hA : A.Is r c) :
    ∃ B, getPb fresh conv f w = .ok B ∧ B.rows = r ∧ (0 < r → B.cols = c) ∧
      ∀ i j, i < r → j < c → B.get i j = conv (A.get i j) := by
  obtain ⟨B, h1, h2, h3, h4⟩ := copyOut_ok fresh conv A
  refine ⟨B, ?_, by rw [h2, hA.1], fun h => ?_, fun i j hi hj => h4 i j (by rw [hA.1]; exact hi) ?_⟩
  · unfold getPb getter
    rw [hx]
    dsimp only
    rw [hf, ok_bind, h1]
  · rw [h3, if_pos (by rw [hA.1]; exact h), hA.2]
  · rw [if_pos (by rw [hA.1]; omega), hA.2]
    exact hj

/-- The cells of a legal weight determine it. -/
theorem decode_enc {cfg : Cfg K} {P M : Mat Nat} {i j : Nat} {wt : Int} (hok : CfgOk cfg) (hl : LegalW cfg wt)
    (hi : i < cfg.M)
    (hP : ∀ r, r < cfg.R → (rowOf cfg r).1 = i → (P.get r j : Int) = encP cfg wt (rowOf cfg r).2)
    (hM : ∀ r, r < cfg.R → (rowOf cfg r).1 = i → (M.get r j : Int) = encM cfg wt (rowOf cfg r).2) :
    decode cfg P M i j = wt := by
  cases hint : cfg.mode.isInt
  · have hS : 1 ≤ cfg.S := by
      unfold Cfg.S
      cases hm : cfg.mode <;> simp only [CfgOk, hm] at hok <;> simp only [hm, Mode.isInt, Mode.family] at hint <;>
        first | (rw [hok]; decide) | (rw [hok.1]; decide) | cases hint
    have hiR : i < cfg.R := by
      unfold Cfg.R
      calc i < cfg.M := hi
        _ = cfg.M * 1 := (Nat.mul_one _).symm
        _ ≤ cfg.M * cfg.S := Nat.mul_le_mul_left _ hS
    have hrow : rowOf cfg i = (i, 0) := by
      unfold rowOf
      cases hm : cfg.mode <;> simp only [hm, Mode.isInt, Mode.family] at hint <;> first | rfl | cases hint
    have p := hP i hiR (by rw [hrow])
    have q := hM i hiR (by rw [hrow])
    rw [hrow] at p q
    unfold decode
    cases hm : cfg.mode <;> simp only [hm, Mode.isInt, Mode.family] at hint <;>
      simp only [encP, encM, LegalW, hm] at p q hl ⊢ <;> try (cases hint; done)
    all_goals
      rcases hl with rfl | hl
      · rw [p]; try rw [q]
        decide
      · first
        | (rcases hl with rfl | rfl <;> (rw [p]; try rw [q]) <;> decide)
        | (subst hl; rw [p]; try rw [q]
           decide)
  · have hio := intOk hok hint
    have hrow : ∀ s, s < cfg.split.length → rowOf cfg (i * cfg.split.length + s) = (i, s) := fun s hs => by
      unfold rowOf
      cases hm : cfg.mode <;> simp only [hm, Mode.isInt, Mode.family] at hint <;>
        first | (cases hint; done) | simp only [blk_div hs, blk_mod hs]
    have hR : ∀ s, s < cfg.split.length → i * cfg.split.length + s < cfg.R := fun s hs => by
      unfold Cfg.R Cfg.S
      calc i * cfg.split.length + s < i * cfg.split.length + cfg.split.length := by omega
        _ = (i + 1) * cfg.split.length := by ring
        _ ≤ cfg.M * cfg.split.length := Nat.mul_le_mul_right _ hi
    have p : ∀ s, s < cfg.split.length → (P.get (i * cfg.split.length + s) j : Int) = encP cfg wt s :=
      fun s hs => by rw [hP _ (hR s hs) (by rw [hrow s hs]), hrow s hs]
    have q : ∀ s, s < cfg.split.length → (M.get (i * cfg.split.length + s) j : Int) = encM cfg wt s :=
      fun s hs => by rw [hM _ (hR s hs) (by rw [hrow s hs]), hrow s hs]
    unfold decode
    cases hm : cfg.mode <;> simp only [hm, Mode.isInt, Mode.family] at hint <;> try (cases hint; done)
    case iUintWOffs =>
      dsimp only
      rw [sum_congr rfl fun s hs => by rw [p s (mem_range.1 hs)]]
      simp only [encP, hm, LegalW] at hl ⊢
      rw [bits_sum, hio.sum]
      have hpow : (2 : Int) ^ cfg.wBit = 2 ^ (cfg.wBit - 1) + 2 ^ (cfg.wBit - 1) := by
        obtain ⟨k, hk⟩ : ∃ k, cfg.wBit = k + 1 := ⟨cfg.wBit - 1, by have := hio.w1; omega⟩
        rw [hk, pow_succ]; simp; ring
      rw [Int.emod_eq_of_lt (by linarith [hl.1]) (by linarith [hl.2])]
      ring
    all_goals
      dsimp only
      rw [sum_congr rfl fun s hs => by rw [p s (mem_range.1 hs), q s (mem_range.1 hs)]]
      simp only [encP, encM, hm, LegalW] at hl ⊢
      by_cases h0 : 0 ≤ wt
      · simp only [if_pos h0, sub_zero]
        rw [bits_sum, hio.sum, abs_lt_emod h0 hl]
      · simp only [if_neg h0, zero_sub, neg_mul]
        rw [sum_neg_distrib, bits_sum, hio.sum, abs_lt_emod (by omega) (by rwa [abs_neg]), neg_neg]

/-- The states of legal weights are small natural numbers. -/
theorem enc_small {cfg : Cfg K} {wt : Int} (hok : CfgOk cfg) (hl : LegalW cfg wt) (s : Nat) :
    (0 ≤ encP cfg wt s ∧ encP cfg wt s < 4294967296) ∧ 0 ≤ encM cfg wt s ∧ encM cfg wt s < 4294967296 := by
  have hb : cfg.mode.isInt = true → ∀ a : Int, 0 ≤ bits a (shiftOf cfg.split s) (cfg.split.getD s 0) ∧
      bits a (shiftOf cfg.split s) (cfg.split.getD s 0) < 4294967296 := fun hint a => by
    refine ⟨dg_nonneg _ _ _, lt_of_lt_of_le (dg_lt _ _ _) ?_⟩
    have hio := intOk hok hint
    have : cfg.split.getD s 0 ≤ 30 := by
      rcases Nat.lt_or_ge s cfg.split.length with h | h
      · rw [List.getD_eq_getElem _ _ h]
        exact hio.sp _ (List.getElem_mem h)
      · rw [List.getD_eq_default _ _ h]
        omega
    calc (2 : Int) ^ cfg.split.getD s 0 ≤ 2 ^ 30 := pow_le_pow_right₀ (by norm_num) this
      _ ≤ 4294967296 := by norm_num
  have hb1 : ∀ (a : Int) k, 0 ≤ bits a k 1 ∧ bits a k 1 < 4294967296 := fun a k =>
    ⟨dg_nonneg _ _ _, lt_trans (dg_lt _ _ _) (by norm_num)⟩
  cases hm : cfg.mode <;> simp only [encP, encM, hm, LegalW] at hl ⊢
  case iUintWOffs => exact ⟨hb (by rw [hm]; rfl) _, by norm_num⟩
  case bnn3 => rcases hl with rfl | rfl <;> decide
  case bnn4 => rcases hl with rfl | rfl <;> decide
  case tnn4 => exact ⟨hb1 _ _, hb1 _ _⟩
  case tnn5 => exact ⟨hb1 _ _, hb1 _ _⟩
  case bnn1 | bnn2 | bnn5 | bnn6 => rcases hl with rfl | rfl <;> decide
  case tnn1 | tnn2 | tnn3 => rcases hl with rfl | rfl | rfl <;> decide
  all_goals
    have hb := hb (by rw [hm]; rfl)
    by_cases h0 : 0 ≤ wt
    · simp only [if_pos h0]; exact ⟨hb _, by norm_num⟩
    · simp only [if_neg h0]; exact ⟨by norm_num, hb _⟩

/-- A session with a sensible configuration has at least one row of cells. -/
theorem session_rows (h : Session E hs w) (hok : CfgOk w.cfg) : 0 < w.cfg.R := by
  have hM : 0 < w.cfg.M := by
    rcases (session_inv h).1.loaded with ⟨e, _⟩ | ⟨c, e⟩
    · rw [e] at hok
      exact absurd hok.1 (by simp [cfg0])
    · exact (applyConfig_ok e).1
  have hS : 0 < w.cfg.S := by
    unfold Cfg.S
    rcases Nat.eq_zero_or_pos w.cfg.split.length with h0 | h0
    · rw [List.length_eq_zero_iff] at h0
      cases hm : w.cfg.mode <;> simp [CfgOk, hm, h0] at hok <;> omega
    · exact h0
  exact Nat.mul_pos hM hS

/-- The counters of a session. -/
theorem session_counts (h : Session E hs w) :
    ∃ x, w.xbar = some x ∧ x.writes = writesIn hs ∧ x.mvms = mvmsIn hs := by
  induction h with
  | load h =>
    obtain ⟨_, x, h2, h3, _⟩ := setConfig_inv h
    obtain ⟨_, _, _, h4, h5, _⟩ := mkXbar_inv h3
    exact ⟨x, h2, h4, h5⟩
  | rebuild _ hc hk h' _ =>
    obtain ⟨x, h1, ⟨_, _, h2⟩, _⟩ := update_rebuild hc hk h'
    obtain ⟨_, _, _, h4, h5, _⟩ := mkXbar_inv h2
    exact ⟨x, h1, h4, h5⟩
  | keep _ hc hk h' ih =>
    obtain ⟨x, hx, h1, h2⟩ := ih
    exact ⟨x, (update_keep hc hk h').1.trans hx, h1, h2⟩
  | write _ hm h' ih =>
    obtain ⟨x, hx, i1, i2⟩ := ih
    rcases cpyMtrx_inv h' with ⟨_, h2, _⟩ | ⟨y, y', h1, _, _, h2, rfl⟩
    · cases h2
    · rw [hx] at h1
      cases h1
      obtain ⟨_, _, h3, h4, _⟩ := xWrite_frame h2
      exact ⟨y', rfl, by rw [h3, i1]; rfl, by rw [h4, i2]; rfl⟩
  | mvm _ hm h' ih =>
    obtain ⟨x, hx, i1, i2⟩ := ih
    rcases exeMvm_inv h' with ⟨_, _, h2, _⟩ | ⟨y, y', h1, _, _, h2, rfl⟩
    · cases h2
    · rw [hx] at h1
      cases h1
      obtain ⟨_, h3, h4⟩ := xMvm_frame h2
      exact ⟨y', rfl, by rw [h3, i1]; rfl, by rw [h4, i2]; rfl⟩

end

end Acs
