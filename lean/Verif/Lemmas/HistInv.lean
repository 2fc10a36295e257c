import Verif.Lemmas.AdcQuant
import Verif.Lemmas.WriteInv
import Verif.SpecHist

/-! # Histograms -/

set_option linter.unusedSectionVars false

namespace Acs

open Finset Spec

theorem setG_inv {α : Type} {n : Nat} {f : Nat → C α} {v w : Vec α} (h : setG n f v = .ok w) :
    w.size = v.size ∧ ∀ i, i < n → i < v.size ∧ f i = .ok (w.get i) := by
  unfold setG at h
  induction n generalizing w with
  | zero => cases h; exact ⟨rfl, fun i hi => by omega⟩
  | succ n ih =>
    rw [loop_succ, bind_eq_ok] at h
    obtain ⟨u, h1, h2⟩ := h
    rw [bind_eq_ok] at h2
    obtain ⟨a, h2, h3⟩ := h2
    obtain ⟨e, ih⟩ := ih h1
    unfold Vec.wr at h3
    split at h3
    · next hn =>
      cases h3
      refine ⟨e, fun i hi => ?_⟩
      dsimp only
      split
      · next hin => subst hin; exact ⟨by omega, h2⟩
      · exact ih i (by omega)
    · cases h3

section
variable {K : Type} [Field K] [LinearOrder K] [IsStrictOrderedRing K] [FloorRing K]
variable {E : Env K} {cfg : Cfg K} {adc : Adc} {h h' : Hist K} {vals : Vec K} {len : Nat} {l : String}

theorem bump_inv {i : Int} (hb : h.bump i = .ok h') : 0 ≤ i ∧ i.toNat < h.data.size ∧
    h' = { h with data := ⟨h.data.size, fun k => h.data.get k + if k = i.toNat then 1 else 0⟩ } := by
  unfold Hist.bump at hb
  split at hb
  · cases hb
  · next hi =>
    rw [bind_eq_ok] at hb
    obtain ⟨d, h1, h2⟩ := hb
    unfold updAt at h1
    simp only [bind_eq_ok, Vec.rd_eq_ok, addI_eq_ok] at h1
    obtain ⟨a, ⟨ha, rfl⟩, b, ⟨_, rfl⟩, h3⟩ := h1
    rw [Vec.wr_ok ha] at h3
    cases h3
    cases h2
    refine ⟨by omega, ha, ?_⟩
    congr 1
    refine Vec.ext' (by rfl) fun k => ?_
    dsimp only
    split
    · next e => rw [e]
    · rw [add_zero]

/-- A successful update, any arithmetic. -/
theorem update_inv (hu : h.update E vals len = .ok h') : len ≤ vals.size ∧ ∃ idx : Nat → Nat,
    (∀ i, i < len → h.index E (vals.get i) = .ok (idx i : Int) ∧ idx i < h.data.size) ∧
    h' = { h with data := ⟨h.data.size, fun k => h.data.get k + ((range len).filter fun i => idx i = k).card⟩ } := by
  unfold Hist.update at hu
  rw [bind_eq_ok] at hu
  obtain ⟨ix, h1, h2⟩ := hu
  obtain ⟨-, h1⟩ := setG_inv h1
  have hv : ∀ i, i < len → i < vals.size ∧ h.index E (vals.get i) = .ok (ix.get i) := by
    intro i hi
    have := (h1 i hi).2
    simp only [bind_eq_ok, Vec.rd_eq_ok] at this
    obtain ⟨_, ⟨h3, rfl⟩, h4⟩ := this
    exact ⟨h3, h4⟩
  have key : ∀ t, t ≤ len → ∀ g, loop t (fun i h => do
      let k ← ix.rd i
      Hist.bump h k) h = .ok g → (∀ i, i < t → 0 ≤ ix.get i ∧ (ix.get i).toNat < h.data.size) ∧
      g = { h with data := ⟨h.data.size, fun k => h.data.get k +
        ((range t).filter fun i => (ix.get i).toNat = k).card⟩ } := by
    intro t
    induction t with
    | zero =>
      intro _ g hg
      cases hg
      exact ⟨fun i hi => by omega, by simp⟩
    | succ t ih =>
      intro ht g hg
      rw [loop_succ] at hg
      simp only [bind_eq_ok, Vec.rd_eq_ok] at hg
      obtain ⟨g1, e1, k, ⟨_, rfl⟩, e2⟩ := hg
      obtain ⟨hb, rfl⟩ := ih (by omega) g1 e1
      obtain ⟨b1, b2, rfl⟩ := bump_inv e2
      refine ⟨fun i hi => ?_, ?_⟩
      · rcases Nat.lt_succ_iff_lt_or_eq.1 hi with h | rfl
        · exact hb i h
        · exact ⟨b1, b2⟩
      · congr 1
        refine Vec.ext' (by rfl) fun k => ?_
        dsimp only
        rw [range_add_one, filter_insert]
        by_cases e : (ix.get t).toNat = k
        · rw [if_pos e, if_pos e.symm, card_insert_of_notMem (by simp)]
          push_cast; ring
        · rw [if_neg e, if_neg fun h => e h.symm, add_zero]
  obtain ⟨hb, rfl⟩ := key len (le_refl _) h' h2
  refine ⟨?_, fun i => (ix.get i).toNat, fun i hi => ⟨?_, (hb i hi).2⟩, rfl⟩
  · rcases Nat.eq_zero_or_pos len with h | h
    · omega
    · have := (hv (len - 1) (by omega)).1; omega
  · rw [(hv i hi).2, Int.toNat_of_nonneg (hb i hi).1]

theorem update_total (hu : h.update E vals len = .ok h') : total h' = total h + len ∧
    h'.data.size = h.data.size ∧ h'.minV = h.minV ∧ h'.maxV = h.maxV ∧ h'.bin = h.bin := by
  obtain ⟨_, idx, hi, rfl⟩ := update_inv hu
  refine ⟨?_, rfl, rfl, rfl, rfl⟩
  unfold total
  dsimp only
  rw [sum_add_distrib, ← Nat.cast_sum]
  congr 2
  have := card_eq_sum_card_fiberwise (s := range len) (t := range h.data.size) (f := idx)
    fun i hi' => mem_coe.2 (mem_range.2 (hi i (mem_range.1 (mem_coe.1 hi'))).2)
  rw [← this, card_range]

/-! ## Exact bins -/

theorem round_iff {q : K} {k : Nat} : roundAway q = (k : Int) ↔ (k : K) - 1 / 2 ≤ q ∧ q < k + 1 / 2 ∧ -(1 / 2) < q := by
  have hk : (0 : K) ≤ k := Nat.cast_nonneg k
  unfold roundAway
  split
  · next hq =>
    rw [Int.floor_eq_iff]
    push_cast
    constructor
    · rintro ⟨h1, h2⟩; exact ⟨by linarith, by linarith, by linarith⟩
    · rintro ⟨h1, h2, _⟩; constructor <;> linarith
  · next hq =>
    rw [not_le] at hq
    rw [Int.ceil_eq_iff]
    push_cast
    constructor
    · rintro ⟨h1, h2⟩
      have : (k : K) < 1 := by linarith
      have : k = 0 := by
        have : k < 1 := by exact_mod_cast this
        omega
      subst this
      simp only [Nat.cast_zero] at *
      exact ⟨by linarith, by linarith, by linarith⟩
    · rintro ⟨h1, h2, h3⟩
      have : (k : K) < 1 := by linarith
      have : k = 0 := by
        have : k < 1 := by exact_mod_cast this
        omega
      subst this
      simp only [Nat.cast_zero] at *
      exact ⟨by linarith, by linarith⟩

theorem inBin_iff {mn b v : K} (hb : 0 < b) {k : Nat} : InBin mn b k v ↔ roundAway ((v - mn) / b) = (k : Int) := by
  rw [round_iff]
  unfold InBin
  have e1 : (k : K) - 1 / 2 ≤ (v - mn) / b ↔ mn + k * b - b / 2 ≤ v := by
    rw [le_div_iff₀ hb]; constructor <;> intro h <;> linarith
  have e2 : (v - mn) / b < (k : K) + 1 / 2 ↔ v < mn + k * b + b / 2 := by
    rw [div_lt_iff₀ hb]; constructor <;> intro h <;> linarith
  have e3 : -(1 / 2) < (v - mn) / b ↔ mn - b / 2 < v := by
    rw [lt_div_iff₀ hb]; constructor <;> intro h <;> linarith
  rw [e1, e2, e3]

theorem inBin_unique {mn b v : K} (hb : 0 < b) {k k' : Nat} (h : InBin mn b k v) (h' : InBin mn b k' v) :
    k = k' := by
  rw [inBin_iff hb] at h h'
  exact_mod_cast h.symm.trans h'

theorem index_exact (hE : ExactArith E) (hb : h.bin ≠ 0) (v : K) :
    h.index E v = toI32 ((roundAway ((v - h.minV) / h.bin) : Int) : K) := by
  unfold Hist.index Env.fdiv Env.fsub
  rw [if_neg hb, ok_bind, hE.f32, hE.f32]

theorem toI32_inv {z w : Int} (h : toI32 (z : K) = .ok w) : z = w ∧ InI32 z := by
  unfold toI32 at h
  rw [truncZ_int] at h
  split at h
  · next hz => exact ⟨Except.ok.inj h, hz⟩
  · cases h

/-- A successful update in exact arithmetic: every value has a bin, and every bin counts its values. -/
theorem update_exact_inv (hE : ExactArith E) (hb : 0 < h.bin) (hu : h.update E vals len = .ok h') :
    (∀ i, i < len → ∃ k, k < h.data.size ∧ InBin h.minV h.bin k (vals.get i)) ∧
    ∀ k, h'.data.get k = h.data.get k + tally h.minV h.bin vals.get len k := by
  obtain ⟨_, idx, hi, rfl⟩ := update_inv hu
  have key : ∀ i, i < len → InBin h.minV h.bin (idx i) (vals.get i) := by
    intro i hil
    have := (hi i hil).1
    rw [index_exact hE hb.ne'] at this
    exact (inBin_iff hb).2 (toI32_inv this).1
  refine ⟨fun i hil => ⟨idx i, (hi i hil).2, key i hil⟩, fun k => ?_⟩
  dsimp only
  congr 2
  unfold tally
  congr 1
  refine filter_congr fun i hi' => ?_
  have := key i (mem_range.1 hi')
  exact ⟨fun e => e ▸ this, fun h' => inBin_unique hb this h'⟩

/-- Values inside the bins are counted. -/
theorem update_exact (hE : ExactArith E) (hb : 0 < h.bin) (hl : len ≤ vals.size)
    (hsz : h.data.size ≤ 2147483648) (h0 : ∀ k, k < h.data.size → 0 ≤ h.data.get k ∧ h.data.get k + len ≤ 2147483647)
    (hin : ∀ i, i < len → ∃ k, k < h.data.size ∧ InBin h.minV h.bin k (vals.get i)) :
    ∃ h', h.update E vals len = .ok h' := by
  have hin' : ∀ i, ∃ k : Nat, i < len → k < h.data.size ∧ InBin h.minV h.bin k (vals.get i) := fun i => by
    by_cases hi : i < len
    · obtain ⟨k, hk⟩ := hin i hi; exact ⟨k, fun _ => hk⟩
    · exact ⟨0, fun h => absurd h hi⟩
  choose idx hidx using hin'
  unfold Hist.update
  rw [setG_ok (fun i => (idx i : Int)) (by rfl : len ≤ (Vec.const len (0 : Int)).size) fun i hi => ?_]
  · rw [ok_bind]
    refine ⟨_, loop_ok (fun t => ({ h with data := ⟨h.data.size, fun k => h.data.get k +
        ((range t).filter fun i => idx i = k).card⟩ } : Hist K)) ?_ fun i hi => ?_⟩
    · simp
    · have hk := (hidx i hi).1
      rw [Vec.rd_ok (by exact hi), ok_bind]
      have hg : ((Vec.const len (0 : Int)).over len fun i => (idx i : Int)).get i = idx i := if_pos hi
      rw [hg]
      unfold Hist.bump
      rw [if_neg (by omega), Int.toNat_natCast,
        updAt_ok (i := idx i) (x := h.data.get (idx i) + ((range (i + 1)).filter fun j => idx j = idx i).card) (by exact hk)]
      · rw [ok_bind]
        congr 2
        refine Vec.ext' (by rfl) fun k => ?_
        dsimp only
        split
        · next e => rw [e]
        · next e =>
          rw [range_add_one, filter_insert, if_neg fun h => e h.symm]
      · dsimp only
        have hc : ((range (i + 1)).filter fun j => idx j = idx i).card
            = ((range i).filter fun j => idx j = idx i).card + 1 := by
          rw [range_add_one, filter_insert, if_pos rfl, card_insert_of_notMem (by simp)]
        have hle : ((range (i + 1)).filter fun j => idx j = idx i).card ≤ len :=
          (card_filter_le _ _).trans (by rw [card_range]; omega)
        have h1 := h0 _ hk
        rw [addI_ok, hc]
        · push_cast; rw [add_assoc]
        · constructor <;> omega
  · have hk := hidx i hi
    rw [Vec.rd_ok (by omega), ok_bind, index_exact hE hb.ne', (inBin_iff hb).1 hk.2]
    exact toI32_int ⟨by omega, by have := hk.1; omega⟩

/-- A value beyond the last bin is written out of bounds. -/
theorem update_oob (hE : ExactArith E) (hb : 0 < h.bin) (hl : 1 ≤ vals.size) {k : Nat}
    (hk : h.data.size ≤ k) (hk' : k ≤ 2147483647) (hin : InBin h.minV h.bin k (vals.get 0)) :
    h.update E vals 1 = .error .oob := by
  unfold Hist.update
  rw [setG_ok (fun _ => (k : Int)) (by rfl : 1 ≤ (Vec.const 1 (0 : Int)).size) fun i hi => ?_]
  · rw [ok_bind, loop_succ, loop_zero, ok_bind, Vec.rd_ok (by exact Nat.zero_lt_one), ok_bind]
    have hg : ((Vec.const 1 (0 : Int)).over 1 fun _ => (k : Int)).get 0 = k := rfl
    rw [hg]
    unfold Hist.bump updAt Vec.rd
    rw [if_neg (by omega), Int.toNat_natCast, if_neg (by omega)]
    rfl
  · obtain rfl : i = 0 := by omega
    rw [Vec.rd_ok (by omega), ok_bind, index_exact hE hb.ne', (inBin_iff hb).1 hin]
    exact toI32_int ⟨by omega, by omega⟩

/-! ## Labels -/

theorem label_exact (hE : ExactArith E) (k : Nat) : h.label E k = .ok (h.minV + k * h.bin + h.bin / 2) := by
  induction k with
  | zero =>
    unfold Hist.label Env.fdiv Env.fadd
    rw [if_neg two_ne_zero, ok_bind, hE.f32, hE.f32]
    simp
  | succ k ih =>
    unfold Hist.label
    rw [ih, ok_bind]
    unfold Env.fadd
    rw [hE.f32]
    congr 1
    push_cast; ring

/-! ## The map of layers -/

theorem setHist_lookup {hs : List (String × Hist K)} (l' : String) :
    (setHist hs l h).lookup l' = if l' = l then some h else hs.lookup l' := by
  induction hs with
  | nil =>
    simp only [setHist, List.lookup]
    by_cases e : l' = l
    · simp [e]
    · rw [if_neg e]
      have : (l' == l) = false := by simp [e]
      rw [this]
  | cons p t ih =>
    obtain ⟨k, g⟩ := p
    simp only [setHist]
    split
    · next e =>
      subst e
      simp only [List.lookup]
      by_cases e : l' = k
      · simp [e]
      · rw [if_neg e]
        have : (l' == k) = false := by simp [e]
        rw [this]
    · next e =>
      simp only [List.lookup]
      rw [ih]
      by_cases e' : l' = k
      · have : (l' == k) = true := by simp [e']
        rw [this]
        simp only
        rw [if_neg (by rw [e']; exact e)]
      · have : (l' == k) = false := by simp [e']
        rw [this]

theorem mkHist_inv {mn mx b : K} (hm : mkHist E mn mx b = .ok h) :
    total h = 0 ∧ h.minV = mn ∧ h.maxV = mx ∧ h.bin = b ∧ ∀ k, h.data.get k = 0 := by
  unfold mkHist at hm
  rw [bind_eq_ok] at hm
  obtain ⟨q, _, h2⟩ := hm
  dsimp only at h2
  split at h2
  · cases h2
  · cases h2
    refine ⟨by simp [total], rfl, rfl, rfl, fun _ => rfl⟩

/-- Profiling some values adds their number to the layer and keeps the other layers. -/
theorem profileInputs_inv {hs hs' : List (String × Hist K)} (hp : profileInputs E cfg adc hs vals len l = .ok hs') :
    seen hs' l = seen hs l + len ∧ ∀ l', l' ≠ l → hs'.lookup l' = hs.lookup l' := by
  unfold profileInputs at hp
  simp only [bind_eq_ok, ok_inj] at hp
  obtain ⟨g, h1, g', h2, rfl⟩ := hp
  refine ⟨?_, fun l' hl' => by rw [setHist_lookup, if_neg hl']⟩
  unfold seen
  rw [setHist_lookup, if_pos rfl]
  simp only
  rw [(update_total h2).1]
  congr 1
  unfold getHist at h1
  split at h1
  · next g0 hg =>
    rw [hg]; cases h1; rfl
  · next hg =>
    rw [hg]
    split at h1
    · cases h1
    · exact (mkHist_inv h1).1

end

end Acs
