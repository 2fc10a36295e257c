import Verif.Lemmas.MvmIff
import Verif.Lemmas.HistInv
import Verif.Lemmas.Frame

/-! What an analog multiplication has looked at when it returns. -/

namespace Acs

open Spec

section
variable {m n : Nat} {vec v res r : Vec Int}

theorem setG_reads {f : Nat → C Int} {v' : Vec Int} (hf : ∀ j y, f j = .ok y → j < vec.size) (h : setG n f v = .ok v') :
    n ≤ vec.size := by
  by_contra hn
  have := ((setG_inv h).2 vec.size (by omega)).2
  exact absurd (hf _ _ this) (lt_irrefl _)

theorem updG_reads {f : Nat → Int → C Int} (h : updG m f res = .ok r) : m ≤ res.size ∧ r.size = res.size :=
  loop_reads (fun _ _ _ h => updAt_inv h) h

theorem all_reads {P : Nat → Prop} (h : ∀ j, j < n → j < vec.size ∧ P j) : n ≤ vec.size := by
  by_contra hn
  exact absurd (h vec.size (by omega)).1 (lt_irrefl _)

theorem rd_reads {α : Type} {j : Nat} {g : Int → C α} {y : α} (h : vec.rd j >>= g = .ok y) : j < vec.size := by
  rw [bind_eq_ok] at h
  obtain ⟨x, h1, _⟩ := h
  exact (Vec.rd_eq_ok.1 h1).1

theorem accG_reads {α β : Type} {add : α → β → C α} {m n : Nat} {term : Nat → Nat → C β} {v v' : Vec α} (hn : 0 < n)
    (h : accG add m n term v = .ok v') : m ≤ v.size ∧ v'.size = v.size := by
  unfold accG at h
  exact loop_reads (fun i v v' h => by
    have := accRow_inv h
    exact ⟨this.1 hn, this.2⟩) h

theorem loop_reads_snd {σ α : Type} {m : Nat} {f : Nat → σ × Vec α → C (σ × Vec α)} {s t : σ × Vec α}
    (hf : ∀ i s t, f i s = .ok t → i < s.2.size ∧ t.2.size = s.2.size) (h : loop m f s = .ok t) :
    m ≤ s.2.size ∧ t.2.size = s.2.size := by
  induction m generalizing t with
  | zero =>
    cases h
    exact ⟨Nat.zero_le _, rfl⟩
  | succ m ih =>
    rw [loop_succ, bind_eq_ok] at h
    obtain ⟨u, h1, h2⟩ := h
    have h3 := ih h1
    have h4 := hf m u t h2
    omega

end

section
variable {K : Type} [Field K] [LinearOrder K] [IsStrictOrderedRing K] [FloorRing K]
variable {E : Env K} {cfg : Cfg K} {c : Core K} {a : Aux K} {r : Aux K × Vec Int} {res vec : Vec Int} {m n : Nat} {l : String}

theorem aMvm_reads (hf : cfg.mode.family ≠ .int) (hc : c.mode = cfg.mode) (h : aMvm E cfg c a res vec m n l = .ok r) :
    n ≤ vec.size ∧ m ≤ res.size ∧ (checksX cfg.mode → LegalVec cfg vec n) := by
  unfold aMvm at h
  rw [hc] at h
  unfold LegalVec LegalX
  cases hmd : cfg.mode <;> rw [hmd] at hf <;> simp only [hmd, checksX] at h ⊢ <;> first | exact absurd rfl hf | skip
  case bnn1 =>
    unfold aMvmBnnI at h
    simp only [bind_eq_ok] at h
    obtain ⟨v, h1, t, _, s, _, q, _, w, h2, _⟩ := h
    exact ⟨setG_reads (fun _ _ => rd_reads) h1, (updG_reads h2).1, False.elim⟩
  case bnn2 =>
    unfold aMvmBnnII at h
    simp only [bind_eq_ok] at h
    obtain ⟨v, h1, t, _, s, _, q, _, w, h2, _⟩ := h
    exact ⟨setG_reads (fun _ _ => rd_reads) h1, (updG_reads h2).1, False.elim⟩
  case bnn3 =>
    unfold aMvmBnnIII bnn34Currents at h
    rw [bind_eq_ok] at h
    obtain ⟨q, h1, h⟩ := h
    rw [bind_eq_ok] at h1 h
    obtain ⟨v, h1, _⟩ := h1
    obtain ⟨w, h2, _⟩ := h
    exact ⟨all_reads (encPMSum_inv h1), (updG_reads h2).1, fun _ j hj => (encPMSum_inv h1 j hj).2⟩
  case bnn4 =>
    unfold aMvmBnnIV bnn34Currents at h
    rw [bind_eq_ok] at h
    obtain ⟨q, h1, h⟩ := h
    rw [bind_eq_ok] at h1 h
    obtain ⟨v, h1, _⟩ := h1
    obtain ⟨w, h2, _⟩ := h
    exact ⟨all_reads (encPMSum_inv h1), (updG_reads h2).1, fun _ j hj => (encPMSum_inv h1 j hj).2⟩
  case bnn5 =>
    unfold aMvmBnnV at h
    simp only [bind_eq_ok] at h
    obtain ⟨v, h1, t, _, s, _, u, _, q, _, w, h2, _⟩ := h
    exact ⟨all_reads (encPM_inv h1), (updG_reads h2).1, fun _ j hj => (encPM_inv h1 j hj).2⟩
  case bnn6 =>
    unfold aMvmBnnVI addTmp at h
    simp only [bind_eq_ok] at h
    obtain ⟨v, h1, t, _, s, _, q, _, w, h2, _⟩ := h
    exact ⟨all_reads (encPM_inv h1), (updG_reads h2).1, fun _ j hj => (encPM_inv h1 j hj).2⟩
  case tnn1 =>
    unfold aMvmTnnI addTmp at h
    simp only [bind_eq_ok] at h
    obtain ⟨v, h1, t, _, s, _, q, _, w, h2, _⟩ := h
    exact ⟨all_reads (encTern_inv h1), (updG_reads h2).1, fun _ j hj => (encTern_inv h1 j hj).2⟩
  case tnn2 =>
    unfold aMvmTnnII addTmp at h
    rw [bind_eq_ok] at h
    obtain ⟨v, h1, h⟩ := h
    simp only [bind_eq_ok] at h
    obtain ⟨t, _, s, _, q, _, w, h2, _⟩ := h
    exact ⟨setG_reads (fun _ _ => rd_reads) h1, (updG_reads h2).1, False.elim⟩
  case tnn3 =>
    unfold aMvmTnnIII addTmp at h
    rw [bind_eq_ok] at h
    obtain ⟨v, h1, h⟩ := h
    simp only [bind_eq_ok] at h
    obtain ⟨t, _, s, _, q, _, w, h2, _⟩ := h
    exact ⟨setG_reads (fun _ _ => rd_reads) h1, (updG_reads h2).1, False.elim⟩
  case tnn4 =>
    unfold aMvmTnnIV at h
    split at h
    · cases h
    rw [bind_eq_ok] at h
    obtain ⟨s, _, h⟩ := h
    rw [bind_eq_ok] at h
    obtain ⟨v, h1, h⟩ := h
    refine ⟨all_reads (encTern_inv h1), ?_, fun _ j hj => (encTern_inv h1 j hj).2⟩
    rw [bind_eq_ok] at h
    obtain ⟨_, _, h⟩ := h
    rw [bind_eq_ok] at h
    obtain ⟨_, _, h⟩ := h
    rw [bind_eq_ok] at h
    obtain ⟨_, _, h⟩ := h
    rw [bind_eq_ok] at h
    obtain ⟨_, _, h⟩ := h
    split at h
    · iterate 6 (rw [bind_eq_ok] at h; obtain ⟨_, _, h⟩ := h)
      rw [bind_eq_ok] at h
      obtain ⟨w, h2, _⟩ := h
      exact (updG_reads h2).1
    · iterate 8 (rw [bind_eq_ok] at h; obtain ⟨_, _, h⟩ := h)
      rw [bind_eq_ok] at h
      obtain ⟨w, h2, _⟩ := h
      exact (updG_reads h2).1
  case tnn5 =>
    unfold aMvmTnnV at h
    split at h
    · cases h
    rw [bind_eq_ok] at h
    obtain ⟨s, _, h⟩ := h
    rw [bind_eq_ok] at h
    obtain ⟨v, h1, h⟩ := h
    refine ⟨all_reads (encTern_inv h1), ?_, fun _ j hj => (encTern_inv h1 j hj).2⟩
    have hfin : ∀ {y : Vec K} {r : Vec Int}, loop m (fun i res => do
        let y ← y.rd i
        let res ← updAt res i (fun x => E.iaddf x y)
        updAt res i (fun x => do
          let d ← i64 (x - s)
          .ok (wrap32 d))) res = .ok r → m ≤ res.size := fun h => by
      refine (loop_reads (fun i v v' h => ?_) h).1
      simp only [bind_eq_ok] at h
      obtain ⟨_, _, u, h3, h4⟩ := h
      have := updAt_inv h3
      have := updAt_inv h4
      omega
    iterate 3 (rw [bind_eq_ok] at h; obtain ⟨_, _, h⟩ := h)
    split at h
    · iterate 6 (rw [bind_eq_ok] at h; obtain ⟨_, _, h⟩ := h)
      rw [bind_eq_ok] at h
      obtain ⟨w, h2, _⟩ := h
      exact hfin h2
    · iterate 8 (rw [bind_eq_ok] at h; obtain ⟨_, _, h⟩ := h)
      rw [bind_eq_ok] at h
      obtain ⟨w, h2, _⟩ := h
      exact hfin h2

/-! ## Integer mappings -/

theorem intBits_reads {v : Vec Int} {sg : K} {k : Nat} {s t : Vec Int × Vec K × Vec Int} (hS : 0 < cfg.S)
    (h : loop k (intBit E cfg c v sg m n l) s = .ok t) : t.2.2.size = s.2.2.size ∧ (0 < k → m ≤ s.2.2.size) := by
  induction k generalizing t with
  | zero =>
    rw [loop, ok_inj] at h
    subst h
    exact ⟨rfl, fun h => absurd h (lt_irrefl 0)⟩
  | succ k ih =>
    rw [loop_succ, bind_eq_ok] at h
    obtain ⟨u, h1, h2⟩ := h
    unfold intBit at h2
    simp only [bind_eq_ok] at h2
    obtain ⟨_, _, _, _, q, h3, h4⟩ := h2
    rw [ok_inj] at h4
    subst h4
    have h5 := accG_reads hS h3
    have h6 := (ih h1).1
    exact ⟨by show q.size = _; omega, fun _ => by omega⟩

theorem encSigned_reads' {v u : Vec Int} {p : Vec Int × Vec Int} (h : encSigned n vec v u = .ok p) : n ≤ vec.size := by
  have := loop_all (P := fun i => i < vec.size) (fun i _ s t hs => rd_reads hs) h
  by_contra hn
  exact absurd (this vec.size (by omega)) (lt_irrefl _)

theorem aMvm_reads_int (hf : cfg.mode.family = .int) (hok : CfgOk cfg) (hc : c.mode = cfg.mode)
    (h : aMvm E cfg c a res vec m n l = .ok r) : n ≤ vec.size ∧ m ≤ res.size := by
  have hk : 0 < cfg.S ∧ 1 ≤ cfg.iBit ∧ cfg.iBit ≤ 31 := by
    have hS : cfg.split.sum ≠ 0 → 0 < cfg.S := fun hs => by
      unfold Cfg.S
      exact List.length_pos_of_ne_nil fun e => hs (by rw [e]; rfl)
    unfold CfgOk at hok
    cases hmd : cfg.mode <;> rw [hmd] at hf hok <;> first | exact absurd hf (by decide) | exact ⟨hS (by omega), hok.2.2.2.2⟩
  unfold aMvm at h
  rw [hc] at h
  cases hmd : cfg.mode <;> rw [hmd] at hf <;> simp only [hmd] at h <;> first | exact absurd hf (by decide) | skip
  case iDiffWDiff1 =>
    unfold aMvmIntI at h
    simp only [bind_eq_ok] at h
    obtain ⟨v, h1, p, h2, q, h3, _⟩ := h
    have h4 := (intBits_reads hk.1 h2).1
    have h5 := (intBits_reads hk.1 h3).2 hk.2.1
    exact ⟨encSigned_reads' h1, by rw [h4] at h5; exact h5⟩
  case iDiffWDiff2 =>
    unfold aMvmIntI at h
    simp only [bind_eq_ok] at h
    obtain ⟨v, h1, p, h2, q, h3, _⟩ := h
    have h4 := (intBits_reads hk.1 h2).1
    have h5 := (intBits_reads hk.1 h3).2 hk.2.1
    exact ⟨encSigned_reads' h1, by rw [h4] at h5; exact h5⟩
  case iOffsWDiff =>
    unfold aMvmIntII at h
    simp only [bind_eq_ok] at h
    obtain ⟨v, h1, p, h2, _⟩ := h
    refine ⟨setG_reads (fun j y hj => ?_) h1, (intBits_reads hk.1 h2).2 (by unfold u32succ; omega)⟩
    rw [bind_eq_ok] at hj
    obtain ⟨_, _, hj⟩ := hj
    exact rd_reads hj
  case iTcWDiff =>
    unfold aMvmIntIII at h
    simp only [bind_eq_ok] at h
    obtain ⟨v, h1, p, h2, _, _, _, _, q, h3, _⟩ := h
    have h4 := (intBits_reads hk.1 h2).1
    have h5 := (accG_reads hk.1 h3).1
    exact ⟨setG_reads (fun j y hj => (Vec.rd_eq_ok.1 hj).1) h1, by rw [h4] at h5; exact h5⟩
  case iUintWDiff =>
    unfold aMvmIntIV at h
    simp only [bind_eq_ok] at h
    obtain ⟨v, h1, p, h2, _⟩ := h
    exact ⟨setG_reads (fun j y hj => (Vec.rd_eq_ok.1 hj).1) h1, (intBits_reads hk.1 h2).2 hk.2.1⟩
  case iUintWOffs =>
    unfold aMvmIntV at h
    rw [bind_eq_ok] at h
    obtain ⟨v, h1, h⟩ := h
    iterate 2 (rw [bind_eq_ok] at h; obtain ⟨_, _, h⟩ := h)
    rw [bind_eq_ok] at h
    obtain ⟨q, h2, _⟩ := h
    refine ⟨setG_reads (fun j y hj => (Vec.rd_eq_ok.1 hj).1) h1, ?_⟩
    refine (loop_reads_snd (fun i s t hst => ?_) h2).1
    simp only [bind_eq_ok] at hst
    obtain ⟨_, _, _, _, _, _, _, _, _, _, u, h3, h4⟩ := hst
    rw [ok_inj] at h4
    subst h4
    exact updAt_inv h3

theorem aMvm_reads_all (hok : cfg.mode.family = .int → CfgOk cfg) (hc : c.mode = cfg.mode)
    (h : aMvm E cfg c a res vec m n l = .ok r) :
    n ≤ vec.size ∧ m ≤ res.size ∧ (checksX cfg.mode → LegalVec cfg vec n) := by
  by_cases hf : cfg.mode.family = .int
  · obtain ⟨h1, h2⟩ := aMvm_reads_int hf (hok hf) hc h
    refine ⟨h1, h2, fun h3 => ?_⟩
    cases hmd : cfg.mode <;> rw [hmd] at hf h3 <;> first | exact absurd hf (by decide) | exact h3.elim
  · exact aMvm_reads hf hc h

/-- A multiplication on an analog crossbar that returns. -/
theorem xMvm_reads_a {x : Xbar K} {mat : Vec Int} {q : Xbar K × Vec Int} (hok : cfg.mode.family = .int → CfgOk cfg)
    (hc : x.mapper.core.mode = cfg.mode) (hd : cfg.digitalOnly = false)
    (h : xMvm E cfg x res vec mat m n l = .ok q) :
    n ≤ vec.size ∧ m ≤ res.size ∧ (checksX cfg.mode → LegalVec cfg vec n) := by
  unfold xMvm at h
  dsimp only at h
  rw [if_neg (by rw [hd]; decide), bind_eq_ok] at h
  obtain ⟨mp, h1, h⟩ := h
  rw [bind_eq_ok] at h
  obtain ⟨p, h2, _⟩ := h
  refine aMvm_reads_all hok ?_ h2
  split at h1
  · rw [(addC2C_frame h1).2.1.mode, hc]
  · rw [ok_inj] at h1
    subst h1
    exact hc

theorem exeMvm_reads_a {w w' : World K} {x : Xbar K} {mat r : Vec Int} (hx : w.xbar = some x)
    (hc : x.mapper.core.mode = w.cfg.mode) (hok : w.cfg.mode.family = .int → CfgOk w.cfg) (hd : w.cfg.digitalOnly = false)
    (hm : m < 2147483648 ∧ n < 2147483648) (h' : exeMvm E res vec mat m n l w = .ok (w', r, 0)) :
    Accepted w.cfg m n ∧ n ≤ vec.size ∧ m ≤ res.size ∧ (checksX w.cfg.mode → LegalVec w.cfg vec n) := by
  rcases exeMvm_inv h' with ⟨_, _, h2, _⟩ | ⟨y, y', h2, h3, _, h4, _⟩
  · cases h2
  unfold tooBig at h3
  rw [toU32_cast hm.1, toU32_cast hm.2] at h3
  rw [toSize_cast hm.1, toSize_cast hm.2] at h4
  rw [hx] at h2
  cases h2
  exact ⟨⟨by omega, by omega, by omega⟩, xMvm_reads_a hok hc hd h4⟩

end

end Acs
