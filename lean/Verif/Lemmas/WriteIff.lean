import Verif.SpecReturn
import Verif.Lemmas.AWrite

/-! # Which digital writes return -/

set_option linter.unusedSectionVars false

namespace Acs

open Spec Finset

/-- The steps of a loop that ends regularly. -/
theorem loop_step {σ : Type} {n : Nat} {f : Nat → σ → C σ} {s t : σ} (h : loop n f s = .ok t) {i : Nat} (hi : i < n) :
    ∃ u v, loop i f s = .ok u ∧ f i u = .ok v := by
  induction n generalizing t with
  | zero => omega
  | succ n ih =>
    rw [loop_succ, bind_eq_ok] at h
    obtain ⟨u, h1, h2⟩ := h
    rcases Nat.lt_succ_iff_lt_or_eq.1 hi with hl | rfl
    · exact ih h1 hl
    · exact ⟨u, t, h1, h2⟩

theorem size_of_reads {mat : Vec Int} {m n : Nat} (h : ∀ i j, i < m → j < n → n * i + j < mat.size) :
    m * n ≤ mat.size := by
  rcases Nat.eq_zero_or_pos m with rfl | hm
  · simp
  rcases Nat.eq_zero_or_pos n with rfl | hn
  · simp
  have := h (m - 1) (n - 1) (by omega) (by omega)
  obtain ⟨k, rfl⟩ : ∃ k, m = k + 1 := ⟨m - 1, by omega⟩
  rw [Nat.add_sub_cancel] at this
  rw [Nat.add_mul, Nat.mul_comm k n]
  omega

section
variable {mat : Vec Int} {m n : Nat} {gd gd' : Gd}

/-- Every step of two nested loops that end regularly. -/
theorem loop2_all {σ : Type} {f : Nat → Nat → σ → C σ} {s t : σ} {P : Nat → Nat → Prop}
    (hs : ∀ i j, i < m → j < n → ∀ s t, f i j s = .ok t → P i j)
    (h : loop m (fun i s => loop n (f i) s) s = .ok t) : ∀ i j, i < m → j < n → P i j := fun i j hi hj =>
  loop_all (P := fun i => ∀ j, j < n → P i j) (fun i hi _ _ h' => loop_all (fun j hj s t => hs i j hi hj s t) h') h i hi j hj

theorem dWriteDiff_reads {strict : Bool} {split : List Nat} {shift : Vec Nat} (hS : 0 < split.length)
    (h : dWriteDiff strict split shift mat m n gd = .ok gd') :
    ∀ i, i < m → (∀ j, j < n → n * i + j < mat.size ∧ (¬0 ≤ mat.get (n * i + j) → InI32 (-mat.get (n * i + j)))) ∧
      ∀ k, k ≤ n → InI32 (∑ j ∈ range k, mat.get (n * i + j)) := by
  unfold dWriteDiff at h
  refine loop_all ?_ h
  intro i hi s t ht
  rw [bind_eq_ok] at ht
  obtain ⟨r, h1, _⟩ := ht
  refine ⟨loop_all ?_ h1, fun k hk => ?_⟩
  · intro j hj s t ht
    simp only [bind_eq_ok, Vec.rd_eq_ok, addI_eq_ok] at ht
    obtain ⟨w, ⟨h2, rfl⟩, sum, _, g, h3, _⟩ := ht
    refine ⟨h2, fun h0 => ?_⟩
    obtain ⟨u, v, _, h5⟩ := loop_step h3 hS
    rw [bind_eq_ok] at h5
    obtain ⟨_, _, h5⟩ := h5
    rw [if_neg h0] at h5
    simp only [bind_eq_ok, negI_eq_ok] at h5
    obtain ⟨_, _, _, ⟨h6, _⟩, _⟩ := h5
    exact h6
  · rcases Nat.eq_zero_or_pos k with rfl | hk0
    · simp [InI32]
    obtain ⟨j, rfl⟩ : ∃ j, k = j + 1 := ⟨k - 1, by omega⟩
    obtain ⟨u, v, h2, h3⟩ := loop_step h1 (i := j) (by omega)
    have hu : u.2 = ∑ j ∈ range j, mat.get (n * i + j) := by
      clear h3
      induction j generalizing u with
      | zero =>
        cases h2
        rfl
      | succ j ih =>
        rw [loop_succ, bind_eq_ok] at h2
        obtain ⟨u', h2, h3⟩ := h2
        simp only [bind_eq_ok, Vec.rd_eq_ok, addI_eq_ok, ok_inj] at h3
        obtain ⟨w, ⟨_, rfl⟩, sum, ⟨_, rfl⟩, g, _, rfl⟩ := h3
        rw [sum_range_succ, ← ih (by omega) (by omega) u' h2]
    simp only [bind_eq_ok, Vec.rd_eq_ok, addI_eq_ok] at h3
    obtain ⟨w, ⟨_, rfl⟩, sum, ⟨h4, _⟩, _⟩ := h3
    rw [sum_range_succ, ← hu]
    exact h4

end

section
variable {K : Type} [Field K] [LinearOrder K] [IsStrictOrderedRing K] [FloorRing K]
variable {E : Env K} {cfg : Cfg K} {c : Core K} {mat : Vec Int} {m n : Nat}

theorem dWriteGd_iff (hok : CfgOk cfg) (hc : CoreShape E cfg c) (hd : Accepted cfg m n) (h32 : Int32s mat) :
    (∃ gd', dWriteGd E cfg c mat m n = .ok gd') ↔ m * n ≤ mat.size ∧ Writable cfg (entry mat n) m n := by
  have hfit := Fits.row hok hd
  have hpr := hc.gd.p
  have hmr := hc.gd.m
  have hsw := hc.gd.sumW
  unfold Mat.Is at hpr hmr
  have hR : m * cfg.split.length ≤ cfg.R := hfit.2
  have hS : 0 < cfg.split.length := cfgOk_S_pos hok
  obtain ⟨hd1, hd2, hd3⟩ := hd
  unfold dWriteGd Writable entry
  rw [hc.mode]
  cases hm : cfg.mode <;> simp only []
  case iDiffWDiff1 | iDiffWDiff2 | iOffsWDiff | iTcWDiff | iUintWDiff =>
    have hi := intOk hok (by rw [hm]; rfl)
    constructor
    · rintro ⟨gd', h⟩
      have k := dWriteDiff_reads hS h
      refine ⟨size_of_reads fun i j h1 h2 => ((k i h1).1 j h2).1, fun i h1 => ⟨fun j h2 e => ?_, (k i h1).2⟩⟩
      have := ((k i h1).1 j h2).2 (by rw [e]; decide)
      rw [e] at this
      exact absurd this (by decide)
    · rintro ⟨h1, h2⟩
      refine ⟨_, dWriteDiff_exact hc.shift_size (fun s _ => hi.shift_lt hc s) (fun s hs => hi.sp' s hs)
        (by omega) (by omega) (by omega) (by omega) (by omega) h1 (fun i k h3 h4 => (h2 i h3).2 k h4) fun i j h3 h4 => ?_⟩
      have := (h2 i h3).1 j h4
      have := h32 (n * i + j)
      unfold InI32
      omega
  case iUintWOffs =>
    have hi := intOk hok (by rw [hm]; rfl)
    have hpos : (0 : Int) < 2 ^ (cfg.wBit - 1) := by positivity
    constructor
    · rintro ⟨gd', h⟩
      unfold dWriteOffs at h
      have k := loop2_all (P := fun i j => n * i + j < mat.size ∧ InI32 (mat.get (n * i + j) + 2 ^ (cfg.wBit - 1)))
        (fun i j h1 h2 s t ht => by
          rw [u32sub_one hi.w1, shl_one (by have := hi.w31; omega)] at ht
          simp only [bind_eq_ok, Vec.rd_eq_ok, addI_eq_ok, ok_inj] at ht
          obtain ⟨x, ⟨h3, rfl⟩, o, rfl, w, ⟨h4, rfl⟩, ht⟩ := ht
          exact ⟨h3, h4⟩) h
      exact ⟨size_of_reads fun i j h1 h2 => (k i j h1 h2).1, fun i j h1 h2 => (k i j h1 h2).2.2⟩
    · rintro ⟨h1, h2⟩
      refine ⟨_, dWriteOffs_ok hc.shift_size (fun s _ => hi.shift_lt hc s) (fun s hs => hi.sp' s hs)
        hi.w1 hi.w31 (by omega) (by omega) h1 fun i j him hj => ⟨?_, h2 i j him hj⟩⟩
      have := h32 (n * i + j)
      omega
  case bnn1 | bnn2 | bnn5 | bnn6 =>
    constructor
    · rintro ⟨gd', h⟩
      refine ⟨?_, fun i j h1 h2 => (dWriteDiffBnn_inv h).2 i j h1 h2⟩
      unfold dWriteDiffBnn at h
      refine size_of_reads fun i j h1 h2 => loop_all (P := fun i => ∀ j, j < n → n * i + j < mat.size) ?_ h i h1 j h2
      intro i hi s t ht
      rw [bind_eq_ok] at ht
      obtain ⟨r, h1, _⟩ := ht
      refine loop_all ?_ h1
      intro j hj s t ht
      simp only [bind_eq_ok, Vec.rd_eq_ok] at ht
      obtain ⟨w, ⟨h3, _⟩, _⟩ := ht
      exact h3
    · rintro ⟨h1, h2⟩
      exact ⟨_, dWriteDiffBnn_ok (by omega) (by omega) (by omega) (by omega) (by omega) h1 hd3 h2⟩
  case tnn1 | tnn2 | tnn3 =>
    constructor
    · rintro ⟨gd', h⟩
      refine ⟨?_, fun i j h1 h2 => (dWriteDiffTnn_inv h).2 i j h1 h2⟩
      unfold dWriteDiffTnn at h
      refine size_of_reads fun i j h1 h2 => loop_all (P := fun i => ∀ j, j < n → n * i + j < mat.size) ?_ h i h1 j h2
      intro i hi s t ht
      rw [bind_eq_ok] at ht
      obtain ⟨r, h1, _⟩ := ht
      refine loop_all ?_ h1
      intro j hj s t ht
      simp only [bind_eq_ok, Vec.rd_eq_ok] at ht
      obtain ⟨w, ⟨h3, _⟩, _⟩ := ht
      exact h3
    · rintro ⟨h1, h2⟩
      exact ⟨_, dWriteDiffTnn_ok (by omega) (by omega) (by omega) (by omega) (by omega) h1 hd3 h2⟩
  case bnn3 =>
    constructor
    · rintro ⟨gd', h⟩
      unfold dWriteBnn3 at h
      have k := loop2_all (P := fun i j => n * i + j < mat.size ∧ InI32 (mat.get (n * i + j) + 1))
        (fun i j h1 h2 s t ht => by
          simp only [bind_eq_ok, Vec.rd_eq_ok, addI_eq_ok] at ht
          obtain ⟨x, ⟨h3, rfl⟩, o, ⟨h4, rfl⟩, ht⟩ := ht
          exact ⟨h3, h4⟩) h
      refine ⟨size_of_reads fun i j h1 h2 => (k i j h1 h2).1, fun i j h1 h2 e => ?_⟩
      have := (k i j h1 h2).2
      rw [e] at this
      exact absurd this (by decide)
    · rintro ⟨h1, h2⟩
      refine ⟨_, dWriteBnn3_ok (by omega) (by omega) h1 fun i j h3 h4 => ?_⟩
      have := h2 i j h3 h4
      have := h32 (n * i + j)
      unfold InI32
      omega
  case bnn4 =>
    constructor
    · rintro ⟨gd', h⟩
      unfold dWriteBnn4 at h
      have k := loop2_all (P := fun i j => n * i + j < mat.size ∧ InI32 (mat.get (n * i + j) - 1))
        (fun i j h1 h2 s t ht => by
          simp only [bind_eq_ok, Vec.rd_eq_ok, subI_eq_ok] at ht
          obtain ⟨x, ⟨h3, rfl⟩, o, ⟨h4, rfl⟩, ht⟩ := ht
          exact ⟨h3, h4⟩) h
      refine ⟨size_of_reads fun i j h1 h2 => (k i j h1 h2).1, fun i j h1 h2 e => ?_⟩
      have := (k i j h1 h2).2
      rw [e] at this
      exact absurd this (by decide)
    · rintro ⟨h1, h2⟩
      refine ⟨_, dWriteBnn4_ok (by omega) (by omega) h1 fun i j h3 h4 => ?_⟩
      have := h2 i j h3 h4
      have := h32 (n * i + j)
      unfold InI32
      omega
  case tnn4 | tnn5 =>
    have hsp : cfg.split = [1, 1] := by
      have := hok
      simp only [CfgOk, hm] at this
      exact this.1
    rw [hsp]
    constructor
    · rintro ⟨gd', h⟩
      unfold dWriteTcTnn at h
      rw [if_pos rfl] at h
      first
        | (have k := loop2_all (P := fun i j => n * i + j < mat.size)
            (fun i j h1 h2 s t ht => by
              simp only [bind_eq_ok, Vec.rd_eq_ok] at ht
              obtain ⟨x, ⟨h3, rfl⟩, ht⟩ := ht
              exact h3) h
           exact ⟨size_of_reads k, trivial⟩)
        | (have k := loop2_all (P := fun i j => n * i + j < mat.size ∧ InI32 (mat.get (n * i + j) + 1))
            (fun i j h1 h2 s t ht => by
              simp only [bind_eq_ok, Vec.rd_eq_ok, if_true, addI_eq_ok] at ht
              obtain ⟨x, ⟨h3, rfl⟩, o, ⟨h4, rfl⟩, ht⟩ := ht
              exact ⟨h3, h4⟩) h
           refine ⟨size_of_reads fun i j h1 h2 => (k i j h1 h2).1, fun i j h1 h2 e => ?_⟩
           have := (k i j h1 h2).2
           rw [e] at this
           exact absurd this (by decide))
    · rintro ⟨h1, h2⟩
      refine ⟨_, dWriteTcTnn_ok (by omega) (by omega) (by omega) (by omega) h1 fun i j h3 h4 => ?_⟩
      have := h32 (n * i + j)
      first
        | (have := h2 i j h3 h4
           unfold InI32
           simp only [Bool.toNat_true, Nat.cast_one]
           omega)
        | (unfold InI32
           simp only [Bool.toNat_false, Nat.cast_zero, add_zero]
           omega)

variable {x : Xbar K}

/-- A digital write of the crossbar returns exactly when the mapping can process the weights. -/
theorem xWrite_iff (hok : CfgOk cfg) (hs : Shape E cfg x) (hdo : cfg.digitalOnly = true) (hd : Accepted cfg m n)
    (h32 : Int32s mat) :
    (∃ x', xWrite E cfg x mat m n = .ok x') ↔ m * n ≤ mat.size ∧ Writable cfg (entry mat n) m n := by
  rw [← dWriteGd_iff hok hs.core hd h32]
  constructor
  · rintro ⟨x', h⟩
    unfold xWrite at h
    rw [bind_eq_ok] at h
    obtain ⟨r, h1, _⟩ := h
    obtain ⟨gd, h2, _⟩ := xWriteD_mapper h1
    exact ⟨gd, h2⟩
  · rintro ⟨gd', hgd⟩
    obtain ⟨r, h1⟩ := xWriteD_of_gd hs hgd
    unfold xWrite
    rw [h1, ok_bind, if_pos hdo, ok_bind]
    exact ⟨_, rfl⟩

end

end Acs
