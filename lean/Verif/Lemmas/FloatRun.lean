import Verif.Lemmas.FloatFix
import Verif.Lemmas.RefineA

/-!
# Multiplications that single precision does not disturb
-/

namespace Acs

open Finset Spec

variable {E : Env ℚ} {cfg : Cfg ℚ} {mat mat' vec res : Vec Int} {m n w : Nat} {l : String} {B H e : Int} {q : Nat}
variable {x : Xbar ℚ} {h : List Op} {hr d : ℚ}

theorem grid32 (hE : Ieee E) {z : Int} {y : ℚ} (hy : y = z * 2 ^ e) (hz : |z| ≤ 2 ^ 24) (he : -149 ≤ e) :
    E.f32 y = y := by
  rw [hE.f32, hy, rnd32_fix hz he]

theorem abs_comb {a b H G B : Int} (ha : |a| ≤ B) (hb : |b| ≤ B) (hG : 0 ≤ G) : |a * H + b * G| ≤ B * (|H| + G) := by
  have h1 := abs_add_le (a * H) (b * G)
  rw [abs_mul, abs_mul, abs_of_nonneg hG] at h1
  have h2 := mul_le_mul_of_nonneg_right ha (abs_nonneg H)
  have h3 := mul_le_mul_of_nonneg_right hb hG
  rw [mul_add]
  omega

/-- Device parameters on a binary grid, with a power of two between HRS and LRS. -/
theorem faith32 (hE : Ieee E) (hh : hr = H * 2 ^ e) (hd : d = 2 ^ (e + q)) (he : -148 ≤ e) (hq : q ≤ 148)
    (heq : e + q ≤ 149) (hB : B * (|H| + 2 ^ (q + 1)) ≤ 2 ^ 24) : Faith E hr d B where
  ne := by rw [hd]; exact (zpow_pos two_pos _).ne'
  cur a b ha hb := by
    refine grid32 hE (z := a * H + b * 2 ^ (q + 1)) (e := e - 1) ?_ ((abs_comb ha hb (by positivity)).trans hB)
      (by omega)
    unfold Acs.cur
    rw [hh, hd, zpow_add₀ (by norm_num), zpow_sub₀ (by norm_num), zpow_natCast]
    push_cast
    ring
  out a b ha hb := by
    refine grid32 hE (z := a * H + b * 2 ^ (q + 1)) (e := -(q + 1 : Nat)) ?_
      ((abs_comb ha hb (by positivity)).trans hB) (by omega)
    have h1 : (2 : ℚ) ^ e ≠ 0 := (zpow_pos two_pos _).ne'
    have h2 : (2 : ℚ) ^ (q + 1) ≠ 0 := by positivity
    unfold lin
    rw [hh, hd, zpow_add₀ (by norm_num), zpow_neg, zpow_natCast, zpow_natCast]
    push_cast
    field_simp
    ring
  s1 := by
    rw [hE.f32, hd, one_div, ← zpow_neg, rnd32_pow (by omega)]
  s2 := by
    have e1 : (2 : ℚ) / 2 ^ (e + (q : Int)) = 2 ^ (1 - (e + (q : Int))) := by
      rw [zpow_sub₀ (by norm_num), zpow_one]
    rw [hE.f32, hd, e1, rnd32_pow (by omega)]

theorem curExact32 (hE : Ieee E) (hb : cfg.mode.isInt = false) (hh : cfg.hrs = H * 2 ^ e)
    (hd : cfg.lrs - cfg.hrs = 2 ^ (e + q)) (he : -148 ≤ e) (h24 : |H| + 2 ^ (q + 1) ≤ 2 ^ 24) :
    CurExact E cfg := by
  unfold CurExact
  rw [if_neg (by simp [hb])]
  intro g hg
  have hg1 : |g| ≤ 1 := by rcases hg with rfl | rfl <;> simp
  have hH := abs_nonneg H
  have hq : (2 : Int) ^ q ≤ 2 ^ 24 := by
    have : (2 : Int) ^ q ≤ 2 ^ (q + 1) := pow_le_pow_right₀ (by norm_num) (by omega)
    omega
  unfold cellCurrent Env.fadd Env.fmul Env.fsub Env.ofInt
  have e1 : E.f32 (cfg.lrs - cfg.hrs) = cfg.lrs - cfg.hrs := by
    rw [hd]; exact grid32 hE (z := 1) (e := e + q) (by simp) (by norm_num) (by omega)
  have e2 : E.f32 (g : ℚ) = g := grid32 hE (z := g) (e := 0) (by simp) (by omega) (by norm_num)
  have e3 : E.f32 ((g : ℚ) * (cfg.lrs - cfg.hrs)) = g * (cfg.lrs - cfg.hrs) := by
    rw [hd]; exact grid32 hE (z := g) rfl (by omega) (by omega)
  rw [e1, e2, e3, add_comm]
  refine grid32 hE (z := H + g * 2 ^ q) (e := e) ?_ ?_ (by omega)
  · rw [hd, hh, zpow_add₀ (by norm_num), zpow_natCast]; push_cast; ring
  · have h1 := abs_add_le H (g * 2 ^ q)
    rw [abs_mul, abs_of_nonneg (by positivity : (0 : Int) ≤ 2 ^ q)] at h1
    have h2 := mul_le_mul_of_nonneg_right hg1 (by positivity : (0 : Int) ≤ 2 ^ q)
    rw [pow_succ] at h24
    rw [one_mul] at h2
    have h3 : (0 : Int) ≤ 2 ^ q := by positivity
    generalize (2 : Int) ^ q = G at *
    omega

/-- The state of an ideal crossbar whose cell currents are exact. -/
theorem aHypC (hc : CurExact E cfg) (hok : CfgOk cfg) (hid : Ideal cfg) (hr : Runs E cfg h x)
    (hl : Legal cfg (lastWrite h) m n) (hd : Accepted cfg m n)
    (hs : keepsRowSums cfg.mode → ∀ i, i < m →
      x.mapper.core.gd.sumW.get i = ∑ j ∈ range n, val (lastWrite h) i j)
    (hv : n ≤ vec.size) (hres : m ≤ res.size) (hx : LegalVec cfg vec n) :
    AHyp E cfg x (lastWrite h) res vec m n where
  ok := hok
  id := hid
  shape := runs_shape hr
  cells := runs_cells hok hr
  cur := runs_nominal hc hok hid.analog hid.c2c hid.rd hid.quiet hr
  legal := hl
  dims := hd
  sums := hs
  hv := hv
  hr := hres
  hx := hx

/-- Legal calls, given what a single multiplication does. -/
theorem exec_refines_by {P : Vec Int → Nat → Nat → Prop} (hc : CurExact E cfg) (hok : CfgOk cfg) (hid : Ideal cfg)
    (hst : ∀ y, Shape E cfg y → cfg.mode.isInt = true → ∀ s, s < cfg.S → y.mapper.core.iStep.get s ≠ none)
    (hmvm : ∀ (y : Xbar ℚ) L res vec m n l, AHyp E cfg y L res vec m n → Room cfg res m n → P res m n →
      ∃ a', aMvm E cfg y.mapper.core y.mapper.aux res vec m n l
        = .ok (a', res.over m fun i => res.get i + ∑ j ∈ range n, val L i j * vec.get j))
    {ops : List Op} (hr : Runs E cfg h x) (hh : HistOk cfg w h) (hl : LegalOps cfg w h ops) (hP : EachMvm P ops) :
    ∃ x' rs, exec E cfg x ops = .ok (x', rs) ∧ Answers h ops rs := by
  induction ops generalizing h x with
  | nil => exact ⟨x, [], rfl, .nil⟩
  | cons op ops ih =>
    cases op with
    | write mat m n =>
      obtain ⟨h1, h2⟩ := hl
      obtain ⟨x1, hx1⟩ := xWrite_total_a hok (runs_shape hr) (runs_cells hok hr) hid.par h1.dims h1.buf h1.vals
        h1.sums (hst _ (runs_shape hr))
      obtain ⟨x', rs, h3, h4⟩ := ih (.write hr hx1) (hh.write h1) h2 hP
      exact ⟨x', rs, by rw [exec, hx1, ok_bind, h3], .write h4⟩
    | mvm res vec mat m n l =>
      obtain ⟨h1, h2⟩ := hl
      obtain ⟨p1, p2⟩ := hP
      have A : AHyp E cfg x (lastWrite h) res vec m n := aHypC hc hok hid hr
        (fun i j hi hj => by
          obtain ⟨v, hv⟩ := Option.isSome_iff_exists.1 (h1.written i j hi hj)
          exact ⟨v, hv, hh.vals i j v hv⟩) h1.dims
        (fun hk i _ => by
          have hw := h1.width hk
          subst hw
          exact runs_sums hr (hasSums_of_keeps hk) (hh.width hk) i) h1.vecBuf h1.resBuf h1.vals
      obtain ⟨a', e⟩ := hmvm x _ res vec m n l A h1.room p1
      have hx1 : xMvm E cfg x res vec mat m n l = .ok (_, _) := xMvm_analog A.id e
      have ha : Adds (res.over m fun i => res.get i + ∑ j ∈ range n, val (lastWrite h) i j * vec.get j) res
          (stored h) vec m n :=
        ⟨rfl, fun i hi => by rw [Vec.over_lt hi]; rfl, fun i hi => Vec.over_ge hi⟩
      obtain ⟨x', rs, h3, h4⟩ := ih (.mvm hr hx1) hh.mvm h2 p2
      refine ⟨x', _ :: rs, ?_, .mvm ha h4⟩
      rw [exec, hx1, ok_bind]
      dsimp only
      rw [h3, ok_bind]

/-- Binary and ternary mappings in single precision. -/
theorem exec_bin32 (hE : Ieee E) (hb : cfg.mode.isInt = false) (hok : CfgOk cfg) (hid : Ideal cfg)
    (hinf : cfg.adcType = .inf) (hh : cfg.hrs = H * 2 ^ e) (hd : cfg.lrs - cfg.hrs = 2 ^ (e + q)) (he : -148 ≤ e)
    (heq : e + q ≤ 149) (hB1 : 1 ≤ B) (hB : B * (|H| + 2 ^ (q + 1)) ≤ 2 ^ 24) {ops : List Op}
    (hr : Runs E cfg h x) (ho : HistOk cfg w h) (hl : LegalOps cfg w h ops)
    (hP : EachMvm (fun res m n => 16 * (n : Int) + 16 ≤ B ∧ ∀ i, i < m → |res.get i| + 16 * n ≤ B) ops) :
    ∃ x' rs, exec E cfg x ops = .ok (x', rs) ∧ Answers h ops rs := by
  have h24 : |H| + 2 ^ (q + 1) ≤ 2 ^ 24 := by
    have h0 : 0 ≤ |H| + 2 ^ (q + 1) := by positivity
    nlinarith
  have hq : q ≤ 148 := by
    by_contra hq
    have h1 : (2 : Int) ^ 25 ≤ 2 ^ (q + 1) := pow_le_pow_right₀ (by norm_num) (by omega)
    have h2 := abs_nonneg H
    have h3 : (2 : Int) ^ 24 < 2 ^ 25 := by norm_num
    omega
  have hB24 : B ≤ 2 ^ 24 := by
    have h1 : (1 : Int) ≤ 2 ^ (q + 1) := one_le_pow₀ (by norm_num)
    have h2 := abs_nonneg H
    nlinarith
  refine exec_refines_by (curExact32 hE hb hh hd he h24) hok hid (fun _ _ hi => by rw [hb] at hi; cases hi)
    (fun y L res vec m n l A hroom hp => A.infBin hb (faith32 hE hh hd he hq heq hB) hp.1 hinf ⟨fun i hi => ?_, hp.2⟩)
    hr ho hl hP
  have := hp.2 i hi
  have h3 : (2 : Int) ^ 24 ≤ 2147483647 := by norm_num
  omega

/-! ## Integer mappings -/

/-- All slices have `p` bits and the current per state is a power of two. -/
theorem faithI32 (hE : Ieee E) {S : Nat} {st : Nat → ℚ} {k : Int} (hst : ∀ s, s < S → st s = 2 ^ k) (hk : -149 ≤ k)
    (hk' : k ≤ 149) (hB : B ≤ 2 ^ 24) : FaithI E st S B where
  ne s hs := by rw [hst s hs]; exact (zpow_pos two_pos _).ne'
  int b hb := grid32 hE (z := b) (e := 0) (by simp) (by omega) (by norm_num)
  cur s hs g hg := by rw [hst s hs]; exact grid32 hE (z := g) rfl (by omega) hk
  sc s hs j hj := by
    have e1 : (2 : ℚ) ^ j / 2 ^ k = 2 ^ ((j : Int) - k) := by rw [zpow_sub₀ (by norm_num), zpow_natCast]
    rw [hst s hs, e1, hE.f64, rnd64_pow (by omega), hE.f32, rnd32_pow (by omega)]
  scN s hs j hj := by
    have e1 : -((2 : ℚ) ^ j / 2 ^ k) = ((-1 : Int) : ℚ) * 2 ^ ((j : Int) - k) := by
      rw [zpow_sub₀ (by norm_num), zpow_natCast]; push_cast; ring
    rw [hst s hs, e1, hE.f64, rnd64_fix (by norm_num) (by omega), hE.f32, rnd32_fix (by norm_num) (by omega)]

theorem mask_pos {p : Nat} (hp : 1 ≤ p) : (0 : ℚ) < 2 ^ p - 1 := by
  have h1 : (2 : ℚ) ^ 1 ≤ 2 ^ p := pow_le_pow_right₀ (by norm_num) hp
  linarith

/-- The step of a slice of `p` bits. -/
theorem step32 (hE : Ieee E) {p : Nat} (hp : 1 ≤ p) (hp24 : p ≤ 24) {k : Int} (hk : -149 ≤ k)
    (hd : cfg.lrs - cfg.hrs = (2 ^ p - 1) * 2 ^ k) :
    fieldDiv E (E.fsub cfg.lrs cfg.hrs) (E.ofInt (2 ^ p - 1)) = some (2 ^ k) := by
  have h1 : |(2 : Int) ^ p - 1| ≤ 2 ^ 24 := by
    have h2 : (2 : Int) ^ p ≤ 2 ^ 24 := pow_le_pow_right₀ (by norm_num) hp24
    have h3 : (1 : Int) ≤ 2 ^ p := one_le_pow₀ (by norm_num)
    rw [abs_of_nonneg (by omega)]
    omega
  have e1 : E.f32 (cfg.lrs - cfg.hrs) = (2 ^ p - 1) * 2 ^ k := by
    rw [hd]; exact grid32 hE (z := 2 ^ p - 1) (by push_cast; rfl) h1 hk
  have e2 : E.f32 (((2 ^ p - 1 : Int) : ℚ)) = 2 ^ p - 1 := by
    rw [grid32 hE (z := 2 ^ p - 1) (e := 0) (by simp) h1 (by norm_num)]; push_cast; rfl
  have e3 := (mask_pos hp).ne'
  unfold fieldDiv Env.fsub Env.ofInt
  rw [e1, e2, if_neg e3, mul_comm, mul_div_assoc, div_self e3, mul_one, hE.f32, rnd32_pow hk]

theorem curExactI32 (hE : Ieee E) (hi : cfg.mode.isInt = true) {p : Nat} (hp : 1 ≤ p) (hp24 : p ≤ 24)
    (hsp : ∀ s, s < cfg.S → cfg.split.getD s 0 = p) (hS : 0 < cfg.S) (hh : cfg.hrs = H * 2 ^ e)
    (hd : cfg.lrs - cfg.hrs = (2 ^ p - 1) * 2 ^ (e + q)) (he : -149 ≤ e)
    (h24 : |H| + (2 ^ p - 1) * 2 ^ q ≤ 2 ^ 24) : CurExact E cfg := by
  unfold CurExact
  rw [if_pos hi]
  intro r g st hg hgt hst
  have hr := hsp (r % cfg.S) (Nat.mod_lt _ hS)
  rw [hr, step32 hE hp hp24 (by omega) hd, Option.some.injEq] at hst
  rw [topState_int hi, hr] at hgt
  rw [nominal_int hi, hr, hd, ← hst, mul_comm ((2 : ℚ) ^ p - 1), mul_div_assoc, div_self (mask_pos hp).ne', mul_one]
  have hG : (0 : Int) ≤ 2 ^ q := by positivity
  have hG1 : (1 : Int) ≤ 2 ^ q := one_le_pow₀ (by norm_num)
  have hH := abs_nonneg H
  have hgq : g * 2 ^ q ≤ (2 ^ p - 1) * 2 ^ q := mul_le_mul_of_nonneg_right hgt hG
  have hg24 : |g| ≤ 2 ^ 24 := by rw [abs_of_nonneg hg]; nlinarith
  have hgq24 : |g * 2 ^ q| ≤ 2 ^ 24 := by rw [abs_of_nonneg (by positivity)]; linarith
  unfold cellCurrent Env.fadd Env.fmul Env.ofInt
  have e2 : E.f32 (g : ℚ) = g := grid32 hE (z := g) (e := 0) (by simp) hg24 (by norm_num)
  have e3 : E.f32 ((g : ℚ) * 2 ^ (e + (q : Int))) = g * 2 ^ (e + (q : Int)) :=
    grid32 hE (z := g) rfl hg24 (by omega)
  rw [e2, e3, add_comm]
  refine grid32 hE (z := H + g * 2 ^ q) (e := e) ?_ ?_ he
  · rw [hh, zpow_add₀ (by norm_num), zpow_natCast]; push_cast; ring
  · have h1 := abs_add_le H (g * 2 ^ q)
    rw [abs_of_nonneg (by positivity : 0 ≤ g * 2 ^ q)] at h1
    linarith

/-- Integer mappings with pairs of cells in single precision. -/
theorem exec_int32 (hE : Ieee E) (hi : cfg.mode.isInt = true) (hm : cfg.mode ≠ .iUintWOffs)
    (hgcc : cfg.mode = .iOffsWDiff → E.strict = false) (hok : CfgOk cfg) (hid : Ideal cfg)
    (hinf : cfg.adcType = .inf) {p : Nat} (hp : 1 ≤ p) (hp24 : p ≤ 24)
    (hsp : ∀ s ∈ cfg.split, s = p) (hh : cfg.hrs = H * 2 ^ e)
    (hd : cfg.lrs - cfg.hrs = (2 ^ p - 1) * 2 ^ (e + q)) (he : -149 ≤ e) (heq : e + q ≤ 149)
    (h24 : |H| + (2 ^ p - 1) * 2 ^ q ≤ 2 ^ 24) {ops : List Op}
    (hr : Runs E cfg h x) (ho : HistOk cfg w h) (hl : LegalOps cfg w h ops)
    (hP : EachMvm (fun res m n => ∀ i, i < m → |res.get i| + n * 2 ^ (cfg.wBit + cfg.iBit) ≤ 2 ^ 24) ops) :
    ∃ x' rs, exec E cfg x ops = .ok (x', rs) ∧ Answers h ops rs := by
  have hS := cfgOk_S_pos hok
  have hsp' : ∀ s, s < cfg.S → cfg.split.getD s 0 = p := fun s hs => by
    rw [List.getD_eq_getElem _ _ hs]; exact hsp _ (List.getElem_mem hs)
  have hst : ∀ s, s < cfg.S → (cfg.lrs - cfg.hrs) / ((2 : ℚ) ^ cfg.split.getD s 0 - 1) = 2 ^ (e + (q : Int)) :=
    fun s hs => by
      rw [hsp' s hs, hd, mul_comm, mul_div_assoc, div_self (mask_pos hp).ne', mul_one]
  have hf : ∀ s, s < cfg.S → fieldDiv E (E.fsub cfg.lrs cfg.hrs) (E.ofInt (2 ^ cfg.split.getD s 0 - 1))
      = some ((cfg.lrs - cfg.hrs) / (2 ^ cfg.split.getD s 0 - 1)) := fun s hs => by
    rw [hst s hs, hsp' s hs]; exact step32 hE hp hp24 (by omega) hd
  refine exec_refines_by (curExactI32 hE hi hp hp24 hsp' hS hh hd he h24) hok hid (fun y hy _ s hs => ?_)
    (fun y L res vec m n l A hroom hp' => A.infInt hi hm hgcc
      (faithI32 hE hst (by omega) heq (B := 2 ^ 24) le_rfl) hf (by norm_num) hinf hp' fun i hi' => ?_) hr ho hl hP
  · rw [iStep_get (intOk hok hi) hy.core hs, hy.core.iMM, hid.analog, if_neg (by decide), hf s hs]
    simp
  · have := hp' i hi'
    linarith

end Acs
