import Verif.Lemmas.FlAdc
import Verif.Lemmas.XAnalogAdc

/-!
# Integer mappings in floating point

Every bit of the inputs and every slice of the weights gives one conversion; the errors of the conversions add up.
-/

set_option linter.unusedSectionVars false

namespace Acs

open Finset Spec

section
variable {K : Type} [Field K] [LinearOrder K] [IsStrictOrderedRing K] [FloorRing K]
variable {E : Env K} {cfg : Cfg K} {c : Core K} {a : Aux K}
variable {mat vec res v w : Vec Int} {m n N : Nat} {l : String} {A : K} {st : Nat → K} {sg : K}

/-- A crossbar of an integer mapping; `st s` is the computed current per state in slice `s`. -/
structure IntShape (cfg : Cfg K) (c : Core K) (a : Aux K) (st : Nat → K) (m n : Nat) : Prop where
  ne : ∀ s, s < cfg.S → st s ≠ 0
  shs : c.shift.size = cfg.S
  sh : ∀ s, s < cfg.S → c.shift.get s < 32
  sts : c.iStep.size = cfg.S
  st : ∀ s, s < cfg.S → c.iStep.get s = some (st s)
  pr : m * cfg.S ≤ c.ia.p.rows
  pc : n ≤ c.ia.p.cols
  mr : m * cfg.S ≤ c.ia.m.rows
  mc : n ≤ c.ia.m.cols
  sw : m ≤ c.gd.sumW.size
  vdP : n ≤ a.vdP.size
  vdM : n ≤ a.vdM.size
  vdS : n ≤ a.vdSlice.size
  tmpFp : cfg.parasitics = false → m * cfg.S ≤ a.tmpFp.size
  resFp : m ≤ a.resFp.size

/-- The computed scale of a conversion. -/
def scl (E : Env K) (c : Core K) (st : Nat → K) (sg : K) (s b : Nat) : K :=
  E.f32 (E.f64 (2 ^ (c.shift.get s + b) / (sg * st s)))

/-- The computed difference of two columns for the inputs `f`. -/
def colDiff (E : Env K) (c : Core K) (n : Nat) (f : Nat → Int) (t : Nat) : K :=
  fsum E (fun j => E.fmul (E.fsub (c.ia.p.get t j) (c.ia.m.get t j)) (E.ofInt (f j))) n

/-- The computed current of a column for the inputs `f`. -/
def colOne (E : Env K) (c : Core K) (n : Nat) (f : Nat → Int) (t : Nat) : K :=
  fsum E (fun j => E.fmul (c.ia.p.get t j) (E.ofInt (f j))) n

/-- The currents of the columns for bits `f` at the inputs are `col f`. -/
def Delivers (E : Env K) (cfg : Cfg K) (c : Core K) (term : Vec Int → Nat → Nat → C K) (col : (Nat → Int) → Nat → K)
    (m n : Nat) : Prop :=
  ∀ (f : Nat → Int) (sl : Vec Int) (t0 : Vec K), (∀ j, f j = 0 ∨ f j = 1) → n ≤ sl.size →
    (cfg.parasitics = false → m * cfg.S ≤ t0.size) →
    ∃ t, intCurrents E cfg c (term (sl.over n f)) (sl.over n f) (t0.fill 0) m n = .ok t ∧ m * cfg.S ≤ t.size ∧
      ∀ k, k < m * cfg.S → t.get k = col f k

theorem bitOf_cases (v : Int) (b : Nat) : bitOf v b = 0 ∨ bitOf v b = 1 := by
  unfold bitOf
  omega

/-- Only the inputs of the multiplication matter. -/
theorem Delivers.congr {term : Vec Int → Nat → Nat → C K} {col : (Nat → Int) → Nat → K} (h : Delivers E cfg c term col m n)
    {f g : Nat → Int} (hf : ∀ j, f j = 0 ∨ f j = 1) (hg : ∀ j, g j = 0 ∨ g j = 1) (e : ∀ j, j < n → f j = g j) {k : Nat}
    (hk : k < m * cfg.S) : col f k = col g k := by
  obtain ⟨t, h1, _, h2⟩ := h f ⟨n, fun _ => 0⟩ ⟨m * cfg.S, fun _ => 0⟩ hf le_rfl fun _ => le_rfl
  obtain ⟨t', h1', _, h2'⟩ := h g ⟨n, fun _ => 0⟩ ⟨m * cfg.S, fun _ => 0⟩ hg le_rfl fun _ => le_rfl
  have e1 : (⟨n, fun _ => 0⟩ : Vec Int).over n f = (⟨n, fun _ => 0⟩ : Vec Int).over n g :=
    Vec.ext' (by rfl) fun j => by
      simp only [Vec.over]
      split
      · next hj => exact e j hj
      · rfl
  rw [e1, h1'] at h1
  rw [← h2 k hk, ← h2' k hk, ← ok_inj.1 h1]

/-- A step of an accumulation with value `τ` and error `e`, as long as the numbers stay below `A`. -/
def Steps {α : Type} (A : K) (val : α → K) (op : α → K → C α) (κ τ e : K) : Prop :=
  ∀ r : α, |val r| + |τ| + e ≤ A → ∃ r', op r κ = .ok r' ∧ |val r' - (val r + τ)| ≤ e

/-! ## Accumulation of one row -/

/-- The values of a row during its accumulation. -/
def rowSeq {α : Type} (op : α → K → C α) (term : Nat → C K) (x : α) : Nat → α
  | 0 => x
  | k + 1 => match term k >>= fun y => op (rowSeq op term x k) y with
    | .ok r => r
    | .error _ => x

theorem rowSeq_ok {α : Type} {val : α → K} {op : α → K → C α} {term : Nat → C K} {x : α} {S : Nat} {τ e : Nat → K}
    (he : ∀ s, s < S → 0 ≤ e s)
    (hc : ∀ s, s < S → ∃ κ, term s = .ok κ ∧ Steps A val op κ (τ s) (e s))
    (hA : |val x| + ∑ s ∈ range S, (|τ s| + e s) ≤ A) :
    ∀ k, k ≤ S → |val (rowSeq op term x k) - (val x + ∑ s ∈ range k, τ s)| ≤ ∑ s ∈ range k, e s ∧
      ∀ s, s < k → (term s >>= fun y => op (rowSeq op term x s) y) = .ok (rowSeq op term x (s + 1)) := by
  intro k
  induction k with
  | zero => intro _; simp [rowSeq]
  | succ k ih =>
    intro hk
    obtain ⟨h1, h2⟩ := ih (by omega)
    obtain ⟨κ, e1, h3⟩ := hc k (by omega)
    have b1 : |val x| + ∑ s ∈ range (k + 1), (|τ s| + e s) ≤ A := by
      refine le_trans (add_le_add_right (sum_le_sum_of_subset_of_nonneg (range_mono hk) fun s hs _ => ?_) _) hA
      exact add_nonneg (abs_nonneg _) (he s (mem_range.1 hs))
    rw [sum_range_succ, sum_add_distrib] at b1
    have b2 : |val (rowSeq op term x k)| ≤ |val x| + ∑ s ∈ range k, |τ s| + ∑ s ∈ range k, e s := by
      have k1 := abs_add_le (val (rowSeq op term x k) - (val x + ∑ s ∈ range k, τ s)) (val x + ∑ s ∈ range k, τ s)
      rw [sub_add_cancel] at k1
      have k2 := abs_add_le (val x) (∑ s ∈ range k, τ s)
      have k3 := abs_sum_le_sum_abs (f := τ) (s := range k)
      linarith
    obtain ⟨r', e2, h4⟩ := h3 (rowSeq op term x k) (by linarith)
    have e3 : (term k >>= fun y => op (rowSeq op term x k) y) = .ok r' := by rw [e1, ok_bind, e2]
    have e4 : rowSeq op term x (k + 1) = r' := by rw [rowSeq, e3]
    refine ⟨?_, fun s hs => ?_⟩
    · rw [e4, sum_range_succ, sum_range_succ]
      have k1 := abs_add_le (val r' - (val (rowSeq op term x k) + τ k))
        (val (rowSeq op term x k) - (val x + ∑ s ∈ range k, τ s))
      rw [show val r' - (val (rowSeq op term x k) + τ k) + (val (rowSeq op term x k) - (val x + ∑ s ∈ range k, τ s))
        = val r' - (val x + (∑ s ∈ range k, τ s + τ k)) by ring] at k1
      linarith
    · rcases Nat.lt_succ_iff_lt_or_eq.1 hs with h | h
      · exact h2 s h
      · rw [h, e3, e4]

/-- Accumulation of all rows. -/
theorem acc_steps {α : Type} {val : α → K} {op : α → K → C α} {term : Nat → Nat → C K} {x : Vec α} {S : Nat}
    {τ e : Nat → Nat → K} (hx : m ≤ x.size) (he : ∀ i s, i < m → s < S → 0 ≤ e i s)
    (hc : ∀ i s, i < m → s < S → ∃ κ, term i s = .ok κ ∧ Steps A val op κ (τ i s) (e i s))
    (hA : ∀ i, i < m → |val (x.get i)| + ∑ s ∈ range S, (|τ i s| + e i s) ≤ A) :
    ∃ f, accG op m S term x = .ok (x.over m f) ∧
      ∀ i, i < m → |val (f i) - (val (x.get i) + ∑ s ∈ range S, τ i s)| ≤ ∑ s ∈ range S, e i s := by
  refine ⟨fun i => rowSeq op (term i) (x.get i) S,
    accG_ok (fun i k => rowSeq op (term i) (x.get i) k) hx (fun i _ => rfl) fun i k hi hk => ?_, fun i hi => ?_⟩
  · exact (rowSeq_ok (he i · hi) (fun s hs => hc i s hi hs) (hA i hi) S le_rfl).2 k hk
  · exact (rowSeq_ok (he i · hi) (fun s hs => hc i s hi hs) (hA i hi) S le_rfl).1

namespace IntShape
variable (H : IntShape cfg c a st m n)
include H

theorem intConv_ok {t : Vec K} {b i s : Nat} (hb : b < 32) (hsg : sg ≠ 0) (ht : m * cfg.S ≤ t.size) (hi : i < m)
    (hs : s < cfg.S) :
    intConv E cfg c t sg b l i s = conv1 E cfg c.adc (t.get (i * cfg.S + s)) (scl E c st sg s b) 0 l := by
  have hlt := blk_lt hi hs
  have hshs := H.shs
  have hsts := H.sts
  have h1 := H.sh s hs
  unfold intConv
  rw [Vec.rd_ok (by omega), ok_bind, Vec.rd_ok (by omega), ok_bind, Vec.rd_ok (by omega), ok_bind, H.st s hs]
  simp only [useField]
  rw [ok_bind]
  unfold adcScale
  rw [if_neg (by omega), if_neg (mul_ne_zero hsg (H.ne s hs)), ok_bind]
  rfl

theorem cols (hp : cfg.parasitics = false) : Delivers E cfg c (iaDiffTerm E c.ia) (colDiff E c n) m n := by
  intro f sl t0 _ hsl ht
  refine ⟨(t0.fill 0).over (m * cfg.S) (colDiff E c n f), ?_, ht hp, fun k hk => Vec.over_lt hk⟩
  unfold intCurrents
  rw [hp, if_neg (by simp)]
  have hp := H.pr; have hq := H.mr; have hp' := H.pc; have hq' := H.mc
  refine accFl (ht ‹_›) fun i j hi hj => ?_
  unfold iaDiffTerm
  rw [Mat.rd_ok (by omega) (by omega), ok_bind, Mat.rd_ok (by omega) (by omega), ok_bind, over_rd hsl hj, ok_bind]

theorem colsV (hp : cfg.parasitics = false) : Delivers E cfg c (iaTerm E c.ia.p) (colOne E c n) m n := by
  intro f sl t0 _ hsl ht
  refine ⟨(t0.fill 0).over (m * cfg.S) (colOne E c n f), ?_, ht hp, fun k hk => Vec.over_lt hk⟩
  unfold intCurrents
  rw [hp, if_neg (by simp)]
  have hp := H.pr; have hp' := H.pc
  refine accFl (ht ‹_›) fun i j hi hj => ?_
  unfold iaTerm
  rw [Mat.rd_ok (by omega) (by omega), ok_bind, over_rd hsl hj, ok_bind]

/-- What the conversions of `N` bits of the inputs `v` give. -/
def _root_.Acs.ConvBits {α : Type} (E : Env K) (cfg : Cfg K) (c : Core K) (col : (Nat → Int) → Nat → K) (st : Nat → K)
    (A : K) (val : α → K) (op : α → K → C α) (v : Nat → Int) (sg : K) (m N : Nat) (l : String)
    (τ : Nat → Nat → Nat → K) (e : Nat → Nat → K) : Prop :=
  ∀ b i s, b < N → i < m → s < cfg.S →
    0 ≤ e b s ∧ ∃ κ, conv1 E cfg c.adc (col (fun j => bitOf (v j) b) (i * cfg.S + s)) (scl E c st sg s b) 0 l = .ok κ ∧
      Steps A val op κ (τ b i s) (e b s)

/-- The loop over the bits, for any way to compute and to accumulate the currents of a bit. -/
theorem bitsLoop {α : Type} {val : α → K} {op : α → K → C α} {col : (Nat → Int) → Nat → K}
    {body : Nat → Vec Int × Vec K × Vec α → C (Vec Int × Vec K × Vec α)}
    {sl : Vec Int} {t0 : Vec K} {x : Vec α} {τ : Nat → Nat → Nat → K} {e : Nat → Nat → K} {v : Nat → Int}
    (hbody : ∀ b (sl : Vec Int) (t0 : Vec K) (x : Vec α), b < N → n ≤ sl.size →
      (cfg.parasitics = false → m * cfg.S ≤ t0.size) →
      ∃ t, m * cfg.S ≤ t.size ∧ (∀ k, k < m * cfg.S → t.get k = col (fun j => bitOf (v j) b) k) ∧
        body b (sl, t0.fill 0, x) = (do
          let r ← accG op m cfg.S (intConv E cfg c t sg b l) x
          .ok (sl.over n fun j => bitOf (v j) b, t.fill 0, r)))
    (hN : N ≤ 32) (hsl : n ≤ sl.size) (ht : cfg.parasitics = false → m * cfg.S ≤ t0.size) (hr : m ≤ x.size) (hsg : sg ≠ 0)
    (hc : ConvBits E cfg c col st A val op v sg m N l τ e)
    (hA : ∀ i, i < m → |val (x.get i)| + ∑ b ∈ range N, ∑ s ∈ range cfg.S, (|τ b i s| + e b s) ≤ A) :
    ∃ (sl' : Vec Int) (t' : Vec K) (f : _), loop N body (sl, t0.fill 0, x) = .ok (sl', t'.fill 0, x.over m f) ∧ n ≤ sl'.size ∧
      (cfg.parasitics = false → m * cfg.S ≤ t'.size) ∧
      ∀ i, i < m → |val (f i) - (val (x.get i) + ∑ b ∈ range N, ∑ s ∈ range cfg.S, τ b i s)|
        ≤ ∑ b ∈ range N, ∑ s ∈ range cfg.S, e b s := by
  have key : Sat (fun _ => False) (loop N body (sl, t0.fill 0, x))
      fun r => n ≤ r.1.size ∧ (∃ t' : Vec K, r.2.1 = t'.fill 0 ∧ (cfg.parasitics = false → m * cfg.S ≤ t'.size)) ∧ ∃ f, r.2.2 = x.over m f ∧
        ∀ i, i < m → |val (f i) - (val (x.get i) + ∑ b ∈ range N, ∑ s ∈ range cfg.S, τ b i s)|
          ≤ ∑ b ∈ range N, ∑ s ∈ range cfg.S, e b s := by
    refine Sat.loopI (P := fun k (r : Vec Int × Vec K × Vec α) => n ≤ r.1.size ∧
      (∃ t' : Vec K, r.2.1 = t'.fill 0 ∧ (cfg.parasitics = false → m * cfg.S ≤ t'.size)) ∧
      ∃ f, r.2.2 = x.over m f ∧
        ∀ i, i < m → |val (f i) - (val (x.get i) + ∑ b ∈ range k, ∑ s ∈ range cfg.S, τ b i s)|
          ≤ ∑ b ∈ range k, ∑ s ∈ range cfg.S, e b s) ?_ ?_
    · refine ⟨hsl, ⟨t0, rfl, ht⟩, x.get, ?_, fun i _ => by simp⟩
      exact Vec.ext' (by rfl) fun k => by simp [Vec.over]
    · rintro b hb ⟨s1, s2, s3⟩ ⟨h1, ⟨t1, h2, ht1⟩, f, h3, h4⟩
      dsimp only at h1 h2 h3
      subst h2 h3
      obtain ⟨t, g1, g2, g3⟩ := hbody b s1 t1 _ hb h1 ht1
      rw [g3]
      have bnd : ∀ i, i < m → |val (f i)| + ∑ s ∈ range cfg.S, (|τ b i s| + e b s) ≤ A := by
        intro i hi
        have k1 := h4 i hi
        have k2 := hA i hi
        have k3 : ∑ b' ∈ range (b + 1), ∑ s ∈ range cfg.S, (|τ b' i s| + e b' s)
            ≤ ∑ b' ∈ range N, ∑ s ∈ range cfg.S, (|τ b' i s| + e b' s) :=
          sum_le_sum_of_subset_of_nonneg (range_mono hb) fun b' hb' _ => sum_nonneg fun s hs =>
            add_nonneg (abs_nonneg _) (hc b' i s (mem_range.1 hb') hi (mem_range.1 hs)).1
        rw [sum_range_succ] at k3
        have k4 : |∑ b' ∈ range b, ∑ s ∈ range cfg.S, τ b' i s| ≤ ∑ b' ∈ range b, ∑ s ∈ range cfg.S, |τ b' i s| :=
          (abs_sum_le_sum_abs _ _).trans (sum_le_sum fun _ _ => abs_sum_le_sum_abs _ _)
        have k5 := abs_add_le (val (f i) - (val (x.get i) + ∑ b ∈ range b, ∑ s ∈ range cfg.S, τ b i s))
          (val (x.get i) + ∑ b ∈ range b, ∑ s ∈ range cfg.S, τ b i s)
        rw [sub_add_cancel] at k5
        have k6 := abs_add_le (val (x.get i)) (∑ b ∈ range b, ∑ s ∈ range cfg.S, τ b i s)
        have k7 : ∑ b' ∈ range b, ∑ s ∈ range cfg.S, (|τ b' i s| + e b' s)
            = ∑ b' ∈ range b, ∑ s ∈ range cfg.S, |τ b' i s| + ∑ b' ∈ range b, ∑ s ∈ range cfg.S, e b' s := by
          simp only [sum_add_distrib]
        linarith
      obtain ⟨g, e1, h5⟩ := acc_steps (A := A) (val := val) (op := op) (x := x.over m f) (S := cfg.S)
        (term := intConv E cfg c t sg b l)
        (τ := fun i s => τ b i s) (e := fun _ s => e b s) (m := m) hr (fun i s hi hs => (hc b i s hb hi hs).1)
        (fun i s hi hs => by
          rw [H.intConv_ok (by omega) hsg g1 hi hs, g2 _ (blk_lt hi hs)]
          exact (hc b i s hb hi hs).2)
        (fun i hi => by rw [Vec.over_lt hi]; exact bnd i hi)
      rw [e1, ok_bind]
      refine ⟨h1, ⟨t, rfl, fun _ => g1⟩, g, over_set, fun i hi => ?_⟩
      have k1 := h5 i hi
      rw [Vec.over_lt hi] at k1
      have k2 := h4 i hi
      rw [sum_range_succ, sum_range_succ]
      have k3 := abs_add_le (val (g i) - (val (f i) + ∑ s ∈ range cfg.S, τ b i s))
        (val (f i) - (val (x.get i) + ∑ b ∈ range b, ∑ s ∈ range cfg.S, τ b i s))
      rw [show val (g i) - (val (f i) + ∑ s ∈ range cfg.S, τ b i s)
          + (val (f i) - (val (x.get i) + ∑ b ∈ range b, ∑ s ∈ range cfg.S, τ b i s))
        = val (g i) - (val (x.get i) + (∑ b ∈ range b, ∑ s ∈ range cfg.S, τ b i s + ∑ s ∈ range cfg.S, τ b i s)) by
          ring] at k3
      linarith
  rcases key.elim with ⟨⟨s1, s2, s3⟩, h1, h2, ⟨t', h3, ht'⟩, f, h4, h5⟩ | ⟨e, _, h⟩
  · dsimp only at h2 h3 h4
    subst h3 h4
    exact ⟨s1, t', f, h1, h2, ht', h5⟩
  · exact h.elim

/-- The bits of the mappings with differences. -/
theorem loopD {col : (Nat → Int) → Nat → K} (hD : Delivers E cfg c (iaDiffTerm E c.ia) col m n) {sl : Vec Int} {t0 : Vec K} {τ : Nat → Nat → Nat → K} {e : Nat → Nat → K} {op : Int → K → C Int}
    (hop : op = E.iaddf) (hN : N ≤ 32) (hv : n ≤ v.size) (hsl : n ≤ sl.size) (ht : cfg.parasitics = false → m * cfg.S ≤ t0.size)
    (hr : m ≤ res.size) (hsg : sg ≠ 0)
    (hc : ConvBits E cfg c col st A (Int.cast : Int → K) op v.get sg m N l τ e)
    (hA : ∀ i, i < m → |(res.get i : K)| + ∑ b ∈ range N, ∑ s ∈ range cfg.S, (|τ b i s| + e b s) ≤ A) :
    ∃ (sl' : Vec Int) (t' : Vec K) (f : _), loop N (intBit E cfg c v sg m n l) (sl, t0.fill 0, res) = .ok (sl', t'.fill 0, res.over m f) ∧
      n ≤ sl'.size ∧ (cfg.parasitics = false → m * cfg.S ≤ t'.size) ∧ ∀ i, i < m → |(f i : K) - (res.get i + ∑ b ∈ range N, ∑ s ∈ range cfg.S, τ b i s)|
        ≤ ∑ b ∈ range N, ∑ s ∈ range cfg.S, e b s := by
  subst hop
  refine H.bitsLoop (fun b sl t0 x hb hsl ht => ?_) hN hsl ht hr hsg hc hA
  obtain ⟨t, h1, h2, h3⟩ := hD (fun j => bitOf (v.get j) b) sl t0 (fun j => bitOf_cases _ _) hsl ht
  refine ⟨t, h2, h3, ?_⟩
  unfold intBit
  dsimp only
  rw [sliceVd_ok hv hsl (by omega), ok_bind, h1, ok_bind]

/-- The bits of the offset mapping. -/
theorem loopV {col : (Nat → Int) → Nat → K} (hD : Delivers E cfg c (iaTerm E c.ia.p) col m n) {sl : Vec Int} {t0 rf : Vec K} {τ : Nat → Nat → Nat → K} {e : Nat → Nat → K} (hN : N ≤ 32)
    (hv : n ≤ v.size) (hsl : n ≤ sl.size) (ht : cfg.parasitics = false → m * cfg.S ≤ t0.size) (hr : m ≤ rf.size)
    (hc : ConvBits E cfg c col st A (fun x : K => x) (faddC E) v.get 1 m N l τ e)
    (hA : ∀ i, i < m → |rf.get i| + ∑ b ∈ range N, ∑ s ∈ range cfg.S, (|τ b i s| + e b s) ≤ A) :
    ∃ (sl' : Vec Int) (t' : Vec K) (f : _), loop N (intBitV E cfg c v m n l) (sl, t0.fill 0, rf) = .ok (sl', t'.fill 0, rf.over m f) ∧
      n ≤ sl'.size ∧ (cfg.parasitics = false → m * cfg.S ≤ t'.size) ∧ ∀ i, i < m → |f i - (rf.get i + ∑ b ∈ range N, ∑ s ∈ range cfg.S, τ b i s)|
        ≤ ∑ b ∈ range N, ∑ s ∈ range cfg.S, e b s := by
  refine H.bitsLoop (fun b sl t0 x hb hsl ht => ?_) hN hsl ht hr one_ne_zero hc hA
  obtain ⟨t, h1, h2, h3⟩ := hD (fun j => bitOf (v.get j) b) sl t0 (fun j => bitOf_cases _ _) hsl ht
  refine ⟨t, h2, h3, ?_⟩
  unfold intBitV
  dsimp only
  rw [sliceVd_ok hv hsl (by omega), ok_bind, h1, ok_bind]

end IntShape

end

end Acs
