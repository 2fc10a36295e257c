import Verif.SpecAlphabet
import Verif.Lemmas.IntMod
import Verif.Lemmas.AWrite
import Verif.Lemmas.MvmIff

/-! # Digital binary and ternary multiplications of any operands -/

set_option linter.unusedSectionVars false

namespace Acs

open Finset Spec

section
variable {n : Nat} {vec vp vm : Vec Int}

theorem wr_get {v w : Vec Int} {i : Nat} {a : Int} (h : v.wr i a = .ok w) :
    w.get = fun k => if k = i then a else v.get k := by
  unfold Vec.wr at h
  split at h
  · cases h; rfl
  · cases h

/-- What a splitting of the inputs stores. -/
def Halves (vec : Vec Int) (n : Nat) (v : Vec Int × Vec Int) : Prop :=
  ∀ j, j < n → v.1.get j = (if vec.get j = 1 then 1 else 0) ∧ v.2.get j = (if vec.get j = -1 then 1 else 0)

theorem halves_step {p q p' q' : Vec Int} {i : Nat} {a b : Int} (h : Halves vec i (p, q)) (h1 : p.wr i a = .ok p')
    (h2 : q.wr i b = .ok q') (ha : a = if vec.get i = 1 then 1 else 0) (hb : b = if vec.get i = -1 then 1 else 0) :
    Halves vec (i + 1) (p', q') := by
  intro j hj
  dsimp only
  rw [wr_get h1, wr_get h2]
  dsimp only
  by_cases e : j = i
  · rw [if_pos e, if_pos e, e]
    exact ⟨ha, hb⟩
  · rw [if_neg e, if_neg e]
    exact h j (by omega)

theorem encPM_halves {r : Vec Int × Vec Int} (h : encPM n vec vp vm = .ok r) : Halves vec n r := by
  unfold encPM at h
  induction n generalizing r with
  | zero => exact fun j hj => absurd hj (by omega)
  | succ n ih =>
    rw [loop_succ, bind_eq_ok] at h
    obtain ⟨u, h1, h2⟩ := h
    have k := ih h1
    rw [bind_eq_ok] at h2
    obtain ⟨x, h3, h2⟩ := h2
    obtain ⟨_, rfl⟩ := Vec.rd_eq_ok.1 h3
    by_cases e : vec.get n = 1
    · rw [if_pos e] at h2
      simp only [bind_eq_ok, ok_inj] at h2
      obtain ⟨p, h4, q, h5, rfl⟩ := h2
      exact halves_step k h4 h5 (by rw [if_pos e]) (by rw [if_neg (by omega)])
    · rw [if_neg e] at h2
      by_cases e' : vec.get n = -1
      · rw [if_pos e'] at h2
        simp only [bind_eq_ok, ok_inj] at h2
        obtain ⟨q, h4, p, h5, rfl⟩ := h2
        exact halves_step k h5 h4 (by rw [if_neg e]) (by rw [if_pos e'])
      · rw [if_neg e'] at h2
        cases h2

theorem encPMSum_halves {r : (Vec Int × Vec Int) × Int} (h : encPMSum n vec vp vm = .ok r) :
    Halves vec n r.1 ∧ r.2 = ∑ j ∈ range n, vec.get j := by
  unfold encPMSum at h
  induction n generalizing r with
  | zero =>
    cases h
    exact ⟨fun j hj => absurd hj (by omega), rfl⟩
  | succ n ih =>
    rw [loop_succ, bind_eq_ok] at h
    obtain ⟨u, h1, h2⟩ := h
    obtain ⟨k, ks⟩ := ih h1
    rw [bind_eq_ok] at h2
    obtain ⟨x, h3, h2⟩ := h2
    obtain ⟨_, rfl⟩ := Vec.rd_eq_ok.1 h3
    rw [bind_eq_ok] at h2
    obtain ⟨s, h3, h2⟩ := h2
    obtain ⟨_, rfl⟩ := addI_eq_ok.1 h3
    rw [sum_range_succ, ← ks]
    by_cases e : vec.get n = 1
    · rw [if_pos e] at h2
      simp only [bind_eq_ok, ok_inj] at h2
      obtain ⟨p, h4, q, h5, rfl⟩ := h2
      exact ⟨halves_step k h4 h5 (by rw [if_pos e]) (by rw [if_neg (by omega)]), rfl⟩
    · rw [if_neg e] at h2
      by_cases e' : vec.get n = -1
      · rw [if_pos e'] at h2
        simp only [bind_eq_ok, ok_inj] at h2
        obtain ⟨q, h4, p, h5, rfl⟩ := h2
        exact ⟨halves_step k h5 h4 (by rw [if_neg e]) (by rw [if_pos e']), rfl⟩
      · rw [if_neg e'] at h2
        cases h2

theorem encTern_halves {r : Vec Int × Vec Int} (h : encTern n vec vp vm = .ok r) : Halves vec n r := by
  unfold encTern at h
  induction n generalizing r with
  | zero => exact fun j hj => absurd hj (by omega)
  | succ n ih =>
    rw [loop_succ, bind_eq_ok] at h
    obtain ⟨u, h1, h2⟩ := h
    have k := ih h1
    rw [bind_eq_ok] at h2
    obtain ⟨x, h3, h2⟩ := h2
    obtain ⟨_, rfl⟩ := Vec.rd_eq_ok.1 h3
    by_cases e : vec.get n = 1
    · rw [if_pos e] at h2
      simp only [bind_eq_ok, ok_inj] at h2
      obtain ⟨p, h4, q, h5, rfl⟩ := h2
      exact halves_step k h4 h5 (by rw [if_pos e]) (by rw [if_neg (by omega)])
    · rw [if_neg e] at h2
      by_cases e' : vec.get n = -1
      · rw [if_pos e'] at h2
        simp only [bind_eq_ok, ok_inj] at h2
        obtain ⟨q, h4, p, h5, rfl⟩ := h2
        exact halves_step k h5 h4 (by rw [if_neg e]) (by rw [if_pos e'])
      · rw [if_neg e'] at h2
        by_cases e0 : vec.get n = 0
        · rw [if_pos e0] at h2
          simp only [bind_eq_ok, ok_inj] at h2
          obtain ⟨q, h4, p, h5, rfl⟩ := h2
          exact halves_step k h5 h4 (by rw [if_neg e]) (by rw [if_neg e'])
        · rw [if_neg e0] at h2
          cases h2

/-- The difference of the halves is the input. -/
theorem Halves.sub {v : Vec Int × Vec Int} (h : Halves vec n v) {j : Nat} (hj : j < n)
    (hx : vec.get j = 1 ∨ vec.get j = -1 ∨ vec.get j = 0) : v.1.get j - v.2.get j = vec.get j := by
  rw [(h j hj).1, (h j hj).2]
  rcases hx with e | e | e <;> rw [e] <;> decide

end

/-! ## Terms -/

theorem quadTerm_inv {gd : Gd} {vp vm : Vec Int} {t j : Nat} {x : Int} (h : quadTerm gd vp vm t j = .ok x) :
    x = (gd.p.get t j - gd.m.get t j) * (vp.get j - vm.get j) := by
  unfold quadTerm at h
  simp only [bind_eq_ok, Vec.rd_eq_ok, Mat.rd_eq_ok, subI_eq_ok, mulI_eq_ok, addI_eq_ok] at h
  obtain ⟨p, ⟨_, rfl⟩, q, ⟨_, rfl⟩, x, ⟨_, rfl⟩, y, ⟨_, rfl⟩, a, ⟨_, rfl⟩, b, ⟨_, rfl⟩, s, ⟨_, rfl⟩, d, ⟨_, rfl⟩, s, ⟨_, rfl⟩,
    e, ⟨_, rfl⟩, _, rfl⟩ := h
  ring

theorem bnn34Term_inv {gd : Gd} {u w : Vec Int} {t j : Nat} {x : Int} (h : bnn34Term gd u w t j = .ok x) :
    x = 2 * (gd.p.get t j * (u.get j - w.get j)) := by
  unfold bnn34Term at h
  simp only [bind_eq_ok, Vec.rd_eq_ok, Mat.rd_eq_ok, subI_eq_ok, mulI_eq_ok] at h
  obtain ⟨p, ⟨_, rfl⟩, x, ⟨_, rfl⟩, a, ⟨_, rfl⟩, y, ⟨_, rfl⟩, b, ⟨_, rfl⟩, s, ⟨_, rfl⟩, _, rfl⟩ := h
  ring

theorem bnn5Term_inv {b : Bool} {gd : Gd} {vp vm : Vec Int} {t j : Nat} {x : Int} (h : bnn5Term b gd vp vm t j = .ok x) :
    x = shlVal (gd.p.get t j * vp.get j + gd.m.get t j * vm.get j) 1 := by
  unfold bnn5Term at h
  simp only [bind_eq_ok, Vec.rd_eq_ok, Mat.rd_eq_ok, mulI_eq_ok, addI_eq_ok] at h
  obtain ⟨p, ⟨_, rfl⟩, x, ⟨_, rfl⟩, a, ⟨_, rfl⟩, q, ⟨_, rfl⟩, y, ⟨_, rfl⟩, b, ⟨_, rfl⟩, s, ⟨_, rfl⟩, h⟩ := h
  exact shlI_inv h

theorem diffTerm2_inv {b : Bool} {gd : Gd} {v : Vec Int} {t j : Nat} {x : Int} (h : diffTerm2 b gd v t j = .ok x) :
    x = shlVal ((gd.p.get t j - gd.m.get t j) * v.get j) 1 := by
  unfold diffTerm2 at h
  rw [bind_eq_ok] at h
  obtain ⟨y, h1, h2⟩ := h
  rw [← diffTerm_inv h1]
  exact shlI_inv h2

theorem tcTerms_inv {b : Bool} {gd : Gd} {vp vm : Vec Int} {t j : Nat} {x : Int × Int} (h : tcTerms b gd vp vm t j = .ok x) :
    x = (gd.p.get t j * (vp.get j - vm.get j), shlVal (gd.m.get t j * (vp.get j - vm.get j)) 1) := by
  unfold tcTerms at h
  simp only [bind_eq_ok, Vec.rd_eq_ok, Mat.rd_eq_ok, mulI_eq_ok, subI_eq_ok, ok_inj] at h
  obtain ⟨p, ⟨_, rfl⟩, x, ⟨_, rfl⟩, y, ⟨_, rfl⟩, d, ⟨_, rfl⟩, a, ⟨_, rfl⟩, q, ⟨_, rfl⟩, e, ⟨_, rfl⟩, c, h, rfl⟩ := h
  rw [shlI_inv h]

theorem shlVal_one {a : Int} (h : a < 1073741824) : shlVal a 1 = 2 * a := by
  unfold shlVal wrap32
  split <;> omega

/-! ## Multiplications -/

/-- The rows of `r` are those of `res` plus `f`. -/
def AddsTo (r res : Vec Int) (f : Nat → Int) (m : Nat) : Prop :=
  r.size = res.size ∧ (∀ i, m ≤ i → r.get i = res.get i) ∧ ∀ i, i < m → r.get i = res.get i + f i

theorem AddsTo.congr {r res : Vec Int} {f g : Nat → Int} {m : Nat} (h : AddsTo r res f m) (e : ∀ i, i < m → f i = g i) :
    AddsTo r res g m := ⟨h.1, h.2.1, fun i hi => by rw [h.2.2 i hi, e i hi]⟩

theorem accG_adds {m n : Nat} {term : Nat → Nat → C Int} {f : Nat → Nat → Int} {v v' : Vec Int}
    (hf : ∀ t n' x, t < m → n' < n → term t n' = .ok x → x = f t n') (h : accG addI m n term v = .ok v') :
    AddsTo v' v (fun i => ∑ j ∈ range n, f i j) m := by
  obtain ⟨h1, h2, h3⟩ := accG_lin adds_addI hf h
  exact ⟨h1, h2, fun i hi => by rw [(h3 i hi).1, one_mul]⟩

section
variable {K : Type} [Field K] [LinearOrder K] [IsStrictOrderedRing K] [FloorRing K]
variable {E : Env K} {cfg : Cfg K} {x x' : Xbar K} {h : List Op} {mat res vec r : Vec Int} {m n : Nat} {l : String}
  {W : Nat → Nat → Int}

/-- A crossbar whose mapping looks at weights holds legal ones. -/
theorem runs_legal (hm : checksW cfg.mode) (hr : Runs E cfg h x) :
    ∀ i j v, lastWrite h i j = some v → LegalW cfg v := by
  induction hr with
  | init _ => exact fun i j v e => by cases e
  | @write h x x' mat m n hr hw ih =>
    intro i j v e
    unfold lastWrite at e
    split at e
    · next hij =>
      cases e
      unfold xWrite at hw
      rw [bind_eq_ok] at hw
      obtain ⟨q, h1, _⟩ := hw
      obtain ⟨gd, h2, _⟩ := xWriteD_mapper h1
      unfold dWriteGd at h2
      rw [(runs_shape hr).core.mode] at h2
      unfold LegalW
      cases hmd : cfg.mode <;> simp only [hmd, checksW] at hm h2 ⊢ <;> first
        | exact (dWriteDiffBnn_inv h2).2 i j hij.1 hij.2
        | exact (dWriteDiffTnn_inv h2).2 i j hij.1 hij.2
    · exact ih i j v e
  | mvm _ _ ih => exact ih

theorem updG_adds {f : Nat → Int → C Int} {g : Nat → Int} {v v' : Vec Int} (hf : ∀ i a b, f i a = .ok b → b = a + g i)
    (h : updG m f v = .ok v') : AddsTo v' v g m := by
  unfold updG at h
  refine rowLoop_inv (P := fun i a b => b = a + g i) (fun i hi r r' h' => ?_) h
  obtain ⟨_, y, h1, rfl⟩ := updAt_eq_ok.1 h'
  exact ⟨rfl, fun k hk => if_neg hk, (if_pos rfl).trans (hf _ _ _ h1)⟩

theorem AddsTo.trans {a b c : Vec Int} {f g : Nat → Int} (h1 : AddsTo b a f m) (h2 : AddsTo c b g m) :
    AddsTo c a (fun i => f i + g i) m :=
  ⟨h2.1.trans h1.1, fun i hi => (h2.2.1 i hi).trans (h1.2.1 i hi), fun i hi => by
    rw [h2.2.2 i hi, h1.2.2 i hi, add_assoc]⟩

/-- An update of the row before its products are added. -/
theorem row_adds {f : Int → C Int} {s : Int} (hf : ∀ a b, f a = .ok b → b = a + s) {term : Nat → Nat → C Int}
    {g : Nat → Nat → Int} (ht : ∀ i j y, i < m → j < n → term i j = .ok y → y = g i j)
    (h : loop m (fun i res => updAt res i f >>= accRow addI i n (term i)) res = .ok r) :
    AddsTo r res (fun i => s + ∑ j ∈ range n, g i j) m := by
  refine rowLoop_inv (P := fun i a b => b = a + (s + ∑ j ∈ range n, g i j)) (fun i hi q q' h' => ?_) h
  rw [bind_eq_ok] at h'
  obtain ⟨u, h1, h2⟩ := h'
  obtain ⟨_, y, h3, rfl⟩ := updAt_eq_ok.1 h1
  obtain ⟨k1, k2, k3, _⟩ := accRow_lin adds_addI (fun j y hj => ht i j y hi hj) h2
  refine ⟨k1, fun k hk => (k2 k hk).trans (if_neg hk), ?_⟩
  rw [k3]
  dsimp only
  rw [if_pos rfl, hf _ _ h3, one_mul, add_assoc]

/-- What a binary or ternary mapping computes, whatever the operands. -/
theorem xMvm_seen (hi : cfg.mode.isInt = false) (hok : CfgOk cfg) (hdo : cfg.digitalOnly = true) (hr : Runs E cfg h x)
    (hw : ∀ i j, i < m → j < n → lastWrite h i j = some (W i j)) (hs : keepsRowSums cfg.mode → WidthIs n h)
    (hx : xMvm E cfg x res vec mat m n l = .ok (x', r)) :
    (cfg.mode ≠ .tnn5 → AddsTo r res (fun i => ∑ j ∈ range n, seenW cfg.mode (W i j) * seenX cfg.mode (vec.get j)) m) ∧
    (cfg.mode = .tnn5 → AddsMod r res (fun i => ∑ j ∈ range n, seenW cfg.mode (W i j) * seenX cfg.mode (vec.get j)) m) := by
  have hc := (runs_shape hr).core
  have hcells := runs_cells hok hr
  have hrow : ∀ i, rowOf cfg i = (i, 0) := fun i => by
    unfold rowOf
    cases hmd : cfg.mode <;> simp only [hmd, Mode.isInt, Mode.family] at hi ⊢ <;> cases hi
  have hp : ∀ i j, i < m → j < n → x.mapper.core.gd.p.get i j = encP cfg (W i j) 0 := fun i j h1 h2 => by
    rw [hcells.p, hrow, hw i j h1 h2]; rfl
  have hq : ∀ i j, i < m → j < n → x.mapper.core.gd.m.get i j = encM cfg (W i j) 0 := fun i j h1 h2 => by
    rw [hcells.m, hrow, hw i j h1 h2]; rfl
  have hl : checksW cfg.mode → ∀ i j, i < m → j < n → LegalW cfg (W i j) := fun hm i j h1 h2 =>
    runs_legal hm hr i j _ (hw i j h1 h2)
  have hsum : hasSums cfg.mode = true → keepsRowSums cfg.mode → ∀ i, i < m →
      x.mapper.core.gd.sumW.get i = ∑ j ∈ range n, W i j := fun h1 h2 i h3 => by
    rw [runs_sums hr h1 (hs h2)]
    exact sum_congr rfl fun j hj => by rw [val, hw i j h3 (mem_range.1 hj)]; rfl
  unfold xMvm at hx
  dsimp only at hx
  rw [if_pos hdo, bind_eq_ok] at hx
  obtain ⟨q, hq', hx⟩ := hx
  simp only [ok_inj, Prod.mk.injEq] at hx
  obtain ⟨_, rfl⟩ := hx
  generalize x.mapper.core = c at hq' hp hq hsum hc
  generalize x.mapper.aux = a at hq'
  have hdiff : checksW cfg.mode → ∀ i j, i < m → j < n → c.gd.p.get i j - c.gd.m.get i j = W i j := by
    intro hm i j h1 h2
    rw [hp i j h1 h2, hq i j h1 h2]
    have := hl hm i j h1 h2
    unfold LegalW at this
    unfold encP encM
    cases hmd : cfg.mode <;> simp only [hmd, checksW] at hm this ⊢ <;> first
      | (rcases this with e | e <;> rw [e] <;> decide)
      | (rcases this with e | e | e <;> rw [e] <;> decide)
  unfold dMvm at hq'
  rw [hc.mode] at hq'
  cases hmd : cfg.mode <;> rw [hmd] at hi hq' hsum hdiff hl <;> simp only [Mode.isInt, Mode.family] at hi <;>
    first | (cases hi; done) | skip
  all_goals
    refine ⟨fun hne => ?_, fun he => ?_⟩ <;> first | (cases he; done) | (exact absurd rfl hne) | skip
  case bnn1 =>
    dsimp only at hq'
    unfold dMvmBnnI at hq'
    simp only [bind_eq_ok] at hq'
    obtain ⟨v, h1, t, h2, u, h3, h4⟩ := hq'
    cases h4
    unfold encBnn1 at h1
    have hv : ∀ j, j < n → v.get j = (vec.get j + 1) / 2 := fun j hj => by
      have := ((setG_inv h1).2 j hj).2
      simp only [bind_eq_ok, Vec.rd_eq_ok, addI_eq_ok, shrI_eq_ok] at this
      obtain ⟨_, ⟨_, rfl⟩, _, ⟨_, rfl⟩, _, e⟩ := this
      rw [← e]
      rfl
    have k1 := accG_adds (f := fun i j => (c.gd.p.get i j - c.gd.m.get i j) * v.get j * 2) (fun i j y _ _ hy => by
      simp only [bind_eq_ok, mulI_eq_ok] at hy
      obtain ⟨z, hz, _, rfl⟩ := hy
      rw [diffTerm_inv hz]) h2
    have k2 := updG_adds (g := fun i => -c.gd.sumW.get i) (fun i a b hb => by
      simp only [bind_eq_ok, Vec.rd_eq_ok, subI_eq_ok] at hb
      obtain ⟨_, ⟨_, rfl⟩, _, rfl⟩ := hb
      ring) h3
    refine (k1.trans k2).congr fun i him => ?_
    rw [hsum rfl trivial i him, ← sub_eq_add_neg, ← sum_sub_distrib]
    refine sum_congr rfl fun j hj => ?_
    have hj := mem_range.1 hj
    rw [hdiff trivial i j him hj, hv j hj]
    show _ = W i j * (2 * ((vec.get j + 1) / 2) - 1)
    ring
  case bnn2 =>
    dsimp only at hq'
    unfold dMvmBnnII at hq'
    simp only [bind_eq_ok] at hq'
    obtain ⟨v, h1, t, h2, u, h3, h4⟩ := hq'
    cases h4
    unfold encBnn2 at h1
    have hv : ∀ j, j < n → v.get j = (1 - vec.get j).tdiv 2 := fun j hj => by
      have := ((setG_inv h1).2 j hj).2
      simp only [bind_eq_ok, Vec.rd_eq_ok, subI_eq_ok, ok_inj] at this
      obtain ⟨_, ⟨_, rfl⟩, _, ⟨_, rfl⟩, e⟩ := this
      rw [← e, Int.tdiv_neg, ← Int.neg_tdiv, neg_sub]
    have k1 := accG_adds (f := fun i j => (c.gd.m.get i j - c.gd.p.get i j) * v.get j * 2) (fun i j y _ _ hy => by
      simp only [bind_eq_ok, mulI_eq_ok] at hy
      obtain ⟨z, hz, _, rfl⟩ := hy
      rw [diffTermNeg_inv hz]) h2
    have k2 := updG_adds (g := fun i => c.gd.sumW.get i) (fun i a b hb => by
      simp only [bind_eq_ok, Vec.rd_eq_ok, addI_eq_ok] at hb
      obtain ⟨_, ⟨_, rfl⟩, _, rfl⟩ := hb
      rfl) h3
    refine (k1.trans k2).congr fun i him => ?_
    rw [hsum rfl trivial i him, ← sum_add_distrib]
    refine sum_congr rfl fun j hj => ?_
    have hj := mem_range.1 hj
    rw [← neg_sub, hdiff trivial i j him hj, hv j hj]
    show _ = W i j * (1 - 2 * (1 - vec.get j).tdiv 2)
    ring
  case bnn3 =>
    dsimp only at hq'
    unfold dMvmBnnIII at hq'
    simp only [bind_eq_ok] at hq'
    obtain ⟨v, h1, t, h2, h4⟩ := hq'
    cases h4
    obtain ⟨v1, v2⟩ := encPMSum_halves h1
    have vl := encPMSum_inv h1
    have k := row_adds (s := -v.2) (fun a b hb => by
      obtain ⟨_, rfl⟩ := subI_eq_ok.1 hb
      ring) (fun i j y _ _ hy => bnn34Term_inv hy) h2
    refine k.congr fun i him => ?_
    rw [v2, neg_add_eq_sub, ← sum_sub_distrib]
    refine sum_congr rfl fun j hj => ?_
    have hj := mem_range.1 hj
    rw [v1.sub hj (by rcases (vl j hj).2 with e | e <;> simp [e]), hp i j him hj]
    unfold encP
    rw [hmd]
    show _ = (2 * ((W i j + 1) / 2) - 1) * vec.get j
    ring
  case bnn4 =>
    dsimp only at hq'
    unfold dMvmBnnIV at hq'
    simp only [bind_eq_ok] at hq'
    obtain ⟨v, h1, t, h2, h4⟩ := hq'
    cases h4
    obtain ⟨v1, v2⟩ := encPMSum_halves h1
    have vl := encPMSum_inv h1
    have k := row_adds (s := v.2) (fun a b hb => by
      obtain ⟨_, rfl⟩ := addI_eq_ok.1 hb
      rfl) (fun i j y _ _ hy => bnn34Term_inv hy) h2
    refine k.congr fun i him => ?_
    rw [v2, ← sum_add_distrib]
    refine sum_congr rfl fun j hj => ?_
    have hj := mem_range.1 hj
    have := v1.sub hj (by rcases (vl j hj).2 with e | e <;> simp [e])
    rw [← neg_sub (v.1.1.get j), this, hp i j him hj]
    unfold encP
    rw [hmd]
    show _ = (1 - 2 * (1 - W i j).tdiv 2) * vec.get j
    ring
  case bnn5 =>
    dsimp only at hq'
    unfold dMvmBnnV at hq'
    simp only [bind_eq_ok] at hq'
    obtain ⟨v, h1, t, h2, h4⟩ := hq'
    cases h4
    have v1 := encPM_halves h1
    have vl := encPM_inv h1
    have k := row_adds (s := -(n : Int)) (fun a b hb => by
      obtain ⟨_, rfl⟩ := subI_eq_ok.1 hb
      ring) (fun i j y _ _ hy => bnn5Term_inv hy) h2
    refine k.congr fun i him => ?_
    rw [neg_add_eq_sub, show (n : Int) = ∑ j ∈ range n, 1 by simp, ← sum_sub_distrib]
    refine sum_congr rfl fun j hj => ?_
    have hj := mem_range.1 hj
    rw [(v1 j hj).1, (v1 j hj).2, hp i j him hj, hq i j him hj]
    have w1 := hl trivial i j him hj
    unfold LegalW at w1
    unfold encP encM
    rw [hmd] at w1 ⊢
    show shlVal ((if W i j = 1 then 1 else 0) * (if vec.get j = 1 then 1 else 0)
      + (if W i j = -1 then 1 else 0) * (if vec.get j = -1 then 1 else 0)) 1 - 1 = W i j * vec.get j
    rcases w1 with e | e <;> rcases (vl j hj).2 with e' | e' <;> rw [e, e'] <;> decide
  case bnn6 =>
    dsimp only at hq'
    unfold dMvmBnnVI at hq'
    simp only [bind_eq_ok] at hq'
    obtain ⟨v, h1, t, h2, h4⟩ := hq'
    cases h4
    have v1 := encPM_halves h1
    have vl := encPM_inv h1
    refine (accG_adds (fun i j y _ _ hy => quadTerm_inv hy) h2).congr fun i him => ?_
    refine sum_congr rfl fun j hj => ?_
    have hj := mem_range.1 hj
    rw [v1.sub hj (by rcases (vl j hj).2 with e | e <;> simp [e]), hdiff trivial i j him hj]
    rfl
  case tnn1 =>
    dsimp only at hq'
    unfold dMvmTnnI at hq'
    simp only [bind_eq_ok] at hq'
    obtain ⟨v, h1, t, h2, h4⟩ := hq'
    cases h4
    have v1 := encTern_halves h1
    have vl := encTern_inv h1
    refine (accG_adds (fun i j y _ _ hy => quadTerm_inv hy) h2).congr fun i him => ?_
    refine sum_congr rfl fun j hj => ?_
    have hj := mem_range.1 hj
    rw [v1.sub hj (vl j hj).2, hdiff trivial i j him hj]
    rfl
  case tnn2 =>
    dsimp only at hq'
    unfold dMvmTnnII at hq'
    simp only [bind_eq_ok] at hq'
    obtain ⟨v, h1, t, h2, v', h3, t', h4, h5⟩ := hq'
    cases h5
    unfold encNonzero at h1
    unfold encNegOne at h3
    have hv : ∀ j, j < n → v.get j = if vec.get j ≠ 0 then 1 else 0 := fun j hj => by
      have := ((setG_inv h1).2 j hj).2
      simp only [bind_eq_ok, Vec.rd_eq_ok, ok_inj] at this
      obtain ⟨_, ⟨_, rfl⟩, e⟩ := this
      rw [← e]
    have hv' : ∀ j, j < n → v'.get j = if vec.get j = -1 then 1 else 0 := fun j hj => by
      have := ((setG_inv h3).2 j hj).2
      simp only [bind_eq_ok, Vec.rd_eq_ok, ok_inj] at this
      obtain ⟨_, ⟨_, rfl⟩, e⟩ := this
      rw [← e]
    have k1 := accG_adds (fun i j y _ _ hy => diffTerm_inv hy) h2
    obtain ⟨a1, a2, a3⟩ := accG_lin adds_subI (fun i j y _ _ hy => diffTerm2_inv hy) h4
    have k2 : AddsTo t' t (fun i => -∑ j ∈ range n, shlVal ((c.gd.p.get i j - c.gd.m.get i j) * v'.get j) 1) m :=
      ⟨a1, a2, fun i hi => by rw [(a3 i hi).1, neg_one_mul]⟩
    refine (k1.trans k2).congr fun i him => ?_
    rw [← sub_eq_add_neg, ← sum_sub_distrib]
    refine sum_congr rfl fun j hj => ?_
    have hj := mem_range.1 hj
    rw [hdiff trivial i j him hj, hv j hj, hv' j hj]
    have w1 := hl trivial i j him hj
    unfold LegalW at w1
    rw [hmd] at w1
    show _ = W i j * (if vec.get j = 0 then 0 else if vec.get j = -1 then -1 else 1)
    rw [shlVal_one (by rcases w1 with e | e | e <;> rw [e] <;> split <;> decide)]
    by_cases e0 : vec.get j = 0
    · simp [e0]
    · by_cases e1 : vec.get j = -1
      · simp [e1]
        ring
      · simp [e0, e1]
  case tnn3 =>
    dsimp only at hq'
    unfold dMvmTnnIII at hq'
    simp only [bind_eq_ok] at hq'
    obtain ⟨v, h1, t, h2, v', h3, t', h4, u, h5, h6⟩ := hq'
    cases h6
    unfold encBit0 at h1
    unfold encBit1 at h3
    have hv : ∀ j, j < n → v.get j = (vec.get j + 1) % 2 := fun j hj => by
      have := ((setG_inv h1).2 j hj).2
      simp only [bind_eq_ok, Vec.rd_eq_ok, addI_eq_ok, ok_inj] at this
      obtain ⟨_, ⟨_, rfl⟩, _, ⟨_, rfl⟩, e⟩ := this
      rw [← e, and32_one]
    have hv' : ∀ j, j < n → v'.get j = (vec.get j + 1) / 2 % 2 := fun j hj => by
      have := ((setG_inv h3).2 j hj).2
      simp only [bind_eq_ok, Vec.rd_eq_ok, addI_eq_ok, shr_and_two, ok_inj] at this
      obtain ⟨_, ⟨_, rfl⟩, _, ⟨_, rfl⟩, e⟩ := this
      rw [← e]
    have k1 := accG_adds (fun i j y _ _ hy => diffTerm_inv hy) h2
    have k2 := accG_adds (fun i j y _ _ hy => diffTerm2_inv hy) h4
    have k3 := updG_adds (g := fun i => -c.gd.sumW.get i) (fun i a b hb => by
      simp only [bind_eq_ok, Vec.rd_eq_ok, subI_eq_ok] at hb
      obtain ⟨_, ⟨_, rfl⟩, _, rfl⟩ := hb
      ring) h5
    refine ((k1.trans k2).trans k3).congr fun i him => ?_
    rw [hsum rfl trivial i him, ← sum_add_distrib, ← sub_eq_add_neg, ← sum_sub_distrib]
    refine sum_congr rfl fun j hj => ?_
    have hj := mem_range.1 hj
    have w1 := hl trivial i j him hj
    unfold LegalW at w1
    rw [hmd] at w1
    rw [hdiff trivial i j him hj, hv j hj, hv' j hj, shlVal_one (by
      rcases w1 with e | e | e <;> rw [e] <;> omega)]
    show _ = W i j * ((vec.get j + 1) % 4 - 1)
    rw [show (vec.get j + 1) % 4 = (vec.get j + 1) % 2 + 2 * ((vec.get j + 1) / 2 % 2) by omega]
    ring
  case tnn4 =>
    dsimp only at hq'
    unfold dMvmTnnIV at hq'
    split at hq'
    · cases hq'
    rw [bind_eq_ok] at hq'
    obtain ⟨v, h1, hq'⟩ := hq'
    rw [bind_eq_ok] at hq'
    obtain ⟨t, h2, h4⟩ := hq'
    cases h4
    have v1 := encTern_halves h1
    have vl := encTern_inv h1
    refine (accG_adds (f := fun i j => c.gd.p.get i j * (v.1.get j - v.2.get j)
      - shlVal (c.gd.m.get i j * (v.1.get j - v.2.get j)) 1) (fun i j y _ _ hy => by
      simp only [bind_eq_ok, subI_eq_ok] at hy
      obtain ⟨z, hz, _, rfl⟩ := hy
      rw [tcTerms_inv hz]) h2).congr fun i him => ?_
    refine sum_congr rfl fun j hj => ?_
    have hj := mem_range.1 hj
    have x1 := (vl j hj).2
    rw [v1.sub hj x1, hp i j him hj, hq i j him hj]
    unfold encP encM bits
    rw [hmd]
    show _ = ((W i j + 2) % 4 - 2) * vec.get j
    dsimp only
    rw [shlVal_one (by rcases x1 with e | e | e <;> rw [e] <;> omega)]
    rw [show (W i j + 2) % 4 - 2 = W i j / 2 ^ 0 % 2 ^ 1 - 2 * (W i j / 2 ^ 1 % 2 ^ 1) by omega]
    ring
  case tnn5 =>
    dsimp only at hq'
    unfold dMvmTnnV at hq'
    split at hq'
    · cases hq'
    rw [bind_eq_ok] at hq'
    obtain ⟨s, hs', hq'⟩ := hq'
    rw [bind_eq_ok] at hq'
    obtain ⟨v, h1, hq'⟩ := hq'
    rw [bind_eq_ok] at hq'
    obtain ⟨t, h2, h4⟩ := hq'
    cases h4
    have v1 := encTern_halves h1
    have vl := encTern_inv h1
    have es := inpSum_inv hs'
    refine rowLoop_inv (P := fun i a b => InI32 b ∧ Cong b (a + ∑ j ∈ range n, seenW .tnn5 (W i j) * seenX .tnn5 (vec.get j)))
      (fun i him r r' h' => ?_) h2
    rw [bind_eq_ok] at h'
    obtain ⟨u, h3, h4⟩ := h'
    obtain ⟨k1, k2, k3, _⟩ := accRow_lin adds_addI (f := fun j => c.gd.p.get i j * (v.1.get j - v.2.get j)
      + shlVal (c.gd.m.get i j * (v.1.get j - v.2.get j)) 1) (fun j y hj hy => by
        simp only [bind_eq_ok, addI_eq_ok] at hy
        obtain ⟨z, hz, _, rfl⟩ := hy
        rw [tcTerms_inv hz]) h3
    obtain ⟨_, y, h5, rfl⟩ := updAt_eq_ok.1 h4
    refine ⟨k1, fun k hk => (if_neg hk).trans (k2 k hk), ?_⟩
    dsimp only
    rw [if_pos rfl]
    simp only [bind_eq_ok, ok_inj] at h5
    obtain ⟨d, h6, rfl⟩ := h5
    have ed : d = u.get i - s := by
      unfold i64 at h6
      split at h6
      · exact (ok_inj.1 h6).symm
      · cases h6
    refine ⟨wrap32_in _, (wrap32_cong _).trans (cong_eq ?_)⟩
    rw [ed, k3, es, one_mul, add_sub_assoc, ← sum_sub_distrib]
    refine congrArg _ (sum_congr rfl fun j hj => ?_)
    have hj := mem_range.1 hj
    have x1 := (vl j hj).2
    rw [v1.sub hj x1, hp i j him hj, hq i j him hj]
    unfold encP encM bits
    rw [hmd]
    show _ = ((W i j + 1) % 4 - 1) * vec.get j
    dsimp only
    rw [shlVal_one (by rcases x1 with e | e | e <;> rw [e] <;> omega)]
    rw [show (W i j + 1) % 4 - 1 = (W i j + 1) / 2 ^ 0 % 2 ^ 1 + 2 * ((W i j + 1) / 2 ^ 1 % 2 ^ 1) - 1 by omega]
    ring

end

end Acs
