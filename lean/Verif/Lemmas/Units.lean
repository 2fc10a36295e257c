import Verif.Lemmas.DetMvm
import Verif.SpecUnits

/-! # Cells, solver and converter in another unit of current -/

set_option linter.unusedSectionVars false

namespace Acs

open Spec

section
variable {K : Type} [Field K] [LinearOrder K] [IsStrictOrderedRing K] [FloorRing K]
variable {w : Bool} {E : Env K} {cfg : Cfg K} {c : K} {k : Core K} {m n : Nat} {l : String}

/-! ## Arithmetic -/

section
variable (h : Unitlike E c)
include h

theorem Spec.Unitlike.ne : c ≠ 0 := ne_of_gt h.pos

theorem Spec.Unitlike.f32' (x : K) : E.f32 (x / c) = E.f32 x / c := by
  rw [eq_div_iff h.ne, mul_comm, ← h.f32, mul_div_cancel₀ _ h.ne]

theorem Spec.Unitlike.f64' (x : K) : E.f64 (x / c) = E.f64 x / c := by
  rw [eq_div_iff h.ne, mul_comm, ← h.f64, mul_div_cancel₀ _ h.ne]

theorem Spec.Unitlike.fadd (a b : K) : E.fadd (c * a) (c * b) = c * E.fadd a b := by
  unfold Env.fadd; rw [← h.f32]; congr 1; ring
theorem Spec.Unitlike.fsub (a b : K) : E.fsub (c * a) (c * b) = c * E.fsub a b := by
  unfold Env.fsub; rw [← h.f32]; congr 1; ring
theorem Spec.Unitlike.fmul (a b : K) : E.fmul (c * a) b = c * E.fmul a b := by
  unfold Env.fmul; rw [← h.f32]; congr 1; ring
theorem Spec.Unitlike.fmul' (a b : K) : E.fmul a (c * b) = c * E.fmul a b := by
  unfold Env.fmul; rw [← h.f32]; congr 1; ring
theorem Spec.Unitlike.fmul_div (a b : K) : E.fmul (c * a) (b / c) = E.fmul a b := by
  unfold Env.fmul; congr 1; have := h.ne; field_simp

theorem Spec.Unitlike.rel_fdiv (a b : K) : Rel w (fun x y => y = c * x) (E.fdiv a b) (E.fdiv (c * a) b) := by
  unfold Env.fdiv
  refine Rel.ite (fun _ => Rel.err) fun _ => ?_
  show _ = _
  rw [← h.f32, mul_div_assoc]

theorem Spec.Unitlike.fdiv_both (a b : K) : E.fdiv (c * a) (c * b) = E.fdiv a b := by
  unfold Env.fdiv
  rw [mul_div_mul_left _ _ h.ne]
  by_cases hb : b = 0
  · rw [if_pos hb, if_pos (by rw [hb, mul_zero])]
  · rw [if_neg hb, if_neg (mul_ne_zero h.ne hb)]

theorem Spec.Unitlike.rel_fdiv' (a b : K) : Rel w (fun x y => y = x / c) (E.fdiv a b) (E.fdiv a (c * b)) := by
  unfold Env.fdiv
  by_cases hb : b = 0
  · rw [if_pos hb, if_pos (by rw [hb, mul_zero])]
    exact Rel.err
  · rw [if_neg hb, if_neg (mul_ne_zero h.ne hb)]
    show _ = _
    rw [← h.f32']
    congr 1
    rw [div_div, mul_comm]

theorem Spec.Unitlike.lt (a b : K) : c * a < c * b ↔ a < b := mul_lt_mul_iff_right₀ h.pos
theorem Spec.Unitlike.le (a b : K) : c * a ≤ c * b ↔ a ≤ b := mul_le_mul_iff_right₀ h.pos

end

/-! ## Matrices, solver, core -/

/-- All entries times `c`. -/
def Mat.times (c : K) (A : Mat K) : Mat K := ⟨A.rows, A.cols, fun i j => c * A.get i j⟩

theorem rel_rd {A : Mat K} {i j : Nat} : Rel w (fun x y => y = c * x) (A.rd i j) ((A.times c).rd i j) := by
  unfold Mat.rd
  exact Rel.ite (fun _ => rfl) fun _ => Rel.err

theorem rel_wr {A : Mat K} {i j : Nat} {x y : K} (h : y = c * x) :
    Rel w (fun A A' => A' = A.times c) (A.wr i j x) ((A.times c).wr i j y) := by
  subst h
  unfold Mat.wr
  refine Rel.ite (fun _ => ?_) fun _ => Rel.err
  show _ = _
  unfold Mat.times
  congr 1
  funext a b
  dsimp only
  split <;> rfl

def Ia.times (c : K) (ia : Ia K) : Ia K := ⟨ia.p.times c, ia.m.times c, ia.pO.times c, ia.mO.times c⟩

def Solver.times (c : K) (s : Solver K) : Solver K := { s with
  wRes := s.wRes / c
  ga := s.ga.map fun g => (g.1.times c, c * g.2) }

def Core.times (c : K) (k : Core K) : Core K := { k with
  ia := k.ia.times c
  iStep := ⟨k.iStep.size, fun i => (k.iStep.get i).map (c * ·)⟩
  iMM := c * k.iMM
  par := k.par.map (Solver.times c) }

/-- Currents up to index `k`. -/
structure VecTimes (c : K) (k : Nat) (v v' : Vec K) : Prop where
  size : v'.size = v.size
  get : ∀ i, i < k → i < v.size → v'.get i = c * v.get i

theorem VecTimes.rd {k i : Nat} {v v' : Vec K} (h : VecTimes c k v v') (hi : i < k) :
    Rel w (fun x y => y = c * x) (v.rd i) (v'.rd i) := by
  unfold Vec.rd
  rw [h.size]
  exact Rel.ite (fun hs => h.get i hi hs) fun _ => Rel.err

theorem VecTimes.wr {k i : Nat} {v v' : Vec K} {x y : K} (h : VecTimes c k v v') (hx : y = c * x) :
    Rel w (VecTimes c k) (v.wr i x) (v'.wr i y) := by
  subst hx
  unfold Vec.wr
  rw [h.size]
  refine Rel.ite (fun _ => ?_) fun _ => Rel.err
  refine ⟨rfl, fun j hj hs => ?_⟩
  show (if j = i then _ else v'.get j) = c * if j = i then _ else v.get j
  split
  · rfl
  · exact h.get j hj hs

theorem VecTimes.wr_next {i : Nat} {v v' : Vec K} {x y : K} (h : VecTimes c i v v') (hx : y = c * x) :
    Rel w (VecTimes c (i + 1)) (v.wr i x) (v'.wr i y) := by
  subst hx
  unfold Vec.wr
  rw [h.size]
  refine Rel.ite (fun _ => ?_) fun _ => Rel.err
  refine ⟨rfl, fun j hj hs => ?_⟩
  show (if j = i then _ else v'.get j) = c * if j = i then _ else v.get j
  split
  · rfl
  · exact h.get j (by omega) hs

theorem VecTimes.zero {k : Nat} {v v' : Vec K} (h : v.size = v'.size) : VecTimes c k (v.fill 0) (v'.fill 0) :=
  ⟨h.symm, fun i _ hi => by
    have hi : i < v.size := hi
    show (if i < v'.size then 0 else v'.get i) = c * if i < v.size then 0 else v.get i
    rw [if_pos hi, if_pos (h ▸ hi), mul_zero]⟩

theorem VecTimes.const {k r : Nat} : VecTimes c k (Vec.const r (0 : K)) (Vec.const r 0) :=
  ⟨rfl, fun _ _ _ => (mul_zero c).symm⟩

theorem VecTimes.updAt {k i : Nat} {v v' : Vec K} {f g : K → C K} (h : VecTimes c k v v') (hi : i < k)
    (hf : ∀ a, Rel w (fun x y => y = c * x) (f a) (g (c * a))) : Rel w (VecTimes c k) (updAt v i f) (updAt v' i g) := by
  unfold Acs.updAt
  refine Rel.bind (h.rd hi) fun a b e => ?_
  subst e
  exact Rel.bind (hf a) fun x y e => h.wr e

theorem rel_setG_times {r : Nat} {f g : Nat → C K} {v v' : Vec K} (hs : v.size = v'.size)
    (h : ∀ i, i < r → Rel w (fun x y => y = c * x) (f i) (g i)) : Rel w (VecTimes c r) (setG r f v) (setG r g v') := by
  unfold setG
  refine Rel.loop (fun k => VecTimes c k) ⟨hs.symm, fun i hi => absurd hi (Nat.not_lt_zero i)⟩ fun i s t hi hst => ?_
  exact Rel.bind (h i hi) fun x y e => hst.wr_next e

/-- Accumulated currents. -/
theorem rel_accG_times (hu : Unitlike E c) {T N r : Nat} {f g : Nat → Nat → C K} {v v' : Vec K} (hv : VecTimes c r v v')
    (hT : T ≤ r) (h : ∀ t j, t < T → j < N → Rel w (fun x y => y = c * x) (f t j) (g t j)) :
    Rel w (VecTimes c r) (accG (faddC E) T N f v) (accG (faddC (drawnIn c E)) T N g v') := by
  unfold accG
  refine Rel.loop' hv fun t s s' ht hs => ?_
  unfold accRow
  refine Rel.loop' hs fun j s s' hj hs => ?_
  refine Rel.bind (h t j ht hj) fun x y e => ?_
  refine hs.updAt (lt_of_lt_of_le ht hT) fun a => ?_
  show (drawnIn c E).fadd (c * a) y = c * E.fadd a x
  rw [e]
  exact hu.fadd a x

/-! ## Converter -/

theorem rel_getCurrents (h : Unitlike E c) {kd : AdcType} (hk : kd ≠ .inf) :
    Rel w (fun r r' => r' = (c * r.1, c * r.2)) (getCurrents E cfg kd l) (getCurrents (drawnIn c E) (inUnit c cfg) kd l) := by
  unfold getCurrents
  show Rel _ _ _ (match cfg.calibMode with | .max => _ | .calib => _)
  cases cfg.calibMode with
  | max =>
    show (_, _) = (_, _)
    congr 1
    · cases kd with
      | inf => exact absurd rfl hk
      | pos => exact (mul_zero c).symm
      | sym =>
        show (drawnIn c E).fmul (-((drawnIn c E).ofInt cfg.N)) ((drawnIn c E).fsub (c * cfg.lrs) (c * cfg.hrs)) = _
        show E.fmul (-(E.ofInt cfg.N)) (E.fsub (c * cfg.lrs) (c * cfg.hrs)) = _
        rw [h.fsub, h.fmul']
        rfl
    · cases kd with
      | inf => exact absurd rfl hk
      | pos => exact h.fmul' _ _
      | sym =>
        show E.fmul (E.ofInt cfg.N) (E.fsub (c * cfg.lrs) (c * cfg.hrs)) = _
        rw [h.fsub, h.fmul']
        rfl
  | calib =>
    show Rel _ _ (match cfg.calibDict.lookup l with | some r => .ok r | none => .error .exited)
      (match (cfg.calibDict.map fun p => (p.1, (c * p.2.1, c * p.2.2))).lookup l with
        | some r => .ok r | none => .error .exited)
    induction cfg.calibDict with
    | nil => exact Rel.err
    | cons p t ih =>
      obtain ⟨s, r⟩ := p
      simp only [List.map_cons, List.lookup_cons]
      cases l == s with
      | true => exact rfl
      | false => exact ih

theorem clip_times (h : Unitlike E c) (x mn mx : K) : clip (c * x) (c * mn) (c * mx) = c * clip x mn mx := by
  unfold clip
  dsimp only
  simp only [h.lt]
  by_cases h1 : x < mn
  · simp only [if_pos h1, h.lt]
    split <;> rfl
  · simp only [if_neg h1, h.lt]
    split <;> rfl

theorem conv1_times (h : Unitlike E c) {adc : Adc} {x sc off : K} :
    Rel w Eq (conv1 E cfg adc x sc off l) (conv1 (drawnIn c E) (inUnit c cfg) adc (c * x) (sc / c) (c * off) l) := by
  have key : adc.kind ≠ .inf → Rel w Eq (convQuant E cfg adc x sc off l)
      (convQuant (drawnIn c E) (inUnit c cfg) adc (c * x) (sc / c) (c * off) l) := by
    intro hk
    unfold convQuant
    refine Rel.bind (rel_getCurrents h hk) fun r r' e => ?_
    subst e
    dsimp only
    refine Rel.bindEq rfl fun d => ?_
    show Rel w Eq (E.fdiv (E.fsub r.2 r.1) (E.ofInt d) >>= _) (E.fdiv (E.fsub (c * r.2) (c * r.1)) (E.ofInt d) >>= _)
    rw [h.fsub]
    refine Rel.bind (h.rel_fdiv _ _) fun st st' e => ?_
    subst e
    refine Rel.bindEq ?_ fun q => ?_
    · show E.fdiv (E.fsub (clip (E.fadd x off) r.1 r.2) r.1) st =
        E.fdiv (E.fsub (clip (E.fadd (c * x) (c * off)) (c * r.1) (c * r.2)) (c * r.1)) (c * st)
      rw [h.fadd, clip_times h, h.fsub, h.fdiv_both]
    · show ((roundAway (E.fmul (E.fadd (E.fmul _ st) r.1) sc) : Int) : K) =
        ((roundAway (E.fmul (E.fadd (E.fmul _ (c * st)) (c * r.1)) (sc / c)) : Int) : K)
      rw [h.fmul', h.fadd, h.fmul_div]
  unfold conv1
  cases hk : adc.kind with
  | inf =>
    show E.fmul (E.fadd x off) sc = E.fmul (E.fadd (c * x) (c * off)) (sc / c)
    rw [h.fadd, h.fmul_div]
  | sym => exact key (by rw [hk]; decide)
  | pos => exact key (by rw [hk]; decide)

theorem rel_convVec_times (h : Unitlike E c) (hp : cfg.adcProfile = false) {adc : Adc} {hs hs' : List (String × Hist K)}
    {t t' : Vec K} {sc sc' off off' : K} (ht : VecTimes c m t t') (hsc : sc' = sc / c) (hoff : off' = c * off) :
    Rel w (fun r r' => Agree m r.2 r'.2) (convVec E cfg adc hs t m sc off l)
      (convVec (drawnIn c E) (inUnit c cfg) adc hs' t' m sc' off' l) := by
  subst hsc hoff
  unfold convVec
  rw [ht.size]
  refine Rel.ite (fun _ => Rel.err) fun _ => ?_
  have e : (inUnit c cfg).adcProfile = false := hp
  rw [hp, e]
  refine Rel.bind (P := fun _ _ => True) trivial fun _ _ _ => ?_
  refine Rel.bind (P := Agree m) ?_ fun _ _ h => Rel.ok h
  unfold updG
  refine (Rel.loop (fun i (s s' : Vec K) => s.size = t.size ∧ s'.size = t.size ∧ (∀ j, j < i → j < t.size → s.get j = s'.get j) ∧
      ∀ j, i ≤ j → j < m → j < t.size → s'.get j = c * s.get j)
    ⟨rfl, ht.size, fun j hj => absurd hj (Nat.not_lt_zero j), fun j _ hj hs => ht.get j hj hs⟩
    fun i s s' hi hst => ?_).mono fun s s' hst => ⟨hst.1.trans hst.2.1.symm, fun j hj hs => hst.2.2.1 j hj (hst.1 ▸ hs)⟩
  obtain ⟨h1, h2, h3, h4⟩ := hst
  unfold updAt Vec.rd
  rw [h1, h2]
  by_cases hs : i < t.size
  · rw [if_pos hs, if_pos hs, ok_bind, ok_bind, h4 i le_rfl hi hs]
    refine Rel.bind (conv1_times h) fun x y e => ?_
    subst e
    unfold Vec.wr
    rw [if_pos (by omega), if_pos (by omega)]
    refine ⟨h1, h2, fun j hj hs => ?_, fun j hj hm hs => ?_⟩
    · show (if j = i then x else s.get j) = if j = i then x else s'.get j
      split
      · rfl
      · exact h3 j (by omega) hs
    · show (if j = i then x else s'.get j) = c * if j = i then x else s.get j
      rw [if_neg (by omega), if_neg (by omega)]
      exact h4 j (by omega) hm hs
  · rw [if_neg hs, if_neg hs]
    exact Rel.err

/-! ## Solver -/

theorem computeCurrents_times (h : Unitlike E c) {s : Solver K} {v : Vec Int} {u : Option (Vec Int)} :
    Rel w (VecTimes c m) (computeCurrents E s v u m n) (computeCurrents (drawnIn c E) (s.times c) v u m n) := by
  unfold computeCurrents
  refine Rel.bindEq rfl fun vd => ?_
  show Rel w _ (match s.ga with | none => _ | some (g, wire) => _)
    (match s.ga.map fun g => (g.1.times c, c * g.2) with | none => _ | some (g, wire) => _)
  cases s.ga with
  | none => exact Rel.err
  | some g =>
    obtain ⟨g, wire⟩ := g
    dsimp only [Option.map]
    refine Rel.bind (P := VecTimes c (g.cols + (2 * m + 2))) ?_ fun acc acc' ha => ?_
    · refine Rel.loop' VecTimes.const fun j s1 s2 _ hs => ?_
      refine Rel.bindEq rfl fun x => ?_
      unfold updG
      refine Rel.loop' hs fun i s1 s2 hi hs => hs.updAt (by omega) fun a => ?_
      refine Rel.bind (P := fun x y => y = c * x) ?_ fun gc gc' e => ?_
      · exact Rel.ite (fun _ => rel_rd) fun _ => (mul_zero c).symm
      · subst e
        unfold serPar
        show Rel w _ (E.fdiv (E.fmul (E.fadd a gc) wire) (E.fadd (E.fadd a gc) wire))
          (E.fdiv (E.fmul (E.fadd (c * a) (c * gc)) (c * wire)) (E.fadd (E.fadd (c * a) (c * gc)) (c * wire)))
        rw [h.fadd, h.fadd, h.fmul, h.fdiv_both, h.fmul']
        exact h.rel_fdiv _ _
    · unfold oEnc
      refine rel_setG_times rfl fun i hi => Rel.ite (fun _ => ?_) fun _ => ?_
      · refine Rel.bind (ha.rd (by omega)) fun x x' e => Rel.bind (ha.rd (by omega)) fun y y' e' => ?_
        subst e e'
        show E.fmul (E.fsub (c * x) (c * y)) (-s.vRead) = _
        rw [h.fsub, h.fmul]
      · refine Rel.bind (ha.rd (by omega)) fun x x' e => ?_
        subst e
        exact h.fmul _ _

end

end Acs
