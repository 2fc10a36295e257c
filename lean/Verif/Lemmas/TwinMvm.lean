import Verif.Lemmas.Twin

/-! # Digital multiplications with equal rows -/

set_option linter.unusedSectionVars false

namespace Acs

/-- Entries `i` and `i'`. -/
def atRows (i i' a b : Nat) : Prop := a = i ∧ b = i'

/-- Corresponding rows of cells of the rows `i` and `i'` of the matrix. -/
def ofRows {K : Type} (cfg : Cfg K) (i i' a b : Nat) : Prop :=
  if cfg.mode.isInt then a / cfg.S = i ∧ b / cfg.S = i' ∧ a % cfg.S = b % cfg.S else a = i ∧ b = i'

section
variable {K : Type} {cfg : Cfg K} {i i' m : Nat}

theorem ofRows_non (h : cfg.mode.isInt = false) : ofRows cfg i i' = atRows i i' := by
  funext a b
  unfold ofRows atRows
  simp [h]

theorem ofRows_int (h : cfg.mode.isInt = true) {a b : Nat} :
    ofRows cfg i i' a b ↔ a / cfg.S = i ∧ b / cfg.S = i' ∧ a % cfg.S = b % cfg.S := by
  unfold ofRows
  simp [h]

theorem lt_blk_iff {S t m : Nat} (h : 0 < S) : t < m * S ↔ t / S < m := (Nat.div_lt_iff_lt_mul h).symm

theorem ofRows_blk (h : cfg.mode.isInt = true) (hm : i < m ↔ i' < m) {a b : Nat} (hab : ofRows cfg i i' a b) :
    a < m * cfg.S ↔ b < m * cfg.S := by
  rw [ofRows_int h] at hab
  rcases Nat.eq_zero_or_pos cfg.S with e | e
  · rw [e]; simp
  · rw [lt_blk_iff e, lt_blk_iff e, hab.1, hab.2.1, hm]

theorem ofRows_slice (h : cfg.mode.isInt = true) {s : Nat} (hs : s < cfg.S) :
    ofRows cfg i i' (i * cfg.S + s) (i' * cfg.S + s) :=
  (ofRows_int h).2 ⟨blk_div hs, blk_div hs, by rw [blk_mod hs, blk_mod hs]⟩

theorem atRows_iff (hm : i < m ↔ i' < m) {a b : Nat} (hab : atRows i i' a b) : a < m ↔ b < m := by
  rw [hab.1, hab.2, hm]

end

/-- Digital cells. -/
structure GdTw (P : Nat → Nat → Prop) (i i' : Nat) (g : Gd) : Prop where
  p : TwM P g.p
  m : TwM P g.m
  sumW : Tw (atRows i i') g.sumW

section
variable {P : Nat → Nat → Prop} {i i' a b j : Nat} {g : Gd} {v u : Vec Int} (h : GdTw P i i' g) (hab : P a b)
include h hab

theorem diffTerm_tw : Same' (diffTerm g v a j) (diffTerm g v b j) :=
  Same'.bind (h.p.rd hab) fun _ => Same'.bind (h.m.rd hab) fun _ => Same'.refl _
theorem diffTermNeg_tw : Same' (diffTermNeg g v a j) (diffTermNeg g v b j) :=
  Same'.bind (h.m.rd hab) fun _ => Same'.bind (h.p.rd hab) fun _ => Same'.refl _
theorem posTerm_tw : Same' (posTerm g v a j) (posTerm g v b j) :=
  Same'.bind (h.p.rd hab) fun _ => Same'.refl _
theorem bnn34Term_tw : Same' (bnn34Term g v u a j) (bnn34Term g v u b j) :=
  Same'.bind (h.p.rd hab) fun _ => Same'.refl _
theorem bnn5Term_tw {s : Bool} : Same' (bnn5Term s g v u a j) (bnn5Term s g v u b j) :=
  Same'.bind (h.p.rd hab) fun _ => Same'.bind (Same'.refl _) fun _ => Same'.bind (Same'.refl _) fun _ =>
    Same'.bind (h.m.rd hab) fun _ => Same'.refl _
theorem quadTerm_tw : Same' (quadTerm g v u a j) (quadTerm g v u b j) :=
  Same'.bind (h.p.rd hab) fun _ => Same'.bind (h.m.rd hab) fun _ => Same'.refl _
theorem diffTerm2_tw {s : Bool} : Same' (diffTerm2 s g v a j) (diffTerm2 s g v b j) :=
  Same'.bind (diffTerm_tw h hab) fun _ => Same'.refl _
theorem tcTerms_tw {s : Bool} : Same' (tcTerms s g v u a j) (tcTerms s g v u b j) :=
  Same'.bind (h.p.rd hab) fun _ => Same'.bind (Same'.refl _) fun _ => Same'.bind (Same'.refl _) fun _ =>
    Same'.bind (Same'.refl _) fun _ => Same'.bind (Same'.refl _) fun _ => Same'.bind (h.m.rd hab) fun _ => Same'.refl _

end

theorem sumShift_tw {P : Nat → Nat → Prop} {i i' a b ib : Nat} {g : Gd} {s : Bool} (h : GdTw P i i' g) (hab : atRows i i' a b) :
    Same' (sumShift s ib g a) (sumShift s ib g b) := Same'.bind (h.sumW.rd hab) fun _ => Same'.refl _

section
variable {K : Type} [Field K] [LinearOrder K] [IsStrictOrderedRing K] [FloorRing K]
variable {E : Env K} {cfg : Cfg K} {k : Core K} {x : Aux K} {res vec : Vec Int} {m n i i' : Nat}

theorem shiftedTmp_tw {s : Bool} {t a b : Nat} {sh : Vec Nat} {v : Vec Int} (hi : cfg.mode.isInt = true)
    (h : Tw (ofRows cfg i i') v) (hab : atRows i i' a b) (ht : t < cfg.S) :
    Same' (shiftedTmp s cfg.S sh v a t) (shiftedTmp s cfg.S sh v b t) := by
  obtain ⟨rfl, rfl⟩ := hab
  exact Same'.bind (h.rd (ofRows_slice hi ht)) fun _ => Same'.refl _

/-- The result of a multiplication. -/
def ResTw (i i' : Nat) (r : Aux K × Vec Int) : Prop := Tw (atRows i i') r.2

variable (hg : GdTw (ofRows cfg i i') i i' k.gd) (hm : i < m ↔ i' < m) (hr : Tw (atRows i i') res)
include hg hm hr

theorem tw_dMvm (hc : k.mode = cfg.mode) : Ok' (dMvm E cfg k x res vec m n) (ResTw i i') := by
  have bi : cfg.mode.isInt = true → ∀ {v : Vec Int} (a b : Nat), ofRows cfg i i' a b → a < v.size → b < v.size →
      (a < m * cfg.S ↔ b < m * cfg.S) := fun hi _ a b h _ _ => ofRows_blk hi hm h
  have br : ∀ {v : Vec Int} (a b : Nat), atRows i i' a b → a < v.size → b < v.size → (a < m ↔ b < m) :=
    fun a b h _ _ => atRows_iff hm h
  unfold dMvm
  split <;> rename_i hmd <;> rw [hc] at hmd
  iterate 2
    have hi : cfg.mode.isInt = true := by rw [hmd]; rfl
    unfold dMvmIntI
    refine Sat.bind Ok'.any fun v _ => ?_
    refine Sat.bind (tw_accG (Tw.fill _ _) (bi hi) fun a b n hab _ => diffTerm_tw hg hab) fun t ht => ?_
    refine Sat.bind (tw_accG hr br fun a b n hab hn => shiftedTmp_tw hi ht.2 hab hn) fun r hr => ?_
    refine Sat.bind (tw_accG (Tw.fill _ _) (bi hi) fun a b n hab _ => diffTermNeg_tw hg hab) fun t ht => ?_
    exact Sat.bind (tw_accG hr.2 br fun a b n hab hn => shiftedTmp_tw hi ht.2 hab hn) fun r hr => hr.2
  · have hi : cfg.mode.isInt = true := by rw [hmd]; rfl
    unfold dMvmIntII
    refine Sat.bind Ok'.any fun v _ => ?_
    refine Sat.bind (tw_accG (Tw.fill _ _) (bi hi) fun a b n hab _ => diffTerm_tw hg hab) fun t ht => ?_
    refine Sat.bind (tw_loop (h := fun c r => accS addI cfg.S (shiftedTmp E.strict cfg.S k.shift t c) r >>= fun r =>
      sumShift E.strict cfg.iBit k.gd c >>= fun q => subI r q) (fun c _ r r' h => ?_) hr br fun a b hab _ _ y => ?_) fun r hr => hr.2
    · simp only [bind_eq_ok] at h
      obtain ⟨r1, h1, q, h2, h3⟩ := h
      have := (acts_accRow h1).comp (acts_updAt h3)
      refine ⟨this.1, this.2.1, ?_⟩
      dsimp only
      rw [h2]
      exact this.2.2
    · exact Same'.bind (same_accS (fun n hn => shiftedTmp_tw hi ht.2 hab hn) y) fun r => Same'.bind (sumShift_tw hg hab) fun _ =>
        Same'.refl _
  · have hi : cfg.mode.isInt = true := by rw [hmd]; rfl
    unfold dMvmIntIII
    refine Sat.bind Ok'.any fun _ _ => Sat.bind Ok'.any fun v _ => ?_
    refine Sat.bind (tw_accG (Tw.fill _ _) (bi hi) fun a b n hab _ => diffTerm_tw hg hab) fun t ht => ?_
    refine Sat.bind Ok'.any fun _ _ => Sat.bind Ok'.any fun v _ => ?_
    refine Sat.bind (tw_accG ht.2 (bi hi) fun a b n hab _ => diffTerm_tw hg hab) fun t ht => ?_
    exact Sat.bind (tw_accG hr br fun a b n hab hn => shiftedTmp_tw hi ht.2 hab hn) fun r hr => hr.2
  · have hi : cfg.mode.isInt = true := by rw [hmd]; rfl
    unfold dMvmIntIV
    refine Sat.bind (tw_accG (Tw.fill _ _) (bi hi) fun a b n hab _ => diffTerm_tw hg hab) fun t ht => ?_
    exact Sat.bind (tw_accG hr br fun a b n hab hn => shiftedTmp_tw hi ht.2 hab hn) fun r hr => hr.2
  · have hi : cfg.mode.isInt = true := by rw [hmd]; rfl
    unfold dMvmIntV
    refine Sat.bind Ok'.any fun sum _ => ?_
    refine Sat.bind (tw_accG (Tw.fill _ _) (bi hi) fun a b n hab _ => posTerm_tw hg hab) fun t ht => ?_
    refine Sat.bind (tw_loop (h := fun c r => accS addI cfg.S (shiftedTmp E.strict cfg.S k.shift t c) r >>= fun r =>
      shlL E.strict sum (u32sub cfg.wBit 1) >>= fun q => (do let d ← i64 (r - q); .ok (wrap32 d)))
      (fun c _ r r' h => ?_) hr br fun a b hab _ _ y => ?_) fun r hr => hr.2
    · simp only [bind_eq_ok] at h
      obtain ⟨r1, h1, q, h2, h3⟩ := h
      have := (acts_accRow h1).comp (acts_updAt h3)
      refine ⟨this.1, this.2.1, ?_⟩
      dsimp only
      rw [h2]
      exact this.2.2
    · exact Same'.bind (same_accS (fun n hn => shiftedTmp_tw hi ht.2 hab hn) y) fun r => Same'.refl _
  all_goals
    rw [ofRows_non (by rw [hmd]; rfl)] at hg
  · unfold dMvmBnnI
    refine Sat.bind Ok'.any fun v _ => ?_
    refine Sat.bind (tw_accG hr br fun a b n hab _ => Same'.bind (diffTerm_tw hg hab) fun _ => Same'.refl _) fun r hr => ?_
    exact Sat.bind (tw_updG hr.2 br fun a b _ hab _ _ => Same'.bind (hg.sumW.rd hab) fun _ => Same'.refl _) fun r hr => hr.2
  · unfold dMvmBnnII
    refine Sat.bind Ok'.any fun v _ => ?_
    refine Sat.bind (tw_accG hr br fun a b n hab _ => Same'.bind (diffTermNeg_tw hg hab) fun _ => Same'.refl _) fun r hr => ?_
    exact Sat.bind (tw_updG hr.2 br fun a b _ hab _ _ => Same'.bind (hg.sumW.rd hab) fun _ => Same'.refl _) fun r hr => hr.2
  · unfold dMvmBnnIII
    refine Sat.bind Ok'.any fun v _ => ?_
    refine Sat.bind (tw_loop (h := fun c r => subI r v.2 >>= accS addI n (bnn34Term k.gd v.1.1 v.1.2 c)) (fun c _ r r' h => ?_)
      hr br fun a b hab _ _ y => ?_) fun r hr => hr.2
    · rw [bind_eq_ok] at h
      obtain ⟨r1, h1, h2⟩ := h
      exact (acts_updAt h1).comp (acts_accRow h2)
    · exact Same'.bind (Same'.refl _) fun z => same_accS (fun n hn => bnn34Term_tw hg hab) z
  · unfold dMvmBnnIV
    refine Sat.bind Ok'.any fun v _ => ?_
    refine Sat.bind (tw_loop (h := fun c r => addI r v.2 >>= accS addI n (bnn34Term k.gd v.1.2 v.1.1 c)) (fun c _ r r' h => ?_)
      hr br fun a b hab _ _ y => ?_) fun r hr => hr.2
    · rw [bind_eq_ok] at h
      obtain ⟨r1, h1, h2⟩ := h
      exact (acts_updAt h1).comp (acts_accRow h2)
    · exact Same'.bind (Same'.refl _) fun z => same_accS (fun n hn => bnn34Term_tw hg hab) z
  · unfold dMvmBnnV
    refine Sat.bind Ok'.any fun v _ => ?_
    refine Sat.bind (tw_loop (h := fun c r => subI r n >>= accS addI n (bnn5Term E.strict k.gd v.1 v.2 c)) (fun c _ r r' h => ?_)
      hr br fun a b hab _ _ y => ?_) fun r hr => hr.2
    · rw [bind_eq_ok] at h
      obtain ⟨r1, h1, h2⟩ := h
      exact (acts_updAt h1).comp (acts_accRow h2)
    · exact Same'.bind (Same'.refl _) fun z => same_accS (fun n hn => bnn5Term_tw hg hab) z
  · unfold dMvmBnnVI
    refine Sat.bind Ok'.any fun v _ => ?_
    exact Sat.bind (tw_accG hr br fun a b n hab _ => quadTerm_tw hg hab) fun r hr => hr.2
  · unfold dMvmTnnI
    refine Sat.bind Ok'.any fun v _ => ?_
    exact Sat.bind (tw_accG hr br fun a b n hab _ => quadTerm_tw hg hab) fun r hr => hr.2
  · unfold dMvmTnnII
    refine Sat.bind Ok'.any fun v _ => ?_
    refine Sat.bind (tw_accG hr br fun a b n hab _ => diffTerm_tw hg hab) fun r hr => ?_
    refine Sat.bind Ok'.any fun v _ => ?_
    exact Sat.bind (tw_accG hr.2 br fun a b n hab _ => diffTerm2_tw hg hab) fun r hr => hr.2
  · unfold dMvmTnnIII
    refine Sat.bind Ok'.any fun v _ => ?_
    refine Sat.bind (tw_accG hr br fun a b n hab _ => diffTerm_tw hg hab) fun r hr => ?_
    refine Sat.bind Ok'.any fun v _ => ?_
    refine Sat.bind (tw_accG hr.2 br fun a b n hab _ => diffTerm2_tw hg hab) fun r hr => ?_
    exact Sat.bind (tw_updG hr.2 br fun a b _ hab _ _ => Same'.bind (hg.sumW.rd hab) fun _ => Same'.refl _) fun r hr => hr.2
  · unfold dMvmTnnIV
    refine Sat.ite (fun _ => trivial) fun _ => ?_
    refine Sat.bind Ok'.any fun v _ => ?_
    exact Sat.bind (tw_accG hr br fun a b n hab _ => Same'.bind (tcTerms_tw hg hab) fun _ => Same'.refl _) fun r hr => hr.2
  · unfold dMvmTnnV
    refine Sat.ite (fun _ => trivial) fun _ => ?_
    refine Sat.bind Ok'.any fun sum _ => Sat.bind Ok'.any fun v _ => ?_
    refine Sat.bind (tw_loop (h := fun c r => accS addI n (fun j => do
        let t ← tcTerms E.strict k.gd v.1 v.2 c j
        addI t.1 t.2) r >>= fun r => (do let d ← i64 (r - sum); .ok (wrap32 d)))
      (fun c _ r r' h => ?_) hr br fun a b hab _ _ y => ?_) fun r hr => hr.2
    · rw [bind_eq_ok] at h
      obtain ⟨r1, h1, h2⟩ := h
      exact (acts_accRow h1).comp (acts_updAt h2)
    · exact Same'.bind (same_accS (fun n hn => Same'.bind (tcTerms_tw hg hab) fun _ => Same'.refl _) y) fun r => Same'.refl _

end

end Acs
