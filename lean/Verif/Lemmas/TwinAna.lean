import Verif.Lemmas.TwinCur

/-! # Analog multiplications with equal rows -/

set_option linter.unusedSectionVars false

namespace Acs

section
variable {K : Type} [Field K] [LinearOrder K] [IsStrictOrderedRing K] [FloorRing K]
variable {E : Env K} {cfg : Cfg K} {k : Core K} {x : Aux K} {res vec : Vec Int} {m n i i' : Nat}
variable {l : String}

/-- State of the loops over the input bits. -/
def BitTw (cfg : Cfg K) (i i' : Nat) {R : Type} (s : Vec Int × Vec K × Vec R) : Prop :=
  Tw (ofRows cfg i i') s.2.1 ∧ Tw (atRows i i') s.2.2

section
variable (hi : cfg.mode.isInt = true) (hp : SolTwI cfg i i' k.par) (hm : i < m ↔ i' < m)
variable (hk : IaTw (ofRows cfg i i') k.ia)
include hi hp hm hk

theorem tw_intBit {v : Vec Int} {sg : K} {bit : Nat} {s : Vec Int × Vec K × Vec Int} (h : BitTw cfg i i' s) :
    Ok' (intBit E cfg k v sg m n l bit s) (BitTw cfg i i') := by
  unfold intBit
  refine Sat.bind Ok'.any fun sl _ => ?_
  refine Sat.bind (tw_intCurrents hp hi hm (fun _ _ _ hab => iaDiffTerm_tw hk hab) h.1) fun t ht => ?_
  refine Sat.bind (tw_accG h.2 (fun _ _ h _ _ => atRows_iff hm h) fun _ _ _ hab hs => intConv_tw hi ht hab hs) fun r hr => ?_
  exact ⟨Tw.fill _ _, hr.2⟩

theorem tw_intBitV {v : Vec Int} {bit : Nat} {s : Vec Int × Vec K × Vec K} (h : BitTw cfg i i' s) :
    Ok' (intBitV E cfg k v m n l bit s) (BitTw cfg i i') := by
  unfold intBitV
  refine Sat.bind Ok'.any fun sl _ => ?_
  refine Sat.bind (tw_intCurrents hp hi hm (fun _ _ _ hab => iaTerm_tw hk.p hab) h.1) fun t ht => ?_
  refine Sat.bind (tw_accG h.2 (fun _ _ h _ _ => atRows_iff hm h) fun _ _ _ hab hs => intConv_tw hi ht hab hs) fun r hr => ?_
  exact ⟨Tw.fill _ _, hr.2⟩

variable (hr : Tw (atRows i i') res)
include hr

theorem tw_aMvmIntI : Ok' (aMvmIntI E cfg k x res vec m n l) (ResTw i i') := by
  unfold aMvmIntI
  refine Sat.bind Ok'.any fun v _ => ?_
  refine Sat.bind (Sat.loop (I := BitTw cfg i i') ⟨Tw.fill _ _, hr⟩ fun _ _ _ hs => tw_intBit hi hp hm hk hs) fun s hs => ?_
  exact Sat.bind (Sat.loop hs fun _ _ _ hs => tw_intBit hi hp hm hk hs) fun s hs => hs.2

theorem tw_aMvmIntII (hg : GdTw (ofRows cfg i i') i i' k.gd) : Ok' (aMvmIntII E cfg k x res vec m n l) (ResTw i i') := by
  unfold aMvmIntII
  refine Sat.bind Ok'.any fun v _ => ?_
  refine Sat.bind (Sat.loop (I := BitTw cfg i i') ⟨Tw.fill _ _, hr⟩ fun _ _ _ hs => tw_intBit hi hp hm hk hs) fun s hs => ?_
  refine Sat.bind (tw_loop (h := fun c r => sumShift E.strict cfg.iBit k.gd c >>= fun q => subI r q) (fun c _ r r' h => ?_) hs.2
    (fun _ _ h _ _ => atRows_iff hm h) fun a b hab _ _ y => Same'.bind (sumShift_tw hg hab) fun _ => Same'.refl _) fun r hr => hr.2
  rw [bind_eq_ok] at h
  obtain ⟨q, h1, h2⟩ := h
  have := acts_updAt h2
  exact ⟨this.1, this.2.1, by dsimp only; rw [h1]; exact this.2.2⟩

theorem tw_aMvmIntIII : Ok' (aMvmIntIII E cfg k x res vec m n l) (ResTw i i') := by
  unfold aMvmIntIII
  refine Sat.bind Ok'.any fun v _ => ?_
  refine Sat.bind (Sat.loop (I := BitTw cfg i i') ⟨Tw.fill _ _, hr⟩ fun _ _ _ hs => tw_intBit hi hp hm hk hs) fun s hs => ?_
  refine Sat.bind Ok'.any fun sl _ => ?_
  refine Sat.bind (tw_intCurrents hp hi hm (fun _ _ _ hab => iaDiffTerm_tw hk hab) hs.1) fun t ht => ?_
  exact Sat.bind (tw_accG hs.2 (fun _ _ h _ _ => atRows_iff hm h) fun _ _ _ hab hs => intConv_tw hi ht hab hs) fun r hr => hr.2

theorem tw_aMvmIntIV : Ok' (aMvmIntIV E cfg k x res vec m n l) (ResTw i i') := by
  unfold aMvmIntIV
  refine Sat.bind Ok'.any fun v _ => ?_
  exact Sat.bind (Sat.loop (I := BitTw cfg i i') ⟨Tw.fill _ _, hr⟩ fun _ _ _ hs => tw_intBit hi hp hm hk hs) fun s hs => hs.2

theorem tw_aMvmIntV : Ok' (aMvmIntV E cfg k x res vec m n l) (ResTw i i') := by
  unfold aMvmIntV
  refine Sat.bind Ok'.any fun v _ => Sat.bind Ok'.any fun sum _ => ?_
  refine Sat.bind (Sat.loop (I := BitTw cfg i i') ⟨Tw.fill _ _, Tw.fill _ _⟩ fun _ _ _ hs => tw_intBitV hi hp hm hk hs)
    fun s hs => ?_
  refine Sat.bind (P := fun (r : Vec K × Vec Int) => Tw (atRows i i') r.2) (Sat.intro_ok fun r h => ?_) fun r hr => hr
  obtain ⟨hz, hv⟩ := row_inv (i := 0) (view := fun (s : Vec K × Vec Int) r c => if r = 0 then (s.1.get c, s.2.get c) else (0, 0))
    (Q := fun _ c a b => c < s.2.2.size ∧ (do
      let d ← useField k.delta
      let o ← shlI E.strict 1 (u32sub cfg.wBit 1)
      let z ← toI32 ((roundAway (E.fsub a.1 (E.fmul (E.ofInt sum) (E.fadd d (E.ofInt o)))) : Int) : K)
      addI a.2 z) = .ok b.2)
    (I := fun t => t.1.size = s.2.2.size ∧ t.2.size = res.size) ⟨rfl, rfl⟩
    (fun c _ s t hz h => by
      simp only [bind_eq_ok] at h
      obtain ⟨d, h1, o, h2, f, h3, y, h4, z, h5, r, h6, h7⟩ := h
      rw [ok_inj] at h7
      subst h7
      have e := acts_updAt h3
      have e' := acts_updAt h6
      refine ⟨⟨e.1.trans hz.1, e'.1.trans hz.2⟩, ?_, fun r k hk => ?_⟩
      · rw [if_pos rfl, if_pos rfl]
        dsimp only
        rw [h1, ok_bind, h2, ok_bind]
        rw [Vec.rd_eq_ok] at h4
        refine ⟨by rw [← hz.1, ← e.1]; exact h4.1, ?_⟩
        rw [ok_inj.1 e.2.2, h4.2, h5, ok_bind]
        exact e'.2.2
      · by_cases hc : r = 0
        · rw [if_pos hc, if_pos hc]
          dsimp only
          rw [e.2.1 k fun hk' => hk ⟨hc, hk'⟩, e'.2.1 k fun hk' => hk ⟨hc, hk'⟩]
        · rw [if_neg hc, if_neg hc]) h
  intro a b hab ha hb
  rw [hz.2] at ha hb
  have e1 := hv 0 a
  have e2 := hv 0 b
  rw [if_pos rfl, if_pos rfl] at e1 e2
  by_cases hc : a < m
  · have hd := (atRows_iff hm hab).1 hc
    rw [if_pos ⟨rfl, hc⟩] at e1
    rw [if_pos ⟨rfl, hd⟩] at e2
    dsimp only at e1 e2
    rw [hs.2 a b hab e1.1 e2.1, hr a b hab ha hb] at e1
    exact ok_inj.1 (e1.2.symm.trans e2.2)
  · have hd : ¬b < m := fun hd => hc ((atRows_iff hm hab).2 hd)
    rw [if_neg fun h => hc h.2] at e1
    rw [if_neg fun h => hd h.2] at e2
    have e1 : r.2.get a = res.get a := congrArg Prod.snd e1
    have e2 : r.2.get b = res.get b := congrArg Prod.snd e2
    rw [e1, e2]
    exact hr a b hab ha hb

end

section
variable (hg : GdTw (atRows i i') i i' k.gd) (hk : IaTw (atRows i i') k.ia) (hs : SolTw cfg.mode i i' k.par)
variable (hm : i < m ↔ i' < m) (hr : Tw (atRows i i') res)
include hk hs hm hr

section
variable (h1 : cfg.mode ≠ .tnn4) (h2 : cfg.mode ≠ .tnn5)
include h1 h2

include hg in
theorem tw_aMvmBnnI : Ok' (aMvmBnnI E cfg k x res vec m n l) (ResTw i i') := by
  unfold aMvmBnnI
  refine Sat.bind Ok'.any fun v _ => ?_
  refine Sat.bind (tw_colCurrents h1 h2 hs hm fun _ _ _ hab => iaDiffTerm_tw hk hab) fun t ht => ?_
  refine Sat.bind Ok'.any fun sc _ => Sat.bind (tw_convVec ht fun _ _ h => atRows_iff hm h) fun r hc => ?_
  exact Sat.bind (tw_updG hr (fun _ _ h _ _ => atRows_iff hm h) fun _ _ _ hab _ _ => Same'.bind (hc.rd hab) fun _ =>
    Same'.bind (hg.sumW.rd hab) fun _ => Same'.refl _) fun r hr => hr.2

include hg in
theorem tw_aMvmBnnII : Ok' (aMvmBnnII E cfg k x res vec m n l) (ResTw i i') := by
  unfold aMvmBnnII
  refine Sat.bind Ok'.any fun v _ => ?_
  refine Sat.bind (tw_colCurrents h1 h2 hs hm fun _ _ _ hab => iaDiffTermNeg_tw hk hab) fun t ht => ?_
  refine Sat.bind Ok'.any fun sc _ => Sat.bind (tw_convVec ht fun _ _ h => atRows_iff hm h) fun r hc => ?_
  exact Sat.bind (tw_updG hr (fun _ _ h _ _ => atRows_iff hm h) fun _ _ _ hab _ _ => Same'.bind (hc.rd hab) fun _ =>
    Same'.bind (hg.sumW.rd hab) fun _ => Same'.refl _) fun r hr => hr.2

omit hr in
theorem tw_bnn34Currents : Ok' (bnn34Currents E cfg k x vec m n l) fun r => Tw (atRows i i') r.1.tmpP ∧ Tw (atRows i i') r.1.tmpM := by
  unfold bnn34Currents
  refine Sat.bind Ok'.any fun v _ => ?_
  refine Sat.bind (tw_colCurrents h1 h2 hs hm fun _ _ _ hab => iaTerm_tw hk.p hab) fun t ht => ?_
  refine Sat.bind (tw_colCurrents h1 h2 hs hm fun _ _ _ hab => iaTerm_tw hk.p hab) fun u hu => ?_
  refine Sat.bind Ok'.any fun sc _ => Sat.bind Ok'.any fun ns _ => ?_
  refine Sat.bind (tw_convVec ht fun _ _ h => atRows_iff hm h) fun r hc => ?_
  exact Sat.bind (tw_convVec hu fun _ _ h => atRows_iff hm h) fun q hd => ⟨hc, hd⟩

theorem tw_aMvmBnnIII : Ok' (aMvmBnnIII E cfg k x res vec m n l) (ResTw i i') := by
  unfold aMvmBnnIII
  refine Sat.bind (tw_bnn34Currents hk hs hm h1 h2) fun r hc => ?_
  exact Sat.bind (tw_updG hr (fun _ _ h _ _ => atRows_iff hm h) fun _ _ _ hab _ _ => Same'.bind (hc.1.rd hab) fun _ =>
    Same'.bind (hc.2.rd hab) fun _ => Same'.refl _) fun r hr => hr.2

theorem tw_aMvmBnnIV : Ok' (aMvmBnnIV E cfg k x res vec m n l) (ResTw i i') := by
  unfold aMvmBnnIV
  refine Sat.bind (tw_bnn34Currents hk hs hm h1 h2) fun r hc => ?_
  exact Sat.bind (tw_updG hr (fun _ _ h _ _ => atRows_iff hm h) fun _ _ _ hab _ _ => Same'.bind (hc.1.rd hab) fun _ =>
    Same'.bind (hc.2.rd hab) fun _ => Same'.refl _) fun r hr => hr.2

theorem tw_aMvmBnnV : Ok' (aMvmBnnV E cfg k x res vec m n l) (ResTw i i') := by
  unfold aMvmBnnV
  refine Sat.bind Ok'.any fun v _ => ?_
  refine Sat.bind (tw_colCurrents h1 h2 hs hm fun _ _ _ hab => iaBnn5Term_tw hk hab) fun t ht => ?_
  refine Sat.bind Ok'.any fun sc _ => Sat.bind Ok'.any fun _ _ => Sat.bind (tw_convVec ht fun _ _ h => atRows_iff hm h) fun r hc => ?_
  exact Sat.bind (tw_updG hr (fun _ _ h _ _ => atRows_iff hm h) fun _ _ _ hab _ _ => Same'.bind (hc.rd hab) fun _ =>
    Same'.refl _) fun r hr => hr.2

theorem tw_aMvmBnnVI : Ok' (aMvmBnnVI E cfg k x res vec m n l) (ResTw i i') := by
  unfold aMvmBnnVI
  refine Sat.bind Ok'.any fun v _ => ?_
  refine Sat.bind (tw_colCurrents h1 h2 hs hm fun _ _ _ hab => iaQuadTerm_tw hk hab) fun t ht => ?_
  refine Sat.bind Ok'.any fun sc _ => Sat.bind (tw_convVec ht fun _ _ h => atRows_iff hm h) fun r hc => ?_
  exact Sat.bind (tw_addTmp hm hr hc.inRows) fun r hr => hr

theorem tw_aMvmTnnI : Ok' (aMvmTnnI E cfg k x res vec m n l) (ResTw i i') := by
  unfold aMvmTnnI
  refine Sat.bind Ok'.any fun v _ => ?_
  refine Sat.bind (tw_colCurrents h1 h2 hs hm fun _ _ _ hab => iaQuadTerm_tw hk hab) fun t ht => ?_
  refine Sat.bind Ok'.any fun sc _ => Sat.bind (tw_convVec ht fun _ _ h => atRows_iff hm h) fun r hc => ?_
  exact Sat.bind (tw_addTmp hm hr hc.inRows) fun r hr => hr

theorem tw_aMvmTnnII : Ok' (aMvmTnnII E cfg k x res vec m n l) (ResTw i i') := by
  unfold aMvmTnnII
  refine Sat.bind Ok'.any fun v _ => ?_
  refine Sat.bind (tw_colCurrents h1 h2 hs hm fun _ _ _ hab => iaDiffTerm_tw hk hab) fun t ht => ?_
  refine Sat.bind Ok'.any fun sc _ => Sat.bind (tw_convVec ht fun _ _ h => atRows_iff hm h) fun r hc => ?_
  refine Sat.bind (tw_addTmp hm hr hc.inRows) fun r hr => ?_
  refine Sat.bind Ok'.any fun v _ => ?_
  refine Sat.bind (tw_colCurrents h1 h2 hs hm fun _ _ _ hab => iaDiffTerm_tw hk hab) fun t ht => ?_
  refine Sat.bind Ok'.any fun sc _ => Sat.bind (tw_convVec ht fun _ _ h => atRows_iff hm h) fun r hc => ?_
  exact Sat.bind (tw_subTmp hm hr hc.inRows) fun r hr => hr

include hg in
theorem tw_aMvmTnnIII : Ok' (aMvmTnnIII E cfg k x res vec m n l) (ResTw i i') := by
  unfold aMvmTnnIII
  refine Sat.bind Ok'.any fun v _ => ?_
  refine Sat.bind (tw_colCurrents h1 h2 hs hm fun _ _ _ hab => iaDiffTerm_tw hk hab) fun t ht => ?_
  refine Sat.bind Ok'.any fun sc _ => Sat.bind (tw_convVec ht fun _ _ h => atRows_iff hm h) fun r hc => ?_
  refine Sat.bind (tw_addTmp hm hr hc.inRows) fun r hr => ?_
  refine Sat.bind Ok'.any fun v _ => ?_
  refine Sat.bind (tw_colCurrents h1 h2 hs hm fun _ _ _ hab => iaDiffTerm_tw hk hab) fun t ht => ?_
  refine Sat.bind Ok'.any fun sc _ => Sat.bind (tw_convVec ht fun _ _ h => atRows_iff hm h) fun r hc => ?_
  refine Sat.bind (tw_addTmp hm hr hc.inRows) fun r hr => ?_
  exact Sat.bind (tw_updG hr (fun _ _ h _ _ => atRows_iff hm h) fun _ _ _ hab _ _ =>
    Same'.bind (hg.sumW.rd hab) fun _ => Same'.refl _) fun r hr => hr.2

end

omit hk hs hm hr in
theorem tw_tcStep {A : Mat K} {v : Vec Int} {sc off : K} {t : Vec K} {hs : List (String × Hist K)} (hA : TwM (atRows i i') A) :
    Ok' (tcStep E cfg k A v m n sc off l t hs) fun r => Tw (inRows m i i') r.2 := by
  unfold tcStep
  exact Sat.bind (tw_accG (P := inRows m i i') (Tw.fill _ _) (fun a b h _ _ => inRows_iff m i i' a b h)
    fun _ _ _ hab _ => iaTerm_tw hA hab.1) fun t ht => tw_convVec ht.2 (inRows_iff m i i')

variable (hmd : cfg.mode = .tnn4 ∨ cfg.mode = .tnn5)
include hmd

omit hk hr in
theorem tw_tcSolve {v : Vec Int} {s1 s2 off : K} {t u : Vec K} {hh : List (String × Hist K)} :
    Ok' (tcSolve E cfg k v m n s1 s2 off l t u hh) fun r => Tw (inRows m i i') r.2.2.1 ∧ Tw (inRows m i i') r.2.2.2 := by
  unfold tcSolve
  cases hp : k.par with
  | none => trivial
  | some s =>
    rw [hp] at hs
    have ho : ∀ a b, outP cfg.mode i i' a b ↔ a / 2 = i ∧ b / 2 = i' ∧ a % 2 = b % 2 := fun a b => by
      rcases hmd with e | e <;> rw [e] <;> exact Iff.rfl
    refine Sat.bind (tw_computeCurrents hs fun a b h => ?_) fun y hy => ?_
    · rw [ho] at h
      rcases Nat.lt_or_ge i m with hl | hl
      · have := hm.1 hl
        omega
      · have : ¬i' < m := fun h => by have := hm.2 h; omega
        omega
    refine Sat.bind (tw_setG' (P := inRows m i i') (fun a b h => h.2) fun a b hab => hy.rd ?_) fun t ht => ?_
    · rw [ho]
      have h1 := hab.1.1
      have h2 := hab.1.2
      exact ⟨by omega, by omega, by omega⟩
    refine Sat.bind (tw_setG' (P := inRows m i i') (fun a b h => h.2) fun a b hab => hy.rd ?_) fun u hu => ?_
    · rw [ho]
      have h1 := hab.1.1
      have h2 := hab.1.2
      exact ⟨by omega, by omega, by omega⟩
    refine Sat.bind (tw_convVec ht.2 (inRows_iff m i i')) fun r hc => ?_
    exact Sat.bind (tw_convVec hu.2 (inRows_iff m i i')) fun q hd => ⟨hc, hd⟩

theorem tw_aMvmTnnIV : Ok' (aMvmTnnIV E cfg k x res vec m n l) (ResTw i i') := by
  unfold aMvmTnnIV
  refine Sat.ite (fun _ => trivial) fun _ => ?_
  refine Sat.bind Ok'.any fun sum _ => Sat.bind Ok'.any fun v _ => ?_
  refine Sat.bind Ok'.any fun s1 _ => Sat.bind Ok'.any fun s2 _ => Sat.bind Ok'.any fun _ _ => Sat.bind Ok'.any fun _ _ => ?_
  refine Sat.ite (fun _ => ?_) fun _ => ?_
  · refine Sat.bind (tw_tcSolve hs hm hmd) fun r hc => ?_
    refine Sat.bind (tw_faddVec hc.1 (Tw.fill _ _)) fun f hf => ?_
    refine Sat.bind (tw_fsubVec hc.2 hf) fun f hf => ?_
    refine Sat.bind (tw_tcSolve hs hm hmd) fun r hc => ?_
    refine Sat.bind (tw_fsubVec hc.1 hf) fun f hf => ?_
    refine Sat.bind (tw_faddVec hc.2 hf) fun f hf => ?_
    exact Sat.bind (tw_addTmp hm hr hf) fun r hr => hr
  · refine Sat.bind (tw_tcStep hk.p) fun r hc => ?_
    refine Sat.bind (tw_faddVec hc (Tw.fill _ _)) fun f hf => ?_
    refine Sat.bind (tw_tcStep hk.p) fun r hc => ?_
    refine Sat.bind (tw_fsubVec hc hf) fun f hf => ?_
    refine Sat.bind (tw_tcStep hk.m) fun r hc => ?_
    refine Sat.bind (tw_fsubVec hc hf) fun f hf => ?_
    refine Sat.bind (tw_tcStep hk.m) fun r hc => ?_
    refine Sat.bind (tw_faddVec hc hf) fun f hf => ?_
    exact Sat.bind (tw_addTmp hm hr hf) fun r hr => hr

theorem tw_aMvmTnnV : Ok' (aMvmTnnV E cfg k x res vec m n l) (ResTw i i') := by
  unfold aMvmTnnV
  refine Sat.ite (fun _ => trivial) fun _ => ?_
  refine Sat.bind Ok'.any fun sum _ => Sat.bind Ok'.any fun v _ => ?_
  refine Sat.bind Ok'.any fun s1 _ => Sat.bind Ok'.any fun s2 _ => Sat.bind Ok'.any fun _ _ => ?_
  have fin : ∀ {f : Vec K}, Tw (inRows m i i') f → Ok'
      (loop m (fun i res => do
        let y ← f.rd i
        let res ← updAt res i (fun x => E.iaddf x y)
        updAt res i (fun x => do
          let d ← i64 (x - sum)
          .ok (wrap32 d))) res) (Tw (atRows i i')) := by
    intro f hf
    refine Sat.mono (tw_loop (h := fun c r => f.rd c >>= fun y => E.iaddf r y >>= fun z => (do
      let d ← i64 (z - sum)
      .ok (wrap32 d))) (fun c _ r r' h => ?_) hr (fun _ _ h _ _ => atRows_iff hm h) fun a b hab ha hb y =>
      Same'.bind (hf.rd ⟨hab, ha, hb⟩) fun _ => Same'.refl _) fun _ h => h.2
    simp only [bind_eq_ok] at h
    obtain ⟨y, h1, r1, h2, h3⟩ := h
    have := (acts_updAt h2).comp (acts_updAt h3)
    exact ⟨this.1, this.2.1, by dsimp only; rw [h1]; exact this.2.2⟩
  refine Sat.ite (fun _ => ?_) fun _ => ?_
  · refine Sat.bind (tw_tcSolve hs hm hmd) fun r hc => ?_
    refine Sat.bind (tw_faddVec hc.1 (Tw.fill _ _)) fun f hf => ?_
    refine Sat.bind (tw_faddVec hc.2 hf) fun f hf => ?_
    refine Sat.bind (tw_tcSolve hs hm hmd) fun r hc => ?_
    refine Sat.bind (tw_fsubVec hc.1 hf) fun f hf => ?_
    refine Sat.bind (tw_fsubVec hc.2 hf) fun f hf => ?_
    exact Sat.bind (fin hf) fun r hr => hr
  · refine Sat.bind (tw_tcStep hk.p) fun r hc => ?_
    refine Sat.bind (tw_faddVec hc (Tw.fill _ _)) fun f hf => ?_
    refine Sat.bind (tw_tcStep hk.p) fun r hc => ?_
    refine Sat.bind (tw_fsubVec hc hf) fun f hf => ?_
    refine Sat.bind (tw_tcStep hk.m) fun r hc => ?_
    refine Sat.bind (tw_faddVec hc hf) fun f hf => ?_
    refine Sat.bind (tw_tcStep hk.m) fun r hc => ?_
    refine Sat.bind (tw_fsubVec hc hf) fun f hf => ?_
    exact Sat.bind (fin hf) fun r hr => hr

end

/-- What the cells of two equal rows have in common. -/
structure CoreTw (cfg : Cfg K) (i i' : Nat) (k : Core K) : Prop where
  gd : GdTw (ofRows cfg i i') i i' k.gd
  ia : IaTw (ofRows cfg i i') k.ia
  par : ParTw cfg i i' k.par

theorem tw_aMvm (hk : CoreTw cfg i i' k) (hm : i < m ↔ i' < m) (hr : Tw (atRows i i') res) (hc : k.mode = cfg.mode) :
    Ok' (aMvm E cfg k x res vec m n l) (ResTw i i') := by
  obtain ⟨hg, hk, hs⟩ := hk
  unfold aMvm
  split <;> rename_i hmd <;> rw [hc] at hmd
  iterate 2
    have hi : cfg.mode.isInt = true := by rw [hmd]; rfl
    exact tw_aMvmIntI hi (hs.int hi) hm hk hr
  iterate 4
    have hi : cfg.mode.isInt = true := by rw [hmd]; rfl
    first
      | exact tw_aMvmIntII hi (hs.int hi) hm hk hr hg
      | exact tw_aMvmIntIII hi (hs.int hi) hm hk hr
      | exact tw_aMvmIntIV hi (hs.int hi) hm hk hr
      | exact tw_aMvmIntV hi (hs.int hi) hm hk hr
  all_goals
    have hi : cfg.mode.isInt = false := by rw [hmd]; rfl
    rw [ofRows_non hi] at hg hk
    have hs := hs.non hi
  · exact tw_aMvmBnnI hg hk hs hm hr (by rw [hmd]; decide) (by rw [hmd]; decide)
  · exact tw_aMvmBnnII hg hk hs hm hr (by rw [hmd]; decide) (by rw [hmd]; decide)
  · exact tw_aMvmBnnIII hk hs hm hr (by rw [hmd]; decide) (by rw [hmd]; decide)
  · exact tw_aMvmBnnIV hk hs hm hr (by rw [hmd]; decide) (by rw [hmd]; decide)
  · exact tw_aMvmBnnV hk hs hm hr (by rw [hmd]; decide) (by rw [hmd]; decide)
  · exact tw_aMvmBnnVI hk hs hm hr (by rw [hmd]; decide) (by rw [hmd]; decide)
  · exact tw_aMvmTnnI hk hs hm hr (by rw [hmd]; decide) (by rw [hmd]; decide)
  · exact tw_aMvmTnnII hk hs hm hr (by rw [hmd]; decide) (by rw [hmd]; decide)
  · exact tw_aMvmTnnIII hg hk hs hm hr (by rw [hmd]; decide) (by rw [hmd]; decide)
  · exact tw_aMvmTnnIV hk hs hm hr (Or.inl hmd)
  · exact tw_aMvmTnnV hk hs hm hr (Or.inr hmd)

end

end Acs
