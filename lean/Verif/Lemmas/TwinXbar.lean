import Verif.Lemmas.TwinWrite
import Verif.Lemmas.Frame
import Verif.Lemmas.SafeXbar
import Verif.SpecTwin

/-! # Crossbars with equal rows -/

set_option linter.unusedSectionVars false

namespace Acs

open Spec

section
variable {K : Type} [Field K] [LinearOrder K] [IsStrictOrderedRing K] [FloorRing K]
variable {E : Env K} {cfg : Cfg K} {m n i i' : Nat} {mat res vec : Vec Int} {l : String} {x : Xbar K}

theorem tw_dWrite {mp : Mapper K} (h : CoreTw cfg i i' mp.core) (hm : mp.core.mode = cfg.mode) (hw : TwW i i' m n mat) :
    Ok' (dWrite E cfg mp mat m n) fun mp' => CoreTw cfg i i' mp'.core ∧ mp'.core.mode = cfg.mode ∧
      mp'.core.numSeg = mp.core.numSeg := by
  unfold dWrite
  exact Sat.bind (tw_dWriteGd h.gd hm hw) fun g hg => ⟨⟨hg, h.ia, h.par⟩, hm, rfl⟩

theorem pushSolver_mXbar {q : Option (Solver K)} {s : Solver K} {A : Mat K} {B : Option (Mat K)}
    (h : ∀ s, q = some s → s.mXbar = cfg.M) (hs : pushSolver E cfg q A B m n = .ok (some s)) : s.mXbar = cfg.M := by
  unfold pushSolver at hs
  split at hs
  · cases q with
    | none => cases hs
    | some t =>
      dsimp only at hs
      unfold setConductance at hs
      simp only [bind_eq_ok] at hs
      obtain ⟨t', ⟨_, _, _, _, _, _, hs⟩, e⟩ := hs
      split at hs
      · cases hs
      · rw [bind_eq_ok] at hs
        obtain ⟨_, _, hs⟩ := hs
        rw [ok_inj] at hs e
        cases e
        rw [← hs]
        exact h t rfl
  · rw [ok_inj] at hs
    exact h s hs

theorem tw_aWrite {mp : Mapper K} (h : CoreTw cfg i i' mp.core) (hm : mp.core.mode = cfg.mode) (hw : i < m ↔ i' < m)
    (hS : cfg.mode.isInt = true → mp.core.numSeg = cfg.S)
    (hn : cfg.mode.isInt = false → cfg.hrsNoise ≤ 0 ∧ cfg.lrsNoise ≤ 0) :
    Ok' (aWrite E cfg mp m n) fun mp' => CoreTw cfg i i' mp'.core := by
  obtain ⟨hg, hi, hs⟩ := h
  obtain ⟨c, a⟩ := mp
  unfold aWrite
  dsimp only at hg hi hs hm hS ⊢
  cases hint : cfg.mode.isInt with
  | true =>
    have hp : ∀ a b, ofRows cfg i i' a b → a % c.numSeg = b % c.numSeg := fun a b hab => by
      rw [ofRows_int hint] at hab
      rw [hS hint, hab.2.2]
    have hb : ∀ a b, ofRows cfg i i' a b → (a < m * c.numSeg ↔ b < m * c.numSeg) := fun a b hab => by
      rw [hS hint]
      exact ofRows_blk hint hw hab
    have h0 : ∀ {ia : Ia K} {B : Option (Mat K)}, IaTw (ofRows cfg i i') ia → OptTw (ofRows cfg i i') B →
        Ok' (pushSolver E cfg c.par ia.p B (m * cfg.S) n) (ParTw cfg i i') := by
      intro ia B hia hB
      obtain ⟨e1, e2⟩ := hs.int hint
      refine Sat.intro_ok fun q hq => ?_
      unfold ParTw
      rw [if_pos hint]
      refine ⟨fun s hs => ?_, fun a b hab ha hb => ?_⟩
      · rw [hs] at hq
        exact pushSolver_mXbar e1 hq
      · exact (tw_pushSolver (ofRows_blk hint hw hab) (e2 a b hab ha hb)
          (fun c d h => by obtain ⟨rfl, rfl⟩ := h; exact hia.p _ _ hab)
          fun A hA c d h => by obtain ⟨rfl, rfl⟩ := h; exact hB A hA _ _ hab).of_ok hq
    have pm : Ok' (do
        let ia ← aWritePM E cfg c m n
        let par ← pushSolver E cfg c.par ia.p (some ia.m) (m * cfg.S) n
        .ok ({ core := { c with ia := ia, par := par }, aux := a } : Mapper K)) fun mp' => CoreTw cfg i i' mp'.core :=
      Sat.bind (tw_aWritePM hg hi hp hb) fun ia hia =>
        Sat.bind (h0 hia (B := some ia.m) fun _ h => by cases h; exact hia.m) fun p hp => ⟨hg, hia, hp⟩
    have pp : Ok' (do
        let ia ← aWriteP E cfg c m n
        let par ← pushSolver E cfg c.par ia.p none (m * cfg.S) n
        .ok ({ core := { c with ia := ia, par := par }, aux := a } : Mapper K)) fun mp' => CoreTw cfg i i' mp'.core :=
      Sat.bind (tw_aWriteP hg hi hp hb) fun ia hia =>
        Sat.bind (h0 hia (B := none) fun _ h => by cases h) fun p hp => ⟨hg, hia, hp⟩
    rw [← hm] at hint
    split <;> rename_i hmd <;> first
      | exact pm
      | exact pp
      | (rw [hmd] at hint; cases hint)
  | false =>
    have hs := hs.non hint
    obtain ⟨n1, n2⟩ := hn hint
    have e := ofRows_non (i := i) (i' := i') hint
    rw [e] at hg hi
    have hb : ∀ a b, atRows i i' a b → (a < m ↔ b < m) := fun a b hab => atRows_iff hw hab
    have mk : ∀ {ia : Ia K} {p : Option (Solver K)}, IaTw (atRows i i') ia → SolTw cfg.mode i i' p →
        CoreTw cfg i i' { c with ia := ia, par := p } := fun h h' => ⟨by rw [e]; exact hg, by rw [e]; exact h, by unfold ParTw; rw [if_neg (by rw [hint]; decide)]; exact h'⟩
    have pb : Ok' (do
        let r ← aWritePBnn E cfg c a.rng m n
        let par ← pushSolver E cfg c.par r.1.p none m n
        .ok ({ core := { c with ia := r.1, par := par }, aux := { a with rng := r.2 } } : Mapper K))
        fun mp' => CoreTw cfg i i' mp'.core :=
      Sat.bind (tw_aWritePBnn n1 n2 hb hg hi) fun r hr =>
        Sat.bind (tw_pushSolver hw hs hr.p (B := none) fun _ h => by cases h) fun p hp => mk hr hp
    have pm : Ok' (do
        let r ← aWritePMBnnTnn E cfg c a.rng m n
        let par ← pushSolver E cfg c.par r.1.p (some r.1.m) m n
        .ok ({ core := { c with ia := r.1, par := par }, aux := { a with rng := r.2 } } : Mapper K))
        fun mp' => CoreTw cfg i i' mp'.core :=
      Sat.bind (tw_aWritePMBnnTnn n1 n2 hb hg hi) fun r hr =>
        Sat.bind (tw_pushSolver hw hs hr.p (B := some r.1.m) fun _ h => by cases h; exact hr.m) fun p hp => mk hr hp
    have p2 : Ok' (do
        let r ← aWritePMBnnTnn E cfg c a.rng m n
        let par ← pushSolver E cfg c.par r.1.m (some r.1.p) m n
        .ok ({ core := { c with ia := r.1, par := par }, aux := { a with rng := r.2 } } : Mapper K))
        fun mp' => CoreTw cfg i i' mp'.core :=
      Sat.bind (tw_aWritePMBnnTnn n1 n2 hb hg hi) fun r hr =>
        Sat.bind (tw_pushSolver hw hs hr.m (B := some r.1.p) fun _ h => by cases h; exact hr.p) fun p hp => mk hr hp
    rw [← hm] at hint
    split <;> rename_i hmd <;> first
      | exact pm
      | exact pb
      | exact p2
      | exact absurd hint (by rw [hmd]; decide)

section
variable (he : EvenCells cfg)
include he

theorem tw_xWrite (h : CoreTw cfg i i' x.mapper.core) (hs : Shape E cfg x) (hw : TwW i i' m n mat) :
    Ok' (xWrite E cfg x mat m n) fun y => CoreTw cfg i i' y.mapper.core := by
  have hm := coreShape_mode hs.core
  unfold xWrite
  refine Sat.bind (P := fun r => CoreTw cfg i i' r.1.core ∧ r.1.core.mode = cfg.mode ∧
    r.1.core.numSeg = x.mapper.core.numSeg) ?_ fun r hr => ?_
  · unfold xWriteD
    refine Sat.ite (fun _ => ?_) fun _ => Sat.bind (tw_dWrite h hm hw) fun mp hmp => hmp
    refine Sat.bind (tw_dWrite h hm hw) fun mp hmp => Sat.bind Ok'.any fun _ _ => Sat.bind Ok'.any fun _ _ => ?_
    cases x.rd with
    | none => trivial
    | some rd => exact Sat.bind Ok'.any fun _ _ => Sat.bind Ok'.any fun _ _ => hmp
  · refine Sat.bind (P := fun mp : Mapper K => CoreTw cfg i i' mp.core) ?_ fun mp hmp => by exact hmp
    rcases he with hd | he
    · rw [if_pos hd]; exact hr.1
    · refine Sat.ite (fun _ => hr.1) fun _ => tw_aWrite hr.1 hr.2.1 hw.1 (fun hi => ?_) fun hi => ?_
      · rw [hr.2.2, hs.core.numSeg, hi]; rfl
      · rw [hi] at he; exact ⟨he.1, he.2.1⟩

/-- The result of a multiplication. -/
theorem tw_xMvm (h : CoreTw cfg i i' x.mapper.core) (hs : Shape E cfg x) (hm : i < m ↔ i' < m) (hr : Tw (atRows i i') res) :
    Ok' (xMvm E cfg x res vec mat m n l) fun r => Tw (atRows i i') r.2 := by
  have hmode := coreShape_mode hs.core
  unfold xMvm
  dsimp only
  refine Sat.ite (fun _ => Sat.bind (tw_dMvm h.gd hm hr hmode) fun r hr => hr) fun hd => ?_
  rcases he with hd' | he
  · exact absurd hd' hd
  have key : ∀ (y : C (Mapper K)) (mp : Mapper K), CoreTw cfg i i' mp.core → mp.core.mode = cfg.mode →
      (cfg.c2c = true → Ok' y fun mp' => ∃ ia, mp'.core = { mp.core with ia := ia } ∧ IaTw (ofRows cfg i i') ia) →
      Ok' (if cfg.c2c then y else .ok mp) fun mp' => CoreTw cfg i i' mp'.core ∧ mp'.core.mode = cfg.mode := by
    intro y mp h1 h2 h3
    refine Sat.ite (fun hc => Sat.mono (h3 hc) fun mp' h => ?_) fun _ => ⟨h1, h2⟩
    obtain ⟨ia, e, hia⟩ := h
    rw [e]
    exact ⟨⟨h1.gd, hia, h1.par⟩, h2⟩
  have quiet : cfg.c2c = true → cfg.mode.isInt = false ∧ cfg.hrsNoise ≤ 0 ∧ cfg.lrsNoise ≤ 0 := by
    intro hc
    cases hi : cfg.mode.isInt with
    | true => rw [hi, if_pos rfl] at he; rw [he.1] at hc; cases hc
    | false => rw [hi] at he; exact ⟨rfl, he.1, he.2.1⟩
  have rows : cfg.mode.isInt = false → ∀ a b, ofRows cfg i i' a b → (a < m ↔ b < m) := fun hi a b hab => by
    rw [ofRows_non hi] at hab
    exact atRows_iff hm hab
  refine Sat.bind (key _ _ h hmode fun hc => tw_addC2C (quiet hc).2.1 (quiet hc).2.2 (rows (quiet hc).1) h.ia) fun mp hmp => ?_
  refine Sat.bind (tw_aMvm hmp.1 hm hr hmp.2) fun r hr => ?_
  exact Sat.bind Ok'.any fun _ _ => Sat.bind Ok'.any fun _ _ => hr

end

/-- A fresh crossbar. -/
theorem tw_mkXbar {rng : Nat} {hs : List (String × Hist K)} (hM : i < cfg.M ↔ i' < cfg.M) (h : mkXbar E cfg rng hs = .ok x) :
    CoreTw cfg i i' x.mapper.core := by
  obtain ⟨h1, -⟩ := mkXbar_inv h
  obtain ⟨-, -, hg, hi, -, -, -, -, -, hp, -⟩ := mkCore_inv h1
  have fresh : ∀ s, x.mapper.core.par = some s → s.mode = cfg.mode ∧ s.mXbar = cfg.M ∧ s.ga = none := by
    intro s hs
    rw [hs] at hp
    unfold optSolver mkSolver at hp
    split at hp
    · split at hp
      · cases hp
      · cases hp; exact ⟨rfl, rfl, rfl⟩
    · cases hp
  have sol : ∀ a b, (a < cfg.M ↔ b < cfg.M) → SolTw cfg.mode a b x.mapper.core.par := fun a b hab s hs => by
    obtain ⟨e1, e2, e3⟩ := fresh s hs
    refine ⟨e1, by rw [e2]; exact hab, fun g w hg => ?_⟩
    rw [e3] at hg
    cases hg
  refine ⟨?_, ?_, ?_⟩
  · rw [hg]; exact ⟨TwM.const _ _ _, TwM.const _ _ _, Tw.const _ _⟩
  · rw [hi]; exact ⟨TwM.const _ _ _, TwM.const _ _ _, TwM.const _ _ _, TwM.const _ _ _⟩
  · unfold ParTw
    split
    · exact ⟨fun s hs => (fresh s hs).2.1, fun a b _ ha hb => sol a b (iff_of_true ha hb)⟩
    · exact sol i i' hM

end

end Acs
