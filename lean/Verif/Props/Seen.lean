import Verif.Lemmas.Seen
import Verif.Lemmas.SessionInv
import Verif.Lemmas.AWriteIff
import Verif.Props.Analog
import Verif.Props.ReturnA

/-! # Operands outside the alphabet and the operands a mapping sees (C102) -/

set_option linter.unusedSectionVars false

namespace Acs.Props

open Spec Finset

section
variable {K : Type} [Field K] [LinearOrder K] [IsStrictOrderedRing K] [FloorRing K]
variable {E : Env K} {w w' : World K} {cfg : Cfg K} {x x1 x2 : Xbar K} {h hs : List Op} {mat mat' vec res r : Vec Int} {m n : Int}
  {l : String}

/-- C102.  A write that is carried out leaves the simulator in the state that writing the weights the mapping sees would
leave, whatever the crossbar simulates. -/
theorem C102_write (h : Session E hs w) {z : Int} (h' : cpyMtrx E mat m n w = .ok (w', z)) :
    cpyMtrx E (seenVec (seenW w.cfg.mode) mat) m n w = .ok (w', z) := by
  obtain ⟨hi, x, hx⟩ := session_inv h
  have hm := (hi.xbar x hx.xbar).core.mode
  unfold cpyMtrx at h' ⊢
  rw [hx.xbar] at h' ⊢
  dsimp only at h' ⊢
  split
  · next hb => rwa [if_pos hb] at h'
  · next hb =>
    rw [if_neg hb, rbind_ok] at h'
    obtain ⟨y, h1, h2⟩ := h'
    rw [← hm, rbind_ok]
    exact ⟨y, lift_ok.2 (xWrite_seen y (lift_ok.1 h1)), h2⟩

/-- C102.  The same for multiplications: result and state are those of the inputs the mapping sees. -/
theorem C102_mvm (h : Session E hs w) {z : Int} (h' : exeMvm E res vec mat m n l w = .ok (w', r, z)) :
    exeMvm E res (seenVec (seenX w.cfg.mode) vec) mat m n l w = .ok (w', r, z) := by
  obtain ⟨hi, x, hx⟩ := session_inv h
  have hm := (hi.xbar x hx.xbar).core.mode
  unfold exeMvm at h' ⊢
  rw [hx.xbar] at h' ⊢
  dsimp only at h' ⊢
  split
  · next hb => rwa [if_pos hb] at h'
  · next hb =>
    rw [if_neg hb, rbind_ok] at h'
    obtain ⟨y, h1, h2⟩ := h'
    rw [← hm, rbind_ok]
    exact ⟨y, lift_ok.2 (xMvm_seen_vec y (lift_ok.1 h1)), h2⟩

/-- C102.  So every history of a crossbar is the history of the operands seen. -/
theorem C102_history (hr : Runs E cfg h x) : Runs E cfg (h.map (seenOp cfg.mode)) x := by
  induction hr with
  | init h => exact .init h
  | write hr h' ih =>
    have e := xWrite_seen _ h'
    rw [(runs_shape hr).core.mode] at e
    exact .write ih e
  | mvm hr h' ih =>
    have e := xMvm_seen_vec _ h'
    rw [(runs_shape hr).core.mode] at e
    exact .mvm ih e

/-- C102.  The operands seen are seen as they are. -/
theorem C102_fixed (md : Mode) (z : Int) : seenW md (seenW md z) = seenW md z ∧ seenX md (seenX md z) = seenX md z := by
  have ht : 1 - 2 * (1 - (1 - 2 * (1 - z).tdiv 2)).tdiv 2 = 1 - 2 * (1 - z).tdiv 2 := by
    rw [show 1 - (1 - 2 * (1 - z).tdiv 2) = 2 * (1 - z).tdiv 2 by ring, Int.mul_tdiv_cancel_left _ (by norm_num)]
  cases md <;> unfold seenW seenX <;> dsimp only <;> constructor <;>
    first | rfl | exact ht | omega

/-- C102.  An ideal analog crossbar in a binary mapping multiplies the operands seen: weights that it stores are seen as 1 or
-1, and so must the inputs be. -/
theorem C102_ideal_bnn {m n : Nat} (hE : ExactArith E) (hfam : cfg.mode.family = .bnn) (hok : CfgOk cfg)
    (hid : Ideal cfg) (hinf : cfg.adcType = .inf) (hr : Runs E cfg h x) (hd : Accepted cfg m n) (h32 : Int32s mat)
    (hv : n ≤ vec.size) (hX : ∀ j, j < n → seenX cfg.mode (vec.get j) = 1 ∨ seenX cfg.mode (vec.get j) = -1)
    (hres : m ≤ res.size) (hroom : ∀ i, i < m → |res.get i| + 3 * n ≤ 2147483647)
    (hw : xWrite E cfg x mat m n = .ok x1) (hx : xMvm E cfg x1 res vec mat' m n l = .ok (x2, r)) :
    (∀ i j, i < m → j < n → seenW cfg.mode (entry mat n i j) = 1 ∨ seenW cfg.mode (entry mat n i j) = -1) ∧
    ∀ i, i < m → r.get i = res.get i + ∑ j ∈ range n, seenW cfg.mode (entry mat n i j) * seenX cfg.mode (vec.get j) := by
  have hi : cfg.mode.isInt = false := by simp [Mode.isInt, hfam]
  obtain ⟨k1, k2⟩ := (xWrite_iff_a hok (runs_shape hr) (runs_cells hok hr) hid.par hid.analog hd h32
    (fun e => by rw [hi] at e; cases e)).1 ⟨_, hw⟩
  have hW : ∀ i j, i < m → j < n → seenW cfg.mode (entry mat n i j) = 1 ∨ seenW cfg.mode (entry mat n i j) = -1 := by
    intro i j h1 h2
    unfold Programmable Writable at k2
    unfold seenW
    cases hm : cfg.mode <;> rw [hm] at hfam k2 <;> first | (cases hfam; done) | skip
    case bnn3 =>
      have := k2 i j h1 h2
      dsimp only
      omega
    case bnn4 =>
      have := (tdiv_two_bit _).2 (k2 i j h1 h2)
      dsimp only
      omega
    all_goals exact k2 i j h1 h2
  refine ⟨hW, ?_⟩
  obtain ⟨y1, y2, q, e1, e2, e3⟩ := C18_analog_bnn_exact (mat := seenVec (seenW cfg.mode) mat)
    (vec := seenVec (seenX cfg.mode) vec) (mat' := mat') (l := l) hE hfam hok hid hinf hr hd k1 hW hv hX hres hroom
  have f1 := xWrite_seen _ hw
  rw [(runs_shape hr).core.mode, e1] at f1
  cases f1
  have f2 := xMvm_seen_vec _ hx
  rw [(runs_shape (.write hr hw)).core.mode, e2] at f2
  cases f2
  exact e3.head

/-- C102.  The same in a ternary mapping. -/
theorem C102_ideal_tnn {m n : Nat} (hE : ExactArith E) (hfam : cfg.mode.family = .tnn) (hok : CfgOk cfg)
    (hid : Ideal cfg) (hinf : cfg.adcType = .inf) (hr : Runs E cfg h x) (hd : Accepted cfg m n) (h32 : Int32s mat)
    (hW : ∀ i j, i < m → j < n → seenW cfg.mode (entry mat n i j) = 1 ∨ seenW cfg.mode (entry mat n i j) = -1 ∨
      seenW cfg.mode (entry mat n i j) = 0)
    (hv : n ≤ vec.size) (hX : ∀ j, j < n → seenX cfg.mode (vec.get j) = 1 ∨ seenX cfg.mode (vec.get j) = -1 ∨
      seenX cfg.mode (vec.get j) = 0)
    (hres : m ≤ res.size) (hroom : ∀ i, i < m → |res.get i| + 3 * n ≤ 2147483647)
    (hw : xWrite E cfg x mat m n = .ok x1) (hx : xMvm E cfg x1 res vec mat' m n l = .ok (x2, r)) :
    ∀ i, i < m → r.get i = res.get i + ∑ j ∈ range n, seenW cfg.mode (entry mat n i j) * seenX cfg.mode (vec.get j) := by
  have hi : cfg.mode.isInt = false := by simp [Mode.isInt, hfam]
  obtain ⟨k1, -⟩ := (xWrite_iff_a hok (runs_shape hr) (runs_cells hok hr) hid.par hid.analog hd h32
    (fun e => by rw [hi] at e; cases e)).1 ⟨_, hw⟩
  obtain ⟨y1, y2, q, e1, e2, e3⟩ := C19_analog_tnn_exact (mat := seenVec (seenW cfg.mode) mat)
    (vec := seenVec (seenX cfg.mode) vec) (mat' := mat') (l := l) hE hfam hok hid hinf hr hd k1 hW hv hX hres hroom
  have f1 := xWrite_seen _ hw
  rw [(runs_shape hr).core.mode, e1] at f1
  cases f1
  have f2 := xMvm_seen_vec _ hx
  rw [(runs_shape (.write hr hw)).core.mode, e2] at f2
  cases f2
  exact e3.head

end

namespace Ex'

/-- Inputs outside the alphabet of `BNN_I` and `TNN_II`. -/
def oddVec : Vec Int := Vec.ofList [2, 0, 1]
def wideVec : Vec Int := Vec.ofList [5, -1, -7]

theorem returns_spec {α : Type} {x : C α} (h : (match x with | .ok _ => true | .error _ => false) = true) :
    ∃ a, x = .ok a := by
  cases x with
  | ok a => exact ⟨a, rfl⟩
  | error e => cases h

end Ex'

/-- `BNN_I` sees 2, 0, 1 as 1, -1, 1; `TNN_II` sees 5, -1, -7 as 1, -1, 1. -/
example : ∃ x x1 x2 r, Runs Ex.env (Ex.acfg .bnn1) [] x ∧ xWrite Ex.env (Ex.acfg .bnn1) x Ex.mat 2 3 = .ok x1 ∧
    xMvm Ex.env (Ex.acfg .bnn1) x1 Ex.res Ex'.oddVec Ex.mat 2 3 "" = .ok (x2, r) ∧ Int32s Ex.mat ∧
    ∀ j, j < 3 → seenX .bnn1 (Ex'.oddVec.get j) = 1 ∨ seenX .bnn1 (Ex'.oddVec.get j) = -1 := by
  obtain ⟨p, hp⟩ := Ex'.returns_spec (x := mkXbar Ex.env (Ex.acfg .bnn1) 0 [] >>= fun x =>
    xWrite Ex.env (Ex.acfg .bnn1) x Ex.mat 2 3 >>= fun x1 =>
      xMvm Ex.env (Ex.acfg .bnn1) x1 Ex.res Ex'.oddVec Ex.mat 2 3 "") (by decide +kernel)
  obtain ⟨y, h1, h2⟩ := bind_eq_ok.1 hp
  obtain ⟨x1, h2, h3⟩ := bind_eq_ok.1 h2
  exact ⟨y, x1, p.1, p.2, .init h1, h2, h3, Ex'.int32s_ofList (by decide), by decide⟩

example : ∃ x x1 x2 r, Runs Ex.env (Ex.acfg .tnn2) [] x ∧ xWrite Ex.env (Ex.acfg .tnn2) x Ex.matT 2 3 = .ok x1 ∧
    xMvm Ex.env (Ex.acfg .tnn2) x1 Ex.res Ex'.wideVec Ex.matT 2 3 "" = .ok (x2, r) ∧ Int32s Ex.matT ∧
    ∀ j, j < 3 → seenX .tnn2 (Ex'.wideVec.get j) = 1 ∨ seenX .tnn2 (Ex'.wideVec.get j) = -1 ∨
      seenX .tnn2 (Ex'.wideVec.get j) = 0 := by
  obtain ⟨p, hp⟩ := Ex'.returns_spec (x := mkXbar Ex.env (Ex.acfg .tnn2) 0 [] >>= fun x =>
    xWrite Ex.env (Ex.acfg .tnn2) x Ex.matT 2 3 >>= fun x1 =>
      xMvm Ex.env (Ex.acfg .tnn2) x1 Ex.res Ex'.wideVec Ex.matT 2 3 "") (by decide +kernel)
  obtain ⟨y, h1, h2⟩ := bind_eq_ok.1 hp
  obtain ⟨x1, h2, h3⟩ := bind_eq_ok.1 h2
  exact ⟨y, x1, p.1, p.2, .init h1, h2, h3, Ex'.int32s_ofList (by decide), by decide⟩

/-- In a digital `TNN_III` the inputs 6 and 3 give the state and the result of 2 and -1. -/
example : ∃ x x' r, Runs Ex.env (Ex.cfg .tnn3) [.write (Vec.ofList [1, -1]) 1 2] x ∧
    xMvm Ex.env (Ex.cfg .tnn3) x (Vec.ofList [5]) (Vec.ofList [6, 3]) (Vec.ofList [1, -1]) 1 2 "" = .ok (x', r) ∧
    xMvm Ex.env (Ex.cfg .tnn3) x (Vec.ofList [5]) (Vec.ofList [2, -1]) (Vec.ofList [1, -1]) 1 2 "" = .ok (x', r) ∧
    seenX .tnn3 6 = 2 ∧ seenX .tnn3 3 = -1 :=
  ⟨_, _, _, .write (.init (rng := 0) (hists := []) rfl) rfl, rfl, rfl, by decide, by decide⟩

/-- A session in which these calls return: an analog `BNN_III`, weights 2 and 0, inputs 1 and -1. -/
example : ∃ w, Session Ex.env [] w ∧ ∃ w' z, cpyMtrx Ex.env Ex'.evenMat 1 2 w = .ok (w', z) ∧ ∃ w'' r z,
    exeMvm Ex.env (Vec.ofList [0]) (Vec.ofList [1, -1]) Ex'.evenMat 1 2 "" w' = .ok (w'', r, z) ∧ r.get 0 = 2 := by
  obtain ⟨p, hp, hr⟩ := Ex.goes_spec (x := setConfig Ex.env (.good (Ex.analog .bnn3 [("W_BIT", .int 0),
    ("SPLIT", .arr [.int 0])])) world0 >>= fun w => cpyMtrx Ex.env Ex'.evenMat 1 2 w >>= fun w' =>
      exeMvm Ex.env (Vec.ofList [0]) (Vec.ofList [1, -1]) Ex'.evenMat 1 2 "" w'.1)
    (p := fun r => decide (r.2.1.get 0 = 2)) (by decide +kernel)
  obtain ⟨w, h1, h2⟩ := rbind_ok.1 hp
  obtain ⟨w', h2, h3⟩ := rbind_ok.1 h2
  exact ⟨w, .load h1, w'.1, w'.2, h2, p.1, p.2.1, p.2.2, h3, of_decide_eq_true hr⟩

end Acs.Props
