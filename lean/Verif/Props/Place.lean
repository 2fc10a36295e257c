import Verif.Lemmas.Place
import Verif.Props.Reading
import Verif.Props.Digital

/-!
# C113: where a row is stored
-/

set_option linter.unusedSectionVars false

namespace Acs.Props

open Finset Spec

section
variable {K : Type} [Field K] [LinearOrder K] [IsStrictOrderedRing K] [FloorRing K]
variable {E : Env K} {cfg : Cfg K} {mat mat' vec res res' : Vec Int} {m m' n M' : Nat} {l : String}
variable {x y : Xbar K} {h h' : List Op} {lo hi : K}

/-- C113.  In exact arithmetic a row adds the same number wherever it is stored: in any states of two crossbars of any heights,
which are otherwise configured alike and have ideal cells, equal rows add equal numbers for equal inputs, through any
real converter, also if currents leave its range. -/
theorem C113_place (hE : ExactArith E) (hok : CfgOk cfg) (hid : Ideal cfg) (hgcc : cfg.mode = .iOffsWDiff → E.strict = false)
    (hr : Runs E cfg h x) (hr' : Runs E (withHeight cfg M') h' y)
    (hl : Legal cfg (lastWrite h) m n) (hl' : Legal cfg (lastWrite h') m' n)
    (hwid : keepsRowSums cfg.mode → WidthIs n h ∧ WidthIs n h') (hd : Accepted cfg m n) (hm' : m' ≤ M')
    (hv : n ≤ vec.size) (hres : m ≤ res.size) (hres' : m' ≤ res'.size) (hx : LegalVec cfg vec n) (hA : AdcOk cfg l lo hi)
    (hroom : ReadRoom cfg lo hi (stored h) res vec m n) (hroom' : ReadRoom cfg lo hi (stored h') res' vec m' n) :
    ∃ x' y' r r', xMvm E cfg x res vec mat m n l = .ok (x', r) ∧
      xMvm E (withHeight cfg M') y res' vec mat' m' n l = .ok (y', r') ∧
      ∀ i i', i < m → i' < m' → SameRow (stored h) (stored h') n i i' → r'.get i' - res'.get i' = r.get i - res.get i := by
  obtain ⟨x', r, h1, h2⟩ := C91_reads (mat := mat) hE hok hid hgcc hr hl (fun hk => (hwid hk).1) hd hv hres hx hA hroom
  obtain ⟨y', r', h3, h4⟩ := C91_reads (cfg := withHeight cfg M') (mat := mat') (l := l) (lo := lo) (hi := hi) hE hok
    ⟨hid.1, hid.2, hid.3, hid.4, hid.5, hid.6, hid.7, hid.8⟩ hgcc hr' hl' (fun hk => (hwid hk).2) ⟨hm', hd.2⟩ hv hres' hx
    ⟨hA.1, hA.2, hA.3, hA.4, hA.5⟩ ⟨hroom'.1, hroom'.2⟩
  refine ⟨x', y', r, r', h1, h3, fun i i' hi' hi'' hs => ?_⟩
  rw [h2.head i hi', h4.head i' hi'', rowResult_height, rowResult_place hs]
  ring

/-- C113.  A matrix with more rows than the crossbar can be cut into blocks of rows: a block on a lower crossbar returns the
entries that a crossbar for the whole matrix returns for these rows. -/
theorem C113_block (hE : ExactArith E) (hok : CfgOk cfg) (hid : Ideal cfg) (hgcc : cfg.mode = .iOffsWDiff → E.strict = false)
    (hr : Runs E cfg h x) (hr' : Runs E (withHeight cfg M') h' y) (hl : Legal cfg (lastWrite h) m n)
    (hl' : ∀ i j, i < m' → j < n → (lastWrite h' i j).isSome)
    (hwid : keepsRowSums cfg.mode → WidthIs n h ∧ WidthIs n h') (hd : Accepted cfg m n) (hm' : m' ≤ M')
    (hv : n ≤ vec.size) (hres : m ≤ res.size) (hres' : m' ≤ res'.size) (hx : LegalVec cfg vec n) (hA : AdcOk cfg l lo hi)
    (hroom : ReadRoom cfg lo hi (stored h) res vec m n) {a : Nat} (ha : a + m' ≤ m)
    (hb : RowBlock a (stored h) (stored h') res res' m' n) :
    ∃ x' y' r r', xMvm E cfg x res vec mat m n l = .ok (x', r) ∧
      xMvm E (withHeight cfg M') y res' vec mat' m' n l = .ok (y', r') ∧ ∀ i, i < m' → r'.get i = r.get (a + i) := by
  have hL : Legal cfg (lastWrite h') m' n := fun i j hi hj => by
    obtain ⟨v, hv⟩ := Option.isSome_iff_exists.1 (hl' i j hi hj)
    obtain ⟨w, hw, hw'⟩ := hl (a + i) j (by omega) hj
    refine ⟨v, hv, ?_⟩
    have e := hb.mat i hi j hj
    rw [stored, stored, hv, hw] at e
    rw [show v = w from e]
    exact hw'
  have hro : ReadRoom cfg lo hi (stored h') res' vec m' n :=
    ⟨fun i hi' => by rw [hb.res i hi', conversions_place (hb.mat i hi')]; exact hroom.parts _ (by omega),
      fun hm i hi' => by rw [hb.res i hi', rowResult_place (hb.mat i hi')]; exact hroom.whole hm _ (by omega)⟩
  obtain ⟨x', y', r, r', h1, h2, h3⟩ := C113_place (mat := mat) (mat' := mat') hE hok hid hgcc hr hr' hl hL hwid hd hm' hv
    hres hres' hx hA hroom hro
  refine ⟨x', y', r, r', h1, h2, fun i hi' => ?_⟩
  have := h3 (a + i) i (by omega) hi' (hb.mat i hi')
  rw [hb.res i hi'] at this
  omega

/-- C113, digital crossbars with any arithmetic. -/
theorem C113_digital (hok : CfgOk cfg) (hdo : cfg.digitalOnly = true) (hgcc : shiftsSigned cfg.mode → E.strict = false)
    (hr : Runs E cfg h x) (hr' : Runs E (withHeight cfg M') h' y) (hd : Accepted cfg m n) (hm' : m' ≤ M')
    (hbuf : m * n ≤ mat.size) (hbuf' : m' * n ≤ mat'.size) (hW : LegalMat cfg (entry mat n) m n) (hsum : SumRoom cfg m n)
    (hv : n ≤ vec.size) (hx : LegalVec cfg vec n) (hres : m ≤ res.size) (hres' : m' ≤ res'.size) (hroom : Room cfg res m n)
    {a : Nat} (ha : a + m' ≤ m) (hb : RowBlock a (entry mat n) (entry mat' n) res res' m' n) :
    ∃ x1 x2 y1 y2 r r', xWrite E cfg x mat m n = .ok x1 ∧ xMvm E cfg x1 res vec mat m n l = .ok (x2, r) ∧
      xWrite E (withHeight cfg M') y mat' m' n = .ok y1 ∧
      xMvm E (withHeight cfg M') y1 res' vec mat' m' n l = .ok (y2, r') ∧ ∀ i, i < m' → r'.get i = r.get (a + i) := by
  obtain ⟨x1, x2, r, h1, h2, h3⟩ := write_mvm (mat' := mat) (l := l) hok hgcc hdo hr hd hbuf hW hsum le_rfl le_rfl
    (fun _ => rfl) hv hx hres hroom
  obtain ⟨y1, y2, r', h4, h5, h6⟩ := write_mvm (cfg := withHeight cfg M') (mat := mat') (mat' := mat') (l := l) (res := res')
    (vec := vec) hok hgcc hdo hr' ⟨hm', hd.2⟩ hbuf'
    (fun i j hi hj => by rw [hb.mat i hi j hj]; exact hW _ _ (by omega) hj) (fun hi h0 => hsum hi (by omega)) le_rfl le_rfl
    (fun _ => rfl) hv hx hres' (fun i hi => by rw [hb.res i hi]; exact hroom _ (by omega))
  refine ⟨x1, x2, y1, y2, r, r', h1, h2, h4, h5, fun i hi => ?_⟩
  rw [h6.head i hi, h3.head (a + i) (by omega), hb.res i hi]
  congr 1
  exact sum_row (hb.mat i hi) fun w z => w * z

end

namespace Ex'

/-- The second row of `Ex.mat`. -/
def lowRow : Vec Int := Vec.ofList [Ex.mat.get 3, Ex.mat.get 4, Ex.mat.get 5]

/-- Its entry of the result. -/
def lowRes : Vec Int := Vec.ofList [Ex.res.get 1]

theorem low_block : RowBlock 1 (stored [.write Ex.mat 2 3]) (stored [.write lowRow 1 3]) Ex.res lowRes 1 3 := by
  refine ⟨fun i hi j hj => ?_, fun i hi => ?_⟩
  · obtain rfl : i = 0 := by omega
    exact (show ∀ j : Fin 3, stored [.write lowRow 1 3] 0 j = stored [.write Ex.mat 2 3] (1 + 0) j by decide +kernel) ⟨j, hj⟩
  · obtain rfl : i = 0 := by omega
    decide

end Ex'

/-- The second row alone on a crossbar with a single row, with a converter whose range the currents leave.  The hypotheses
of `C113_place` follow from these. -/
example : ∃ x y x' y' r r', Runs Ex.env Ex'.clipped [.write Ex.mat 2 3] x ∧
    Runs Ex.env (withHeight Ex'.clipped 1) [.write Ex'.lowRow 1 3] y ∧
    xMvm Ex.env Ex'.clipped x Ex.res Ex.vec Ex.mat 2 3 "" = .ok (x', r) ∧
    xMvm Ex.env (withHeight Ex'.clipped 1) y Ex'.lowRes Ex.vec Ex'.lowRow 1 3 "" = .ok (y', r') ∧ r'.get 0 = r.get 1 := by
  obtain ⟨x, h1, _⟩ := Ex.wrote (E := Ex.env) (c := Ex'.clipped) (mat := Ex.mat) (m := 2) (n := 3)
    (fun _ => true) (by decide +kernel)
  obtain ⟨y, h2, _⟩ := Ex.wrote (E := Ex.env) (c := withHeight Ex'.clipped 1) (mat := Ex'.lowRow) (m := 1) (n := 3)
    (fun _ => true) (by decide +kernel)
  obtain ⟨x', y', r, r', h3, h4, h5⟩ := C113_block (cfg := Ex'.clipped) (mat := Ex.mat) (mat' := Ex'.lowRow) (l := "")
    (vec := Ex.vec) (res := Ex.res) (res' := Ex'.lowRes) (m' := 1) (a := 1)
    Ex.env_exact (Ex.acfg_ok .tnn3) Ex'.clipped_ideal (fun h => by cases h) h1 h2
    (fun i j hi hj => ⟨_, by simp [lastWrite, hi, hj], Ex.legal_mat .tnn3 i j hi hj⟩)
    (fun i j hi hj => by simp [lastWrite, hi, hj])
    (fun _ => ⟨fun op hop => by obtain rfl := List.mem_singleton.1 hop; rfl, fun op hop => by obtain rfl := List.mem_singleton.1 hop; rfl⟩)
    (Ex.accepted .tnn3) le_rfl (by decide) (by decide) (by decide)
    (Ex.legal_vec .tnn3 (by decide)) Ex'.clipped_ok Ex'.clipped_room (by decide) Ex'.low_block
  exact ⟨x, y, x', y', r, r', h1, h2, h3, h4, h5 0 (by decide)⟩

/-- The hypotheses of `C113_digital`: the second row of a matrix of 3 bit weights. -/
example : ∃ x y x1 x2 y1 y2 r r', Runs Ex.env (Ex.cfg .iOffsWDiff) [] x ∧
    Runs Ex.env (withHeight (Ex.cfg .iOffsWDiff) 1) [] y ∧
    xWrite Ex.env (Ex.cfg .iOffsWDiff) x Ex.matI 2 3 = .ok x1 ∧
    xMvm Ex.env (Ex.cfg .iOffsWDiff) x1 Ex.res Ex.vecI Ex.matI 2 3 "" = .ok (x2, r) ∧
    xWrite Ex.env (withHeight (Ex.cfg .iOffsWDiff) 1) y (Vec.ofList [0, 6, -2]) 1 3 = .ok y1 ∧
    xMvm Ex.env (withHeight (Ex.cfg .iOffsWDiff) 1) y1 (Vec.ofList [20]) Ex.vecI (Vec.ofList [0, 6, -2]) 1 3 "" = .ok (y2, r') ∧
    r'.get 0 = r.get 1 := by
  obtain ⟨x, hx, -⟩ := Ex.built (E := Ex.env) (c := Ex.cfg .iOffsWDiff) (fun _ => true) (by decide +kernel)
  obtain ⟨y, hy, -⟩ := Ex.built (E := Ex.env) (c := withHeight (Ex.cfg .iOffsWDiff) 1) (fun _ => true) (by decide +kernel)
  obtain ⟨x1, x2, y1, y2, r, r', h1, h2, h3, h4, h5⟩ := C113_digital (l := "") (a := 1) (m' := 1) (vec := Ex.vecI) (res := Ex.res)
    (mat := Ex.matI) (mat' := Vec.ofList [0, 6, -2]) (res' := Vec.ofList [20]) (Ex.cfg_ok .iOffsWDiff)
    rfl (fun _ => rfl) hx hy (Ex.accepted _) le_rfl (by decide) (by decide) Ex.legal_matI (Ex.sum_room _)
    (by decide) Ex.legal_vecI (by decide) (by decide) (Ex.room _) (by decide)
    ⟨fun i hi j hj => by
      obtain rfl : i = 0 := by omega
      exact (show ∀ j : Fin 3, entry (Vec.ofList [0, 6, -2]) 3 0 j = entry Ex.matI 3 (1 + 0) j by decide) ⟨j, hj⟩,
      fun i hi => by obtain rfl : i = 0 := by omega
                     decide⟩
  exact ⟨x, y, x1, x2, y1, y2, r, r', hx, hy, h1, h2, h3, h4, h5 0 (by decide)⟩

end Acs.Props
