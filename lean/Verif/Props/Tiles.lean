import Verif.Lemmas.Tiles
import Verif.Props.Analog
import Verif.Props.Digital
import Verif.Props.EndToEnd

/-!
# C112: matrices that are wider than the crossbar
-/

set_option linter.unusedSectionVars false

namespace Acs.Props

open Finset Spec

section
variable {K : Type} [Field K] [LinearOrder K] [IsStrictOrderedRing K] [FloorRing K]
variable {E : Env K} {cfg : Cfg K} {W : Nat → Nat → Int} {v res : Vec Int} {m N : Nat} {l : String}
variable {x : Xbar K} {h : List Op} {ts : List Tile}

/-- C112.  A digital crossbar in any state computes the product with a matrix of any width, tile by tile: the calls of
the loop succeed, and together they add the exact product.  The tiles may have different widths. -/
theorem C112_digital (hok : CfgOk cfg) (hgcc : shiftsSigned cfg.mode → E.strict = false) (hdo : cfg.digitalOnly = true)
    (hr : Runs E cfg h x) (hf : TilesFit cfg m ts) (hc : Covers W v m N 0 ts) (hW : LegalMat cfg W m N)
    (hx : LegalVec cfg v N) (hres : m ≤ res.size) (hroom : Room cfg res m N) :
    ∃ x' r, runTiles E cfg m l ts x res = .ok (x', r) ∧ Adds r res W v m N := by
  obtain ⟨_, x', r, h1, _, h2⟩ := tiles_exact (l := l) (fun hr hd hb hW hs hv hx hm hro =>
      write_mvm hok hgcc hdo hr hd hb hW hs le_rfl le_rfl (fun _ => rfl) hv hx hm hro) hW hx hres hroom ts hr hf hc
    ⟨rfl, fun i _ => by simp [prod], fun _ _ => rfl⟩
  exact ⟨x', r, h1, h2⟩

/-- C112.  So does an analog crossbar with ideal cells and the ideal converter, in exact arithmetic. -/
theorem C112_analog (hE : ExactArith E) (hok : CfgOk cfg) (hid : Ideal cfg) (hinf : cfg.adcType = .inf)
    (hgcc : cfg.mode = .iOffsWDiff → E.strict = false) (hr : Runs E cfg h x) (hf : TilesFit cfg m ts)
    (hc : Covers W v m N 0 ts) (hW : LegalMat cfg W m N) (hx : LegalVec cfg v N) (hres : m ≤ res.size)
    (hroom : Room cfg res m N) :
    ∃ x' r, runTiles E cfg m l ts x res = .ok (x', r) ∧ Adds r res W v m N := by
  obtain ⟨_, x', r, h1, _, h2⟩ := tiles_exact (l := l) (fun hr hd hb hW hs hv hx hm hro =>
      write_mvm_inf hE hok hid hinf hgcc hr hd hb hW hs le_rfl le_rfl (fun _ => rfl) hv hx hm hro) hW hx hres hroom ts hr hf hc
    ⟨rfl, fun i _ => by simp [prod], fun _ _ => rfl⟩
  exact ⟨x', r, h1, h2⟩

/-- C112.  Through a real converter whose range no current leaves, the error is at most the sum of the error bounds of the
tiles. -/
theorem C112_adc {lo hi : K} (hE : ExactArith E) (hok : CfgOk cfg) (hid : Ideal cfg) (hgcc : cfg.mode = .iOffsWDiff → E.strict = false)
    (hr : Runs E cfg h x) (hf : TilesFit cfg m ts) (hc : Covers W v m N 0 ts) (hW : LegalMat cfg W m N)
    (hx : LegalVec cfg v N) (hres : m ≤ res.size) (hA : AdcOk cfg l lo hi) (hin : TilesInRange cfg lo hi m ts)
    (hroom : TilesRoom cfg lo hi res m N (tilesErr cfg lo hi ts) ts) :
    ∃ x' r, runTiles E cfg m l ts x res = .ok (x', r) ∧ AddsUpTo (tilesErr cfg lo hi ts) r res W v m N :=
  tiles_adc hE hok hid hgcc hA hW hx hres ts (e := fun _ => 0) hr hf hc hin hroom (fun _ => zero_add _)
    ⟨rfl, fun i _ => by simp [prod], fun _ _ => rfl⟩

/-- C112, through the interface, after any settled session: all codes are 0. -/
theorem C112_interface {wd : World K} (hw : Settled E h wd) (hok : CfgOk wd.cfg)
    (hgcc : shiftsSigned wd.cfg.mode → E.strict = false) (hdo : wd.cfg.digitalOnly = true) (hm : m < 2147483648)
    (hf : TilesFit wd.cfg m ts) (hc : Covers W v m N 0 ts) (hW : LegalMat wd.cfg W m N) (hx : LegalVec wd.cfg v N)
    (hres : m ≤ res.size) (hroom : Room wd.cfg res m N) :
    ∃ w' r, serveTiles E m l ts wd res = .ok (w', r, List.replicate (2 * ts.length) 0) ∧ Adds r res W v m N := by
  obtain ⟨x, hx', hr⟩ := settled_runs hw
  obtain ⟨x', r, h1, h2⟩ := C112_digital (l := l) hok hgcc hdo hr hf hc hW hx hres hroom
  exact ⟨_, r, serveTiles_ok hm ts hx' hf h1, h2⟩

end

namespace Ex'

/-- A matrix with 2 rows and 5 columns. -/
def tileMat : Vec Int := Vec.ofList [3, -7, 5, 1, -4, 0, 6, -2, 7, 2]
/-- Its inputs. -/
def tileVec : Vec Int := Vec.ofList [3, -4, -1, 2, -3]
/-- Three columns and two columns. -/
def tileList : List Tile :=
  [⟨Vec.ofList [3, -7, 5, 0, 6, -2], Vec.ofList [3, -4, -1], 3⟩, ⟨Vec.ofList [1, -4, 7, 2], Vec.ofList [2, -3], 2⟩]

theorem tile_covers : Covers (entry tileMat 5) tileVec 2 5 0 tileList := by
  refine ⟨by decide, by decide, ?_, ?_, by decide, by decide, ?_, ?_, rfl⟩
  · intro i j hi hj
    exact (show ∀ i : Fin 2, ∀ j : Fin 3, entry (Vec.ofList [3, -7, 5, 0, 6, -2]) 3 i j = entry tileMat 5 i (0 + j) by decide)
      ⟨i, hi⟩ ⟨j, hj⟩
  · intro j hj
    exact (show ∀ j : Fin 3, (Vec.ofList [3, -4, -1] : Vec Int).get j = tileVec.get (0 + j) by decide) ⟨j, hj⟩
  · intro i j hi hj
    exact (show ∀ i : Fin 2, ∀ j : Fin 2, entry (Vec.ofList [1, -4, 7, 2]) 2 i j = entry tileMat 5 i (0 + 3 + j) by decide)
      ⟨i, hi⟩ ⟨j, hj⟩
  · intro j hj
    exact (show ∀ j : Fin 2, (Vec.ofList [2, -3] : Vec Int).get j = tileVec.get (0 + 3 + j) by decide) ⟨j, hj⟩

theorem tile_fit : TilesFit (Ex.cfg .iOffsWDiff) 2 tileList := by
  intro t ht
  simp only [tileList, List.mem_cons, List.not_mem_nil, or_false] at ht
  rcases ht with rfl | rfl
  · exact ⟨Ex.accepted _, Ex.sum_room _⟩
  · exact ⟨⟨by decide, by decide, by decide⟩, fun _ _ => by decide⟩

theorem tile_legal : LegalMat (Ex.cfg .iOffsWDiff) (entry tileMat 5) 2 5 := fun i j hi hj =>
  (show ∀ i : Fin 2, ∀ j : Fin 5, |entry tileMat 5 i j| < 2 ^ 3 by decide) ⟨i, hi⟩ ⟨j, hj⟩

theorem tile_vec : LegalVec (Ex.cfg .iOffsWDiff) tileVec 5 := fun j hj =>
  (show ∀ j : Fin 5, -2 ^ 2 ≤ tileVec.get j ∧ tileVec.get j < 2 ^ 2 by decide) ⟨j, hj⟩

theorem tile_room : Room (Ex.cfg .iOffsWDiff) Ex.res 2 5 := fun i hi =>
  (show ∀ i : Fin 2, |Ex.res.get i| + (5 : Nat) * 2 ^ (3 + 3) ≤ 2147483647 by decide) ⟨i, hi⟩

end Ex'

/-- A matrix of 5 columns on a used crossbar with 3 columns. -/
example : (Ex.cfg .iOffsWDiff).N = 3 ∧ ∃ h x x' r, h ≠ [] ∧ Runs Ex.env (Ex.cfg .iOffsWDiff) h x ∧
    runTiles Ex.env (Ex.cfg .iOffsWDiff) 2 "" Ex'.tileList x Ex.res = .ok (x', r) ∧
    Adds r Ex.res (entry Ex'.tileMat 5) Ex'.tileVec 2 5 := by
  obtain ⟨x, hr⟩ := Ex.ran
  obtain ⟨x', r, h⟩ := C112_digital (l := "") (Ex.cfg_ok .iOffsWDiff) (fun _ => rfl) rfl hr Ex'.tile_fit Ex'.tile_covers
    Ex'.tile_legal Ex'.tile_vec (by decide) Ex'.tile_room
  exact ⟨rfl, _, x, x', r, by simp, hr, h⟩

/-- The same after loading a configuration, with the return codes of the four calls. -/
example : ∃ w w' r, Settled Ex.env [] w ∧ serveTiles Ex.env 2 "" Ex'.tileList w Ex.res = .ok (w', r, [0, 0, 0, 0]) ∧
    Adds r Ex.res (entry Ex'.tileMat 5) Ex'.tileVec 2 5 := by
  obtain ⟨w, h1, h2⟩ := Ex'.load Ex.env (Ex.digital .iOffsWDiff) (Ex'.digitalCfg .iOffsWDiff) (by decide +kernel)
  obtain ⟨w', r, h3⟩ := C112_interface (l := "") (res := Ex.res) h1 (by rw [h2]; exact Ex'.digital_ok _) (fun _ => rfl) (by rw [h2]; rfl)
    (by decide) (by rw [h2]; exact Ex'.tile_fit) Ex'.tile_covers (by rw [h2]; exact Ex'.tile_legal)
    (by rw [h2]; exact Ex'.tile_vec) (by decide) (by rw [h2]; exact Ex'.tile_room)
  exact ⟨w, w', r, h1, h3⟩

/-- The same matrix on an analog crossbar. -/
example : ∃ x x' r, Runs Ex.env (Ex.acfg .iOffsWDiff) [] x ∧
    runTiles Ex.env (Ex.acfg .iOffsWDiff) 2 "" Ex'.tileList x Ex.res = .ok (x', r) ∧
    Adds r Ex.res (entry Ex'.tileMat 5) Ex'.tileVec 2 5 := by
  obtain ⟨x, hx⟩ := Ex.afresh .iOffsWDiff
  obtain ⟨x', r, h⟩ := C112_analog (l := "") Ex.env_exact (Ex.acfg_ok .iOffsWDiff) (Ex.ideal _) rfl (fun _ => rfl) (.init hx)
    Ex'.tile_fit Ex'.tile_covers Ex'.tile_legal Ex'.tile_vec (by decide) Ex'.tile_room
  exact ⟨x, x', r, .init hx, h⟩

/-- And through a converter of 4 bits. -/
example : ∃ x x' r, Runs Ex.env (Ex.symCfg .iOffsWDiff) [] x ∧
    runTiles Ex.env (Ex.symCfg .iOffsWDiff) 2 "" Ex'.tileList x Ex.res = .ok (x', r) ∧
    AddsUpTo (tilesErr (Ex.symCfg .iOffsWDiff) (-15) 15 Ex'.tileList) r Ex.res (entry Ex'.tileMat 5) Ex'.tileVec 2 5 := by
  obtain ⟨x, hx, -⟩ := Ex.built (E := Ex.env) (c := Ex.symCfg .iOffsWDiff) (fun _ => true) (by decide +kernel)
  obtain ⟨x', r, h⟩ := C112_adc (l := "") (cfg := Ex.symCfg .iOffsWDiff) (lo := -15) (hi := 15) Ex.env_exact
    (Ex.acfg_ok .iOffsWDiff) (Ex.ideal_sym .iOffsWDiff) (fun _ => rfl) hx
    Ex'.tile_fit Ex'.tile_covers Ex'.tile_legal Ex'.tile_vec (by decide) (Ex.sym_ok .iOffsWDiff "")
    (fun t ht => Ex.two
      ((show ∀ t ∈ Ex'.tileList, ∀ c ∈ conversions (Ex.symCfg .iOffsWDiff) (entry t.mat t.n) t.vec t.n 0, -15 ≤ c.1 ∧ c.1 ≤ 15 by
        decide +kernel) t ht)
      ((show ∀ t ∈ Ex'.tileList, ∀ c ∈ conversions (Ex.symCfg .iOffsWDiff) (entry t.mat t.n) t.vec t.n 1, -15 ≤ c.1 ∧ c.1 ≤ 15 by
        decide +kernel) t ht))
    (fun t ht => Ex.two
      ((show ∀ t ∈ Ex'.tileList, ((|Ex.res.get 0| + peak (Ex.symCfg .iOffsWDiff) 5 : Int) : ℚ)
        + tilesErr (Ex.symCfg .iOffsWDiff) (-15) 15 Ex'.tileList 0
        + convPeak (-15) 15 (conversions (Ex.symCfg .iOffsWDiff) (entry t.mat t.n) t.vec t.n 0) ≤ 2147483647 by
        decide +kernel) t ht)
      ((show ∀ t ∈ Ex'.tileList, ((|Ex.res.get 1| + peak (Ex.symCfg .iOffsWDiff) 5 : Int) : ℚ)
        + tilesErr (Ex.symCfg .iOffsWDiff) (-15) 15 Ex'.tileList 1
        + convPeak (-15) 15 (conversions (Ex.symCfg .iOffsWDiff) (entry t.mat t.n) t.vec t.n 1) ≤ 2147483647 by
        decide +kernel) t ht))
  exact ⟨x, x', r, hx, h⟩

end Acs.Props
