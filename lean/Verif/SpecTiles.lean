import Verif.SpecEnd

/-!
# Matrices that are wider than the crossbar

The vocabulary of C112.  The matrix is cut into tiles of some of its columns.  The tiles are written and
multiplied one after the other, and every multiplication adds to the results of the one before.
-/

namespace Acs.Spec

variable {K : Type} [Field K] [LinearOrder K] [FloorRing K]

/-- Some columns of a matrix, stored row by row, and the inputs that belong to them. -/
structure Tile where
  mat : Vec Int
  vec : Vec Int
  n : Nat

/-- The caller's loop: write a tile, multiply, go on with the results. -/
def runTiles (E : Env K) (cfg : Cfg K) (m : Nat) (l : String) : List Tile → Xbar K → Vec Int → C (Xbar K × Vec Int)
  | [], x, res => .ok (x, res)
  | t :: ts, x, res => do
    let x ← xWrite E cfg x t.mat m t.n
    let q ← xMvm E cfg x res t.vec t.mat m t.n l
    runTiles E cfg m l ts q.1 q.2

/-- The tiles are the columns of `W` from column `c` to column `N`, and the inputs of these columns. -/
def Covers (W : Nat → Nat → Int) (v : Vec Int) (m N : Nat) : Nat → List Tile → Prop
  | c, [] => c = N
  | c, t :: ts => m * t.n ≤ t.mat.size ∧ t.n ≤ t.vec.size ∧
      (∀ i j, i < m → j < t.n → entry t.mat t.n i j = W i (c + j)) ∧
      (∀ j, j < t.n → t.vec.get j = v.get (c + j)) ∧ Covers W v m N (c + t.n) ts

/-- The error bounds of the tiles in row `i`, added up. -/
def tilesErr (cfg : Cfg K) (lo hi : K) (ts : List Tile) (i : Nat) : K :=
  (ts.map fun t => convBound cfg lo hi (conversions cfg (entry t.mat t.n) t.vec t.n i)).sum

/-- No current of a tile leaves the range of the converter. -/
def TilesInRange (cfg : Cfg K) (lo hi : K) (m : Nat) (ts : List Tile) : Prop :=
  ∀ t ∈ ts, ∀ i, i < m → ∀ c ∈ conversions cfg (entry t.mat t.n) t.vec t.n i, lo ≤ c.1 ∧ c.1 ≤ hi

/-- The results with their errors fit into 32 bits. -/
def TilesRoom (cfg : Cfg K) (lo hi : K) (res : Vec Int) (m N : Nat) (e : Nat → K) (ts : List Tile) : Prop :=
  ∀ t ∈ ts, ∀ i, i < m → ((|res.get i| + peak cfg N : Int) : K) + e i
    + convPeak lo hi (conversions cfg (entry t.mat t.n) t.vec t.n i) ≤ 2147483647

/-- Every tile fits into the crossbar. -/
def TilesFit (cfg : Cfg K) (m : Nat) (ts : List Tile) : Prop := ∀ t ∈ ts, Accepted cfg m t.n ∧ SumRoom cfg m t.n

/-- The loop with the calls of the interface, which also return codes. -/
def serveTiles (E : Env K) (m : Nat) (l : String) : List Tile → World K → Vec Int → R K (World K × Vec Int × List Int)
  | [], w, res => .ok (w, res, [])
  | t :: ts, w, res => do
    let p ← cpyMtrx E t.mat (m : Int) (t.n : Int) w
    let q ← exeMvm E res t.vec t.mat (m : Int) (t.n : Int) l p.1
    let s ← serveTiles E m l ts q.1 q.2.1
    .ok (s.1, s.2.1, p.2 :: q.2.2 :: s.2.2)

end Acs.Spec
