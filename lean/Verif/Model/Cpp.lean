import Mathlib.Algebra.Order.Floor.Ring
import Mathlib.Algebra.Order.Field.Basic

/-!
# The C++ fragment used by the simulator

Outcomes, checked 32 bit arithmetic, bounds-checked containers, `for` loops and rounded
floating-point arithmetic.  Nothing here is specific to the simulator.
-/

namespace Acs

/-- The ways in which a call can fail to return normally. -/
inductive Fault where
  | overflow   -- signed integer overflow (undefined behaviour)
  | badShift   -- shift amount too large, or (strict C++17) negative left operand of `<<` (UB)
  | oob        -- access outside a `std::vector` or outside a caller's buffer (UB)
  | nullDeref  -- use of a null pointer (UB)
  | modZero    -- integer modulo zero (UB)
  | badCast    -- conversion of an out-of-range float to an integer type (UB)
  | uninit     -- use of an indeterminate value (UB, strict reading)
  | nonfinite  -- an IEEE infinity or NaN appears: outside the modelled number range
  | exited     -- `std::exit(EXIT_FAILURE)`
  | aborted    -- `abort()`
  | thrown     -- a C++ exception leaves the function
  deriving DecidableEq, Repr

/-- Result of running a piece of C++: a value or a fault. -/
abbrev C (α : Type) := Except Fault α

/-- Representable in `int32_t`. -/
def InI32 (z : Int) : Prop := -2147483648 ≤ z ∧ z ≤ 2147483647

instance (z : Int) : Decidable (InI32 z) := inferInstanceAs (Decidable (_ ∧ _))

/-- Representable in `int64_t`. -/
def InI64 (z : Int) : Prop := -9223372036854775808 ≤ z ∧ z ≤ 9223372036854775807

instance (z : Int) : Decidable (InI64 z) := inferInstanceAs (Decidable (_ ∧ _))

/-- Result of a signed 32 bit operation whose mathematical value is `z`. -/
def i32 (z : Int) : C Int := if InI32 z then .ok z else .error .overflow

/-- Result of a signed 64 bit operation whose mathematical value is `z`. -/
def i64 (z : Int) : C Int := if InI64 z then .ok z else .error .overflow

def addI (a b : Int) : C Int := i32 (a + b)
def subI (a b : Int) : C Int := i32 (a - b)
def mulI (a b : Int) : C Int := i32 (a * b)
def negI (a : Int) : C Int := i32 (-a)
def addL (a b : Int) : C Int := i64 (a + b)

/-- Conversion of an integer to `int32_t` (two's complement wrap-around). -/
def wrap32 (z : Int) : Int := (z + 2147483648) % 4294967296 - 2147483648

/-- `a >> k` on `int32_t` (arithmetic shift). -/
def shrI (a : Int) (k : Nat) : C Int :=
  if k < 32 then .ok (a / 2 ^ k) else .error .badShift

/-- `a << k` on `int32_t`.  `strict = true` is ISO C++17, where a negative left operand is undefined;
`strict = false` is what gcc and clang do (multiply by `2^k`).  A non-negative operand may reach
into the sign bit (conversion from the unsigned type), anything beyond is reported as overflow. -/
def shlI (strict : Bool) (a : Int) (k : Nat) : C Int :=
  if k < 32 then
    if a < 0 then
      if strict then .error .badShift else i32 (a * 2 ^ k)
    else if a * 2 ^ k < 4294967296 then .ok (wrap32 (a * 2 ^ k)) else .error .overflow
  else .error .badShift

/-- `a << k` on `int64_t`. -/
def shlL (strict : Bool) (a : Int) (k : Nat) : C Int :=
  if k < 64 then
    if a < 0 ∧ strict then .error .badShift else i64 (a * 2 ^ k)
  else .error .badShift

/-- Bitwise and of two `int32_t` (or `uint32_t`) values. -/
def and32 (a b : Int) : Int := (BitVec.ofInt 32 a &&& BitVec.ofInt 32 b).toInt

/-- `uint32_t` subtraction. -/
def u32sub (a b : Nat) : Nat := if b ≤ a then a - b else a + 4294967296 - b

/-! ## Containers -/

/-- A `std::vector<α>` or a caller's buffer: its length and its contents. -/
structure Vec (α : Type) where
  size : Nat
  get : Nat → α

namespace Vec
variable {α : Type}

def rd (v : Vec α) (i : Nat) : C α := if i < v.size then .ok (v.get i) else .error .oob

def wr (v : Vec α) (i : Nat) (a : α) : C (Vec α) :=
  if i < v.size then .ok ⟨v.size, fun k => if k = i then a else v.get k⟩ else .error .oob

/-- `std::vector<α>(n, a)`. -/
def const (n : Nat) (a : α) : Vec α := ⟨n, fun _ => a⟩

/-- `std::fill(v.begin(), v.end(), a)`. -/
def fill (v : Vec α) (a : α) : Vec α := ⟨v.size, fun k => if k < v.size then a else v.get k⟩

def toList (v : Vec α) : List α := (List.range v.size).map v.get

/-- Buffer holding the elements of a list; used to build concrete inputs. -/
def ofList [Inhabited α] (l : List α) : Vec α := ⟨l.length, fun i => l.getD i default⟩

end Vec

/-- A rectangular `std::vector<std::vector<α>>`. -/
structure Mat (α : Type) where
  rows : Nat
  cols : Nat
  get : Nat → Nat → α

namespace Mat
variable {α : Type}

def rd (A : Mat α) (i j : Nat) : C α :=
  if i < A.rows ∧ j < A.cols then .ok (A.get i j) else .error .oob

def wr (A : Mat α) (i j : Nat) (a : α) : C (Mat α) :=
  if i < A.rows ∧ j < A.cols then
    .ok ⟨A.rows, A.cols, fun i' j' => if i' = i ∧ j' = j then a else A.get i' j'⟩
  else .error .oob

def const (r c : Nat) (a : α) : Mat α := ⟨r, c, fun _ _ => a⟩

end Mat

/-! ## Loops -/

/-- `for (size_t i = 0; i < n; ++i) s = f(i, s);` -/
def loop {σ : Type} : Nat → (Nat → σ → C σ) → σ → C σ
  | 0, _, s => .ok s
  | n + 1, f, s => loop n f s >>= f n

/-- `v[i] = f(v[i]);` -/
def updAt {α : Type} (v : Vec α) (i : Nat) (f : α → C α) : C (Vec α) := do
  let a ← v.rd i
  let x ← f a
  v.wr i x

/-- `for (n < N) v[t] = add(v[t], term(n));` -/
def accRow {α β : Type} (add : α → β → C α) (t N : Nat) (term : Nat → C β) (v : Vec α) :
    C (Vec α) :=
  loop N (fun n v => do
    let x ← term n
    updAt v t (fun a => add a x)) v

/-- `for (t < T) for (n < N) v[t] = add(v[t], term(t, n));`, the shape of all accumulation loops. -/
def accG {α β : Type} (add : α → β → C α) (T N : Nat) (term : Nat → Nat → C β) (v : Vec α) :
    C (Vec α) :=
  loop T (fun t v => accRow add t N (term t) v) v

/-- `for (i < n) v[i] = f(i);` -/
def setG {α : Type} (n : Nat) (f : Nat → C α) (v : Vec α) : C (Vec α) :=
  loop n (fun i v => do
    let x ← f i
    v.wr i x) v

/-- `for (i < n) v[i] = f(i, v[i]);` -/
def updG {α : Type} (n : Nat) (f : Nat → α → C α) (v : Vec α) : C (Vec α) :=
  loop n (fun i v => updAt v i (f i)) v

/-! ## Floating point -/

/-- The environment of a run: number formats, library functions and random samples.
`strict` selects the ISO C++17 reading of negative shifts and indeterminate values. -/
structure Env (K : Type) where
  strict : Bool
  /-- rounding of a real result to `float` -/
  f32 : K → K
  /-- rounding of a real result to `double` -/
  f64 : K → K
  /-- `std::pow`, before rounding -/
  pow : K → K → K
  /-- `std::exp`, before rounding -/
  exp : K → K
  /-- the samples returned by the normal distributions, in order of use -/
  gauss : Nat → K
  /-- content of an uninitialised `float` -/
  junk : K

section Fp
variable {K : Type} [Field K] [LinearOrder K] [IsStrictOrderedRing K] [FloorRing K]

/-- `float` addition. -/
def Env.fadd (E : Env K) (a b : K) : K := E.f32 (a + b)
/-- `float` subtraction. -/
def Env.fsub (E : Env K) (a b : K) : K := E.f32 (a - b)
/-- `float` multiplication. -/
def Env.fmul (E : Env K) (a b : K) : K := E.f32 (a * b)
/-- `float` division; a zero divisor gives an infinity or NaN. -/
def Env.fdiv (E : Env K) (a b : K) : C K :=
  if b = 0 then .error .nonfinite else .ok (E.f32 (a / b))
/-- conversion of an integer to `float`. -/
def Env.ofInt (E : Env K) (z : Int) : K := E.f32 (z : K)

/-- `std::round`: nearest integer, ties away from zero. -/
def roundAway (x : K) : Int := if 0 ≤ x then ⌊x + 1 / 2⌋ else ⌈x - 1 / 2⌉

/-- conversion of a float to an integer: truncation towards zero. -/
def truncZ (x : K) : Int := if 0 ≤ x then ⌊x⌋ else ⌈x⌉

/-- `static_cast<int32_t>(x)` for a float `x`. -/
def toI32 (x : K) : C Int := if InI32 (truncZ x) then .ok (truncZ x) else .error .badCast

/-- `r += y` with `int32_t r` and `float y`. -/
def Env.iaddf (E : Env K) (r : Int) (y : K) : C Int := toI32 (E.fadd (E.ofInt r) y)
/-- `r -= y` with `int32_t r` and `float y`. -/
def Env.isubf (E : Env K) (r : Int) (y : K) : C Int := toI32 (E.fsub (E.ofInt r) y)

end Fp

end Acs
