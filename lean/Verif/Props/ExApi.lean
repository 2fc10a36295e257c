import Verif.Props.ExRd
import Verif.SpecApi

/-! # Concrete configuration documents and sessions -/

namespace Acs.Ex

open Spec

/-- Replace or add members. -/
def withKeys (l : List (String × Json ℚ)) (new : List (String × Json ℚ)) : Json ℚ :=
  .obj (new.foldl (fun l p => setMember p.1 p.2 l) l)

/-- Members of a digital configuration, like `cfg`. -/
def digKeys (md : Mode) : List (String × Json ℚ) :=
  [("M", .int 2), ("N", .int 3), ("m_mode", .str md.name), ("digital_only", .bool true),
   ("verbose", .bool false), ("W_BIT", .int (if md.isInt then 3 else 2)), ("I_BIT", .int 3),
   ("SPLIT", .arr (if md.isInt then [.int 2, .int 1] else [.int 1, .int 1]))]

/-- Members of an analog configuration, like `acfg`. -/
def anaKeys (md : Mode) : List (String × Json ℚ) :=
  setMember "digital_only" (.bool false) (digKeys md) ++
  [("HRS", .int 5), ("LRS", .int 10), ("adc_type", .str "INF_ADC"), ("resolution", .int 8),
   ("HRS_NOISE", .int 0), ("LRS_NOISE", .int 0)]

/-- Members of an analog configuration with read disturb. -/
def rdKeys (md : Mode) : List (String × Json ℚ) :=
  anaKeys md ++ [("read_disturb", .bool true), ("V_read", .num (-1 / 2)), ("t_read", .num (1 / 2))]

/-- Members of an analog configuration with parasitics. -/
def parKeys (md : Mode) (wRes : Int) : List (String × Json ℚ) :=
  anaKeys md ++ [("parasitics", .bool true), ("V_read", .num (-1 / 2)), ("w_res", .int wRes)]

/-- A digital configuration with some members replaced. -/
def digital (md : Mode) (new : List (String × Json ℚ) := []) : Json ℚ := withKeys (digKeys md) new
/-- An analog configuration with some members replaced. -/
def analog (md : Mode) (new : List (String × Json ℚ) := []) : Json ℚ := withKeys (anaKeys md) new
/-- A configuration with read disturb with some members replaced. -/
def disturb (md : Mode) (new : List (String × Json ℚ) := []) : Json ℚ := withKeys (rdKeys md) new
/-- A configuration with parasitics. -/
def wired (md : Mode) (wRes : Int) : Json ℚ := withKeys (parKeys md wRes) []

/-- The call returns and the result passes the test. -/
def goes {α : Type} (x : R ℚ α) (p : α → Bool) : Bool :=
  match x with
  | .ok a => p a
  | .error _ => false

theorem goes_spec {α : Type} {x : R ℚ α} {p : α → Bool} (h : goes x p = true) :
    ∃ a, x = .ok a ∧ p a = true := by
  cases x with
  | ok a => exact ⟨a, rfl, h⟩
  | error e => cases h

/-- The call does not return. -/
def dies {α : Type} (x : R ℚ α) (f : Fault) : Bool :=
  match x with
  | .error (.dead g) => g == f
  | _ => false

theorem dies_spec {α : Type} {x : R ℚ α} {f : Fault} (h : dies x f = true) :
    x = .error (.dead f) := by
  cases x with
  | ok a => cases h
  | error e =>
    cases e with
    | dead g => rw [show g = f from by simpa [dies] using h]
    | threw w => cases h

/-- The call ends with an exception and the state passes the test. -/
def throws {α : Type} (x : R ℚ α) (p : World ℚ → Bool) : Bool :=
  match x with
  | .error (.threw w) => p w
  | _ => false

theorem throws_spec {α : Type} {x : R ℚ α} {p : World ℚ → Bool} (h : throws x p = true) :
    ∃ w, x = .error (.threw w) ∧ p w = true := by
  cases x with
  | ok a => cases h
  | error e =>
    cases e with
    | dead g => cases h
    | threw w => exact ⟨w, rfl, h⟩

/-- Make a list of calls. -/
def calls (E : Env ℚ) : World ℚ → List (Call ℚ) → R ℚ (World ℚ)
  | w, [] => .ok w
  | w, c :: cs => do
    let w ← after E w c
    calls E w cs

theorem calls_reach {E : Env ℚ} {b : Bool} {cs : List (Call ℚ)} {w w' : World ℚ} (h : Reach E b w)
    (hc : calls E w cs = .ok w') : Reach E b w' := by
  induction cs generalizing w with
  | nil =>
    cases hc
    exact h
  | cons c cs ih =>
    unfold calls at hc
    cases ha : after E w c with
    | ok z => rw [ha] at hc; exact ih (.step h ha) hc
    | error e => rw [ha] at hc; cases hc

/-- Load the library, make a list of calls and test the state. -/
theorem arrived {E : Env ℚ} {b : Bool} (f : File ℚ) (cs : List (Call ℚ)) (p : World ℚ → Bool)
    (h : okAnd (boot E f) (fun w => goes (calls E w cs) p) = true) :
    ∃ w, Reach E b w ∧ p w = true := by
  obtain ⟨w, h1, h2⟩ := okAnd_spec h
  obtain ⟨w', h3, h4⟩ := goes_spec h2
  exact ⟨w', calls_reach (.boot h1) h3, h4⟩

/-- The crossbar of a state passes the test. -/
def hasXbar (w : World ℚ) (p : Xbar ℚ → Bool) : Bool :=
  match w.xbar with
  | none => false
  | some x => p x

theorem hasXbar_spec {w : World ℚ} {p : Xbar ℚ → Bool} (h : hasXbar w p = true) :
    ∃ x, w.xbar = some x ∧ p x = true := by
  unfold hasXbar at h
  split at h
  · cases h
  · next x hx => exact ⟨x, hx, h⟩

end Acs.Ex
