import Verif.SpecLoad

/-!
# What an update says

The document after an update, and when two values can be told apart by `json::operator==`.
-/

namespace Acs.Spec

variable {K : Type} [Field K] [LinearOrder K] [IsStrictOrderedRing K] [FloorRing K]

/-- `d` is the document `data` with the values of `upd`. -/
def Merged (data upd d : Json K) : Prop :=
  (∀ k v, (k, v) ∈ upd.items → d.find k = some v) ∧
    ∀ k, (∀ v, (k, v) ∉ upd.items) → d.find k = data.find k

mutual
/-- The comparison of the two values does not have to convert a number to a type it does not fit: integers are
signed 64-bit integers, and integers that are compared with fractions are 31-bit integers. -/
def Clear : Json K → Json K → Prop
  | .int a, .int b => (-9223372036854775808 ≤ a ∧ a < 9223372036854775808) ∧
      -9223372036854775808 ≤ b ∧ b < 9223372036854775808
  | .int a, .num _ => 0 ≤ a ∧ a < 2147483648
  | .num _, .int b => 0 ≤ b ∧ b < 2147483648
  | .arr a, .arr b => ClearList a b
  | .obj a, .obj b => ClearObj a b
  | _, _ => True
/-- The same for the elements of lists. -/
def ClearList : List (Json K) → List (Json K) → Prop
  | a :: as, b :: bs => Clear a b ∧ ClearList as bs
  | _, _ => True
/-- The same for the members of objects. -/
def ClearObj : List (String × Json K) → List (String × Json K) → Prop
  | (_, a) :: as, (_, b) :: bs => Clear a b ∧ ClearObj as bs
  | _, _ => True
end

/-- All values of the update can be compared with the ones they replace. -/
def ClearUpdate (data upd : Json K) : Prop :=
  ∀ k cur v, data.find k = some cur → (k, v) ∈ upd.items → Clear cur v

/-- `double` holds 31-bit integers. -/
def DoubleInts (E : Env K) : Prop := ∀ z : Int, 0 ≤ z → z < 2147483648 → E.f64 (z : K) = z

/-- `d` is the document `data` with those values of `upd` that change something. -/
def Patched (E : Env K) (data upd d : Json K) : Prop :=
  (∀ k v, (k, v) ∈ upd.items → Changes E data upd k → d.find k = some v) ∧
    ∀ k, ¬Changes E data upd k → d.find k = data.find k

/-- The document can get new members. -/
def Editable (data : Json K) : Prop := data = .null ∨ ∃ l, data = .obj l

end Acs.Spec
