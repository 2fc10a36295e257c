import Verif.Spec
import Verif.Model.Emu

/-!
# Programs that use the emulation library

A host program registers callbacks, removes them by registering null, and calls the library, in any order.
-/

namespace Acs.Spec

/-- One call of the host program. -/
inductive EmuCall (S : Type)
  | setMvm (f : Option (MvmCb S))
  | setCpy (f : Option (CpyCb S))
  | setUpd (f : Option (UpdCb S))
  | mvm (res vec mat : Vec Int) (m n : Int) (l : String)
  | cpy (mat : Vec Int) (m n : Int) (l : String)
  | upd (json l : String)

/-- What the host gets back: nothing, or the buffers it passed as they are afterwards and the code. -/
inductive EmuReply
  | none
  | mvm (res vec mat : Vec Int) (code : Int)
  | cpy (mat : Vec Int) (code : Int)
  | upd (code : Int)

section
variable {S : Type}

/-- One call, run by the model of the library. -/
def emuStep : EmuCall S → Emu S → C (Emu S × EmuReply)
  | .setMvm f, w => .ok (setMvmCb f w, .none)
  | .setCpy f, w => .ok (setCpyCb f w, .none)
  | .setUpd f, w => .ok (setUpdCb f w, .none)
  | .mvm res vec mat m n l, w => (emuMvm res vec mat m n l w).map fun r => (r.1, .mvm r.2.1.1 r.2.1.2.1 r.2.1.2.2 r.2.2)
  | .cpy mat m n l, w => (emuCpy mat m n l w).map fun r => (r.1, .cpy r.2.1 r.2.2)
  | .upd json l, w => (emuUpdate json l w).map fun r => (r.1, .upd r.2)

/-- A program, run by the model of the library: the last state and the replies. -/
def emuRun : List (EmuCall S) → Emu S → C (Emu S × List EmuReply)
  | [], w => .ok (w, [])
  | c :: cs, w => do
    let r ← emuStep c w
    let q ← emuRun cs r.1
    .ok (q.1, r.2 :: q.2)

/-! ## What the program should see

Nothing below mentions the state of the library; a history lists the calls made so far, the latest one first. -/

/-- The callback for multiplications that is in force: the one registered last. -/
def mvmCbOf : List (EmuCall S) → Option (MvmCb S)
  | .setMvm f :: _ => f
  | _ :: h => mvmCbOf h
  | [] => none

/-- The callback for matrices that is in force. -/
def cpyCbOf : List (EmuCall S) → Option (CpyCb S)
  | .setCpy f :: _ => f
  | _ :: h => cpyCbOf h
  | [] => none

/-- The callback for configurations that is in force. -/
def updCbOf : List (EmuCall S) → Option (UpdCb S)
  | .setUpd f :: _ => f
  | _ :: h => updCbOf h
  | [] => none

/-- After the history `h`, in state `s` of the host, the call is answered by `r` and leaves the host in `s'`. -/
def CallReply (h : List (EmuCall S)) (s : S) : EmuCall S → EmuReply → S → Prop
  | .mvm res vec mat m n l, r, s' =>
    match mvmCbOf h with
    | none => ∃ y, r = .mvm y vec mat 0 ∧ s' = s ∧ Adds y res (entry mat n.toNat) vec m.toNat n.toNat
    | some f => ∃ y v t code, f s res vec mat m n l = .ok (s', (y, v, t), code) ∧ r = .mvm y v t 0
  | .cpy mat m n l, r, s' =>
    match cpyCbOf h with
    | none => r = .cpy mat 0 ∧ s' = s
    | some f => ∃ t code, f s mat m n l = .ok (s', t, code) ∧ r = .cpy t 0
  | .upd json l, r, s' =>
    match updCbOf h with
    | none => r = .upd 0 ∧ s' = s
    | some f => ∃ code, f s json l = .ok (s', code) ∧ r = .upd 0
  | _, r, s' => r = .none ∧ s' = s

/-- The program `cs`, run after the history `h`, is answered by `rs` and leaves the host in `s'`. -/
def Replies : List (EmuCall S) → S → List (EmuCall S) → List EmuReply → S → Prop
  | _, s, [], rs, s' => rs = [] ∧ s' = s
  | h, s, c :: cs, rs, s' => ∃ r t q, rs = r :: q ∧ CallReply h s c r t ∧ Replies (c :: h) t cs q s'

/-- The line a call prints when no callback is in force. -/
def warningOf (h : List (EmuCall S)) : EmuCall S → Option String
  | .mvm .. => if (mvmCbOf h).isNone then some "Function pointer mvm_c_to_py not set. Emulate operation instead." else none
  | .cpy .. => if (cpyCbOf h).isNone then some "Function pointer cpy_c_to_py not set. Emulate operation instead." else none
  | .upd .. => if (updCbOf h).isNone then
      some "Function pointer update_config_c_to_py not set. Emulate operation instead." else none
  | _ => none

/-- The lines printed during a history: each at the first call that asks for it. -/
def printed : List (EmuCall S) → List String
  | [] => []
  | c :: h => match warningOf h c with
    | some x => if x ∈ printed h then printed h else printed h ++ [x]
    | none => printed h

/-- The callback a call registers, if any, always returns. -/
def Responds : EmuCall S → Prop
  | .setMvm (some f) => ∀ s res vec mat m n l, ∃ x, f s res vec mat m n l = .ok x
  | .setCpy (some f) => ∀ s mat m n l, ∃ x, f s mat m n l = .ok x
  | .setUpd (some f) => ∀ s json l, ∃ x, f s json l = .ok x
  | _ => True

/-- The buffers of a multiplication have the passed sizes, the matrix has at most `2^31` entries and products
and partial sums fit into `int32_t`. -/
def Fits : EmuCall S → Prop
  | .mvm res vec mat m n _ => m.toNat ≤ res.size ∧ n.toNat ≤ vec.size ∧ m.toNat * n.toNat ≤ mat.size ∧
      m.toNat * n.toNat ≤ 2147483648 ∧
      (∀ i j, i < m.toNat → j < n.toNat → InI32 (entry mat n.toNat i j * vec.get j)) ∧
      ∀ i k, i < m.toNat → k ≤ n.toNat →
        InI32 (res.get i + ∑ j ∈ Finset.range k, entry mat n.toNat i j * vec.get j)
  | _ => True

/-- Multiplications made while no callback is in force fit. -/
def FitsWhenEmulated : List (EmuCall S) → List (EmuCall S) → Prop
  | _, [] => True
  | h, c :: cs => (mvmCbOf h = none → Fits c) ∧ FitsWhenEmulated (c :: h) cs

end

end Acs.Spec
