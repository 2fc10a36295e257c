import Verif.Model.Cpp

/-!
# Executions of parallel element-wise steps

`std::transform(std::execution::par, ...)` may run the elements on any number of threads.  An element is two
atomic actions: obtain its value from shared memory, then write it to its place.  Actions of different
elements interleave arbitrarily (so in particular every order of whole elements is covered).
-/

namespace Acs.Spec

/-- Progress of one element. -/
inductive Prog (α : Type) where
  | todo
  | holds (a : α)
  | done

/-- Shared memory and the progress of every element. -/
structure Conf (α : Type) where
  mem : Vec α
  prog : Nat → Prog α

variable {α : Type}

def Conf.start (v : Vec α) : Conf α := ⟨v, fun _ => .todo⟩

def setProg (p : Nat → Prog α) (i : Nat) (x : Prog α) : Nat → Prog α := fun k => if k = i then x else p k

/-- One action of one of the elements `0, ..., n - 1`; element `i` obtains its value by `val i`. -/
inductive Act (val : Nat → Vec α → C α) (n : Nat) : Conf α → Conf α → Prop
  | load {c : Conf α} {i : Nat} {a : α} (hi : i < n) (h : c.prog i = .todo) (hv : val i c.mem = .ok a) :
      Act val n c ⟨c.mem, setProg c.prog i (.holds a)⟩
  | store {c : Conf α} {i : Nat} {a : α} {m : Vec α} (h : c.prog i = .holds a) (hv : c.mem.wr i a = .ok m) :
      Act val n c ⟨m, setProg c.prog i .done⟩

/-- An action of some element fails. -/
inductive Fails (val : Nat → Vec α → C α) (n : Nat) : Conf α → Fault → Prop
  | load {c : Conf α} {i : Nat} {e : Fault} (hi : i < n) (h : c.prog i = .todo) (hv : val i c.mem = .error e) :
      Fails val n c e
  | store {c : Conf α} {i : Nat} {a : α} {e : Fault} (h : c.prog i = .holds a) (hv : c.mem.wr i a = .error e) :
      Fails val n c e

/-- `Acts val n k c c'`: `k` actions, in any interleaving, lead from `c` to `c'`. -/
inductive Acts (val : Nat → Vec α → C α) (n : Nat) : Nat → Conf α → Conf α → Prop
  | refl (c : Conf α) : Acts val n 0 c c
  | step {k : Nat} {c c' c'' : Conf α} (h : Acts val n k c c') (h' : Act val n c' c'') : Acts val n (k + 1) c c''

/-- All elements are finished. -/
def Conf.finished (n : Nat) (c : Conf α) : Prop := ∀ i, i < n → c.prog i = .done

/-- `r` is the outcome of some complete parallel execution. -/
def ParResult (val : Nat → Vec α → C α) (n : Nat) (v r : Vec α) : Prop :=
  ∃ k c, Acts val n k (.start v) c ∧ c.finished n ∧ c.mem = r

end Acs.Spec
