import Verif.SpecUpdate
import Verif.SpecBuild
import Verif.SpecReading

/-!
# Whole programs

What a program that loads and changes configurations, writes matrices and multiplies them gets to see, described without
the crossbar: a document, the matrices written since the last call that builds a crossbar, and products, exact or read
through a converter.
-/

namespace Acs.Spec

variable {K : Type} [Field K] [LinearOrder K] [IsStrictOrderedRing K] [FloorRing K]

/-- What a call gives back. -/
inductive Reply where
  | nothing
  | code (z : Int)
  | result (z : Int) (r : Vec Int)

/-- A call with what it gives back. -/
def reply (E : Env K) (w : World K) : Call K → R K (World K × Reply)
  | .setConfig f => (fun w' => (w', .nothing)) <$> setConfig E f w
  | .update d => (fun p => (p.1, .code p.2)) <$> updateConfig E d w
  | .updatePb d => (fun w' => (w', .nothing)) <$> updateConfigPb E d w
  | .write mat m n => (fun p => (p.1, .code p.2)) <$> cpyMtrx E mat m n w
  | .mvm res vec mat m n l => (fun p => (p.1, .result p.2.2 p.2.1)) <$> exeMvm E res vec mat m n l w
  | .mvmPb res vec mat m n => (fun p => (p.1, .result p.2.2 p.2.1)) <$> exeMvmPb E res vec mat m n w

/-- The calls of a program one after the other. -/
def play (E : Env K) : World K → List (Call K) → R K (World K × List Reply)
  | w, [] => .ok (w, [])
  | w, c :: cs => do
    let p ← reply E w c
    let q ← play E p.1 cs
    .ok (q.1, p.2 :: q.2)

/-- The buffer `res` with the product of the leading `m × n` block of `W` and `x` added. -/
def added (res : Vec Int) (W : Nat → Nat → Int) (x : Vec Int) (m n : Nat) : Vec Int :=
  ⟨res.size, fun i => if i < m then res.get i + prod W x n i else res.get i⟩

/-- The configuration has a real converter. -/
def RealAdc (c : Cfg K) : Prop := c.digitalOnly = false ∧ c.adcType ≠ .inf

instance (c : Cfg K) : Decidable (RealAdc c) := inferInstanceAs (Decidable (_ ∧ _))

/-- What a multiplication leaves in the result buffer after the calls `h`: the exact product is added, or what the
converter reads. -/
def answer (c : Cfg K) (h : List Op) (res vec : Vec Int) (m n : Nat) (l : String) : Vec Int :=
  if RealAdc c then
    match adcRange c l with
    | some (lo, hi) => ⟨res.size, fun i =>
        if i < m then res.get i + rowResult c lo hi (stored h) vec n i else res.get i⟩
    | none => res
  else added res (stored h) vec m n

/-- The converter, if it is a real one, has a range for the label, and what it can produce fits into the result. -/
def Readable (c : Cfg K) (h : List Op) (res vec : Vec Int) (m n : Nat) (l : String) : Prop :=
  RealAdc c → ∃ lo hi, AdcOk c l lo hi ∧ ReadRoom c lo hi (stored h) res vec m n

/-- The document gives the parameters `c`, which make a digital crossbar, or an analog one with ideal cells and wires in
exact arithmetic, and which are consistent (`SPLIT` and `W_BIT` of integer mappings).  The crossbar can be released again.
A real converter needs a usable resolution. -/
structure Usable (E : Env K) (d : Json K) (c : Cfg K) : Prop where
  doc : FromDoc E d c
  admissible : Admissible c
  slices : c.mode.family = .int → CfgOk c
  quiet : c.verbose = false ∨ c.mode.family = .int
  kind : c.digitalOnly = true ∨ (ExactArith E ∧ Ideal c)
  resolution : RealAdc c → c.resolution ≠ -1 ∧ c.resolution ≤ 30

/-- What the user of the library knows: the current document, its parameters, the width of the calls in mappings that
keep row sums, and the calls since the crossbar was built. -/
structure Phase (K : Type) where
  doc : Json K
  cfg : Cfg K
  width : Nat
  hist : List Op

/-- `m × n` is not the size of a block of the crossbar. -/
def OffSize (c : Cfg K) (m n : Int) : Prop :=
  (-2147483648 ≤ m ∧ m < 2147483648) ∧ (-2147483648 ≤ n ∧ n < 2147483648) ∧
    c.M < 2147483648 ∧ c.N < 2147483648 ∧ (m < 0 ∨ n < 0 ∨ (c.M : Int) < m ∨ (c.N : Int) < n)

/-- Admissible programs and what they get to see.  `none` is a process without configuration. -/
inductive Program (E : Env K) : Option (Phase K) → List (Call K) → List Reply → Prop
  | done {s : Option (Phase K)} : Program E s [] []
  /- A configuration file. -/
  | load {s : Option (Phase K)} {j : Json K} {c : Cfg K} {k : Nat} {cs : List (Call K)} {rs : List Reply}
      (hu : Usable E j c) (h : Program E (some ⟨j, c, k, []⟩) cs rs) :
      Program E s (.setConfig (.good j) :: cs) (.nothing :: rs)
  /- An update that builds a new crossbar. -/
  | rebuild {p : Phase K} {j d : Json K} {c : Cfg K} {k : Nat} {cs : List (Call K)} {rs : List Reply}
      (hk : DistinctKeys j) (hc : ∃ key, structural key ∧ Changes E p.doc j key) (hd : Patched E p.doc j d)
      (hu : Usable E d c) (h : Program E (some ⟨d, c, k, []⟩) cs rs) :
      Program E (some p) (.update (.good j) :: cs) (.code 0 :: rs)
  /- An update of a digital configuration that keeps the crossbar. -/
  | keep {p : Phase K} {j d : Json K} {c : Cfg K} {cs : List (Call K)} {rs : List Reply}
      (hk : DistinctKeys j) (hc : ∀ key, structural key → ¬Changes E p.doc j key) (hd : Patched E p.doc j d)
      (hu : Usable E d c) (hdig : p.cfg.digitalOnly = true) (h : Program E (some ⟨d, c, p.width, p.hist⟩) cs rs) :
      Program E (some p) (.update (.good j) :: cs) (.code 0 :: rs)
  /- An update that changes nothing. -/
  | same {p : Phase K} {j : Json K} {cs : List (Call K)} {rs : List Reply}
      (hk : DistinctKeys j) (hc : ∀ key, ¬Changes E p.doc j key) (h : Program E (some p) cs rs) :
      Program E (some p) (.update (.good j) :: cs) (.code 0 :: rs)
  /- An update by a null pointer. -/
  | null {s : Option (Phase K)} {cs : List (Call K)} {rs : List Reply} (h : Program E s cs rs) :
      Program E s (.update .null :: cs) (.code (-1) :: rs)
  /- The Python interface: an empty string, and updates as above whose code is dropped. -/
  | empty {s : Option (Phase K)} {cs : List (Call K)} {rs : List Reply} (h : Program E s cs rs) :
      Program E s (.updatePb none :: cs) (.nothing :: rs)
  | updatePb {s : Option (Phase K)} {d : Doc K} {z : Int} {cs : List (Call K)} {rs : List Reply}
      (h : Program E s (.update d :: cs) (.code z :: rs)) : Program E s (.updatePb (some d) :: cs) (.nothing :: rs)
  | write {p : Phase K} {mat : Vec Int} {m n : Nat} {cs : List (Call K)} {rs : List Reply}
      (hm : m < 2147483648) (hl : LegalWrite p.cfg p.width mat m n)
      (h : Program E (some { p with hist := .write mat m n :: p.hist }) cs rs) :
      Program E (some p) (.write mat m n :: cs) (.code 0 :: rs)
  | mvm {p : Phase K} {res vec mat : Vec Int} {m n : Nat} {l : String} {cs : List (Call K)} {rs : List Reply}
      (hm : m < 2147483648) (hl : LegalMvm p.cfg p.width p.hist res vec m n)
      (hr : Readable p.cfg p.hist res vec m n l)
      (h : Program E (some { p with hist := .mvm res vec mat m n l :: p.hist }) cs rs) :
      Program E (some p) (.mvm res vec mat m n l :: cs) (.result 0 (answer p.cfg p.hist res vec m n l) :: rs)
  | mvmPb {p : Phase K} {res vec mat : Vec Int} {m n : Nat} {cs : List (Call K)} {rs : List Reply}
      (hm : m < 2147483648) (hl : LegalMvm p.cfg p.width p.hist res vec m n)
      (hr : Readable p.cfg p.hist res vec m n "Unknown")
      (h : Program E (some { p with hist := .mvm res vec mat m n "Unknown" :: p.hist }) cs rs) :
      Program E (some p) (.mvmPb res vec mat m n :: cs) (.result 0 (answer p.cfg p.hist res vec m n "Unknown") :: rs)
  /- Calls of the C interface with dimensions that do not fit. -/
  | offWrite {p : Phase K} {mat : Vec Int} {m n : Int} {cs : List (Call K)} {rs : List Reply}
      (ho : OffSize p.cfg m n) (h : Program E (some p) cs rs) :
      Program E (some p) (.write mat m n :: cs) (.code (-1) :: rs)
  | offMvm {p : Phase K} {res vec mat : Vec Int} {m n : Int} {l : String} {cs : List (Call K)} {rs : List Reply}
      (ho : OffSize p.cfg m n) (h : Program E (some p) cs rs) :
      Program E (some p) (.mvm res vec mat m n l :: cs) (.result (-1) res :: rs)
  /- Calls of the C interface without a configuration. -/
  | noWrite {mat : Vec Int} {m n : Int} {cs : List (Call K)} {rs : List Reply}
      (h : Program E none cs rs) : Program E none (.write mat m n :: cs) (.code (-1) :: rs)
  | noMvm {res vec mat : Vec Int} {m n : Int} {l : String} {cs : List (Call K)} {rs : List Reply}
      (h : Program E none cs rs) : Program E none (.mvm res vec mat m n l :: cs) (.result (-1) res :: rs)
  | noUpdate {d : Doc K} {cs : List (Call K)} {rs : List Reply}
      (h : Program E none cs rs) : Program E none (.update d :: cs) (.code (-1) :: rs)

end Acs.Spec
