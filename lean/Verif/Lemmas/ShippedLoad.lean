import Verif.Lemmas.Shipped
import Verif.SpecBuild

/-!
# The shipped files are accepted
-/

namespace Acs

open Spec

variable {K : Type} [Field K] [LinearOrder K] [IsStrictOrderedRing K] [FloorRing K]
variable {E : Env K} {md : Mode}

theorem find_or {α : Type} {j : Json K} {key : String} {T : Json K → Prop} {P : Json K → α → Prop} {d : α}
    (h : j.find key = none) : GivesOr j key T P d d :=
  .inr ⟨(fun v hv => by rw [h] at hv; cases hv), rfl⟩

theorem nat_is {z : Nat} (h : z < 4294967296) : NatIs (.int z : Json K) z := ⟨h, by simp⟩

theorem nats_are {l : List Nat} (h : ∀ z ∈ l, z < 4294967296) :
    NatsAre (.arr (l.map fun z => .int z) : Json K) l := by
  refine ⟨_, rfl, ?_⟩
  induction l with
  | nil => exact .nil
  | cons z l ih => exact .cons (nat_is (h z (by simp))) (ih fun z hz => h z (by simp [hz]))

/-- Widths and slices that a file gives. -/
def shippedSplit : Mode → List Nat
  | .iDiffWDiff1 | .iDiffWDiff2 | .iOffsWDiff | .iTcWDiff | .iUintWDiff | .iUintWOffs => [1, 3, 4]
  | .tnn4 | .tnn5 => [1, 1]
  | _ => [0]

def shippedWidth : Mode → Nat
  | .tnn4 | .tnn5 => 2
  | _ => 8

def digitalShippedCfg (md : Mode) : Cfg K :=
  { cfg0 with
    M := 32
    N := 32
    mode := md
    digitalOnly := true
    wBit := shippedWidth md
    iBit := 8
    split := shippedSplit md }

def analogShippedCfg (md : Mode) : Cfg K :=
  { cfg0 with
    M := 32
    N := 32
    mode := md
    hrs := 5
    lrs := 30
    adcType := shippedAdc md
    resolution := 20
    d2d := true
    wBit := shippedWidth md
    iBit := 8
    split := shippedSplit md }

theorem digital_fromDoc : FromDoc E (digitalFile md) (digitalShippedCfg md) where
  M := ⟨.int (32 : Nat), by cases md <;> rfl, nat_is (z := 32) (by decide)⟩
  N := ⟨.int (32 : Nat), by cases md <;> rfl, nat_is (z := 32) (by decide)⟩
  mode := ⟨_, by cases md <;> rfl, rfl⟩
  digital := ⟨_, by cases md <;> rfl, rfl⟩
  verbose := ⟨_, by cases md <;> rfl, rfl⟩
  analog := fun h => by cases h
  wBit := fun (h : md.family = .int ∨ md = .tnn4 ∨ md = .tnn5) => by
    refine ⟨.int (shippedWidth md), ?_, nat_is (by cases md <;> decide)⟩
    cases md <;> first | rfl | exact absurd h (by decide)
  iBit := fun (h : md.family = .int) => by
    refine ⟨.int (8 : Nat), ?_, nat_is (by decide)⟩
    cases md <;> first | rfl | exact absurd h (by decide)
  split := fun (h : md.family = .int ∨ md = .tnn4 ∨ md = .tnn5) => by
    refine ⟨.arr ((shippedSplit md).map fun z => .int z), ?_, nats_are (by cases md <;> decide)⟩
    cases md <;> first | rfl | exact absurd h (by decide)

theorem analog_fromDoc (h0 : E.f32 0 = 0) (h5 : E.f32 5 = 5) (h30 : E.f32 30 = 30) :
    FromDoc E (analogFile md) (analogShippedCfg md) where
  M := ⟨.int (32 : Nat), by cases md <;> rfl, nat_is (z := 32) (by decide)⟩
  N := ⟨.int (32 : Nat), by cases md <;> rfl, nat_is (z := 32) (by decide)⟩
  mode := ⟨_, by cases md <;> rfl, rfl⟩
  digital := ⟨_, by cases md <;> rfl, rfl⟩
  verbose := ⟨_, by cases md <;> rfl, rfl⟩
  analog := fun _ =>
    { hrs := ⟨.num 5, by cases md <;> rfl, h5.symm⟩
      lrs := ⟨.num 30, by cases md <;> rfl, h30.symm⟩
      adcType := ⟨_, by cases md <;> rfl, rfl⟩
      adc := fun _ =>
        { resolution := ⟨.int 20, by cases md <;> rfl, ⟨(by decide : (-2147483648 : Int) ≤ 20 ∧ (20 : Int) < 2147483648), (by decide : (4294967296 : Int) ∣ 20 - 20)⟩⟩
          calib := find_or (by cases md <;> rfl)
          dict := fun h => by cases h
          profile := find_or (by cases md <;> rfl)
          bin := fun h => by cases h }
      hrsNoise := ⟨.num 0, by cases md <;> rfl, h0.symm⟩
      lrsNoise := ⟨.num 0, by cases md <;> rfl, h0.symm⟩
      d2d := find_or (by cases md <;> rfl)
      c2c := find_or (by cases md <;> rfl)
      readDisturb := find_or (by cases md <;> rfl)
      rd := fun h => by cases h
      par := ⟨false, find_or (by cases md <;> rfl), (fun h => by cases h), ⟨(fun h => by cases h), fun h => by cases h.1⟩,
        fun h => by rcases h with h | h <;> cases h⟩ }
  wBit := fun (h : md.family = .int ∨ md = .tnn4 ∨ md = .tnn5) => by
    refine ⟨.int (shippedWidth md), ?_, nat_is (by cases md <;> decide)⟩
    cases md <;> first | rfl | exact absurd h (by decide)
  iBit := fun (h : md.family = .int) => by
    refine ⟨.int (8 : Nat), ?_, nat_is (by decide)⟩
    cases md <;> first | rfl | exact absurd h (by decide)
  split := fun (h : md.family = .int ∨ md = .tnn4 ∨ md = .tnn5) => by
    refine ⟨.arr ((shippedSplit md).map fun z => .int z), ?_, nats_are (by cases md <;> decide)⟩
    cases md <;> first | rfl | exact absurd h (by decide)

theorem shipped_bits {c : Cfg K} (h1 : c.mode = md) (h2 : c.wBit = shippedWidth md) (h3 : c.iBit = 8) (h4 : c.split = shippedSplit md) :
    BitsOk c := by
  unfold BitsOk
  rw [h1, h2, h3, h4]
  cases md <;> decide

theorem digital_admissible : Admissible (digitalShippedCfg md : Cfg K) :=
  ⟨(by decide : 0 < 32), (by decide : 0 < 32), shipped_bits rfl rfl rfl rfl, fun h => by cases h⟩

theorem analog_admissible : Admissible (analogShippedCfg md : Cfg K) :=
  ⟨(by decide : 0 < 32), (by decide : 0 < 32), shipped_bits rfl rfl rfl rfl, fun _ =>
    { states := ⟨by show (0 : K) < 5; norm_num, by show (0 : K) < 30; norm_num⟩
      adc := by cases md <;> simp [AdcMatches, analogShippedCfg, shippedAdc, signedCurrents]
      calib := fun _ h => by cases h
      vRead := fun h => by rcases h with h | h <;> cases h
      family := fun h => by cases h
      software := fun h => by cases h
      cell := fun h => by cases h
      variability := fun _ h => by cases h.2
      wires := fun h => by cases h }⟩

theorem shipped_fits {c : Cfg K} (h1 : c.mode = md) (h2 : c.wBit = shippedWidth md) (h4 : c.split = shippedSplit md)
    (hm : c.mode = .iUintWOffs) : ∀ s, s < c.split.length → SliceFits c s := by
  obtain rfl : md = .iUintWOffs := h1.symm.trans hm
  unfold SliceFits wrappedShift
  rw [h2, h4]
  decide

theorem analog_buildable {old : Cfg K} : Buildable E old (analogShippedCfg md) where
  resolution := by
    unfold usedResolution
    split
    · next h => exact absurd (h.resolve_left (fun h => by cases h)) (shippedAdc_real md)
    · show (20 : Int) ≤ 30
      decide
  wires := fun _ h => by cases h
  slices := fun _ => show ∀ s ∈ shippedSplit md, s ≤ 30 by cases md <;> decide
  offset := shipped_fits rfl rfl rfl
  current := fun _ h => by cases h
  disturb := fun h => by cases h

theorem digital_buildable {old : Cfg K} (hgcc : shiftsSigned md → E.strict = false) (hr : old.resolution ≤ 30)
    (hd : old.readDisturb = true → DecayDefined E old.vRead) : Buildable E old (digitalShippedCfg md) where
  resolution := by
    unfold usedResolution
    rw [if_pos (.inl rfl)]
    exact hr
  wires := fun h => by cases h
  slices := fun _ => show ∀ s ∈ shippedSplit md, s ≤ 30 by cases md <;> decide
  offset := shipped_fits rfl rfl rfl
  current := fun hs _ => by
    have : ¬shiftsSigned md := fun h => by
      rw [hgcc h] at hs
      cases hs
    cases md <;> first | exact absurd trivial this | exact ⟨(fun h => by rcases h with h | h <;> cases h), fun h => by cases h⟩
  disturb := by
    have : usedDisturb old (digitalShippedCfg md) = (old.readDisturb, old.vRead) := if_pos rfl
    rw [this]
    exact hd

end Acs
