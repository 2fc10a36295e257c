import Verif.Lemmas.ApplyTwice
import Verif.Lemmas.CfgInv
import Verif.SpecLoad

/-! # Reading the members of a document -/

set_option linter.unusedSectionVars false

namespace Acs

open Spec

section
variable {K : Type} [Field K] [LinearOrder K] [IsStrictOrderedRing K] [FloorRing K]
variable {E : Env K} {j : Json K} {c c' : Cfg K}

theorem truncZ_iff {k : K} {x : Int} : truncZ k = x ↔ Cut k x := by
  unfold truncZ Cut
  split
  · next h =>
    rw [Int.floor_eq_iff]
    exact ⟨fun e => ⟨fun _ => e, fun h' => absurd h (not_le.2 h')⟩, fun e => e.1 h⟩
  · next h =>
    rw [Int.ceil_eq_iff]
    exact ⟨fun e => ⟨fun h' => absurd h' h, fun _ => e⟩, fun e => e.2 (not_le.1 h)⟩

theorem asU32_iff {v : Json K} {n : Nat} : v.asU32 = .ok n ↔ NatIs v n := by
  unfold NatIs Json.asU32
  cases v <;> simp only [ok_inj, reduceCtorEq, and_false]
  · next b => cases b <;> simp <;> omega
  · next z => omega
  · next k =>
    split
    · next h =>
      rw [ok_inj, ← truncZ_iff]
      omega
    · next h =>
      rw [← truncZ_iff]
      simp only [reduceCtorEq, false_iff]
      omega

theorem asI32_iff {v : Json K} {x : Int} : v.asI32 = .ok x ↔ IntIs v x := by
  unfold IntIs Json.asI32
  cases v <;> simp only [ok_inj, reduceCtorEq, and_false]
  · next b => cases b <;> simp <;> omega
  · next z => unfold wrap32; omega
  · next k =>
    unfold toI32
    split
    · next h =>
      unfold InI32 at h
      rw [ok_inj, ← truncZ_iff]
      omega
    · next h =>
      unfold InI32 at h
      rw [← truncZ_iff]
      simp only [reduceCtorEq, false_iff]
      omega

theorem asF32_iff {v : Json K} {x : K} : v.asF32 E = .ok x ↔ NumIs E v x := by
  unfold NumIs Json.asF32
  cases v <;> simp only [ok_inj, reduceCtorEq, eq_comm (b := x)]

theorem asBool_iff {v : Json K} {b : Bool} : v.asBool = .ok b ↔ BoolIs v b := by
  unfold BoolIs Json.asBool
  cases v <;> simp

theorem asStr_iff {v : Json K} {s : String} : v.asStr = .ok s ↔ StrIs v s := by
  unfold StrIs Json.asStr
  cases v <;> simp

theorem mapM_iff {α β : Type} {f : α → C β} {l : List α} {r : List β} :
    l.mapM f = .ok r ↔ List.Forall₂ (fun a b => f a = .ok b) l r := by
  induction l generalizing r with
  | nil =>
    rw [List.mapM_nil]
    constructor
    · intro h
      cases h
      exact .nil
    · intro h
      cases h
      rfl
  | cons a l ih =>
    rw [List.mapM_cons]
    simp only [bind_eq_ok]
    constructor
    · rintro ⟨b, h1, s, h2, h3⟩
      cases h3
      exact .cons h1 (ih.1 h2)
    · intro h
      cases h with
      | cons h1 h2 => exact ⟨_, h1, _, ih.2 h2, rfl⟩

theorem asU32s_iff {v : Json K} {l : List Nat} : v.asU32s = .ok l ↔ NatsAre v l := by
  unfold NatsAre Json.asU32s
  cases v <;> simp only [reduceCtorEq, false_and, exists_false, Json.arr.injEq, exists_eq_left', mapM_iff, asU32_iff]

theorem asPair_iff {v : Json K} {p : K × K} : v.asPair E = .ok p ↔
    ∃ a b r, v = .arr (a :: b :: r) ∧ NumIs E a p.1 ∧ NumIs E b p.2 := by
  unfold Json.asPair
  split
  · next a b r =>
    simp only [bind_eq_ok, asF32_iff]
    constructor
    · rintro ⟨x, h1, y, h2, h3⟩
      cases h3
      exact ⟨a, b, r, rfl, h1, h2⟩
    · rintro ⟨_, _, _, e, h1, h2⟩
      cases e
      exact ⟨_, h1, _, h2, rfl⟩
  · next h =>
    constructor
    · intro h; cases h
    · rintro ⟨a, b, r, e, _⟩
      exact (h a b r e).elim

theorem asDict_iff {v : Json K} {l : List (String × (K × K))} : v.asDict E = .ok l ↔ DictIs E v l := by
  unfold DictIs Json.asDict
  cases v <;> simp only [reduceCtorEq, false_and, exists_false, Json.obj.injEq, exists_eq_left', mapM_iff]
  have : ∀ (p : String × Json K) (q : String × (K × K)), (do
      let v ← p.2.asPair E
      .ok (p.1, v) : C (String × (K × K))) = .ok q ↔ q.1 = p.1 ∧
        ∃ a b r, p.2 = .arr (a :: b :: r) ∧ NumIs E a q.2.1 ∧ NumIs E b q.2.2 := fun p q => by
    simp only [bind_eq_ok, asPair_iff]
    constructor
    · rintro ⟨x, h1, h2⟩
      cases h2
      exact ⟨rfl, h1⟩
    · rintro ⟨h1, h2⟩
      exact ⟨q.2, h2, by rw [← h1]⟩
  simp only [this]

theorem getReq_iff {α : Type} {key : String} {get : Json K → C α} {P : Json K → α → Prop} {x : α}
    (h : ∀ v, get v = .ok x ↔ P v x) : getReq j key get = .ok x ↔ Gives j key P x := by
  unfold getReq Gives
  cases j.find key with
  | none => simp
  | some v =>
    simp only [Option.some.injEq, exists_eq_left', ← h]
    split
    · next e => simp [e]
    · rfl

theorem getDef_iff {α : Type} {key : String} {get : Json K → C α} {T : Json K → Prop} {P : Json K → α → Prop}
    {d x : α} (h : ∀ v, get v = .ok x ↔ P v x) (ht : ∀ v, get v = .error .thrown ↔ ¬T v) :
    getDef j key get d = .ok x ↔ GivesOr j key T P d x := by
  unfold getDef GivesOr Gives
  cases j.find key with
  | none => simp [eq_comm]
  | some v =>
    simp only [Option.some.injEq, exists_eq_left', forall_eq', ← h, ← ht]
    split
    · next e => simp [e, eq_comm]
    · next e =>
      constructor
      · exact .inl
      · rintro (h | h)
        · exact h
        · exact (e h.1).elim

theorem asU32_thrown {v : Json K} : v.asU32 = .error .thrown ↔ ¬Numeric v := by
  unfold Json.asU32 Numeric
  cases v <;> simp
  split <;> simp

theorem asI32_thrown {v : Json K} : v.asI32 = .error .thrown ↔ ¬Numeric v := by
  unfold Json.asI32 Numeric toI32
  cases v <;> simp
  split <;> simp

theorem asBool_thrown {v : Json K} : v.asBool = .error .thrown ↔ ¬Truth v := by
  unfold Json.asBool Truth
  cases v <;> simp

theorem asStr_thrown {v : Json K} : v.asStr = .error .thrown ↔ ¬Name v := by
  unfold Json.asStr Name
  cases v <;> simp

theorem reqNat {key : String} {n : Nat} : getReq j key Json.asU32 = .ok n ↔ Gives j key NatIs n :=
  getReq_iff fun _ => asU32_iff
theorem reqInt {key : String} {n : Int} : getReq j key Json.asI32 = .ok n ↔ Gives j key IntIs n :=
  getReq_iff fun _ => asI32_iff
theorem reqNum {key : String} {x : K} : getReq j key (Json.asF32 E) = .ok x ↔ Gives j key (NumIs E) x :=
  getReq_iff fun _ => asF32_iff
theorem reqBool {key : String} {b : Bool} : getReq j key Json.asBool = .ok b ↔ Gives j key BoolIs b :=
  getReq_iff fun _ => asBool_iff
theorem reqStr {key : String} {s : String} : getReq j key Json.asStr = .ok s ↔ Gives j key StrIs s :=
  getReq_iff fun _ => asStr_iff
theorem reqNats {key : String} {l : List Nat} : getReq j key Json.asU32s = .ok l ↔ Gives j key NatsAre l :=
  getReq_iff fun _ => asU32s_iff
theorem reqDict {key : String} {l : List (String × (K × K))} :
    getReq j key (Json.asDict E) = .ok l ↔ Gives j key (DictIs E) l := getReq_iff fun _ => asDict_iff
theorem defNat {key : String} {d n : Nat} : getDef j key Json.asU32 d = .ok n ↔ GivesOr j key Numeric NatIs d n :=
  getDef_iff (fun _ => asU32_iff) fun _ => asU32_thrown
theorem defInt {key : String} {d n : Int} : getDef j key Json.asI32 d = .ok n ↔ GivesOr j key Numeric IntIs d n :=
  getDef_iff (fun _ => asI32_iff) fun _ => asI32_thrown
theorem defBool {key : String} {d b : Bool} : getDef j key Json.asBool d = .ok b ↔ GivesOr j key Truth BoolIs d b :=
  getDef_iff (fun _ => asBool_iff) fun _ => asBool_thrown
theorem defStr {key : String} {d s : String} : getDef j key Json.asStr d = .ok s ↔ GivesOr j key Name StrIs d s :=
  getDef_iff (fun _ => asStr_iff) fun _ => asStr_thrown

/-! ## Names -/

theorem modeOfName_iff {s : String} {md : Mode} : modeOfName s = some md ↔ s = md.name := by
  constructor
  · intro h
    unfold modeOfName at h
    iterate 17
      obtain ⟨e, rfl⟩ | h := ite_some h
      · exact e
    cases h
  · rintro rfl
    cases md <;> decide

theorem adcOfName_iff {s : String} {a : AdcType} : adcOfName s = some a ↔ s = adcName a := by
  unfold adcOfName
  constructor
  · intro h
    split at h
    · next e => cases h; exact e
    split at h
    · next e => cases h; exact e
    split at h
    · next e => cases h; exact e
    · cases h
  · rintro rfl
    cases a <;> decide

theorem strategyOfName_iff {s : String} {a : Strategy} : strategyOfName s = some a ↔ s = strategyName a := by
  unfold strategyOfName
  constructor
  · intro h
    split at h
    · next e => cases h; exact e
    split at h
    · next e => cases h; exact e
    split at h
    · next e => cases h; exact e
    · cases h
  · rintro rfl
    cases a <;> decide

/-! ## An accepted document -/

theorem loaded_adc {c1 c2 : Cfg K} (h : applyAdc E j c1 = .ok c2) (hi : c2.adcType ≠ .inf) : FromDocAdc E j c2 := by
  have hf := applyAdc_frame h
  have ht : c2.adcType = c1.adcType := via Cfg.adcType hf rfl
  rcases applyAdc_inv h with ⟨h1, _⟩ | ⟨_, _, r, d, h1, h2, h3⟩
  · exact absurd (ht.trans h1) hi
  obtain ⟨s, e1, e⟩ := applyCalib_inv h2
  obtain ⟨p, e2, e'⟩ := applyProfile_inv h3
  rw [reqInt] at h1
  rw [defStr] at e1
  rw [defBool] at e2
  rcases e with ⟨rfl, rfl⟩ | ⟨rfl, dd, e3, _, rfl⟩ <;> rcases e' with ⟨rfl, rfl⟩ | ⟨rfl, b, e4, rfl⟩
  · exact ⟨h1, e1, nofun, e2, nofun⟩
  · exact ⟨h1, e1, nofun, e2, fun _ => defInt.1 e4⟩
  · exact ⟨h1, e1, fun _ => reqDict.1 e3, e2, nofun⟩
  · exact ⟨h1, e1, fun _ => reqDict.1 e3, e2, fun _ => defInt.1 e4⟩

theorem loaded_rd {c4 c5 : Cfg K} (h : applyRd E j c4 = .ok c5) (hr : c4.readDisturb = true) : FromDocRd E j c5 := by
  rcases applyRd_inv h with ⟨h1, _⟩ | ⟨_, _, t, f, s, st, h1, h2, h3, h4, h5⟩
  · rw [hr] at h1
    cases h1
  rw [strategyOfName_iff] at h4
  rw [defStr, h4] at h3
  rw [reqNum] at h1
  rw [defNat] at h2
  rcases applyMitigation_inv h5 with ⟨e, rfl⟩ | ⟨e, f, e1, _, rfl⟩ | ⟨e, t, e1, _, _, rfl⟩
  · exact ⟨h1, h2, h3, fun e' => by simp_all, fun e' => by simp_all⟩
  · exact ⟨h1, h2, h3, fun _ => reqNum.1 e1, fun e' => by simp_all⟩
  · exact ⟨h1, h2, h3, fun e' => by simp_all, fun _ => reqNum.1 e1⟩

theorem loaded_analog (s : AnalogStages E j c c') : FromDocAnalog E j c' := by
  obtain ⟨hrs, lrs, a, ad, h1, h2, h3, h4, _, _, e1⟩ := applyStates_inv s.states
  obtain ⟨hn, ln, d2, c2, n1, n2, n3, n4, _, e3⟩ := applyNoise_inv s.noise
  rw [adcOfName_iff] at h4
  rw [reqStr, h4] at h3
  have p1 := s.statesPart
  have p2 := s.adcPart
  have p3 := s.noisePart
  have p4 := s.voltPart
  have p5 := s.rdPart
  simp only [Cfg.statesPart, Cfg.adcPart, Cfg.noisePart, Cfg.voltPart, Cfg.rdPart, Prod.mk.injEq] at p1 p2 p3 p4 p5
  obtain ⟨q1, q2, q3⟩ := p1
  obtain ⟨r1, r2, r3, r4, r5⟩ := p2
  obtain ⟨s1, s2, s3, s4⟩ := p3
  obtain ⟨⟨t1, t2⟩, -⟩ := p4
  obtain ⟨u1, u2, u3, u4, u5⟩ := p5
  have hA : s.c2.adcType = s.c1.adcType := via Cfg.adcType (applyAdc_frame s.adc) rfl
  obtain ⟨rd, par, v1, v2, v⟩ := applyVRead_inv s.vRead
  have w1 : s.c4.readDisturb = rd ∧ s.c4.parasitics = par := by
    rcases v with ⟨_, _, _, _, e⟩ | ⟨_, e⟩ <;> rw [e] <;> exact ⟨rfl, rfl⟩
  have w2 : s.c5.parasitics = s.c4.parasitics := via Cfg.parasitics (applyRd_frame s.rd) rfl
  refine ⟨?_, ?_, ?_, fun hi => ?_, ?_, ?_, ?_, ?_, ?_, fun hr => ?_, par, defBool.1 v2, ?_⟩
  · rw [q1, e1]; exact reqNum.1 h1
  · rw [q2, e1]; exact reqNum.1 h2
  · rw [q3, e1]; exact h3
  · obtain ⟨a1, a2, a3, a4, a5⟩ := loaded_adc s.adc (by rw [hA, ← q3]; exact hi)
    exact ⟨by rw [r1]; exact a1, by rw [r2]; exact a2, by rw [r2, r3]; exact a3, by rw [r4]; exact a4,
      by rw [r4, r5]; exact a5⟩
  · rw [s1, e3]; exact reqNum.1 n1
  · rw [s2, e3]; exact reqNum.1 n2
  · rw [s3, e3]; exact defBool.1 n3
  · rw [s4, e3]; exact defBool.1 n4
  · rw [t1, w1.1]; exact defBool.1 v1
  · obtain ⟨a1, a2, a3, a4, a5⟩ := loaded_rd s.rd (by rw [← t1]; exact hr)
    exact ⟨by rw [u1]; exact a1, by rw [u2]; exact a2, by rw [u3]; exact a3, by rw [u3, u4]; exact a4,
      by rw [u3, u5]; exact a5⟩
  · have hv : par = true ∨ c'.readDisturb = true → Gives j "V_read" (NumIs E) c'.vRead ∧ c'.vRead < 0 := fun h => by
      rcases v with ⟨_, y, y1, y2, e⟩ | ⟨hn, _⟩
      · have : c'.vRead = y := by rw [t2, e]
        rw [this]
        exact ⟨reqNum.1 y1, y2⟩
      · rw [t1, w1.1] at h
        rw [Bool.or_eq_false_iff] at hn
        simp [hn.1, hn.2] at h
    rcases applyPar_inv s.par with ⟨hp, e⟩ | ⟨hp, y, y1, e⟩
    · rw [w2, w1.2] at hp
      refine ⟨fun h => (by rw [hp] at h; cases h), ?_, hv⟩
      rw [e, w2, w1.2, hp]
      simp
    · rw [w2, w1.2] at hp
      refine ⟨fun _ => by rw [e]; exact reqNum.1 y1, ?_, hv⟩
      rw [e, hp]
      simp

theorem loaded_of (h : applyConfig E j c = .ok c') : FromDoc E j c' := by
  obtain ⟨s⟩ := applyConfig_inv h
  obtain ⟨m, n, h1, h2, _, _, e1⟩ := applyDims_inv s.dims
  obtain ⟨nm, md, h3, h4, e2⟩ := applyMode_inv s.mode
  rw [modeOfName_iff] at h4
  rw [reqStr, h4] at h3
  have hverb : c'.verbose = s.verb := via Cfg.verbose s.out rfl
  have hmode' : c'.mode = s.c3.mode := via Cfg.mode s.tail rfl
  have hb : (c'.mode.family = .int ∨ c'.mode = .tnn4 ∨ c'.mode = .tnn5 → Gives j "W_BIT" NatIs c'.wBit) ∧
      (c'.mode.family = .int → Gives j "I_BIT" NatIs c'.iBit) ∧
      (c'.mode.family = .int ∨ c'.mode = .tnn4 ∨ c'.mode = .tnn5 → Gives j "SPLIT" NatsAre c'.split) := by
    rw [s.bitsEq.1, s.bitsEq.2.1, s.bitsEq.2.2, hmode', ← isInt_iff]
    rcases applyBits_inv s.bits with ⟨hi, w, i, l, b1, b2, b3, _, _, e⟩ | ⟨ht, b1, b2, e⟩ | ⟨hi, ht, e⟩
    · rw [e]
      exact ⟨fun _ => reqNat.1 b1, fun _ => reqNat.1 b2, fun _ => reqNats.1 b3⟩
    · rw [e]
      exact ⟨fun _ => reqNat.1 b1, fun hh => (by rcases ht with ht | ht <;> rw [ht] at hh <;> cases hh),
        fun _ => reqNats.1 b2⟩
    · rw [hi]
      exact ⟨fun hh => absurd (hh.resolve_left nofun) ht, nofun, fun hh => absurd (hh.resolve_left nofun) ht⟩
  have hdig : c'.digitalOnly = s.dig := by
    rcases s.split with ⟨hd, hd', _⟩ | ⟨hd, hd', _⟩ <;> rw [hd, hd']
  refine ⟨?_, ?_, ?_, ?_, ?_, fun ha => ?_, hb.1, hb.2.1, hb.2.2⟩
  · rw [s.dimsEq.1, e1]; exact reqNat.1 h1
  · rw [s.dimsEq.2, e1]; exact reqNat.1 h2
  · rw [s.modeEq, e2]; exact h3
  · rw [hdig]; exact reqBool.1 s.digital
  · rw [hverb]; exact reqBool.1 s.verbose
  · rcases s.split with ⟨hd, _⟩ | ⟨_, _, ⟨a⟩⟩
    · rw [hd] at ha
      cases ha
    · have L := loaded_analog a
      have A := s.analogEq
      have p1 := A.states
      have p2 := A.adc
      have p3 := A.noise
      have p4 := A.volt
      have p5 := A.rd
      have p6 := A.par
      simp only [Cfg.statesPart, Cfg.adcPart, Cfg.noisePart, Cfg.voltPart, Cfg.rdPart, Prod.mk.injEq] at p1 p2 p3 p4 p5
      obtain ⟨q1, q2, q3⟩ := p1
      obtain ⟨r1, r2, r3, r4, r5⟩ := p2
      obtain ⟨s1, s2, s3, s4⟩ := p3
      obtain ⟨t1, t2⟩ := p4
      obtain ⟨u1, u2, u3, u4, u5⟩ := p5
      obtain ⟨b1, b2, b3, b4, b5, b6, b7, b8, b9, b10, b11⟩ := L
      rw [← q1] at b1
      rw [← q2] at b2
      rw [← q3] at b3 b4
      rw [← s1] at b5
      rw [← s2] at b6
      rw [← s3] at b7
      rw [← s4] at b8
      rw [← t1] at b9 b10
      rw [← p6.1, ← p6.2, ← t1, ← t2] at b11
      refine ⟨b1, b2, b3, fun h => ?_, b5, b6, b7, b8, b9, fun h => ?_, b11⟩
      · obtain ⟨a1, a2, a3, a4, a5⟩ := b4 h
        exact ⟨by rw [r1]; exact a1, by rw [r2]; exact a2, by rw [r2, r3]; exact a3, by rw [r4]; exact a4,
          by rw [r4, r5]; exact a5⟩
      · obtain ⟨a1, a2, a3, a4, a5⟩ := b10 h
        exact ⟨by rw [u1]; exact a1, by rw [u2]; exact a2, by rw [u3]; exact a3, by rw [u3, u4]; exact a4,
          by rw [u3, u5]; exact a5⟩

/-! ## A document that is accepted -/

variable {d : Cfg K}

theorem exitIf_not {p : Prop} [Decidable p] (h : ¬p) : exitIf p = .ok () := if_neg h

theorem adcAllowed_of {md : Mode} {a : AdcType}
    (h : a = .inf ∨ (a = .sym ∧ signedCurrents md) ∨ (a = .pos ∧ ¬signedCurrents md)) : adcAllowed md a = true := by
  cases md <;> cases a <;> simp_all [adcAllowed, signedCurrents]

theorem applyDims_of (F : FromDoc E j d) (h : Admissible d) : ∃ c', applyDims j c = .ok c' := by
  unfold applyDims
  rw [reqNat.2 F.M, ok_bind, reqNat.2 F.N, ok_bind, exitIf_not (by have := h.1; have := h.2.1; omega), ok_bind]
  exact ⟨_, rfl⟩

theorem applyMode_of (F : FromDoc E j d) : applyMode j c = .ok { c with mode := d.mode } := by
  unfold applyMode
  rw [reqStr.2 F.mode, ok_bind, modeOfName_iff.2 rfl]

theorem applyStates_of (F : FromDocAnalog E j d) (h : AnalogOk d) :
    applyStates E j c = .ok { c with hrs := d.hrs, lrs := d.lrs, adcType := d.adcType } := by
  unfold applyStates
  rw [reqNum.2 F.hrs, ok_bind, reqNum.2 F.lrs, ok_bind, reqStr.2 F.adcType, ok_bind, adcOfName_iff.2 rfl]
  dsimp only
  rw [exitIf_not (by rw [not_or, not_le, not_le]; exact h.states), ok_bind]

theorem applyAdc_of (F : FromDocAnalog E j d) (h : AnalogOk d) (ht : c.adcType = d.adcType)
    (hr : d.adcType ≠ .inf → c.resolution ≠ -1) : ∃ c', applyAdc E j c = .ok c' := by
  unfold applyAdc
  rw [ht]
  split
  · exact ⟨_, rfl⟩
  · next hi =>
    have G := F.adc hi
    rw [exitIf_not (hr hi), ok_bind, reqInt.2 G.resolution, ok_bind]
    have hc : ∀ c : Cfg K, ∃ c', applyCalib E j c = .ok c' := fun c => by
      unfold applyCalib
      rw [defStr.2 G.calib, ok_bind]
      cases hm : d.calibMode
      · exact ⟨_, if_pos rfl⟩
      · rw [if_neg (by decide), if_pos (show calibName .calib = "CALIB" from rfl), reqDict.2 (G.dict hm), ok_bind,
          exitIf_not (by rw [List.isEmpty_iff]; exact h.calib hi hm), ok_bind]
        exact ⟨_, rfl⟩
    obtain ⟨c', e⟩ := hc { c with adcType := d.adcType, resolution := d.resolution }
    rw [e, ok_bind]
    unfold applyProfile
    rw [defBool.2 G.profile, ok_bind]
    cases hp : d.adcProfile
    · exact ⟨_, rfl⟩
    · rw [if_pos rfl, defInt.2 (G.bin hp), ok_bind]
      exact ⟨_, rfl⟩

theorem applyNoise_of (F : FromDocAnalog E j d) (h : AnalogOk d) (hm : c.mode = d.mode) :
    ∃ c', applyNoise E j c = .ok c' := by
  unfold applyNoise
  rw [reqNum.2 F.hrsNoise, ok_bind, reqNum.2 F.lrsNoise, ok_bind, defBool.2 F.d2d, ok_bind, defBool.2 F.c2c, ok_bind,
    exitIf_not, ok_bind]
  · exact ⟨_, rfl⟩
  · rw [hm, Bool.and_eq_true, Bool.and_eq_true, isInt_iff]
    exact fun e => h.variability e.1 e.2

theorem applyVRead_of (F : FromDocAnalog E j d) {p : Bool} (hp : GivesOr j "parasitics" Truth BoolIs false p)
    (hv : p = true ∨ d.readDisturb = true → Gives j "V_read" (NumIs E) d.vRead ∧ d.vRead < 0) :
    ∃ c', applyVRead E j c = .ok c' ∧ c'.readDisturb = d.readDisturb ∧ c'.parasitics = p := by
  unfold applyVRead
  rw [defBool.2 F.readDisturb, ok_bind, defBool.2 hp, ok_bind]
  split
  · next h =>
    rw [Bool.or_eq_true] at h
    obtain ⟨h1, h2⟩ := hv h
    rw [reqNum.2 h1, ok_bind, exitIf_not (not_le.2 h2), ok_bind]
    exact ⟨_, rfl, rfl, rfl⟩
  · exact ⟨_, rfl, rfl, rfl⟩

theorem applyRd_of (F : FromDocAnalog E j d) (h : AnalogOk d) (hr : c.readDisturb = d.readDisturb)
    (hm : c.mode = d.mode) : ∃ c', applyRd E j c = .ok c' := by
  unfold applyRd
  rw [hr]
  split
  · next hd =>
    have G := F.rd hd
    rw [exitIf_not, ok_bind, reqNum.2 G.tRead, ok_bind, defNat.2 G.freq, ok_bind, defStr.2 G.strategy, ok_bind,
      strategyOfName_iff.2 rfl]
    · unfold applyMitigation
      cases hs : d.strategy
      · exact ⟨_, rfl⟩
      · dsimp only
        rw [reqNum.2 (G.fp hs), ok_bind, exitIf_not (not_lt.2 (h.software hd hs)), ok_bind]
        exact ⟨_, rfl⟩
      · dsimp only
        rw [reqNum.2 (G.tol hs), ok_bind, exitIf_not, ok_bind]
        · exact ⟨_, rfl⟩
        · rw [not_or, not_lt, gt_iff_lt, not_lt]
          exact h.cell hd hs
    · rw [hm, isInt_iff]
      exact h.family hd
  · exact ⟨_, rfl⟩

theorem applyPar_of {p : Bool} (hp : c.parasitics = p) (hw : p = true → Gives j "w_res" (NumIs E) d.wRes) :
    ∃ c', applyPar E j c = .ok c' := by
  unfold applyPar
  rw [hp]
  split
  · next h =>
    rw [reqNum.2 (hw h), ok_bind]
    exact ⟨_, rfl⟩
  · exact ⟨_, rfl⟩

theorem applyAnalog_of (F : FromDocAnalog E j d) (h : AnalogOk d) (hm : c.mode = d.mode)
    (hr : d.adcType ≠ .inf → c.resolution ≠ -1) : ∃ c', applyAnalog E j c = .ok c' := by
  obtain ⟨p, p1, p2, -, p4⟩ := F.par
  unfold applyAnalog
  rw [applyStates_of F h, ok_bind]
  obtain ⟨c2, e2⟩ := applyAdc_of (c := { c with hrs := d.hrs, lrs := d.lrs, adcType := d.adcType }) F h rfl hr
  rw [e2, ok_bind]
  have t2 : c2.adcType = d.adcType := via Cfg.adcType (applyAdc_frame e2) rfl
  have m2 : c2.mode = d.mode := (via Cfg.mode (applyAdc_frame e2) rfl : c2.mode = c.mode).trans hm
  rw [exitIf_not, ok_bind]
  · obtain ⟨c3, e3⟩ := applyNoise_of (c := c2) F h m2
    rw [e3, ok_bind]
    have m3 : c3.mode = d.mode := (via Cfg.mode (applyNoise_frame e3) rfl : c3.mode = c2.mode).trans m2
    obtain ⟨c4, e4, r4, w4⟩ := applyVRead_of (c := c3) F p1 p4
    rw [e4, ok_bind]
    have m4 : c4.mode = d.mode := (via Cfg.mode (applyVRead_frame e4) rfl : c4.mode = c3.mode).trans m3
    obtain ⟨c5, e5⟩ := applyRd_of (c := c4) F h r4 m4
    rw [e5, ok_bind]
    exact applyPar_of ((via Cfg.parasitics (applyRd_frame e5) rfl : c5.parasitics = c4.parasitics).trans w4) p2
  · rw [t2, m2, adcAllowed_of h.adc]
    decide

theorem applyBits_of (F : FromDoc E j d) (h : BitsOk d) (hm : c.mode = d.mode) : ∃ c', applyBits j c = .ok c' := by
  unfold applyBits
  rw [hm]
  split
  · next hi =>
    have hi' := isInt_iff.1 hi
    rw [reqNat.2 (F.wBit (.inl hi')), ok_bind, reqNat.2 (F.iBit hi'), ok_bind, reqNats.2 (F.split (.inl hi')), ok_bind,
      exitIf_not (by have := h.1 hi'; omega), ok_bind]
    exact ⟨_, rfl⟩
  · split
    · next ht =>
      rw [reqNat.2 (F.wBit (.inr ht)), ok_bind, reqNats.2 (F.split (.inr ht)), ok_bind,
        exitIf_not (not_not.2 (h.2.1 ht).1), ok_bind, exitIf_not (not_not.2 (h.2.1 ht).2), ok_bind]
      exact ⟨_, rfl⟩
    · exact ⟨_, rfl⟩

theorem accepted_of (F : FromDoc E j d) (h : Admissible d)
    (hr : d.digitalOnly = false → d.adcType ≠ .inf → c.resolution ≠ -1) : ∃ c', applyConfig E j c = .ok c' := by
  unfold applyConfig
  obtain ⟨c1, e1⟩ := applyDims_of (c := c) F h
  have r1 : c1.resolution = c.resolution := by
    obtain ⟨_, _, _, _, _, _, e⟩ := applyDims_inv e1
    rw [e]
  rw [e1, ok_bind, applyMode_of F, ok_bind, reqBool.2 F.digital, ok_bind]
  cases hd : d.digitalOnly
  · simp only [Bool.false_eq_true, if_false]
    obtain ⟨c3, e3⟩ := applyAnalog_of (c := { c1 with mode := d.mode, digitalOnly := false }) (F.analog hd)
      (h.2.2.2 hd) rfl (by dsimp only; rw [r1]; exact hr hd)
    rw [e3, ok_bind]
    obtain ⟨a⟩ := applyAnalog_inv e3
    have m3 : c3.mode = d.mode := by
      have := a.digitalPart
      simp only [Cfg.digitalPart, Prod.mk.injEq] at this
      exact this.2.2.1
    obtain ⟨c4, e4⟩ := applyBits_of (c := c3) F h.2.2.1 m3
    rw [e4, ok_bind, reqBool.2 F.verbose, ok_bind]
    exact ⟨_, rfl⟩
  · simp only [if_true, ok_bind]
    obtain ⟨c4, e4⟩ := applyBits_of (c := { c1 with mode := d.mode, digitalOnly := true }) F h.2.2.1 rfl
    rw [e4, ok_bind, reqBool.2 F.verbose, ok_bind]
    exact ⟨_, rfl⟩

/-- The test on the previous resolution. -/
theorem resolution_of (h : applyConfig E j c = .ok c') (hd : c'.digitalOnly = false) (hi : c'.adcType ≠ .inf) :
    c.resolution ≠ -1 := by
  obtain ⟨s⟩ := applyConfig_inv h
  rcases s.split with ⟨hd', _⟩ | ⟨_, _, ⟨a⟩⟩
  · rw [hd] at hd'
    cases hd'
  have A := s.analogEq.states
  have B := a.statesPart
  simp only [Cfg.statesPart, Prod.mk.injEq] at A B
  obtain ⟨_, _, _, _, _, _, _, _, _, _, e1⟩ := applyStates_inv a.states
  rcases applyAdc_inv a.adc with ⟨h1, _⟩ | ⟨_, h1, _⟩
  · exact absurd (A.2.2.trans (B.2.2.trans h1)) hi
  · have h2 : a.c1.resolution = s.c2.resolution := by rw [e1]
    have P := s.preAnalog.adc
    simp only [Cfg.adcPart, Prod.mk.injEq] at P
    rw [h2, P.1] at h1
    exact h1

/-! ## How a document is refused -/

/-- Faults of `apply_config`: the program ends, or a number does not fit its type. -/
def Refuses (f : Fault) : Prop := f = .exited ∨ f = .badCast

theorem refuse_getReq {α : Type} {key : String} {get : Json K → C α}
    (h : ∀ v, Sat (fun f => f = .thrown ∨ f = .badCast) (get v) fun _ => True) :
    Sat Refuses (getReq j key get) fun _ => True := by
  unfold getReq
  split
  · exact .inl rfl
  · next v _ =>
    have := h v
    cases hg : get v with
    | ok a => trivial
    | error e =>
      rw [hg] at this
      rcases this with rfl | rfl
      · exact .inl rfl
      · exact .inr rfl

theorem refuse_getDef {α : Type} {key : String} {get : Json K → C α} {d : α}
    (h : ∀ v, Sat (fun f => f = .thrown ∨ f = .badCast) (get v) fun _ => True) :
    Sat Refuses (getDef j key get d) fun _ => True := by
  unfold getDef
  split
  · trivial
  · next v _ =>
    have := h v
    cases hg : get v with
    | ok a => trivial
    | error e =>
      rw [hg] at this
      rcases this with rfl | rfl
      · trivial
      · exact .inr rfl

/-- Faults of the conversions of JSON values. -/
def CastFault (f : Fault) : Prop := f = .thrown ∨ f = .badCast

theorem cast_u32 (v : Json K) : Sat CastFault v.asU32 fun _ => True := by
  unfold Json.asU32
  split
  · trivial
  · trivial
  · split
    · trivial
    · exact .inr rfl
  · exact .inl rfl

theorem cast_i32 (v : Json K) : Sat CastFault v.asI32 fun _ => True := by
  unfold Json.asI32 toI32
  split
  · trivial
  · trivial
  · split
    · trivial
    · exact .inr rfl
  · exact .inl rfl

theorem cast_f32 (v : Json K) : Sat CastFault (v.asF32 E) fun _ => True := by
  unfold Json.asF32
  split
  · trivial
  · trivial
  · trivial
  · exact .inl rfl

theorem cast_bool (v : Json K) : Sat CastFault v.asBool fun _ => True := by
  unfold Json.asBool
  split
  · trivial
  · exact .inl rfl

theorem cast_str (v : Json K) : Sat CastFault v.asStr fun _ => True := by
  unfold Json.asStr
  split
  · trivial
  · exact .inl rfl

theorem cast_list {α β : Type} {f : α → C β} (h : ∀ a, Sat CastFault (f a) fun _ => True) :
    ∀ l : List α, Sat CastFault (l.mapM f) fun _ => True
  | [] => trivial
  | a :: l => by
    rw [List.mapM_cons]
    exact (h a).bind fun _ _ => (cast_list h l).bind fun _ _ => trivial

theorem cast_u32s (v : Json K) : Sat CastFault v.asU32s fun _ => True := by
  unfold Json.asU32s
  split
  · exact cast_list cast_u32 _
  · exact .inl rfl

theorem cast_dict (v : Json K) : Sat CastFault (v.asDict E) fun _ => True := by
  unfold Json.asDict
  split
  · refine cast_list (fun p => Sat.bind (P := fun _ => True) ?_ fun _ _ => Sat.ok True.intro) _
    unfold Json.asPair
    split
    · exact (cast_f32 _).bind fun _ _ => (cast_f32 _).bind fun _ _ => trivial
    · exact .inl rfl
  · exact .inl rfl

theorem refuse_exitIf {p : Prop} [Decidable p] : Sat Refuses (exitIf p) fun _ => True := by
  unfold exitIf
  split
  · exact .inl rfl
  · trivial

theorem refuse_analog : Sat Refuses (applyAnalog E j c) fun _ => True := by
  unfold applyAnalog applyStates
  refine Sat.bind (P := fun _ => True) ((refuse_getReq cast_f32).bind fun _ _ => (refuse_getReq cast_f32).bind fun _ _ =>
    (refuse_getReq cast_str).bind fun s _ => ?_) fun c _ => Sat.bind (P := fun _ => True) ?_ fun c _ =>
    refuse_exitIf.bind fun _ _ => Sat.bind (P := fun _ => True) ?_ fun c _ => Sat.bind (P := fun _ => True) ?_ fun c _ =>
    Sat.bind (P := fun _ => True) ?_ fun c _ => ?_
  · split
    · exact .inl rfl
    · exact refuse_exitIf.bind fun _ _ => trivial
  · unfold applyAdc applyCalib applyProfile
    split
    · trivial
    refine refuse_exitIf.bind fun _ _ => (refuse_getReq cast_i32).bind fun _ _ => Sat.bind (P := fun _ => True)
      ((refuse_getDef cast_str).bind fun s _ => ?_) fun c _ => (refuse_getDef cast_bool).bind fun p _ => ?_
    · split
      · trivial
      split
      · exact (refuse_getReq cast_dict).bind fun _ _ => refuse_exitIf.bind fun _ _ => trivial
      · exact .inl rfl
    · split
      · exact (refuse_getDef cast_i32).bind fun _ _ => trivial
      · trivial
  · unfold applyNoise
    exact (refuse_getReq cast_f32).bind fun _ _ => (refuse_getReq cast_f32).bind fun _ _ =>
      (refuse_getDef cast_bool).bind fun _ _ => (refuse_getDef cast_bool).bind fun _ _ =>
      refuse_exitIf.bind fun _ _ => trivial
  · unfold applyVRead
    refine (refuse_getDef cast_bool).bind fun _ _ => (refuse_getDef cast_bool).bind fun _ _ => ?_
    split
    · exact (refuse_getReq cast_f32).bind fun _ _ => refuse_exitIf.bind fun _ _ => trivial
    · trivial
  · unfold applyRd
    split
    · refine refuse_exitIf.bind fun _ _ => (refuse_getReq cast_f32).bind fun _ _ =>
        (refuse_getDef cast_u32).bind fun _ _ => (refuse_getDef cast_str).bind fun s _ => ?_
      split
      · exact .inl rfl
      · unfold applyMitigation
        split
        · exact (refuse_getReq cast_f32).bind fun _ _ => refuse_exitIf.bind fun _ _ => trivial
        · exact (refuse_getReq cast_f32).bind fun _ _ => refuse_exitIf.bind fun _ _ => trivial
        · trivial
    · trivial
  · unfold applyPar
    split
    · exact (refuse_getReq cast_f32).bind fun _ _ => trivial
    · trivial

theorem refuse_apply : Sat Refuses (applyConfig E j c) fun _ => True := by
  unfold applyConfig
  refine Sat.bind (P := fun _ => True) ?_ fun c _ => Sat.bind (P := fun _ => True) ?_ fun c _ =>
    (refuse_getReq cast_bool).bind fun d _ => Sat.bind (P := fun _ => True) ?_ fun c _ =>
    Sat.bind (P := fun _ => True) ?_ fun c _ => (refuse_getReq cast_bool).bind fun _ _ => trivial
  · unfold applyDims
    exact (refuse_getReq cast_u32).bind fun _ _ => (refuse_getReq cast_u32).bind fun _ _ =>
      refuse_exitIf.bind fun _ _ => trivial
  · unfold applyMode
    refine (refuse_getReq cast_str).bind fun s _ => ?_
    split
    · exact .inl rfl
    · trivial
  · split
    · trivial
    · exact refuse_analog
  · unfold applyBits
    split
    · exact (refuse_getReq cast_u32).bind fun _ _ => (refuse_getReq cast_u32).bind fun _ _ =>
        (refuse_getReq cast_u32s).bind fun _ _ => refuse_exitIf.bind fun _ _ => trivial
    split
    · exact (refuse_getReq cast_u32).bind fun _ _ => (refuse_getReq cast_u32s).bind fun _ _ =>
        refuse_exitIf.bind fun _ _ => refuse_exitIf.bind fun _ _ => trivial
    · trivial

/-! ## The configuration in use -/

variable {w w' : World K}

theorem after_data {c : Call K} (h : after E w c = .ok w') :
    (w'.cfg = w.cfg ∧ w'.data = w.data) ∨ ∃ c, applyConfig E w'.data c = .ok w'.cfg := by
  have hu : ∀ {d : Doc K} {q : World K × Int}, updateConfig E d w = .ok q →
      (q.1.cfg = w.cfg ∧ q.1.data = w.data) ∨ ∃ c, applyConfig E q.1.data c = .ok q.1.cfg := fun {d q} hu => by
    rcases updateConfig_inv (w' := q.1) (z := q.2) hu with ⟨e, _⟩ | ⟨x, j, r, hx, _, _, hq, h2⟩
    · rw [e]
      exact .inl ⟨rfl, rfl⟩
    · obtain ⟨_, _, _, a4, a5, _⟩ := updateCfg_agree hq
      have e : q.1.cfg = r.1.cfg ∧ q.1.data = r.1.data := by
        rcases h2 with ⟨_, _, _, _, _, _, h6, h7⟩ | ⟨_, e⟩
        · exact ⟨h6, h7⟩
        · rw [e]
          exact ⟨rfl, rfl⟩
      rw [e.1, e.2]
      cases hm : r.2.1
      · rw [a5 hm]
        exact .inl ⟨rfl, rfl⟩
      · exact .inr ⟨_, a4 hm⟩
  cases c with
  | setConfig f =>
    obtain ⟨_, x, _, _, h4⟩ := setConfig_inv h
    rcases h4 with ⟨_, h5, h6⟩ | ⟨j, _, h5, h6⟩
    · exact .inl ⟨h5, h6⟩
    · rw [h5]
      exact .inr ⟨_, h6⟩
  | update d =>
    simp only [after] at h
    cases hq : updateConfig E d w with
    | error e => rw [hq] at h; cases h
    | ok q => rw [hq] at h; cases h; exact hu hq
  | updatePb d =>
    simp only [after, updateConfigPb] at h
    cases d with
    | none => cases h; exact .inl ⟨rfl, rfl⟩
    | some d =>
      rw [rbind_ok] at h
      obtain ⟨q, hq, h⟩ := h
      cases h
      exact hu hq
  | write mat m n =>
    simp only [after] at h
    cases hu : cpyMtrx E mat m n w with
    | error e => rw [hu] at h; cases h
    | ok q =>
      rw [hu] at h
      cases h
      rcases cpyMtrx_inv (w' := q.1) (z := q.2) hu with ⟨h1, _⟩ | ⟨x, x', _, _, _, _, h3⟩
      · rw [h1]; exact .inl ⟨rfl, rfl⟩
      · rw [h3]; exact .inl ⟨rfl, rfl⟩
  | mvm res vec mat m n l =>
    simp only [after] at h
    cases hu : exeMvm E res vec mat m n l w with
    | error e => rw [hu] at h; cases h
    | ok q =>
      rw [hu] at h
      cases h
      rcases exeMvm_inv (w' := q.1) (r := q.2.1) (z := q.2.2) hu with ⟨h1, _⟩ | ⟨x, x', _, _, _, _, h3⟩
      · rw [h1]; exact .inl ⟨rfl, rfl⟩
      · rw [h3]; exact .inl ⟨rfl, rfl⟩
  | mvmPb res vec mat m n =>
    simp only [after] at h
    cases hu : exeMvmPb E res vec mat m n w with
    | error e => rw [hu] at h; cases h
    | ok q =>
      rw [hu] at h
      cases h
      obtain ⟨x, x', _, _, _, h3⟩ := exeMvmPb_inv (w' := q.1) (r := q.2.1) (z := q.2.2) hu
      rw [h3]; exact .inl ⟨rfl, rfl⟩

end

end Acs
