import Verif.SpecUpdate
import Verif.Lemmas.Load
import Verif.Lemmas.AdcQuant

/-!
# Values that compare equal are read alike
-/

namespace Acs

open Spec

variable {K : Type} [Field K] [LinearOrder K] [IsStrictOrderedRing K] [FloorRing K]
variable {E : Env K} {a b : Json K}

theorem cut_int {z x : Int} : Cut (z : K) x ↔ x = z := by
  rw [← truncZ_iff, truncZ_int]
  exact eq_comm

theorem sameInt_eq {x y : Int} (h : sameInt x y = true)
    (hc : (-9223372036854775808 ≤ x ∧ x < 9223372036854775808) ∧
      -9223372036854775808 ≤ y ∧ y < 9223372036854775808) : x = y := by
  unfold sameInt at h
  have := beq_iff_eq.1 h
  omega

/-- The cases of an equal comparison of two values that are no containers. -/
theorem same_cases (hE : DoubleInts E) (h : a.same E b = true) (hc : Clear a b) :
    a = b ∨ (∃ z : Int, (0 ≤ z ∧ z < 2147483648) ∧
      ((a = .int z ∧ b = .num (z : K)) ∨ (a = .num (z : K) ∧ b = .int z))) ∨
    (∃ x y, a = .arr x ∧ b = .arr y ∧ Json.sameList E x y = true ∧ ClearList x y) ∨
    ∃ x y, a = .obj x ∧ b = .obj y ∧ Json.sameObj E x y = true ∧ ClearObj x y := by
  cases a <;> cases b <;> simp only [Json.same, Bool.false_eq_true] at h <;> simp only [Clear] at hc
  case null.null => exact .inl rfl
  case bool.bool => rw [beq_iff_eq.1 h]; exact .inl rfl
  case int.int => rw [sameInt_eq h hc]; exact .inl rfl
  case int.num z k =>
    have := of_decide_eq_true h
    rw [hE z hc.1 hc.2] at this
    exact .inr (.inl ⟨z, hc, .inl ⟨rfl, by rw [this]⟩⟩)
  case num.int k z =>
    have := of_decide_eq_true h
    rw [hE z hc.1 hc.2] at this
    exact .inr (.inl ⟨z, hc, .inr ⟨by rw [this], rfl⟩⟩)
  case num.num => rw [of_decide_eq_true h]; exact .inl rfl
  case str.str => rw [beq_iff_eq.1 h]; exact .inl rfl
  case arr.arr x y => exact .inr (.inr (.inl ⟨x, y, rfl, rfl, h, hc⟩))
  case obj.obj x y => exact .inr (.inr (.inr ⟨x, y, rfl, rfl, h, hc⟩))

theorem natIs_same (hE : DoubleInts E) (h : a.same E b = true) (hc : Clear a b) {n : Nat} (hn : NatIs a n) :
    NatIs b n := by
  rcases same_cases hE h hc with rfl | ⟨z, hz, ⟨rfl, rfl⟩ | ⟨rfl, rfl⟩⟩ | ⟨x, y, rfl, rfl, _⟩ | ⟨x, y, rfl, rfl, _⟩
  · exact hn
  · refine ⟨hn.1, cut_int.2 ?_⟩
    have := hn.1
    obtain ⟨q, hq⟩ : (4294967296 : Int) ∣ z - n := hn.2
    omega
  · refine ⟨hn.1, ?_⟩
    have := cut_int.1 hn.2
    show (4294967296 : Int) ∣ z - n
    rw [this, sub_self]
    exact dvd_zero _
  · exact hn.2.elim
  · exact hn.2.elim

theorem intIs_same (hE : DoubleInts E) (h : a.same E b = true) (hc : Clear a b) {n : Int} (hn : IntIs a n) :
    IntIs b n := by
  rcases same_cases hE h hc with rfl | ⟨z, hz, ⟨rfl, rfl⟩ | ⟨rfl, rfl⟩⟩ | ⟨x, y, rfl, rfl, _⟩ | ⟨x, y, rfl, rfl, _⟩
  · exact hn
  · refine ⟨hn.1, cut_int.2 ?_⟩
    have := hn.1
    obtain ⟨q, hq⟩ : (4294967296 : Int) ∣ z - n := hn.2
    omega
  · refine ⟨hn.1, ?_⟩
    have := cut_int.1 hn.2
    show (4294967296 : Int) ∣ z - n
    rw [this, sub_self]
    exact dvd_zero _
  · exact hn.2.elim
  · exact hn.2.elim

theorem numIs_same (hE : DoubleInts E) (h : a.same E b = true) (hc : Clear a b) {x : K} (hn : NumIs E a x) :
    NumIs E b x := by
  rcases same_cases hE h hc with rfl | ⟨z, hz, ⟨rfl, rfl⟩ | ⟨rfl, rfl⟩⟩ | ⟨x, y, rfl, rfl, _⟩ | ⟨x, y, rfl, rfl, _⟩
  · exact hn
  · exact hn
  · exact hn
  · exact hn.elim
  · exact hn.elim

theorem boolIs_same (h : a.same E b = true) {x : Bool} (hn : BoolIs a x) : BoolIs b x := by
  cases hn
  cases b <;> simp only [Json.same, Bool.false_eq_true] at h
  rw [beq_iff_eq.1 h]
  exact rfl

theorem strIs_same (h : a.same E b = true) {x : String} (hn : StrIs a x) : StrIs b x := by
  cases hn
  cases b <;> simp only [Json.same, Bool.false_eq_true] at h
  rw [beq_iff_eq.1 h]
  exact rfl

theorem natList_same (hE : DoubleInts E) : ∀ {x y : List (Json K)} {l : List Nat}, Json.sameList E x y = true →
    ClearList x y → List.Forall₂ NatIs x l → List.Forall₂ NatIs y l
  | [], [], _, _, _, hn => hn
  | [], _ :: _, _, h, _, _ => by simp only [Json.sameList, Bool.false_eq_true] at h
  | _ :: _, [], _, h, _, _ => by simp only [Json.sameList, Bool.false_eq_true] at h
  | a :: as, b :: bs, _, h, hc, hn => by
    simp only [Json.sameList, Bool.and_eq_true] at h
    simp only [ClearList] at hc
    cases hn with
    | cons h1 h2 => exact .cons (natIs_same hE h.1 hc.1 h1) (natList_same hE h.2 hc.2 h2)

theorem natsAre_same (hE : DoubleInts E) (h : a.same E b = true) (hc : Clear a b) {l : List Nat}
    (hn : NatsAre a l) : NatsAre b l := by
  obtain ⟨x, rfl, hn⟩ := hn
  cases b <;> simp only [Json.same, Bool.false_eq_true] at h
  next y => exact ⟨y, rfl, natList_same hE h (by simpa only [Clear] using hc) hn⟩

theorem pair_same (hE : DoubleInts E) {u v : Json K} {r : List (Json K)} {p q : K} 
    (h : (Json.arr (u :: v :: r)).same E b = true) (hc : Clear (.arr (u :: v :: r)) b) (hu : NumIs E u p)
    (hv : NumIs E v q) : ∃ u' v' r', b = .arr (u' :: v' :: r') ∧ NumIs E u' p ∧ NumIs E v' q := by
  cases b <;> simp only [Json.same, Bool.false_eq_true] at h
  next y =>
    simp only [Clear] at hc
    match y, h, hc with
    | [], h, _ => simp only [Json.sameList, Bool.false_eq_true] at h
    | [_], h, _ => simp only [Json.sameList, Bool.and_false, Bool.false_eq_true] at h
    | u' :: v' :: r', h, hc =>
      simp only [Json.sameList, Bool.and_eq_true] at h
      simp only [ClearList] at hc
      exact ⟨u', v', r', rfl, numIs_same hE h.1 hc.1 hu, numIs_same hE h.2.1 hc.2.1 hv⟩

theorem dictList_same (hE : DoubleInts E) : ∀ {x y : List (String × Json K)} {l : List (String × (K × K))},
    Json.sameObj E x y = true → ClearObj x y →
    List.Forall₂ (fun p q => q.1 = p.1 ∧
      ∃ a b r, p.2 = .arr (a :: b :: r) ∧ NumIs E a q.2.1 ∧ NumIs E b q.2.2) x l →
    List.Forall₂ (fun p q => q.1 = p.1 ∧
      ∃ a b r, p.2 = .arr (a :: b :: r) ∧ NumIs E a q.2.1 ∧ NumIs E b q.2.2) y l
  | [], [], _, _, _, hn => hn
  | [], _ :: _, _, h, _, _ => by simp only [Json.sameObj, Bool.false_eq_true] at h
  | _ :: _, [], _, h, _, _ => by simp only [Json.sameObj, Bool.false_eq_true] at h
  | (k, a) :: as, (k', b) :: bs, _, h, hc, hn => by
    simp only [Json.sameObj, Bool.and_eq_true] at h
    simp only [ClearObj] at hc
    cases hn with
    | cons h1 h2 =>
      obtain ⟨e, u, v, r, rfl, hu, hv⟩ := h1
      exact .cons ⟨e.trans (beq_iff_eq.1 h.1.1), pair_same hE h.1.2 hc.1 hu hv⟩ (dictList_same hE h.2 hc.2 h2)

theorem dictIs_same (hE : DoubleInts E) (h : a.same E b = true) (hc : Clear a b) {l : List (String × (K × K))}
    (hn : DictIs E a l) : DictIs E b l := by
  obtain ⟨x, rfl, hn⟩ := hn
  cases b <;> simp only [Json.same, Bool.false_eq_true] at h
  next y => exact ⟨y, rfl, dictList_same hE h (by simpa only [Clear] using hc) hn⟩

theorem numeric_same (h : a.same E b = true) : Numeric b → Numeric a := by
  cases a <;> cases b <;> simp only [Json.same, Bool.false_eq_true] at h <;> exact id

theorem truth_same (h : a.same E b = true) : Truth b → Truth a := by
  cases a <;> cases b <;> simp only [Json.same, Bool.false_eq_true] at h <;> exact id

theorem name_same (h : a.same E b = true) : Name b → Name a := by
  cases a <;> cases b <;> simp only [Json.same, Bool.false_eq_true] at h <;> exact id

/-! ## Documents -/

/-- Every member of `d` is the one of `j`, or compares equal to it, or is an additional null value. -/
def Tracks (E : Env K) (j d : Json K) : Prop :=
  ∀ k, d.find k = j.find k ∨ (j.find k = none ∧ d.find k = some .null) ∨
    ∃ a b, j.find k = some a ∧ d.find k = some b ∧ a.same E b = true ∧ Clear a b

variable {j d : Json K} {c : Cfg K} {key : String}

theorem gives_track {α : Type} {P : Json K → α → Prop} {x : α} (ht : Tracks E j d)
    (hP : ∀ a b, a.same E b = true → Clear a b → P a x → P b x) (h : Gives j key P x) : Gives d key P x := by
  obtain ⟨v, hv, hp⟩ := h
  rcases ht key with e | ⟨e, _⟩ | ⟨a, b, e, e', h1, h2⟩
  · exact ⟨v, e.trans hv, hp⟩
  · rw [e] at hv; cases hv
  · rw [e] at hv
    cases hv
    exact ⟨b, e', hP _ _ h1 h2 hp⟩

theorem givesOr_track {α : Type} {T : Json K → Prop} {P : Json K → α → Prop} {x y : α} (ht : Tracks E j d)
    (hP : ∀ a b, a.same E b = true → Clear a b → P a x → P b x)
    (hT : ∀ a b, a.same E b = true → T b → T a) (h0 : ¬T .null) (h : GivesOr j key T P y x) :
    GivesOr d key T P y x := by
  rcases h with h | ⟨h, e⟩
  · exact .inl (gives_track ht hP h)
  · refine .inr ⟨fun v hv => ?_, e⟩
    rcases ht key with e | ⟨_, e'⟩ | ⟨a, b, e, e', h1, h2⟩
    · exact h v (e ▸ hv)
    · rw [e'] at hv
      cases hv
      exact h0
    · rw [e'] at hv
      cases hv
      exact fun hb => h a e (hT _ _ h1 hb)

section
variable (hE : DoubleInts E) (ht : Tracks E j d)
include hE ht

theorem tNat {n : Nat} (h : Gives j key NatIs n) : Gives d key NatIs n :=
  gives_track ht (fun _ _ h1 h2 => natIs_same hE h1 h2) h
theorem tInt {n : Int} (h : Gives j key IntIs n) : Gives d key IntIs n :=
  gives_track ht (fun _ _ h1 h2 => intIs_same hE h1 h2) h
theorem tNum {x : K} (h : Gives j key (NumIs E) x) : Gives d key (NumIs E) x :=
  gives_track ht (fun _ _ h1 h2 => numIs_same hE h1 h2) h
theorem tNats {l : List Nat} (h : Gives j key NatsAre l) : Gives d key NatsAre l :=
  gives_track ht (fun _ _ h1 h2 => natsAre_same hE h1 h2) h
theorem tDict {l : List (String × (K × K))} (h : Gives j key (DictIs E) l) : Gives d key (DictIs E) l :=
  gives_track ht (fun _ _ h1 h2 => dictIs_same hE h1 h2) h
theorem oNat {x y : Nat} (h : GivesOr j key Numeric NatIs y x) : GivesOr d key Numeric NatIs y x :=
  givesOr_track ht (fun _ _ h1 h2 => natIs_same hE h1 h2) (fun _ _ => numeric_same) id h
theorem oInt {x y : Int} (h : GivesOr j key Numeric IntIs y x) : GivesOr d key Numeric IntIs y x :=
  givesOr_track ht (fun _ _ h1 h2 => intIs_same hE h1 h2) (fun _ _ => numeric_same) id h
omit hE
theorem tBool {b : Bool} (h : Gives j key BoolIs b) : Gives d key BoolIs b :=
  gives_track ht (fun _ _ h1 _ => boolIs_same h1) h
theorem tStr {s : String} (h : Gives j key StrIs s) : Gives d key StrIs s :=
  gives_track ht (fun _ _ h1 _ => strIs_same h1) h
theorem oBool {x y : Bool} (h : GivesOr j key Truth BoolIs y x) : GivesOr d key Truth BoolIs y x :=
  givesOr_track ht (fun _ _ h1 _ => boolIs_same h1) (fun _ _ => truth_same) id h
theorem oStr {x y : String} (h : GivesOr j key Name StrIs y x) : GivesOr d key Name StrIs y x :=
  givesOr_track ht (fun _ _ h1 _ => strIs_same h1) (fun _ _ => name_same) id h
end

/-- A document that tracks another one gives the same parameters. -/
theorem fromDoc_track (hE : DoubleInts E) (ht : Tracks E j d) (F : FromDoc E j c) : FromDoc E d c where
  M := tNat hE ht F.M
  N := tNat hE ht F.N
  mode := tStr ht F.mode
  digital := tBool ht F.digital
  verbose := tBool ht F.verbose
  wBit := fun h => tNat hE ht (F.wBit h)
  iBit := fun h => tNat hE ht (F.iBit h)
  split := fun h => tNats hE ht (F.split h)
  analog := fun h => by
    have A := F.analog h
    refine ⟨tNum hE ht A.hrs, tNum hE ht A.lrs, tStr ht A.adcType, fun h => ?_, tNum hE ht A.hrsNoise,
      tNum hE ht A.lrsNoise, oBool ht A.d2d, oBool ht A.c2c, oBool ht A.readDisturb, fun h => ?_, ?_⟩
    · have B := A.adc h
      exact ⟨tInt hE ht B.resolution, oStr ht B.calib, fun h => tDict hE ht (B.dict h), oBool ht B.profile,
        fun h => oInt hE ht (B.bin h)⟩
    · have B := A.rd h
      exact ⟨tNum hE ht B.tRead, oNat hE ht B.freq, oStr ht B.strategy, fun h => tNum hE ht (B.fp h),
        fun h => tNum hE ht (B.tol h)⟩
    · obtain ⟨p, h1, h2, h3, h4⟩ := A.par
      exact ⟨p, oBool ht h1, fun h => tNum hE ht (h2 h), h3, fun h => ⟨tNum hE ht (h4 h).1, (h4 h).2⟩⟩

/-! ## A document gives one configuration -/

theorem one {α : Type} {x : C α} {p q : α} (h1 : x = .ok p) (h2 : x = .ok q) : q = p :=
  (Except.ok.inj (h1.symm.trans h2)).symm

theorem calibName_inj {a b : CalibMode} (h : calibName a = calibName b) : a = b := by
  cases a <;> cases b <;> first | rfl | exact absurd h (by decide)

theorem strategyName_inj {a b : Strategy} (h : strategyName a = strategyName b) : a = b := by
  cases a <;> cases b <;> first | rfl | exact absurd h (by decide)

theorem adcName_inj {a b : AdcType} (h : adcName a = adcName b) : a = b := by
  cases a <;> cases b <;> first | rfl | exact absurd h (by decide)

theorem modeName_inj {a b : Mode} (h : a.name = b.name) : a = b :=
  Option.some.inj ((modeOfName_iff.2 rfl).symm.trans (modeOfName_iff.2 h))

/-- Two admissible configurations given by the same document agree. -/
theorem fromDoc_unique {c' : Cfg K} (F : FromDoc E j c) (A : Admissible c) (F' : FromDoc E j c')
    (A' : Admissible c') : SameEffective c c' := by
  have hm : c'.mode = c.mode := modeName_inj (one (reqStr.2 F.mode) (reqStr.2 F'.mode))
  have hd : c'.digitalOnly = c.digitalOnly := one (reqBool.2 F.digital) (reqBool.2 F'.digital)
  have ht : c.digitalOnly = false → c'.adcType = c.adcType := fun h =>
    adcName_inj (one (reqStr.2 (F.analog h).adcType) (reqStr.2 (F'.analog (hd.trans h)).adcType))
  have hc : c.digitalOnly = false → c.adcType ≠ .inf → c'.calibMode = c.calibMode := fun h h' =>
    calibName_inj (one (defStr.2 ((F.analog h).adc h').calib)
      (defStr.2 ((F'.analog (hd.trans h)).adc ((ht h).symm ▸ h')).calib))
  have hr : c.digitalOnly = false → c'.readDisturb = c.readDisturb := fun h =>
    one (defBool.2 (F.analog h).readDisturb) (defBool.2 (F'.analog (hd.trans h)).readDisturb)
  have hs : c.digitalOnly = false → c.readDisturb = true → c'.strategy = c.strategy := fun h h' =>
    strategyName_inj (one (defStr.2 ((F.analog h).rd h').strategy)
      (defStr.2 ((F'.analog (hd.trans h)).rd ((hr h).trans h')).strategy))
  have hp : c.digitalOnly = false → c'.parasitics = c.parasitics ∧
      (c.parasitics = true → c'.wRes = c.wRes) ∧
      (c.readDisturb = true ∨ c.parasitics = true → c'.vRead = c.vRead) := by
    intro h
    obtain ⟨p, a1, a2, a3, a4⟩ := (F.analog h).par
    obtain ⟨q, b1, b2, b3, b4⟩ := (F'.analog (hd.trans h)).par
    have e : q = p := one (defBool.2 a1) (defBool.2 b1)
    subst e
    have hw : q = true → c'.wRes = c.wRes := fun hq => one (reqNum.2 (a2 hq)) (reqNum.2 (b2 hq))
    refine ⟨?_, fun h' => hw (a3.1 h').1, fun h' => ?_⟩
    · rw [Bool.eq_iff_iff, a3, b3]
      exact ⟨fun x => ⟨x.1, hw x.1 ▸ x.2⟩, fun x => ⟨x.1, (hw x.1).symm ▸ x.2⟩⟩
    · have : q = true ∨ c.readDisturb = true := h'.elim .inr fun x => .inl (a3.1 x).1
      exact one (reqNum.2 (a4 this).1) (reqNum.2 (b4 (this.imp id (hr h).trans)).1)
  have hsp : c.mode.family = .int ∨ c.mode = .tnn4 ∨ c.mode = .tnn5 → c'.split = c.split := fun h =>
    one (reqNats.2 (F.split h)) (reqNats.2 (F'.split (hm.symm ▸ h)))
  constructor
  · exact ⟨one (reqNat.2 F.M) (reqNat.2 F'.M), one (reqNat.2 F.N) (reqNat.2 F'.N)⟩
  · exact hm
  · exact hd
  · exact one (reqBool.2 F.verbose) (reqBool.2 F'.verbose)
  · by_cases h : c.mode.family = .int ∨ c.mode = .tnn4 ∨ c.mode = .tnn5
    · exact hsp h
    · rw [not_or, not_or] at h
      rw [A.2.2.1.2.2 h.1 h.2.1 h.2.2, A'.2.2.1.2.2 (hm.symm ▸ h.1) (hm.symm ▸ h.2.1) (hm.symm ▸ h.2.2)]
  · exact fun h => one (reqNat.2 (F.wBit h)) (reqNat.2 (F'.wBit (hm.symm ▸ h)))
  · exact fun h => one (reqNat.2 (F.iBit h)) (reqNat.2 (F'.iBit (hm.symm ▸ h)))
  · exact fun h => ⟨one (reqNum.2 (F.analog h).hrs) (reqNum.2 (F'.analog (hd.trans h)).hrs),
      one (reqNum.2 (F.analog h).lrs) (reqNum.2 (F'.analog (hd.trans h)).lrs)⟩
  · exact ht
  · exact fun h h' => ⟨one (reqInt.2 ((F.analog h).adc h').resolution)
      (reqInt.2 ((F'.analog (hd.trans h)).adc ((ht h).symm ▸ h')).resolution), hc h h'⟩
  · exact fun h h' h'' => one (reqDict.2 (((F.analog h).adc h').dict h''))
      (reqDict.2 (((F'.analog (hd.trans h)).adc ((ht h).symm ▸ h')).dict ((hc h h').trans h'')))
  · intro h h' h''
    have B := (F.analog h).adc h'
    have B' := (F'.analog (hd.trans h)).adc ((ht h).symm ▸ h')
    exact one (defInt.2 (B.bin h'')) (defInt.2 (B'.bin ((one (defBool.2 B.profile) (defBool.2 B'.profile)).trans h'')))
  · exact fun h => ⟨one (reqNum.2 (F.analog h).hrsNoise) (reqNum.2 (F'.analog (hd.trans h)).hrsNoise),
      one (reqNum.2 (F.analog h).lrsNoise) (reqNum.2 (F'.analog (hd.trans h)).lrsNoise)⟩
  · exact fun h => ⟨one (defBool.2 (F.analog h).d2d) (defBool.2 (F'.analog (hd.trans h)).d2d),
      one (defBool.2 (F.analog h).c2c) (defBool.2 (F'.analog (hd.trans h)).c2c)⟩
  · exact fun h => (hp h).1
  · exact fun h => (hp h).2.2
  · intro h h'
    have B := (F.analog h).rd h'
    have B' := (F'.analog (hd.trans h)).rd ((hr h).trans h')
    exact ⟨one (reqNum.2 B.tRead) (reqNum.2 B'.tRead), one (defNat.2 B.freq) (defNat.2 B'.freq), hs h h'⟩
  · exact fun h h' h'' => one (reqNum.2 (((F.analog h).rd h').fp h''))
      (reqNum.2 (((F'.analog (hd.trans h)).rd ((hr h).trans h')).fp ((hs h h').trans h'')))
  · exact fun h h' h'' => one (reqNum.2 (((F.analog h).rd h').tol h''))
      (reqNum.2 (((F'.analog (hd.trans h)).rd ((hr h).trans h')).tol ((hs h h').trans h'')))
  · exact fun h => (hp h).2.1

/-- The switches for read disturb and profiling, where the document gives them. -/
theorem fromDoc_switches {c' : Cfg K} (F : FromDoc E j c) (F' : FromDoc E j c') (h : c.digitalOnly = false) :
    c'.readDisturb = c.readDisturb ∧ (c.adcType ≠ .inf → c'.adcProfile = c.adcProfile) := by
  have hd : c'.digitalOnly = c.digitalOnly := one (reqBool.2 F.digital) (reqBool.2 F'.digital)
  have ht : c'.adcType = c.adcType :=
    adcName_inj (one (reqStr.2 (F.analog h).adcType) (reqStr.2 (F'.analog (hd.trans h)).adcType))
  exact ⟨one (defBool.2 (F.analog h).readDisturb) (defBool.2 (F'.analog (hd.trans h)).readDisturb),
    fun h' => one (defBool.2 ((F.analog h).adc h').profile)
      (defBool.2 ((F'.analog (hd.trans h)).adc (ht.symm ▸ h')).profile)⟩

end Acs
