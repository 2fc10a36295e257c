import Verif.Lemmas.Source
import Verif.Lemmas.AdcTestFile
import Verif.Props.Load
import Verif.Props.Build
import Verif.Props.Api
import Verif.Props.ExApi

/-! # C96: where a configuration comes from -/

namespace Acs.Props

open Spec

variable {K : Type} [Field K] [LinearOrder K] [IsStrictOrderedRing K] [FloorRing K]
variable {E : Env K} {h h' : Host K} {a : Option String} {p : String} {j : Json K} {w w' : World K}

/-- A machine with two configuration files and one file that is no document; `CFG_FILE` names one of the former. -/
def Ex'.host : Host ℚ where
  var := some "BNN_I.json"
  file p := if p = "BNN_I.json" then some (.json (digitalFile .bnn1)) else
    if p = "POS_ADC_1.json" then some (.json (adcTestFile .iUintWOffs 8)) else
    if p = "notes.txt" then some (.text .null) else none

theorem Ex'.emptyName : NoName (some "") := fun _ h => (Option.some.inj h).symm

/-- At most one file is the one to load. -/
theorem C96_one {q : String} (h1 : Source h a p) (h2 : Source h a q) : p = q := by
  rw [← cfgPath_iff] at h1 h2
  exact Option.some.inj (h1.symm.trans h2)

/-- With and without a name. -/
example : Source Ex'.host (some "POS_ADC_1.json") "POS_ADC_1.json" ∧ Source Ex'.host none "BNN_I.json" :=
  ⟨.inl ⟨rfl, by decide⟩, .inr ⟨(fun _ h => nomatch h), rfl⟩⟩

/-- The call depends on nothing but the contents of the file to load: not on other files, and on `CFG_FILE` only if the
caller gives no name. -/
theorem C96_depends {a' : Option String} {q : String} (h1 : Source h a p) (h2 : Source h' a' q) (hf : h.file p = h'.file q) :
    loadFrom E h a w = loadFrom E h' a' w ∧ setConfigFrom E h a w = setConfigFrom E h' a' w := by
  rw [← cfgPath_iff] at h1 h2
  unfold loadFrom setConfigFrom openCfg
  rw [h1, h2]
  dsimp only
  rw [hf]
  exact ⟨rfl, rfl⟩

/-- A named file does not depend on `CFG_FILE`. -/
example (w : World ℚ) : loadFrom Ex.env Ex'.host (some "POS_ADC_1.json") w =
    loadFrom Ex.env { Ex'.host with var := some "" } (some "POS_ADC_1.json") w :=
  (C96_depends (p := "POS_ADC_1.json") (.inl ⟨rfl, by decide⟩) (.inl ⟨rfl, by decide⟩) rfl).1

/-- `load_cfg` returns `true` exactly if there is a file to load, which holds a document that gives parameters that
satisfy the constraints (and, for a real converter, the resolution in use before is not -1). -/
theorem C96_true : (∃ w', loadFrom E h a w = .ok (w', true)) ↔ ∃ p j, Source h a p ∧ h.file p = some (.json j) ∧
    ∃ c : Cfg K, FromDoc E j c ∧ Admissible c ∧ (c.digitalOnly = false → c.adcType ≠ .inf → w.cfg.resolution ≠ -1) := by
  constructor
  · rintro ⟨w', e⟩
    unfold loadFrom openCfg at e
    cases hp : cfgPath h a with
    | none =>
      rw [hp] at e
      simp [loadCfg] at e
    | some p =>
      rw [hp] at e
      dsimp only at e
      cases hf : h.file p with
      | none => rw [hf] at e; cases e
      | some t =>
        rw [hf] at e
        cases t with
        | text left => cases e
        | json j => exact ⟨p, j, cfgPath_iff.1 hp, hf, C77_accepted.1 ⟨w', e⟩⟩
  · rintro ⟨p, j, hp, hf, hc⟩
    rw [← cfgPath_iff] at hp
    obtain ⟨w', e⟩ := C77_accepted.2 hc
    refine ⟨w', ?_⟩
    unfold loadFrom openCfg
    rw [hp]
    dsimp only
    rw [hf]
    exact e

/-- `load_cfg` returns `false` exactly if neither the caller nor `CFG_FILE` names a file; then nothing changes. -/
theorem C96_false : loadFrom E h a w = .ok (w', false) ↔ NoName a ∧ h.var = none ∧ w' = w := by
  constructor
  · intro e
    unfold loadFrom openCfg at e
    cases hp : cfgPath h a with
    | none =>
      rw [hp] at e
      obtain ⟨h1, h2⟩ := cfgPath_none.1 hp
      simp only [loadCfg, rok_inj, Prod.mk.injEq, and_true] at e
      exact ⟨h1, h2, e.symm⟩
    | some p =>
      rw [hp] at e
      dsimp only at e
      cases hf : h.file p with
      | none => rw [hf] at e; cases e
      | some t =>
        rw [hf] at e
        cases t with
        | text left => cases e
        | json j =>
          dsimp only [loadCfg] at e
          rw [rbind_ok] at e
          obtain ⟨c, _, e⟩ := e
          rw [rok_inj] at e
          cases e
  · rintro ⟨h1, h2, rfl⟩
    unfold loadFrom openCfg
    rw [cfgPath_none.2 ⟨h1, h2⟩]
    rfl

/-- There is nothing to load without `CFG_FILE`. -/
example (w : World ℚ) : loadFrom Ex.env { Ex'.host with var := none } none w = .ok (w, false) :=
  C96_false.2 ⟨(fun _ h => nomatch h), rfl, rfl⟩

/-- If `load_cfg` returns `true`, the configuration holds the values of the file. -/
theorem C96_values (e : loadFrom E h a w = .ok (w', true)) (hp : Source h a p) (hf : h.file p = some (.json j)) :
    w'.data = j ∧ FromDoc E j w'.cfg ∧ Admissible w'.cfg ∧ w'.xbar = w.xbar := by
  rw [← cfgPath_iff] at hp
  unfold loadFrom openCfg at e
  rw [hp] at e
  dsimp only at e
  rw [hf] at e
  dsimp only [loadCfg] at e
  rw [rbind_ok] at e
  obtain ⟨c, e1, e⟩ := e
  rw [lift_ok] at e1
  rw [rok_inj] at e
  cases e
  exact ⟨rfl, loaded_of e1, applyConfig_ok e1, rfl⟩

/-- The digital file is loaded through `CFG_FILE`. -/
example : ∃ w', loadFrom Ex.env Ex'.host none world0 = .ok (w', true) ∧ w'.data = digitalFile .bnn1 := by
  obtain ⟨w', e, _⟩ := Ex.goes_spec (x := loadFrom Ex.env Ex'.host none world0) (p := fun r => r.2) (by decide +kernel)
  rcases w' with ⟨w', b⟩
  cases b with
  | false => exact absurd (C96_false.1 e).2.1 (by decide)
  | true => exact ⟨w', e, (C96_values e (.inr ⟨(fun _ h => nomatch h), rfl⟩) rfl).1⟩

/-- A file that cannot be opened ends the program, also when the library is loaded. -/
theorem C96_missing (hp : Source h a p) (hf : h.file p = none) : loadFrom E h a w = .error (.dead .exited) ∧
    (∀ w', setConfigFrom E h a w ≠ .ok w') ∧ (NoName a → bootOn E h = .error .exited) := by
  have hp' := cfgPath_iff.2 hp
  have e : openCfg h (cfgPath h a) = .missing := by
    unfold openCfg
    rw [hp']
    dsimp only
    rw [hf]
  refine ⟨?_, fun w' e' => ?_, fun hn => ?_⟩
  · unfold loadFrom
    rw [e]
    rfl
  · unfold setConfigFrom at e'
    rw [e] at e'
    obtain ⟨_, x, _, _, k⟩ := setConfig_inv e'
    rcases k with ⟨k, _⟩ | ⟨j, k, _⟩ <;> cases k
  · have hv : h.var = some p := by
      rcases hp with ⟨k1, k2⟩ | ⟨_, k⟩
      · exact absurd (hn p k1) k2
      · exact k
    have e2 : openCfg h (cfgPath h (some "")) = .missing := by
      unfold openCfg
      rw [cfgPath_iff.2 (.inr ⟨fun s hs => (Option.some.inj hs).symm, hv⟩)]
      dsimp only
      rw [hf]
    unfold bootOn
    rw [e2]
    rfl

/-- A file that does not exist. -/
example : bootOn Ex.env { Ex'.host with var := some "lost.json" } = .error .exited :=
  (C96_missing (w := world0) (p := "lost.json") (.inr ⟨Ex'.emptyName, rfl⟩) (by decide +kernel)).2.2 Ex'.emptyName

/-- A file that holds no document does not end the program: the call throws, and only what the parser left behind stays.
`set_config` has already dropped the crossbar then.  While the library is loaded nothing catches the exception. -/
theorem C96_text {left : Json K} (hp : Source h a p) (hf : h.file p = some (.text left)) :
    loadFrom E h a w = .error (.threw { w with data := left }) ∧
    (Releasable w → ∃ w', setConfigFrom E h a w = .error (.threw w') ∧ w'.cfg = w.cfg ∧ w'.data = left ∧ w'.xbar = none) ∧
    (NoName a → bootOn E h = .error .aborted) := by
  have hp' := cfgPath_iff.2 hp
  have e : openCfg h (cfgPath h a) = .bad left := by
    unfold openCfg
    rw [hp']
    dsimp only
    rw [hf]
  refine ⟨?_, fun hr => ?_, fun hn => ?_⟩
  · unfold loadFrom
    rw [e]
    rfl
  · refine ⟨{ w.drop with data := left }, ?_, ?_, rfl, ?_⟩
    · unfold setConfigFrom setConfig loadCfg
      rw [e, release_iff.2 hr]
      rfl
    · show w.drop.cfg = w.cfg
      unfold World.drop; split <;> rfl
    · show w.drop.xbar = none
      unfold World.drop
      split
      · next hx => exact hx
      · rfl
  · have hv : h.var = some p := by
      rcases hp with ⟨k1, k2⟩ | ⟨_, k⟩
      · exact absurd (hn p k1) k2
      · exact k
    have e2 : openCfg h (cfgPath h (some "")) = .bad left := by
      unfold openCfg
      rw [cfgPath_iff.2 (.inr ⟨fun s hs => (Option.some.inj hs).symm, hv⟩)]
      dsimp only
      rw [hf]
    unfold bootOn
    rw [e2]
    rfl

/-- A file with notes, named by the caller in a state with a crossbar, and by `CFG_FILE`. -/
example : (∃ w w', bootOn Ex.env Ex'.host = .ok w ∧ w.xbar ≠ none ∧
      setConfigFrom Ex.env Ex'.host (some "notes.txt") w = .error (.threw w') ∧ w'.xbar = none) ∧
    bootOn Ex.env { Ex'.host with var := some "notes.txt" } = .error .aborted := by
  refine ⟨?_, (C96_text (w := world0) (p := "notes.txt") (left := .null) (.inr ⟨Ex'.emptyName, rfl⟩) rfl).2.2 Ex'.emptyName⟩
  obtain ⟨w, e, e'⟩ := Ex.okAnd_spec (x := bootOn Ex.env Ex'.host)
    (p := fun w => w.xbar.isSome && Ex.goes (release w) fun _ => true) (by decide +kernel)
  rw [Bool.and_eq_true] at e'
  obtain ⟨u, e'', _⟩ := Ex.goes_spec e'.2
  obtain ⟨w', k, _, _, k'⟩ := (C96_text (E := Ex.env) (w := w) (h := Ex'.host) (a := some "notes.txt") (p := "notes.txt")
    (left := .null) (.inl ⟨rfl, by decide⟩) rfl).2.1 (release_iff.1 e'')
  exact ⟨w, w', e, fun h => by rw [h] at e'; simp at e', k, k'⟩

/-- In particular a `CFG_FILE` that is set to the empty string, as no file has an empty name.  (Only an unset variable
means that there is no configuration.) -/
theorem C96_empty (hn : NoName a) (hv : h.var = some "") (h0 : h.file "" = none) :
    loadFrom E h a w = .error (.dead .exited) ∧ bootOn E h = .error .exited :=
  have k := C96_missing (E := E) (w := w) (a := a) (.inr ⟨hn, hv⟩) h0
  ⟨k.1, k.2.2 hn⟩

/-- The machine of the examples has no file with an empty name. -/
example : bootOn Ex.env { Ex'.host with var := some "" } = .error .exited :=
  (C96_empty (w := world0) Ex'.emptyName rfl (by decide +kernel)).2

/-- Loading the library while `CFG_FILE` names a file with a document succeeds exactly if loading it without and then
calling `set_config` with the name returns, and with the same state. -/
theorem C96_boot (hv : h.var = some p) (h0 : p ≠ "") (hf : h.file p = some (.json j)) :
    bootOn E h = .ok w ↔ bootOn E { h with var := none } = .ok world0 ∧ setConfigFrom E { h with var := none } (some p) world0 = .ok w := by
  have e1 : openCfg h (cfgPath h (some "")) = .good j := by
    unfold openCfg
    rw [cfgPath_iff.2 (.inr ⟨fun s hs => (Option.some.inj hs).symm, hv⟩)]
    dsimp only
    rw [hf]
  have e2 : openCfg { h with var := none } (cfgPath { h with var := none } (some p)) = .good j := by
    unfold openCfg
    rw [cfgPath_iff.2 (.inl ⟨rfl, h0⟩)]
    dsimp only
    rw [hf]
  have e3 : bootOn E { h with var := none } = .ok world0 := rfl
  unfold setConfigFrom
  rw [e2, e3]
  show boot E (openCfg h (cfgPath h (some ""))) = _ ↔ _
  rw [e1]
  refine ⟨fun e => ⟨rfl, C58_boot e⟩, fun ⟨_, e⟩ => ?_⟩
  obtain ⟨w₁, k⟩ := boot_iff.2 ⟨w, e⟩
  have := C58_boot k
  rw [e] at this
  cases this
  exact k

/-- The library can be loaded with this variable. -/
example : ∃ w, bootOn Ex.env Ex'.host = .ok w := by
  obtain ⟨w, e, _⟩ := Ex.okAnd_spec (x := bootOn Ex.env Ex'.host) (p := fun _ => true) (by decide +kernel)
  exact ⟨w, e⟩

/-- `set_config` without a name and without `CFG_FILE` keeps the configuration and replaces the crossbar by a new one
(the matrix is lost); it returns exactly if the crossbar can be released and one can be built from the configuration. -/
theorem C96_reset (hn : NoName a) (hv : h.var = none) :
    ((∃ w', setConfigFrom E h a w = .ok w') ↔ Releasable w ∧ Buildable E w.cfg w.cfg) ∧
    ∀ w', setConfigFrom E h a w = .ok w' → w'.cfg = w.cfg ∧ w'.data = w.data ∧
      ∃ x, w'.xbar = some x ∧ Runs E w'.cfg [] x := by
  have ho : openCfg h (cfgPath h a) = .unnamed := by
    unfold openCfg
    rw [cfgPath_none.2 ⟨hn, hv⟩]
  have hcfg : w.drop.cfg = w.cfg := by unfold World.drop; split <;> rfl
  unfold setConfigFrom
  rw [ho]
  refine ⟨⟨fun ⟨w', e⟩ => ?_, fun ⟨h1, B⟩ => ?_⟩, fun w' e => ?_⟩
  · obtain ⟨h1, x, _, h2, h3⟩ := setConfig_inv e
    rcases h3 with ⟨_, h3, _⟩ | ⟨j, h3, _⟩
    · exact ⟨release_iff.1 h1, h3 ▸ mkXbar_iff.1 ⟨x, h2⟩⟩
    · cases h3
  · obtain ⟨x, hx⟩ := mkXbar_iff (rng := w.drop.drop.rng) (hs := w.drop.drop.hists) |>.2 B
    refine ⟨{ w.drop with xbar := some x }, ?_⟩
    unfold setConfig loadCfg newXbar
    rw [release_iff.2 h1]
    show (lift w.drop (mkXbar E w.drop.cfg _ _) >>= _) = _
    rw [hcfg, hx]
    rfl
  · obtain ⟨_, x, h1, h2, h3⟩ := setConfig_inv e
    rcases h3 with ⟨_, h3, h4⟩ | ⟨j, h3, _⟩
    · exact ⟨h3, h4, x, h1, .init h2⟩
    · cases h3

/-- After loading a configuration, a call without a name returns. -/
example : ∃ w w', bootOn Ex.env Ex'.host = .ok w ∧ setConfigFrom Ex.env { Ex'.host with var := none } none w = .ok w' := by
  obtain ⟨w, e, e'⟩ := Ex.okAnd_spec (x := bootOn Ex.env Ex'.host)
    (p := fun w => Ex.goes (setConfigFrom Ex.env { Ex'.host with var := none } none w) fun _ => true) (by decide +kernel)
  obtain ⟨w', e', _⟩ := Ex.goes_spec e'
  exact ⟨w, w', e, e'⟩

/-- In a new process such a call returns.  Then there is a crossbar without rows and columns: `update_config` accepts
documents, but every matrix with a row or a column is refused by `cpy_mtrx` and `exe_mvm`. -/
theorem C96_void (hn : NoName a) (hv : h.var = none) : bootOn E h = .ok world0 ∧ ∃ w, setConfigFrom E h a world0 = .ok w ∧
    ∀ m n : Int, m ≠ 0 ∨ n ≠ 0 → -2147483648 ≤ m ∧ m < 2147483648 → -2147483648 ≤ n ∧ n < 2147483648 →
      (∀ mat, cpyMtrx E mat m n w = .ok (w, -1)) ∧ ∀ res vec mat l, exeMvm E res vec mat m n l w = .ok (w, res, -1) := by
  have hb : bootOn E h = .ok world0 := by
    unfold bootOn openCfg
    rw [cfgPath_none.2 ⟨fun s hs => (Option.some.inj hs).symm, hv⟩]
    rfl
  obtain ⟨k1, k2⟩ := C96_reset (E := E) (w := world0) hn hv
  obtain ⟨w, e⟩ := k1.2 ⟨.inl rfl, (by decide : (0 : Int) ≤ 30), (fun _ h => by cases h), (fun _ s h => by cases h),
    (fun h => by cases h), (fun _ h => by cases h), fun h => by cases h⟩
  obtain ⟨e1, _, x, hx, _⟩ := k2 w e
  refine ⟨hb, w, e, fun m n hmn hm hn => ?_⟩
  have hM : w.cfg.M = 0 := by rw [e1]; rfl
  have hN : w.cfg.N = 0 := by rw [e1]; rfl
  have hbig : tooBig w m n := by
    unfold tooBig toU32
    rw [hM, hN]
    omega
  refine ⟨fun mat => ?_, fun res vec mat l => ?_⟩
  · unfold cpyMtrx
    rw [hx]
    exact if_pos hbig
  · unfold exeMvm
    rw [hx]
    exact if_pos hbig

/-! ## The tests -/

/-- `LoadCfgFromPath` and `LoadCfgFromEnvVar`: the file is accepted in every state (unless the resolution in use is -1)
and gives the values the tests look at; `CFG_FILE` does not matter if the file is named. -/
theorem C96_tests (hE : ExactArith E) (hr : w.cfg.resolution ≠ -1) (hf : h.file p = some (.json (adcTestFile .iUintWOffs 8)))
    (hp : Source h a p) : ∃ w', loadFrom E h a w = .ok (w', true) ∧ w'.cfg.M = 3 ∧ w'.cfg.N = 5 ∧
      w'.cfg.mode = .iUintWOffs ∧ w'.cfg.digitalOnly = false ∧ w'.cfg.resolution = 8 := by
  have F : FromDoc E (adcTestFile .iUintWOffs 8) (adcTestCfg .iUintWOffs 8) :=
    adcTest_fromDoc (hE.f32 0) (hE.f32 5) (hE.f32 30) (by decide)
  have A : Admissible (adcTestCfg .iUintWOffs 8 : Cfg K) := adcTest_admissible rfl (by decide)
  obtain ⟨w', e⟩ := C96_true.2 ⟨p, _, hp, hf, _, F, A, fun _ _ => hr⟩
  refine ⟨w', e, ?_⟩
  obtain ⟨_, F', A', _⟩ := C96_values e hp hf
  have S := fromDoc_unique F A F' A'
  exact ⟨S.dims.1, S.dims.2, S.mode, S.digital, (S.adc rfl (fun h => by cases h)).1⟩

/-- Both tests: the file named by the caller, and the file named by `CFG_FILE`. -/
example : (∃ w', loadFrom Ex.env Ex'.host (some "POS_ADC_1.json") world0 = .ok (w', true) ∧ w'.cfg.M = 3) ∧
    ∃ w', loadFrom Ex.env { Ex'.host with var := some "POS_ADC_1.json" } (some "") world0 = .ok (w', true) ∧ w'.cfg.M = 3 := by
  obtain ⟨w, h1, h2, _⟩ := C96_tests (E := Ex.env) (h := Ex'.host) (w := world0) (a := some "POS_ADC_1.json")
    (p := "POS_ADC_1.json") ⟨fun _ => rfl, fun _ => rfl⟩ (by show (0 : Int) ≠ -1; decide) rfl (.inl ⟨rfl, by decide⟩)
  obtain ⟨w', h1', h2', _⟩ := C96_tests (E := Ex.env) (h := { Ex'.host with var := some "POS_ADC_1.json" }) (w := world0)
    (a := some "") (p := "POS_ADC_1.json") ⟨fun _ => rfl, fun _ => rfl⟩ (by show (0 : Int) ≠ -1; decide) rfl (.inr ⟨Ex'.emptyName, rfl⟩)
  exact ⟨⟨w, h1, h2⟩, w', h1', h2'⟩

end Acs.Props
