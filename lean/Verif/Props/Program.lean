import Verif.Lemmas.Program
import Verif.Props.EndToEnd
import Verif.Props.Analog
import Verif.Props.Api

/-! # C87: whole programs -/

namespace Acs.Props

open Spec

variable {K : Type} [Field K] [LinearOrder K] [IsStrictOrderedRing K] [FloorRing K]
variable {E : Env K} {j : Json K} {c : Cfg K} {w : World K} {cs : List (Call K)} {rs rs' : List Reply} {k : Nat}

/-- C87.  A program gets to see what the document and the matrices written say, call by call. -/
theorem C87_program (hE : E.strict = false) (hp : Program E none cs rs) : ∃ w', play E world0 cs = .ok (w', rs) :=
  program_plays hE hp ⟨rfl, (by show (0 : Int) ≠ -1 ∧ (0 : Int) ≤ 30; decide), rfl, rfl⟩

/-- C87.  The same in any state whose crossbar can be released, once a document has been loaded: nothing that happened
before matters, as long as it left neither read disturb, profiling nor an impossible resolution. -/
theorem C87_reload (hE : E.strict = false) (hr : Releasable w)
    (ho : (w.cfg.resolution ≠ -1 ∧ w.cfg.resolution ≤ 30) ∧ w.cfg.readDisturb = false ∧ w.cfg.adcProfile = false) (hu : Usable E j c)
    (hp : Program E (some ⟨j, c, k, []⟩) cs rs) :
    ∃ w', play E w (.setConfig (.good j) :: cs) = .ok (w', .nothing :: rs) := by
  obtain ⟨w1, h1, h2⟩ := load_knows hE hu hr ⟨ho.1, ho.2.1, ho.2.2⟩ k
  exact play_cons (by rw [reply, h1]; rfl) (program_plays hE hp h2)

/-- C87.  The same for a library that loads its configuration at start. -/
theorem C87_boot (hE : E.strict = false) (hu : Usable E j c) (hp : Program E (some ⟨j, c, k, []⟩) cs rs) :
    ∃ w w', boot E (.good j) = .ok w ∧ play E w cs = .ok (w', rs) := by
  have ho : Stale (world0 : World K).cfg := ⟨(by show (0 : Int) ≠ -1 ∧ (0 : Int) ≤ 30; decide), rfl, rfl⟩
  obtain ⟨w1, h1, h2⟩ := load_knows hE hu (.inl rfl) ho k
  obtain ⟨w, h⟩ := boot_iff.2 ⟨w1, h1⟩
  have e := C58_boot h
  rw [h1] at e
  cases e
  obtain ⟨w', h3⟩ := program_plays hE hp h2
  exact ⟨w1, w', h, h3⟩

/-- C87.  The description leaves no choice. -/
theorem C87_unique (hE : E.strict = false) (hp : Program E none cs rs) (hp' : Program E none cs rs') : rs = rs' := by
  obtain ⟨w, h⟩ := C87_program hE hp
  obtain ⟨w', h'⟩ := C87_program hE hp'
  rw [h] at h'
  exact (Prod.ext_iff.1 (Except.ok.inj h')).2

namespace Ex'

theorem usable {E : Env ℚ} {j : Json ℚ} {c : Cfg ℚ}
    (h : Ex.goes (setConfig E (.good j) world0) (fun w => decide (w.cfg = c)) = true) (hs : c.mode.family = .int → CfgOk c)
    (hq : c.verbose = false ∨ c.mode.family = .int)
    (hk : c.digitalOnly = true ∨ (ExactArith E ∧ Ideal c)) (hr : RealAdc c → c.resolution ≠ -1 ∧ c.resolution ≤ 30) :
    Usable E j c := by
  obtain ⟨w, h1, h2⟩ := Ex.goes_spec h
  obtain ⟨_, _, _, _, h3⟩ := setConfig_inv h1
  rcases h3 with ⟨h3, _⟩ | ⟨j', e, _, h5⟩
  · cases h3
  · cases e
    obtain rfl := of_decide_eq_true h2
    exact ⟨loaded_of h5, applyConfig_ok h5, hs, hq, hk, hr⟩

theorem patched_one {E : Env ℚ} {l : List (String × Json ℚ)} {key : String} {v : Json ℚ}
    (hc : Changes E (.obj l) (.obj [(key, v)]) key) :
    Patched E (.obj l) (.obj [(key, v)]) (.obj (setMember key v l)) := by
  have hf : ∀ k', (Json.obj (setMember key v l)).find k' = if k' = key then some v else (Json.obj l).find k' :=
    fun k' => setMember_find l
  refine ⟨fun k' v' hm _ => ?_, fun k' hn => ?_⟩
  · have e := List.mem_singleton.1 hm
    cases e
    rw [hf, if_pos rfl]
  · rw [hf, if_neg (by rintro rfl; exact hn hc)]

/-- An update of the input word length. -/
def wider : Json ℚ := .obj [("I_BIT", .int 4)]
/-- An update of the mapping. -/
def remapped : Json ℚ := .obj [("m_mode", .str "I_DIFF_W_DIFF_1XB")]

/-- An update of the converter. -/
def metered : Json ℚ := .obj [("adc_type", .str "SYM_RANGE_ADC")]

def doc0 : List (String × Json ℚ) := Ex.digKeys .iOffsWDiff
def doc1 : List (String × Json ℚ) := setMember "I_BIT" (.int 4) doc0
def doc2 : List (String × Json ℚ) := setMember "m_mode" (.str "I_DIFF_W_DIFF_1XB") doc1

def doc3 : List (String × Json ℚ) := setMember "resolution" (.int 2) (Ex.anaKeys .bnn6)
def doc4 : List (String × Json ℚ) := setMember "adc_type" (.str "SYM_RANGE_ADC") doc3

def cfg1 : Cfg ℚ := { digitalCfg .iOffsWDiff with iBit := 4 }
def cfg2 : Cfg ℚ := { cfg1 with mode := .iDiffWDiff1 }
def cfg4 : Cfg ℚ := { loaded .bnn6 10 0 with adcType := .sym, resolution := 2 }

/-- A program: calls without configuration, a digital configuration, a write, a multiplication, a block that does not
fit, another word length for the inputs, a multiplication with the matrix still stored, another mapping, an update that
changes nothing, a write, then an analog configuration, and last a real converter for it. -/
def program : List (Call ℚ) :=
  [.write Ex.mat 2 3, .update .null, .setConfig (.good (.obj doc0)), .write Ex.mat 2 3, .mvm Ex.res Ex.vec Ex.mat 2 3 "",
   .write Ex.mat (-1) 3, .update (.good wider), .mvm Ex.res Ex.vec Ex.mat 2 3 "", .updatePb (some (.good remapped)),
   .update (.good remapped), .write Ex.mat 2 3, .mvmPb Ex.res Ex.vec Ex.mat 2 3,
   .setConfig (.good (.obj doc3)), .write Ex.mat 2 3, .mvm Ex.res Ex.vec Ex.mat 2 3 "", .updatePb none,
   .update (.good metered), .write Ex.mat 2 3, .mvm Ex.res Ex.vec Ex.mat 2 3 ""]

theorem usable0 : Usable Ex.env (.obj doc0) (digitalCfg .iOffsWDiff) :=
  usable (by decide +kernel) (fun _ => digital_ok _) (.inl rfl) (.inl rfl) (fun h => nomatch h.1)

theorem usable1 : Usable Ex.env (.obj doc1) cfg1 :=
  usable (by decide +kernel) (fun _ => by simp [CfgOk, cfg1, digitalCfg, Ex.cfg, Mode.isInt, Mode.family]) (.inl rfl) (.inl rfl) (fun h => nomatch h.1)

theorem usable2 : Usable Ex.env (.obj doc2) cfg2 :=
  usable (by decide +kernel) (fun _ => by simp [CfgOk, cfg2, cfg1, digitalCfg, Ex.cfg, Mode.isInt, Mode.family])
    (.inl rfl) (.inl rfl) (fun h => nomatch h.1)

theorem loaded_ideal : Ideal (loaded .bnn6 10 0) :=
  ⟨rfl, rfl, rfl, rfl, rfl, (by simp [Quiet, loaded]), (by simp [loaded]), fun h => nomatch h⟩

theorem usable3 : Usable Ex.env (.obj doc3) (loaded .bnn6 10 0) :=
  usable (by decide +kernel) (fun h => nomatch h) (.inl rfl) (.inr ⟨Ex.env_exact, loaded_ideal⟩) (fun h => absurd rfl h.2)

/-- The write and the multiplication of the example after any history. -/
theorem legal_write {c : Cfg ℚ} (h : LegalOps c 3 [] pair) : LegalWrite c 3 Ex.mat 2 3 := h.1

theorem legal_mvm {c : Cfg ℚ} (h : LegalOps c 3 [] pair) {h' : List Op}
    (hw : ∀ i j, i < 2 → j < 3 → (lastWrite h' i j).isSome) : LegalMvm c 3 h' Ex.res Ex.vec 2 3 :=
  ⟨h.2.1.dims, h.2.1.resBuf, h.2.1.vecBuf, h.2.1.vals, h.2.1.room, hw, h.2.1.width⟩

theorem legal0 : LegalOps (digitalCfg .iOffsWDiff) 3 [] pair := digital_legal (by decide)

theorem legal1 : LegalOps cfg1 3 [] pair :=
  pair_legal ⟨by decide, by decide, by decide⟩ (Ex.legal_mat .iOffsWDiff)
    (fun _ _ => by simp [cfg1, digitalCfg, Mode.isInt, Mode.family])
    (Ex.three (P := fun j => LegalX cfg1 (Ex.vec.get j)) (show -2 ^ 3 ≤ Ex.vec.get 0 ∧ Ex.vec.get 0 < 2 ^ 3 by decide)
      (show -2 ^ 3 ≤ Ex.vec.get 1 ∧ Ex.vec.get 1 < 2 ^ 3 by decide)
      (show -2 ^ 3 ≤ Ex.vec.get 2 ∧ Ex.vec.get 2 < 2 ^ 3 by decide))
    (Ex.two (by simp [peak, cfg1, digitalCfg, Mode.isInt, Mode.family, Ex.res, Vec.ofList])
      (by simp [peak, cfg1, digitalCfg, Mode.isInt, Mode.family, Ex.res, Vec.ofList]))

theorem legal2 : LegalOps cfg2 3 [] pair :=
  pair_legal ⟨by decide, by decide, by decide⟩ (Ex.legal_mat .iDiffWDiff1)
    (fun _ _ => by simp [cfg2, cfg1, digitalCfg, Mode.isInt, Mode.family])
    (Ex.three (P := fun j => LegalX cfg2 (Ex.vec.get j)) (show -2 ^ 3 ≤ Ex.vec.get 0 ∧ Ex.vec.get 0 < 2 ^ 3 by decide)
      (show -2 ^ 3 ≤ Ex.vec.get 1 ∧ Ex.vec.get 1 < 2 ^ 3 by decide)
      (show -2 ^ 3 ≤ Ex.vec.get 2 ∧ Ex.vec.get 2 < 2 ^ 3 by decide))
    (Ex.two (by simp [peak, cfg2, cfg1, digitalCfg, Mode.isInt, Mode.family, Ex.res, Vec.ofList])
      (by simp [peak, cfg2, cfg1, digitalCfg, Mode.isInt, Mode.family, Ex.res, Vec.ofList]))

theorem wider_changes : Changes Ex.env (.obj doc0) wider "I_BIT" :=
  changes_iff.2 ⟨.int 4, List.mem_singleton.2 rfl, by decide +kernel⟩

theorem wider_keeps (key : String) (hk : structural key) : ¬Changes Ex.env (.obj doc0) wider key := by
  rintro ⟨v, hv, _⟩
  have e := List.mem_singleton.1 hv
  cases e
  simp [structural] at hk

theorem remapped_changes : Changes Ex.env (.obj doc1) remapped "m_mode" :=
  changes_iff.2 ⟨_, List.mem_singleton.2 rfl, by decide +kernel⟩

theorem remapped_same (key : String) : ¬Changes Ex.env (.obj doc2) remapped key := by
  rw [changes_iff]
  rintro ⟨v, hv, h⟩
  have e := List.mem_singleton.1 hv
  cases e
  revert h
  decide +kernel

theorem metered_changes : Changes Ex.env (.obj doc3) metered "adc_type" :=
  changes_iff.2 ⟨_, List.mem_singleton.2 rfl, by decide +kernel⟩

theorem cfg4_ideal : Ideal cfg4 :=
  ⟨rfl, rfl, rfl, rfl, rfl, (by simp [Quiet, cfg4, loaded]), (by simp [cfg4, loaded]), fun h => nomatch h⟩

theorem usable4 : Usable Ex.env (.obj doc4) cfg4 :=
  usable (by decide +kernel) (fun h => nomatch h) (.inl rfl) (.inr ⟨Ex.env_exact, cfg4_ideal⟩) (fun _ => by decide)

theorem metered_legal : LegalOps cfg4 3 [] pair :=
  pair_legal ⟨le_refl 2, le_refl 3, by decide⟩ (Ex.legal_mat .bnn6) (fun h => nomatch h)
    (Ex.legal_vec .bnn6 (by decide)) (Ex.two (by decide) (by decide))

theorem metered_readable : Readable cfg4 [.write Ex.mat 2 3] Ex.res Ex.vec 2 3 "" := fun _ =>
  ⟨-15, 15, ⟨by decide, by decide, by decide, by decide +kernel, by norm_num⟩,
    Ex.two (by decide +kernel) (by decide +kernel), fun h => nomatch h⟩

/-- What the program gets to see: codes, and result buffers. -/
def seen : Reply → Option Int × List Int
  | .nothing => (none, [])
  | .code z => (some z, [])
  | .result z r => (some z, (List.range r.size).map r.get)

theorem program_ok : ∃ rs, Program Ex.env none program rs ∧ rs.map seen =
    [(some (-1), []), (some (-1), []), (none, []), (some 0, []), (some 0, [9, 17, 30]), (some (-1), []), (some 0, []),
     (some 0, [9, 17, 30]), (none, []), (some 0, []), (some 0, []), (some 0, [9, 17, 30]), (none, []), (some 0, []),
     (some 0, [9, 17, 30]), (none, []), (some 0, []), (some 0, []),
     (some 0, [10, 17, 30])] := by
  have hw : ∀ (h : List Op) i j, i < 2 → j < 3 → (lastWrite (.write Ex.mat 2 3 :: h) i j).isSome :=
    fun h i j hi hj => by simp [lastWrite, hi, hj]
  refine ⟨_, .noWrite <| .noUpdate <| .load (k := 3) usable0 <| .write (m := 2) (n := 3) (by decide) (legal_write legal0) <|
    .mvm (m := 2) (n := 3) (by decide) (legal_mvm legal0 (hw _)) (fun h => nomatch h.1) <|
    .offWrite (by show OffSize _ _ _; unfold OffSize; decide) <|
    .keep (List.nodup_singleton _) wider_keeps (patched_one wider_changes) usable1 rfl <|
    .mvm (m := 2) (n := 3) (by decide) (legal_mvm legal1 (hw _)) (fun h => nomatch h.1) <|
    .updatePb <| .rebuild (k := 3) (List.nodup_singleton _) ⟨"m_mode", by simp [structural], remapped_changes⟩
      (patched_one remapped_changes) usable2 <|
    .same (List.nodup_singleton _) remapped_same <| .write (m := 2) (n := 3) (by decide) (legal_write legal2) <|
    .mvmPb (m := 2) (n := 3) (by decide) (legal_mvm legal2 (hw _)) (fun h => nomatch h.1) <|
    .load (k := 3) usable3 <| .write (m := 2) (n := 3) (by decide) (legal_write (loaded_legal rfl 10 0)) <|
    .mvm (m := 2) (n := 3) (by decide) (legal_mvm (loaded_legal rfl 10 0) (hw _)) (fun h => absurd rfl h.2) <|
    .empty <| .rebuild (k := 3) (List.nodup_singleton _) ⟨"adc_type", by simp [structural], metered_changes⟩
      (patched_one metered_changes) usable4 <|
    .write (m := 2) (n := 3) (by decide) (legal_write metered_legal) <|
    .mvm (m := 2) (n := 3) (by decide) (legal_mvm metered_legal (hw _)) metered_readable .done, ?_⟩
  decide +kernel

end Ex'

/-- A program with nineteen calls, two configuration files and three updates.  The converter has three levels. -/
example : ∃ rs, Program Ex.env none Ex'.program rs ∧ rs.map Ex'.seen =
    [(some (-1), []), (some (-1), []), (none, []), (some 0, []), (some 0, [9, 17, 30]), (some (-1), []), (some 0, []),
     (some 0, [9, 17, 30]), (none, []), (some 0, []), (some 0, []), (some 0, [9, 17, 30]), (none, []), (some 0, []),
     (some 0, [9, 17, 30]), (none, []), (some 0, []), (some 0, []),
     (some 0, [10, 17, 30])] := Ex'.program_ok

/-- The hypotheses of `C87_reload` and `C87_boot`: an analog configuration in the initial state. -/
example : Releasable (world0 : World ℚ) ∧ Usable Ex.env (.obj Ex'.doc3) (Ex'.loaded .bnn6 10 0) ∧
    ∃ r, Program Ex.env (some ⟨.obj Ex'.doc3, Ex'.loaded .bnn6 10 0, 3, []⟩)
      [.write Ex.mat 2 3, .mvm Ex.res Ex.vec Ex.mat 2 3 ""] [.code 0, .result 0 r] :=
  ⟨.inl rfl, Ex'.usable3, _, .write (m := 2) (n := 3) (by decide) (Ex'.legal_write (Ex'.loaded_legal rfl 10 0)) <|
    .mvm (m := 2) (n := 3) (by decide)
      (Ex'.legal_mvm (Ex'.loaded_legal rfl 10 0) fun i j hi hj => by simp [lastWrite, hi, hj])
      (fun h => absurd rfl h.2) .done⟩

end Acs.Props
