import Verif.Lemmas.EmuRun
import Verif.Props.ExApi

/-!
# Programs that use the emulation library: C93
-/

namespace Acs.Props

open Finset Spec

variable {S : Type} {cs : List (EmuCall S)} {s : S}

/-- C93.  Whenever a program of registrations and calls returns, every reply is the one described by
`CallReply`: a call goes to the callback registered last for this function, with the arguments passed and the
state of the host at that time, and without one a multiplication adds the exact product and the other calls do
nothing.  The library has printed exactly the lines `printed` names, in this order, and nothing else of the
host has changed. -/
theorem C93_replies {w : Emu S} {rs : List EmuReply} (h : emuRun cs (emu0 s) = .ok (w, rs)) :
    Replies [] s cs rs w.host ∧ w.out = printed cs.reverse := by
  obtain ⟨t, h⟩ := (emuTracks0 s).run h
  rw [List.append_nil] at t
  exact ⟨h, t.out⟩

/-- C93.  There is only one list of replies and one final state of the host that fit the description. -/
theorem C93_unique {s' t' : S} {rs qs : List EmuReply} (h : Replies [] s cs rs s') (h' : Replies [] s cs qs t') :
    rs = qs ∧ s' = t' := replies_unique h h'

/-- C93.  A program returns if its callbacks do and the multiplications made while no callback is registered
fit: no call leaves the library in a state in which a later one fails. -/
theorem C93_returns (hr : ∀ c ∈ cs, Responds c) (hf : FitsWhenEmulated [] cs) :
    ∃ w rs, emuRun cs (emu0 s) = .ok (w, rs) :=
  (emuTracks0 s).goesAll (fun _ h => by cases h) hr hf

/-- C93.  The same from any later point: what was called before only matters through the callbacks registered
last and the state of the host. -/
theorem C93_resumes {cs' : List (EmuCall S)} {w w' : Emu S} {rs qs : List EmuReply}
    (h : emuRun cs (emu0 s) = .ok (w, rs)) (h' : emuRun cs' w = .ok (w', qs)) :
    Replies cs.reverse w.host cs' qs w'.host ∧ w'.out = printed (cs'.reverse ++ cs.reverse) := by
  obtain ⟨t, -⟩ := (emuTracks0 s).run h
  rw [List.append_nil] at t
  obtain ⟨t', h'⟩ := t.run h'
  exact ⟨h', t'.out⟩

namespace Ex'

/-- A callback that counts its calls, writes 7 everywhere and reports an error. -/
def counts : MvmCb Nat := fun s r v t _ _ _ => .ok (s + 1, (⟨r.size, fun _ => 7⟩, v, t), -1)

/-- Two emulated multiplications, one through a callback in between, and a configuration. -/
def emuProgram : List (EmuCall Nat) :=
  [.mvm Ex.res Ex.vecI Ex.matI 2 3 "a", .setMvm (some counts), .mvm Ex.res Ex.vecI Ex.matI 2 3 "b", .setMvm none,
    .mvm Ex.res Ex.vecI Ex.matI 2 3 "c", .upd "{}" "d"]

theorem emuProgram_ok : (∀ c ∈ emuProgram, Responds c) ∧ FitsWhenEmulated [] emuProgram := by
  have hp : ∀ i < 2, ∀ j < 3, InI32 (entry Ex.matI 3 i j * Ex.vecI.get j) := by decide
  have hs : ∀ i < 2, ∀ k < 4, InI32 (Ex.res.get i + ∑ j ∈ range k, entry Ex.matI 3 i j * Ex.vecI.get j) := by
    decide
  have hf : ∀ l, Fits (S := Nat) (.mvm Ex.res Ex.vecI Ex.matI 2 3 l) := fun l =>
    ⟨by decide, by decide, by decide, by decide, fun i j hi hj => hp i hi j hj,
      fun i k hi hk => hs i hi k (by change k ≤ 3 at hk; omega)⟩
  constructor
  · intro c hc
    simp only [emuProgram, List.mem_cons, List.not_mem_nil, or_false] at hc
    rcases hc with rfl | rfl | rfl | rfl | rfl | rfl
    · trivial
    · exact fun _ _ _ _ _ _ _ => ⟨_, rfl⟩
    all_goals trivial
  · exact ⟨fun _ => hf _, fun _ => trivial, fun _ => hf _, fun _ => trivial, fun _ => hf _, fun _ => trivial,
      trivial⟩

end Ex'

/-- The host has counted one call, and two lines were printed although three calls were emulated. -/
example : ∃ w rs, emuRun Ex'.emuProgram (emu0 0) = .ok (w, rs) ∧ w.host = 1 ∧ w.out.length = 2 ∧
    rs.length = 6 := by
  obtain ⟨w, rs, h⟩ := C93_returns (s := 0) Ex'.emuProgram_ok.1 Ex'.emuProgram_ok.2
  refine ⟨w, rs, h, ?_, by rw [(C93_replies h).2]; decide, ?_⟩
  · obtain ⟨r1, t1, q1, -, h1, r2, t2, q2, -, h2, r3, t3, q3, -, h3, r4, t4, q4, -, h4, r5, t5, q5, -, h5, r6,
      t6, q6, -, h6, h7⟩ := (C93_replies h).1
    obtain ⟨y1, -, rfl, -⟩ := h1
    obtain ⟨-, rfl⟩ := h2
    obtain ⟨a, b, c, d, h3, -⟩ := h3
    obtain ⟨-, rfl⟩ := h4
    obtain ⟨y2, -, rfl, -⟩ := h5
    obtain ⟨-, rfl⟩ := h6
    rw [h7.2]
    simp only [Ex'.counts, ok_inj, Prod.mk.injEq] at h3
    exact h3.1.symm
  · obtain ⟨r1, t1, q1, rfl, h1, r2, t2, q2, rfl, h2, r3, t3, q3, rfl, h3, r4, t4, q4, rfl, h4, r5, t5, q5, rfl,
      h5, r6, t6, q6, rfl, h6, h7⟩ := (C93_replies h).1
    rw [h7.1]
    rfl

example : ∃ w w' rs qs, emuRun Ex'.emuProgram (emu0 0) = .ok (w, rs) ∧
    emuRun [.mvm Ex.res Ex.vecI Ex.matI 2 3 ""] w = .ok (w', qs) := ⟨_, _, _, _, rfl, rfl⟩

example : ∃ rs s', Replies [] 0 Ex'.emuProgram rs s' := by
  obtain ⟨w, rs, h⟩ := C93_returns (s := 0) Ex'.emuProgram_ok.1 Ex'.emuProgram_ok.2
  exact ⟨_, _, (C93_replies h).1⟩

end Acs.Props
