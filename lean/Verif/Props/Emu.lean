import Verif.Lemmas.EmuInv
import Verif.Props.ExApi
import Verif.Props.Api

/-!
# The emulation library: C51, C61
-/

namespace Acs.Props

open Finset Spec

variable {S : Type} {res vec mat r : Vec Int} {m n c : Int} {l : String} {w w' : Emu S}

/-- C51.  Without a callback, whenever `exe_mvm` returns it has added the exact product of the passed matrix
with the passed vector, for all sizes (a negative size counts as 0) and all buffers; it returns 0, and leaves
the other buffers, the callbacks and the host alone. -/
theorem C51_mvm_exact {bufs : Vec Int × Vec Int × Vec Int} (hcb : w.mvmCb = none)
    (h : emuMvm res vec mat m n l w = .ok (w', bufs, c)) :
    Adds bufs.1 res (entry mat n.toNat) vec m.toNat n.toNat ∧ bufs.2 = (vec, mat) ∧ c = 0 ∧
      w'.host = w.host ∧ w'.mvmCb = none ∧ w'.cpyCb = w.cpyCb ∧ w'.updCb = w.updCb := by
  unfold emuMvm at h
  rw [hcb] at h
  dsimp only at h
  rw [bind_eq_ok] at h
  obtain ⟨r, hr, h⟩ := h
  rw [ok_inj, Prod.mk.injEq, Prod.mk.injEq] at h
  obtain ⟨rfl, rfl, rfl⟩ := h
  have e := accG_addI_inv (f := fun i j => entry mat n.toNat i j * vec.get j)
    (fun i j x _ hj hx => emuTerm_inv (by omega) hx) hr
  refine ⟨?_, rfl, rfl, ?_⟩
  · subst e
    exact ⟨rfl, fun i hi => if_pos hi, fun i hi => if_neg (by omega)⟩
  · split
    · exact ⟨rfl, hcb, rfl, rfl⟩
    · exact ⟨rfl, rfl, rfl, rfl⟩

/-- C51.  It does return, without undefined behaviour, if the buffers have the passed sizes, the matrix has at
most `2^31` entries (the index is an `int32_t`) and products and partial sums fit into `int32_t`. -/
theorem C51_mvm_returns {a b : Nat} (hcb : w.mvmCb = none) (hres : a ≤ res.size) (hvec : b ≤ vec.size)
    (hmat : a * b ≤ mat.size) (hidx : a * b ≤ 2147483648)
    (hp : ∀ i j, i < a → j < b → InI32 (entry mat b i j * vec.get j))
    (hs : ∀ i k, i < a → k ≤ b → InI32 (res.get i + ∑ j ∈ range k, entry mat b i j * vec.get j)) :
    ∃ w' r, emuMvm res vec mat a b l w = .ok (w', (r, vec, mat), 0) ∧ Adds r res (entry mat b) vec a b := by
  unfold emuMvm
  rw [hcb]
  dsimp only
  rw [Int.toNat_natCast, Int.toNat_natCast, accG_emu hres hvec hmat hidx hp hs, ok_bind]
  exact ⟨_, _, rfl, rfl, fun i hi => if_pos hi, fun i hi => if_neg (by omega)⟩

/-- A 2×3 product; the state is the initial one. -/
example : ∃ w' r, emuMvm Ex.res Ex.vecI Ex.matI 2 3 "" (emu0 ()) = .ok (w', (r, Ex.vecI, Ex.matI), 0) ∧
    Adds r Ex.res (entry Ex.matI 3) Ex.vecI 2 3 ∧ prod (entry Ex.matI 3) Ex.vecI 3 0 ≠ 0 := by
  have key := C51_mvm_returns (w := emu0 ()) (res := Ex.res) (vec := Ex.vecI) (mat := Ex.matI) (a := 2) (b := 3)
    (l := "") rfl (by decide) (by decide) (by decide) (by decide)
    (fun i j hi hj => by
      have : ∀ i < 2, ∀ j < 3, InI32 (entry Ex.matI 3 i j * Ex.vecI.get j) := by decide
      exact this i hi j hj)
    (fun i k hi hk => by
      have : ∀ i < 2, ∀ k < 4, InI32 (Ex.res.get i + ∑ j ∈ range k, entry Ex.matI 3 i j * Ex.vecI.get j) := by
        decide
      exact this i hi k (by omega))
  obtain ⟨w', r, h1, h2⟩ := key
  exact ⟨w', r, h1, h2, by decide⟩

/-- C51.  The intermediate sums matter, not only the final one: here the product is 0, but the first addition
overflows. -/
theorem C51_overflow : emuMvm (Vec.ofList [2147483647]) (Vec.ofList [1, 1]) (Vec.ofList [1, -1]) 1 2 "" (emu0 ()) =
    .error .overflow := rfl

/-- C51.  With a callback `exe_mvm` is the callback on exactly the passed arguments: it returns iff the
callback does, with the buffers the callback left and 0, and changes nothing besides what the callback
changed. -/
theorem C51_mvm_forwards {bufs : Vec Int × Vec Int × Vec Int} {f : MvmCb S} (hcb : w.mvmCb = some f) :
    emuMvm res vec mat m n l w = .ok (w', bufs, c) ↔
      ∃ code, f w.host res vec mat m n l = .ok (w'.host, bufs, code) ∧ w' = { w with host := w'.host } ∧
        c = 0 := by
  unfold emuMvm
  rw [hcb]
  dsimp only
  rw [bind_eq_ok]
  constructor
  · rintro ⟨⟨s, b, k⟩, h1, h2⟩
    rw [ok_inj, Prod.mk.injEq, Prod.mk.injEq] at h2
    obtain ⟨rfl, rfl, rfl⟩ := h2
    exact ⟨k, h1, rfl, rfl⟩
  · rintro ⟨k, h1, h2, rfl⟩
    refine ⟨_, h1, ?_⟩
    rw [h2]

/-- A callback that stores the vector in the host, writes a result and reports an error. -/
example : ∃ w', emuMvm Ex.res Ex.vecI Ex.matI 2 3 "layer" (setMvmCb (some fun _ r v t m n l =>
      .ok ((v.toList, m, n, l), (⟨r.size, fun _ => 7⟩, v, t), -1)) (emu0 ([], 0, 0, ""))) =
    .ok (w', (⟨3, fun _ => 7⟩, Ex.vecI, Ex.matI), 0) ∧ w'.host = (Ex.vecI.toList, 2, 3, "layer") :=
  ⟨_, rfl, rfl⟩

/-- C51.  If the callback does not return, neither does `exe_mvm`. -/
theorem C51_mvm_faults {f : MvmCb S} {e : Fault} (hcb : w.mvmCb = some f) :
    emuMvm res vec mat m n l w = .error e ↔ f w.host res vec mat m n l = .error e := by
  unfold emuMvm
  rw [hcb]
  dsimp only
  cases f w.host res vec mat m n l with
  | error e' => constructor <;> (intro h; cases h; rfl)
  | ok a => exact ⟨fun h => (by cases h), fun h => (by cases h)⟩

/-- C51.  Without callbacks `cpy_mtrx` and `update_config` return 0 and do nothing but print a warning. -/
theorem C51_noops (json : String) :
    (w.cpyCb = none → ∃ w1, emuCpy mat m n l w = .ok (w1, mat, 0) ∧
      w1 = { w with out := w1.out
                    warnCpy := w1.warnCpy }) ∧
    (w.updCb = none → ∃ w1, emuUpdate json l w = .ok (w1, 0) ∧
      w1 = { w with out := w1.out
                    warnUpd := w1.warnUpd }) := by
  constructor <;> intro h
  · unfold emuCpy
    rw [h]
    refine ⟨_, rfl, ?_⟩
    split <;> rw [← h]
  · unfold emuUpdate
    rw [h]
    refine ⟨_, rfl, ?_⟩
    split <;> rw [← h]

example : (emu0 ()).cpyCb = none ∧ (emu0 ()).updCb = none := ⟨rfl, rfl⟩

/-- C51.  With callbacks they are forwarded like `exe_mvm`. -/
theorem C51_others_forward {json : String} {f : CpyCb S} {g : UpdCb S} :
    (w.cpyCb = some f → (emuCpy mat m n l w = .ok (w', r, c) ↔
      ∃ code, f w.host mat m n l = .ok (w'.host, r, code) ∧ w' = { w with host := w'.host } ∧ c = 0)) ∧
    (w.updCb = some g → (emuUpdate json l w = .ok (w', c) ↔
      ∃ code, g w.host json l = .ok (w'.host, code) ∧ w' = { w with host := w'.host } ∧ c = 0)) := by
  constructor <;> intro hcb
  · unfold emuCpy
    rw [hcb]
    dsimp only
    rw [bind_eq_ok]
    constructor
    · rintro ⟨⟨s, b, k⟩, h1, h2⟩
      rw [ok_inj, Prod.mk.injEq, Prod.mk.injEq] at h2
      obtain ⟨rfl, rfl, rfl⟩ := h2
      exact ⟨k, h1, rfl, rfl⟩
    · rintro ⟨k, h1, h2, rfl⟩
      refine ⟨_, h1, ?_⟩
      rw [h2]
  · unfold emuUpdate
    rw [hcb]
    dsimp only
    rw [bind_eq_ok]
    constructor
    · rintro ⟨⟨s, k⟩, h1, h2⟩
      rw [ok_inj, Prod.mk.injEq] at h2
      obtain ⟨rfl, rfl⟩ := h2
      exact ⟨k, h1, rfl, rfl⟩
    · rintro ⟨k, h1, h2, rfl⟩
      refine ⟨_, h1, ?_⟩
      rw [h2]

example : (setUpdCb (some fun s _ _ => .ok (s + 1, -1)) (emu0 0)).updCb.isSome ∧
    (setCpyCb (some fun s t _ _ _ => .ok (s + 1, t, -1)) (emu0 0)).cpyCb.isSome := ⟨rfl, rfl⟩

/-! ## The warnings -/

/-- States reachable through the library by any calls and registrations. -/
inductive Emulated : Emu S → Prop
  | init (s : S) : Emulated (emu0 s)
  | setMvm {w : Emu S} (f) (h : Emulated w) : Emulated (setMvmCb f w)
  | setCpy {w : Emu S} (f) (h : Emulated w) : Emulated (setCpyCb f w)
  | setUpd {w : Emu S} (f) (h : Emulated w) : Emulated (setUpdCb f w)
  | mvm {w w' : Emu S} {res vec mat m n l b c} (h : Emulated w)
      (h' : emuMvm res vec mat m n l w = .ok (w', b, c)) : Emulated w'
  | cpy {w w' : Emu S} {mat m n l b c} (h : Emulated w) (h' : emuCpy mat m n l w = .ok (w', b, c)) : Emulated w'
  | upd {w w' : Emu S} {j l c} (h : Emulated w) (h' : emuUpdate j l w = .ok (w', c)) : Emulated w'

/-- C51.  Whatever is called, the library itself prints at most three lines, no line twice. -/
theorem C51_warns_once (h : Emulated w) : w.out.Nodup ∧ w.out.length ≤ 3 := by
  let A := "Function pointer mvm_c_to_py not set. Emulate operation instead."
  let B := "Function pointer cpy_c_to_py not set. Emulate operation instead."
  let D := "Function pointer update_config_c_to_py not set. Emulate operation instead."
  have hAB : A ≠ B := by decide
  have hAD : A ≠ D := by decide
  have hBD : B ≠ D := by decide
  have key : w.out.Nodup ∧ (∀ s ∈ w.out, (s = A ∧ w.warnMvm = true) ∨ (s = B ∧ w.warnCpy = true) ∨
      (s = D ∧ w.warnUpd = true)) := by
    induction h with
    | init s => exact ⟨List.nodup_nil, fun s hs => by cases hs⟩
    | setMvm f h ih => exact ih
    | setCpy f h ih => exact ih
    | setUpd f h ih => exact ih
    | @mvm w w' res vec mat m n l b c h h' ih =>
      unfold emuMvm at h'
      cases hcb : w.mvmCb with
      | none =>
        rw [hcb] at h'
        dsimp only at h'
        rw [bind_eq_ok] at h'
        obtain ⟨r, _, h'⟩ := h'
        rw [ok_inj, Prod.mk.injEq] at h'
        obtain ⟨rfl, _⟩ := h'
        by_cases hw : w.warnMvm = true
        · rw [if_pos hw]; exact ih
        · rw [if_neg hw]
          refine ⟨List.nodup_append.2 ⟨ih.1, List.nodup_singleton _, fun a ha b hb => ?_⟩, fun s hs => ?_⟩
          · rw [List.mem_singleton.1 hb]
            rcases ih.2 a ha with ⟨_, h⟩ | ⟨h, _⟩ | ⟨h, _⟩
            · exact absurd h hw
            · rw [h]; exact hAB.symm
            · rw [h]; exact hAD.symm
          · rcases List.mem_append.1 hs with hs | hs
            · rcases ih.2 s hs with ⟨_, h⟩ | h | h
              · exact absurd h hw
              · exact .inr (.inl h)
              · exact .inr (.inr h)
            · exact .inl ⟨List.mem_singleton.1 hs, rfl⟩
      | some f =>
        rw [hcb] at h'
        dsimp only at h'
        rw [bind_eq_ok] at h'
        obtain ⟨r, _, h'⟩ := h'
        rw [ok_inj, Prod.mk.injEq] at h'
        obtain ⟨rfl, _⟩ := h'
        exact ih
    | @cpy w w' mat m n l b c h h' ih =>
      unfold emuCpy at h'
      cases hcb : w.cpyCb with
      | none =>
        rw [hcb] at h'
        dsimp only at h'
        rw [ok_inj, Prod.mk.injEq] at h'
        obtain ⟨rfl, _⟩ := h'
        by_cases hw : w.warnCpy = true
        · rw [if_pos hw]; exact ih
        · rw [if_neg hw]
          refine ⟨List.nodup_append.2 ⟨ih.1, List.nodup_singleton _, fun a ha b hb => ?_⟩, fun s hs => ?_⟩
          · rw [List.mem_singleton.1 hb]
            rcases ih.2 a ha with ⟨h, _⟩ | ⟨_, h⟩ | ⟨h, _⟩
            · rw [h]; exact hAB
            · exact absurd h hw
            · rw [h]; exact hBD.symm
          · rcases List.mem_append.1 hs with hs | hs
            · rcases ih.2 s hs with h | ⟨_, h⟩ | h
              · exact .inl h
              · exact absurd h hw
              · exact .inr (.inr h)
            · exact .inr (.inl ⟨List.mem_singleton.1 hs, rfl⟩)
      | some f =>
        rw [hcb] at h'
        dsimp only at h'
        rw [bind_eq_ok] at h'
        obtain ⟨r, _, h'⟩ := h'
        rw [ok_inj, Prod.mk.injEq] at h'
        obtain ⟨rfl, _⟩ := h'
        exact ih
    | @upd w w' j l c h h' ih =>
      unfold emuUpdate at h'
      cases hcb : w.updCb with
      | none =>
        rw [hcb] at h'
        dsimp only at h'
        rw [ok_inj, Prod.mk.injEq] at h'
        obtain ⟨rfl, _⟩ := h'
        by_cases hw : w.warnUpd = true
        · rw [if_pos hw]; exact ih
        · rw [if_neg hw]
          refine ⟨List.nodup_append.2 ⟨ih.1, List.nodup_singleton _, fun a ha b hb => ?_⟩, fun s hs => ?_⟩
          · rw [List.mem_singleton.1 hb]
            rcases ih.2 a ha with ⟨h, _⟩ | ⟨h, _⟩ | ⟨_, h⟩
            · rw [h]; exact hAD
            · rw [h]; exact hBD
            · exact absurd h hw
          · rcases List.mem_append.1 hs with hs | hs
            · rcases ih.2 s hs with h | h | ⟨_, h⟩
              · exact .inl h
              · exact .inr (.inl h)
              · exact absurd h hw
            · exact .inr (.inr ⟨List.mem_singleton.1 hs, rfl⟩)
      | some f =>
        rw [hcb] at h'
        dsimp only at h'
        rw [bind_eq_ok] at h'
        obtain ⟨r, _, h'⟩ := h'
        rw [ok_inj, Prod.mk.injEq] at h'
        obtain ⟨rfl, _⟩ := h'
        exact ih
  refine ⟨key.1, ?_⟩
  have hsub : w.out ⊆ [A, B, D] := fun s hs => by
    rcases key.2 s hs with ⟨h, _⟩ | ⟨h, _⟩ | ⟨h, _⟩ <;> simp [h]
  exact (List.subperm_of_subset key.1 hsub).length_le

/-- After a multiplication and two matrix copies two lines have been printed. -/
example : ∃ w : Emu Unit, Emulated w ∧ w.out.length = 2 := by
  refine ⟨_, .cpy (.cpy (.mvm (.init ()) (res := Ex.res) (vec := Ex.vecI) (mat := Ex.matI) (m := 2) (n := 3)
    (l := "") rfl) (mat := Ex.matI) (m := 2) (n := 3) (l := "") rfl) (mat := Ex.matI) (m := 2) (n := 3)
    (l := "") rfl, ?_⟩
  decide

/-! ## C61: the two libraries agree -/

section
variable {K : Type} [Field K] [LinearOrder K] [IsStrictOrderedRing K] [FloorRing K]

/-- C61.  In a digital session of the simulator library, a legal `exe_mvm` whose matrix argument is the matrix
written last gives the buffer and the code that the emulation library gives without a callback, whenever the
latter returns. -/
theorem C61_libraries_agree {E : Env K} {w : World K} {hs : List Op} (h : Session E hs w) (hok : CfgOk w.cfg)
    (hgcc : shiftsSigned w.cfg.mode → E.strict = false) (hdo : w.cfg.digitalOnly = true) {k : Nat}
    (hv : ∀ i j v, lastWrite hs i j = some v → LegalW w.cfg v)
    (hw : keepsRowSums w.cfg.mode → WidthIs k hs) {res vec mat : Vec Int} {m n : Nat} {l l' : String}
    (hl : LegalMvm w.cfg k hs res vec m n) (hm : m < 2147483648 ∧ n < 2147483648)
    (hmat : ∀ i j, i < m → j < n → entry mat n i j = stored hs i j)
    {e e' : Emu S} {bufs : Vec Int × Vec Int × Vec Int} {c : Int} (hcb : e.mvmCb = none)
    (hemu : emuMvm res vec mat m n l' e = .ok (e', bufs, c)) :
    ∃ w', exeMvm E res vec mat m n l w = .ok (w', bufs.1, c) := by
  obtain ⟨w', r, h1, h2⟩ := C57_session_exact (mat := mat) (l := l) h hok hgcc hdo hv hw hl hm
  obtain ⟨h3, -, rfl, -⟩ := C51_mvm_exact hcb hemu
  rw [Int.toNat_natCast, Int.toNat_natCast] at h3
  rw [← adds_unique h2 h3 fun i j hi hj => (hmat i j hi hj).symm]
  exact ⟨w', h1⟩

example : ∃ w w' e' bufs, Session Ex.env [.write Ex.matI 2 3] w ∧
    emuMvm Ex.res Ex.vecI Ex.matI (2 : Nat) (3 : Nat) "" (emu0 ()) = .ok (e', bufs, 0) ∧
    exeMvm Ex.env Ex.res Ex.vecI Ex.matI (2 : Nat) (3 : Nat) "" w = .ok (w', bufs.1, 0) := by
  obtain ⟨w, h1, h2, h3, h4, h5, h6⟩ := Ex.session
  have he : ∃ e' bufs, emuMvm Ex.res Ex.vecI Ex.matI (2 : Nat) (3 : Nat) "" (emu0 ()) = .ok (e', bufs, 0) :=
    ⟨_, _, rfl⟩
  obtain ⟨e', bufs, he⟩ := he
  obtain ⟨w', h⟩ := C61_libraries_agree (l := "") h1 h2 (fun _ => rfl) h3 h4 h5 h6 (by decide)
    (fun i j hi hj => by simp [stored, lastWrite, hi, hj, entry]) rfl he
  exact ⟨w, w', e', bufs, h1, he, h⟩

end

end Acs.Props
