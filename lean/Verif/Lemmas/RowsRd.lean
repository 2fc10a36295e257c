import Verif.Lemmas.RowsXbar

/-! # Read disturb row by row -/

set_option linter.unusedSectionVars false

namespace Acs

open Spec

section
variable {α : Type} {P : Nat → Prop} {A A' B B' : Mat α} {r j : Nat} {x : α}

theorem RowEq.symm (h : RowEq P A B) : RowEq P B A := ⟨h.rows.symm, h.cols.symm, fun r hr j => (h.get r hr j).symm⟩

theorem RowEq.trans {D : Mat α} (h : RowEq P A B) (h' : RowEq P B D) : RowEq P A D :=
  ⟨h.rows.trans h'.rows, h.cols.trans h'.cols, fun r hr j => (h.get r hr j).trans (h'.get r hr j)⟩

theorem RowEq.skip (h : A.wr r j x = .ok B) (hr : ¬P r) : RowEq P A B := by
  unfold Mat.wr at h
  split at h
  · rw [ok_inj] at h
    subst h
    refine ⟨rfl, rfl, fun k hk l => ?_⟩
    show A.get k l = if k = r ∧ l = j then x else A.get k l
    split
    · next e => exact absurd (e.1 ▸ hk) hr
    · rfl
  · cases h

/-- Both sides leave the rows of `P` alone. -/
theorem RowEq.both (h : RowEq P A A') (h1 : RowEq P A B) (h2 : RowEq P A' B') : RowEq P B B' := (h1.symm.trans h).trans h2

theorem row_updM {R N : Nat} {f g : Nat → Nat → α → C α} (h : RowEq P A A') (hf : ∀ i j a, P i → f i j a = g i j a) :
    Rel true (RowEq P) (updM R N f A) (updM R N g A') := by
  unfold updM
  refine Rel.loop' h fun c s t _ hst => Rel.loop' hst fun j s t _ hst => ?_
  refine Rel.bind (rel_cond fun hc => hst.rd hc) fun a a' ha => ?_
  exact Rel.bind (rel_cond (p := P c) fun hc => by rw [ha hc, hf c j _ hc]) fun y y' hy => hst.wr hy

end

section
variable {K : Type} [Field K] [LinearOrder K] [IsStrictOrderedRing K] [FloorRing K]
variable {E : Env K} {cfg : Cfg K} {m n i : Nat} {mat mat' res res' vec : Vec Int} {l : String} {P : Nat → Prop}

/-- The read-disturb state of the rows in `P`. -/
structure RdRow (P : Nat → Prop) (rd rd' : Rd K) : Prop where
  cycP : RowEq P rd.cycP rd'.cycP
  cycM : RowEq P rd.cycM rd'.cycM
  rdP : RowEq P rd.rdP rd'.rdP
  rdM : RowEq P rd.rdM rd'.rdM
  expTt : rd.expTt = rd'.expTt
  p : rd.p = rd'.p

def OptRd (P : Nat → Prop) : Option (Rd K) → Option (Rd K) → Prop
  | none, none => True
  | some r, some r' => RdRow P r r'
  | _, _ => False

theorem OptRd.refl : ∀ r : Option (Rd K), OptRd P r r
  | none => trivial
  | some _ => ⟨RowEq.refl _, RowEq.refl _, RowEq.refl _, RowEq.refl _, rfl, rfl⟩

theorem row_resetMat {a a' b b' : Mat Int} (h : RowEq P a a') (h' : RowEq P b b') :
    Rel true (RowEq P) (resetMat cfg a b) (resetMat cfg a' b') := by
  unfold resetMat
  exact row_updM (RowEq.refl _) fun c j x hc => by rw [h.rd hc, h'.rd hc]

theorem row_updateCycles {rd rd' : Rd K} {a a' b b' : Mat Bool} (h : RdRow P rd rd') (ha : RowEq P a a') (hb : RowEq P b b') :
    Rel true (RdRow P) (updateCycles rd a b) (updateCycles rd' a' b') := by
  unfold updateCycles
  rw [← h.cycP.rows, ← h.cycP.cols]
  refine Rel.bind (row_updM h.cycP fun c j x hc => by rw [ha.rd hc]) fun p p' hp => ?_
  exact Rel.bind (row_updM h.cycM fun c j x hc => by rw [hb.rd hc]) fun q q' hq => ⟨hp, hq, h.rdP, h.rdM, h.expTt, h.p⟩

theorem row_updateReads {rd rd' : Rd K} (h : RdRow P rd rd') :
    Rel true (RdRow P) (updateReads cfg rd m n) (updateReads cfg rd' m n) := by
  unfold updateReads
  refine Rel.bind (row_updM h.rdP fun c j x hc => rfl) fun p p' hp => ?_
  exact Rel.bind (row_updM h.rdM fun c j x hc => rfl) fun q q' hq => ⟨h.cycP, h.cycM, hp, hq, h.expTt, h.p⟩

theorem row_resetReads {rd rd' : Rd K} (h : RdRow P rd rd') :
    Rel true (RdRow P) (resetReads cfg rd) (resetReads cfg rd') := by
  unfold resetReads
  refine Rel.bind (row_updM h.rdP fun c j x hc => rfl) fun p p' hp => ?_
  exact Rel.bind (row_updM h.rdM fun c j x hc => rfl) fun q q' hq => ⟨h.cycP, h.cycM, hp, hq, h.expTt, h.p⟩

theorem rdFactor_row {rd rd' : Rd K} (h : RdRow P rd rd') (a b : Nat) : rdFactor E cfg rd a b = rdFactor E cfg rd' a b := by
  unfold rdFactor rdTime
  rw [h.expTt, h.p]

theorem row_rdUpdMat {rd rd' : Rd K} {f f' : Nat → Nat → C Nat} {cyc cyc' : Mat Nat} {gd gd' : Mat Int} {A A' : Mat K} {o o' : Bool}
    (h : RdRow P rd rd') (hf : ∀ c j, P c → f c j = f' c j) (hc : RowEq P cyc cyc') (hg : RowEq P gd gd') (hA : RowEq P A A') :
    Rel true (fun s t => RowEq P s.1 t.1) (rdUpdMat E cfg rd f cyc gd A o) (rdUpdMat E cfg rd' f' cyc' gd' A' o') := by
  unfold rdUpdMat
  rw [← hc.rows, ← hc.cols]
  refine Rel.loop' (I := fun s t : Mat K × Bool => RowEq P s.1 t.1) hA fun c s t _ hst => Rel.loop' hst fun j s t _ hst => ?_
  by_cases hp : P c
  · rw [hg.rd hp]
    refine Rel.bindEq rfl fun g => Rel.ite (fun _ => ?_) fun _ => hst
    rw [hf c j hp, hc.rd hp]
    refine Rel.bindEq rfl fun r => Rel.bindEq rfl fun k => ?_
    rw [rdFactor_row h]
    exact Rel.bindEq rfl fun x => Rel.bind (hst.wr fun _ => rfl) fun B B' hB => hB
  · have skip : ∀ {rd : Rd K} {f : Nat → Nat → C Nat} {cyc : Mat Nat} {gd : Mat Int} {s a : Mat K × Bool},
        (do
          let g ← gd.rd c j
          if g = 1 then do
            let r ← f c j
            let k ← cyc.rd c j
            let x ← rdFactor E cfg rd r k
            let A ← s.1.wr c j (E.fmul cfg.lrs x)
            .ok (A, s.2 || rdOob E k)
          else .ok s) = .ok a → RowEq P s.1 a.1 := by
      intro rd f cyc gd s a h
      rw [bind_eq_ok] at h
      obtain ⟨g, -, h⟩ := h
      split at h
      · simp only [bind_eq_ok] at h
        obtain ⟨r, -, k, -, x, -, B, hB, h⟩ := h
        rw [ok_inj] at h
        subst h
        exact RowEq.skip hB hp
      · rw [ok_inj] at h
        subst h
        exact RowEq.refl _
    exact Rel.apart fun a b ha hb => hst.both (skip ha) (skip hb)

structure RefRow (P : Nat → Prop) (s t : RefSt K) : Prop where
  A : RowEq P s.A t.A
  cyc : RowEq P s.cyc t.cyc
  rds : RowEq P s.rds t.rds
  rng : t.rng = s.rng

theorem addNoise_lrs_quiet (hl : cfg.lrsNoise ≤ 0) (r : Nat) (x : K) : addNoise E cfg r x 1 = .ok (x, r) := by
  unfold addNoise
  rw [if_neg (by decide), if_pos rfl, if_pos hl]

theorem row_rdRefMat (hl : cfg.lrsNoise ≤ 0) {gd gd' : Mat Int} {s t : RefSt K} (hg : RowEq P gd gd') (h : RefRow P s t) :
    Rel true (RefRow P) (rdRefMat E cfg gd s) (rdRefMat E cfg gd' t) := by
  unfold rdRefMat
  rw [← h.A.rows]
  refine Rel.loop' (I := fun s t => RefRow P s t) h fun c s t _ hst => ?_
  rw [← hst.A.cols]
  refine Rel.loop' (I := fun s t => RefRow P s t) hst fun j s t _ hst => ?_
  simp only [addNoise_lrs_quiet hl, ok_bind]
  by_cases hp : P c
  · rw [hg.rd hp, hst.A.rd hp]
    refine Rel.bindEq rfl fun g => Rel.ite (fun _ => ?_) fun _ => hst
    refine Rel.bindEq rfl fun x => Rel.ite (fun _ => ?_) fun _ => hst
    refine Rel.bind (hst.A.wr fun _ => rfl) fun B B' hB => ?_
    rw [hst.cyc.rd hp]
    refine Rel.bindEq rfl fun k => Rel.bind (hst.cyc.wr fun _ => rfl) fun D D' hD => ?_
    refine Rel.bind (hst.rds.wr fun _ => rfl) fun F F' hF => ?_
    exact Rel.bind Rel.any fun u u' _ => ⟨hB, hD, hF, hst.rng⟩
  · have skip : ∀ {gd : Mat Int} {s a : RefSt K},
        (do
          let g ← gd.rd c j
          if g = 1 then do
            let x ← s.A.rd c j
            if rdOutside E cfg x then do
              let A ← s.A.wr c j cfg.lrs
              let k ← s.cyc.rd c j
              let cyc ← s.cyc.wr c j (k + 1)
              let rds ← s.rds.wr c j 0
              let cnt ← addI s.cnt 1
              .ok (⟨A, cyc, rds, s.rng, cnt⟩ : RefSt K)
            else .ok s
          else .ok s) = .ok a → RefRow P s a := by
      intro gd s a h
      rw [bind_eq_ok] at h
      obtain ⟨g, -, h⟩ := h
      split at h
      · rw [bind_eq_ok] at h
        obtain ⟨x, -, h⟩ := h
        split at h
        · simp only [bind_eq_ok] at h
          obtain ⟨B, hB, k, -, D, hD, F, hF, u, -, h⟩ := h
          rw [ok_inj] at h
          subst h
          exact ⟨RowEq.skip hB hp, RowEq.skip hD hp, RowEq.skip hF hp, rfl⟩
        · rw [ok_inj] at h
          subst h
          exact ⟨RowEq.refl _, RowEq.refl _, RowEq.refl _, rfl⟩
      · rw [ok_inj] at h
        subst h
        exact ⟨RowEq.refl _, RowEq.refl _, RowEq.refl _, rfl⟩
    refine Rel.apart fun a b ha hb => ?_
    have h1 := skip ha
    have h2 := skip hb
    exact ⟨hst.A.both h1.A h2.A, hst.cyc.both h1.cyc h2.cyc, hst.rds.both h1.rds h2.rds, by rw [h2.rng, hst.rng, h1.rng]⟩

theorem row_lrsMat {gd gd' : Mat Int} {u u' : Nat} (hg : RowEq P gd gd') :
    Rel true (fun s t => RowEq P s.1 t.1) (lrsMat cfg gd u) (lrsMat cfg gd' u') := by
  unfold lrsMat
  refine Rel.loop' (I := fun s t : Mat Bool × Nat => RowEq P s.1 t.1) (RowEq.refl _) fun c s t _ hst => Rel.loop' hst fun j s t _ hst => ?_
  by_cases hp : P c
  · rw [hg.rd hp]
    refine Rel.bindEq rfl fun g => Rel.ite (fun _ => ?_) fun _ => hst
    exact Rel.bind (hst.wr fun _ => rfl) fun B B' hB => hB
  · have skip : ∀ {gd : Mat Int} {s a : Mat Bool × Nat},
        (do
          let g ← gd.rd c j
          if g = 1 then do
            let b ← s.1.wr c j true
            .ok (b, s.2 + 1)
          else .ok s) = .ok a → RowEq P s.1 a.1 := by
      intro gd s a h
      rw [bind_eq_ok] at h
      obtain ⟨g, -, h⟩ := h
      split at h
      · rw [bind_eq_ok] at h
        obtain ⟨B, hB, h⟩ := h
        rw [ok_inj] at h
        subst h
        exact RowEq.skip hB hp
      · rw [ok_inj] at h
        subst h
        exact RowEq.refl _
    exact Rel.apart fun a b ha hb => hst.both (skip ha) (skip hb)

/-- Two crossbars that agree on row `i`. -/
structure XRow (cfg : Cfg K) (i : Nat) (x x' : Xbar K) : Prop where
  mapper : MapRow cfg i x.mapper x'.mapper
  rd : OptRd (inRow cfg i) x.rd x'.rd
  writes : x'.writes = x.writes
  consec : x'.consec = x.consec
  refX : x'.refX = x.refX

theorem row_rdUpdate {c c' : Core K} {rd rd' : Rd K} {f f' q q' : Nat → Nat → C Nat}
    (hc : c' = c.put c'.gd c'.ia c'.par) (hk : PutRow cfg i c c'.gd c'.ia c'.par)
    (h : RdRow (inRow cfg i) rd rd') (hf : ∀ c j, inRow cfg i c → f c j = f' c j) (hq : ∀ c j, inRow cfg i c → q c j = q' c j) :
    Rel true (fun r r' => (r'.1 = r.1.put r'.1.gd r'.1.ia r'.1.par ∧ PutRow cfg i r.1 r'.1.gd r'.1.ia r'.1.par) ∧
      RdRow (inRow cfg i) r.2 r'.2) (rdUpdate E cfg c rd f q) (rdUpdate E cfg c' rd' f' q') := by
  generalize c'.gd = g at hc hk
  generalize c'.ia = ia at hc hk
  generalize c'.par = p at hc hk
  subst hc
  unfold rdUpdate
  refine Rel.bind (row_rdUpdMat h hf h.cycP hk.gd.p hk.ia.p) fun s s' hs => ?_
  refine Rel.ite (fun _ => ?_) fun _ => ?_
  · refine Rel.bind (row_rdUpdMat h hq h.cycM hk.gd.m hk.ia.m) fun t t' ht => ?_
    exact ⟨⟨rfl, hk.gd, ⟨hs, ht, hk.ia.pO, hk.ia.mO⟩, hk.par⟩, h.cycP, h.cycM, h.rdP, h.rdM, h.expTt, h.p⟩
  · exact ⟨⟨rfl, hk.gd, ⟨hs, hk.ia.m, hk.ia.pO, hk.ia.mO⟩, hk.par⟩, h.cycP, h.cycM, h.rdP, h.rdM, h.expTt, h.p⟩

theorem row_rdCellRefresh (hl : cfg.lrsNoise ≤ 0) {mp mp' : Mapper K} {rd rd' : Rd K} (hm : MapRow cfg i mp mp')
    (h : RdRow (inRow cfg i) rd rd') :
    Rel true (fun r r' => MapRow cfg i r.1 r'.1 ∧ RdRow (inRow cfg i) r.2.1 r'.2.1) (rdCellRefresh E cfg mp rd)
      (rdCellRefresh E cfg mp' rd') := by
  obtain ⟨k, b⟩ := mp'
  obtain ⟨hc, hk, hg⟩ := hm
  dsimp only at hc hk hg
  generalize k.gd = g at hc hk
  generalize k.ia = ia at hc hk
  generalize k.par = p at hc hk
  subst hc
  unfold rdCellRefresh
  refine Rel.bind (row_rdRefMat hl hk.gd.p ⟨hk.ia.p, h.cycP, h.rdP, hg⟩) fun s s' hs => ?_
  refine Rel.ite (fun _ => ?_) fun _ => ?_
  · refine Rel.bind (row_rdRefMat hl hk.gd.m ⟨hk.ia.m, h.cycM, h.rdM, hs.rng⟩) fun t t' ht => ?_
    exact ⟨⟨rfl, ⟨hk.gd, ⟨hs.A, ht.A, hk.ia.pO, hk.ia.mO⟩, hk.par⟩, ht.rng⟩, hs.cyc, ht.cyc, hs.rds, ht.rds, h.expTt, h.p⟩
  · exact ⟨⟨rfl, ⟨hk.gd, ⟨hs.A, hk.ia.m, hk.ia.pO, hk.ia.mO⟩, hk.par⟩, hs.rng⟩, hs.cyc, h.cycM, hs.rds, h.rdM, h.expTt, h.p⟩

section
variable (hn : cfg.hrsNoise ≤ 0 ↔ cfg.lrsNoise ≤ 0) {x x' : Xbar K}
include hn

theorem row_softwareRefresh {rd rd' : Rd K} (h : XRow cfg i x x') (hr : RdRow (inRow cfg i) rd rd') :
    Rel true (XRow cfg i) (softwareRefresh E cfg x rd) (softwareRefresh E cfg x' rd') := by
  have hd : x'.mapper.core.isDiff = x.mapper.core.isDiff := by rw [h.mapper.core]; rfl
  unfold softwareRefresh
  dsimp only
  rw [hd]
  refine Rel.bind (row_lrsMat h.mapper.row.gd.p) fun p p' hp => ?_
  refine Rel.bind (P := fun s t : Mat Bool × Nat => RowEq (inRow cfg i) s.1 t.1)
    (Rel.ite (fun _ => row_lrsMat h.mapper.row.gd.m) fun _ => show RowEq _ _ _ from RowEq.refl _) fun q q' hq => ?_
  refine Rel.bind (row_updateCycles hr hp hq) fun r r' hr => ?_
  exact Rel.bind (row_aWrite hn h.mapper) fun mp mp1 h1 => ⟨h1, hr, h.writes, rfl, by dsimp only; rw [h.refX]⟩

theorem row_rdStep (hl : cfg.strategy = .cellBased → cfg.lrsNoise ≤ 0) (h : XRow cfg i x x') :
    Rel true (XRow cfg i) (rdStep E cfg x m n) (rdStep E cfg x' m n) := by
  have h0 := h
  obtain ⟨mp', rd', w', mv', co', rx', rc'⟩ := x'
  obtain ⟨mp, rd, w, mv, co, rx, rc⟩ := x
  obtain ⟨hm, hr, h1, h2, h3⟩ := h
  dsimp only at hm hr h1 h2 h3
  subst h1 h2 h3
  unfold rdStep
  dsimp only
  cases hs : cfg.strategy with
  | off =>
    refine Rel.ite (fun _ => Rel.err) fun _ => Rel.ite (fun _ => ?_) fun _ => h0
    cases rd with
    | none =>
      cases rd' with
      | none => exact Rel.err
      | some _ => exact absurd hr id
    | some rd =>
      cases rd' with
      | none => exact absurd hr id
      | some rd' =>
        refine Rel.bind (row_rdUpdate hm.core hm.row hr (fun _ _ _ => rfl) fun _ _ _ => rfl) fun r r' e => ?_
        exact ⟨⟨e.1.1, e.1.2, hm.rng⟩, e.2, rfl, rfl, rfl⟩
  | software =>
    refine Rel.ite (fun _ => Rel.err) fun _ => Rel.ite (fun _ => ?_) fun _ => h0
    cases rd with
    | none =>
      cases rd' with
      | none => exact Rel.err
      | some _ => exact absurd hr id
    | some rd =>
      cases rd' with
      | none => exact absurd hr id
      | some rd' =>
        refine Rel.bind (row_rdUpdate hm.core hm.row hr (fun _ _ _ => rfl) fun _ _ _ => rfl) fun r r' e => ?_
        have eo : ∀ o o', rdCheckSoftware E cfg { r'.2 with oob := o } co' (w' + rx') = rdCheckSoftware E cfg { r.2 with oob := o' } co' (w' + rx') := by
          intro o o'
          unfold rdCheckSoftware rdTime
          dsimp only
          rw [e.2.expTt]
        have e2 : ∀ o o', RdRow (inRow cfg i) { r.2 with oob := o } { r'.2 with oob := o' } := fun _ _ =>
          ⟨e.2.cycP, e.2.cycM, e.2.rdP, e.2.rdM, e.2.expTt, e.2.p⟩
        rw [eo _ (r.2.oob || rdOob E (w' + rx'))]
        refine Rel.ite (fun _ => ?_) fun _ => ?_
        · exact row_softwareRefresh hn ⟨⟨e.1.1, e.1.2, hm.rng⟩, e2 _ _, rfl, rfl, rfl⟩ (e2 _ _)
        · exact ⟨⟨e.1.1, e.1.2, hm.rng⟩, e2 _ _, rfl, rfl, rfl⟩
  | cellBased =>
    cases rd with
    | none =>
      cases rd' with
      | none => exact Rel.err
      | some _ => exact absurd hr id
    | some rd =>
      cases rd' with
      | none => exact absurd hr id
      | some rd' =>
        refine Rel.bind (row_updateReads hr) fun rd rd' hr => Rel.ite (fun _ => Rel.err) fun _ => Rel.ite (fun _ => ?_) fun _ => ?_
        · refine Rel.bind (row_rdUpdate hm.core hm.row hr (fun _ _ hc => hr.rdP.rd hc) fun _ _ hc => hr.rdM.rd hc) fun r r' e => ?_
          refine Rel.bind (row_rdCellRefresh (hl hs) ⟨e.1.1, e.1.2, hm.rng⟩ e.2) fun s s' hs => ?_
          exact ⟨hs.1, hs.2, rfl, rfl, rfl⟩
        · exact ⟨hm, hr, rfl, rfl, rfl⟩

theorem row_xWrite (h : XRow cfg i x x') (hm : x.mapper.core.mode = cfg.mode) (hw : SameW i m n mat mat') :
    Rel true (XRow cfg i) (xWrite E cfg x mat m n) (xWrite E cfg x' mat' m n) := by
  unfold xWrite
  refine Rel.bind (P := fun r r' => MapRow cfg i r.1 r'.1 ∧ OptRd (inRow cfg i) r.2 r'.2) ?_ fun r r' hr => ?_
  · unfold xWriteD
    refine Rel.ite (fun _ => ?_) fun _ => Rel.bind (row_dWrite h.mapper hm hw) fun y y' hy => ⟨hy, h.rd⟩
    refine Rel.bind (row_dWrite h.mapper hm hw) fun y y' hy => ?_
    refine Rel.bind (row_resetMat h.mapper.row.gd.p hy.row.gd.p) fun a a' ha => ?_
    refine Rel.bind (row_resetMat h.mapper.row.gd.m hy.row.gd.m) fun b b' hb => ?_
    have hr := h.rd
    revert hr
    cases x.rd with
    | none =>
      cases x'.rd with
      | none => exact fun _ => Rel.err
      | some _ => exact fun hr => absurd hr id
    | some rd =>
      cases x'.rd with
      | none => exact fun hr => absurd hr id
      | some rd' =>
        intro hr
        refine Rel.bind (row_updateCycles hr ha hb) fun r r' hr => ?_
        exact Rel.bind (Rel.ite (fun _ => row_resetReads hr) fun _ => hr) fun s s' hs => ⟨hy, hs⟩
  · exact Rel.bind (P := MapRow cfg i) (Rel.ite (fun _ => hr.1) fun _ => row_aWrite hn hr.1) fun y y' hy =>
      ⟨hy, hr.2, by dsimp only; rw [h.writes], rfl, h.refX⟩

theorem row_xMvm (hl : cfg.readDisturb = true → cfg.strategy = .cellBased → cfg.lrsNoise ≤ 0) (h : XRow cfg i x x')
    (hs : Shape E cfg x) (hs' : Shape E cfg x') (hr : On (· = i) res res') :
    Rel true (fun r r' => XRow cfg i r.1 r'.1 ∧ On (· = i) r.2 r'.2) (xMvm E cfg x res vec mat m n l)
      (xMvm E cfg x' res' vec mat' m n l) := by
  have ha := hs'.aux
  have hmode := coreShape_mode hs.core
  unfold xMvm
  dsimp only
  refine Rel.ite (fun _ => ?_) fun _ => ?_
  · refine Rel.bind (P := fun r r' => ResRow i r r' ∧ r.1.rng = x.mapper.aux.rng ∧ r'.1.rng = x'.mapper.aux.rng)
      (Rel.with ?_ (fun a h => rng_dMvm.of_ok h) fun a h => rng_dMvm.of_ok h) fun r r' hr => ?_
    · rw [h.mapper.core]
      exact row_dMvm (hs.aux.sim ha) h.mapper.row hr hmode
    · exact ⟨⟨⟨h.mapper.core, h.mapper.row, by dsimp only; rw [hr.2.1, hr.2.2, h.mapper.rng]⟩, h.rd, h.writes,
        by dsimp only; rw [h.consec], h.refX⟩, hr.1⟩
  · refine Rel.bind (P := fun mp mp' => MapRow cfg i mp mp' ∧ (mp.core.mode = cfg.mode ∧ AuxShape cfg mp.aux) ∧ AuxShape cfg mp'.aux)
      (Rel.with (Rel.ite (fun _ => row_addC2C hn h.mapper) fun _ => h.mapper) (fun mp hmp => ?_) fun mp hmp => ?_)
      fun mp mp1 h1 => ?_
    · split at hmp
      · obtain ⟨-, f, -, e⟩ := addC2C_frame hmp
        refine ⟨f.mode.trans hmode, ?_⟩
        rw [e]
        exact ⟨hs.aux.vdP, hs.aux.vdM, hs.aux.vdSlice, hs.aux.tmpInt, hs.aux.tmpFp, hs.aux.tmp, hs.aux.tmpP, hs.aux.tmpM,
          hs.aux.tmpLsb, hs.aux.tmpMsb, hs.aux.resFp⟩
      · rw [ok_inj] at hmp
        subst hmp
        exact ⟨hmode, hs.aux⟩
    · split at hmp
      · obtain ⟨-, f, -, e⟩ := addC2C_frame hmp
        rw [e]
        exact ⟨ha.vdP, ha.vdM, ha.vdSlice, ha.tmpInt, ha.tmpFp, ha.tmp, ha.tmpP, ha.tmpM,
          ha.tmpLsb, ha.tmpMsb, ha.resFp⟩
      · rw [ok_inj] at hmp
        subst hmp
        exact ha
    obtain ⟨hm1, ⟨hmo, hA⟩, hA'⟩ := h1
    refine Rel.bind (P := fun r r' => ResRow i r r' ∧ r.1.rng = mp.aux.rng ∧ r'.1.rng = mp1.aux.rng)
      (Rel.with ?_ (fun a h => rng_aMvm.of_ok h) fun a h => rng_aMvm.of_ok h) fun r r' hr => ?_
    · rw [hm1.core]
      exact row_aMvm (hA.sim hA') hm1.row hr hmo
    have hm2 : MapRow cfg i { mp with aux := r.1 } { mp1 with aux := r'.1 } :=
      ⟨hm1.core, hm1.row, by dsimp only; rw [hr.2.1, hr.2.2, hm1.rng]⟩
    refine Rel.bind (P := MapRow cfg i) (Rel.ite (fun _ => row_removeC2C hm2) fun _ => hm2) fun mp mp1 h3 => ?_
    have h4 : XRow cfg i { x with mapper := mp, mvms := x.mvms + 1, consec := x.consec + 1 }
        { x' with mapper := mp1, mvms := x'.mvms + 1, consec := x'.consec + 1 } :=
      ⟨h3, h.rd, h.writes, by dsimp only; rw [h.consec], h.refX⟩
    refine Rel.bind (P := XRow cfg i) ?_ fun y y' hy => ⟨hy, hr.1⟩
    cases hd : cfg.readDisturb with
    | true => exact row_rdStep hn (hl hd) h4
    | false => exact h4

theorem row_exec (hl : cfg.readDisturb = true → cfg.strategy = .cellBased → cfg.lrsNoise ≤ 0) {ops ops' : List Op}
    (ho : List.Forall₂ (SameForRow i) ops ops') (h : XRow cfg i x x') (hs : Shape E cfg x) (hs' : Shape E cfg x') :
    Rel true (fun r r' => XRow cfg i r.1 r'.1 ∧ SameEntry i r.2 r'.2) (exec E cfg x ops) (exec E cfg x' ops') := by
  induction ho generalizing x x' with
  | nil => exact ⟨h, List.Forall₂.nil⟩
  | cons h1 _ ih =>
    rename_i op op' _ _ _
    cases op with
    | write mat m n =>
      cases op' with
      | mvm _ _ _ _ _ _ => exact absurd h1 id
      | write mat' m' n' =>
        obtain ⟨rfl, rfl, hw⟩ := h1
        exact Rel.bind (Rel.with (row_xWrite hn h (coreShape_mode hs.core) hw) (fun y hy => xWrite_shape hs hy)
          fun y hy => xWrite_shape hs' hy) fun y y' hy => ih hy.1 hy.2.1 hy.2.2
    | mvm res vec mat m n l =>
      cases op' with
      | write _ _ _ => exact absurd h1 id
      | mvm res' vec' mat' m' n' l' =>
        obtain ⟨rfl, rfl, rfl, rfl, hz, hg⟩ := h1
        have hr : On (· = i) res res' := ⟨hz, fun j hj hl => by subst hj; exact hg hl⟩
        refine Rel.bind (Rel.with (row_xMvm hn hl h hs hs' hr) (fun y hy => xMvm_shape hs hy) fun y hy => xMvm_shape hs' hy)
          fun y y' hy => Rel.bind (ih hy.1.1 hy.2.1 hy.2.2) fun z z' hz => ⟨hz.1, List.Forall₂.cons ?_ hz.2⟩
        exact ⟨hy.1.2.size, fun hl => hy.1.2.get i rfl hl⟩

end

end

end Acs
