import Verif.Props.Witness
import Verif.Proofs.VecScan

/-!
# C09, C10: retain and dedup
-/

namespace Lokky
variable {α : Type} {c : Cfg α}
open Spec (answers accepted rejected runs keyRuns)

theorem onBuf_scanned {s : VSt α} {l K : List α} {r : List (α × Bool)} {n : Nat} {m : M (Buf α) Unit}
    {P Q : Prop} (hs : c.size ≠ 0) (h : Rep c s.self s.w l) (hw : s.w.WF)
    (hm : ∀ b, BRep b l → Sat c (m b) (fun _ b' => Scanned K r n b b' ∧ P)
      (fun b' => Scanned K r n b b' ∧ Q)) :
    Sat c (Vec.onBuf c m s) (fun _ s' => Trans c (K ++ accepted r) (rejected r) s s' ∧ P)
      (fun s' => Trans c (K ++ accepted r) (rejected r) s s' ∧ Q) :=
  onBuf_sat0 (hm _ (h.brep hs))
    (fun _ _ hq => ⟨putBuf_trans hs h hw hq.1.trans, hq.2⟩)
    (fun _ hq => ⟨putBuf_trans hs h hw hq.1.trans, hq.2⟩)

/-! ## C09 -/

/-- C09 does not hold: when the first of two or more elements is accepted, the second one is never
shown to the predicate, is not kept, and is not dropped either. -/
theorem C09_retain_loses_second {s : VSt α} {a x : α} {R : List α} (hs : c.size ≠ 0)
    (hd : ∀ a, c.dropPanics a = false) (h : Rep c s.self s.w (a :: x :: R)) (hw : s.w.WF)
    (f : Nat → α → Option Bool) (hf : f 0 a = some true) :
    Sat c (Vec.retain c f s)
      (fun _ s' => Trans c (a :: accepted (answers f 1 R)) (rejected (answers f 1 R)) s s' ∧
        (answers f 1 R).length = R.length)
      (fun s' => Trans c (a :: accepted (answers f 1 R)) (rejected (answers f 1 R)) s s' ∧
        (answers f 1 R).length < R.length) :=
  onBuf_scanned (K := [a]) (n := R.length) hs h hw
    (fun b hb => by simpa using retainBuf_keep hs hd f hb hf)

/-- What C09 asks for: `retain` shows every element to the predicate, in order, keeps the accepted
ones and drops the rejected ones. -/
def RetainCorrect (c : Cfg α) : Prop :=
  ∀ (s : VSt α) (l : List α) (f : Nat → α → Option Bool), Rep c s.self s.w l → s.w.WF →
    Sat c (Vec.retain c f s)
      (fun _ s' => Trans c (accepted (answers f 0 l)) (rejected (answers f 0 l)) s s')
      (fun _ => (answers f 0 l).length < l.length)

/-- C09 does not hold, for any element type and build. -/
theorem C09_retain_refuted (hs : c.size ≠ 0) (hd : ∀ a, c.dropPanics a = false) (hf : c.Fits 2) :
    ¬ RetainCorrect c := by
  intro h
  let l := [c.zst, c.zst]
  have hr : Rep c (stored c l 2).self (stored c l 2).w l := stored_rep (by omega) (by simp [l]) hf
  have h1 := h (stored c l 2) l (fun _ _ => some true) hr stored_wf
  have h2 := C09_retain_loses_second hs hd hr stored_wf (fun _ _ => some true) rfl
  cases hres : Vec.retain c (fun _ _ => some true) (stored c l 2) with
  | ok u s' =>
    rw [hres] at h1 h2
    have e1 := h1.rep.len
    have e2 := h2.1.rep.len
    rw [e1] at e2
    simp [l, answers, accepted] at e2
  | panic s' => rw [hres] at h2; simp [answers] at h2; exact h2.elim
  | abort => rw [hres] at h2; obtain ⟨a, ha⟩ := h2; rw [hd a] at ha; cases ha
  | ub u => rw [hres] at h2; exact h2

/-- C09, the part that holds: `retain` is right on vectors of at most one element, and whenever the
predicate rejects the first element. If the predicate panics, the vector keeps what was accepted
before (the whole vector if the very first call panics).
Missing: vectors whose first element is accepted, for which it is false. -/
theorem C09_retain_partial {s : VSt α} {l : List α} (hs : c.size ≠ 0)
    (hd : ∀ a, c.dropPanics a = false) (h : Rep c s.self s.w l) (hw : s.w.WF)
    (f : Nat → α → Option Bool)
    (hf : l.length ≤ 1 ∨ ∃ a, l.head? = some a ∧ f 0 a = some false) :
    Sat c (Vec.retain c f s)
      (fun _ s' => Trans c (accepted (answers f 0 l)) (rejected (answers f 0 l)) s s' ∧
        (answers f 0 l).length = l.length)
      (fun s' => Trans c l [] s s' ∨
        Trans c (accepted (answers f 0 l)) (rejected (answers f 0 l)) s s' ∧
        (answers f 0 l).length < l.length) := by
  refine onBuf_sat0 (retainBuf_ok hs hd f (h.brep hs) hf)
    (fun _ _ hq => ⟨putBuf_trans hs h hw hq.1.trans, hq.2⟩) ?_
  rintro b (⟨h1, _⟩ | ⟨h1, h2⟩)
  · exact Or.inl (putBuf_trans hs h hw h1)
  · exact Or.inr ⟨putBuf_trans hs h hw h1.trans, h2⟩

/-- Contents and dropped elements if the run returned. -/
def lookDrops {β : Type} (r : Res (VSt Nat) β) : Option (List (Option Nat) × List Nat) :=
  match r with
  | .ok _ s => some ((s.w.slots s.self.ptr).take s.self.len, s.w.log.drops)
  | _ => none

/-- Keeping the even elements of `[4, 6, 1, 8]`: the 6 is lost. -/
example : lookDrops (Vec.retain cfg64 (fun _ a => some (a % 2 == 0)) (stored cfg64 [4, 6, 1, 8] 4))
    = some ([some 4, some 8], [1]) := by decide +kernel
/-- Keeping the even elements of `[3, 6, 1, 8]` is right. -/
example : lookDrops (Vec.retain cfg64 (fun _ a => some (a % 2 == 0)) (stored cfg64 [3, 6, 1, 8] 4))
    = some ([some 6, some 8], [3, 1]) := by decide +kernel

/-! ## C10 -/

/-- C10 does not hold: on two or more elements the second one is never compared, is not kept, and is
not dropped either; the scan goes on with the third. -/
theorem C10_dedup_by_loses_second {s : VSt α} {a x : α} {R : List α} (hs : c.size ≠ 0)
    (hd : ∀ a, c.dropPanics a = false) (h : Rep c s.self s.w (a :: x :: R)) (hw : s.w.WF)
    (same : Nat → α → α → Option Bool) :
    Sat c (Vec.dedupBy c (fun k a b => (same k a b).map fun r => (r, a, b)) s)
      (fun _ s' => Trans c (a :: accepted (runs same 0 a R)) (rejected (runs same 0 a R)) s s' ∧
        (runs same 0 a R).length = R.length)
      (fun s' => Trans c (a :: accepted (runs same 0 a R)) (rejected (runs same 0 a R)) s s' ∧
        (runs same 0 a R).length < R.length) :=
  onBuf_scanned (K := [a]) (n := R.length) hs h hw
    (fun b hb => by simpa using dedupByBuf_spec hs hd same hb)

/-- The same for `dedup_by_key`. -/
theorem C10_dedup_by_key_loses_second {κ : Type} [DecidableEq κ] {s : VSt α} {a x : α} {R : List α}
    (hs : c.size ≠ 0) (hd : ∀ a, c.dropPanics a = false) (h : Rep c s.self s.w (a :: x :: R))
    (hw : s.w.WF) (key : Nat → α → Option κ) {q : κ} (hq : key 0 a = some q) :
    Sat c (Vec.dedupByKey c (fun k a => (key k a).map fun q => (q, a)) s)
      (fun _ s' => Trans c (a :: accepted (keyRuns key 1 q R)) (rejected (keyRuns key 1 q R)) s s' ∧
        (keyRuns key 1 q R).length = R.length)
      (fun s' => Trans c (a :: accepted (keyRuns key 1 q R)) (rejected (keyRuns key 1 q R)) s s' ∧
        (keyRuns key 1 q R).length < R.length) :=
  onBuf_scanned (K := [a]) (n := R.length) hs h hw
    (fun b hb => by simpa using dedupByKeyBuf_spec hs hd key hb hq)

/-- What C10 asks of `dedup`: the first element is kept, every later one is kept iff it differs from
the last kept one, and the others are dropped. -/
def DedupCorrect (c : Cfg α) : Prop :=
  ∀ (s : VSt α) (a : α) (R : List α) (eq : α → α → Bool), Rep c s.self s.w (a :: R) → s.w.WF →
    Sat c (Vec.dedup c eq s)
      (fun _ s' => Trans c (a :: accepted (runs (fun _ x y => some (eq x y)) 0 a R))
        (rejected (runs (fun _ x y => some (eq x y)) 0 a R)) s s')
      (fun _ => False)

theorem dedup_eq (eq : α → α → Bool) :
    Vec.dedup c eq = Vec.dedupBy c (fun k a b => ((fun _ x y => some (eq x y) :
      Nat → α → α → Option Bool) k a b).map fun r => (r, a, b)) := rfl

/-- C10 does not hold, for any element type and build. -/
theorem C10_dedup_refuted (hs : c.size ≠ 0) (hd : ∀ a, c.dropPanics a = false) (hf : c.Fits 2) :
    ¬ DedupCorrect c := by
  intro h
  let l := [c.zst, c.zst]
  have hr : Rep c (stored c l 2).self (stored c l 2).w l := stored_rep (by omega) (by simp [l]) hf
  have h1 := h (stored c l 2) c.zst [c.zst] (fun _ _ => false) hr stored_wf
  have h2 := C10_dedup_by_loses_second hs hd hr stored_wf (fun _ _ _ => some false)
  rw [dedup_eq] at h1
  cases hres : Vec.dedupBy c (fun k a b => ((fun _ x y => some ((fun _ _ => false : α → α → Bool) x y) :
      Nat → α → α → Option Bool) k a b).map fun r => (r, a, b)) (stored c l 2) with
  | ok u s' =>
    rw [hres] at h1 h2
    have e1 := h1.rep.len
    have e2 := h2.1.rep.len
    rw [e1] at e2
    simp [runs, accepted] at e2
  | panic s' => rw [hres] at h1; exact h1
  | abort => rw [hres] at h2; obtain ⟨a, ha⟩ := h2; rw [hd a] at ha; cases ha
  | ub u => rw [hres] at h2; exact h2

/-- C10, the part that holds: vectors of at most one element are left alone; on longer ones the
scan is right for the first element and everything from the third on.
Missing: the second element (for which it is false) and tests that modify the elements (C119). -/
theorem C10_dedup_partial {s : VSt α} {l : List α} (hs : c.size ≠ 0)
    (hd : ∀ a, c.dropPanics a = false) (h : Rep c s.self s.w l) (hw : s.w.WF)
    (eq : α → α → Bool) :
    (l.length ≤ 1 → Vec.dedup c eq s = .ok () s) ∧
    ∀ a x R, l = a :: x :: R → Sat c (Vec.dedup c eq s)
      (fun _ s' => Trans c (a :: accepted (runs (fun _ x y => some (eq x y)) 0 a R))
        (rejected (runs (fun _ x y => some (eq x y)) 0 a R)) s s') (fun _ => False) := by
  refine ⟨fun hl => onBuf_look (dedupByBuf_small _ (h.brep hs) hl), ?_⟩
  rintro a x R rfl
  rw [dedup_eq]
  refine (C10_dedup_by_loses_second hs hd h hw _).mono (fun _ _ h => h.1) ?_
  rintro s' ⟨_, hlt⟩
  have : ∀ (R : List α) k p, (runs (fun _ x y => some (eq x y)) k p R).length = R.length := by
    intro R
    induction R with
    | nil => intros; rfl
    | cons y R ih =>
      intro k p
      simp only [runs]
      cases eq y p <;> simp [ih]
  rw [this] at hlt
  exact absurd hlt (Nat.lt_irrefl _)

example : lookDrops (Vec.dedup cfg64 (· == ·) (stored cfg64 [5, 6, 5, 7, 7, 5] 6))
    = some ([some 5, some 7, some 5], [5, 7]) := by decide +kernel

end Lokky
