import Verif.Props.SmallScan
import Verif.Proofs.VecScanMut

/-!
# C119: `dedup_by` and `dedup_by_key` with tests that change the elements

The test of `dedup_by` gets both elements by mutable reference. In the code the reference to the kept
element is the place where it was found, not the place it was moved to (vec.rs 822-823).
-/

namespace Lokky
open Spec
variable {α : Type} {c : Cfg α}

theorem onBuf_btrans {s : VSt α} {l l' d : List α} {m : M (Buf α) Unit}
    (hs : c.size ≠ 0) (h : Rep c s.self s.w l) (hw : s.w.WF)
    (hm : ∀ b, BRep b l → Sat c (m b) (fun _ b' => BTrans l' d b b') (fun _ => False)) :
    Sat c (Vec.onBuf c m s) (fun _ s' => Trans c l' d s s') (fun _ => False) :=
  onBuf_sat0 (hm _ (h.brep hs)) (fun _ _ hq => putBuf_trans hs h hw hq) (fun _ h => h)

theorem onAny_btrans {s : SSt α} {l l' d : List α} {m : M (Buf α) Unit}
    (hs : c.size ≠ 0) (h : SRep c s.self s.w l) (hw : s.w.WF)
    (hm : ∀ b, BRep b l → Sat c (m b) (fun _ b' => BTrans l' d b b') (fun _ => False)) :
    Sat c (Small.onAny c m s) (fun _ s' => STrans c l' d s s') (fun _ => False) :=
  onAny_sat hs h hw (fun b hb _ => hm b hb) (fun _ _ _ _ hq ht => ht _ _ hq) (fun _ _ _ hq _ => hq)

theorem Rep.unique {v : VecH} {w : World α} {l l' : List α} (hs : c.size ≠ 0)
    (h : Rep c v w l) (h' : Rep c v w l') : l = l' := by
  have hb := Rep.brep (s := ⟨v, w⟩) hs h
  have hb' := Rep.brep (s := ⟨v, w⟩) hs h'
  obtain ⟨r, hr⟩ := hb.holds
  obtain ⟨r', hr'⟩ := hb'.holds
  rw [hr] at hr'
  have := List.append_inj_left hr' (by simp [← hb.len, hb'.len])
  exact (List.map_inj_right (by simp)).mp this

theorem SRep.unique {v : SmallH α} {w : World α} {l l' : List α} (hs : c.size ≠ 0)
    (h : SRep c v w l) (h' : SRep c v w l') : l = l' := by
  obtain ⟨r, hr⟩ := h.slotsOf hs
  obtain ⟨r', hr'⟩ := h'.slotsOf hs
  rw [hr] at hr'
  have := List.append_inj_left hr' (by simp [← h.lenOf, h'.lenOf])
  exact (List.map_inj_right (by simp)).mp this

/-! ## What the code leaves -/

/-- What `dedup_by` does, for every test: the second element is skipped (as in C10), changes to the
first element stay, and changes to any other kept element go to a copy that is not in the vector. -/
theorem C119_dedup_by {s : VSt α} {a x : α} {R : List α} (hs : c.size ≠ 0)
    (hd : ∀ a, c.dropPanics a = false) (h : Rep c s.self s.w (a :: x :: R)) (hw : s.w.WF)
    (same : Nat → α → α → Bool × α × α) :
    Sat c (Vec.dedupBy c (fun k a b => some (same k a b)) s)
      (fun _ s' => Trans c (mergedFirst same 0 a R).1 (mergedFirst same 0 a R).2 s s')
      (fun _ => False) :=
  onBuf_btrans hs h hw fun _ hb => dedupByBuf_mut hs hd same hb

theorem C119_small_dedup_by {s : SSt α} {a x : α} {R : List α} (hs : c.size ≠ 0)
    (hd : ∀ a, c.dropPanics a = false) (h : SRep c s.self s.w (a :: x :: R)) (hw : s.w.WF)
    (same : Nat → α → α → Bool × α × α) :
    Sat c (Small.dedupBy c (fun k a b => some (same k a b)) s)
      (fun _ s' => STrans c (mergedFirst same 0 a R).1 (mergedFirst same 0 a R).2 s s')
      (fun _ => False) :=
  onAny_btrans hs h hw fun _ hb => dedupByBuf_mut hs hd same hb

/-! ## Changes are lost -/

/-- What C119 asks of `dedup_by`: changes made by the test stay. It is let off the second element,
which may be skipped. -/
def ChangesStay (c : Cfg α) : Prop :=
  ∀ (s : VSt α) (a x : α) (R : List α) (same : Nat → α → α → Bool × α × α),
    Rep c s.self s.w (a :: x :: R) → s.w.WF →
    Sat c (Vec.dedupBy c (fun k a b => some (same k a b)) s)
      (fun _ s' => ∃ m, (m = merged same 0 a (x :: R) ∨ m = merged same 0 a R) ∧
        Trans c m.1 m.2 s s')
      (fun _ => False)

/-- The same for small vectors. -/
def SChangesStay (c : Cfg α) : Prop :=
  ∀ (s : SSt α) (a x : α) (R : List α) (same : Nat → α → α → Bool × α × α),
    SRep c s.self s.w (a :: x :: R) → s.w.WF →
    Sat c (Small.dedupBy c (fun k a b => some (same k a b)) s)
      (fun _ s' => ∃ m, (m = merged same 0 a (x :: R) ∨ m = merged same 0 a R) ∧
        STrans c m.1 m.2 s s')
      (fun _ => False)

/-- A test whose second call says "same" and puts `z` in place of the kept element. -/
def putSecond (z : α) : Nat → α → α → Bool × α × α
  | 1, a, _ => (true, a, z)
  | _, a, p => (false, a, p)

/-- C119 does not hold: the second call finds the third and the fourth element the same, and changes
the kept one from `y` to `z`; the vector has `y` afterwards. -/
theorem C119_refuted (hs : c.size ≠ 0) (hd : ∀ a, c.dropPanics a = false) (hf : c.Fits 4)
    {y z : α} (hyz : y ≠ z) : ¬ ChangesStay c := by
  intro h
  have hr : Rep c (stored c [y, y, y, y] 4).self (stored c [y, y, y, y] 4).w [y, y, y, y] :=
    stored_rep (by omega) (by simp) hf
  have h1 := h (stored c [y, y, y, y] 4) y y [y, y] (putSecond z) hr stored_wf
  have h2 := C119_dedup_by hs hd hr stored_wf (putSecond z)
  cases hres : Vec.dedupBy c (fun k a b => some (putSecond z k a b)) (stored c [y, y, y, y] 4) with
  | ok u s' =>
    rw [hres] at h1 h2
    obtain ⟨m, hm, ht⟩ := h1
    have e := Rep.unique hs ht.rep h2.rep
    rcases hm with rfl | rfl <;>
      simp [merged, mergedFirst, mergedAside, putSecond] at e
    exact hyz e.symm
  | panic s' => rw [hres] at h2; exact h2
  | abort => rw [hres] at h2; obtain ⟨a, ha⟩ := h2; rw [hd a] at ha; cases ha
  | ub u => rw [hres] at h2; exact h2

theorem C119_small_refuted (hs : c.size ≠ 0) (hd : ∀ a, c.dropPanics a = false) (hf : c.Fits 4)
    {w : World α} (hw : w.WF) {y z : α} (hyz : y ≠ z) : ¬ SChangesStay c := by
  intro h
  have hr : SRep c (inline [y, y, y, y] 4 none w).self (inline [y, y, y, y] 4 none w).w
      [y, y, y, y] := inline_rep (by simp) hf
  have h1 := h (inline [y, y, y, y] 4 none w) y y [y, y] (putSecond z) hr hw
  have h2 := C119_small_dedup_by hs hd hr hw (putSecond z)
  cases hres : Small.dedupBy c (fun k a b => some (putSecond z k a b))
      (inline [y, y, y, y] 4 none w) with
  | ok u s' =>
    rw [hres] at h1 h2
    obtain ⟨m, hm, ht⟩ := h1
    have e := SRep.unique hs ht.rep h2.rep
    rcases hm with rfl | rfl <;>
      simp [merged, mergedFirst, mergedAside, putSecond] at e
    exact hyz e.symm
  | panic s' => rw [hres] at h2; exact h2
  | abort => rw [hres] at h2; obtain ⟨a, ha⟩ := h2; rw [hd a] at ha; cases ha
  | ub u => rw [hres] at h2; exact h2

/-! ## An element dropped and kept -/

/-- A test that at most swaps the two elements. -/
def SwapsOnly (same : Nat → α → α → Bool × α × α) : Prop :=
  ∀ k a p, (same k a p).2 = (a, p) ∨ (same k a p).2 = (p, a)

/-- Nothing that is dropped stays in the vector: no value is there more often, kept and dropped
together, than it was before. -/
def DropsOnce [DecidableEq α] (c : Cfg α) : Prop :=
  ∀ (s s' : VSt α) (l l' : List α) (same : Nat → α → α → Bool × α × α), SwapsOnly same →
    Rep c s.self s.w l → s.w.WF →
    Vec.dedupBy c (fun k a b => some (same k a b)) s = .ok () s' → Rep c s'.self s'.w l' →
    ∃ d, s'.w.log.drops = s.w.log.drops ++ d ∧ ∀ z, (l' ++ d).count z ≤ l.count z

/-- The same for small vectors. -/
def SDropsOnce [DecidableEq α] (c : Cfg α) : Prop :=
  ∀ (s s' : SSt α) (l l' : List α) (same : Nat → α → α → Bool × α × α), SwapsOnly same →
    SRep c s.self s.w l → s.w.WF →
    Small.dedupBy c (fun k a b => some (same k a b)) s = .ok () s' → SRep c s'.self s'.w l' →
    ∃ d, s'.w.log.drops = s.w.log.drops ++ d ∧ ∀ z, (l' ++ d).count z ≤ l.count z

/-- A test whose second call swaps the two elements and says "same". -/
def swapSecond : Nat → α → α → Bool × α × α
  | 1, a, p => (true, p, a)
  | _, a, p => (false, a, p)

theorem swapSecond_swaps : SwapsOnly (swapSecond (α := α)) := by
  intro k a p
  unfold swapSecond
  split <;> simp

/-- C119 does not hold, and memory safety with it: a test that swaps the kept element and the tested
one makes the vector drop an element that it still has. -/
theorem C119_refuted_double_drop [DecidableEq α] (hs : c.size ≠ 0)
    (hd : ∀ a, c.dropPanics a = false) (hf : c.Fits 4) {y z : α} (hyz : y ≠ z) :
    ¬ DropsOnce c := by
  intro h
  have hr : Rep c (stored c [z, z, y, z] 4).self (stored c [z, z, y, z] 4).w [z, z, y, z] :=
    stored_rep (by omega) (by simp) hf
  have h2 := C119_dedup_by hs hd hr stored_wf swapSecond
  cases hres : Vec.dedupBy c (fun k a b => some (swapSecond k a b)) (stored c [z, z, y, z] 4) with
  | ok u s' =>
    rw [hres] at h2
    obtain ⟨d, e1, e2⟩ := h _ s' _ _ swapSecond swapSecond_swaps hr stored_wf hres h2.rep
    have e3 := h2.drops
    rw [e1] at e3
    have e3 := List.append_cancel_left e3
    have := e2 y
    rw [e3] at this
    simp [mergedFirst, mergedAside, swapSecond, hyz.symm] at this
  | panic s' => rw [hres] at h2; exact h2
  | abort => rw [hres] at h2; obtain ⟨a, ha⟩ := h2; rw [hd a] at ha; cases ha
  | ub u => rw [hres] at h2; exact h2

theorem C119_small_refuted_double_drop [DecidableEq α] (hs : c.size ≠ 0)
    (hd : ∀ a, c.dropPanics a = false) (hf : c.Fits 4) {w : World α} (hw : w.WF) {y z : α}
    (hyz : y ≠ z) : ¬ SDropsOnce c := by
  intro h
  have hr : SRep c (inline [z, z, y, z] 4 none w).self (inline [z, z, y, z] 4 none w).w
      [z, z, y, z] := inline_rep (by simp) hf
  have h2 := C119_small_dedup_by hs hd hr hw swapSecond
  cases hres : Small.dedupBy c (fun k a b => some (swapSecond k a b))
      (inline [z, z, y, z] 4 none w) with
  | ok u s' =>
    rw [hres] at h2
    obtain ⟨d, e1, e2⟩ := h _ s' _ _ swapSecond swapSecond_swaps hr hw hres h2.rep
    have e3 := h2.drops
    rw [e1] at e3
    have e3 := List.append_cancel_left e3
    have := e2 y
    rw [e3] at this
    simp [mergedFirst, mergedAside, swapSecond, hyz.symm] at this
  | panic s' => rw [hres] at h2; exact h2
  | abort => rw [hres] at h2; obtain ⟨a, ha⟩ := h2; rw [hd a] at ha; cases ha
  | ub u => rw [hres] at h2; exact h2

/-- The second call makes a 9 of the kept 7; the vector has the 7. -/
example : lookDrops (Vec.dedupBy cfg64 (fun k a b => some (putSecond 9 k a b))
    (stored cfg64 [5, 6, 7, 8] 4)) = some ([some 5, some 7], [8]) := by decide +kernel
example : merged (putSecond 9) 0 5 [7, 8] = ([5, 9], [8]) := by decide
/-- The 7 is dropped and kept; the 8 is gone. -/
example : lookDrops (Vec.dedupBy cfg64 (fun k a b => some (swapSecond k a b))
    (stored cfg64 [5, 6, 7, 8] 4)) = some ([some 5, some 7], [7]) := by decide +kernel
example : slookDrops (Small.dedupBy cfg64 (fun k a b => some (swapSecond k a b))
    (inline [5, 6, 7, 8] 4 none world0)) = some ([some 5, some 7], [7]) := by decide +kernel
example : slookDrops (Small.dedupBy cfg64 (fun k a b => some (swapSecond k a b))
    (spilled cfg64 [5, 6, 7, 8] 2 4)) = some ([some 5, some 7], [7]) := by decide +kernel

/-! ## The part that holds -/

/-- C119, the part that holds: tests that leave the kept element alone, and tests that merge
everything into the first element, may change the elements; the second element is skipped.
Missing: the second element, and changes to kept elements after the first (for which it is false);
tests that panic after a change. -/
theorem C119_partial {s : VSt α} {a x : α} {R : List α} (hs : c.size ≠ 0)
    (hd : ∀ a, c.dropPanics a = false) (h : Rep c s.self s.w (a :: x :: R)) (hw : s.w.WF)
    (same : Nat → α → α → Bool × α × α)
    (hk : (∀ k a p, (same k a p).2.2 = p) ∨ (merged same 0 a R).1.length = 1) :
    Sat c (Vec.dedupBy c (fun k a b => some (same k a b)) s)
      (fun _ s' => Trans c (merged same 0 a R).1 (merged same 0 a R).2 s s')
      (fun _ => False) := by
  have e : mergedFirst same 0 a R = merged same 0 a R := by
    rcases hk with hk | hk
    · exact mergedFirst_eq same hk R 0 a
    · exact mergedFirst_all same R 0 a hk
  rw [← e]
  exact C119_dedup_by hs hd h hw same

theorem C119_small_partial {s : SSt α} {a x : α} {R : List α} (hs : c.size ≠ 0)
    (hd : ∀ a, c.dropPanics a = false) (h : SRep c s.self s.w (a :: x :: R)) (hw : s.w.WF)
    (same : Nat → α → α → Bool × α × α)
    (hk : (∀ k a p, (same k a p).2.2 = p) ∨ (merged same 0 a R).1.length = 1) :
    Sat c (Small.dedupBy c (fun k a b => some (same k a b)) s)
      (fun _ s' => STrans c (merged same 0 a R).1 (merged same 0 a R).2 s s')
      (fun _ => False) := by
  have e : mergedFirst same 0 a R = merged same 0 a R := by
    rcases hk with hk | hk
    · exact mergedFirst_eq same hk R 0 a
    · exact mergedFirst_all same R 0 a hk
  rw [← e]
  exact C119_small_dedup_by hs hd h hw same

/-- C119 for `dedup_by_key`: whatever the key function does to the elements stays, and keys are
compared as they were given. The second element is skipped.
Missing: the second element (for which it is false); key functions that panic after a change. -/
theorem C119_key_partial {κ : Type} [DecidableEq κ] {s : VSt α} {a x : α} {R : List α}
    (hs : c.size ≠ 0) (hd : ∀ a, c.dropPanics a = false) (h : Rep c s.self s.w (a :: x :: R))
    (hw : s.w.WF) (key : Nat → α → κ × α) :
    Sat c (Vec.dedupByKey c (fun k a => some (key k a)) s)
      (fun _ s' => Trans c ((key 0 a).2 :: (keyMerged key 1 (key 0 a).1 R).1)
        (keyMerged key 1 (key 0 a).1 R).2 s s')
      (fun _ => False) :=
  onBuf_btrans hs h hw fun _ hb => dedupByKeyBuf_mut hs hd key hb

theorem C119_small_key_partial {κ : Type} [DecidableEq κ] {s : SSt α} {a x : α} {R : List α}
    (hs : c.size ≠ 0) (hd : ∀ a, c.dropPanics a = false) (h : SRep c s.self s.w (a :: x :: R))
    (hw : s.w.WF) (key : Nat → α → κ × α) :
    Sat c (Small.dedupByKey c (fun k a => some (key k a)) s)
      (fun _ s' => STrans c ((key 0 a).2 :: (keyMerged key 1 (key 0 a).1 R).1)
        (keyMerged key 1 (key 0 a).1 R).2 s s')
      (fun _ => False) :=
  onAny_btrans hs h hw fun _ hb => dedupByKeyBuf_mut hs hd key hb

/-- Everything is added up in the first element: tests that say "same" for all. -/
example : lookDrops (Vec.dedupBy cfg64 (fun _ a b => some (true, 0, a + b))
    (stored cfg64 [5, 6, 7, 8] 4)) = some ([some 20], [0, 0]) := by decide +kernel
example : (merged (fun _ a b => (true, 0, a + b)) 0 5 [7, 8]) = ([20], [0, 0]) := by decide
/-- Each tested element is doubled. -/
example : lookDrops (Vec.dedupBy cfg64 (fun _ a b => some (a == b, 2 * a, b))
    (stored cfg64 [5, 6, 7, 14, 8] 5)) = some ([some 5, some 14, some 16], [28]) := by
  decide +kernel
/-- The key of an element is itself halved, which is also what it leaves. -/
example : lookDrops (Vec.dedupByKey cfg64 (fun _ a => some (a / 2, a / 2))
    (stored cfg64 [4, 6, 5, 14, 15, 5] 6)) = some ([some 2, some 7, some 2], [2, 7]) := by
  decide +kernel
example : slookDrops (Small.dedupByKey cfg64 (fun _ a => some (a / 2, a / 2))
    (inline [4, 6, 5, 14, 15, 5] 6 none world0)) = some ([some 2, some 7, some 2], [2, 7]) := by
  decide +kernel

end Lokky
