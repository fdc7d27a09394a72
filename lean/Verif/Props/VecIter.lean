import Verif.Props.Witness
import Verif.Proofs.VecIter

/-!
# C14–C16: by-value iteration
-/

namespace Lokky
variable {α : Type} {c : Cfg α}

/-- `n` calls of `next`, and what they return. -/
def nexts (c : Cfg α) : Nat → M (St Vec.IntoIterH α) (List (Option α))
  | 0 => pure []
  | n + 1 => do
    let a ← Vec.iterNext c
    let r ← nexts c n
    pure (a :: r)

theorem IRep.nexts {s : St Vec.IntoIterH α} {m : List α} (hs : c.size ≠ 0) (h : IRep c s m)
    (n : Nat) :
    ∃ s', nexts c n s = .ok ((List.range n).map fun i => m[i]?) s' ∧ IRep c s' (m.drop n) ∧
      s'.w = s.w ∧ s'.self.vec = s.self.vec := by
  induction n generalizing s m with
  | zero => exact ⟨s, rfl, by simpa using h, rfl, rfl⟩
  | succ n ih =>
    obtain ⟨s1, e1, e2, e3⟩ := h.next hs
    have e4 : s1.self.vec = s.self.vec := by
      obtain ⟨⟨l, h1, h2, h3⟩, _⟩ := h
      rw [iterNext_eq hs h1] at e1
      injection e1 with _ e5
      rw [← e5]
    obtain ⟨s2, f1, f2, f3, f4⟩ := ih e2
    refine ⟨s2, ?_, by simpa using f2, f3.trans e3, f4.trans e4⟩
    rw [Lokky.nexts, M.bind_ok e1, M.bind_ok f1, M.pure_apply]
    congr 1
    rw [List.range_succ_eq_map, List.map_cons, List.map_map]
    congr 1
    · cases m <;> rfl
    · apply List.map_congr_left
      intro i _
      cases m <;> simp

/-- C14. Any number of `next` calls on `v.into_iter()` yields the elements in order and then `None`,
changing nothing in memory; if the iterator is dropped then, exactly the elements not yet yielded are
dropped, in order, and the buffer is released (if a destructor panics, the elements after it are
leaked but the buffer is still released). -/
theorem C14_into_iter_forward {v : VecH} {w : World α} {l : List α} (hs : c.size ≠ 0)
    (h : Rep c v w l) (hw : w.WF) (n : Nat) :
    ∃ s', nexts c n ⟨Vec.intoIter v, w⟩ = .ok ((List.range n).map fun i => l[i]?) s' ∧ s'.w = w ∧
      Sat c (Vec.iterDrop c s')
        (fun _ s'' => s''.w = (w.free v.ptr).addDrops (l.drop n))
        (fun s'' => ∃ ys a zs, l.drop n = ys ++ a :: zs ∧ c.dropPanics a = true ∧
          s''.w = (w.free v.ptr).addDrops (ys ++ [a])) := by
  obtain ⟨s', h1, h2, h3, h4⟩ := (intoIter_rep h hw).nexts hs n
  refine ⟨s', h1, h3, ?_⟩
  have := iterDrop_spec hs h2
  rw [h3, h4] at this
  exact this

/-- Results and dropped elements of a run. -/
def lookIter {β : Type} (r : Res (St Vec.IntoIterH Nat) β) : Option (β × List Nat × Bool) :=
  match r with
  | .ok a s => some (a, s.w.log.drops, (s.w.heap 0).isSome)
  | _ => none

/-- The iterator over the vector `[7, 8, 9]`. -/
def iter789 : St Vec.IntoIterH Nat :=
  ⟨Vec.intoIter (stored cfg64 [7, 8, 9] 4).self, (stored cfg64 [7, 8, 9] 4).w⟩

example : lookIter ((do let r ← nexts cfg64 2; Vec.iterDrop cfg64; pure r) iter789)
    = some ([some 7, some 8], [9], false) := by decide +kernel

/-! ## C15 -/

/-- An end of a sequence. -/
inductive Side where
  | front
  | back
deriving DecidableEq

/-- Calls of `next` and `next_back` in any order, and what they return. -/
def calls (c : Cfg α) : List Side → M (St Vec.IntoIterH α) (List (Option α))
  | [] => pure []
  | d :: ds => do
    let a ← match d with
      | .front => Vec.iterNext c
      | .back => Vec.iterNextBack c
    let r ← calls c ds
    pure (a :: r)

/-- Specification: taking elements from the ends of a list; results and what is left. -/
def takes : List Side → List α → List (Option α) × List α
  | [], m => ([], m)
  | .front :: ds, m => let r := takes ds m.tail; (m.head? :: r.1, r.2)
  | .back :: ds, m => let r := takes ds m.dropLast; (m.getLast? :: r.1, r.2)

/-- `next_back` is never called when nothing is left of `n` elements. -/
def NoBackAtEnd : List Side → Nat → Prop
  | [], _ => True
  | .front :: ds, n => NoBackAtEnd ds (n - 1)
  | .back :: ds, n => n ≠ 0 ∧ NoBackAtEnd ds (n - 1)

/-- What C15 asks for: any sequence of calls behaves like taking from the ends of the list. -/
def IterCorrect (c : Cfg α) : Prop :=
  ∀ (v : VecH) (w : World α) (l : List α) (ds : List Side), Rep c v w l → w.WF →
    ∃ s', calls c ds ⟨Vec.intoIter v, w⟩ = .ok (takes ds l).1 s'

/-- C15 does not hold: once all elements were taken from the front, `next_back` yields the last one
a second time. -/
theorem C15_yields_twice {v : VecH} {w : World α} {l : List α} (hs : c.size ≠ 0) (h : Rep c v w l)
    (hw : w.WF) (hl : l ≠ []) :
    ∃ s', (do let r ← nexts c l.length
              let a ← Vec.iterNextBack c
              pure (r, a)) ⟨Vec.intoIter v, w⟩ = .ok (l.map some, some (l.getLast hl)) s' := by
  obtain ⟨s', h1, _, h3, h4⟩ := (intoIter_rep h hw).nexts hs l.length
  have hmap : (List.range l.length).map (fun i => l[i]?) = l.map some := by
    apply List.ext_getElem
    · simp
    · intro i hi1 hi2; simp at hi1; simp [hi1]
  have hr : Rep c s'.self.vec s'.w l := by rw [h3, h4]; exact h
  obtain ⟨s2, e1, _⟩ := pop_spec (s := ⟨s'.self.vec, s'.w⟩) hs hr (by rw [h3]; exact hw)
  refine ⟨⟨⟨s2.self, s'.self.index⟩, s2.w⟩, ?_⟩
  rw [M.bind_ok h1, hmap]
  have : Vec.iterNextBack c s' = .ok l.getLast? ⟨⟨s2.self, s'.self.index⟩, s2.w⟩ := by
    unfold Vec.iterNextBack Vec.onVec
    rw [onPart_ok e1]
  rw [M.bind_ok this, List.getLast?_eq_some_getLast hl]
  rfl

/-- C15 does not hold, for any element type and build. -/
theorem C15_double_ended_refuted (hs : c.size ≠ 0) (hf : c.Fits 1) : ¬ IterCorrect c := by
  intro h
  let l := [c.zst]
  have hr : Rep c (stored c l 1).self (stored c l 1).w l := stored_rep (by omega) (by simp [l]) hf
  obtain ⟨s', h1⟩ := h _ _ l [.front, .back] hr stored_wf
  obtain ⟨s2, h2⟩ := C15_yields_twice hs hr stored_wf (by simp [l])
  have : calls c [.front, .back] ⟨Vec.intoIter (stored c l 1).self, (stored c l 1).w⟩ =
      .ok [some c.zst, some c.zst] s2 := by
    simp only [nexts, calls, l, List.length_singleton, M.bind_apply] at h2 ⊢
    cases e1 : Vec.iterNext c ⟨Vec.intoIter (stored c [c.zst] 1).self, (stored c [c.zst] 1).w⟩ with
    | ok a s =>
      rw [e1] at h2
      simp only [M.pure_apply] at h2 ⊢
      cases e2 : Vec.iterNextBack c s with
      | ok b s =>
        rw [e2] at h2
        simp only [Res.ok.injEq, Prod.mk.injEq, List.map_cons, List.map_nil] at h2 ⊢
        obtain ⟨⟨h3, h4⟩, h5⟩ := h2
        exact ⟨by rw [h4]; simp; simpa using h3, h5⟩
      | panic s => rw [e2] at h2; cases h2
      | abort => rw [e2] at h2; cases h2
      | ub u => rw [e2] at h2; cases h2
    | panic s => rw [e1] at h2; cases h2
    | abort => rw [e1] at h2; cases h2
    | ub u => rw [e1] at h2; cases h2
  rw [this] at h1
  injection h1 with h1 _
  simp [takes, l] at h1

theorem IRep.calls {s : St Vec.IntoIterH α} {m : List α} (hs : c.size ≠ 0) (h : IRep c s m)
    (ds : List Side) (hn : NoBackAtEnd ds m.length) :
    ∃ s', calls c ds s = .ok (takes ds m).1 s' ∧ IRep c s' (takes ds m).2 ∧
      s'.w.log = s.w.log := by
  induction ds generalizing s m with
  | nil => exact ⟨s, rfl, h, rfl⟩
  | cons d ds ih =>
    cases d with
    | front =>
      obtain ⟨s1, e1, e2, e3⟩ := h.next hs
      obtain ⟨s2, f1, f2, f3⟩ := ih e2 (by simpa [NoBackAtEnd] using hn)
      refine ⟨s2, ?_, f2, by rw [f3, e3]⟩
      rw [Lokky.calls]
      simp only
      rw [M.bind_ok e1, M.bind_ok f1]
      rfl
    | back =>
      obtain ⟨hn1, hn2⟩ := hn
      obtain ⟨s1, e1, e2, e3⟩ := h.nextBack hs (by rintro rfl; simp at hn1)
      obtain ⟨s2, f1, f2, f3⟩ := ih e2 (by simpa using hn2)
      refine ⟨s2, ?_, f2, by rw [f3, e3]⟩
      rw [Lokky.calls]
      simp only
      rw [M.bind_ok e1, M.bind_ok f1]
      rfl

/-- C15, the part that holds: as long as `next_back` is not called after the last element was
yielded, every interleaving behaves like taking from the ends of the list, and dropping the iterator
drops exactly the rest. Missing: `next_back` on an exhausted iterator, for which it is false. -/
theorem C15_double_ended_partial {v : VecH} {w : World α} {l : List α} (hs : c.size ≠ 0)
    (hd : ∀ a, c.dropPanics a = false) (h : Rep c v w l) (hw : w.WF) (ds : List Side)
    (hn : NoBackAtEnd ds l.length) :
    ∃ s', calls c ds ⟨Vec.intoIter v, w⟩ = .ok (takes ds l).1 s' ∧
      Sat c (Vec.iterDrop c s')
        (fun _ s'' => s''.w.log.drops = w.log.drops ++ (takes ds l).2) (fun _ => False) := by
  obtain ⟨s', h1, h2, h3⟩ := (intoIter_rep h hw).calls hs ds hn
  refine ⟨s', h1, (iterDrop_spec hs h2).mono ?_ ?_⟩
  · intro _ s'' e
    rw [e]; simp [World.addDrops, World.free, h3]
  · rintro s'' ⟨_, a, _, _, ha, _⟩
    rw [hd a] at ha; cases ha

example : NoBackAtEnd [.back, .front, .front, .front] 3 := by simp [NoBackAtEnd]
example : lookIter (calls cfg64 [.back, .front, .front, .front] iter789)
    = some ([some 9, some 7, some 8, none], [], true) := by decide +kernel
/-- The same element twice: 9 from the front, 9 again from the back. -/
example : lookIter (calls cfg64 [.front, .front, .front, .back] iter789)
    = some ([some 7, some 8, some 9, some 9], [], true) := by decide +kernel

/-! ## C16 -/

/-- C16 does not hold: after any number of `next` calls `size_hint` (and `len`) still return the
original length. -/
theorem C16_size_hint_refuted {v : VecH} {w : World α} {l : List α} (hs : c.size ≠ 0)
    (h : Rep c v w l) (hw : w.WF) (n : Nat) (h0 : 0 < n) (hn : n ≤ l.length) :
    ∃ s', nexts c n ⟨Vec.intoIter v, w⟩ = .ok ((List.range n).map fun i => l[i]?) s' ∧
      Vec.iterSizeHint s' = .ok l.length s' ∧ l.length ≠ (l.drop n).length := by
  obtain ⟨s', h1, _, _, h4⟩ := (intoIter_rep h hw).nexts hs n
  refine ⟨s', h1, ?_, by simp; omega⟩
  unfold Vec.iterSizeHint
  rw [M.gets_apply, h4]
  simp [Vec.intoIter, h.len]

/-- C16, the part that holds: `as_slice` returns exactly the elements still to be yielded, and
`size_hint` is exact until the first `next` (any number of `next_back` calls is fine).
Missing: `size_hint` after `next`, for which it is false. -/
theorem C16_as_slice_partial {v : VecH} {w : World α} {l : List α} (hs : c.size ≠ 0)
    (h : Rep c v w l) (hw : w.WF) :
    (∀ ds, NoBackAtEnd ds l.length → ∃ s', calls c ds ⟨Vec.intoIter v, w⟩ = .ok (takes ds l).1 s' ∧
      Vec.iterAsSlice c s' = .ok (takes ds l).2 s') ∧
    (∀ n, n ≤ l.length → ∃ s' r, calls c (List.replicate n .back) ⟨Vec.intoIter v, w⟩ = .ok r s' ∧
      Vec.iterSizeHint s' = .ok (l.length - n) s') := by
  constructor
  · intro ds hn
    obtain ⟨s', h1, h2, _⟩ := (intoIter_rep h hw).calls hs ds hn
    exact ⟨s', h1, iterAsSlice_eq hs h2⟩
  · intro n hn
    suffices hh : ∀ n (s : St Vec.IntoIterH α) (l : List α), Rep c s.self.vec s.w l → s.w.WF →
        n ≤ l.length → ∃ s' r, calls c (List.replicate n .back) s = .ok r s' ∧
          s'.self.vec.len = l.length - n by
      obtain ⟨s', r, e1, e2⟩ := hh n ⟨Vec.intoIter v, w⟩ l h hw hn
      exact ⟨s', r, e1, by unfold Vec.iterSizeHint; rw [M.gets_apply, e2]⟩
    intro n
    induction n with
    | zero => intro s l h _ _; exact ⟨s, [], rfl, by simpa using h.len⟩
    | succ n ih =>
      intro s l h hw hn
      obtain ⟨s1, e1, e2, _⟩ := pop_spec (s := ⟨s.self.vec, s.w⟩) hs h hw
      have e3 : Vec.iterNextBack c s = .ok l.getLast? ⟨⟨s1.self, s.self.index⟩, s1.w⟩ := by
        unfold Vec.iterNextBack Vec.onVec
        rw [onPart_ok e1]
      obtain ⟨s', r, f1, f2⟩ := ih ⟨⟨s1.self, s.self.index⟩, s1.w⟩ l.dropLast e2.trans.rep e2.trans.wf
        (by simp; omega)
      refine ⟨s', l.getLast? :: r, ?_, by rw [f2]; simp; omega⟩
      rw [List.replicate_succ, Lokky.calls]
      simp only
      rw [M.bind_ok e3, M.bind_ok f1]
      rfl

example : lookIter ((do let _ ← nexts cfg64 2; Vec.iterSizeHint) iter789)
    = some (3, [], true) := by decide +kernel
example : lookIter ((do let _ ← nexts cfg64 2; Vec.iterAsSlice cfg64) iter789)
    = some ([9], [], true) := by decide +kernel

end Lokky
