import Verif.Props.Witness
import Verif.Props.VecScan
import Verif.Proofs.VecBulk

/-!
# C21, C24: panics in the middle of an operation
-/

namespace Lokky
variable {α : Type} {c : Cfg α}
open Spec (answers accepted rejected)

/-! ## C21 -/

/-- C21 does not hold for `clear`: when the destructor of an element panics, the vector still contains
everything, although that element and all before it have been dropped. -/
theorem C21_clear_refuted {s : VSt α} {ys zs : List α} {a : α} (hs : c.size ≠ 0)
    (h : Rep c s.self s.w (ys ++ a :: zs)) (hw : s.w.WF) (hy : ∀ y ∈ ys, c.dropPanics y = false)
    (ha : c.dropPanics a = true) :
    Sat c (Vec.clear c s) (fun _ _ => False)
      (fun s' => Trans c (ys ++ a :: zs) (ys ++ [a]) s s') := by
  have key : ∀ ys' : List α, ∀ a' zs', ys ++ a :: zs = ys' ++ a' :: zs' →
      c.dropPanics a' = true → (∀ y ∈ ys', c.dropPanics y = false) → ys' = ys ∧ a' = a := by
    clear h
    induction ys with
    | nil =>
      intro ys' a' zs' e h1 h2
      cases ys' with
      | nil => simp at e; exact ⟨rfl, e.1.symm⟩
      | cons y ys' =>
        simp at e
        have := h2 y (by simp)
        rw [← e.1, ha] at this; cases this
    | cons y ys ih =>
      intro ys' a' zs' e h1 h2
      cases ys' with
      | nil =>
        simp at e
        have := hy y (by simp)
        rw [e.1, h1] at this; cases this
      | cons y' ys' =>
        simp only [List.cons_append, List.cons.injEq] at e
        obtain ⟨g1, g2⟩ := ih (fun x hx => hy x (by simp [hx])) ys' a' zs' e.2 h1
          (fun x hx => h2 x (by simp [hx]))
        exact ⟨by rw [e.1, g1], g2⟩
  have hp : ∀ r : Res (VSt α) Unit, Vec.clear c s = r → Sat c r (fun _ _ => False)
      (fun s' => Trans c (ys ++ a :: zs) (ys ++ [a]) s s') := by
    intro r hr
    have h1 := clear_spec hs h hw
    have h2 := clear_returns hs h
    rw [hr] at h1 h2
    cases r with
    | ok u s' =>
      have := h2 a (by simp)
      rw [ha] at this; cases this
    | panic s' =>
      obtain ⟨ys', a', zs', e, g1, g2, g3, _⟩ := h1
      obtain ⟨rfl, rfl⟩ := key ys' a' zs' e g1 g2
      exact g3
    | abort => exact h1
    | ub u => exact h1
  exact hp _ rfl

/-- C21, the part that holds: `truncate`, when destructors panic, leaves exactly the elements kept,
all others having been dropped exactly once. Missing: `clear`, for which it is false. -/
theorem C21_truncate_partial {s : VSt α} {l : List α} (hs : c.size ≠ 0) (h : Rep c s.self s.w l)
    (hw : s.w.WF) (k : Nat) :
    Sat c (Vec.truncate c k s) (fun _ s' => Trans c (l.take k) (l.drop k) s s')
      (fun s' => Trans c (l.take k) (l.drop k) s s' ∧ ∃ a ∈ l.drop k, c.dropPanics a = true) :=
  (truncate_spec hs h hw k).mono (fun _ _ h => h.1) (fun _ h => ⟨h.1, h.2.2.2.2⟩)

/-- C21, the part that holds: the destructor of the vector drops every element at most once, up to and
including the first one whose destructor panics; then the rest and the buffer are leaked. -/
theorem C21_drop_partial {s : VSt α} {l : List α} (hs : c.size ≠ 0) (h : Rep c s.self s.w l) :
    Sat c (Vec.drop c s)
      (fun _ s' => s'.w.log.drops = s.w.log.drops ++ l ∧ ∀ a ∈ l, c.dropPanics a = false)
      (fun s' => ∃ ys a zs, l = ys ++ a :: zs ∧ c.dropPanics a = true ∧
        s'.w.log.drops = s.w.log.drops ++ (ys ++ [a]) ∧ s'.w.heap = s.w.heap) := by
  refine (drop_spec hs h).mono ?_ ?_
  · rintro _ s' ⟨h1, h2⟩
    refine ⟨?_, h2⟩
    rw [h1]
    cases s.self.ptr <;> rfl
  · rintro s' ⟨ys, a, zs, e, h1, _, h3⟩
    exact ⟨ys, a, zs, e, h1, by rw [h3]; rfl, by rw [h3]; rfl⟩

/-- `cfg64` with a destructor that panics on 13. -/
def cfgBoom : Cfg Nat := { cfg64 with dropPanics := fun a => a == 13 }

/-- Clearing panics at 13; dropping the vector afterwards drops 7 a second time. -/
example : (match Vec.clear cfgBoom (stored cfgBoom [7, 13, 9] 4) with
    | .panic s => match Vec.drop cfgBoom s with
      | .panic s' => some (s.self.len, s'.w.log.drops)
      | _ => none
    | _ => none) = some (3, [7, 13, 7, 13]) := by decide +kernel
example : (match Vec.truncate cfgBoom 1 (stored cfgBoom [7, 13, 9] 4) with
    | .panic s => some (s.self.len, s.w.log.drops)
    | _ => none) = some (1, [13, 9]) := by decide +kernel

/-! ## C24 -/

theorem answers_split (f : Nat → α → Option Bool) (k : Nat) (l : List α) :
    ∃ rest, l = (answers f k l).map (·.1) ++ rest := by
  induction l generalizing k with
  | nil => exact ⟨[], rfl⟩
  | cons a l ih =>
    simp only [answers]
    cases f k a with
    | none => exact ⟨a :: l, rfl⟩
    | some b =>
      obtain ⟨rest, h⟩ := ih (k + 1)
      exact ⟨rest, by simp [← h]⟩

theorem accepted_rejected (r : List (α × Bool)) :
    (accepted r ++ rejected r).Perm (r.map (·.1)) := by
  unfold accepted rejected
  rw [← List.map_append]
  exact (List.filter_append_perm (fun x : α × Bool => x.2) r).map _

/-- The elements of `l` are each in one place only: kept, dropped, or lost. -/
def Shared (l l' d : List α) : Prop := ∃ lost, (l' ++ d ++ lost).Perm l

theorem shared_answers (f : Nat → α → Option Bool) (k : Nat) (l : List α) :
    Shared l (accepted (answers f k l)) (rejected (answers f k l)) := by
  obtain ⟨rest, h⟩ := answers_split f k l
  refine ⟨rest, ?_⟩
  have := (accepted_rejected (answers f k l)).append_right rest
  rwa [← h] at this

theorem Shared.cons {l l' d : List α} (h : Shared l l' d) (a x : α) :
    Shared (a :: x :: l) (a :: l') d := by
  obtain ⟨lost, h⟩ := h
  refine ⟨x :: lost, ?_⟩
  simp only [List.cons_append]
  refine List.Perm.cons a ?_
  refine List.Perm.trans ?_ (List.Perm.cons x h)
  exact List.perm_middle

/-- C24. Whatever the predicate of `retain` answers and whenever it panics: every element is either
still in the vector, or has been dropped, or is lost; never two of these. -/
theorem C24_retain {s : VSt α} {l : List α} (hs : c.size ≠ 0)
    (hd : ∀ a, c.dropPanics a = false) (h : Rep c s.self s.w l) (hw : s.w.WF)
    (f : Nat → α → Option Bool) :
    Sat c (Vec.retain c f s) (fun _ s' => ∃ l' d, Trans c l' d s s' ∧ Shared l l' d)
      (fun s' => ∃ l' d, Trans c l' d s s' ∧ Shared l l' d) := by
  have same : Shared l l [] := ⟨[], by simp⟩
  have easy : (l.length ≤ 1 ∨ ∃ a, l.head? = some a ∧ f 0 a = some false) →
      Sat c (Vec.retain c f s) (fun _ s' => ∃ l' d, Trans c l' d s s' ∧ Shared l l' d)
      (fun s' => ∃ l' d, Trans c l' d s s' ∧ Shared l l' d) := by
    intro hf
    refine (C09_retain_partial hs hd h hw f hf).mono ?_ ?_
    · rintro _ s' ⟨h1, _⟩
      exact ⟨_, _, h1, shared_answers f 0 l⟩
    · rintro s' (h1 | ⟨h1, _⟩)
      · exact ⟨_, _, h1, same⟩
      · exact ⟨_, _, h1, shared_answers f 0 l⟩
  match l, h, easy, same with
  | [], _, easy, _ => exact easy (Or.inl (by simp))
  | [_], _, easy, _ => exact easy (Or.inl (by simp))
  | a :: x :: R, h, easy, same =>
    cases hf : f 0 a with
    | none =>
      have e : Vec.retain c f s = .panic s := by
        refine onBuf_panic ?_
        have hb := h.brep hs
        unfold Vec.retainBuf
        rw [M.bind_ok (Buf.getLen_apply _), if_neg (by rw [hb.len]; simp),
          M.bind_ok (Buf.read_eq hs hb.head), hf]
        rfl
      rw [e]
      exact ⟨_, _, Trans.refl h hw, same⟩
    | some q =>
      cases q with
      | false => exact easy (Or.inr ⟨a, rfl, hf⟩)
      | true =>
        refine (C09_retain_loses_second hs hd h hw f hf).mono ?_ ?_
        · rintro _ s' ⟨h1, _⟩
          exact ⟨_, _, h1, (shared_answers f 1 R).cons a x⟩
        · rintro s' ⟨h1, _⟩
          exact ⟨_, _, h1, (shared_answers f 1 R).cons a x⟩

/-- C24. `extend_from_slice`, when cloning panics (or memory is refused): the vector holds its old
elements and the clones made so far, and nothing was dropped. -/
theorem C24_extend_from_slice {s : VSt α} {l : List α} (hs : c.size ≠ 0) (h : Rep c s.self s.w l)
    (hw : s.w.WF) (xs : List α) (hf : c.Fits (l.length + xs.length)) :
    Sat c (Vec.extendFromSlice c xs s)
      (fun _ s' => ∃ ys, Cloned c xs ys ∧ Trans c (l ++ ys) [] s s')
      (fun s' => ∃ pre post ys, xs = pre ++ post ∧ post ≠ [] ∧ Cloned c pre ys ∧
        Trans c (l ++ ys) [] s s') := by
  refine (extendFromSlice_spec hs h hw xs hf).mono (fun _ _ ⟨ys, h1, h2, _⟩ => ⟨ys, h1, h2⟩) ?_
  rintro s' (⟨rfl, h1, _⟩ | ⟨pre, a, post, ys, h1, h2, _, h3, _⟩)
  · refine ⟨[], xs, [], rfl, ?_, .nil, by simpa using Trans.refuse h hw⟩
    rintro rfl
    have := h.le_cap
    simp at h1; omega
  · exact ⟨pre, a :: post, ys, h1, by simp, h2, h3⟩

/-- C24. `resize`, when cloning panics (or memory is refused): the vector holds its old elements and
the clones made so far; only the value passed in was dropped. -/
theorem C24_resize {s : VSt α} {l : List α} (hs : c.size ≠ 0) (hd : ∀ a, c.dropPanics a = false)
    (h : Rep c s.self s.w l) (hw : s.w.WF) (k : Nat) (a : α) (hf : l.length < k → c.Fits k) :
    Sat c (Vec.resize c k a s)
      (fun _ s' => (k ≤ l.length ∧ Trans c (l.take k) (l.drop k ++ [a]) s s') ∨
        ∃ ys, Cloned c (List.replicate (k - l.length - 1) a) ys ∧ Trans c (l ++ ys ++ [a]) [] s s')
      (fun s' => ∃ m ys, m ≤ k - l.length - 1 ∧ Cloned c (List.replicate m a) ys ∧
        Trans c (l ++ ys) [a] s s') := by
  refine (resize_spec hs h hw k a hf).mono ?_ ?_
  · rintro _ s' ⟨_, (h1 | ⟨_, ys, h1, h2⟩)⟩
    · exact Or.inl h1
    · exact Or.inr ⟨ys, h1, h2⟩
  · rintro s' (⟨_, _, _, x, _, h5⟩ | ⟨h1, h2, h3⟩ | ⟨h1, h2, m, ys, h3, h4, _, h6⟩)
    · rw [hd x] at h5; cases h5
    · exact ⟨0, [], Nat.zero_le _, .nil, by simpa using h3⟩
    · exact ⟨m, ys, by omega, h4, h6⟩

/-- C24. `resize_with`, when the callback panics (or memory is refused): the vector holds its old
elements and those the callback returned so far, and nothing was dropped. -/
theorem C24_resize_with {s : VSt α} {l : List α} (hs : c.size ≠ 0)
    (hd : ∀ a, c.dropPanics a = false) (h : Rep c s.self s.w l) (hw : s.w.WF)
    (f : Nat → Option α) (k : Nat) (hf : l.length < k → c.Fits k) :
    Sat c (Vec.resizeWith c k f s)
      (fun _ s' => (k ≤ l.length ∧ Trans c (l.take k) (l.drop k) s s') ∨
        ∃ ys, (List.range (k - l.length)).map f = ys.map some ∧ Trans c (l ++ ys) [] s s')
      (fun s' => ∃ m ys, m < k - l.length ∧ (List.range m).map f = ys.map some ∧
        Trans c (l ++ ys) [] s s') := by
  refine (resizeWith_spec hs h hw f k hf).mono ?_ ?_
  · rintro _ s' ⟨_, (h1 | ⟨_, ys, h1, h2⟩)⟩
    · exact Or.inl h1
    · exact Or.inr ⟨ys, h1, h2⟩
  · rintro s' (⟨_, _, _, x, _, h5⟩ | ⟨h1, rfl⟩ | ⟨h1, h2, m, ys, h3, h4, _, h6⟩)
    · rw [hd x] at h5; cases h5
    · exact ⟨0, [], by omega, rfl, by simpa using Trans.refuse h hw⟩
    · exact ⟨m, ys, h3, h4, h6⟩

/-- C24. `clone`, when cloning an element panics (or memory is refused): the clones made so far are
dropped, once each, and memory is as before. -/
theorem C24_clone {w : World α} (hs : c.size ≠ 0) (hw : w.WF) (l : List α)
    (hf : c.Fits l.length) :
    Sat c (Vec.cloneFrom c l w)
      (fun v w' => ∃ ys, Cloned c l ys ∧ Made c ys [] w v w')
      (fun w' => ∃ pre post ys, l = pre ++ post ∧ Cloned c pre ys ∧
        w'.log.drops = w.log.drops ++ ys ∧ ∀ p, w'.heap p = w.heap p) := by
  refine (cloneFrom_spec hs hw l hf).mono (fun _ _ ⟨ys, h1, h2, _⟩ => ⟨ys, h1, h2⟩) ?_
  rintro w' (⟨h1, _⟩ | ⟨pre, a, post, ys, h1, h2, _, h3, _⟩)
  · exact ⟨[], l, [], rfl, .nil, h1.drops, h1.heap⟩
  · exact ⟨pre, a :: post, ys, h1, h2, h3.drops, h3.heap⟩

/-- `cfg64` with a `clone` that panics on 13 and otherwise adds 100. -/
def cfgClone : Cfg Nat := { cfg64 with clone := fun _ a => if a = 13 then none else some (a + 100) }

example : (match Vec.extendFromSlice cfgClone [1, 2, 13, 3] (stored cfgClone [7] 4) with
    | .panic s => some ((s.w.slots s.self.ptr).take s.self.len, s.w.log.drops)
    | _ => none) = some ([some 7, some 101, some 102], []) := by decide +kernel
example : (match Vec.cloneFrom cfgClone [1, 2, 13, 3] world0 with
    | .panic w => some (w.log.drops, (w.heap 0).isSome)
    | _ => none) = some ([101, 102], false) := by decide +kernel
example : (match Vec.retain cfg64 (fun k _ => if k = 2 then none else some (k = 1))
      (stored cfg64 [7, 8, 9, 10] 4) with
    | .panic s => some ((s.w.slots s.self.ptr).take s.self.len, s.w.log.drops)
    | _ => none) = some ([some 8], [7]) := by decide +kernel

end Lokky
