import Verif.Props.SmallStore
import Verif.Proofs.VecZst

/-!
# C28, C30, C32–C38, C81: single operations of small vectors

`SRep c v w l` says that in world `w` the small vector `v` holds exactly the elements `l`, inline or
in a heap buffer of its own; `STrans c l' d s s'` says that a step left the contents `l'`, dropped
exactly `d`, in this order, and touched no block but the vector's own buffer. `Sat c r Q E` says that
the outcome `r` is not undefined behaviour, satisfies `Q` if it returned and `E` if it panicked, and
aborts only if some destructor panics.
-/

namespace Lokky
variable {α : Type} {c : Cfg α}

/-! ## C32 -/

/-- `StackVec::truncate` only changes the length. -/
theorem stackTruncate_cut {b : Buf α} {l : List α} (h : BRep b l) {k : Nat} (hk : k < l.length) :
    Stack.truncate c k b = .ok () { b with len := k } := by
  have := h.le_cap
  unfold Stack.truncate
  rw [M.bind_ok (Buf.getLen_apply _), h.len, if_pos hk,
    M.bind_ok (Buf.setLen_eq (by omega)), show k - l.length = 0 by omega]
  rfl

theorem drop_ne_nil {l : List α} {k : Nat} (hk : k < l.length) : l.drop k ≠ [] := by
  intro e
  have := congrArg List.length e
  simp at this; omega

/-- C32 does not hold for inline vectors: the elements cut off are not dropped. -/
theorem C32_refuted {s : SSt α} {l : List α} (h : SRep c s.self s.w l) (hw : s.w.WF)
    (hst : Small.isHeap s.self = false) {k : Nat} (hk : k < l.length) :
    ∃ s', Small.truncate c k s = .ok () s' ∧ STrans c (l.take k) [] s s' ∧ l.drop k ≠ [] := by
  cases hsto : s.self.store with
  | heap v => simp [Small.isHeap, hsto] at hst
  | stack slots len =>
    exact ⟨_, by unfold Small.truncate; rw [onStore_stack hsto, stackTruncate_cut (h.brep hsto) hk],
      putStack_trans h hw hsto ((h.brep hsto).cut (by omega)), drop_ne_nil hk⟩

/-- C32, the part that holds: on the heap, or if nothing is cut off, `truncate` keeps the first `k`
elements and drops the others exactly once, in order. Missing: cutting inline vectors, for which it
is false. -/
theorem C32_truncate_partial {s : SSt α} {l : List α} (hs : c.size ≠ 0) (h : SRep c s.self s.w l)
    (hw : s.w.WF) (k : Nat) (hk : Small.isHeap s.self = true ∨ l.length ≤ k) :
    Sat c (Small.truncate c k s)
      (fun _ s' => STrans c (l.take k) (l.drop k) s s')
      (fun s' => STrans c (l.take k) (l.drop k) s s' ∧ ∃ a ∈ l.drop k, c.dropPanics a = true) :=
  (struncate_spec hs h hw k (fun e => hk.elim (fun h => by rw [h] at e; cases e) id)).mono
    (fun _ _ h => h.1) (fun _ h => ⟨h.1, h.2.2⟩)

/-- What is left and what was dropped. -/
def lookSmall (c : Cfg Nat) {β : Type} (r : Res (SSt Nat) β) : Option (List Nat × List Nat) :=
  match r with
  | .ok _ s | .panic s =>
    match Small.asSlice c s with
    | .ok l _ => some (l, s.w.log.drops)
    | _ => none
  | _ => none

/-- Whether memory was accessed out of bounds. -/
def isOob {σ β : Type} (r : Res σ β) : Bool :=
  match r with
  | .ub .oob => true
  | _ => false

example : lookSmall cfg64 (Small.truncate cfg64 1 (inline [7, 8, 9] 4 none world0)) = some ([7], [])
    ∧ lookSmall cfg64 (Small.truncate cfg64 1 (spilled cfg64 [7, 8, 9] 4 5)) = some ([7], [8, 9]) := by
  decide +kernel

/-! ## C33 -/

/-- C33 does not hold: removing from a full inline vector reads past the inline array. -/
theorem C33_refuted {s : SSt α} {l : List α} (hs : c.size ≠ 0) (h : SRep c s.self s.w l)
    (hst : Small.isHeap s.self = false) (hfull : l.length = s.self.n) {i : Nat} (hi : i < l.length) :
    Small.remove c i s = .ub .oob := by
  cases hsto : s.self.store with
  | heap v => simp [Small.isHeap, hsto] at hst
  | stack slots len =>
    obtain ⟨h1, h2, rest, h3⟩ := h.stack _ _ hsto
    have hb := h.brep hsto
    have : Stack.remove c i (s.stackBuf slots len) = .ub .oob := by
      unfold Stack.remove
      rw [M.bind_ok (Buf.getLen_apply _), hb.len, M.bind_ok (assert_pos hi),
        M.bind_ok (debugAssert_pos hi), M.bind_ok (uncheckedIndex_eq hi),
        M.bind_ok (Buf.read_eq hs (hb.slot hi))]
      refine M.bind_ub ?_
      have a1 : ¬ (c.size = 0 ∨ l.length - i = 0) := by omega
      have a2 : ¬ (i + 1 + (l.length - i) ≤ slots.length ∧ i + (l.length - i) ≤ slots.length) := by
        omega
      unfold Buf.copy
      rw [if_neg a1]
      exact if_neg a2
    unfold Small.remove
    rw [onStore_stack hsto, this]

/-- C33, the part that holds: on the heap or with a spare inline slot, `remove` returns the element
and closes the gap; with a bad index it panics and changes nothing. Missing: full inline vectors, for
which it is false. -/
theorem C33_remove_partial {s : SSt α} {l : List α} (hs : c.size ≠ 0) (h : SRep c s.self s.w l)
    (hw : s.w.WF) (i : Nat) :
    (∀ hi : i < l.length, Small.isHeap s.self = true ∨ l.length < s.self.n →
      ∃ s', Small.remove c i s = .ok l[i] s' ∧ STrans c (l.take i ++ l.drop (i + 1)) [] s s') ∧
    (l.length ≤ i → Small.remove c i s = .panic s) := by
  refine ⟨fun hi hr => ?_, fun hi => sremove_panic hs h (by omega)⟩
  obtain ⟨s', e1, e2, _⟩ := sremove_spec hs h hw hi
    (fun e => hr.elim (fun h => by rw [h] at e; cases e) id)
  refine ⟨s', e1, ?_⟩
  rw [← List.eraseIdx_eq_take_drop_succ]
  exact e2.trans

/-- Full at inline size 3; and with a spare slot. -/
example : isOob (Small.remove cfg64 0 (inline [7, 8, 9] 3 none world0)) = true ∧
    lookSmall cfg64 (Small.remove cfg64 0 (inline [7, 8, 9] 4 none world0)) = some ([8, 9], []) := by
  decide +kernel

/-! ## C34 -/

/-- C34 does not hold in release builds: inserting beyond the end of an inline vector with room is no
panic but undefined behaviour. -/
theorem C34_release_refuted {s : SSt α} {l : List α} (hs : c.size ≠ 0) (h : SRep c s.self s.w l)
    (hst : Small.isHeap s.self = false) (hdbg : c.debug = false)
    (hf : c.Fits (l.length + 1 + Vec.minNonZeroCap c))
    (hroom : l.length + extra c s.self 1 ≤ s.self.n) {i : Nat} (hi : l.length < i)
    (hin : i ≤ c.usizeMax) (a : α) : ∃ u, Small.insert c i a s = .ub u := by
  have hn := Fits.le_usize hs h.fits
  have hres := sreserve_room hs h hf hst hroom
  cases hsto : s.self.store with
  | heap v => simp [Small.isHeap, hsto] at hst
  | stack slots len =>
    obtain ⟨h1, h2, rest, h3⟩ := h.stack _ _ hsto
    have hb := h.brep hsto
    have : ∃ u, Stack.uncheckedInsert c i a (s.stackBuf slots len) = .ub u := by
      unfold Stack.uncheckedInsert
      rw [M.bind_ok (Buf.getLen_apply _), hb.len, M.bind_ok (M.onUnwind_ok
        (show debugAssert c (i ≤ l.length) (s.stackBuf slots len) = .ok () _ by
          simp [debugAssert, hdbg]; rfl))]
      cases hstr : c.strict with
      | true =>
        exact ⟨.contract, M.bind_ub (by
          simp [uncheckedIndex, hstr, Nat.le_of_lt hi])⟩
      | false =>
        rw [M.bind_ok (show uncheckedIndex c i l.length (s.stackBuf slots len) = .ok () _ by
            simp [uncheckedIndex, hstr]; rfl),
          M.bind_ok (show usub c l.length i (s.stackBuf slots len) =
            .ok (c.usizeMax + 1 + l.length - i) _ by
              simp [usub, hdbg, Nat.not_le.mpr hi]; rfl)]
        refine ⟨.oob, M.bind_ub ?_⟩
        unfold Buf.copy
        rw [if_neg (by omega)]
        exact if_neg (by simp only [St.stackBuf]; omega)
    obtain ⟨u, hu⟩ := this
    refine ⟨u, ?_⟩
    unfold Small.insert
    rw [M.bind_ok (M.onUnwind_ok hres), onStore_stack hsto, hu]

/-- C34 does not hold to the letter of `get_unchecked_mut`'s contract: inserting at the end of an
inline vector with room breaks it, in every build. -/
theorem C34_end_refuted {s : SSt α} {l : List α} (hs : c.size ≠ 0) (h : SRep c s.self s.w l)
    (hst : Small.isHeap s.self = false) (hstr : c.strict = true)
    (hf : c.Fits (l.length + 1 + Vec.minNonZeroCap c))
    (hroom : l.length + extra c s.self 1 ≤ s.self.n) (a : α) :
    Small.insert c l.length a s = .ub .contract := by
  have hres := sreserve_room hs h hf hst hroom
  cases hsto : s.self.store with
  | heap v => simp [Small.isHeap, hsto] at hst
  | stack slots len =>
    have hb := h.brep hsto
    have : Stack.uncheckedInsert c l.length a (s.stackBuf slots len) = .ub .contract := by
      unfold Stack.uncheckedInsert
      rw [M.bind_ok (Buf.getLen_apply _), hb.len, M.bind_ok (M.onUnwind_ok
        (debugAssert_pos (Nat.le_refl _)))]
      refine M.bind_ub ?_
      simp [uncheckedIndex, hstr]
    unfold Small.insert
    rw [M.bind_ok (M.onUnwind_ok hres), onStore_stack hsto, this]

/-- C34, the part that holds: unless the vector stays inline, in a release build (or at the end, to
the letter of `get_unchecked_mut`), `insert` with a good index inserts and with a bad index panics,
changing nothing but dropping the new element. Missing: the calls just refuted. -/
theorem C34_insert_partial {s : SSt α} {l : List α} (hs : c.size ≠ 0) (h : SRep c s.self s.w l)
    (hw : s.w.WF) {i : Nat} (hf : c.Fits (l.length + 1 + Vec.minNonZeroCap c)) (a : α)
    (hst : Small.isHeap s.self = true ∨ s.self.n < l.length + extra c s.self 1 ∨
      ((c.debug = true ∨ i ≤ l.length) ∧ (c.strict = true → i ≠ l.length))) :
    Sat c (Small.insert c i a s)
      (fun _ s' => i ≤ l.length ∧ STrans c (l.take i ++ a :: l.drop i) [] s s')
      (fun s' => STrans c l [a] s s' ∧ (l.length < i ∨ s'.w.refusals = s.w.refusals + 1)) := by
  refine (sinsert_spec hs h hw hf a (fun e1 e2 => ?_)).mono ?_ ?_
  · rcases hst with h | h | h
    · rw [h] at e1; cases e1
    · omega
    · exact h
  · rintro _ s' ⟨h1, h2⟩
    refine ⟨h1, ?_⟩
    rw [← insertIdx_split h1]
    exact h2.trans
  · rintro s' ⟨h1, ⟨_, h2⟩ | h2⟩
    · exact ⟨h1, Or.inl h2⟩
    · exact ⟨h1, Or.inr h2⟩

/-- A release build, not insisting on the letter of `get_unchecked_mut`. -/
def cfgOptimised : Cfg Nat := { cfg64 with debug := false, strict := false }

example : isOob (Small.insert cfgOptimised 3 5 (inline [7] 8 none world0)) = true ∧
    lookSmall cfg64 (Small.insert cfg64 3 5 (inline [7] 8 none world0)) = some ([7], [5]) ∧
    lookSmall cfg64 (Small.insert cfg64 0 5 (inline [7] 8 none world0)) = some ([5, 7], []) ∧
    lookSmall cfgOptimised (Small.insert cfgOptimised 1 5 (inline [7] 8 none world0)) =
      some ([7, 5], []) := by
  decide +kernel

/-! ## C35 -/

theorem M.onUnwind_ok_inv {σ β : Type} {m : M σ β} {k : M σ Unit} {s s' : σ} {b : β}
    (h : m.onUnwind k s = .ok b s') : m s = .ok b s' := by
  unfold M.onUnwind at h
  cases hm : m s with
  | ok a s1 => rw [hm] at h; exact h
  | panic s1 => rw [hm] at h; simp only at h; cases hk : k s1 <;> rw [hk] at h <;> cases h
  | abort => rw [hm] at h; cases h
  | ub u => rw [hm] at h; cases h

/-- A push into the inline array that returns found room. -/
theorem stackPush_ok {b b' : Buf α} {a : α} (h : Stack.push c a b = .ok () b') :
    b.len ≠ b.cap ∧ b'.len = b.len + 1 ∧ b'.cap = b.cap := by
  unfold Stack.push at h
  obtain ⟨_, b1, h1, h2⟩ := M.bind_ok_inv h
  have h1 := M.onUnwind_ok_inv h1
  obtain ⟨_, b2, h3, h4⟩ := M.bind_ok_inv h1
  have e1 : b1 = b := by
    have : b2 = b := by injection h3 with _ e; exact e.symm
    subst this
    unfold debugAssert at h4
    split at h4
    · cases h4
    · injection h4 with _ e; exact e.symm
  subst e1
  unfold Stack.uncheckedPush at h2
  obtain ⟨_, b3, h5, h6⟩ := M.bind_ok_inv h2
  have h5 := M.onUnwind_ok_inv h5
  obtain ⟨_, b4, h7, h8⟩ := M.bind_ok_inv h5
  injection h7 with e1 e2
  subst e1 e2
  obtain ⟨h9, rfl⟩ := assert_ok h8
  obtain ⟨n, b5, h10, h11⟩ := M.bind_ok_inv h6
  injection h10 with e1 e2
  subst e1 e2
  obtain ⟨_, b6, h12, h13⟩ := M.bind_ok_inv h11
  unfold Buf.setLen at h13
  obtain ⟨_, b7, h14, h15⟩ := M.bind_ok_inv h13
  injection h14 with e1 e2
  subst e1 e2
  obtain ⟨_, b8, h16, h17⟩ := M.bind_ok_inv h15
  injection h17 with _ e2
  have e8 : b8.cap = b6.cap := by
    unfold debugAssert at h16
    split at h16
    · cases h16
    · injection h16 with _ e; rw [e]
  have e6 : b6.cap = b3.cap := by
    unfold Buf.write at h12
    split at h12
    · injection h12 with _ e; rw [e]
    · split at h12
      · injection h12 with _ e; rw [← e]
      · cases h12
  subst e2
  exact ⟨h9, rfl, by simp only; rw [e8, e6]⟩

theorem pushCalls_full {f : Nat → Option α} {j n : Nat} {b b' : Buf α} (hle : b.len ≤ b.cap)
    (hn : b.cap < b.len + n) : Stack.pushCalls c f j n b ≠ .ok () b' := by
  induction n generalizing b j with
  | zero => omega
  | succ n ih =>
    intro h
    unfold Stack.pushCalls at h
    cases hf : f j with
    | none => rw [hf] at h; cases h
    | some a =>
      rw [hf] at h
      obtain ⟨_, b1, h1, h2⟩ := M.bind_ok_inv h
      obtain ⟨h3, h4, h5⟩ := stackPush_ok h1
      exact ih (by omega) (by omega) h2

theorem pushCopies_full {a : α} {n : Nat} {b b' : Buf α} (hle : b.len ≤ b.cap)
    (h : Stack.pushCopies c a n b = .ok () b') : b'.len = b.len + n ∧ b'.cap = b.cap ∧
      b'.len ≤ b'.cap := by
  induction n generalizing b with
  | zero => injection h with _ h; subst h; exact ⟨rfl, rfl, hle⟩
  | succ n ih =>
    unfold Stack.pushCopies at h
    obtain ⟨x, b1, h1, h2⟩ := M.bind_ok_inv h
    have e1 : b1.len = b.len ∧ b1.cap = b.cap := by
      unfold Buf.onLog at h1
      split at h1
      · injection h1 with _ e; rw [← e]; exact ⟨rfl, rfl⟩
      all_goals cases h1
    obtain ⟨_, b2, h3, h4⟩ := M.bind_ok_inv h2
    obtain ⟨h5, h6, h7⟩ := stackPush_ok h3
    obtain ⟨i1, i2, i3⟩ := ih (by omega) h4
    exact ⟨by omega, by omega, i3⟩

/-- C35 does not hold: `resize_with` never returns when asked to make an inline vector longer than
its inline size, in any build. -/
theorem C35_resize_with_refuted {s s' : SSt α} {l : List α} (h : SRep c s.self s.w l)
    (hst : Small.isHeap s.self = false) {k : Nat} (hk : s.self.n < k) (f : Nat → Option α) :
    Small.resizeWith c k f s ≠ .ok () s' := by
  cases hsto : s.self.store with
  | heap v => simp [Small.isHeap, hsto] at hst
  | stack slots len =>
    obtain ⟨h1, h2, rest, h3⟩ := h.stack _ _ hsto
    have hle : l.length ≤ s.self.n := by rw [← h2, h3]; simp
    unfold Small.resizeWith
    rw [onStore_stack hsto]
    intro e
    cases hr : Stack.resizeWith c k f (s.stackBuf slots len) with
    | ok u b =>
      unfold Stack.resizeWith at hr
      rw [M.bind_ok (Buf.getLen_apply _), (h.brep hsto).len, if_neg (by omega)] at hr
      obtain ⟨_, b1, h4, h5⟩ := M.bind_ok_inv hr
      have e1 : b1 = s.stackBuf slots len := by
        unfold Stack.reserveExact at h4
        obtain ⟨_, b2, h6, h7⟩ := M.bind_ok_inv h4
        injection h6 with e1 e2
        subst e1 e2
        unfold debugAssert at h7
        split at h7
        · cases h7
        · injection h7 with _ e; exact e.symm
      subst e1
      exact pushCalls_full (by simp only [St.stackBuf]; omega) (by simp only [St.stackBuf]; omega) h5
    | panic b => rw [hr] at e; cases e
    | abort => rw [hr] at e; cases e
    | ub u => rw [hr] at e; cases e

/-- In a debug build the failing `resize_with` changes nothing. -/
theorem C35_resize_with_debug_refuted {s : SSt α} {l : List α} (h : SRep c s.self s.w l)
    (hst : Small.isHeap s.self = false) {k : Nat} (hk : s.self.n < k) (hdbg : c.debug = true)
    (f : Nat → Option α) : Small.resizeWith c k f s = .panic s := by
  cases hsto : s.self.store with
  | heap v => simp [Small.isHeap, hsto] at hst
  | stack slots len =>
    obtain ⟨h1, h2, rest, h3⟩ := h.stack _ _ hsto
    have hle : l.length ≤ s.self.n := by rw [← h2, h3]; simp
    refine onStore_panic_stack hsto ?_
    unfold Stack.resizeWith
    rw [M.bind_ok (Buf.getLen_apply _), (h.brep hsto).len, if_neg (by omega)]
    refine M.bind_panic ?_
    unfold Stack.reserveExact
    rw [M.bind_ok (M.get_apply _)]
    have : ¬ (len + (k - l.length) ≤ s.self.n) := by omega
    simp [debugAssert, hdbg, St.stackBuf, this]

/-- C35 does not hold: `resize(k, a)` on an inline vector reserves only `k - N` more elements. If that
many fit inline, then `resize` never returns. -/
theorem C35_resize_refuted {s s' : SSt α} {l : List α} (hs : c.size ≠ 0)
    (h : SRep c s.self s.w l) (hst : Small.isHeap s.self = false) {k : Nat} (hk : s.self.n < k)
    (hf : c.Fits (l.length + (k - s.self.n) + Vec.minNonZeroCap c))
    (hroom : l.length + extra c s.self (k - s.self.n) ≤ s.self.n) (a : α) :
    Small.resize c k a s ≠ .ok () s' := by
  have hres := sreserve_room hs h hf hst hroom
  cases hsto : s.self.store with
  | heap v => simp [Small.isHeap, hsto] at hst
  | stack slots len =>
    obtain ⟨h1, h2, rest, h3⟩ := h.stack _ _ hsto
    have hle : l.length ≤ s.self.n := by rw [← h2, h3]; simp
    unfold Small.resize
    rw [M.bind_ok (M.onUnwind_ok (s := s) (s' := s) (a := ()) (by
      rw [M.bind_ok (M.get_apply s), if_pos hk]; exact hres)), onStore_stack hsto]
    intro e
    cases hr : Stack.resize c k a (s.stackBuf slots len) with
    | ok u b =>
      unfold Stack.resize at hr
      rw [M.bind_ok (Buf.getLen_apply _), (h.brep hsto).len, if_neg (by omega)] at hr
      obtain ⟨_, b1, h4, h5⟩ := M.bind_ok_inv hr
      obtain ⟨_, b2, h6, h7⟩ := M.bind_ok_inv (M.onUnwind_ok_inv h4)
      have e1 : b2 = s.stackBuf slots len := by
        unfold Stack.reserveExact at h6
        obtain ⟨_, b3, h8, h9⟩ := M.bind_ok_inv h6
        injection h8 with e1 e2
        subst e1 e2
        unfold debugAssert at h9
        split at h9
        · cases h9
        · injection h9 with _ e; exact e.symm
      subst e1
      obtain ⟨i1, i2, i3⟩ := pushCopies_full (by simp only [St.stackBuf]; omega) h7
      obtain ⟨i4, -, -⟩ := stackPush_ok h5
      simp only [St.stackBuf] at i1 i2
      omega
    | panic b => rw [hr] at e; cases e
    | abort => rw [hr] at e; cases e
    | ub u => rw [hr] at e; cases e

/-- C35 does not hold for the elements removed either: making an inline vector shorter drops the value
given to `resize` but none of the elements cut off. -/
theorem C35_shrink_refuted {s : SSt α} {l : List α} (h : SRep c s.self s.w l)
    (hw : s.w.WF) (hst : Small.isHeap s.self = false) {k : Nat} (hk : k < l.length)
    (a : α) (ha : c.dropPanics a = false) (f : Nat → Option α) :
    (∃ s', Small.resize c k a s = .ok () s' ∧ STrans c (l.take k) [a] s s') ∧
    (∃ s', Small.resizeWith c k f s = .ok () s' ∧ STrans c (l.take k) [] s s') ∧ l.drop k ≠ [] := by
  cases hsto : s.self.store with
  | heap v => simp [Small.isHeap, hsto] at hst
  | stack slots len =>
    obtain ⟨h1, h2, rest, h3⟩ := h.stack _ _ hsto
    have hle : l.length ≤ s.self.n := by rw [← h2, h3]; simp
    have hb := h.brep hsto
    have hcut := hb.cut (k := k) (by omega)
    refine ⟨?_, ?_, drop_ne_nil hk⟩
    · have e : Stack.resize c k a (s.stackBuf slots len) = .ok ()
          { s.stackBuf slots len with len := k, log := s.w.log.addDrops [a] } := by
        unfold Stack.resize
        rw [M.bind_ok (Buf.getLen_apply _), hb.len, if_pos (by omega)]
        rw [andAlways_ok (stackTruncate_cut hb hk)]
        simp [Buf.onLog, dropVal, ha, St.stackBuf, Log.addDrops]
      refine ⟨_, ?_, putStack_trans h hw hsto (b := { s.stackBuf slots len with
        len := k, log := s.w.log.addDrops [a] }) ⟨⟨hcut.rep.len, hcut.rep.cap, hcut.rep.holds⟩,
          hcut.cap, rfl⟩⟩
      unfold Small.resize
      rw [M.bind_ok (M.onUnwind_ok (s := s) (s' := s) (a := ()) (by
        rw [M.bind_ok (M.get_apply s), if_neg (by omega)]; rfl)), onStore_stack hsto, e]
    · have e : Stack.resizeWith c k f (s.stackBuf slots len) = .ok ()
          { s.stackBuf slots len with len := k } := by
        unfold Stack.resizeWith
        rw [M.bind_ok (Buf.getLen_apply _), hb.len, if_pos (by omega)]
        exact stackTruncate_cut hb hk
      exact ⟨_, by unfold Small.resizeWith; rw [onStore_stack hsto, e],
        putStack_trans h hw hsto hcut⟩

/-- C35, the part that holds for `resize_with`: on the heap, or if the new length is between the
current length and the inline size, the vector reaches the new length with exactly the callback's
results appended (or the elements beyond dropped); if the callback or the allocator fails, what was
produced so far stays. Missing: the calls just refuted. -/
theorem C35_resize_with_partial {s : SSt α} {l : List α} (hs : c.size ≠ 0)
    (h : SRep c s.self s.w l) (hw : s.w.WF) (f : Nat → Option α) (k : Nat)
    (hst : Small.isHeap s.self = true ∨ (l.length ≤ k ∧ k ≤ s.self.n))
    (hf : l.length < k → c.Fits k) :
    Sat c (Small.resizeWith c k f s)
      (fun _ s' => (k ≤ l.length ∧ STrans c (l.take k) (l.drop k) s s') ∨
        (l.length < k ∧ ∃ ys, (List.range (k - l.length)).map f = ys.map some ∧
          STrans c (l ++ ys) [] s s'))
      (fun s' => (k ≤ l.length ∧ STrans c (l.take k) (l.drop k) s s' ∧ ∃ a ∈ l.drop k, c.dropPanics a = true) ∨
        (l.length < k ∧ s' = s.refuse) ∨
        (l.length < k ∧ ∃ m ys, m < k - l.length ∧
          (List.range m).map f = ys.map some ∧ f m = none ∧ STrans c (l ++ ys) [] s s')) := by
  refine (sresizeWith_spec hs h hw f k
    (fun e => hst.elim (fun h => by rw [h] at e; cases e) id) hf).mono (fun _ _ h => h.2) ?_
  rintro s' (⟨h1, h2, _, h3⟩ | h1 | ⟨h1, _, h2⟩)
  · exact Or.inl ⟨h1, h2, h3⟩
  · exact Or.inr (Or.inl h1)
  · exact Or.inr (Or.inr ⟨h1, h2⟩)

/-- C35, the part that holds for `resize`: on the heap, or if the vector gets no shorter and either
the new length is within the inline size or reserving moves it to the heap. The new elements are
clones of the value, the last one the value itself. Missing: the calls just refuted. -/
theorem C35_resize_partial {s : SSt α} {l : List α} (hs : c.size ≠ 0) (h : SRep c s.self s.w l)
    (hw : s.w.WF) (k : Nat) (a : α)
    (hst : Small.isHeap s.self = true ∨ (l.length ≤ k ∧
      (k ≤ s.self.n ∨ s.self.n < l.length + extra c s.self (k - s.self.n))))
    (hf : c.Fits (l.length + k + Vec.minNonZeroCap c)) :
    Sat c (Small.resize c k a s)
      (fun _ s' => (k ≤ l.length ∧ STrans c (l.take k) (l.drop k ++ [a]) s s') ∨
        (l.length < k ∧ ∃ ys, Cloned c (List.replicate (k - l.length - 1) a) ys ∧
          STrans c (l ++ ys ++ [a]) [] s s'))
      (fun s' => (k ≤ l.length ∧ STrans c (l.take k) (l.drop k ++ [a]) s s' ∧
          ∃ x ∈ l.drop k ++ [a], c.dropPanics x = true) ∨
        (s'.w.refusals = s.w.refusals + 1 ∧ STrans c l [a] s s') ∨
        (l.length < k ∧ ∃ m ys, m < k - l.length - 1 ∧ Cloned c (List.replicate m a) ys ∧
          (∃ j, c.clone j a = none) ∧ STrans c (l ++ ys) [a] s s')) := by
  refine (sresize_spec hs h hw k a (fun e => hst.elim (fun h => by rw [h] at e; cases e)
    (fun ⟨h1, h2⟩ => ⟨h1, fun h3 => h2.elim (fun h4 => by omega) id⟩)) hf).mono
    (fun _ _ h => h.2) ?_
  rintro s' (⟨h1, h2, _, h3⟩ | h1 | ⟨h1, _, h2⟩)
  · exact Or.inl ⟨h1, h2, h3⟩
  · exact Or.inr (Or.inl h1)
  · exact Or.inr (Or.inr ⟨h1, h2⟩)

/-- `SmallVec::<u64, 8>::new().resize(9, 5)` panics with nothing done in a debug build, and with all
eight slots filled in a release build; `resize(8, 5)` works. -/
example : lookSmall cfg64 (Small.resize cfg64 9 5 (inline [] 8 none world0)) = some ([], [5]) ∧
    lookSmall cfgOptimised (Small.resize cfgOptimised 9 5 (inline [] 8 none world0)) =
      some ([5, 5, 5, 5, 5, 5, 5, 5], [5]) ∧
    lookSmall cfg64 (Small.resize cfg64 8 5 (inline [1] 8 none world0)) =
      some ([1, 5, 5, 5, 5, 5, 5, 5], []) ∧
    lookSmall cfg64 (Small.resizeWith cfg64 9 (fun j => some j) (inline [7] 8 none world0)) =
      some ([7], []) ∧
    lookSmall cfg64 (Small.resize cfg64 1 5 (inline [7, 8] 8 none world0)) = some ([7], [5]) ∧
    lookSmall cfg64 (Small.resize cfg64 1 5 (spilled cfg64 [7, 8] 8 9)) = some ([7], [8, 5]) := by
  decide +kernel

/-! ## C36 -/

/-- C36 does not hold: whenever the elements of a heap vector fit inline, moving them back is undefined
behaviour (the buffer is released, then the elements are dropped in it and it is released again; a
vector without buffer releases a dangling pointer). -/
theorem C36_refuted {s : SSt α} {l : List α} (hs : c.size ≠ 0) (h : SRep c s.self s.w l)
    (hst : Small.isHeap s.self = true) (hl : l.length ≤ s.self.n) :
    ∃ u, Small.tryMoveToStack c s = .ub u := by
  cases hsto : s.self.store with
  | stack _ _ => simp [Small.isHeap, hsto] at hst
  | heap v =>
    have hv := h.heap v hsto
    have hdd : ∃ u, Vec.deallocWithoutDrop c ⟨v, s.w⟩ = .ub u := by
      unfold Vec.deallocWithoutDrop
      rcases hv.buf with ⟨hp, hc, _⟩ | ⟨p, b, rest, hp, hb, ha, hby, _, _, hpos, _⟩
      · refine ⟨.badFree, M.bind_ub ?_⟩
        simp [Vec.dealloc, M.bind_apply, liftW, rawDealloc, hp]
      · rw [M.bind_ok (dealloc_spec (s := ⟨v, s.w⟩) hv hpos)]
        unfold Vec.drop
        rw [M.bind_ok (M.get_apply _), if_pos (by simpa [capacity_eq hs] using hpos)]
        have hsl : (s.w.free v.ptr).slots v.ptr = [] := by
          simp [World.slots, World.free, hp]
        cases hlen : v.len with
        | zero =>
          rw [M.bind_ok (show Vec.onBuf c (Buf.dropLoop c 0 0) ⟨v, s.w.free v.ptr⟩ = .ok () _ from rfl)]
          refine ⟨.badFree, ?_⟩
          simp [Vec.dealloc, M.bind_apply, liftW, rawDealloc, hp, World.free, World.setSlots]
        | succ n =>
          refine ⟨.oob, M.bind_ub ?_⟩
          unfold Vec.onBuf
          simp only [hsl, Buf.dropLoop]
          rw [M.bind_ub (show Buf.dropAt c 0 _ = .ub .oob by simp [Buf.dropAt, hs])]
    obtain ⟨u, hu⟩ := hdd
    refine ⟨u, ?_⟩
    unfold Small.tryMoveToStack
    rw [M.bind_ok (M.get_apply s)]
    simp only [hsto]
    rw [if_pos (by rw [hv.len]; exact hl)]
    rw [M.bind_ok (show (M.modify (fun s : SSt α => { s with self := { s.self with
        store := .stack (List.replicate s.self.n none) 0 } })) s = .ok () _ from rfl)]
    have hlen : v.len ≤ (s.w.slots v.ptr).length := by
      obtain ⟨rest, hr⟩ := (Rep.brep (s := ⟨v, s.w⟩) hs hv).holds
      have hr : s.w.slots v.ptr = l.map some ++ rest := hr
      rw [hr, hv.len]; simp
    have hc : (do Buf.copyFrom c (s.w.slots v.ptr) 0 v.len; Buf.setLen c v.len : M (Buf α) Unit)
        ⟨List.replicate s.self.n none, s.self.n, 0, s.w.log⟩ = .ok ()
          ⟨(List.replicate s.self.n none).take 0 ++ (s.w.slots v.ptr).take v.len ++
            (List.replicate s.self.n none).drop (0 + v.len), s.self.n, v.len, s.w.log⟩ := by
      rw [M.bind_ok (Buf.copyFrom_eq hs hlen (by simp [hv.len]; exact hl)),
        Buf.setLen_eq (by simp [hv.len]; exact hl)]
    have hon := onStore_stack (s := ⟨⟨s.self.n, .stack (List.replicate s.self.n none) 0,
      s.self.marker⟩, s.w⟩) (f := (do Buf.copyFrom c (s.w.slots v.ptr) 0 v.len; Buf.setLen c v.len))
      (g := pure ()) rfl
    simp only [St.stackBuf, hc] at hon
    rw [M.bind_ok hon]
    refine M.bind_ub ?_
    have hon2 : (Vec.deallocWithoutDrop c).onUnwind (pure ()) ⟨v, s.w⟩ = .ub u := by
      unfold M.onUnwind; rw [hu]
    simp [liftW, withLocal, St.putStack, hon2]

/-- C36, the part that holds: a vector that is too long for the inline array is left alone and an error
is returned; an inline vector stays as it is. Missing: every heap vector that fits, for which it is
false. -/
theorem C36_too_long_partial {s : SSt α} {l : List α} (h : SRep c s.self s.w l) :
    (Small.isHeap s.self = true → s.self.n < l.length → Small.tryMoveToStack c s = .ok false s) ∧
    (Small.isHeap s.self = false → Small.tryMoveToStack c s = .ok true s) := by
  unfold Small.tryMoveToStack
  rw [M.bind_ok (M.get_apply s)]
  cases hsto : s.self.store with
  | stack _ _ => exact ⟨by simp [Small.isHeap, hsto], fun _ => rfl⟩
  | heap v =>
    refine ⟨fun _ hl => ?_, by simp [Small.isHeap, hsto]⟩
    simp only
    rw [if_neg (by rw [(h.heap v hsto).len]; omega)]
    rfl

/-- Whether undefined behaviour was reached. -/
def isUB {σ β : Type} (r : Res σ β) : Bool :=
  match r with
  | .ub _ => true
  | _ => false

example : isUB (Small.tryMoveToStack cfg64 (spilled cfg64 [7, 8] 4 5)) = true ∧
    isUB (Small.tryMoveToStack cfg64 (spilled cfg64 [] 4 5)) = true ∧
    lookSmall cfg64 (Small.tryMoveToStack cfg64 (spilled cfg64 [7, 8, 9] 2 5)) =
      some ([7, 8, 9], []) := by
  decide +kernel

/-! ## C37 -/

/-- C37 does not hold: built from an array that fits inline, the vector is empty and the elements are
lost without being dropped. -/
theorem C37_refuted {w : World α} {n : Nat} (hs : c.size ≠ 0) (hn : c.Fits n) {l : List α}
    (hl : l ≠ []) (hle : l.length ≤ n) :
    ∃ v, Small.fromArray c n l w = .ok v w ∧ Small.lenOf v = 0 ∧ SRep c v w [] ∧ l.length ≠ 0 := by
  unfold Small.fromArray
  rw [if_pos hle]
  have hc : Buf.copyFrom c (l.map some) 0 l.length
      ⟨List.replicate n none, n, 0, w.log⟩ = .ok ()
        ⟨(List.replicate n none).take 0 ++ (l.map some).take l.length ++
          (List.replicate n none).drop (0 + l.length), n, 0, w.log⟩ :=
    Buf.copyFrom_eq hs (by simp) (by simpa using hle)
  have hon := onStore_stack (s := (⟨Small.withMarker n none, w⟩ : SSt α))
    (f := Buf.copyFrom c (l.map some) 0 l.length) (g := pure ()) rfl
  have hc' : Buf.copyFrom c (l.map some) 0 l.length
      (St.stackBuf (⟨Small.withMarker n none, w⟩ : SSt α) (List.replicate n none) 0) = _ := hc
  rw [hc'] at hon
  simp only at hon
  rw [M.bind_ok (withLocal_ok hon)]
  refine ⟨_, rfl, rfl, ⟨hn, ?_, ?_⟩, by simpa using hl⟩
  · intro slots len e
    simp only [St.putStack, Small.withMarker, Store.stack.injEq] at e
    obtain ⟨rfl, rfl⟩ := e
    exact ⟨rfl, by simp [St.putStack, Small.withMarker]; omega, _, rfl⟩
  · intro v e; simp [St.putStack] at e

/-- C37, the part that holds: an array longer than the inline size (or an empty one) becomes the
contents. Missing: arrays that fit inline, for which it is false. -/
theorem C37_from_array_partial {w : World α} {n : Nat} (hs : c.size ≠ 0) (hw : w.WF) (l : List α)
    (hn : c.Fits n) (hf : c.Fits l.length) (hl : n < l.length ∨ l = []) :
    Sat c (Small.fromArray c n l w)
      (fun v w' => SRep c v w' l ∧ Small.lenOf v = l.length ∧ w'.log.drops = w.log.drops)
      (fun w' => w'.refusals = w.refusals + 1 ∧ w'.log.drops = w.log.drops ++ l) :=
  (sfromArray_spec hs hw l hn hf hl).mono
    (fun _ _ h => ⟨h.1.rep, h.1.rep.lenOf, by simpa using h.1.drops⟩) (fun _ h => ⟨h.2, h.1.drops⟩)

/-- Length and drops of the result of a constructor. -/
def lookMade (c : Cfg Nat) (r : Res (World Nat) (SmallH Nat)) : Option (List Nat × List Nat) :=
  match r with
  | .ok v w => lookSmall c (.ok () ⟨v, w⟩)
  | _ => none

example : lookMade cfg64 (Small.fromArray cfg64 4 [7, 8, 9] world0) = some ([], []) ∧
    lookMade cfg64 (Small.fromArray cfg64 2 [7, 8, 9] world0) = some ([7, 8, 9], []) := by
  decide +kernel

/-! ## C38 -/

/-- C38 does not hold: splitting at the end panics. -/
theorem C38_refuted {s : SSt α} {l : List α} (h : SRep c s.self s.w l) (n' : Nat) :
    Small.splitOffInto c n' l.length s = .panic s :=
  ssplitOff_panic h (Nat.le_refl _)

/-- C38, the part that holds: split before the end, the first elements stay, the others are in the new
vector, nothing is dropped, and the old vector stays where it was; beyond the end it panics and changes
nothing. Missing: splitting at the end, for which it is false. -/
theorem C38_split_off_partial {s : SSt α} {l : List α} (hs : c.size ≠ 0) (h : SRep c s.self s.w l)
    (hw : s.w.WF) {n' : Nat} (hn : c.Fits n') (k : Nat) :
    (k < l.length → Sat c (Small.splitOffInto c n' k s)
      (fun r s' => SRep c s'.self s'.w (l.take k) ∧ SRep c r s'.w (l.drop k) ∧ r.n = n' ∧
        s'.w.log = s.w.log ∧ s'.self.ptr = s.self.ptr ∧
        ∀ p, r.ptr = some p → s'.self.ptr ≠ some p ∧ s.w.heap p = none)
      (fun s' => s' = s.refuse)) ∧
    (l.length < k → Small.splitOffInto c n' k s = .panic s) := by
  refine ⟨fun hk => ?_, fun hk => ssplitOff_panic h (by omega)⟩
  refine (ssplitOff_spec hs h hw hk hn).mono ?_ (fun _ h => h)
  rintro r s' ⟨h1, h2, h3, h4, h5, h6⟩
  have hp : s'.self.ptr = s.self.ptr := by
    rw [h1]; unfold SmallH.withLen SmallH.ptr; cases s.self.store <;> rfl
  refine ⟨h3, h2.rep, h6, h4, hp, fun p e => ⟨?_, ?_⟩⟩
  · rw [hp]
    intro e2
    have a1 := h2.own.fresh p e (by simp)
    have a2 := h.ptr_lt hw e2
    omega
  · exact hw p (h2.own.fresh p e (by simp))

/-- What is left and what the new vector holds. -/
def lookSplit (c : Cfg Nat) (r : Res (SSt Nat) (SmallH Nat)) : Option (List Nat × List Nat) :=
  match r with
  | .ok v s =>
    match Small.asSlice c s, Small.asSlice c ⟨v, s.w⟩ with
    | .ok l _, .ok l' _ => some (l, l')
    | _, _ => none
  | _ => none

example : lookSplit cfg64 (Small.splitOffInto cfg64 4 1 (inline [7, 8, 9] 4 none world0)) =
      some ([7], [8, 9]) ∧
    lookSplit cfg64 (Small.splitOffInto cfg64 1 1 (spilled cfg64 [7, 8, 9] 4 3)) =
      some ([7], [8, 9]) ∧
    lookSplit cfg64 (Small.splitOffInto cfg64 4 3 (inline [7, 8, 9] 4 none world0)) = none := by
  decide +kernel

/-! ## C81 -/

/-- C81 does not hold in release builds: an amount for which the sum wraps around to less than the
length makes the new buffer too small, and the elements are copied past its end. -/
theorem C81_refuted {s : SSt α} {l : List α} (hs : c.size ≠ 0) (h : SRep c s.self s.w l)
    (hw : s.w.WF) (hst : Small.isHeap s.self = false) (hdbg : c.debug = false) {k : Nat}
    (hk : k ≤ c.usizeMax) (hwrap : c.usizeMax < l.length + k) (hmin : Vec.minNonZeroCap c < l.length)
    (hg : ∀ t b, c.grant t b = true) (hd : ∀ a, c.dropPanics a = false) :
    Small.tryMoveToHeap c k s = .ub .oob := by
  cases hsto : s.self.store with
  | heap v => simp [Small.isHeap, hsto] at hst
  | stack slots len =>
    obtain ⟨h1, h2, rest, h3⟩ := h.stack _ _ hsto
    have hle : l.length ≤ s.self.n := by rw [← h2, h3]; simp
    have hu := Fits.le_usize hs h.fits
    have hpos := minCap_pos (c := c)
    let r := max ((l.length + k) % (c.usizeMax + 1)) (Vec.minNonZeroCap c)
    have hr : r < l.length := by
      have : (l.length + k) % (c.usizeMax + 1) = l.length + k - (c.usizeMax + 1) := by
        rw [Nat.mod_eq_sub_mod (by omega), Nat.mod_eq_of_lt (by omega)]
      simp only [r]
      omega
    have key := tryWithCapacity_spec (w := s.w) (n := r) hs hw (by simp only [r]; omega)
      (Fits.mono h.fits (by omega)) s.self.marker
    unfold Small.tryMoveToHeap
    rw [M.bind_ok (M.get_apply s)]
    simp only [hsto]
    rw [M.bind_ok (show uadd c len k s = .ok ((l.length + k) % (c.usizeMax + 1)) s by
      simp [uadd, h1, Nat.not_le.mpr hwrap, hdbg])]
    cases hq : Vec.tryWithCapacityAndMarker c r s.self.marker s.w with
    | panic w => rw [hq] at key; exact key.elim
    | abort => rw [hq] at key; obtain ⟨a, ha⟩ := key; rw [hd a] at ha; cases ha
    | ub u => rw [hq] at key; exact key.elim
    | ok x w =>
      rw [hq] at key
      rcases key with ⟨v, rfl, -, e1, e2, e3, e4, e5, e6, e7, e8, -⟩ | ⟨-, e, -⟩
      · rw [M.bind_ok (liftW_ok hq)]
        simp only
        refine M.bind_ub ?_
        have hslots : (w.slots v.ptr).length = r := by
          simp [World.slots, e6, e8]
        have hb : Vec.onBuf c (do Buf.copyFrom c slots 0 len; Buf.setLen c len) ⟨v, w⟩ =
            .ub .oob := by
          unfold Vec.onBuf
          rw [M.bind_ub (u := .oob)]
          unfold Buf.copyFrom
          rw [if_neg (by omega)]
          exact if_neg (by simp only; omega)
        simp [liftW, withLocal, M.onUnwind, hb]
      · rw [hg] at e; cases e

/-- C81, the part that holds: if the total fits the byte limit, the vector moves to a heap buffer of
exactly the requested size with the same contents, or an error is returned and nothing changes. Missing:
amounts whose sum with the length wraps around, for which it is false in release builds. -/
theorem C81_move_to_heap_partial {s : SSt α} {l : List α} {k : Nat} (hs : c.size ≠ 0)
    (h : SRep c s.self s.w l) (hw : s.w.WF) (hst : Small.isHeap s.self = false)
    (hf : c.Fits (max (l.length + k) (Vec.minNonZeroCap c))) :
    Sat c (Small.tryMoveToHeap c k s)
      (fun r s' => (r = .ok () ∧ STrans c l [] s s' ∧
          ∃ v, s'.self.store = .heap v ∧ v.cap = max (l.length + k) (Vec.minNonZeroCap c)) ∨
        (r = .error .allocError ∧ s' = s.refuse))
      (fun _ => False) := by
  cases hsto : s.self.store with
  | heap _ => simp [Small.isHeap, hsto] at hst
  | stack slots len =>
    refine (tryMoveToHeap_stack (k := k) hs h hw hsto hf).mono ?_ (fun _ h => h)
    rintro r s' (⟨rfl, h1, h2, _⟩ | ⟨rfl, h1, rfl⟩)
    · exact Or.inl ⟨rfl, h1.trans, h2⟩
    · exact Or.inr ⟨rfl, rfl⟩

/-- In a debug build the wrap-around is caught. -/
theorem C81_debug_partial {s : SSt α} {l : List α} {k : Nat} (h : SRep c s.self s.w l)
    (hst : Small.isHeap s.self = false) (hdbg : c.debug = true)
    (hwrap : c.usizeMax < l.length + k) : Small.tryMoveToHeap c k s = .panic s := by
  cases hsto : s.self.store with
  | heap _ => simp [Small.isHeap, hsto] at hst
  | stack slots len =>
    obtain ⟨h1, -⟩ := h.stack _ _ hsto
    unfold Small.tryMoveToHeap
    rw [M.bind_ok (M.get_apply s)]
    simp only [hsto]
    refine M.bind_panic ?_
    simp [uadd, h1, Nat.not_le.mpr hwrap, hdbg, M.boom]

/-- Five elements inline, `usize::MAX` more wanted. -/
example : isOob (Small.tryMoveToHeap cfgOptimised (2 ^ 64 - 1)
      (inline [1, 2, 3, 4, 5] 8 none world0)) = true ∧
    lookSmall cfg64 (Small.tryMoveToHeap cfg64 (2 ^ 64 - 1) (inline [1, 2, 3, 4, 5] 8 none world0)) =
      some ([1, 2, 3, 4, 5], []) ∧
    lookSmall cfg64 (Small.tryMoveToHeap cfg64 3 (inline [1, 2, 3, 4, 5] 8 none world0)) =
      some ([1, 2, 3, 4, 5], []) := by
  decide +kernel

/-! ## C28 and C30 for all calls -/

theorem isOob_eq {σ β : Type} {r : Res σ β} (h : isOob r = true) : r = .ub .oob := by
  unfold isOob at h
  split at h
  · rfl
  · cases h

/-- C30 does not hold: after a client collected four elements into a `SmallVec<_, 4>`, `remove(0)` is
undefined behaviour (`C33_refuted` is the general case). -/
theorem C30_refuted :
    ∃ hist P, SReaches cfg64 ⟨[], world0⟩ hist P ∧
      runSCmd cfg64 (.on 0 (.remove 0)) P = .ub .oob := by
  have h : (srunAll cfg64 [.fromIter 4 ⟨[1, 2, 3, 4], 4, false⟩] [] ⟨[], world0⟩).map
      (fun r => isOob (runSCmd cfg64 (.on 0 (.remove 0)) r.2)) = some true := by decide +kernel
  cases hr : srunAll cfg64 [.fromIter 4 ⟨[1, 2, 3, 4], 4, false⟩] [] ⟨[], world0⟩ with
  | none => rw [hr] at h; cases h
  | some r =>
    rw [hr] at h
    exact ⟨r.1, r.2, srunAll_reaches _ .start hr, isOob_eq (by simpa using h)⟩

/-- What the client sees of a call. -/
def lookOut (r : Res (SPool Nat) (Spec.Out Nat)) : Option (Option (Spec.Out Nat)) :=
  match r with
  | .ok o _ => some (some o)
  | .panic _ => some none
  | _ => none

/-- C28 does not hold: a client collects one element; reading shows it; splitting the list `[7]` at 1
should leave `[7]` and give `[]`, but the call panics (`C38_refuted` is the general case). -/
theorem C28_refuted :
    ∃ hist P, SReaches cfg64 ⟨[], world0⟩ hist P ∧
      lookOut (runSCmd cfg64 (.on 0 .read) P) = some (some (.list [7])) ∧
      lookOut (runSCmd cfg64 (.splitOff 0 4 1) P) = some none := by
  have h : (srunAll cfg64 [.fromIter 4 ⟨[7], 1, false⟩] [] ⟨[], world0⟩).map
      (fun r => (lookOut (runSCmd cfg64 (.on 0 .read) r.2),
        lookOut (runSCmd cfg64 (.splitOff 0 4 1) r.2))) =
      some (some (some (.list [7])), some none) := by decide +kernel
  cases hr : srunAll cfg64 [.fromIter 4 ⟨[7], 1, false⟩] [] ⟨[], world0⟩ with
  | none => rw [hr] at h; cases h
  | some r =>
    rw [hr] at h
    simp only [Option.map_some, Option.some.injEq, Prod.mk.injEq] at h
    exact ⟨r.1, r.2, srunAll_reaches _ .start hr, h.1, h.2⟩

end Lokky
