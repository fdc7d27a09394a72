import Verif.Props.Witness
import Verif.Proofs.VecMove

/-!
# C11–C13, C17, C25, C79: moving elements between containers

For `Rep`, `Trans`, `Sat` see the head of `Props/VecCapacity.lean`.
-/

namespace Lokky
variable {α : Type} {c : Cfg α}

/-! ## C11 -/

/-- What C11 asks for (refusals of the allocator apart). -/
def SplitOffCorrect (c : Cfg α) : Prop :=
  ∀ (s : VSt α) (l : List α) (k : Nat), Rep c s.self s.w l → s.w.WF → k ≤ l.length →
    Sat c (Vec.splitOff c k s)
      (fun r s' => Rep c s'.self s'.w (l.take k) ∧ Rep c r s'.w (l.drop k))
      (fun s' => s' = s.refuse)

/-- C11 does not hold: split at any point before the end, the vector still holds everything and the
returned one is empty. -/
theorem C11_split_off_moves_nothing {s : VSt α} {l : List α} (hs : c.size ≠ 0)
    (h : Rep c s.self s.w l) (hw : s.w.WF) {k : Nat} (hk : k < l.length) :
    Sat c (Vec.splitOff c k s)
      (fun r s' => Rep c s'.self s'.w l ∧ Rep c r s'.w [] ∧ s'.w.log = s.w.log)
      (fun s' => s' = s.refuse ∧ ∃ t b, c.grant t b = false) :=
  (splitOff_spec hs h hw hk).mono
    (fun _ _ h => ⟨by rw [h.1]; exact h.2.1, h.2.2.1, h.2.2.2.1⟩) (fun _ h => h)

/-- C11 does not hold for any element type and build, with any allocator that does not refuse. -/
theorem C11_split_off_refuted (hs : c.size ≠ 0) (hf : c.Fits 1) (hg : ∀ t b, c.grant t b = true)
    (hd : ∀ a, c.dropPanics a = false) : ¬ SplitOffCorrect c := by
  intro h
  let l := [c.zst]
  have hr : Rep c (stored c l 1).self (stored c l 1).w l := stored_rep (by omega) (by simp [l]) hf
  have h1 := h (stored c l 1) l 0 hr stored_wf (by simp)
  have h2 := C11_split_off_moves_nothing hs hr stored_wf (k := 0) (by simp [l])
  cases hres : Vec.splitOff c 0 (stored c l 1) with
  | ok r s' =>
    rw [hres] at h1 h2
    have e1 := h1.1.len
    rw [h2.1.len] at e1
    simp [l] at e1
  | panic s' =>
    rw [hres] at h2
    obtain ⟨_, t, b, h3⟩ := h2
    rw [hg] at h3; cases h3
  | abort => rw [hres] at h2; obtain ⟨a, ha⟩ := h2; rw [hd a] at ha; cases ha
  | ub u => rw [hres] at h2; exact h2

/-- C11, the part that holds: split at (or beyond) the end the vector keeps everything and an empty
one is returned. Missing: every other split point, for which it is false. -/
theorem C11_split_off_partial {s : VSt α} {l : List α} (h : Rep c s.self s.w l) {k : Nat}
    (hk : l.length ≤ k) :
    ∃ r, Vec.splitOff c k s = .ok r s ∧ Rep c s.self s.w (l.take k) ∧ Rep c r s.w (l.drop k) := by
  refine ⟨_, splitOff_end h hk, ?_, ?_⟩
  · rw [List.take_of_length_le hk]; exact h
  · rw [List.drop_eq_nil_of_le hk]; exact emptyVec_rep _

/-- Lengths of the old and the new vector. -/
def lookLens (r : Res (VSt Nat) VecH) : Option (Nat × Nat) :=
  match r with
  | .ok v s => some (s.self.len, v.len)
  | _ => none

example : lookLens (Vec.splitOff cfg64 1 (stored cfg64 [7, 8, 9] 4)) = some (3, 0) := by
  decide +kernel
example : lookLens (Vec.splitOff cfg64 3 (stored cfg64 [7, 8, 9] 4)) = some (3, 0) := by
  decide +kernel

/-! ## C12

Ranges may be written in any way: `lo` and `hi` are the bounds, and the range takes the indices from `a` up to,
but without, `b`. -/

/-- C12 does not hold: draining any range that is not empty panics, and leaves only the elements
before the range; all others are lost without being dropped. -/
theorem C12_drain_refuted {s : VSt α} {l : List α} (hs : c.size ≠ 0) (h : Rep c s.self s.w l)
    (hw : s.w.WF) {lo hi : Vec.Bnd} {a b : Nat} (hlo : StartsAt lo a) (hhi : EndsAt l.length hi b)
    (hab : a < b) (hb : b ≤ l.length) :
    ∃ s', Vec.drainAll c lo hi s = .panic s' ∧
      Trans c (l.take a) [] s s' ∧ (l.take a).length < l.length := by
  have h1 := h.le_cap
  have h2 := Fits.le_usize hs h.fits
  rw [drainAll_range hlo (h.len ▸ hhi) (by omega) (by omega)]
  exact ⟨_, drainAll_panic hs (by omega) (by omega),
    putBuf_trans hs h hw ((h.brep hs).cut (by omega)), by simp; omega⟩

/-- C12 does not hold for invalid ranges either: a range with `b < a < len` panics, as it
should, but cuts the vector back. -/
theorem C12_drain_bad_range_refuted {s : VSt α} {l : List α} (hs : c.size ≠ 0)
    (h : Rep c s.self s.w l) (hw : s.w.WF) {lo hi : Vec.Bnd} {a b : Nat} (hlo : StartsAt lo a)
    (hhi : EndsAt l.length hi b) (hab : b < a) (ha : a < l.length) :
    ∃ s', Vec.drainAll c lo hi s = .panic s' ∧
      Trans c (l.take a) [] s s' ∧ (l.take a).length < l.length := by
  have h1 := h.le_cap
  have h2 := Fits.le_usize hs h.fits
  rw [drainAll_range hlo (h.len ▸ hhi) (by omega) (by omega)]
  exact ⟨_, drainAll_panic hs (by omega) (by omega),
    putBuf_trans hs h hw ((h.brep hs).cut (by omega)), by simp; omega⟩

/-- C12 does not hold for empty ranges before the end: everything after it is lost. -/
theorem C12_drain_empty_refuted {s : VSt α} {l : List α} (hs : c.size ≠ 0)
    (hst : c.strict = false) (h : Rep c s.self s.w l) (hw : s.w.WF) {lo hi : Vec.Bnd} {a : Nat}
    (hlo : StartsAt lo a) (hhi : EndsAt l.length hi a) (ha : a < l.length) :
    ∃ s', Vec.drainAll c lo hi s = .ok [] s' ∧
      Trans c (l.take a) [] s s' ∧ (l.take a).length < l.length := by
  have h1 := h.le_cap
  have h2 := Fits.le_usize hs h.fits
  rw [drainAll_range hlo (h.len ▸ hhi) (by omega) (by omega)]
  exact ⟨_, drainAll_empty hs hst (by omega),
    putBuf_trans hs h hw ((h.brep hs).cut (by omega)), by simp; omega⟩

/-- Draining an empty range beyond the end, but inside the capacity, does not panic: it makes the
vector longer without writing any element (the third example below then has an uninitialised slot in
range). -/
theorem C12_drain_exposes_uninit {s : VSt α} {l : List α} (hs : c.size ≠ 0)
    (hst : c.strict = false) (h : Rep c s.self s.w l) {lo hi : Vec.Bnd} {a : Nat} (hlo : StartsAt lo a)
    (hhi : EndsAt l.length hi a) (hl : l.length < a) (ha : a ≤ s.self.cap) :
    ∃ s', Vec.drainAll c lo hi s = .ok [] s' ∧ s.self.len < s'.self.len ∧
      s'.w.slots s'.self.ptr = s.w.slots s.self.ptr := by
  have h2 := Fits.le_usize hs h.fits
  rw [drainAll_range hlo (h.len ▸ hhi) (by omega) (by omega)]
  refine ⟨_, drainAll_empty hs hst ha, ?_, ?_⟩
  · rw [h.len]; exact hl
  · have := World.setSlots_slots s.w s.self.ptr
    simp only [putBuf, bufOf, Buf.withLen, this]

/-- C12, the part that holds: draining the empty range at the end yields nothing and changes
nothing. Missing: all other ranges, for which it is false; and under the letter of the contract of
`get_unchecked` (strict) this one as well. -/
theorem C12_drain_partial {s : VSt α} {l : List α} (hs : c.size ≠ 0)
    (hst : c.strict = false) (h : Rep c s.self s.w l) (hw : s.w.WF) {lo hi : Vec.Bnd}
    (hlo : StartsAt lo l.length) (hhi : EndsAt l.length hi l.length) :
    ∃ s', Vec.drainAll c lo hi s = .ok [] s' ∧ Trans c l [] s s' := by
  have h1 := h.le_cap
  have h2 := Fits.le_usize hs h.fits
  rw [drainAll_range (y := l.length) hlo (by rw [h.len]; exact hhi) (by omega) (by omega)]
  refine ⟨_, drainAll_empty hs hst h.le_cap, ?_⟩
  have := putBuf_trans hs h hw ((h.brep hs).cut (Nat.le_refl _))
  rwa [List.take_length] at this

/-- Whatever the range, a `Drain` that is created has nothing to yield, from either end. -/
theorem C12_drain_never_yields {b b' : Buf α} {lo hi : Vec.Bnd} {d : Vec.DrainH} (h : Vec.drainNew c lo hi b = .ok d b') :
    Vec.drainNext c d b' = .ok (none, d) b' ∧ Vec.drainNextBack c d b' = .ok (none, d) b' := by
  have : d.cnt = 0 := drainNew_none h
  simp [Vec.drainNext, Vec.drainNextBack, this]

/-- Results of draining: yielded elements (`none`: panicked), and what is left. -/
def lookDrain (r : Res (VSt Nat) (List Nat)) : Option (Option (List Nat) × List (Option Nat)) :=
  match r with
  | .ok a s => some (some a, (s.w.slots s.self.ptr).take s.self.len)
  | .panic s => some (none, (s.w.slots s.self.ptr).take s.self.len)
  | _ => none

/-- `cfg64` with `get_unchecked` at the end of a slice tolerated. -/
def cfgLax : Cfg Nat := { cfg64 with strict := false }

example : lookDrain (Vec.drainAll cfgLax (.included 1) (.excluded 2) (stored cfgLax [7, 8, 9] 4))
    = some (none, [some 7]) := by decide +kernel
example : lookDrain (Vec.drainAll cfgLax (.included 1) (.excluded 1) (stored cfgLax [7, 8, 9] 4))
    = some (some [], [some 7]) := by decide +kernel
/-- The vector of three elements now has length four. -/
example : lookDrain (Vec.drainAll cfgLax (.included 4) (.excluded 4) (stored cfgLax [7, 8, 9] 4))
    = some (some [], [some 7, some 8, some 9, none]) := by decide +kernel
example : lookDrain (Vec.drainAll cfgLax (.included 3) (.excluded 3) (stored cfgLax [7, 8, 9] 4))
    = some (some [], [some 7, some 8, some 9]) := by decide +kernel

/-- `drain(0..=0)`, `drain(..)`, and `drain(3..)`. -/
example : lookDrain (Vec.drainAll cfgLax (.included 0) (.included 0) (stored cfgLax [7, 8, 9] 4))
    = some (none, []) := by decide +kernel
example : lookDrain (Vec.drainAll cfgLax .unbounded .unbounded (stored cfgLax [7, 8, 9] 4))
    = some (none, []) := by decide +kernel
example : lookDrain (Vec.drainAll cfgLax (.excluded 2) .unbounded (stored cfgLax [7, 8, 9] 4))
    = some (some [], [some 7, some 8, some 9]) := by decide +kernel
/-- `drain(2..=1)` is the empty range from 2. -/
example : lookDrain (Vec.drainAll cfgLax (.included 2) (.included 1) (stored cfgLax [7, 8, 9] 4))
    = some (some [], [some 7, some 8]) := by decide +kernel

/-! ## C13 -/

/-- C13 does not hold: building a vector from any slice that is not empty panics. -/
theorem C13_from_slice_refuted (hs : c.size ≠ 0) (w : World α) (l : List α) (hl : l ≠ []) :
    Vec.fromSlice c l w = .panic w := by rw [fromSlice_eq hs, if_neg hl]

/-- C13, the part that holds: the empty slice. -/
theorem C13_from_slice_partial (hs : c.size ≠ 0) (w : World α) :
    ∃ v, Vec.fromSlice c [] w = .ok v w ∧ Rep c v w [] :=
  ⟨_, by rw [fromSlice_eq hs, if_pos rfl], emptyVec_rep w⟩

example : Vec.fromSlice cfg64 [1, 2] world0 = .panic world0 :=
  C13_from_slice_refuted (by decide) _ _ (by simp)

/-! ## C17 -/

/-- C17 does not hold: `leak` drops all elements and releases the buffer the returned slice points
to. -/
theorem C17_leak_refuted {s : VSt α} {l : List α} (hs : c.size ≠ 0)
    (hd : ∀ a, c.dropPanics a = false) (h : Rep c s.self s.w l) (hl : l ≠ []) :
    ∃ p s', Vec.leak c s = .ok (some p, l.length) s' ∧ s'.w.heap p = none ∧
      s'.w.log.drops = s.w.log.drops ++ l := by
  rcases h.buf with ⟨_, _, h0⟩ | ⟨p, b, rest, hp, _⟩
  · exact absurd h0 hl
  · obtain ⟨v, e, _⟩ := drop_spec_ok hs h (fun a _ => hd a)
    have e2 : Vec.leak c s = .ok (some p, l.length) ⟨v, (s.w.free s.self.ptr).addDrops l⟩ := by
      unfold Vec.leak
      rw [M.bind_ok (M.get_apply s), M.bind_ok e, M.pure_apply, hp, h.len]
    refine ⟨p, _, e2, ?_, ?_⟩
    · simp [World.addDrops, World.free, hp]
    · rw [hp]; rfl

/-- C17, the part that holds: leaking a vector without buffer (hence without elements) gives the
empty slice and changes nothing. Missing: all vectors with elements, for which it is false. -/
theorem C17_leak_partial {s : VSt α} {l : List α} (hs : c.size ≠ 0) (h : Rep c s.self s.w l)
    (hc : s.self.cap = 0) : l = [] ∧ Vec.leak c s = .ok (none, 0) s := by
  have hl : l = [] := List.length_eq_zero_iff.mp (by have := h.le_cap; omega)
  subst hl
  refine ⟨rfl, ?_⟩
  unfold Vec.leak
  rw [M.bind_ok (M.get_apply s), M.bind_ok (drop_empty (by rw [capacity_eq hs]; exact hc))]
  rcases h.buf with ⟨h0, _⟩ | ⟨_, _, _, _, _, _, _, _, _, h5, _⟩
  · rw [M.pure_apply, h0, h.len]; rfl
  · omega

/-- The slice is dead: its block is gone. -/
example : (match Vec.leak cfg64 (stored cfg64 [7, 8] 4) with
    | .ok r s => some (r, (s.w.heap 0).isSome, s.w.log.drops)
    | _ => none) = some ((some 0, 2), false, [7, 8]) := by decide +kernel

/-! ## C25 -/

/-- C25. Converting a vector that is not empty into a box: the box holds exactly its elements in a
block of exactly that size; nothing is dropped, the old buffer (if the elements had to move) is
released and no other block is touched. If the allocator refuses to shrink, the call panics, having
dropped the elements and released the buffer. -/
theorem C25_into_boxed_slice {v : VecH} {w : World α} {l : List α} (hs : c.size ≠ 0)
    (hd : ∀ a, c.dropPanics a = false) (h : Rep c v w l) (hw : w.WF) (hl : l ≠ []) :
    Sat c (Vec.intoBoxedSlice c v w)
      (fun b w' => BoxRep c b w' l ∧ w'.log = w.log ∧
        (∀ p, some p ≠ v.ptr → some p ≠ b.ptr → w'.heap p = w.heap p) ∧
        (∀ p, v.ptr = some p → b.ptr ≠ some p → w'.heap p = none))
      (fun w' => w' = (w.refuse.free v.ptr).addDrops l) :=
  (intoBoxedSlice_spec hs hd h hw hl).mono
    (fun _ _ h => ⟨h.1, h.2.1, h.2.2.2.2.2.1, h.2.2.2.2.2.2⟩) (fun _ h => h)

/-- C25. Back from the box: the same elements, capacity equal to length, no memory touched. -/
theorem C25_from_boxed_slice {b : Vec.BoxSliceH} {w : World α} {l : List α} (h : BoxRep c b w l)
    (hl : l ≠ []) (hf : c.Fits l.length) :
    Rep c (Vec.ofBoxedSlice b) w l ∧ (Vec.ofBoxedSlice b).cap = (Vec.ofBoxedSlice b).len ∧
      (Vec.ofBoxedSlice b).ptr = b.ptr := ⟨h.rep hl hf, rfl, rfl⟩

/-- C25. Dropping the box drops every element once, in order, and releases the block. -/
theorem C25_boxed_slice_drop {b : Vec.BoxSliceH} {w : World α} {l : List α} (hs : c.size ≠ 0)
    (hd : ∀ a, c.dropPanics a = false) (h : BoxRep c b w l) (hl : l ≠ []) (hf : c.Fits l.length) :
    Sat c (Vec.boxSliceDrop c b w) (fun _ w' => w' = (w.free b.ptr).addDrops l)
      (fun _ => False) :=
  (boxSliceDrop_spec hs h hl hf).mono (fun _ _ h => h)
    (fun _ h => by obtain ⟨a, _, ha⟩ := h.2; rw [hd a] at ha; cases ha)

/-- C25 does not hold for empty vectors: an unallocated one becomes a box whose destructor gives a
dangling pointer to the allocator. -/
theorem C25_empty_refuted (w : World α) :
    ∃ b, Vec.intoBoxedSlice c (emptyVec w) w = .ok b w ∧ Vec.boxSliceDrop c b w = .ub .badFree := by
  refine ⟨⟨none, 0, w.allocFor none, none⟩, ?_, ?_⟩
  · unfold Vec.intoBoxedSlice
    have e : Vec.shrinkToFit c ⟨emptyVec w, w⟩ = .ok () ⟨emptyVec w, w⟩ ∨ c.size = 0 := by
      by_cases hs : c.size = 0
      · exact Or.inr hs
      · left
        unfold Vec.shrinkToFit
        rw [M.bind_ok (M.get_apply _), capacity_eq hs]
        rfl
    rcases e with e | e
    · rw [M.bind_ok (withLocal_ok e)]; rfl
    · have e : Vec.shrinkToFit c ⟨emptyVec w, w⟩ = .ok () ⟨emptyVec w, w⟩ := by
        unfold Vec.shrinkToFit
        simp [M.bind_apply, Vec.capacity, e, emptyVec, Cfg.usizeMax, Vec.shrink, debugAssert,
          Vec.unwrap]
      rw [M.bind_ok (withLocal_ok e)]; rfl
  · rfl

/-- The box over `[7, 8]`, from a vector with spare capacity. -/
example : (match Vec.intoBoxedSlice cfg64 (stored cfg64 [7, 8] 4).self (stored cfg64 [7, 8] 4).w with
    | .ok b w => some (b.len, w.slots b.ptr, (w.heap 0).isSome)
    | _ => none) = some (2, [some 7, some 8], false) := by decide +kernel

/-! ## C79 -/

/-- C79 does not hold: removing the last of several elements copies it onto itself with
`copy_nonoverlapping`, whose contract forbids that. -/
theorem C79_swap_remove_last_refuted {s : VSt α} {l : List α} (hs : c.size ≠ 0)
    (hst : c.strict = true) (h : Rep c s.self s.w l) (h2 : 2 ≤ l.length) :
    Vec.swapRemove c (l.length - 1) s = .ub .overlap := by
  have hb := h.brep hs
  unfold Vec.swapRemove
  rw [M.bind_ok (M.get_apply s), M.bind_ok (assert_pos (by rw [h.len]; omega)), h.len,
    if_neg (by omega), onBuf_eq]
  have e : (do
      let n ← Buf.getLen
      uncheckedIndex c (l.length - 1) n
      uncheckedIndex c (n - 1) n
      let a ← Buf.read c (l.length - 1)
      Buf.copyNonoverlapping c (n - 1) (l.length - 1) 1
      Buf.setLen c (n - 1)
      pure a : M (Buf α) α) (bufOf c s) = .ub .overlap := by
    have hlt : l.length - 1 < l.length := by omega
    rw [M.bind_ok (Buf.getLen_apply _), hb.len, M.bind_ok (uncheckedIndex_eq hlt),
      M.bind_ok (uncheckedIndex_eq hlt), M.bind_ok (Buf.read_eq hs (hb.slot hlt))]
    refine M.bind_ub ?_
    unfold Buf.copyNonoverlapping
    rw [if_pos ⟨hst, hs, by omega, by omega⟩]
  rw [e]

/-- C79, the part that holds: `swap_remove` of any other element takes it out and puts the last one
in its place, dropping nothing; and with `strict` off so does that of the last one. Missing: the last
element under the letter of the contract, for which it is false. -/
theorem C79_swap_remove_partial {s : VSt α} {l : List α} (hs : c.size ≠ 0)
    (h : Rep c s.self s.w l) (hw : s.w.WF) {i : Nat} (hi : i < l.length)
    (hst : c.strict = true → 2 ≤ l.length → i + 1 < l.length) :
    ∃ s' z, Vec.swapRemove c i s = .ok l[i] s' ∧ l.getLast? = some z ∧
      Trans c ((l.set i z).dropLast) [] s s' := by
  obtain ⟨s', e1, e2, _⟩ := swapRemove_spec hs h hw hi (fun h1 h2 => by
    have := hst h1; omega)
  have hz : l.getLast? = some (l.getLast (List.ne_nil_of_length_pos (by omega))) :=
    List.getLast?_eq_some_getLast _
  refine ⟨s', _, e1, hz, ?_⟩
  have := e2.trans
  rwa [swapRemoved, hz] at this

example : (match Vec.swapRemove cfg64 2 (stored cfg64 [7, 8, 9] 4) with
    | .ub .overlap => true | _ => false) = true := by decide +kernel
example : (match Vec.swapRemove cfg64 0 (stored cfg64 [7, 8, 9] 4) with
    | .ok a s => some (a, (s.w.slots s.self.ptr).take s.self.len)
    | _ => none) = some (7, [some 9, some 8]) := by decide +kernel

end Lokky
