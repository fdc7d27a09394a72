import Verif.Props.SmallStore
import Verif.Props.VecCapacity
import Verif.Props.VecMove

/-!
# C106: small vectors and boxed slices

`BoxRep c b w l` says that the boxed slice `b` holds exactly the list `l`, in a live block of exactly
that size.
-/

namespace Lokky
variable {α : Type} {c : Cfg α}

/-- C106 does not hold: for an empty inline vector the call never returns: unless memory is refused,
the allocator is asked to resize a block to zero bytes. -/
theorem C106_empty_refuted {v : SmallH α} {w : World α} (hs : c.size ≠ 0) (h : SRep c v w [])
    (hw : w.WF) (hst : Small.isHeap v = false) (hf : c.Fits (Vec.minNonZeroCap c))
    (hd : ∀ a, c.dropPanics a = false) :
    Small.intoBoxedSlice c v w = .ub .zeroSize ∨
    Small.intoBoxedSlice c v w = .panic ((w.refuse.free v.ptr).addDrops []) := by
  have key := sintoVec_spec hs h hw (by simpa using hf)
  unfold Small.intoBoxedSlice
  cases hr : Small.intoVec c v w with
  | ok r w' =>
    rw [hr] at key
    cases hsto : v.store with
    | heap _ => simp [Small.isHeap, hsto] at hst
    | stack slots len =>
      obtain ⟨-, -, e3⟩ := key.trans.place.spill slots len r hsto rfl
      rw [M.bind_ok hr]
      exact Or.inl (C22_shrink_empty_refuted (s := ⟨r, w'⟩) hs (key.trans.rep.heap r rfl) e3).2.2
  | panic w' =>
    rw [hr] at key
    rw [M.bind_panic hr, key]
    exact Or.inr rfl
  | abort => rw [hr] at key; obtain ⟨a, ha⟩ := key; rw [hd a] at ha; cases ha
  | ub u => rw [hr] at key; exact key.elim

/-- C106, the part that holds: converting a vector that is not empty, inline or on the heap, gives a
box that holds exactly its elements; nothing is dropped, the old buffer is released (or became the
box), and no other block is touched. If memory is refused the call panics, having dropped the elements
once, in order, and released the buffer.
Missing: empty vectors, for which it is false. -/
theorem C106_into_boxed_slice_partial {v : SmallH α} {w : World α} {l : List α} (hs : c.size ≠ 0)
    (hd : ∀ a, c.dropPanics a = false) (h : SRep c v w l) (hw : w.WF) (hl : l ≠ [])
    (hf : c.Fits (l.length + Vec.minNonZeroCap c)) :
    Sat c (Small.intoBoxedSlice c v w)
      (fun b w' => BoxRep c b w' l ∧ w'.log = w.log ∧
        (∀ p, some p ≠ v.ptr → some p ≠ b.ptr → w'.heap p = w.heap p) ∧
        (∀ p, v.ptr = some p → b.ptr ≠ some p → w'.heap p = none) ∧
        (Small.isHeap v = false → b.marker = v.marker ∧ b.alloc = w.allocFor v.marker))
      (fun w' => w'.log.drops = w.log.drops ++ l ∧ w.refusals < w'.refusals ∧
        ∀ p, w'.heap p = if some p = v.ptr then none else w.heap p) := by
  unfold Small.intoBoxedSlice
  refine Sat.bind' (sintoVec_spec hs h hw hf) ?_ ?_
  · rintro w' rfl
    refine ⟨rfl, Nat.lt_succ_self _, fun p => rfl⟩
  · intro r w1 h1
    have hr : Rep c r w1 l := h1.trans.rep.heap r rfl
    have hown : GOwn v.ptr r.ptr w w1 := h1.trans.own
    refine (intoBoxedSlice_spec hs hd hr h1.trans.wf hl).mono ?_ ?_
    · rintro b w2 ⟨e1, e2, -, e4, e5, e6, e7⟩
      refine ⟨e1, e2.trans h1.log, ?_, ?_, ?_⟩
      · intro q h2 h3
        by_cases h4 : some q = r.ptr
        · rw [e7 q h4.symm (fun e => h3 e.symm), hw q (hown.fresh q h4.symm (fun e => h2 e.symm))]
        · rw [e6 q h4 h3, hown.frame q h2 h4]
      · intro q h2 h3
        by_cases h4 : r.ptr = some q
        · exact e7 q h4 h3
        · rw [e6 q (fun e => h4 e.symm) (fun e => h3 e.symm), hown.freed q h2 h4]
      · intro hst
        cases hsto : v.store with
        | heap _ => simp [Small.isHeap, hsto] at hst
        | stack slots len =>
          obtain ⟨f1, f2, -⟩ := h1.trans.place.spill slots len r hsto rfl
          exact ⟨e5.trans f2, e4.trans f1⟩
    · rintro w2 rfl
      refine ⟨?_, ?_, fun p => ?_⟩
      · show w1.log.drops ++ l = _
        rw [h1.log]
      · show w.refusals < w1.refusals + 1
        rw [h1.refusals]; exact Nat.lt_succ_self _
      · show (if some p = r.ptr then none else w1.heap p) = _
        by_cases h2 : some p = r.ptr
        · rw [if_pos h2]
          split
          · rfl
          · rename_i h3
            rw [hw p (hown.fresh p h2.symm (fun e => h3 e.symm))]
        · rw [if_neg h2]
          split
          · rename_i h3
            exact hown.freed p h3.symm (fun e => h2 e.symm)
          · rename_i h3
            exact hown.frame p h3 h2

/-- C106, back from the box: the same elements, in the same block; no memory is touched. -/
theorem C106_from_boxed_slice {b : Vec.BoxSliceH} {w : World α} {l : List α} {n : Nat}
    (hn : c.Fits n) (h : BoxRep c b w l) (hl : l ≠ []) (hf : c.Fits l.length) :
    SRep c (Small.ofBoxedSlice n b) w l ∧ (Small.ofBoxedSlice n b : SmallH α).marker = b.marker ∧
      (Small.ofBoxedSlice n b : SmallH α).ptr = b.ptr :=
  ⟨sfromVec_rep hn (h.rep hl hf), rfl, rfl⟩

/-- What a box holds, and how many blocks below 4 are live. -/
def lookBox (r : Res (World Nat) Vec.BoxSliceH) : Option (Nat × List (Option Nat) × Nat) :=
  match r with
  | .ok b w => some (b.len, w.slots b.ptr, ((List.range 4).filter fun p => (w.heap p).isSome).length)
  | _ => none

example : lookBox (Small.intoBoxedSlice cfg64 (inline [7, 8, 9] 3 none world0).self world0) =
    some (3, [some 7, some 8, some 9], 1) := by decide +kernel
example : lookBox (Small.intoBoxedSlice cfg64 (spilled cfg64 [7, 8, 9] 2 6).self
    (spilled cfg64 [7, 8, 9] 2 6).w) = some (3, [some 7, some 8, some 9], 1) := by decide +kernel
example : (match Small.intoBoxedSlice cfg64 (inline [] 3 none world0).self world0 with
    | .ub .zeroSize => true | _ => false) = true := by decide +kernel

end Lokky
