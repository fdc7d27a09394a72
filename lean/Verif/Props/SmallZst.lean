import Verif.Props.VecPlace
import Verif.Proofs.SmallZst

/-!
# C134: small vectors of zero-sized elements
-/

namespace Lokky
open Spec (Event Edit Edits Op Cmd Out)
variable {α : Type} {c : Cfg α}

/-- Calls made one after the other on a small vector of zero-sized elements that stay inline, and what the client saw. -/
inductive YCalls (c : Cfg α) (s0 : SSt α) : List (Op α × Event α) → SSt α → Prop
  | start : YCalls c s0 [] s0
  | ret {h s o out s'} : YCalls c s0 h s → o.YLegal c s.self.n (Small.lenOf s.self) → runSOp c o s = .ok out s' →
      YCalls c s0 (h ++ [(o, .ret out)]) s'
  | panic {h s o s'} : YCalls c s0 h s → o.YLegal c s.self.n (Small.lenOf s.self) → runSOp c o s = .panic s' →
      YCalls c s0 (h ++ [(o, .panic)]) s'

theorem YCalls.inv [Subsingleton α] (hz : c.size = 0) (hd : ∀ a, c.dropPanics a = false) {n : Nat} {m : Marker}
    (hm : 4 ≤ n) (hu : n + n ≤ c.usizeMax)
    {w : World α} {h : List (Op α × Event α)} {s : SSt α} (hr : YCalls c ⟨Small.withMarker n m, w⟩ h s) :
    ∃ l made dropped g, Edits c.cloneRel h l made dropped ∧ l.length ≤ n ∧
      g.drops = w.log.drops ++ dropped ∧ s = ySt n m (List.replicate n none) w l.length g := by
  have hm : Vec.minNonZeroCap c ≤ n := by simpa [Vec.minNonZeroCap, hz] using hm
  induction hr with
  | start => exact ⟨[], [], [], w.log, .start, Nat.zero_le _, by simp, rfl⟩
  | ret _ ho hrun ih =>
    obtain ⟨l, made, dropped, g, h1, h2, h3, rfl⟩ := ih
    obtain ⟨out, l', made', dropped', g', e1, e2, e3, e4⟩ :=
      runSOp_y (m := m) (sl := List.replicate n none) (w := w) hz hd hm hu l h2 g _ ho
    rw [e4] at hrun
    cases out with
    | none => cases hrun
    | some b =>
      injection hrun with hb hs
      subst hb; subst hs
      exact ⟨l', _, _, g', h1.step e1, e2, by rw [e3, h3, List.append_assoc], rfl⟩
  | panic _ ho hrun ih =>
    obtain ⟨l, made, dropped, g, h1, h2, h3, rfl⟩ := ih
    obtain ⟨out, l', made', dropped', g', e1, e2, e3, e4⟩ :=
      runSOp_y (m := m) (sl := List.replicate n none) (w := w) hz hd hm hu l h2 g _ ho
    rw [e4] at hrun
    cases out with
    | some b => cases hrun
    | none =>
      injection hrun with hs
      subst hs
      exact ⟨l', _, _, g', h1.step e1, e2, by rw [e3, h3, List.append_assoc], rfl⟩

/-- C134, the part that holds: over any history of calls that fit into the inline space, every answer, the length and the
elements dropped are those of the list specification, the vector stays inline and the allocator is never called; dropping
it then drops exactly the elements that are left. Missing: everything on the heap, for which it is false. -/
theorem C134_inline_partial [Subsingleton α] (hz : c.size = 0) (hd : ∀ a, c.dropPanics a = false) {n : Nat} {m : Marker}
    (hm : 4 ≤ n) (hu : n + n ≤ c.usizeMax) {w : World α} {h : List (Op α × Event α)} {s : SSt α}
    (hr : YCalls c ⟨Small.withMarker n m, w⟩ h s) :
    ∃ l made dropped, Edits c.cloneRel h l made dropped ∧ Small.lenOf s.self = l.length ∧ l.length ≤ n ∧
      s.w.log.drops = w.log.drops ++ dropped ∧ Small.isHeap s.self = false ∧ Small.capacity c s.self = n ∧
      s.w.heap = w.heap ∧ s.w.next = w.next ∧ s.w.tick = w.tick ∧
      ∃ s', Small.drop c s = .ok () s' ∧ s'.w.log.drops = w.log.drops ++ dropped ++ l ∧
        s'.w.heap = w.heap ∧ s'.w.tick = w.tick := by
  obtain ⟨l, made, dropped, g, h1, h2, h3, rfl⟩ := hr.inv hz hd hm hu
  refine ⟨l, made, dropped, h1, rfl, h2, h3, rfl, rfl, rfl, rfl, rfl, _, drop_y hz hd, ?_, rfl, rfl⟩
  have : (g.addDrops (List.replicate l.length c.zst)).drops = w.log.drops ++ dropped ++ l := by
    rw [show List.replicate l.length c.zst = l from list_sub (by simp), ← h3]; rfl
  exact this

/-- C134: on the way every such call returns or panics; none is undefined. -/
theorem C134_defined_partial [Subsingleton α] (hz : c.size = 0) (hd : ∀ a, c.dropPanics a = false) {n : Nat} {m : Marker}
    (hm : 4 ≤ n) (hu : n + n ≤ c.usizeMax) {w : World α} {h : List (Op α × Event α)} {s : SSt α}
    (hr : YCalls c ⟨Small.withMarker n m, w⟩ h s) (o : Op α) (ho : o.YLegal c n (Small.lenOf s.self)) :
    (∃ out s', runSOp c o s = .ok out s') ∨ ∃ s', runSOp c o s = .panic s' := by
  obtain ⟨l, made, dropped, g, h1, h2, h3, rfl⟩ := hr.inv hz hd hm hu
  have hm : Vec.minNonZeroCap c ≤ n := by simpa [Vec.minNonZeroCap, hz] using hm
  obtain ⟨out, l', made', dropped', g', e1, e2, e3, e4⟩ :=
    runSOp_y (m := m) (sl := List.replicate n none) (w := w) hz hd hm hu l h2 g o ho
  cases out with
  | none => exact Or.inr ⟨_, e4⟩
  | some b => exact Or.inl ⟨_, _, e4⟩

/-- C134 does not hold: once a small vector of zero-sized elements is on the heap, whatever its length, nothing can be
pushed, inserted or appended any more, nor room asked for: the capacity is `usize::MAX`, and adding to it panics. -/
theorem C134_heap_refuted (hz : c.size = 0) (hd : ∀ a, c.dropPanics a = false) {s : SSt α}
    (hs : Small.isHeap s.self = true) :
    (∀ a, ∃ s', Small.push c a s = .panic s' ∧ s'.self = s.self ∧ s'.w.log.drops = s.w.log.drops ++ [a]) ∧
    (∀ i a, ∃ s', Small.insert c i a s = .panic s' ∧ s'.self = s.self ∧ s'.w.log.drops = s.w.log.drops ++ [a]) ∧
    (∀ xs, xs ≠ [] → Small.extendFromSlice c xs s = .panic s) ∧
    (∀ k, 0 < k → Small.reserve c k s = .panic s ∧ Small.tryReserve c k s = .panic s) := by
  obtain ⟨⟨n, store, m⟩, w⟩ := s
  cases store with
  | stack => exact absurd hs (by simp [Small.isHeap])
  | heap v =>
    have hl : ∀ (a : α) (s : SSt α), onLog (dropVal c a) s =
        .ok () ⟨s.self, { s.w with log := s.w.log.addDrops [a] }⟩ := fun a s =>
      onLogOk (s := s) (dropVal_ok hd a _)
    refine ⟨fun a => ?_, fun i a => ?_, fun xs hx => ?_, fun k hk => ⟨reserve_heap hz hk rfl, tryReserve_heap hz hk rfl⟩⟩
    · refine ⟨_, M.bind_panic (onUnwind_panic (reserve_heap hz (by omega) rfl) (hl a _)), rfl, rfl⟩
    · refine ⟨_, M.bind_panic (onUnwind_panic (reserve_heap hz (by omega) rfl) (hl a _)), rfl, rfl⟩
    · unfold Small.extendFromSlice
      exact M.bind_panic (reserve_heap hz (List.length_pos_iff.mpr hx) rfl)

/-- C134 does not hold: a small vector of zero-sized elements made with room for more than its inline size does not accept
a single element. -/
theorem C134_capacity_refuted (hz : c.size = 0) (hd : ∀ a, c.dropPanics a = false) {n k : Nat} (hk : n < k)
    (w : World α) (a : α) :
    ∃ v, Small.withCapacity c n k w = .ok v w ∧ Small.lenOf v = 0 ∧ Small.capacity c v = c.usizeMax ∧
      ∃ s', Small.push c a ⟨v, w⟩ = .panic s' ∧ Small.lenOf s'.self = 0 ∧ s'.w.log.drops = w.log.drops ++ [a] := by
  refine ⟨⟨n, .heap ⟨none, 0, w.allocFor none, none, 0⟩, none⟩, ?_, rfl, by simp [Small.capacity, Vec.capacity, hz], ?_⟩
  · simp only [Small.withCapacity, Small.withCapacityAndMarker, Small.tryWithCapacityAndMarker, if_pos hk,
      Vec.tryWithCapacityAndMarker, hz, or_true, if_true, M.bind_apply, Vec.withMarker, M.pure_apply, Vec.unwrap]
  · obtain ⟨s', h1, h2, h3⟩ := (C134_heap_refuted hz hd (s := ⟨⟨n, .heap ⟨none, 0, w.allocFor none, none, 0⟩, none⟩, w⟩)
      rfl).1 a
    exact ⟨s', h1, by rw [h2]; rfl, h3⟩

/-- C134 does not hold: after any history that leaves the inline space full, one more element is accepted, and moves the
elements to the heap; the next one makes `push` panic, and dropping the vector hands a dangling pointer to the
allocator. -/
theorem C134_spill_refuted [Subsingleton α] (hz : c.size = 0) (hd : ∀ a, c.dropPanics a = false) {n : Nat} {m : Marker}
    (hm : 4 ≤ n) (hu : n + n ≤ c.usizeMax) {w : World α} {h : List (Op α × Event α)} {s : SSt α}
    (hr : YCalls c ⟨Small.withMarker n m, w⟩ h s) (hf : Small.lenOf s.self = n) (a b : α) :
    ∃ s1, Small.push c a s = .ok () s1 ∧ Small.lenOf s1.self = n + 1 ∧
      (∃ s2, Small.push c b s1 = .panic s2 ∧ Small.lenOf s2.self = n + 1) ∧
      Small.drop c s1 = .ub .badFree := by
  obtain ⟨l, made, dropped, g, h1, h2, h3, rfl⟩ := hr.inv hz hd hm hu
  have hf : l.length = n := hf
  have hm' : Vec.minNonZeroCap c ≤ n := by simpa [Vec.minNonZeroCap, hz] using hm
  rw [hf]
  refine ⟨_, push_spill hz hm' (by omega) a, rfl, ?_, onStore_xub (zdrop_ub hz (by omega) hd)⟩
  obtain ⟨s', h1, h2, -⟩ := (C134_heap_refuted hz hd
    (s := xSt n m ⟨none, 0, w.allocFor m, none, 0⟩ w (n + 1) g) rfl).1 b
  exact ⟨s', h1, by rw [h2]; rfl⟩

/-- Four units fit inline; the fifth goes to the heap, the sixth panics. -/
example : (match (do Small.push cfgUnit (); Small.push cfgUnit (); Small.push cfgUnit ()
                     let a ← Small.pop cfgUnit
                     Small.push cfgUnit (); Small.push cfgUnit ()
                     pure a : M (SSt Unit) (Option Unit)) ⟨Small.withMarker 4 none, worldUnit⟩ with
    | .ok a s => some (a, Small.lenOf s.self, Small.isHeap s.self, match Small.drop cfgUnit s with
        | .ok _ t => t.w.log.drops.length | _ => 99)
    | _ => none) = some (some (), 4, false, 4) := by decide +kernel

example : (match (do Small.push cfgUnit (); Small.push cfgUnit (); Small.push cfgUnit ()
                     Small.push cfgUnit (); Small.push cfgUnit () : M (SSt Unit) Unit)
      ⟨Small.withMarker 4 none, worldUnit⟩ with
    | .ok _ s => some (Small.lenOf s.self, Small.isHeap s.self,
        (match Small.push cfgUnit () s with | .panic t => Small.lenOf t.self | _ => 99),
        (match Small.drop cfgUnit s with | .ub .badFree => true | _ => false))
    | _ => none) = some (5, true, 5, true) := by decide +kernel

/-- A history as in the theorems. -/
example : ∃ s, YCalls cfgUnit ⟨Small.withMarker 4 none, worldUnit⟩
    [(.push (), .ret .unit), (.resize 4 (), .ret .unit), (.remove 9, .panic), (.remove 2, .ret (.val ()))] s ∧
    Small.lenOf s.self = 3 := by
  refine ⟨_, .ret (.panic (.ret (.ret .start ?_ rfl) ?_ rfl) ?_ rfl) ?_ rfl, rfl⟩
  · show 0 + 1 ≤ 4; decide
  · show 1 ≤ 4 ∧ 4 ≤ 4; decide
  · trivial
  · trivial

end Lokky
