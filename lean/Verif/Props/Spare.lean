import Verif.Model.Spare
import Verif.Proofs.SmallBulk
import Verif.Props.VecCapacity

/-!
# C117: the spare capacity
-/

namespace Lokky
variable {α : Type} {c : Cfg α}

theorem spareLen_buf {b : Buf α} {l : List α} (h : BRep b l) : Buf.spareLen c b = .ok (b.cap - l.length) b := by
  unfold Buf.spareLen
  rw [M.bind_ok (M.get_apply b), h.len]
  unfold usub
  rw [if_pos h.le_cap]
  rfl

theorem isFull_buf {b : Buf α} {l : List α} (h : BRep b l) :
    Buf.isFull b = .ok (decide (b.cap = l.length)) b := by
  have : (l.length == b.cap) = decide (b.cap = l.length) := by
    rw [Bool.eq_iff_iff, beq_iff_eq, decide_eq_true_iff]; exact eq_comm
  simp only [Buf.isFull, M.gets, h.len, this]

theorem spareWrite_buf {b : Buf α} {l : List α} (hs : c.size ≠ 0) (h : BRep b l) {i : Nat}
    (hi : i < b.cap - l.length) (a : α) :
    Buf.spareWrite c i a b = .ok () { b with slots := b.slots.set (l.length + i) (some a) } := by
  have hc := h.cap
  unfold Buf.spareWrite
  rw [M.bind_ok (spareLen_buf h)]
  simp only [assert, if_pos hi]
  rw [M.bind_ok (M.pure_apply _ _), M.bind_ok (Buf.getLen_apply b),
    Buf.write_eq hs (by have := h.len; omega), h.len]

theorem spareWrite_bad {b : Buf α} {l : List α} (h : BRep b l) {i : Nat}
    (hi : b.cap - l.length ≤ i) (a : α) : Buf.spareWrite c i a b = .panic b := by
  unfold Buf.spareWrite
  rw [M.bind_ok (spareLen_buf h)]
  simp only [assert, if_neg (Nat.not_lt.mpr hi)]
  rfl

/-- Writing behind the elements: slots `l.length + i …` get the values. -/
theorem spareWrites_buf {b : Buf α} {l : List α} (hs : c.size ≠ 0) (h : BRep b l) (i : Nat) (xs : List α)
    (hi : i + xs.length ≤ b.cap - l.length) :
    ∃ slots, Buf.spareWrites c i xs b = .ok () { b with slots := slots } ∧ slots.length = b.slots.length ∧
      (∀ k (hk : k < xs.length), slots[l.length + i + k]? = some (some xs[k])) ∧
      ∀ k, k < l.length + i → slots[k]? = b.slots[k]? := by
  induction xs generalizing i b with
  | nil => exact ⟨b.slots, rfl, rfl, fun k hk => by simp at hk, fun _ _ => rfl⟩
  | cons a xs ih =>
    have hc := h.cap
    simp only [List.length_cons] at hi
    have e := spareWrite_buf hs h (i := i) (by omega) a
    have hb : BRep { b with slots := b.slots.set (l.length + i) (some a) } l := by
      refine BRep.of_slots h.len (by simp [hc]) ?_
      intro k hk
      simp only [List.getElem?_set_ne (show l.length + i ≠ k by omega)]
      exact h.slot hk
    obtain ⟨slots, e1, e2, e3, e4⟩ := ih hb (i + 1) (by simpa using (by omega : i + 1 + xs.length ≤ b.cap - l.length))
    refine ⟨slots, ?_, by simpa using e2, ?_, ?_⟩
    · unfold Buf.spareWrites
      rw [M.bind_ok e]; exact e1
    · intro k hk
      cases k with
      | zero =>
        rw [e4 _ (by omega)]
        simp only [Nat.add_zero]
        rw [List.getElem?_set_self (by omega)]
        rfl
      | succ k =>
        have := e3 k (by simpa using hk)
        rw [show l.length + i + (k + 1) = l.length + (i + 1) + k by omega]
        simpa using this
    · intro k hk
      rw [e4 k (by omega)]
      simp only [List.getElem?_set_ne (show l.length + i ≠ k by omega)]

/-- The buffer after the writes, before and after the new length is set. -/
theorem spareWrites_trans {b : Buf α} {l : List α} (hs : c.size ≠ 0) (h : BRep b l) (xs : List α)
    (hi : xs.length ≤ b.cap - l.length) :
    ∃ slots, Buf.spareWrites c 0 xs b = .ok () { b with slots := slots } ∧
      BTrans l [] b { b with slots := slots } ∧
      BTrans (l ++ xs) [] b { b with slots := slots, len := (l ++ xs).length } := by
  obtain ⟨slots, e1, e2, e3, e4⟩ := spareWrites_buf hs h 0 xs (by omega)
  have hc := h.cap
  refine ⟨slots, e1, ⟨BRep.of_slots h.len (by simp [e2, hc]) ?_, rfl, by simp⟩,
    ⟨BRep.of_slots rfl (by simp [e2, hc]) ?_, rfl, by simp⟩⟩
  · intro k hk
    simp only []
    rw [e4 k (by omega), h.slot hk]
  · intro k hk
    simp only []
    rcases Nat.lt_or_ge k l.length with h' | h'
    · rw [e4 k (by omega), h.slot h', List.getElem_append_left h']
    · simp only [List.length_append] at hk
      have := e3 (k - l.length) (by omega)
      rw [show l.length + 0 + (k - l.length) = k by omega] at this
      rw [this, List.getElem_append_right h']

/-- C117. `spare_len` is the part of the capacity that is not used, and `is_full` tells whether there is none. -/
theorem C117_spare_len {s : VSt α} {l : List α} (hs : c.size ≠ 0) (h : Rep c s.self s.w l) :
    Vec.spareLen c s = .ok (Vec.capacity c s.self - l.length) s ∧ l.length ≤ Vec.capacity c s.self ∧
    Vec.isFull c s = .ok (decide (Vec.capacity c s.self = l.length)) s :=
  ⟨onBuf_look (spareLen_buf (h.brep hs)), (h.brep hs).le_cap, onBuf_look (isFull_buf (h.brep hs))⟩

/-- C117. Values written into the spare capacity do not change the vector, and nothing is dropped; setting the length
afterwards appends exactly these values, without a request for memory. -/
theorem C117_fill {s : VSt α} {l : List α} (hs : c.size ≠ 0) (h : Rep c s.self s.w l) (hw : s.w.WF) (xs : List α)
    (hx : l.length + xs.length ≤ Vec.capacity c s.self) :
    ∃ s1 s2, Vec.spareWrites c xs s = .ok () s1 ∧ Reserved c l s s1 ∧ s1.self = s.self ∧ s1.w.tick = s.w.tick ∧
      Vec.setLen c (l.length + xs.length) s1 = .ok () s2 ∧ Reserved c (l ++ xs) s s2 ∧
      s2.self = { s.self with len := l.length + xs.length } ∧ s2.w.tick = s.w.tick := by
  rw [capacity_eq hs] at hx
  have hcap : (bufOf c s).cap = s.self.cap := by simp [bufOf, capacity_eq hs]
  obtain ⟨slots, e1, e2, e3⟩ := spareWrites_trans hs (h.brep hs) xs (by omega)
  have t1 := putBuf_trans hs h hw e2
  have t2 := putBuf_trans hs h hw e3
  refine ⟨_, putBuf s { bufOf c s with slots := slots, len := (l ++ xs).length }, ?_, ⟨t1, rfl, by simp⟩, rfl,
    by simp, ?_, ⟨t2, rfl, by simp⟩, ?_, by simp⟩
  · unfold Vec.spareWrites
    rw [onBuf_eq, e1]
  · unfold Vec.setLen
    rw [onBuf_eq, Buf.setLen_eq (by simpa [bufOf, capacity_eq hs] using hx)]
    simp only [putBuf, bufOf, World.setSlots_slots, List.length_append]
  · simp [putBuf, bufOf]

/-- C117. Writing beyond the spare capacity panics and changes nothing. -/
theorem C117_beyond {s : VSt α} {l : List α} (hs : c.size ≠ 0) (h : Rep c s.self s.w l) (i : Nat) (a : α)
    (hi : Vec.capacity c s.self ≤ l.length + i) : Vec.onBuf c (Buf.spareWrite c i a) s = .panic s :=
  onBuf_panic (spareWrite_bad (h.brep hs) (by simp only [bufOf]; omega) a)

/-- C117 for `SmallVec`, wherever its elements are. -/
theorem C117_small {s : SSt α} {l : List α} (hs : c.size ≠ 0) (h : SRep c s.self s.w l) (hw : s.w.WF) (xs : List α)
    (hx : l.length + xs.length ≤ Small.capacity c s.self) :
    Small.spareLen c s = .ok (Small.capacity c s.self - l.length) s ∧
    Small.isFull c s = .ok (decide (Small.capacity c s.self = l.length)) s ∧
    ∃ s1, Small.spareWrites c xs s = .ok () s1 ∧ SReserved c l s s1 ∧
      Small.capacity c s1.self = Small.capacity c s.self ∧ Small.isHeap s1.self = Small.isHeap s.self ∧
      s1.w.tick = s.w.tick := by
  refine ⟨?_, ?_, ?_⟩
  · unfold Small.spareLen Small.onAny
    cases hst : s.self.store with
    | stack slots len =>
      rw [onStore_stack hst, spareLen_buf (h.brep hst)]
      simp only [putStack_self hst]
      simp [Small.capacity, hst, St.stackBuf]
    | heap v =>
      rw [onStore_heap hst, onBuf_look (spareLen_buf ((h.heap v hst).brep (s := ⟨v, s.w⟩) hs))]
      simp [putHeap_self hst, Small.capacity, hst, bufOf]
  · unfold Small.isFull Small.onAny
    cases hst : s.self.store with
    | stack slots len =>
      rw [onStore_stack hst, isFull_buf (h.brep hst)]
      simp only [putStack_self hst]
      simp only [Small.capacity, hst, St.stackBuf]
      congr
    | heap v =>
      rw [onStore_heap hst, onBuf_look (isFull_buf ((h.heap v hst).brep (s := ⟨v, s.w⟩) hs))]
      simp only [putHeap_self hst, Small.capacity, hst, bufOf]
      congr
  · obtain ⟨s1, e1, e2, e3, e4⟩ := onAny_ok (m := Buf.spareWrites c 0 xs) (a := ()) (l' := l) hs h hw
      (fun b hb hc => by
        obtain ⟨slots, g1, g2, _⟩ := spareWrites_trans hs hb xs (by omega)
        exact ⟨_, g1, g2, rfl⟩)
    refine ⟨s1, e1, e2, e3, ?_, e4⟩
    unfold Small.onAny at e1
    cases hst : s.self.store with
    | stack slots len =>
      rw [onStore_stack hst] at e1
      split at e1 <;> cases e1
      simp [Small.isHeap, St.putStack, hst]
    | heap v =>
      rw [onStore_heap hst] at e1
      split at e1 <;> cases e1
      simp [Small.isHeap, St.putHeap, hst]

/-! ## A non-trivial case: two of four slots are used -/

example : Rep cfg64 (stored cfg64 [7, 8] 4).self (stored cfg64 [7, 8] 4).w [7, 8] ∧
    (stored cfg64 [7, 8] 4).w.WF ∧ Vec.capacity cfg64 (stored cfg64 [7, 8] 4).self = 4 :=
  ⟨stored_rep (by decide) (by decide) (by decide), stored_wf, rfl⟩
example : (match Vec.spareWrites cfg64 [1, 2] (stored cfg64 [7, 8] 4) with
    | .ok _ s1 => [look (.ok () s1), look (Vec.setLen cfg64 3 s1), look (Vec.setLen cfg64 4 s1)]
    | _ => []) = [some ([some 7, some 8], 4, 1), some ([some 7, some 8, some 1], 4, 1),
      some ([some 7, some 8, some 1, some 2], 4, 1)] := by decide +kernel
example : (match Vec.spareWrites cfg64 [1, 2, 3] (stored cfg64 [7, 8] 4) with
    | .panic s1 => some s1.self.len
    | _ => none) = some 2 := by decide +kernel

end Lokky
