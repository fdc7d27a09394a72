import Verif.Proofs.SmallGrow

/-!
# Operations of `SmallVec`, one by one
-/

namespace Lokky
variable {α : Type} {c : Cfg α}

theorem onStore_panic_stack {β : Type} {f : M (Buf α) β} {g : M (VSt α) β} {s : SSt α}
    {slots : List (Option α)} {len : Nat} (h : s.self.store = .stack slots len)
    (hf : f (s.stackBuf slots len) = .panic (s.stackBuf slots len)) :
    Small.onStore f g s = .panic s := by
  rw [onStore_stack h, hf]; simp [putStack_self h]

theorem onStore_panic_heap {β : Type} {f : M (Buf α) β} {g : M (VSt α) β} {s : SSt α} {v : VecH}
    (h : s.self.store = .heap v) (hg : g ⟨v, s.w⟩ = .panic ⟨v, s.w⟩) :
    Small.onStore f g s = .panic s := by
  rw [onStore_heap h, hg]; simp [putHeap_self h]

theorem onStore_look_stack {β : Type} {f : M (Buf α) β} {g : M (VSt α) β} {s : SSt α} {a : β}
    {slots : List (Option α)} {len : Nat} (h : s.self.store = .stack slots len)
    (hf : f (s.stackBuf slots len) = .ok a (s.stackBuf slots len)) :
    Small.onStore f g s = .ok a s := by
  rw [onStore_stack h, hf]; simp [putStack_self h]

theorem onStore_look_heap {β : Type} {f : M (Buf α) β} {g : M (VSt α) β} {s : SSt α} {v : VecH}
    {a : β} (h : s.self.store = .heap v) (hg : g ⟨v, s.w⟩ = .ok a ⟨v, s.w⟩) :
    Small.onStore f g s = .ok a s := by
  rw [onStore_heap h, hg]; simp [putHeap_self h]

/-- An operation on the inline buffer that always returns and drops nothing. -/
theorem onStore_ok_stack {β : Type} {f : M (Buf α) β} {g : M (VSt α) β} {s : SSt α} {a : β}
    {l l' : List α} (h : SRep c s.self s.w l) (hw : s.w.WF)
    {slots : List (Option α)} {len : Nat} (hst : s.self.store = .stack slots len)
    (hf : ∃ b', f (s.stackBuf slots len) = .ok a b' ∧ BTrans l' [] (s.stackBuf slots len) b' ∧
      b'.log = s.w.log) :
    ∃ s', Small.onStore f g s = .ok a s' ∧ SReserved c l' s s' ∧
      Small.capacity c s'.self = Small.capacity c s.self ∧ s'.w.tick = s.w.tick := by
  obtain ⟨b', e1, e2, e3⟩ := hf
  refine ⟨s.putStack b', ?_, ⟨putStack_trans h hw hst e2, e3, rfl⟩, ?_, rfl⟩
  · rw [onStore_stack hst, e1]
  · simp [Small.capacity, St.putStack, hst]

theorem onStore_ok_heap {β : Type} {f : M (Buf α) β} {g : M (VSt α) β} {s : SSt α} {a : β}
    {l l' : List α} (hs : c.size ≠ 0) (h : SRep c s.self s.w l)
    {v : VecH} (hst : s.self.store = .heap v)
    (hg : ∃ t, g ⟨v, s.w⟩ = .ok a t ∧ Reserved c l' ⟨v, s.w⟩ t ∧ t.self.cap = v.cap ∧
      t.w.tick = s.w.tick) :
    ∃ s', Small.onStore f g s = .ok a s' ∧ SReserved c l' s s' ∧
      Small.capacity c s'.self = Small.capacity c s.self ∧ s'.w.tick = s.w.tick := by
  obtain ⟨t, e1, e2, e3, e4⟩ := hg
  refine ⟨s.putHeap t, ?_, putHeap_reserved h hst e2, ?_, e4⟩
  · rw [onStore_heap hst, e1]
  · simpa [Small.capacity, St.putHeap, hst, capacity_eq hs] using e3

/-! ## Elements -/

theorem spop_spec {s : SSt α} {l : List α} (hs : c.size ≠ 0) (h : SRep c s.self s.w l)
    (hw : s.w.WF) :
    ∃ s', Small.pop c s = .ok l.getLast? s' ∧ SReserved c l.dropLast s s' ∧
      Small.capacity c s'.self = Small.capacity c s.self ∧ s'.w.tick = s.w.tick := by
  cases hst : s.self.store with
  | stack slots len => exact onStore_ok_stack h hw hst (pop_buf hs (h.brep hst))
  | heap v => exact onStore_ok_heap hs h hst (pop_spec (s := ⟨v, s.w⟩) hs (h.heap v hst) hw)

/-- `StackVec::remove` when there is a spare slot. -/
theorem stackRemove_buf {b : Buf α} {l : List α} (hs : c.size ≠ 0) (h : BRep b l) {i : Nat}
    (hi : i < l.length) (hroom : l.length < b.cap) :
    ∃ b', Stack.remove c i b = .ok l[i] b' ∧ BTrans (l.eraseIdx i) [] b b' ∧ b'.log = b.log := by
  have hcap := h.cap
  refine ⟨?_, ?_, ?_, ?_⟩
  rotate_left
  · unfold Stack.remove
    rw [M.bind_ok (Buf.getLen_apply b), h.len, M.bind_ok (assert_pos hi),
      M.bind_ok (debugAssert_pos hi),
      M.bind_ok (uncheckedIndex_eq hi), M.bind_ok (Buf.read_eq hs (h.slot hi)),
      M.bind_ok (Buf.copy_eq hs (by omega) (by omega)),
      M.bind_ok (Buf.setLen_eq (by simp only; omega)), M.pure_apply]
  · refine ⟨BRep.of_slots (by simp [List.length_eraseIdx, hi]) ?_ ?_, rfl, by simp⟩
    · simp only [List.length_append, List.length_take, List.length_drop]
      omega
    · intro j hj
      simp only [List.length_eraseIdx, hi, if_true] at hj
      simp only [List.getElem?_append, List.length_take, List.length_append, List.getElem?_take,
        List.getElem?_drop, List.length_drop]
      rw [Nat.min_eq_left (by omega : i ≤ b.slots.length)]
      by_cases hji : j < i
      · simp only [hji, if_true]
        rw [if_pos (by omega), h.slot (by omega), List.getElem_eraseIdx_of_lt _ hji]
      · have hlt : j < i + min (l.length - i) (b.slots.length - (i + 1)) := by omega
        simp only [hlt, hji, if_true, if_false]
        rw [if_pos (by omega), List.getElem_eraseIdx_of_ge _ (by omega)]
        have : i + 1 + (j - i) = j + 1 := by omega
        rw [this, h.slot (by omega)]
  · rfl

theorem stackRemove_panic {b : Buf α} {l : List α} (h : BRep b l) {i : Nat}
    (hi : ¬ i < l.length) : Stack.remove c i b = .panic b := by
  unfold Stack.remove
  rw [M.bind_ok (Buf.getLen_apply b), h.len, M.bind_panic (assert_neg hi)]

theorem sremove_spec {s : SSt α} {l : List α} (hs : c.size ≠ 0) (h : SRep c s.self s.w l)
    (hw : s.w.WF) {i : Nat} (hi : i < l.length)
    (hroom : Small.isHeap s.self = false → l.length < s.self.n) :
    ∃ s', Small.remove c i s = .ok l[i] s' ∧ SReserved c (l.eraseIdx i) s s' ∧
      Small.capacity c s'.self = Small.capacity c s.self ∧ s'.w.tick = s.w.tick := by
  cases hst : s.self.store with
  | stack slots len =>
    exact onStore_ok_stack h hw hst
      (stackRemove_buf hs (h.brep hst) hi (hroom (by simp [Small.isHeap, hst])))
  | heap v => exact onStore_ok_heap hs h hst (remove_spec (s := ⟨v, s.w⟩) hs (h.heap v hst) hw hi)

theorem sremove_panic {s : SSt α} {l : List α} (hs : c.size ≠ 0) (h : SRep c s.self s.w l)
    {i : Nat} (hi : ¬ i < l.length) : Small.remove c i s = .panic s := by
  cases hst : s.self.store with
  | stack slots len => exact onStore_panic_stack hst (stackRemove_panic (h.brep hst) hi)
  | heap v => exact onStore_panic_heap hst (remove_panic (s := ⟨v, s.w⟩) hs (h.heap v hst) hi)

theorem stackSwapRemove_buf {b : Buf α} {l : List α} (hs : c.size ≠ 0) (h : BRep b l) {i : Nat}
    (hi : i < l.length) (hstrict : c.strict = true → i + 1 ≠ l.length) :
    ∃ b', Stack.swapRemove c i b = .ok l[i] b' ∧ BTrans (swapRemoved l i) [] b b' ∧
      b'.log = b.log := by
  obtain ⟨b', e, h1, h2⟩ := swapRemove_buf hs h hi hstrict
  refine ⟨b', ?_, h1, h2⟩
  have hlt : l.length - 1 < l.length := by omega
  rw [M.bind_ok (Buf.getLen_apply b), h.len, M.bind_ok (uncheckedIndex_eq hi),
    M.bind_ok (uncheckedIndex_eq hlt), M.bind_ok (Buf.read_eq hs (h.slot hi))] at e
  unfold Stack.swapRemove
  rw [M.bind_ok (Buf.getLen_apply b), h.len, M.bind_ok (assert_pos hi),
    M.bind_ok (uncheckedIndex_eq hi), M.bind_ok (Buf.read_eq hs (h.slot hi)),
    M.bind_ok (uncheckedIndex_eq hlt)]
  exact e

theorem sswapRemove_spec {s : SSt α} {l : List α} (hs : c.size ≠ 0) (h : SRep c s.self s.w l)
    (hw : s.w.WF) {i : Nat} (hi : i < l.length)
    (hstrict : c.strict = true → i + 1 = l.length → Small.isHeap s.self = true ∧ l.length = 1) :
    ∃ s', Small.swapRemove c i s = .ok l[i] s' ∧ SReserved c (swapRemoved l i) s s' ∧
      Small.capacity c s'.self = Small.capacity c s.self ∧ s'.w.tick = s.w.tick := by
  cases hst : s.self.store with
  | stack slots len =>
    refine onStore_ok_stack h hw hst (stackSwapRemove_buf hs (h.brep hst) hi ?_)
    intro h1 h2
    have := (hstrict h1 h2).1
    simp [Small.isHeap, hst] at this
  | heap v =>
    exact onStore_ok_heap hs h hst (swapRemove_spec (s := ⟨v, s.w⟩) hs (h.heap v hst) hw hi
      (fun h1 h2 => (hstrict h1 h2).2))

theorem sswapRemove_panic {s : SSt α} {l : List α} (h : SRep c s.self s.w l)
    {i : Nat} (hi : ¬ i < l.length) : Small.swapRemove c i s = .panic s := by
  cases hst : s.self.store with
  | stack slots len =>
    refine onStore_panic_stack hst ?_
    unfold Stack.swapRemove
    rw [M.bind_ok (Buf.getLen_apply _), (h.brep hst).len, M.bind_panic (assert_neg hi)]
  | heap v => exact onStore_panic_heap hst (swapRemove_panic (s := ⟨v, s.w⟩) (h.heap v hst) hi)

theorem struncate_spec {s : SSt α} {l : List α} (hs : c.size ≠ 0) (h : SRep c s.self s.w l)
    (hw : s.w.WF) (k : Nat) (hk : Small.isHeap s.self = false → l.length ≤ k) :
    Sat c (Small.truncate c k s)
      (fun _ s' => STrans c (l.take k) (l.drop k) s s' ∧ s'.w.refusals = s.w.refusals)
      (fun s' => STrans c (l.take k) (l.drop k) s s' ∧ s'.w.refusals = s.w.refusals ∧
        ∃ a ∈ l.drop k, c.dropPanics a = true) := by
  cases hst : s.self.store with
  | stack slots len =>
    have hk := hk (by simp [Small.isHeap, hst])
    have e : Small.truncate c k s = .ok () s := by
      refine onStore_look_stack hst ?_
      unfold Stack.truncate
      rw [M.bind_ok (Buf.getLen_apply _), (h.brep hst).len, if_neg (by omega)]
      rfl
    rw [e, List.take_of_length_le hk, List.drop_of_length_le hk]
    exact ⟨.refl h hw, rfl⟩
  | heap v =>
    refine heap_sat hst (truncate_spec (s := ⟨v, s.w⟩) hs (h.heap v hst) hw k) ?_ ?_
    · rintro _ t ⟨h1, _, h2, _⟩; exact ⟨putHeap_trans h hst h1, h2⟩
    · rintro t ⟨h1, _, h2, _, h3⟩; exact ⟨putHeap_trans h hst h1, h2, h3⟩

theorem stackClear_buf {b : Buf α} {l : List α} (hs : c.size ≠ 0) (h : BRep b l) :
    Sat c (Stack.clear c b)
      (fun _ b' => BTrans [] l b b')
      (fun b' => ∃ ys a zs, l = ys ++ a :: zs ∧ c.dropPanics a = true ∧
        BTrans [] (ys ++ [a]) b b' ∧ ∀ y ∈ ys, c.dropPanics y = false) := by
  unfold Stack.clear
  rw [M.bind_ok (Buf.getLen_apply b), M.bind_ok (Buf.setLen_eq (Nat.zero_le _)), h.len]
  refine (Buf.dropLoop_spec (b := { b with len := 0 }) (i := 0) hs (xs := l)
    (fun k hk => by rw [Nat.zero_add]; exact h.slot hk)).mono ?_ ?_
  · rintro _ b' ⟨rfl, _⟩
    exact ⟨BRep.of_slots rfl h.cap (by simp), rfl, rfl⟩
  · rintro b' ⟨ys, a, zs, h1, h2, h3, rfl⟩
    exact ⟨ys, a, zs, h1, h2, ⟨BRep.of_slots rfl h.cap (by simp), rfl, rfl⟩, h3⟩

/-- `clear`: if a destructor panics, an inline vector is empty and leaks the rest; a heap vector
keeps everything. -/
theorem sclear_spec {s : SSt α} {l : List α} (hs : c.size ≠ 0) (h : SRep c s.self s.w l)
    (hw : s.w.WF) :
    Sat c (Small.clear c s)
      (fun _ s' => STrans c [] l s s' ∧ s'.w.refusals = s.w.refusals)
      (fun s' => ∃ ys a zs, l = ys ++ a :: zs ∧ c.dropPanics a = true ∧
        STrans c (if Small.isHeap s.self then l else []) (ys ++ [a]) s s' ∧
        s'.w.refusals = s.w.refusals ∧ ∀ y ∈ ys, c.dropPanics y = false) := by
  cases hst : s.self.store with
  | stack slots len =>
    refine stack_sat hst (stackClear_buf hs (h.brep hst)) ?_ ?_
    · rintro _ b h1; exact ⟨putStack_trans h hw hst h1, rfl⟩
    · rintro b ⟨ys, a, zs, h1, h2, h3, h4⟩
      refine ⟨ys, a, zs, h1, h2, ?_, rfl, h4⟩
      simpa [Small.isHeap, hst] using putStack_trans h hw hst h3
  | heap v =>
    refine heap_sat hst (clear_spec (s := ⟨v, s.w⟩) hs (h.heap v hst) hw) ?_ ?_
    · rintro _ t ⟨h1, _, h2, _⟩; exact ⟨putHeap_trans h hst h1, h2⟩
    · rintro t ⟨ys, a, zs, h1, h2, h0, h3, _, h4⟩
      refine ⟨ys, a, zs, h1, h2, ?_, h4, h0⟩
      simpa [Small.isHeap, hst] using putHeap_trans h hst h3

theorem sindex_spec {s : SSt α} {l : List α} (hs : c.size ≠ 0) (h : SRep c s.self s.w l) (i : Nat) :
    Small.index c i s = if hi : i < l.length then .ok l[i] s else .panic s := by
  cases hst : s.self.store with
  | stack slots len =>
    have := index_buf hs (h.brep hst) i
    split
    · rename_i hi
      rw [dif_pos hi] at this
      exact onStore_look_stack hst this
    · rename_i hi
      rw [dif_neg hi] at this
      exact onStore_panic_stack hst this
  | heap v =>
    have := index_spec (s := ⟨v, s.w⟩) hs (h.heap v hst) i
    split
    · rename_i hi
      rw [dif_pos hi] at this
      exact onStore_look_heap hst this
    · rename_i hi
      rw [dif_neg hi] at this
      exact onStore_panic_heap hst this

theorem sasSlice_spec {s : SSt α} {l : List α} (hs : c.size ≠ 0) (h : SRep c s.self s.w l) :
    Small.asSlice c s = .ok l s := by
  cases hst : s.self.store with
  | stack slots len => exact onStore_look_stack hst (asSlice_buf hs (h.brep hst))
  | heap v => exact onStore_look_heap hst (asSlice_spec (s := ⟨v, s.w⟩) hs (h.heap v hst))

theorem stackIndexSet_buf {b : Buf α} {l : List α} (hs : c.size ≠ 0) (h : BRep b l) (i : Nat)
    (a : α) :
    Sat c (Stack.indexSet c i a b)
      (fun _ b' => ∃ hi : i < l.length, BTrans (l.set i a) [l[i]] b b')
      (fun b' => (l.length ≤ i ∧ BTrans l [a] b b') ∨
        (∃ hi : i < l.length, BTrans (l.set i a) [l[i]] b b' ∧ c.dropPanics l[i] = true)) := by
  unfold Stack.indexSet
  by_cases hi : i < l.length
  · rw [M.bind_ok (M.onUnwind_ok (s' := b) (a := ()) (by
      rw [M.bind_ok (Buf.getLen_apply b), assert_pos (by rw [h.len]; exact hi)]))]
    refine (indexSet_buf hs h hi a).mono ?_ ?_
    · rintro _ b' ⟨h1, _⟩; exact ⟨hi, h1⟩
    · rintro b' ⟨h1, _, h2⟩; exact Or.inr ⟨hi, h1, h2⟩
  · refine Sat.bind (Q := fun _ _ => False) ?_ (fun _ _ h => h.elim)
    refine Sat.onUnwind (Q := fun _ _ => False) (E' := fun b' => b' = b) ?_ ?_
    · rw [M.bind_ok (Buf.getLen_apply b), assert_neg (by rw [h.len]; exact hi)]
      exact rfl
    · rintro b' rfl
      refine (Buf.onLog_sat (dropVal_spec (c := c) a b'.log)).mono ?_ ?_
      · rintro _ b'' ⟨g, ⟨rfl, _⟩, rfl⟩
        exact Or.inl ⟨by omega, ⟨h.len, h.cap, h.holds⟩, rfl, rfl⟩
      · rintro b'' ⟨g, ⟨_, hp⟩, _⟩; exact ⟨_, hp⟩

theorem sindexSet_spec {s : SSt α} {l : List α} (hs : c.size ≠ 0) (h : SRep c s.self s.w l)
    (hw : s.w.WF) (i : Nat) (a : α) :
    Sat c (Small.indexSet c i a s)
      (fun _ s' => ∃ hi : i < l.length, STrans c (l.set i a) [l[i]] s s' ∧
        s'.w.refusals = s.w.refusals)
      (fun s' => s'.w.refusals = s.w.refusals ∧ ((l.length ≤ i ∧ STrans c l [a] s s') ∨
        (∃ hi : i < l.length, STrans c (l.set i a) [l[i]] s s' ∧ c.dropPanics l[i] = true))) := by
  cases hst : s.self.store with
  | stack slots len =>
    refine stack_sat hst (stackIndexSet_buf hs (h.brep hst) i a) ?_ ?_
    · rintro _ b ⟨hi, h1⟩; exact ⟨hi, putStack_trans h hw hst h1, rfl⟩
    · rintro b (⟨h0, h1⟩ | ⟨hi, h1, h2⟩)
      · exact ⟨rfl, Or.inl ⟨h0, putStack_trans h hw hst h1⟩⟩
      · exact ⟨rfl, Or.inr ⟨hi, putStack_trans h hw hst h1, h2⟩⟩
  | heap v =>
    refine heap_sat hst (indexSet_spec (s := ⟨v, s.w⟩) hs (h.heap v hst) hw i a) ?_ ?_
    · rintro _ t ⟨hi, h1, _, h2, _⟩; exact ⟨hi, putHeap_trans h hst h1, h2⟩
    · rintro t (⟨h0, h1, h2⟩ | ⟨hi, h1, h2, h3⟩)
      · exact ⟨h2, Or.inl ⟨h0, putHeap_trans h hst h1⟩⟩
      · exact ⟨h3, Or.inr ⟨hi, putHeap_trans h hst h1, h2⟩⟩

/-! ## push and insert -/

theorem uncheckedPush_buf {b : Buf α} {l : List α} (hs : c.size ≠ 0) (h : BRep b l)
    (hc : l.length < b.cap) (a : α) :
    ∃ b', Stack.uncheckedPush c a b = .ok () b' ∧ BTrans (l ++ [a]) [] b b' ∧ b'.log = b.log := by
  have hne : b.len ≠ b.cap := by rw [h.len]; omega
  unfold Stack.uncheckedPush
  rw [M.bind_ok (M.onUnwind_ok (s' := b) (a := ()) (by
    rw [M.bind_ok (M.get_apply b), assert_pos hne]))]
  exact writeEnd_spec hs h hc a

/-- Pushing into a vector with room. -/
theorem spush_room {s : SSt α} {l : List α} (hs : c.size ≠ 0) (h : SRep c s.self s.w l)
    (hw : s.w.WF) (hc : l.length < Small.capacity c s.self) (a : α) :
    ∃ s', Small.onStore (Stack.uncheckedPush c a) (Vec.push c a) s = .ok () s' ∧
      SReserved c (l ++ [a]) s s' ∧ Small.capacity c s'.self = Small.capacity c s.self ∧
      s'.w.tick = s.w.tick := by
  cases hst : s.self.store with
  | stack slots len =>
    exact onStore_ok_stack h hw hst (uncheckedPush_buf hs (h.brep hst)
      (by simpa [Small.capacity, hst, St.stackBuf] using hc) a)
  | heap v =>
    exact onStore_ok_heap hs h hst (push_reserved (s := ⟨v, s.w⟩) hs (h.heap v hst) hw
      (by simpa [Small.capacity, hst, capacity_eq hs] using hc) a)

/-- Dropping the argument after a refused reservation. -/
theorem refuse_dropVal {s : SSt α} {l : List α} (h : SRep c s.self s.w l) (hw : s.w.WF) (a : α) :
    Sat c (onLog (dropVal c a) s.refuse)
      (fun _ s' => STrans c l [a] s s' ∧ s'.w.refusals = s.w.refusals + 1)
      (fun _ => c.MayAbort) := by
  refine (STrans.dropVal a (STrans.refuse h hw)).mono ?_ (fun _ h => ⟨_, h.2.2⟩)
  rintro _ s'' ⟨h3, rfl, _⟩
  exact ⟨h3, rfl⟩

theorem spush_spec {s : SSt α} {l : List α} (hs : c.size ≠ 0) (h : SRep c s.self s.w l)
    (hw : s.w.WF) (hf : c.Fits (l.length + 1 + Vec.minNonZeroCap c)) (a : α) :
    Sat c (Small.push c a s)
      (fun _ s' => SReserved c (l ++ [a]) s s' ∧
        (l.length + extra c s.self 1 ≤ Small.capacity c s.self → s'.w.tick = s.w.tick))
      (fun s' => STrans c l [a] s s' ∧ s'.w.refusals = s.w.refusals + 1 ∧
        Small.capacity c s.self < l.length + extra c s.self 1) := by
  unfold Small.push
  refine Sat.bind (Q := fun _ s' => SReserved c l s s' ∧ Roomy c s s' (l.length + 1) ∧
    (l.length + extra c s.self 1 ≤ Small.capacity c s.self → s' = s)) ?_ ?_
  · refine Sat.onUnwind ((sreserve_spec hs h hw hf).mono (fun _ _ h => ⟨h.1, h.2.1, h.2.2.1⟩)
      (fun _ h => h)) ?_
    rintro s' ⟨rfl, h1, _⟩
    refine (refuse_dropVal h hw a).mono ?_ (fun _ h => h)
    rintro _ s'' ⟨h3, h4⟩
    exact ⟨h3, h4, h1⟩
  · rintro _ s' ⟨h1, h2, h3⟩
    obtain ⟨s'', e1, e2, _, e4⟩ := spush_room hs h1.trans.rep h1.trans.wf
      (by have := h2.1; omega) a
    rw [e1]
    refine ⟨h1.trans' hw e2, fun h4 => ?_⟩
    rw [e4, h3 h4]

theorem uncheckedInsert_buf {b : Buf α} {l : List α} (hs : c.size ≠ 0) (h : BRep b l) {i : Nat}
    (hi : i ≤ l.length) (hst : c.strict = true → i ≠ l.length) (hc : l.length < b.cap) (a : α) :
    ∃ b', Stack.uncheckedInsert c i a b = .ok () b' ∧ BTrans (l.insertIdx i a) [] b b' ∧
      b'.log = b.log := by
  obtain ⟨b', e, h1, h2⟩ := insert_buf (c := c) hs h hi hc a
  refine ⟨b', ?_, h1, h2⟩
  rw [M.bind_ok (Buf.getLen_apply b), h.len, M.bind_ok (uncheckedIndex_eq (by omega))] at e
  have hu : uncheckedIndex c i l.length b = .ok () b := by
    rcases Nat.lt_or_ge i l.length with h3 | h3
    · exact uncheckedIndex_eq h3
    · have h4 : c.strict = false := by
        cases h5 : c.strict with
        | false => rfl
        | true => exact absurd (by omega) (hst h5)
      simp [uncheckedIndex, h4, M.pure_apply]
  unfold Stack.uncheckedInsert
  rw [M.bind_ok (Buf.getLen_apply b), h.len,
    M.bind_ok (M.onUnwind_ok (debugAssert_pos hi)), M.bind_ok hu, M.bind_ok (usub_eq hi)]
  exact e

theorem uncheckedInsert_panic {b : Buf α} {l : List α} (h : BRep b l) {i : Nat}
    (hi : l.length < i) (hdbg : c.debug = true) (a : α) :
    Sat c (Stack.uncheckedInsert c i a b) (fun _ _ => False)
      (fun b' => BTrans l [a] b b') := by
  unfold Stack.uncheckedInsert
  rw [M.bind_ok (Buf.getLen_apply b), h.len]
  refine Sat.bind (Q := fun _ _ => False) ?_ (fun _ _ h => h.elim)
  refine Sat.onUnwind (Q := fun _ _ => False) (E' := fun b' => b' = b) ?_ ?_
  · have : debugAssert c (i ≤ l.length) b = .panic b := by
      simp [debugAssert, hdbg, Nat.not_le.mpr hi]
    rw [this]; exact rfl
  · rintro b' rfl
    refine (Buf.onLog_sat (dropVal_spec (c := c) a b'.log)).mono ?_ ?_
    · rintro _ b'' ⟨g, ⟨rfl, _⟩, rfl⟩
      exact ⟨⟨h.len, h.cap, h.holds⟩, rfl, rfl⟩
    · rintro b'' ⟨g, ⟨_, hp⟩, _⟩; exact ⟨_, hp⟩

/-- `insert`. On an inline vector that stays inline the index must be in range unless debug
assertions are on; where the contract of `get_unchecked_mut` counts, inserting at the end is not
allowed either. -/
theorem sinsert_spec {s : SSt α} {l : List α} (hs : c.size ≠ 0) (h : SRep c s.self s.w l)
    (hw : s.w.WF) {i : Nat} (hf : c.Fits (l.length + 1 + Vec.minNonZeroCap c)) (a : α)
    (hst : Small.isHeap s.self = false → l.length + extra c s.self 1 ≤ s.self.n →
      (c.debug = true ∨ i ≤ l.length) ∧ (c.strict = true → i ≠ l.length)) :
    Sat c (Small.insert c i a s)
      (fun _ s' => i ≤ l.length ∧ SReserved c (l.insertIdx i a) s s')
      (fun s' => STrans c l [a] s s' ∧
        ((s'.w.refusals = s.w.refusals ∧ l.length < i) ∨
          s'.w.refusals = s.w.refusals + 1)) := by
  unfold Small.insert
  refine Sat.bind (Q := fun _ s' => SReserved c l s s' ∧ Roomy c s s' (l.length + 1) ∧
    (Small.isHeap s'.self = false → s' = s ∧
      l.length + extra c s.self 1 ≤ Small.capacity c s.self)) ?_ ?_
  · refine Sat.onUnwind ((sreserve_spec hs h hw hf).mono (fun _ s' h => ⟨h.1, h.2.1, ?_⟩)
      (fun _ h => h)) ?_
    · intro h1
      rcases Nat.lt_or_ge (Small.capacity c s.self) (l.length + extra c s.self 1) with h2 | h2
      · obtain ⟨v, h3, _⟩ := h.2.2.2 h2
        simp [Small.isHeap, h3] at h1
      · exact ⟨h.2.2.1 h2, h2⟩
    · rintro s' ⟨rfl, h1, _⟩
      refine (refuse_dropVal h hw a).mono ?_ (fun _ h => h)
      rintro _ s'' ⟨h3, h4⟩
      exact ⟨h3, Or.inr h4⟩
  · rintro _ s' ⟨h1, h2, h3⟩
    have hr := h1.trans.rep
    have hcap := h2.1
    cases hst' : s'.self.store with
    | stack slots len =>
      obtain ⟨rfl, h4⟩ := h3 (by simp [Small.isHeap, hst'])
      simp only [Small.capacity, hst'] at h4 hcap
      obtain ⟨h5, h6⟩ := hst (by simp [Small.isHeap, hst']) h4
      by_cases hi : i ≤ l.length
      · obtain ⟨s'', e1, e2, _, _⟩ := onStore_ok_stack (g := Vec.insert c i a) hr h1.trans.wf hst'
          (uncheckedInsert_buf hs (hr.brep hst') hi h6 (by simp only [St.stackBuf]; omega) a)
        rw [e1]
        exact ⟨hi, h1.trans' hw e2⟩
      · refine stack_sat hst' (uncheckedInsert_panic (hr.brep hst') (by omega)
          (h5.resolve_right hi) a) (fun _ _ h => h.elim) ?_
        rintro b h7
        exact ⟨putStack_trans h hw hst' h7, Or.inl ⟨rfl, by omega⟩⟩
    | heap v =>
      simp only [Small.capacity, hst', capacity_eq hs] at hcap
      refine heap_sat hst' (insert_spec (s := ⟨v, s'.w⟩) (i := i) hs (hr.heap v hst') h1.trans.wf
        (Fits.mono hf (by omega)) a) ?_ ?_
      · rintro _ t ⟨hi, h4, _⟩
        exact ⟨hi, h1.trans' hw (putHeap_reserved hr hst' h4)⟩
      · rintro t ⟨h4, (⟨h5, rfl⟩ | ⟨_, rfl, h6, _⟩)⟩
        · refine ⟨?_, Or.inl ⟨h1.refusals, h5⟩⟩
          simpa using h1.trans.trans hw (putHeap_trans hr hst' h4)
        · simp only at h6; omega

end Lokky
