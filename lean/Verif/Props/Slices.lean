import Verif.Model.Slices
import Verif.Props.SmallScan
import Verif.Props.VecIter

/-!
# C129: elements can be changed in place through slices
-/

namespace Lokky
variable {α β : Type} {c : Cfg α}
open Spec

/-- The call ended as `e` says, in a state that satisfies `P`. -/
def Ended {σ : Type} (e : SliceEnd β) (r : Res σ β) (P : σ → Prop) : Prop :=
  match e, r with
  | .ret b, .ok b' s => b' = b ∧ P s
  | .panic, .panic s => P s
  | .abort, .abort => True
  | _, _ => False

theorem Ended.mono {σ : Type} {e : SliceEnd β} {r : Res σ β} {P Q : σ → Prop} (h : Ended e r P)
    (hq : ∀ s, P s → Q s) : Ended e r Q := by
  unfold Ended at *
  split
  · exact ⟨h.1, hq _ h.2⟩
  · exact hq _ h
  · trivial
  · rename_i h1 h2 h3
    split at h <;> simp_all

theorem slice_length (dp : α → Bool) (p : SliceProg α β) (m : List α) : (p.run dp m).2.1.length = m.length := by
  induction p generalizing m with
  | ret b => rfl
  | panic => rfl
  | len k ih => exact ih _ m
  | look i k ih =>
    simp only [SliceProg.run]; split
    · exact ih _ m
    · rfl
  | swap i j k ih =>
    simp only [SliceProg.run]; split
    · rw [ih]; simp
    · rfl
  | replace i a k ih =>
    simp only [SliceProg.run]; split
    · rw [ih]; simp
    · rfl
  | drop a k ih =>
    simp only [SliceProg.run]; split
    · rfl
    · exact ih m

theorem set_middle {pre m post : List α} {i : Nat} {a : α} (hi : i < m.length) :
    (pre ++ m ++ post).set (pre.length + i) a = pre ++ m.set i a ++ post := by
  rw [List.append_assoc, List.set_append_right _ _ (by omega), List.append_assoc, Nat.add_sub_cancel_left,
    List.set_append_left _ _ hi]

theorem get_middle {pre m post : List α} {i : Nat} (hi : i < m.length) :
    (pre ++ m ++ post)[pre.length + i]? = some m[i] := by
  rw [List.append_assoc, List.getElem?_append_right (by omega), Nat.add_sub_cancel_left,
    List.getElem?_append_left hi, List.getElem?_eq_getElem hi]

theorem BRep.read_middle {b : Buf α} {pre m post : List α} (hs : c.size ≠ 0) (h : BRep b (pre ++ m ++ post))
    {i : Nat} (hi : i < m.length) : Buf.read c (pre.length + i) b = .ok m[i] b := by
  have hl : pre.length + i < (pre ++ m ++ post).length := by simp; omega
  have := h.slot hl
  have h2 := get_middle (pre := pre) (post := post) hi
  rw [List.getElem?_eq_getElem hl] at h2
  rw [Option.some.inj h2] at this
  exact Buf.read_eq hs this

theorem BRep.write_middle {b : Buf α} {pre m post : List α} (hs : c.size ≠ 0) (h : BRep b (pre ++ m ++ post))
    {i : Nat} (hi : i < m.length) (a : α) :
    ∃ b', Buf.write c (pre.length + i) a b = .ok () b' ∧ BTrans (pre ++ m.set i a ++ post) [] b b' ∧
      b'.len = b.len := by
  have hl : pre.length + i < (pre ++ m ++ post).length := by simp; omega
  have hc := h.cap
  have hle := h.le_cap
  obtain ⟨rest, hr⟩ := h.holds
  refine ⟨_, Buf.write_eq hs (by omega), ⟨⟨by simp [h.len], by simp [hc], rest, ?_⟩, rfl, by simp⟩, rfl⟩
  simp only []
  rw [hr, List.set_append_left _ _ (by simpa using hl), ← set_middle hi, ← List.map_set]

/-- The code on a slice in the middle of a buffer does exactly what it does to the list there. -/
theorem runSlice_buf (hs : c.size ≠ 0) (p : SliceProg α β) {b : Buf α} {pre m post : List α}
    (h : BRep b (pre ++ m ++ post)) :
    Ended (p.run c.dropPanics m).1 (runSlice c pre.length m.length p b) fun b' =>
      BTrans (pre ++ (p.run c.dropPanics m).2.1 ++ post) (p.run c.dropPanics m).2.2 b b' ∧ b'.len = b.len := by
  induction p generalizing b m with
  | ret v => exact ⟨rfl, BTrans.refl h, rfl⟩
  | panic => exact ⟨BTrans.refl h, rfl⟩
  | len k ih => exact ih _ h
  | look i k ih =>
    unfold runSlice
    simp only [SliceProg.run]
    by_cases hi : i < m.length
    · rw [M.bind_ok (assert_pos hi), M.bind_ok (h.read_middle hs hi), List.getElem?_eq_getElem hi]
      exact ih _ h
    · rw [M.bind_panic (assert_neg hi), List.getElem?_eq_none (by omega)]
      exact ⟨BTrans.refl h, rfl⟩
  | swap i j k ih =>
    unfold runSlice
    simp only [SliceProg.run]
    by_cases hi : i < m.length
    · rw [M.bind_ok (assert_pos hi), List.getElem?_eq_getElem hi]
      by_cases hj : j < m.length
      · rw [M.bind_ok (assert_pos hj), List.getElem?_eq_getElem hj, M.bind_ok (h.read_middle hs hi),
          M.bind_ok (h.read_middle hs hj)]
        obtain ⟨b1, e1, t1, l1⟩ := h.write_middle (c := c) hs hi m[j]
        obtain ⟨b2, e2, t2, l2⟩ := t1.rep.write_middle (c := c) (i := j) hs (by simpa using hj) m[i]
        rw [M.bind_ok e1, M.bind_ok e2]
        have := ih (m := (m.set i m[j]).set j m[i]) t2.rep
        simp only [List.length_set] at this
        exact this.mono fun b' ht => ⟨by simpa using (t1.trans t2).trans ht.1, ht.2.trans (l2.trans l1)⟩
      · rw [M.bind_panic (assert_neg hj), List.getElem?_eq_none (by omega)]
        exact ⟨BTrans.refl h, rfl⟩
    · rw [M.bind_panic (assert_neg hi), List.getElem?_eq_none (by omega)]
      exact ⟨BTrans.refl h, rfl⟩
  | replace i a k ih =>
    unfold runSlice
    simp only [SliceProg.run]
    by_cases hi : i < m.length
    · rw [M.bind_ok (M.onUnwind_ok (assert_pos hi)), M.bind_ok (h.read_middle hs hi), List.getElem?_eq_getElem hi]
      obtain ⟨b1, e1, t1, l1⟩ := h.write_middle (c := c) hs hi a
      rw [M.bind_ok e1]
      have := ih m[i] (m := m.set i a) t1.rep
      simp only [List.length_set] at this
      exact this.mono fun b' ht => ⟨by simpa using t1.trans ht.1, ht.2.trans l1⟩
    · rw [List.getElem?_eq_none (by omega)]
      have e : ∀ s : Buf α, (assert (i < m.length) : M (Buf α) Unit) s = .panic s := fun s => assert_neg hi
      by_cases hd : c.dropPanics a = true
      · have : (M.onUnwind (assert (i < m.length)) (Buf.onLog (dropVal c a)) : M (Buf α) Unit) b = .abort := by
          simp [M.onUnwind, e, Buf.onLog, dropVal, hd]
        rw [M.bind_abort this]
        simp [Ended, hd]
      · have : (M.onUnwind (assert (i < m.length)) (Buf.onLog (dropVal c a)) : M (Buf α) Unit) b =
            .panic { b with log := { b.log with drops := b.log.drops ++ [a] } } := by
          simp [M.onUnwind, e, Buf.onLog, dropVal, hd]
        rw [M.bind_panic this]
        simp only [hd]
        exact ⟨⟨⟨h.len, h.cap, h.holds⟩, rfl, rfl⟩, rfl⟩
  | drop a k ih =>
    unfold runSlice
    simp only [SliceProg.run]
    by_cases hd : c.dropPanics a = true
    · have : Buf.onLog (dropVal c a) b = .panic { b with log := { b.log with drops := b.log.drops ++ [a] } } := by
        simp [Buf.onLog, dropVal, hd]
      rw [M.bind_panic this, if_pos hd]
      exact ⟨⟨⟨h.len, h.cap, h.holds⟩, rfl, rfl⟩, rfl⟩
    · have : Buf.onLog (dropVal c a) b = .ok () { b with log := { b.log with drops := b.log.drops ++ [a] } } := by
        simp [Buf.onLog, dropVal, hd]
      rw [M.bind_ok this, if_neg hd]
      have t : BTrans (pre ++ m ++ post) [a] b { b with log := { b.log with drops := b.log.drops ++ [a] } } :=
        ⟨⟨h.len, h.cap, h.holds⟩, rfl, rfl⟩
      exact (ih t.rep).mono fun b' ht => ⟨t.trans ht.1, ht.2⟩

theorem partOf_ok {σ : Type} {n a b : Nat} (h1 : a ≤ b) (h2 : b ≤ n) (s : σ) :
    partOf n a b s = .ok (a, b - a) s := by
  unfold partOf
  rw [M.bind_ok (assert_pos ⟨h1, h2⟩)]; rfl

theorem partOf_bad {σ : Type} {n a b : Nat} (h : ¬ (a ≤ b ∧ b ≤ n)) (s : σ) : partOf n a b s = .panic s := by
  unfold partOf
  rw [M.bind_panic (assert_neg h)]

theorem rangeOf_ok {σ : Type} {r : Spec.Range} {n : Nat} (hn : n ≤ c.usizeMax) (h : r.Within n) (s : σ) :
    rangeOf c r n s = .ok (r.lo, r.hi n - r.lo) s := by
  obtain ⟨h1, h2⟩ := h
  cases r with
  | incl a b =>
    simp only [Range.hi] at h2
    exact (M.bind_ok (assert_pos (show b ≠ c.usizeMax by omega))).trans (partOf_ok h1 h2 s)
  | toIncl b =>
    simp only [Range.hi] at h2
    exact (M.bind_ok (assert_pos (show b ≠ c.usizeMax by omega))).trans (partOf_ok h1 h2 s)
  | full => rfl
  | _ => exact partOf_ok h1 h2 s

theorem rangeOf_bad {σ : Type} {r : Spec.Range} {n : Nat} (h : ¬ r.Within n) (s : σ) :
    rangeOf c r n s = .panic s := by
  cases r with
  | incl a b =>
    by_cases hb : b ≠ c.usizeMax
    · exact (M.bind_ok (assert_pos hb)).trans (partOf_bad h s)
    · exact M.bind_panic (assert_neg hb)
  | toIncl b =>
    by_cases hb : b ≠ c.usizeMax
    · exact (M.bind_ok (assert_pos hb)).trans (partOf_bad h s)
    · exact M.bind_panic (assert_neg hb)
  | full => exact absurd ⟨Nat.zero_le _, Nat.le_refl _⟩ h
  | _ => exact partOf_bad h s

theorem sliceBuf_buf (hs : c.size ≠ 0) (p : SliceProg α β) {r : Spec.Range} {b : Buf α} {l : List α} (h : BRep b l)
    (hn : l.length ≤ c.usizeMax) (hr : r.Within l.length) :
    Ended (p.runIn c.dropPanics r l).1 (sliceBuf c r p b) fun b' =>
      BTrans (p.runIn c.dropPanics r l).2.1 (p.runIn c.dropPanics r l).2.2 b b' ∧ b'.len = b.len := by
  have hb : Buf.getLen b = .ok l.length b := by rw [Buf.getLen_apply, h.len]
  unfold sliceBuf
  rw [M.bind_ok hb, M.bind_ok (rangeOf_ok hn hr b)]
  obtain ⟨h1, h2⟩ := hr
  have e1 : (l.take r.lo).length = r.lo := by simp; omega
  have e2 : ((l.take (r.hi l.length)).drop r.lo).length = r.hi l.length - r.lo := by simp; omega
  have e3 : l.take r.lo ++ (l.take (r.hi l.length)).drop r.lo ++ l.drop (r.hi l.length) = l := by
    have : l.take r.lo = (l.take (r.hi l.length)).take r.lo := by rw [List.take_take, Nat.min_eq_left h1]
    rw [this, List.take_append_drop, List.take_append_drop]
  have := runSlice_buf (c := c) hs p (b := b) (pre := l.take r.lo) (m := (l.take (r.hi l.length)).drop r.lo)
    (post := l.drop (r.hi l.length)) (by rw [e3]; exact h)
  rw [e1, e2] at this
  exact this

theorem sliceBuf_bad (p : SliceProg α β) {r : Spec.Range} {b : Buf α} {l : List α} (h : BRep b l)
    (hr : ¬ r.Within l.length) : sliceBuf c r p b = .panic b := by
  have hb : Buf.getLen b = .ok l.length b := by rw [Buf.getLen_apply, h.len]
  unfold sliceBuf
  rw [M.bind_ok hb, M.bind_panic (rangeOf_bad hr b)]

theorem Rep.length_le {v : VecH} {w : World α} {l : List α} (hs : c.size ≠ 0) (h : Rep c v w l) :
    l.length ≤ c.usizeMax := by
  rcases h.buf with ⟨_, _, h0⟩ | ⟨p, b, rest, _, _, _, _, h4, h5, _, h7⟩
  · simp [h0]
  · have := Fits.le_usize hs h7
    rw [h4] at h5
    simp at h5
    omega

theorem onBuf_ended {m : M (Buf α) β} {s : VSt α} {e : SliceEnd β} {P : Buf α → Prop} {Q : VSt α → Prop}
    (h : Ended e (m (bufOf c s)) P) (hq : ∀ b, P b → Q (putBuf s b)) : Ended e (Vec.onBuf c m s) Q := by
  rw [onBuf_eq]
  generalize m (bufOf c s) = r at h ⊢
  cases e <;> cases r <;> simp only [Ended] at h ⊢
  · exact ⟨h.1, hq _ h.2⟩
  · exact hq _ h

/-- C129. Whatever client code does with the part of a vector that a range selects, it does exactly to that part
of the list: nothing else changes, no memory is requested, and the code ends as it does on the list. -/
theorem C129_vec {s : VSt α} {l : List α} (hs : c.size ≠ 0) (h : Rep c s.self s.w l) (hw : s.w.WF)
    (p : SliceProg α β) {r : Spec.Range} (hr : r.Within l.length) :
    Ended (p.runIn c.dropPanics r l).1 (Vec.sliced c r p s) fun s' =>
      Trans c (p.runIn c.dropPanics r l).2.1 (p.runIn c.dropPanics r l).2.2 s s' ∧ s'.self = s.self ∧
      s'.w.tick = s.w.tick :=
  onBuf_ended (sliceBuf_buf hs p (h.brep hs) (h.length_le hs) hr) fun b hb =>
    ⟨putBuf_trans hs h hw hb.1, by simp [putBuf, hb.2, bufOf], by simp⟩

/-- C129. A range that does not lie within the vector is a panic, and nothing changes. -/
theorem C129_vec_bad {s : VSt α} {l : List α} (hs : c.size ≠ 0) (h : Rep c s.self s.w l) (p : SliceProg α β)
    {r : Spec.Range} (hr : ¬ r.Within l.length) : Vec.sliced c r p s = .panic s :=
  onBuf_panic (sliceBuf_bad p (h.brep hs) hr)

theorem SRep.length_le {v : SmallH α} {w : World α} {l : List α} (hs : c.size ≠ 0) (h : SRep c v w l) :
    l.length ≤ c.usizeMax := by
  cases hst : v.store with
  | stack slots len =>
    obtain ⟨_, h2, rest, h3⟩ := h.stack _ _ hst
    have := Fits.le_usize hs h.fits
    rw [h3] at h2
    simp at h2
    omega
  | heap u => exact (h.heap u hst).length_le hs

/-- C129 for `SmallVec`, wherever its elements are. -/
theorem C129_small {s : SSt α} {l : List α} (hs : c.size ≠ 0) (h : SRep c s.self s.w l) (hw : s.w.WF)
    (p : SliceProg α β) {r : Spec.Range} (hr : r.Within l.length) :
    Ended (p.runIn c.dropPanics r l).1 (Small.sliced c r p s) fun s' =>
      STrans c (p.runIn c.dropPanics r l).2.1 (p.runIn c.dropPanics r l).2.2 s s' ∧
      Small.capacity c s'.self = Small.capacity c s.self ∧ Small.isHeap s'.self = Small.isHeap s.self ∧
      s'.w.tick = s.w.tick := by
  unfold Small.sliced Small.onAny
  cases hst : s.self.store with
  | stack slots len =>
    have := sliceBuf_buf hs p (h.brep hst) (h.length_le hs) hr
    rw [onStore_stack hst]
    generalize sliceBuf c r p (s.stackBuf slots len) = res at this ⊢
    generalize (p.runIn c.dropPanics r l).1 = e at this ⊢
    cases e <;> cases res <;> simp only [Ended] at this ⊢
    · exact ⟨this.1, putStack_trans h hw hst this.2.1, by simp [Small.capacity, St.putStack, hst],
        by simp [Small.isHeap, St.putStack, hst], rfl⟩
    · exact ⟨putStack_trans h hw hst this.1, by simp [Small.capacity, St.putStack, hst],
        by simp [Small.isHeap, St.putStack, hst], rfl⟩
  | heap v =>
    have := C129_vec (s := ⟨v, s.w⟩) hs (h.heap v hst) hw p hr
    unfold Vec.sliced at this
    rw [onStore_heap hst]
    generalize Vec.onBuf c (sliceBuf c r p) ⟨v, s.w⟩ = res at this ⊢
    generalize (p.runIn c.dropPanics r l).1 = e at this ⊢
    cases e <;> cases res <;> simp only [Ended] at this ⊢
    · obtain ⟨h1, h2, h3, h4⟩ := this
      exact ⟨h1, putHeap_trans h hst h2, by simp [Small.capacity, St.putHeap, hst, h3],
        by simp [Small.isHeap, St.putHeap, hst], h4⟩
    · obtain ⟨h2, h3, h4⟩ := this
      exact ⟨putHeap_trans h hst h2, by simp [Small.capacity, St.putHeap, hst, h3],
        by simp [Small.isHeap, St.putHeap, hst], h4⟩

/-- C129 for `SmallVec`: a range that does not lie within the vector. -/
theorem C129_small_bad {s : SSt α} {l : List α} (hs : c.size ≠ 0) (h : SRep c s.self s.w l) (p : SliceProg α β)
    {r : Spec.Range} (hr : ¬ r.Within l.length) : Small.sliced c r p s = .panic s := by
  unfold Small.sliced Small.onAny
  cases hst : s.self.store with
  | stack slots len => rw [onStore_stack hst, sliceBuf_bad p (h.brep hst) hr]; simp [putStack_self hst]
  | heap v =>
    rw [onStore_heap hst, onBuf_panic (sliceBuf_bad p ((h.heap v hst).brep (s := ⟨v, s.w⟩) hs) hr)]
    simp [putHeap_self hst]

/-- C129 for boxed slices. -/
theorem C129_box {s : St Vec.BoxSliceH α} {l : List α} (hs : c.size ≠ 0) (h : BoxRep c s.self s.w l) (hl : l ≠ [])
    (hf : c.Fits l.length) (hw : s.w.WF) (p : SliceProg α β) {r : Spec.Range} (hr : r.Within l.length) :
    Ended (p.runIn c.dropPanics r l).1 (Vec.boxSliced c r p s) fun s' =>
      BoxRep c s'.self s'.w (p.runIn c.dropPanics r l).2.1 ∧ s'.self = s.self ∧ s'.w.WF ∧
      s'.w.log.drops = s.w.log.drops ++ (p.runIn c.dropPanics r l).2.2 ∧
      (∀ q, some q ≠ s.self.ptr → s'.w.heap q = s.w.heap q) ∧ s'.w.tick = s.w.tick := by
  have hlen : (p.runIn c.dropPanics r l).2.1.length = l.length := by
    obtain ⟨h1, h2⟩ := hr
    simp [SliceProg.runIn, slice_length]
    omega
  have key : ∀ s' : VSt α, (Trans c (p.runIn c.dropPanics r l).2.1 (p.runIn c.dropPanics r l).2.2
        ⟨Vec.ofBoxedSlice s.self, s.w⟩ s' ∧ s'.self = Vec.ofBoxedSlice s.self ∧ s'.w.tick = s.w.tick) →
      BoxRep c s.self s'.w (p.runIn c.dropPanics r l).2.1 ∧ True ∧ s'.w.WF ∧
      s'.w.log.drops = s.w.log.drops ++ (p.runIn c.dropPanics r l).2.2 ∧
      (∀ q, some q ≠ s.self.ptr → s'.w.heap q = s.w.heap q) ∧ s'.w.tick = s.w.tick := by
    rintro s' ⟨t, e, ht⟩
    have hrep := t.rep
    rw [e] at hrep
    refine ⟨?_, trivial, t.wf, t.drops, fun q hq => t.own.frame q hq (by rw [e]; exact hq), ht⟩
    refine hrep.boxed ?_ (by rw [hlen]; exact h.len)
    intro h0
    rw [h0] at hlen
    exact hl (List.length_eq_zero_iff.mp hlen.symm)
  have := C129_vec (s := ⟨Vec.ofBoxedSlice s.self, s.w⟩) hs (h.rep hl hf) hw p hr
  unfold Vec.sliced at this
  unfold Vec.boxSliced
  generalize Vec.onBuf c (sliceBuf c r p) ⟨Vec.ofBoxedSlice s.self, s.w⟩ = res at this ⊢
  generalize (p.runIn c.dropPanics r l).1 = e at this ⊢
  cases e <;> cases res <;> simp only [Ended] at this ⊢
  · exact ⟨this.1, key _ this.2⟩
  · exact key _ this

/-- C129 for boxed slices: a range that does not lie within the slice. -/
theorem C129_box_bad {s : St Vec.BoxSliceH α} {l : List α} (hs : c.size ≠ 0) (h : BoxRep c s.self s.w l) (hl : l ≠ [])
    (hf : c.Fits l.length) (p : SliceProg α β) {r : Spec.Range} (hr : ¬ r.Within l.length) :
    Vec.boxSliced c r p s = .panic s := by
  have := C129_vec_bad (s := ⟨Vec.ofBoxedSlice s.self, s.w⟩) hs (h.rep hl hf) p hr
  unfold Vec.sliced at this
  unfold Vec.boxSliced
  rw [this]

/-- C129 for the elements that a by-value iterator has not yielded yet: it goes on with the changed ones. -/
theorem C129_iter {s : St Vec.IntoIterH α} {m : List α} (hs : c.size ≠ 0) (h : IRep c s m) (p : SliceProg α β)
    {r : Spec.Range} (hr : r.Within m.length) :
    Ended (p.runIn c.dropPanics r m).1 (Vec.iterSliced c r p s) fun s' =>
      IRep c s' (p.runIn c.dropPanics r m).2.1 ∧ s'.self = s.self ∧
      s'.w.log.drops = s.w.log.drops ++ (p.runIn c.dropPanics r m).2.2 ∧
      (∀ q, some q ≠ s.self.vec.ptr → s'.w.heap q = s.w.heap q) ∧ s'.w.tick = s.w.tick := by
  obtain ⟨⟨l, h1, h2, h3⟩, hw⟩ := h
  have hm : m.length = l.length - s.self.index := by rw [← h3]; simp
  have hn : m.length ≤ c.usizeMax := by have := h1.length_le hs; omega
  unfold Vec.iterSliced
  rw [M.bind_ok (M.get_apply s), M.bind_ok (usub_eq (by rw [h1.len]; exact h2)), h1.len, ← hm]
  rw [M.bind_ok (rangeOf_ok hn hr s)]
  obtain ⟨g1, g2⟩ := hr
  have e1 : (l.take s.self.index ++ m.take r.lo).length = s.self.index + r.lo := by simp; omega
  have e2 : ((m.take (r.hi m.length)).drop r.lo).length = r.hi m.length - r.lo := by simp; omega
  have e3 : l.take s.self.index ++ m.take r.lo ++ (m.take (r.hi m.length)).drop r.lo ++ m.drop (r.hi m.length) = l := by
    have : m.take r.lo = (m.take (r.hi m.length)).take r.lo := by rw [List.take_take, Nat.min_eq_left g1]
    rw [List.append_assoc (l.take _), this, List.take_append_drop, List.append_assoc, List.take_append_drop, ← h3,
      List.take_append_drop]
  have hb := Rep.brep (s := ⟨s.self.vec, s.w⟩) hs h1
  have hrun := runSlice_buf (c := c) hs p (b := bufOf c ⟨s.self.vec, s.w⟩) (pre := l.take s.self.index ++ m.take r.lo)
    (m := (m.take (r.hi m.length)).drop r.lo) (post := m.drop (r.hi m.length)) (by rw [e3]; exact hb)
  rw [e1, e2] at hrun
  have hon := onBuf_ended (s := ⟨s.self.vec, s.w⟩) (Q := fun s' => Trans c (l.take s.self.index ++ m.take r.lo ++
      (p.run c.dropPanics ((m.take (r.hi m.length)).drop r.lo)).2.1 ++ m.drop (r.hi m.length))
      (p.runIn c.dropPanics r m).2.2 ⟨s.self.vec, s.w⟩ s' ∧ s'.self = s.self.vec ∧ s'.w.tick = s.w.tick) hrun
    fun b hb => ⟨putBuf_trans hs h1 hw hb.1, by simp [putBuf, hb.2, bufOf], by simp⟩
  have key : ∀ s' : VSt α, (Trans c (l.take s.self.index ++ m.take r.lo ++
      (p.run c.dropPanics ((m.take (r.hi m.length)).drop r.lo)).2.1 ++ m.drop (r.hi m.length))
      (p.runIn c.dropPanics r m).2.2 ⟨s.self.vec, s.w⟩ s' ∧ s'.self = s.self.vec ∧ s'.w.tick = s.w.tick) →
      IRep c ⟨⟨s'.self, s.self.index⟩, s'.w⟩ (p.runIn c.dropPanics r m).2.1 ∧
      (⟨s'.self, s.self.index⟩ : Vec.IntoIterH) = s.self ∧
      s'.w.log.drops = s.w.log.drops ++ (p.runIn c.dropPanics r m).2.2 ∧
      (∀ q, some q ≠ s.self.vec.ptr → s'.w.heap q = s.w.heap q) ∧ s'.w.tick = s.w.tick := by
    rintro s' ⟨t, e, ht⟩
    refine ⟨⟨⟨_, t.rep, ?_, ?_⟩, t.wf⟩, by rw [e], t.drops,
      fun q hq => t.own.frame q hq (by rw [e]; exact hq), ht⟩
    · simp; omega
    · have e4 : (l.take s.self.index).length = s.self.index := by simp; omega
      simp only [List.append_assoc]
      rw [List.drop_left' e4]
      simp [SliceProg.runIn]
  unfold Vec.onVec onPart
  dsimp only
  generalize Vec.onBuf c (runSlice c (s.self.index + r.lo) (r.hi m.length - r.lo) p) ⟨s.self.vec, s.w⟩ = res at hon ⊢
  change Ended (p.runIn c.dropPanics r m).1 _ _ at hon
  generalize (p.runIn c.dropPanics r m).1 = e at hon ⊢
  cases e <;> cases res <;> simp only [Ended] at hon ⊢
  · exact ⟨hon.1, key _ hon.2⟩
  · exact key _ hon

/-- C129 for iterators: a range that does not lie within what is left. -/
theorem C129_iter_bad {s : St Vec.IntoIterH α} {m : List α} (h : IRep c s m) (p : SliceProg α β)
    {r : Spec.Range} (hr : ¬ r.Within m.length) : Vec.iterSliced c r p s = .panic s := by
  obtain ⟨⟨l, h1, h2, h3⟩, hw⟩ := h
  have hm : m.length = l.length - s.self.index := by rw [← h3]; simp
  unfold Vec.iterSliced
  rw [M.bind_ok (M.get_apply s), M.bind_ok (usub_eq (by rw [h1.len]; exact h2)), h1.len, ← hm,
    M.bind_panic (rangeOf_bad hr s)]

/-- C129. Code that only moves elements around leaves a permutation of them and drops nothing. -/
theorem C129_permutes (dp : α → Bool) {p : SliceProg α β} (hp : p.Moves) {r : Spec.Range} {l : List α}
    (hr : r.Within l.length) :
    (p.runIn dp r l).2.1.Perm l ∧ (p.runIn dp r l).2.2 = [] := by
  have key : ∀ m : List α, (p.run dp m).2.1.Perm m ∧ (p.run dp m).2.2 = [] := by
    clear hr
    induction p with
    | ret v => exact fun m => ⟨.refl _, rfl⟩
    | panic => exact fun m => ⟨.refl _, rfl⟩
    | len k ih => exact fun m => ih _ (hp _) m
    | look i k ih =>
      intro m
      unfold SliceProg.run
      cases h : m[i]? with
      | none => exact ⟨.refl _, rfl⟩
      | some a => exact ih a (hp a) m
    | swap i j k ih =>
      intro m
      unfold SliceProg.run
      cases h : m[i]? with
      | none => exact ⟨.refl _, rfl⟩
      | some a =>
        cases h' : m[j]? with
        | none => exact ⟨.refl _, rfl⟩
        | some b =>
          obtain ⟨h1, h2⟩ := ih hp ((m.set i b).set j a)
          refine ⟨h1.trans ?_, h2⟩
          obtain ⟨hi, rfl⟩ := List.getElem?_eq_some_iff.mp h
          obtain ⟨hj, rfl⟩ := List.getElem?_eq_some_iff.mp h'
          exact List.set_set_perm hi hj
    | replace i a k ih => exact hp.elim
    | drop a k ih => exact hp.elim
  obtain ⟨h1, h2⟩ := hr
  refine ⟨?_, (key _).2⟩
  have e3 : l.take r.lo ++ (l.take (r.hi l.length)).drop r.lo ++ l.drop (r.hi l.length) = l := by
    have : l.take r.lo = (l.take (r.hi l.length)).take r.lo := by rw [List.take_take, Nat.min_eq_left h1]
    rw [this, List.take_append_drop, List.take_append_drop]
  conv_rhs => rw [← e3]
  exact ((List.Perm.refl _).append (key _).1).append (.refl _)

/-! ### Examples -/

/-- Reverse a slice of three: what `slice::reverse` does. -/
def flip3 : SliceProg Nat Nat := .len fun n => .swap 0 (n - 1) (.look 0 .ret)

/-- Put 5 in the second place, drop what was there, and look at the fourth element. -/
def put5 : SliceProg Nat Nat := .replace 1 5 fun old => .drop old (.look 3 .ret)

/-- The elements at the first four places of block 0, and what was dropped. -/
def showSlice {σ β : Type} (w : σ → World Nat) : Res σ β → Option (Option β × List (Option Nat) × List Nat)
  | .ok b s => some (some b, ((w s).slots (some 0)).take 4, (w s).log.drops)
  | .panic s => some (none, ((w s).slots (some 0)).take 4, (w s).log.drops)
  | _ => none

/-- `v[1..].reverse()`. -/
example : showSlice (·.w) (Vec.sliced cfg64 (.from 1) flip3 (stored cfg64 [6, 7, 8, 9] 5)) =
    some (some 9, [some 6, some 9, some 8, some 7], []) := by decide +kernel

/-- Index 3 is outside `v[1..=3]`: a panic after the replacement. -/
example : showSlice (·.w) (Vec.sliced cfg64 (.incl 1 3) put5 (stored cfg64 [6, 7, 8, 9] 5)) =
    some (none, [some 6, some 7, some 5, some 9], [8]) := by decide +kernel

/-- On the whole vector it is not. -/
example : showSlice (·.w) (Vec.sliced cfg64 .full put5 (stored cfg64 [6, 7, 8, 9] 5)) =
    some (some 9, [some 6, some 5, some 8, some 9], [7]) := by decide +kernel

/-- `v[3..2]` and `v[..=4]` panic. -/
example : [Range.range 3 2, .toIncl 4].map (fun r =>
      showSlice (·.w) (Vec.sliced cfg64 r flip3 (stored cfg64 [6, 7, 8, 9] 5))) =
    [some (none, [some 6, some 7, some 8, some 9], []), some (none, [some 6, some 7, some 8, some 9], [])] := by
  decide +kernel

/-- What C129 says of the vector above, from its hypotheses. -/
example : Ended (.ret 9) (Vec.sliced cfg64 (.from 1) flip3 (stored cfg64 [6, 7, 8, 9] 5)) fun s' =>
    Rep cfg64 s'.self s'.w [6, 9, 8, 7] ∧ s'.w.log.drops = [] := by
  have := C129_vec (c := cfg64) (by decide) (stored_rep (l := [6, 7, 8, 9]) (cap := 5) (by decide) (by decide) (by decide))
    stored_wf flip3 (r := .from 1) (by decide)
  exact this.mono fun s' h => ⟨h.1.rep, h.1.drops⟩

/-- A small vector on the stack and one on the heap. -/
example : Ended (.ret 9) (Small.sliced cfg64 .full flip3 (inline [7, 8, 9] 4 none world0)) fun s' =>
    SRep cfg64 s'.self s'.w [9, 8, 7] ∧ Small.isHeap s'.self = false := by
  have := C129_small (c := cfg64) (by decide) (inline_rep (l := [7, 8, 9]) (n := 4) (m := none) (w := world0)
    (by decide) (by decide)) world0_wf flip3 (r := .full) (by decide)
  exact this.mono fun s' h => ⟨h.1.rep, h.2.2.1⟩

example : Ended (.ret 9) (Small.sliced cfg64 (.range 0 3) flip3 (spilled cfg64 [7, 8, 9] 2 4)) fun s' =>
    SRep cfg64 s'.self s'.w [9, 8, 7] ∧ Small.isHeap s'.self = true := by
  have := C129_small (c := cfg64) (by decide) (spilled_rep (l := [7, 8, 9]) (n := 2) (cap := 4) (by decide) (by decide)
    (by decide) (by decide)) stored_wf flip3 (r := .range 0 3) (by decide)
  exact this.mono fun s' h => ⟨h.1.rep, h.2.2.1⟩

/-- An iterator that has yielded 7 already: the rest, reversed, comes next. -/
example : lookIter ((do let a ← nexts cfg64 1; let _ ← Vec.iterSliced cfg64 .full flip3; let b ← nexts cfg64 3
                        pure (a ++ b)) iter789) = some ([some 7, some 9, some 8, none], [], true) := by decide +kernel

/-- A boxed slice. -/
example : showSlice (·.w) (Vec.boxSliced cfg64 .full flip3 ⟨⟨some 0, 3, 0, none⟩, (stored cfg64 [7, 8, 9] 3).w⟩) =
    some (some 9, [some 9, some 8, some 7], []) := by decide +kernel

/-- Reversing only moves elements. -/
example : flip3.Moves := fun _ _ => trivial

end Lokky
