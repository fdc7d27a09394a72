import Verif.Proofs.SmallOps

/-!
# Bulk operations of `SmallVec`: extend, resize, append, split, and the constructors
-/

namespace Lokky
variable {α : Type} {c : Cfg α}

/-! ## extend -/

/-- A clone panicked, or there was no memory to push a clone. -/
def SClonePanic (c : Cfg α) (l xs : List α) (s s' : SSt α) : Prop :=
  ∃ pre a post ys, xs = pre ++ a :: post ∧ Cloned c pre ys ∧
    (((∃ k, c.clone k a = none) ∧ STrans c (l ++ ys) [] s s' ∧ s'.w.refusals = s.w.refusals) ∨
     (∃ b, (∃ k, c.clone k a = some b) ∧ STrans c (l ++ ys) [b] s s' ∧
        s'.w.refusals = s.w.refusals + 1))

theorem spushClones_spec {s : SSt α} {l : List α} (hs : c.size ≠ 0) (h : SRep c s.self s.w l)
    (hw : s.w.WF) (xs : List α) (hf : c.Fits (l.length + xs.length + Vec.minNonZeroCap c)) :
    Sat c (Small.pushClones c xs s)
      (fun _ s' => ∃ ys, Cloned c xs ys ∧ STrans c (l ++ ys) [] s s' ∧
        s'.w.refusals = s.w.refusals)
      (SClonePanic c l xs s) := by
  induction xs generalizing s l with
  | nil => exact ⟨[], .nil, by simpa using STrans.refl h hw, rfl⟩
  | cons a xs ih =>
    rw [Small.pushClones]
    simp only [List.length_cons] at hf
    refine Sat.bind' (onLog_sat (cloneVal_spec a s.w.log)) ?_ ?_
    · rintro s' ⟨g, ⟨h1, rfl⟩, rfl⟩
      refine ⟨[], a, xs, [], rfl, .nil, Or.inl ⟨⟨_, h1⟩, ?_, rfl⟩⟩
      have := (STrans.refl h hw).setLog (g := { s.w.log with calls := s.w.log.calls + 1 })
        (d' := []) (by simp)
      simpa using this
    · rintro b s' ⟨g, ⟨h1, rfl⟩, rfl⟩
      have t0 := (STrans.refl h hw).setLog (g := { s.w.log with calls := s.w.log.calls + 1 })
        (d' := []) (by simp)
      refine Sat.bind' (spush_spec hs t0.rep t0.wf (Fits.mono hf (by omega)) b) ?_ ?_
      · rintro s'' ⟨h2, h3, _⟩
        refine ⟨[], a, xs, [], rfl, .nil, Or.inr ⟨b, ⟨_, h1⟩, ?_, h3⟩⟩
        simpa using t0.trans hw h2
      · rintro _ s'' ⟨e2, _⟩
        have t1 := t0.trans hw e2.trans
        refine (ih e2.trans.rep e2.trans.wf (Fits.mono hf (by simp; omega))).mono ?_ ?_
        · rintro _ s3 ⟨ys, h3, h4, h5⟩
          refine ⟨b :: ys, .cons _ h1 h3, ?_, h5.trans e2.refusals⟩
          simpa using t1.trans hw h4
        · rintro s3 ⟨pre, a', post, ys, rfl, h3, h4⟩
          refine ⟨a :: pre, a', post, b :: ys, rfl, .cons _ h1 h3, ?_⟩
          rcases h4 with ⟨h4, h5, h6⟩ | ⟨b', h4, h5, h6⟩
          · refine Or.inl ⟨h4, ?_, h6.trans e2.refusals⟩
            simpa using t1.trans hw h5
          · refine Or.inr ⟨b', h4, ?_, by rw [h6, e2.refusals]; rfl⟩
            simpa using t1.trans hw h5

theorem sextendFromSlice_spec {s : SSt α} {l : List α} (hs : c.size ≠ 0)
    (h : SRep c s.self s.w l) (hw : s.w.WF) (xs : List α)
    (hf : c.Fits (l.length + xs.length + Vec.minNonZeroCap c)) :
    Sat c (Small.extendFromSlice c xs s)
      (fun _ s' => ∃ ys, Cloned c xs ys ∧ STrans c (l ++ ys) [] s s' ∧
        s'.w.refusals = s.w.refusals)
      (fun s' => s' = s.refuse ∨ SClonePanic c l xs s s') := by
  unfold Small.extendFromSlice
  refine Sat.bind' (sreserve_spec hs h hw hf) ?_ ?_
  · rintro s' ⟨h1, _⟩; exact Or.inl h1
  · rintro _ s' ⟨h1, _⟩
    refine (spushClones_spec hs h1.trans.rep h1.trans.wf xs hf).mono ?_ ?_
    · rintro _ s3 ⟨ys, h3, h4, h5⟩
      exact ⟨ys, h3, h1.trans.trans hw h4, h5.trans h1.refusals⟩
    · rintro s3 ⟨pre, a', post, ys, h0, h3, h4⟩
      refine Or.inr ⟨pre, a', post, ys, h0, h3, ?_⟩
      rcases h4 with ⟨h4, h5, h6⟩ | ⟨b', h4, h5, h6⟩
      · exact Or.inl ⟨h4, h1.trans.trans hw h5, h6.trans h1.refusals⟩
      · exact Or.inr ⟨b', h4, h1.trans.trans hw h5, by rw [h6, h1.refusals]⟩

/-- The iterator panicked at its end, or memory was refused on the way. -/
def SIterPanic (c : Cfg α) (l : List α) (it : Iter α) (s s' : SSt α) : Prop :=
  (it.boom = true ∧ STrans c (l ++ it.items) [] s s' ∧ s'.w.refusals = s.w.refusals) ∨
  (∃ pre post, it.items = pre ++ post ∧ STrans c (l ++ pre) post s s' ∧
    s'.w.refusals = s.w.refusals + 1)

theorem spushItems_spec {s : SSt α} {l : List α} (hs : c.size ≠ 0) (h : SRep c s.self s.w l)
    (hw : s.w.WF) (boom : Bool) (xs : List α)
    (hf : c.Fits (l.length + xs.length + Vec.minNonZeroCap c)) :
    Sat c (Small.pushItems c boom xs s)
      (fun _ s' => boom = false ∧ STrans c (l ++ xs) [] s s' ∧ s'.w.refusals = s.w.refusals)
      (fun s' => (boom = true ∧ STrans c (l ++ xs) [] s s' ∧ s'.w.refusals = s.w.refusals) ∨
        (∃ pre post, xs = pre ++ post ∧ STrans c (l ++ pre) post s s' ∧
          s'.w.refusals = s.w.refusals + 1)) := by
  induction xs generalizing s l with
  | nil =>
    rw [Small.pushItems]
    cases boom
    · exact ⟨rfl, by simpa using STrans.refl h hw, rfl⟩
    · exact Or.inl ⟨rfl, by simpa using STrans.refl h hw, rfl⟩
  | cons a xs ih =>
    rw [Small.pushItems]
    simp only [List.length_cons] at hf
    refine Sat.bind (Q := fun _ s' => SReserved c (l ++ [a]) s s') ?_ ?_
    · refine Sat.onUnwind ((spush_spec hs h hw (Fits.mono hf (by omega)) a).mono
        (fun _ _ h => h.1) (fun _ h => h)) ?_
      rintro s' ⟨h1, h2, _⟩
      refine (STrans.dropVals xs h1).mono ?_ (fun _ h => ⟨_, h.2.2.choose_spec.2⟩)
      rintro _ s'' ⟨h3, rfl⟩
      exact Or.inr ⟨[], a :: xs, rfl, by simpa using h3, h2⟩
    · rintro _ s' h1
      refine (ih h1.trans.rep h1.trans.wf (Fits.mono hf (by simp; omega))).mono ?_ ?_
      · rintro _ s3 ⟨h3, h4, h5⟩
        refine ⟨h3, ?_, h5.trans h1.refusals⟩
        simpa using h1.trans.trans hw h4
      · rintro s3 (⟨h3, h4, h5⟩ | ⟨pre, post, rfl, h4, h5⟩)
        · refine Or.inl ⟨h3, ?_, h5.trans h1.refusals⟩
          simpa using h1.trans.trans hw h4
        · refine Or.inr ⟨a :: pre, post, rfl, ?_, ?_⟩
          · simpa using h1.trans.trans hw h4
          · rw [h5, h1.refusals]

theorem sextendFromIter_spec {s : SSt α} {l : List α} (hs : c.size ≠ 0)
    (h : SRep c s.self s.w l) (hw : s.w.WF) (it : Iter α)
    (hf : c.Fits (l.length + it.items.length + Vec.minNonZeroCap c))
    (hf2 : c.Fits (l.length + it.hint + Vec.minNonZeroCap c)) :
    Sat c (Small.extendFromIter c it s)
      (fun _ s' => it.boom = false ∧ STrans c (l ++ it.items) [] s s' ∧
        s'.w.refusals = s.w.refusals)
      (SIterPanic c l it s) := by
  unfold Small.extendFromIter
  refine Sat.bind (Q := fun _ s' => SReserved c l s s') ?_ ?_
  · refine Sat.onUnwind ((sreserve_spec hs h hw hf2).mono (fun _ _ h => h.1) (fun _ h => h)) ?_
    rintro s' ⟨rfl, _, _⟩
    refine (STrans.dropVals it.items (STrans.refuse h hw)).mono ?_
      (fun _ h => ⟨_, h.2.2.choose_spec.2⟩)
    rintro _ s'' ⟨h2, rfl⟩
    exact Or.inr ⟨[], it.items, rfl, by simpa using h2, rfl⟩
  · rintro _ s' h1
    refine (spushItems_spec hs h1.trans.rep h1.trans.wf it.boom it.items hf).mono ?_ ?_
    · rintro _ s3 ⟨h3, h4, h5⟩
      exact ⟨h3, h1.trans.trans hw h4, h5.trans h1.refusals⟩
    · rintro s3 (⟨h3, h4, h5⟩ | ⟨pre, post, h0, h4, h5⟩)
      · exact Or.inl ⟨h3, h1.trans.trans hw h4, h5.trans h1.refusals⟩
      · exact Or.inr ⟨pre, post, h0, h1.trans.trans hw h4, by rw [h5, h1.refusals]⟩

/-! ## resize -/

theorem stackPush_buf {b : Buf α} {l : List α} (hs : c.size ≠ 0) (h : BRep b l)
    (hc : l.length < b.cap) (a : α) :
    ∃ b', Stack.push c a b = .ok () b' ∧ BTrans (l ++ [a]) [] b b' ∧ b'.log = b.log := by
  have hne : b.len ≠ b.cap := by rw [h.len]; omega
  unfold Stack.push
  rw [M.bind_ok (M.onUnwind_ok (s' := b) (a := ()) (by
    rw [M.bind_ok (M.get_apply b), debugAssert_pos hne]))]
  exact uncheckedPush_buf hs h hc a

theorem BTrans.trans' {b b' b'' : Buf α} {l l' d d' : List α} (h : BTrans l d b b')
    (h' : BTrans l' d' b' b'') : BTrans l' (d ++ d') b b'' :=
  ⟨h'.rep, h'.cap.trans h.cap, by rw [h'.drops, h.drops, List.append_assoc]⟩

theorem stackPushCalls_buf {b : Buf α} {l : List α} (hs : c.size ≠ 0) (h : BRep b l)
    (f : Nat → Option α) (n k : Nat) (hc : l.length + n ≤ b.cap) :
    Sat c (Stack.pushCalls c f k n b)
      (fun _ b' => ∃ ys, (List.range' k n).map f = ys.map some ∧ BTrans (l ++ ys) [] b b')
      (fun b' => ∃ m ys, m < n ∧ (List.range' k m).map f = ys.map some ∧ f (k + m) = none ∧
        BTrans (l ++ ys) [] b b') := by
  induction n generalizing b l k with
  | zero => exact ⟨[], rfl, ⟨by simpa using h, rfl, by simp⟩⟩
  | succ n ih =>
    rw [Stack.pushCalls]
    cases hf : f k with
    | none => exact ⟨0, [], by omega, rfl, hf, ⟨by simpa using h, rfl, by simp⟩⟩
    | some a =>
      simp only
      obtain ⟨b', e1, e2, e3⟩ := stackPush_buf hs h (by omega) a
      rw [M.bind_ok e1]
      refine (ih e2.rep (k + 1) (by rw [e2.cap]; simp; omega)).mono ?_ ?_
      · rintro _ b3 ⟨ys, h3, h4⟩
        refine ⟨a :: ys, ?_, ?_⟩
        · simp [List.range'_succ, hf, h3]
        · simpa using e2.trans' h4
      · rintro b3 ⟨m, ys, hm, h3, h4, h5⟩
        refine ⟨m + 1, a :: ys, by omega, ?_, ?_, ?_⟩
        · simp [List.range'_succ, hf, h3]
        · rw [← h4]; congr 1; omega
        · simpa using e2.trans' h5

/-- `resize_with`: an inline vector can only grow, and only within `N`. -/
theorem sresizeWith_spec {s : SSt α} {l : List α} (hs : c.size ≠ 0) (h : SRep c s.self s.w l)
    (hw : s.w.WF) (f : Nat → Option α) (k : Nat)
    (hst : Small.isHeap s.self = false → l.length ≤ k ∧ k ≤ s.self.n)
    (hf : l.length < k → c.Fits k) :
    Sat c (Small.resizeWith c k f s)
      (fun _ s' => s'.w.refusals = s.w.refusals ∧
        ((k ≤ l.length ∧ STrans c (l.take k) (l.drop k) s s') ∨
        (l.length < k ∧ ∃ ys, (List.range (k - l.length)).map f = ys.map some ∧
          STrans c (l ++ ys) [] s s')))
      (fun s' => (k ≤ l.length ∧ STrans c (l.take k) (l.drop k) s s' ∧
          s'.w.refusals = s.w.refusals ∧ ∃ a ∈ l.drop k, c.dropPanics a = true) ∨
        (l.length < k ∧ s' = s.refuse) ∨
        (l.length < k ∧ s'.w.refusals = s.w.refusals ∧ ∃ m ys, m < k - l.length ∧
          (List.range m).map f = ys.map some ∧ f m = none ∧ STrans c (l ++ ys) [] s s')) := by
  cases hst' : s.self.store with
  | stack slots len =>
    obtain ⟨h1, h2⟩ := hst (by simp [Small.isHeap, hst'])
    have hb := h.brep hst'
    by_cases hk : k ≤ l.length
    · have e : Small.resizeWith c k f s = .ok () s := by
        refine onStore_look_stack hst' ?_
        unfold Stack.resizeWith
        rw [M.bind_ok (Buf.getLen_apply _), hb.len, if_pos hk]
        unfold Stack.truncate
        rw [M.bind_ok (Buf.getLen_apply _), hb.len, if_neg (by omega)]
        rfl
      rw [e]
      refine ⟨rfl, Or.inl ⟨hk, ?_⟩⟩
      rw [List.take_of_length_le h1, List.drop_of_length_le h1]
      exact .refl h hw
    · have hlt : l.length < k := by omega
      have key : Sat c (Stack.resizeWith c k f (s.stackBuf slots len))
          (fun _ b' => ∃ ys, (List.range (k - l.length)).map f = ys.map some ∧
            BTrans (l ++ ys) [] (s.stackBuf slots len) b')
          (fun b' => ∃ m ys, m < k - l.length ∧ (List.range m).map f = ys.map some ∧
            f m = none ∧ BTrans (l ++ ys) [] (s.stackBuf slots len) b') := by
        unfold Stack.resizeWith
        rw [M.bind_ok (Buf.getLen_apply _), hb.len, if_neg hk]
        have hr : Stack.reserveExact c (k - l.length) (s.stackBuf slots len) =
            .ok () (s.stackBuf slots len) := by
          unfold Stack.reserveExact
          rw [M.bind_ok (M.get_apply _), hb.len]
          exact debugAssert_pos (by simp only [St.stackBuf]; omega)
        rw [M.bind_ok hr]
        refine (stackPushCalls_buf hs hb f (k - l.length) 0
          (by simp only [St.stackBuf]; omega)).mono ?_ ?_
        · rintro _ b' ⟨ys, h3, h4⟩
          exact ⟨ys, by rwa [List.range_eq_range'], h4⟩
        · rintro b' ⟨m, ys, h3, h4, h5, h6⟩
          exact ⟨m, ys, h3, by rwa [List.range_eq_range'], by simpa using h5, h6⟩
      refine stack_sat hst' key ?_ ?_
      · rintro _ b' ⟨ys, h3, h4⟩
        exact ⟨rfl, Or.inr ⟨hlt, ys, h3, putStack_trans h hw hst' h4⟩⟩
      · rintro b' ⟨m, ys, h3, h4, h5, h6⟩
        exact Or.inr (Or.inr ⟨hlt, rfl, m, ys, h3, h4, h5, putStack_trans h hw hst' h6⟩)
  | heap v =>
    refine heap_sat hst' (resizeWith_spec (s := ⟨v, s.w⟩) hs (h.heap v hst') hw f k hf) ?_ ?_
    · rintro _ t ⟨h1, (⟨h2, h3⟩ | ⟨h2, ys, h3, h4⟩)⟩
      · exact ⟨h1, Or.inl ⟨h2, putHeap_trans h hst' h3⟩⟩
      · exact ⟨h1, Or.inr ⟨h2, ys, h3, putHeap_trans h hst' h4⟩⟩
    · rintro t (⟨h1, h2, h3, h5⟩ | ⟨h1, rfl⟩ | ⟨h1, h2, m, ys, h3, h4, h5, h6⟩)
      · exact Or.inl ⟨h1, putHeap_trans h hst' h2, h3, h5⟩
      · exact Or.inr (Or.inl ⟨h1, putHeap_refuse hst'⟩)
      · exact Or.inr (Or.inr ⟨h1, h2, m, ys, h3, h4, h5, putHeap_trans h hst' h6⟩)

/-- Pushing clones into the inline buffer. -/
theorem stackPushCopies_buf {b : Buf α} {l : List α} (hs : c.size ≠ 0) (h : BRep b l)
    (a : α) (n : Nat) (hc : l.length + n ≤ b.cap) :
    Sat c (Stack.pushCopies c a n b)
      (fun _ b' => ∃ ys, Cloned c (List.replicate n a) ys ∧ BTrans (l ++ ys) [] b b')
      (fun b' => ∃ m ys, m < n ∧ Cloned c (List.replicate m a) ys ∧ (∃ j, c.clone j a = none) ∧
        BTrans (l ++ ys) [] b b') := by
  induction n generalizing b l with
  | zero => exact ⟨[], .nil, ⟨by simpa using h, rfl, by simp⟩⟩
  | succ n ih =>
    rw [Stack.pushCopies]
    refine Sat.bind' (Buf.onLog_sat (cloneVal_spec a b.log)) ?_ ?_
    · rintro b' ⟨g, ⟨h1, rfl⟩, rfl⟩
      exact ⟨0, [], by omega, .nil, ⟨_, h1⟩, ⟨by simpa using ⟨h.len, h.cap, h.holds⟩, rfl, by simp⟩⟩
    · rintro x b' ⟨g, ⟨h1, rfl⟩, rfl⟩
      have h0 : BRep { b with log := { b.log with calls := b.log.calls + 1 } } l :=
        ⟨h.len, h.cap, h.holds⟩
      have t0 : BTrans l [] b { b with log := { b.log with calls := b.log.calls + 1 } } :=
        ⟨h0, rfl, by simp⟩
      obtain ⟨b', e1, e2, e3⟩ := stackPush_buf hs h0 (by simp only; omega) x
      rw [M.bind_ok e1]
      have t1 := t0.trans' e2
      refine (ih e2.rep (by rw [e2.cap]; simp; omega)).mono ?_ ?_
      · rintro _ b3 ⟨ys, h3, h4⟩
        refine ⟨x :: ys, .cons _ h1 h3, ?_⟩
        simpa using t1.trans' h4
      · rintro b3 ⟨m, ys, hm, h3, h4, h5⟩
        refine ⟨m + 1, x :: ys, by omega, .cons _ h1 h3, h4, ?_⟩
        simpa using t1.trans' h5

/-- `StackVec::resize` to a length that is not smaller and fits. -/
theorem stackResize_buf {b : Buf α} {l : List α} (hs : c.size ≠ 0) (h : BRep b l) (k : Nat)
    (a : α) (hk : l.length ≤ k) (hc : k ≤ b.cap) :
    Sat c (Stack.resize c k a b)
      (fun _ b' => (k = l.length ∧ BTrans l [a] b b') ∨
        (l.length < k ∧ ∃ ys, Cloned c (List.replicate (k - l.length - 1) a) ys ∧
          BTrans (l ++ ys ++ [a]) [] b b'))
      (fun b' => (k = l.length ∧ BTrans l [a] b b' ∧ c.dropPanics a = true) ∨
        (l.length < k ∧ ∃ m ys, m < k - l.length - 1 ∧
          Cloned c (List.replicate m a) ys ∧ (∃ j, c.clone j a = none) ∧
          BTrans (l ++ ys) [a] b b')) := by
  unfold Stack.resize
  rw [M.bind_ok (Buf.getLen_apply b), h.len]
  by_cases hlt : l.length < k
  · rw [if_neg (by omega)]
    refine Sat.bind (Q := fun _ b' => ∃ ys, Cloned c (List.replicate (k - l.length - 1) a) ys ∧
      BTrans (l ++ ys) [] b b') ?_ ?_
    · refine Sat.onUnwind (Q := fun _ b' => ∃ ys,
          Cloned c (List.replicate (k - l.length - 1) a) ys ∧ BTrans (l ++ ys) [] b b')
        (E' := fun b' => ∃ m ys, m < k - l.length - 1 ∧ Cloned c (List.replicate m a) ys ∧
          (∃ j, c.clone j a = none) ∧ BTrans (l ++ ys) [] b b') ?_ ?_
      · have hr : Stack.reserveExact c (k - l.length) b = .ok () b := by
          unfold Stack.reserveExact
          rw [M.bind_ok (M.get_apply _), h.len]
          exact debugAssert_pos (by omega)
        rw [M.bind_ok hr]
        exact stackPushCopies_buf hs h a (k - l.length - 1) (by omega)
      · rintro b' ⟨m, ys, h1, h2, h3, h4⟩
        refine (Buf.onLog_sat (dropVal_spec (c := c) a b'.log)).mono ?_ ?_
        · rintro _ b'' ⟨g, ⟨rfl, _⟩, rfl⟩
          refine Or.inr ⟨hlt, m, ys, h1, h2, h3, ⟨h4.rep.len, h4.rep.cap, h4.rep.holds⟩, h4.cap, ?_⟩
          simp [Log.addDrops, h4.drops]
        · rintro b'' ⟨g, ⟨_, hp⟩, _⟩; exact ⟨_, hp⟩
    · rintro _ b' ⟨ys, h1, h2⟩
      have hy := h1.length
      simp only [List.length_replicate] at hy
      obtain ⟨b'', e1, e2, e3⟩ := stackPush_buf hs h2.rep (by rw [h2.cap]; simp; omega) a
      rw [e1]
      refine Or.inr ⟨hlt, ys, h1, ?_⟩
      simpa using h2.trans' e2
  · have hk' : k = l.length := by omega
    rw [if_pos (by omega)]
    have e : Stack.truncate c k b = .ok () b := by
      unfold Stack.truncate
      rw [M.bind_ok (Buf.getLen_apply _), h.len, if_neg (by omega)]
      rfl
    refine Sat.andAlways (Q := fun _ b' => b' = b) (E' := fun _ => False) (by rw [e]; exact rfl)
      (fun _ h => h.elim) ?_
    rintro b' rfl
    refine (Buf.onLog_sat (dropVal_spec (c := c) a b'.log)).mono ?_ ?_
    · rintro _ b'' ⟨g, ⟨rfl, _⟩, rfl⟩
      exact Or.inl ⟨hk', ⟨h.len, h.cap, h.holds⟩, rfl, rfl⟩
    · rintro b'' ⟨g, ⟨rfl, hp⟩, rfl⟩; exact Or.inl ⟨hk', ⟨⟨h.len, h.cap, h.holds⟩, rfl, rfl⟩, hp⟩

/-- `resize`: an inline vector can only grow, and beyond `N` only if the reservation makes it
spill. -/
theorem sresize_spec {s : SSt α} {l : List α} (hs : c.size ≠ 0) (h : SRep c s.self s.w l)
    (hw : s.w.WF) (k : Nat) (a : α)
    (hst : Small.isHeap s.self = false → l.length ≤ k ∧
      (s.self.n < k → s.self.n < l.length + extra c s.self (k - s.self.n)))
    (hf : c.Fits (l.length + k + Vec.minNonZeroCap c)) :
    Sat c (Small.resize c k a s)
      (fun _ s' => s'.w.refusals = s.w.refusals ∧
        ((k ≤ l.length ∧ STrans c (l.take k) (l.drop k ++ [a]) s s') ∨
        (l.length < k ∧ ∃ ys, Cloned c (List.replicate (k - l.length - 1) a) ys ∧
          STrans c (l ++ ys ++ [a]) [] s s')))
      (fun s' => (k ≤ l.length ∧ STrans c (l.take k) (l.drop k ++ [a]) s s' ∧
          s'.w.refusals = s.w.refusals ∧ ∃ x ∈ l.drop k ++ [a], c.dropPanics x = true) ∨
        (s'.w.refusals = s.w.refusals + 1 ∧ STrans c l [a] s s') ∨
        (l.length < k ∧ s'.w.refusals = s.w.refusals ∧ ∃ m ys, m < k - l.length - 1 ∧
          Cloned c (List.replicate m a) ys ∧ (∃ j, c.clone j a = none) ∧
          STrans c (l ++ ys) [a] s s')) := by
  unfold Small.resize
  refine Sat.bind (Q := fun _ s' => SReserved c l s s' ∧
    (Small.isHeap s'.self = false → s' = s ∧ k ≤ s.self.n)) ?_ ?_
  · refine Sat.onUnwind (Q := fun _ s' => SReserved c l s s' ∧
      (Small.isHeap s'.self = false → s' = s ∧ k ≤ s.self.n)) (E' := fun s' => s' = s.refuse) ?_ ?_
    · rw [M.bind_ok (M.get_apply s)]
      split
      · rename_i hlt
        refine (sreserve_spec hs h hw (Fits.mono hf (by omega))).mono ?_ (fun _ h => h.1)
        rintro _ s' ⟨h1, _, h3, h4⟩
        refine ⟨h1, fun h5 => ?_⟩
        exfalso
        have hsh : Small.isHeap s.self = false := by
          cases hh : s.self.store with
          | stack _ _ => simp [Small.isHeap, hh]
          | heap v =>
            obtain ⟨v', h6, _⟩ := h1.trans.place.heap v hh
            simp [Small.isHeap, h6] at h5
        have h6 := (hst hsh).2 hlt
        have hc : Small.capacity c s.self = s.self.n := by
          cases hh : s.self.store with
          | stack _ _ => simp [Small.capacity, hh]
          | heap v => simp [Small.isHeap, hh] at hsh
        obtain ⟨v, h7, _⟩ := h4 (by rw [hc]; exact h6)
        simp [Small.isHeap, h7] at h5
      · rename_i hlt
        exact ⟨.refl h hw, fun _ => ⟨rfl, by omega⟩⟩
    · rintro s' rfl
      refine (refuse_dropVal h hw a).mono ?_ (fun _ h => h)
      rintro _ s'' ⟨h3, h4⟩
      exact Or.inr (Or.inl ⟨h4, h3⟩)
  · rintro _ s' ⟨h1, h2⟩
    have hr := h1.trans.rep
    cases hst' : s'.self.store with
    | stack slots len =>
      obtain ⟨rfl, h3⟩ := h2 (by simp [Small.isHeap, hst'])
      have h4 := (hst (by simp [Small.isHeap, hst'])).1
      refine stack_sat hst' (stackResize_buf hs (h.brep hst') k a h4 h3) ?_ ?_
      · rintro _ b (⟨rfl, h5⟩ | ⟨h5, ys, h6, h7⟩)
        · refine ⟨rfl, Or.inl ⟨Nat.le_refl _, ?_⟩⟩
          simpa using putStack_trans h hw hst' h5
        · exact ⟨rfl, Or.inr ⟨h5, ys, h6, putStack_trans h hw hst' h7⟩⟩
      · rintro b (⟨rfl, h5, h6⟩ | ⟨h5, m, ys, h6, h7, h8, h9⟩)
        · refine Or.inl ⟨Nat.le_refl _, ?_, rfl, a, by simp, h6⟩
          simpa using putStack_trans h hw hst' h5
        · exact Or.inr (Or.inr ⟨h5, rfl, m, ys, h6, h7, h8, putStack_trans h hw hst' h9⟩)
    | heap v =>
      refine heap_sat hst' (resize_spec (s := ⟨v, s'.w⟩) hs (hr.heap v hst') h1.trans.wf k a
        (fun _ => Fits.mono hf (by omega))) ?_ ?_
      · rintro _ t ⟨h3, (⟨h4, h5⟩ | ⟨h4, ys, h5, h6⟩)⟩
        · refine ⟨h3.trans h1.refusals, Or.inl ⟨h4, ?_⟩⟩
          simpa using h1.trans.trans hw (putHeap_trans hr hst' h5)
        · exact ⟨h3.trans h1.refusals,
            Or.inr ⟨h4, ys, h5, h1.trans.trans hw (putHeap_trans hr hst' h6)⟩⟩
      · rintro t (⟨h2, h3, h4, h5⟩ | ⟨h4, h5, h6⟩ | ⟨h4, h5, m, ys, h6, h7, h8, h9⟩)
        · refine Or.inl ⟨h2, ?_, h4.trans h1.refusals, h5⟩
          simpa using h1.trans.trans hw (putHeap_trans hr hst' h3)
        · exact Or.inr (Or.inl ⟨by rw [putHeap_w, h5]; simp only [h1.refusals],
            h1.trans.trans hw (putHeap_trans hr hst' h6)⟩)
        · exact Or.inr (Or.inr ⟨h4, by rw [putHeap_w, h5]; exact h1.refusals, m, ys, h6, h7, h8,
            h1.trans.trans hw (putHeap_trans hr hst' h9)⟩)

/-! ## Setting the length -/

/-- The vector with another length. -/
def SmallH.withLen (v : SmallH α) (k : Nat) : SmallH α :=
  match v.store with
  | .stack slots _ => { v with store := .stack slots k }
  | .heap h => { v with store := .heap { h with len := k } }

@[simp] theorem SmallH.withLen_ptr (v : SmallH α) (k : Nat) : (v.withLen k).ptr = v.ptr := by
  cases h : v.store <;> simp [SmallH.withLen, SmallH.ptr, h]

theorem SRep.withLen {v : SmallH α} {w : World α} {l l' : List α} (hs : c.size ≠ 0)
    (h : SRep c v w l)
    (hsl : ∃ rest, Small.slotsOf v w = l'.map some ++ rest) (hc : l'.length ≤ Small.capacity c v) :
    SRep c (v.withLen l'.length) w l' := by
  cases hst : v.store with
  | stack slots len =>
    simp only [Small.slotsOf, hst] at hsl
    obtain ⟨_, h2, _⟩ := h.stack _ _ hst
    refine ⟨?_, ?_, ?_⟩
    · simpa [SmallH.withLen, hst] using h.fits
    · intro slots' len' e
      simp only [SmallH.withLen, hst, Store.stack.injEq] at e
      obtain ⟨rfl, rfl⟩ := e
      refine ⟨rfl, ?_, hsl⟩
      simpa [SmallH.withLen, hst] using h2
    · intro hv e; simp [SmallH.withLen, hst] at e
  | heap hv =>
    simp only [Small.slotsOf, hst] at hsl
    simp only [Small.capacity, hst, capacity_eq hs] at hc
    have hr := h.heap hv hst
    refine ⟨?_, ?_, ?_⟩
    · simpa [SmallH.withLen, hst] using h.fits
    · intro slots' len' e; simp [SmallH.withLen, hst] at e
    · intro hv' e
      simp only [SmallH.withLen, hst, Store.heap.injEq] at e
      subst e
      refine ⟨rfl, ?_⟩
      rcases hr.buf with ⟨h0, h1, _⟩ | ⟨p, b, rest, hp, hb, h1, h2, h3, h4, h5, h6⟩
      · refine Or.inl ⟨h0, h1, ?_⟩
        exact List.length_eq_zero_iff.mp (by omega)
      · obtain ⟨rest', hrest⟩ := hsl
        have : w.slots hv.ptr = b.slots := by simp [World.slots, hp, hb]
        rw [this] at hrest
        exact Or.inr ⟨p, b, rest', hp, hb, h1, h2, hrest, h4, h5, h6⟩

theorem ssetLen_eq {s : SSt α} (hs : c.size ≠ 0) {k : Nat}
    (hk : k ≤ Small.capacity c s.self) :
    Small.onAny c (Buf.setLen c k) s = .ok () ⟨s.self.withLen k, s.w⟩ := by
  unfold Small.onAny
  cases hst : s.self.store with
  | stack slots len =>
    rw [onStore_stack hst, Buf.setLen_eq (by simpa [St.stackBuf, Small.capacity, hst] using hk)]
    simp [St.putStack, SmallH.withLen, hst, St.stackBuf]
  | heap v =>
    simp only [Small.capacity, hst, capacity_eq hs] at hk
    rw [onStore_heap hst, onBuf_eq, Buf.setLen_eq (by simpa [bufOf, capacity_eq hs] using hk)]
    simp [St.putHeap, SmallH.withLen, hst, putBuf, bufOf, World.setSlots_slots]

theorem ssetLen_look {s : SSt α} {l : List α} (hs : c.size ≠ 0) (h : SRep c s.self s.w l)
    {f : Nat → Nat} (hk : f l.length ≤ Small.capacity c s.self) :
    Small.onAny c (do let m ← Buf.getLen; Buf.setLen c (f m)) s =
      .ok () ⟨s.self.withLen (f l.length), s.w⟩ := by
  have e := ssetLen_eq (s := s) hs hk
  rw [← e]
  unfold Small.onAny
  cases hst : s.self.store with
  | stack slots len =>
    rw [onStore_stack hst, onStore_stack hst, M.bind_ok (Buf.getLen_apply _), (h.brep hst).len]
  | heap v =>
    rw [onStore_heap hst, onStore_heap hst, onBuf_eq, onBuf_eq, M.bind_ok (Buf.getLen_apply _),
      ((h.heap v hst).brep (s := ⟨v, s.w⟩) hs).len]

/-- Copying elements behind an empty vector. -/
theorem scopyIn {s : SSt α} {l2 : List α} (hs : c.size ≠ 0) (h : SRep c s.self s.w [])
    (hw : s.w.WF) {src : List (Option α)} (hsrc : ∃ rest, src = l2.map some ++ rest)
    (hc : l2.length ≤ Small.capacity c s.self) :
    ∃ s', Small.onAny c (Buf.copyFrom c src 0 l2.length) s = .ok () s' ∧ SReserved c [] s s' ∧
      (∃ rest, Small.slotsOf s'.self s'.w = l2.map some ++ rest) ∧
      Small.capacity c s'.self = Small.capacity c s.self := by
  obtain ⟨rest, rfl⟩ := hsrc
  obtain ⟨s', e1, e2, e3, _⟩ := onAny_ok (m := Buf.copyFrom c (l2.map some ++ rest) 0 l2.length)
    (a := ()) (l' := []) hs h hw (fun b hb hcap => by
      refine ⟨_, Buf.copyFrom_eq hs (by simp) (by have := hb.cap; omega), ?_, rfl⟩
      refine ⟨BRep.of_slots hb.len ?_ (by simp), rfl, by simp⟩
      have := hb.cap
      simp only [List.length_append, List.length_take, List.length_drop, List.length_map]
      omega)
  refine ⟨s', e1, e2, ?_, e3⟩
  unfold Small.onAny at e1
  cases hst : s.self.store with
  | stack slots len =>
    have hb := h.brep hst
    have hcap := hb.cap
    rw [onStore_stack hst, Buf.copyFrom_eq hs (by simp) (by
      simp only [Small.capacity, hst] at hc
      simp only [St.stackBuf] at hcap ⊢; omega)] at e1
    injection e1 with _ e1
    subst e1
    simp [Small.slotsOf, St.putStack]
  | heap v =>
    have hb := (h.heap v hst).brep (s := ⟨v, s.w⟩) hs
    have hcap := hb.cap
    simp only [Small.capacity, hst, capacity_eq hs] at hc
    rw [onStore_heap hst, onBuf_eq, Buf.copyFrom_eq hs (by simp) (by
      simp only [bufOf, capacity_eq hs] at hcap ⊢; omega)] at e1
    injection e1 with _ e1
    subst e1
    cases l2 with
    | nil => exact ⟨_, rfl⟩
    | cons x l2 =>
      rcases (h.heap v hst).buf with ⟨h0, h1, _⟩ | ⟨p, b, rest', hp, hb', _⟩
      · rw [h1] at hc; simp at hc
      · simp [Small.slotsOf, St.putHeap, putBuf, World.slots, World.setSlots, hp, hb']

end Lokky
