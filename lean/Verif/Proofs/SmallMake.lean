import Verif.Proofs.SmallBulk

/-!
# Making, dropping, joining and splitting `SmallVec`s
-/

namespace Lokky
variable {α : Type} {c : Cfg α}

theorem World.free_none (w : World α) : w.free none = w := by
  simp [World.free]

theorem sdrop_spec {s : SSt α} {l : List α} (hs : c.size ≠ 0) (h : SRep c s.self s.w l) :
    Sat c (Small.drop c s)
      (fun _ s' => s'.w = (s.w.free s.self.ptr).addDrops l)
      (fun s' => ∃ ys a zs, l = ys ++ a :: zs ∧ c.dropPanics a = true ∧ (∀ y ∈ ys, c.dropPanics y = false) ∧
        s'.w = s.w.addDrops (ys ++ [a])) := by
  cases hst : s.self.store with
  | stack slots len =>
    have hb := h.brep hst
    have key : Sat c (Stack.drop c (s.stackBuf slots len))
        (fun _ b' => b' = { s.stackBuf slots len with log := s.w.log.addDrops l })
        (fun b' => ∃ ys a zs, l = ys ++ a :: zs ∧ c.dropPanics a = true ∧
          (∀ y ∈ ys, c.dropPanics y = false) ∧
          b' = { s.stackBuf slots len with log := s.w.log.addDrops (ys ++ [a]) }) := by
      unfold Stack.drop
      rw [M.bind_ok (Buf.getLen_apply _), hb.len]
      refine (Buf.dropLoop_spec (i := 0) hs (xs := l)
        (fun k hk => by rw [Nat.zero_add]; exact hb.slot hk)).mono ?_ ?_
      · rintro _ b' ⟨rfl, _⟩; rfl
      · exact fun b' h => h
    refine stack_sat hst key ?_ ?_
    · rintro _ b' rfl
      have : s.self.ptr = none := by simp [SmallH.ptr, hst]
      rw [this, World.free_none]
      rfl
    · rintro b' ⟨ys, a, zs, h1, h2, h3, rfl⟩
      exact ⟨ys, a, zs, h1, h2, h3, rfl⟩
  | heap v =>
    refine heap_sat hst (drop_spec (s := ⟨v, s.w⟩) hs (h.heap v hst)) ?_ ?_
    · rintro _ t ⟨h1, _⟩
      simpa [SmallH.ptr, hst] using h1
    · rintro t ⟨ys, a, zs, h1, h2, h3, h4⟩
      exact ⟨ys, a, zs, h1, h2, h3, h4⟩

theorem sdrop_ok {s : SSt α} {l : List α} (hs : c.size ≠ 0) (h : SRep c s.self s.w l)
    (hd : ∀ a, c.dropPanics a = false) :
    ∃ s', Small.drop c s = .ok () s' ∧ s'.w = (s.w.free s.self.ptr).addDrops l := by
  have key := sdrop_spec hs h
  cases hr : Small.drop c s with
  | ok u s' => rw [hr] at key; exact ⟨s', rfl, key⟩
  | panic s' =>
    rw [hr] at key
    obtain ⟨_, a, _, _, ha, _⟩ := key
    rw [hd a] at ha; cases ha
  | abort =>
    rw [hr] at key
    obtain ⟨a, ha⟩ := key
    rw [hd a] at ha; cases ha
  | ub u => rw [hr] at key; exact key.elim

/-! ## New vectors -/

/-- A fresh small vector `v` holding `l` was made in going from world `w` to `w'`; `d` was
dropped. -/
structure SMade (c : Cfg α) (l d : List α) (w : World α) (v : SmallH α) (w' : World α) : Prop where
  rep : SRep c v w' l
  wf : w'.WF
  own : GOwn none v.ptr w w'
  drops : w'.log.drops = w.log.drops ++ d
  scope : w'.allocFor = w.allocFor

theorem STrans.smade {s s' : SSt α} {l d : List α} (hp : s.self.ptr = none)
    (h : STrans c l d s s') : SMade c l d s.w s'.self s'.w :=
  ⟨h.rep, h.wf, hp ▸ h.own, h.drops, h.place.scope⟩

theorem SMade.trans {w : World α} {s s' : SSt α} {l d l' d' : List α} (hw : w.WF)
    (h : SMade c l d w s.self s.w) (h' : STrans c l' d' s s') :
    SMade c l' (d ++ d') w s'.self s'.w :=
  ⟨h'.rep, h'.wf, h.own.trans hw h'.own, by rw [h'.drops, h.drops, List.append_assoc],
    h'.place.scope.trans h.scope⟩

theorem Made.smade {w w' : World α} {v : VecH} {l d : List α} {n : Nat} {m : Marker}
    (hn : c.Fits n) (h : Made c l d w v w') :
    SMade c l d w { n, store := .heap v, marker := m } w' := by
  refine ⟨⟨hn, fun _ _ e => by simp at e, fun hv e => ?_⟩, h.wf, ⟨?_, ?_, ?_, h.next⟩, h.drops,
    h.scope⟩
  · simp only [Store.heap.injEq] at e; subst e; exact h.rep
  · intro q _ h2; exact h.frame q h2
  · intro q h1; cases h1
  · intro q h1 _; exact h.fresh q h1

/-- Another vector survives the making of a vector. -/
theorem SMade.other {w w' : World α} {v x : SmallH α} {l l' d : List α} (h : SMade c l d w v w')
    (hw : w.WF) (hx : SRep c x w l') : SRep c x w' l' := by
  refine hx.congr fun p hp => h.own.frame p (by simp) ?_
  intro e
  have h1 := h.own.fresh p e.symm (by simp)
  have h2 := hx.ptr_lt hw hp
  omega

theorem SMade.drop {w : World α} {l d : List α} {s' : SSt α} (hs : c.size ≠ 0) (hw : w.WF)
    (h : SMade c l d w s'.self s'.w) :
    Sat c (Small.drop c s') (fun _ s'' => Clean (d ++ l) w s''.w ∧ s''.w.refusals = s'.w.refusals)
      (fun _ => c.MayAbort) := by
  refine (sdrop_spec hs h.rep).mono ?_ (fun _ ⟨_, a, _, _, h, _⟩ => ⟨a, h⟩)
  rintro _ s'' e
  refine ⟨⟨?_, ?_, ?_, ?_, ?_⟩, ?_⟩
  · intro p
    rw [e]
    simp only [World.addDrops, World.free]
    split
    · rename_i hp
      exact (hw p (h.own.fresh p hp.symm (by simp))).symm
    · rename_i hp
      exact h.own.frame p (by simp) hp
  · intro p hp
    rw [e] at hp ⊢
    simp only [World.addDrops, World.free] at hp ⊢
    split
    · rfl
    · exact h.wf p hp
  · rw [e]; exact h.own.next
  · rw [e]; simp [World.addDrops, World.free, Log.addDrops, h.drops]
  · rw [e]; exact h.scope
  · rw [e]; rfl

/-- Code working on a local small vector that is dropped if the code panics. -/
theorem swithLocal_sat {β : Type} {w w0 : World α} {m : M (SSt α) β} (hs : c.size ≠ 0)
    (hw : w0.WF) {Q : β → SSt α → Prop} {E : List α → List α → SSt α → Prop} {v0 : SmallH α}
    (hm : Sat c (m ⟨v0, w⟩) Q (fun s' => ∃ l d, E l d s' ∧ SMade c l d w0 s'.self s'.w)) :
    Sat c (withLocal v0 (Small.drop c) m w)
      (fun r w' => Q r.1 ⟨r.2, w'⟩)
      (fun w' => ∃ l d s', E l d s' ∧ Clean (d ++ l) w0 w' ∧ w'.refusals = s'.w.refusals) := by
  unfold withLocal
  have key : Sat c (m.onUnwind (Small.drop c) ⟨v0, w⟩) Q
      (fun s'' => ∃ l d s', E l d s' ∧ Clean (d ++ l) w0 s''.w ∧
        s''.w.refusals = s'.w.refusals) := by
    refine Sat.onUnwind hm ?_
    rintro s' ⟨l, d, hE, hmade⟩
    refine (hmade.drop hs hw).mono ?_ (fun _ h => h)
    rintro _ s'' ⟨h1, h2⟩
    exact ⟨l, d, s', hE, h1, h2⟩
  cases hr : m.onUnwind (Small.drop c) ⟨v0, w⟩ <;> simp_all [Sat]

theorem withMarker_rep {n : Nat} {m : Marker} {w : World α} (hn : c.Fits n) :
    SRep c (Small.withMarker n m) w [] := by
  refine ⟨hn, ?_, ?_⟩
  · intro slots len e
    simp only [Small.withMarker, Store.stack.injEq] at e
    obtain ⟨rfl, rfl⟩ := e
    exact ⟨rfl, by simp [Small.withMarker], _, rfl⟩
  · intro v e; simp [Small.withMarker] at e

theorem withMarker_made {n : Nat} {m : Marker} {w : World α} (hn : c.Fits n) (hw : w.WF) :
    SMade c [] [] w (Small.withMarker n m) w :=
  STrans.smade (s := ⟨Small.withMarker n m, w⟩) rfl (STrans.refl (withMarker_rep hn) hw)

/-- `with_capacity_and_marker`. -/
theorem swithCapacity_spec {w : World α} {n k : Nat} {m : Marker} (hs : c.size ≠ 0) (hw : w.WF)
    (hn : c.Fits n) (hk : c.Fits k) :
    Sat c (Small.withCapacityAndMarker c n k m w)
      (fun v w' => SMade c [] [] w v w' ∧ v.n = n ∧ v.marker = m ∧ k ≤ Small.capacity c v ∧
        w'.refusals = w.refusals ∧ w'.log = w.log ∧
        (k ≤ n → v = Small.withMarker n m ∧ w' = w) ∧
        (n < k → ∃ h, v.store = .heap h ∧ h.cap = k ∧ h.marker = m ∧ h.alloc = w.allocFor m))
      (fun w' => w' = w.refuse ∧ n < k ∧ c.grant w.tick (k * c.size) = false) := by
  unfold Small.withCapacityAndMarker Small.tryWithCapacityAndMarker
  by_cases hlt : n < k
  · rw [if_pos hlt]
    refine Sat.bind (Q := fun r w' =>
        (∃ v : SmallH α, r = .ok v ∧ SMade c [] [] w v w' ∧ v.n = n ∧ v.marker = m ∧
          w'.refusals = w.refusals ∧ w'.log = w.log ∧
          ∃ h, v.store = .heap h ∧ h.cap = k ∧ h.marker = m ∧ h.alloc = w.allocFor m) ∨
        (r = .error .allocError ∧ w' = w.refuse ∧ c.grant w.tick (k * c.size) = false)) ?_ ?_
    · refine Sat.bind' (tryWithCapacity_spec hs hw (by omega) hk m) (fun _ h => h.elim) ?_
      rintro r w' (⟨v, rfl, h1, h2, h3, h4, h5, h6, h7, h8, h9, h10, h11, h12, h13, h14⟩ |
        ⟨rfl, h1, rfl⟩)
      · refine Or.inl ⟨_, rfl, ⟨⟨hn, fun _ _ e => by simp at e, fun hv e => ?_⟩, h3, ?_, ?_, h14⟩,
          rfl, rfl, h12, h13, v, rfl, h4, h5, h6⟩
        · simp only [Store.heap.injEq] at e; subst e; exact h2
        · simp only [SmallH.ptr, h7]
          refine ⟨?_, fun _ h => by simp at h, ?_, by rw [h10]; omega⟩
          · intro q _ hq
            have : q ≠ w.next := fun e => hq (by rw [e])
            simp [h9, this]
          · intro q hq _
            simp only [Option.some.injEq] at hq; omega
        · rw [h13]; simp
      · exact Or.inr ⟨rfl, rfl, h1⟩
    · rintro r w' (⟨v, rfl, h1, h2, h3, h4, h5, h, h6, h7, h8, h9⟩ | ⟨rfl, rfl, h1⟩)
      · refine ⟨h1, h2, h3, ?_, h4, h5, by omega, fun _ => ⟨h, h6, h7, h8, h9⟩⟩
        simp [Small.capacity, h6, capacity_eq hs, h7]
      · exact ⟨rfl, hlt, h1⟩
  · rw [if_neg hlt]
    refine ⟨withMarker_made hn hw, rfl, rfl, ?_, rfl, rfl, fun _ => ⟨rfl, rfl⟩, by omega⟩
    simp [Small.capacity, Small.withMarker]; omega

/-- `From<&[T]>` and `clone`. -/
theorem sfromSlice_spec {w : World α} {n : Nat} (hs : c.size ≠ 0) (hw : w.WF) (l : List α)
    (hn : c.Fits n) (hf : c.Fits (l.length + Vec.minNonZeroCap c)) :
    Sat c (Small.fromSlice c n l w)
      (fun v w' => ∃ ys, Cloned c l ys ∧ SMade c ys [] w v w' ∧ v.n = n ∧
        w'.refusals = w.refusals)
      (fun w' => (Clean [] w w' ∧ w'.refusals = w.refusals + 1) ∨
        ∃ pre a post ys, l = pre ++ a :: post ∧ Cloned c pre ys ∧
          (((∃ k, c.clone k a = none) ∧ Clean ys w w' ∧ w'.refusals = w.refusals) ∨
           (∃ b, (∃ k, c.clone k a = some b) ∧ Clean (b :: ys) w w' ∧
              w'.refusals = w.refusals + 1))) := by
  unfold Small.fromSlice
  refine Sat.bind' (swithCapacity_spec (n := n) (k := l.length) (m := none) hs hw hn
    (Fits.mono hf (by omega))) ?_ ?_
  · rintro w' ⟨rfl, _, _⟩
    exact Or.inl ⟨⟨fun _ => rfl, hw, Nat.le_refl _, by simp [World.refuse], rfl⟩, rfl⟩
  · rintro v w1 ⟨h1, h2, _, _, h3, _⟩
    have key := swithLocal_sat (v0 := v) (w := w1) (w0 := w) hs hw
      (m := Small.extendFromSlice c l)
      (Q := fun _ s' => ∃ ys, Cloned c l ys ∧ SMade c ys [] w s'.self s'.w ∧ s'.self.n = n ∧
        s'.w.refusals = w.refusals)
      (E := fun l' d s' => (l' = [] ∧ d = [] ∧ s'.w.refusals = w.refusals + 1) ∨
        ∃ pre a post, l = pre ++ a :: post ∧ Cloned c pre l' ∧
          (((∃ k, c.clone k a = none) ∧ d = [] ∧ s'.w.refusals = w.refusals) ∨
           (∃ b, (∃ k, c.clone k a = some b) ∧ d = [b] ∧ s'.w.refusals = w.refusals + 1)))
      ((sextendFromSlice_spec (s := ⟨v, w1⟩) hs h1.rep h1.wf l (by simpa using hf)).mono ?_ ?_)
    · refine Sat.bind' key ?_ ?_
      · rintro w' ⟨l', d, s', (⟨rfl, rfl, e1⟩ | ⟨pre, a, post, e1, e2,
          (⟨e3, rfl, e4⟩ | ⟨b, e3, rfl, e4⟩)⟩), e5, e6⟩
        · exact Or.inl ⟨by simpa using e5, by rw [e6, e1]⟩
        · exact Or.inr ⟨pre, a, post, l', e1, e2, Or.inl ⟨e3, by simpa using e5, by rw [e6, e4]⟩⟩
        · exact Or.inr ⟨pre, a, post, l', e1, e2,
            Or.inr ⟨b, e3, by simpa using e5, by rw [e6, e4]⟩⟩
      · rintro ⟨_, v'⟩ w' h; exact h
    · rintro _ s' ⟨ys, e1, e2, e3⟩
      refine ⟨ys, e1, ?_, e2.place.n.trans h2, e3.trans h3⟩
      simpa using SMade.trans hw h1 e2
    · rintro s' (rfl | ⟨pre, a, post, ys, e1, e2, (⟨e3, e4, e5⟩ | ⟨b, e3, e4, e5⟩)⟩)
      · refine ⟨[], [], Or.inl ⟨rfl, rfl, ?_⟩, ?_⟩
        · simp [St.refuse, World.refuse, h3]
        · simpa using SMade.trans hw (s := ⟨v, w1⟩) h1 (STrans.refuse h1.rep h1.wf)
      · refine ⟨ys, [], Or.inr ⟨pre, a, post, e1, e2, Or.inl ⟨e3, rfl, e5.trans h3⟩⟩, ?_⟩
        simpa using SMade.trans hw h1 e4
      · refine ⟨ys, [b], Or.inr ⟨pre, a, post, e1, e2, Or.inr ⟨b, e3, rfl, ?_⟩⟩, ?_⟩
        · simp only [h3] at e5; exact e5
        · simpa using SMade.trans hw h1 e4

/-- `from_iter`. -/
theorem sfromIter_spec {w : World α} {n : Nat} (hs : c.size ≠ 0) (hw : w.WF) (it : Iter α)
    (hn : c.Fits n) (hf : c.Fits (it.items.length + Vec.minNonZeroCap c))
    (hf2 : c.Fits (it.hint + Vec.minNonZeroCap c)) :
    Sat c (Small.fromIter c n it w)
      (fun v w' => it.boom = false ∧ SMade c it.items [] w v w' ∧ w'.refusals = w.refusals)
      (fun w' => ∃ d, d.Perm it.items ∧ Clean d w w' ∧
        ((it.boom = true ∧ w'.refusals = w.refusals) ∨ w'.refusals = w.refusals + 1)) := by
  unfold Small.fromIter
  rw [M.bind_ok (show Small.new n w = .ok (Small.withMarker n none) w from rfl)]
  have key := swithLocal_sat (v0 := Small.withMarker n none) (w := w) (w0 := w) hs hw
    (m := Small.extendFromIter c it)
    (Q := fun _ s' => it.boom = false ∧ SMade c it.items [] w s'.self s'.w ∧
      s'.w.refusals = w.refusals)
    (E := fun l' d s' => (it.boom = true ∧ l' = it.items ∧ d = [] ∧ s'.w.refusals = w.refusals) ∨
      (it.items = l' ++ d ∧ s'.w.refusals = w.refusals + 1))
    ((sextendFromIter_spec (s := ⟨Small.withMarker n none, w⟩) hs (withMarker_rep hn) hw it
      (by simpa using hf) (by simpa using hf2)).mono ?_ ?_)
  · refine Sat.bind' key ?_ ?_
    · rintro w' ⟨l', d, s', (⟨e1, rfl, rfl, e2⟩ | ⟨e1, e2⟩), e5, e6⟩
      · exact ⟨it.items, .refl _, by simpa using e5, Or.inl ⟨e1, by rw [e6, e2]⟩⟩
      · refine ⟨d ++ l', ?_, e5, Or.inr (by rw [e6, e2])⟩
        rw [e1]; exact List.perm_append_comm
    · rintro ⟨_, v'⟩ w' h; exact h
  · rintro _ s' ⟨e1, e2, e3⟩
    refine ⟨e1, ?_, e3⟩
    simpa using SMade.trans hw (withMarker_made hn hw) e2
  · rintro s' (⟨e1, e2, e3⟩ | ⟨pre, post, e1, e2, e3⟩)
    · refine ⟨it.items, [], Or.inl ⟨e1, rfl, rfl, e3⟩, ?_⟩
      simpa using SMade.trans hw (withMarker_made hn hw) e2
    · refine ⟨pre, post, Or.inr ⟨e1, e3⟩, ?_⟩
      simpa using SMade.trans hw (withMarker_made hn hw) e2

/-- `From<[T; L]>` of an array that does not fit inline. -/
theorem sfromArray_spec {w : World α} {n : Nat} (hs : c.size ≠ 0) (hw : w.WF) (l : List α)
    (hn : c.Fits n) (hf : c.Fits l.length) (hl : n < l.length ∨ l = []) :
    Sat c (Small.fromArray c n l w)
      (fun v w' => SMade c l [] w v w' ∧ v.n = n ∧ w'.refusals = w.refusals)
      (fun w' => Clean l w w' ∧ w'.refusals = w.refusals + 1) := by
  unfold Small.fromArray
  split
  · rename_i hle
    have hl : l = [] := hl.resolve_left (by omega)
    subst hl
    have e : Small.onStore (Buf.copyFrom c ([].map some) 0 ([] : List α).length) (pure ())
        (⟨Small.withMarker n none, w⟩ : SSt α) = .ok () ⟨Small.withMarker n none, w⟩ := by
      refine onStore_look_stack (slots := List.replicate n none) (len := 0) rfl ?_
      rw [Buf.copyFrom_eq hs (by simp) (by simp)]
      simp [St.stackBuf, Small.withMarker]
    rw [M.bind_ok (withLocal_ok e)]
    exact ⟨withMarker_made hn hw, rfl, rfl⟩
  · refine Sat.bind' (fromArray_spec hs hw l hf) (fun _ h => h) ?_
    rintro v w' ⟨h1, h2⟩
    exact ⟨h1.smade hn, rfl, h2⟩

/-! ## append -/

theorem sappend_spec {v o : SmallH α} {w : World α} {l1 l2 : List α} (hs : c.size ≠ 0)
    (h1 : SRep c v w l1) (h2 : SRep c o w l2) (hw : w.WF) (hne : v.ptr ≠ o.ptr ∨ o.ptr = none)
    (hf : c.Fits (l1.length + l2.length + Vec.minNonZeroCap c)) :
    Sat c (Small.append c ⟨(v, o), w⟩)
      (fun _ s' => ∃ v', s'.self = (v', o.withLen 0) ∧
        SReserved c (l1 ++ l2) ⟨v, w⟩ ⟨v', s'.w⟩ ∧ SRep c (o.withLen 0) s'.w [])
      (fun s' => s' = St.refuse ⟨(v, o), w⟩) := by
  unfold Small.append
  rw [M.bind_ok (M.get_apply _)]
  simp only [h2.lenOf]
  refine Sat.bind' (onPart_sat (sreserve_spec (s := ⟨v, w⟩) (k := l2.length) hs h1 hw hf)) ?_ ?_
  · rintro s' ⟨t, ⟨rfl, _, _⟩, rfl⟩
    rfl
  · rintro _ s' ⟨⟨v', w'⟩, ⟨h3, ⟨h4, _⟩, _⟩, rfl⟩
    simp only at h3 h4
    have key : ∀ p, o.ptr = some p → v.ptr ≠ some p := by
      intro p hp
      rcases hne with h | h
      · rw [← hp]; exact h
      · rw [h] at hp; cases hp
    have hne' : ∀ p, o.ptr = some p → v'.ptr ≠ some p := by
      intro p hp e
      have := h3.trans.own.fresh p e (key p hp)
      have := h2.ptr_lt hw hp
      simp only at *
      omega
    have h2' : SRep c o w' l2 := h2.congr fun p hp =>
      h3.trans.own.frame p (fun e => key p hp e.symm) (fun e => hne' p hp e.symm)
    rw [M.bind_ok (M.get_apply _)]
    have hsrc := h2'.slotsOf hs
    obtain ⟨t, e1, e2, e3, e4⟩ := onAny_ok (l' := l1 ++ l2) (s := ⟨v', w'⟩) hs h3.trans.rep
      h3.trans.wf (fun b hb hcap => copyFrom_buf hs hb hsrc (by simp only at hcap; omega))
    rw [M.bind_ok (onPart_ok (s := ⟨(v', o), w'⟩) e1)]
    have h2'' : SRep c o t.w l2 := by
      refine h2'.congr (fun p hp => ?_)
      refine e2.trans.own.frame p (fun e => hne' p hp e.symm) ?_
      intro e
      have := e2.trans.own.fresh p e.symm (fun e => hne' p hp e)
      have := h2'.ptr_lt h3.trans.wf hp
      simp only at *
      omega
    have e5 := ssetLen_eq (s := ⟨o, t.w⟩) (k := 0) hs (Nat.zero_le _)
    rw [onPart_ok (s := ⟨(t.self, o), t.w⟩) e5]
    exact ⟨t.self, rfl, h3.trans' hw e2, h2''.withLen (l' := []) hs ⟨_, rfl⟩ (Nat.zero_le _)⟩

/-! ## split_off -/

/-- `split_off_into` at a position before the end. -/
theorem ssplitOff_spec {s : SSt α} {l : List α} (hs : c.size ≠ 0) (h : SRep c s.self s.w l)
    (hw : s.w.WF) {n' k : Nat} (hk : k < l.length) (hn : c.Fits n') :
    Sat c (Small.splitOffInto c n' k s)
      (fun r s' => s'.self = s.self.withLen k ∧ SMade c (l.drop k) [] s.w r s'.w ∧
        SRep c s'.self s'.w (l.take k) ∧ s'.w.log = s.w.log ∧ s'.w.refusals = s.w.refusals ∧
        r.n = n')
      (fun s' => s' = s.refuse) := by
  have hfit := h.fits_cap hs
  have hle := h.le_cap hs
  unfold Small.splitOffInto
  rw [M.bind_ok (M.get_apply s), h.lenOf, M.bind_ok (assert_pos hk)]
  refine Sat.bind' (liftW_sat (swithCapacity_spec (n := n') (k := l.length - k) (m := none) hs hw
    hn (Fits.mono hfit (by omega)))) ?_ ?_
  · rintro s' ⟨w', ⟨rfl, _⟩, rfl⟩
    rfl
  · rintro r s1 ⟨w1, ⟨h1, h2, -, h4, h5, h6, -⟩, rfl⟩
    rw [M.bind_ok (M.get_apply _)]
    have hx := h1.other hw h
    obtain ⟨rest, hsl⟩ := hx.slotsOf hs
    have hsrc : ∃ rest, (Small.slotsOf s.self w1).drop k = (l.drop k).map some ++ rest := by
      refine ⟨rest, ?_⟩
      rw [hsl, List.drop_append_of_le_length (by simp; omega), List.map_drop]
    obtain ⟨r1, e1, e2, e3, e4⟩ := scopyIn (s := ⟨r, w1⟩) (l2 := l.drop k) hs h1.rep h1.wf hsrc
      (by simpa using h4)
    have hcount : (l.drop k).length = l.length - k := by simp
    rw [hcount] at e1
    rw [M.bind_ok (liftW_ok (s := ⟨s.self, w1⟩) (withLocal_ok e1))]
    have hm1 : SMade c [] [] s.w r1.self r1.w := by
      simpa using SMade.trans hw (s := ⟨r, w1⟩) h1 e2.trans
    have hx1 := hm1.other hw h
    have e5 := ssetLen_look (s := ⟨s.self, r1.w⟩) (f := fun m => m - (l.length - k)) hs hx1
      (by simp only; omega)
    have hk' : l.length - (l.length - k) = k := by omega
    rw [hk'] at e5
    simp only
    rw [M.bind_ok e5]
    have e6 := ssetLen_eq (s := r1) (k := l.length - k) hs (by rw [e4]; exact h4)
    rw [M.bind_ok (liftW_ok (s := ⟨s.self.withLen k, r1.w⟩) (withLocal_ok e6))]
    have hr2 := e2.trans.rep.withLen hs e3 (by rw [e4, hcount]; exact h4)
    rw [hcount] at hr2
    refine ⟨rfl, ⟨hr2, hm1.wf, by simpa using hm1.own, by simpa using hm1.drops, hm1.scope⟩, ?_,
      e2.log.trans h6, e2.refusals.trans h5, ?_⟩
    · have htk : (l.take k).length = k := by simp; omega
      have := hx1.withLen (l' := l.take k) hs (by
        obtain ⟨rest, hsl⟩ := hx1.slotsOf hs
        refine ⟨(l.drop k).map some ++ rest, ?_⟩
        rw [hsl, ← List.append_assoc, ← List.map_append, List.take_append_drop]) (by omega)
      rw [htk] at this
      exact this
    · have hn1 : r1.self.n = n' := e2.trans.place.n.trans h2
      rw [← hn1]
      unfold SmallH.withLen
      split <;> rfl

theorem ssplitOff_panic {s : SSt α} {l : List α} (h : SRep c s.self s.w l) {n' k : Nat}
    (hk : l.length ≤ k) : Small.splitOffInto c n' k s = .panic s := by
  unfold Small.splitOffInto
  rw [M.bind_ok (M.get_apply s), h.lenOf, M.bind_panic (assert_neg (by omega))]

/-! ## Conversions -/

/-- `into_vec`. -/
theorem sintoVec_spec {v : SmallH α} {w : World α} {l : List α} (hs : c.size ≠ 0)
    (h : SRep c v w l) (hw : w.WF) (hf : c.Fits (l.length + Vec.minNonZeroCap c)) :
    Sat c (Small.intoVec c v w)
      (fun r w' => SReserved c l ⟨v, w⟩ ⟨{ v with store := .heap r }, w'⟩)
      (fun w' => w' = (w.refuse.free v.ptr).addDrops l) := by
  have key := smoveToHeap_spec (s := ⟨v, w⟩) hs h hw hf
  unfold Small.intoVec
  refine Sat.bind' (Q := fun r w' => ∃ h, r.2 = { v with store := .heap h } ∧
    SReserved c l ⟨v, w⟩ ⟨r.2, w'⟩) (E := fun w' => w' = (w.refuse.free v.ptr).addDrops l) ?_
    (fun _ h => h) ?_
  · unfold withLocal
    have k2 : Sat c ((Small.moveToHeap c).onUnwind (Small.drop c) ⟨v, w⟩)
        (fun _ s' => SReserved c l ⟨v, w⟩ s' ∧ ∃ h, s'.self.store = .heap h)
        (fun s' => s'.w = (w.refuse.free v.ptr).addDrops l) := by
      refine Sat.onUnwind key ?_
      rintro s' rfl
      exact (sdrop_spec hs (STrans.refuse (s := ⟨v, w⟩) h hw).rep).mono (fun _ _ h => h)
        (fun _ ⟨_, a, _, _, h, _⟩ => ⟨a, h⟩)
    cases hr : (Small.moveToHeap c).onUnwind (Small.drop c) ⟨v, w⟩ with
    | ok u s' =>
      rw [hr] at k2
      obtain ⟨h1, hv, h2⟩ := k2
      refine ⟨hv, ?_, h1⟩
      have e1 := h1.trans.place.n
      have e2 := h1.trans.place.marker
      rcases s' with ⟨⟨n, st, m⟩, w'⟩
      simp only at e1 e2 h2
      simp [e1, e2, h2]
    | panic s' => rw [hr] at k2; exact k2
    | abort => rw [hr] at k2; exact k2
    | ub u => rw [hr] at k2; exact k2
  · rintro ⟨_, v'⟩ w' ⟨hv, rfl, h1⟩
    exact h1

/-- `From<Vec<T>>`. -/
theorem sfromVec_rep {v : VecH} {w : World α} {l : List α} {n : Nat} (hn : c.Fits n)
    (h : Rep c v w l) : SRep c (Small.fromVec n v) w l := by
  refine ⟨hn, fun _ _ e => by simp [Small.fromVec] at e, fun hv e => ?_⟩
  simp only [Small.fromVec, Store.heap.injEq] at e
  subst e; exact h

end Lokky
