import Verif.Model.SmallVec
import Verif.Proofs.VecMove

/-!
# What it means that a `SmallVec` holds a list
-/

namespace Lokky
variable {α : Type} {c : Cfg α}

/-- Address of the heap buffer, if any. -/
def SmallH.ptr (v : SmallH α) : Option Nat :=
  match v.store with
  | .stack _ _ => none
  | .heap h => h.ptr

/-- The small vector `v` holds the list `l` (element type of non-zero size). -/
structure SRep (c : Cfg α) (v : SmallH α) (w : World α) (l : List α) : Prop where
  fits : c.Fits v.n
  stack : ∀ slots len, v.store = .stack slots len →
    len = l.length ∧ slots.length = v.n ∧ ∃ rest, slots = l.map some ++ rest
  heap : ∀ h, v.store = .heap h → Rep c h w l

/-- Between two worlds nothing but one buffer was touched, which was at `p` and is at `p'`. -/
structure GOwn (p p' : Option Nat) (w w' : World α) : Prop where
  frame : ∀ q, some q ≠ p → some q ≠ p' → w'.heap q = w.heap q
  freed : ∀ q, p = some q → p' ≠ some q → w'.heap q = none
  fresh : ∀ q, p' = some q → p ≠ some q → w.next ≤ q
  next : w.next ≤ w'.next

theorem GOwn.refl (p : Option Nat) (w : World α) : GOwn p p w w :=
  ⟨fun _ _ _ => rfl, fun _ h h' => absurd h h', fun _ h h' => absurd h h', Nat.le_refl _⟩

theorem GOwn.trans {p p' p'' : Option Nat} {w w' w'' : World α} (hw : w.WF)
    (h : GOwn p p' w w') (h' : GOwn p' p'' w' w'') : GOwn p p'' w w'' := by
  refine ⟨?_, ?_, ?_, Nat.le_trans h.next h'.next⟩
  · intro q h1 h2
    by_cases h3 : some q = p'
    · have e1 := h.fresh q h3.symm (fun e => h1 e.symm)
      have e2 := h'.freed q h3.symm (fun e => h2 e.symm)
      rw [e2, hw q e1]
    · rw [h'.frame q h3 h2, h.frame q h1 h3]
  · intro q h1 h2
    by_cases h3 : p' = some q
    · exact h'.freed q h3 h2
    · have e1 := h.freed q h1 h3
      rw [h'.frame q (fun e => h3 e.symm) (fun e => h2 e.symm), e1]
  · intro q h1 h2
    by_cases h3 : p' = some q
    · exact h.fresh q h3 h2
    · exact Nat.le_trans h.next (h'.fresh q h1 h3)

theorem Own.gown {s s' : VSt α} (h : Own s s') : GOwn s.self.ptr s'.self.ptr s.w s'.w :=
  ⟨h.frame, h.freed, h.fresh, h.next⟩

/-- Inline size, marker and scope are kept; a heap vector stays one and is placed as `Vec`s are; a
vector that spills takes the allocator selected for its marker. -/
structure SPlace (s s' : SSt α) : Prop where
  n : s'.self.n = s.self.n
  marker : s'.self.marker = s.self.marker
  scope : s'.w.allocFor = s.w.allocFor
  heap : ∀ v, s.self.store = .heap v →
    ∃ v', s'.self.store = .heap v' ∧ Place (⟨v, s.w⟩ : VSt α) ⟨v', s'.w⟩
  spill : ∀ slots len v', s.self.store = .stack slots len → s'.self.store = .heap v' →
    v'.alloc = s.w.allocFor s.self.marker ∧ v'.marker = s.self.marker ∧ 0 < v'.cap

theorem SPlace.refl (s : SSt α) : SPlace s s :=
  ⟨rfl, rfl, rfl, fun v h => ⟨v, h, Place.refl _⟩, fun _ _ _ h h' => by rw [h] at h'; cases h'⟩

theorem SPlace.trans {s s' s'' : SSt α} (h : SPlace s s') (h' : SPlace s' s'') : SPlace s s'' := by
  refine ⟨h'.n.trans h.n, h'.marker.trans h.marker, h'.scope.trans h.scope, ?_, ?_⟩
  · intro v hv
    obtain ⟨v', h1, h2⟩ := h.heap v hv
    obtain ⟨v'', h3, h4⟩ := h'.heap v' h1
    exact ⟨v'', h3, h2.trans h4⟩
  · intro slots len v'' hs hs''
    cases hm : s'.self.store with
    | stack slots' len' =>
      obtain ⟨h1, h2, h3⟩ := h'.spill _ _ _ hm hs''
      exact ⟨by rw [h1, h.scope, h.marker], by rw [h2, h.marker], h3⟩
    | heap v' =>
      obtain ⟨h1, h2, h3⟩ := h.spill _ _ _ hs hm
      obtain ⟨v3, h4, h5⟩ := h'.heap v' hm
      rw [hs''] at h4; cases h4
      obtain ⟨h6, h7⟩ := h5.big h3
      exact ⟨h7.trans h1, h5.marker.trans h2, h6⟩

/-- A complete account of a step of a small vector. -/
structure STrans (c : Cfg α) (l' d : List α) (s s' : SSt α) : Prop where
  rep : SRep c s'.self s'.w l'
  wf : s'.w.WF
  own : GOwn s.self.ptr s'.self.ptr s.w s'.w
  place : SPlace s s'
  drops : s'.w.log.drops = s.w.log.drops ++ d

theorem STrans.refl {s : SSt α} {l : List α} (h : SRep c s.self s.w l) (hw : s.w.WF) :
    STrans c l [] s s := ⟨h, hw, GOwn.refl _ _, SPlace.refl s, by simp⟩

theorem STrans.trans {s s' s'' : SSt α} {l' l'' d d' : List α} (hw : s.w.WF)
    (h : STrans c l' d s s') (h' : STrans c l'' d' s' s'') : STrans c l'' (d ++ d') s s'' :=
  ⟨h'.rep, h'.wf, h.own.trans hw h'.own, h.place.trans h'.place,
    by rw [h'.drops, h.drops, List.append_assoc]⟩

/-- A step that dropped nothing and was refused nothing. -/
structure SReserved (c : Cfg α) (l : List α) (s s' : SSt α) : Prop where
  trans : STrans c l [] s s'
  log : s'.w.log = s.w.log
  refusals : s'.w.refusals = s.w.refusals

theorem SReserved.refl {s : SSt α} {l : List α} (h : SRep c s.self s.w l) (hw : s.w.WF) :
    SReserved c l s s := ⟨.refl h hw, rfl, rfl⟩

theorem SReserved.trans' {s s' s'' : SSt α} {l' l'' : List α} (hw : s.w.WF)
    (h : SReserved c l' s s') (h' : SReserved c l'' s' s'') : SReserved c l'' s s'' :=
  ⟨by simpa using h.trans.trans hw h'.trans, h'.log.trans h.log, h'.refusals.trans h.refusals⟩

theorem SRep.congr {v : SmallH α} {w w' : World α} {l : List α} (h : SRep c v w l)
    (hh : ∀ p, v.ptr = some p → w'.heap p = w.heap p) : SRep c v w' l :=
  ⟨h.fits, h.stack, fun hv e => (h.heap hv e).congr fun p hp => hh p (by simp [SmallH.ptr, e, hp])⟩

theorem SRep.ptr_lt {v : SmallH α} {w : World α} {l : List α} (h : SRep c v w l) (hw : w.WF)
    {p : Nat} (hp : v.ptr = some p) : p < w.next := by
  cases hs : v.store with
  | stack _ _ => simp [SmallH.ptr, hs] at hp
  | heap hv => exact (h.heap hv hs).ptr_lt hw (by simpa [SmallH.ptr, hs] using hp)

theorem SRep.lenOf {v : SmallH α} {w : World α} {l : List α} (h : SRep c v w l) :
    Small.lenOf v = l.length := by
  cases hs : v.store with
  | stack _ _ => simpa [Small.lenOf, hs] using (h.stack _ _ hs).1
  | heap hv => simpa [Small.lenOf, hs] using (h.heap hv hs).len

theorem SRep.fits_cap {v : SmallH α} {w : World α} {l : List α} (hs : c.size ≠ 0)
    (h : SRep c v w l) : c.Fits (Small.capacity c v) := by
  cases hst : v.store with
  | stack _ _ => simpa [Small.capacity, hst] using h.fits
  | heap hv => simpa [Small.capacity, hst, capacity_eq hs] using (h.heap hv hst).fits

theorem SRep.le_cap {v : SmallH α} {w : World α} {l : List α} (hs : c.size ≠ 0)
    (h : SRep c v w l) : l.length ≤ Small.capacity c v := by
  cases hst : v.store with
  | stack _ _ =>
    obtain ⟨_, h2, rest, h3⟩ := h.stack _ _ hst
    simp only [Small.capacity, hst]
    rw [← h2, h3]; simp
  | heap hv => simpa [Small.capacity, hst, capacity_eq hs] using (h.heap hv hst).le_cap

theorem STrans.refuse {s : SSt α} {l : List α} (h : SRep c s.self s.w l) (hw : s.w.WF) :
    STrans c l [] s s.refuse :=
  ⟨h.congr fun _ _ => rfl, hw, ⟨fun _ _ _ => rfl, fun _ h h' => absurd h h',
    fun _ h h' => absurd h h', Nat.le_refl _⟩,
    ⟨rfl, rfl, rfl, fun v hv => ⟨v, hv, ⟨rfl, fun h => ⟨h, rfl⟩, fun h => Or.inl ⟨h, rfl⟩, rfl⟩⟩,
      fun _ _ _ h h' => by simp only [St.refuse] at h'; rw [h] at h'; cases h'⟩,
    by simp [St.refuse, World.refuse]⟩

theorem STrans.setLog {s s' : SSt α} {l d d' : List α} {g : Log α} (h : STrans c l d s s')
    (hg : g.drops = s'.w.log.drops ++ d') : STrans c l (d ++ d') s (s'.setLog g) :=
  ⟨h.rep.congr (fun _ _ => rfl), h.wf, ⟨h.own.frame, h.own.freed, h.own.fresh, h.own.next⟩,
    ⟨h.place.n, h.place.marker, h.place.scope, fun v hv => by
      obtain ⟨v', h1, h2⟩ := h.place.heap v hv
      exact ⟨v', h1, ⟨h2.marker, h2.big, h2.small, h2.scope⟩⟩, h.place.spill⟩, by
    simp only [St.setLog]; rw [hg, h.drops, List.append_assoc]⟩

theorem STrans.dropVal {s s' : SSt α} {l d : List α} (a : α) (h : STrans c l d s s') :
    Sat c (onLog (dropVal c a) s')
      (fun _ s'' => STrans c l (d ++ [a]) s s'' ∧ s'' = s'.setLog (s'.w.log.addDrops [a]) ∧
        c.dropPanics a = false)
      (fun s'' => STrans c l (d ++ [a]) s s'' ∧ s'' = s'.setLog (s'.w.log.addDrops [a]) ∧
        c.dropPanics a = true) := by
  refine (onLog_sat (dropVal_spec a s'.w.log)).mono ?_ ?_
  · rintro _ s'' ⟨g, ⟨rfl, hp⟩, rfl⟩
    exact ⟨h.setLog rfl, rfl, hp⟩
  · rintro s'' ⟨g, ⟨rfl, hp⟩, rfl⟩
    exact ⟨h.setLog rfl, rfl, hp⟩

theorem STrans.dropVals {s s' : SSt α} {l d : List α} (xs : List α) (h : STrans c l d s s') :
    Sat c (onLog (dropVals c xs) s')
      (fun _ s'' => STrans c l (d ++ xs) s s'' ∧ s'' = s'.setLog (s'.w.log.addDrops xs))
      (fun s'' => STrans c l (d ++ xs) s s'' ∧ s'' = s'.setLog (s'.w.log.addDrops xs) ∧
        ∃ a ∈ xs, c.dropPanics a = true) := by
  refine (onLog_sat (dropVals_spec xs s'.w.log)).mono ?_ ?_
  · rintro _ s'' ⟨g, rfl, rfl⟩
    exact ⟨h.setLog rfl, rfl⟩
  · rintro s'' ⟨g, ⟨rfl, hp⟩, rfl⟩
    exact ⟨h.setLog rfl, rfl, hp⟩

/-! ## Working on the storage -/

theorem onStore_stack {β : Type} {f : M (Buf α) β} {g : M (VSt α) β} {s : SSt α}
    {slots : List (Option α)} {len : Nat} (h : s.self.store = .stack slots len) :
    Small.onStore f g s = match f (s.stackBuf slots len) with
      | .ok a b => .ok a (s.putStack b)
      | .panic b => .panic (s.putStack b)
      | .abort => .abort
      | .ub u => .ub u := by
  simp only [Small.onStore, h]
  cases f (s.stackBuf slots len) <;> rfl

theorem onStore_heap {β : Type} {f : M (Buf α) β} {g : M (VSt α) β} {s : SSt α} {v : VecH}
    (h : s.self.store = .heap v) :
    Small.onStore f g s = match g ⟨v, s.w⟩ with
      | .ok a t => .ok a (s.putHeap t)
      | .panic t => .panic (s.putHeap t)
      | .abort => .abort
      | .ub u => .ub u := by
  simp only [Small.onStore, h]
  cases g ⟨v, s.w⟩ <;> rfl

theorem stack_sat {β : Type} {f : M (Buf α) β} {g : M (VSt α) β} {s : SSt α}
    {slots : List (Option α)} {len : Nat} (h : s.self.store = .stack slots len)
    {Q : β → Buf α → Prop} {E : Buf α → Prop} {Q' : β → SSt α → Prop} {E' : SSt α → Prop}
    (hm : Sat c (f (s.stackBuf slots len)) Q E)
    (hQ : ∀ a b, Q a b → Q' a (s.putStack b)) (hE : ∀ b, E b → E' (s.putStack b)) :
    Sat c (Small.onStore f g s) Q' E' := by
  rw [onStore_stack h]
  cases hr : f (s.stackBuf slots len) <;> simp_all [Sat]

theorem heap_sat {β : Type} {f : M (Buf α) β} {g : M (VSt α) β} {s : SSt α} {v : VecH}
    (h : s.self.store = .heap v)
    {Q : β → VSt α → Prop} {E : VSt α → Prop} {Q' : β → SSt α → Prop} {E' : SSt α → Prop}
    (hm : Sat c (g ⟨v, s.w⟩) Q E)
    (hQ : ∀ a t, Q a t → Q' a (s.putHeap t)) (hE : ∀ t, E t → E' (s.putHeap t)) :
    Sat c (Small.onStore f g s) Q' E' := by
  rw [onStore_heap h]
  cases hr : g ⟨v, s.w⟩ <;> simp_all [Sat]

theorem SRep.brep {s : SSt α} {l : List α} (h : SRep c s.self s.w l)
    {slots : List (Option α)} {len : Nat} (hst : s.self.store = .stack slots len) :
    BRep (s.stackBuf slots len) l := by
  obtain ⟨h1, h2, h3⟩ := h.stack _ _ hst
  exact ⟨h1, h2, h3⟩

@[simp] theorem putStack_w (s : SSt α) (b : Buf α) : (s.putStack b).w = { s.w with log := b.log } :=
  rfl
@[simp] theorem putHeap_w (s : SSt α) (t : VSt α) : (s.putHeap t).w = t.w := rfl

theorem putStack_trans {s : SSt α} {l l' d : List α} (h : SRep c s.self s.w l) (hw : s.w.WF)
    {slots : List (Option α)} {len : Nat} (hst : s.self.store = .stack slots len) {b : Buf α}
    (hb : BTrans l' d (s.stackBuf slots len) b) : STrans c l' d s (s.putStack b) := by
  refine ⟨⟨h.fits, ?_, ?_⟩, hw, ?_, ⟨rfl, rfl, rfl, ?_, ?_⟩, hb.drops⟩
  · intro slots' len' e
    simp only [St.putStack, Store.stack.injEq] at e
    obtain ⟨rfl, rfl⟩ := e
    exact ⟨hb.rep.len, hb.rep.cap.trans hb.cap, hb.rep.holds⟩
  · intro v e; simp [St.putStack] at e
  · have : (s.putStack b).self.ptr = s.self.ptr := by simp [SmallH.ptr, St.putStack, hst]
    rw [this]
    exact ⟨fun _ _ _ => rfl, fun _ h h' => absurd h h', fun _ h h' => absurd h h', Nat.le_refl _⟩
  · intro v e; rw [hst] at e; cases e
  · intro _ _ v' _ e; simp [St.putStack] at e

theorem putHeap_trans {s : SSt α} {l l' d : List α} (h : SRep c s.self s.w l) {v : VecH}
    (hst : s.self.store = .heap v) {t : VSt α} (ht : Trans c l' d ⟨v, s.w⟩ t) :
    STrans c l' d s (s.putHeap t) := by
  refine ⟨⟨h.fits, ?_, ?_⟩, ht.wf, ?_, ⟨rfl, rfl, ht.place.scope, ?_, ?_⟩, ht.drops⟩
  · intro slots len e; simp [St.putHeap] at e
  · intro v' e
    simp only [St.putHeap, Store.heap.injEq] at e
    subst e; exact ht.rep
  · have e1 : s.self.ptr = v.ptr := by simp [SmallH.ptr, hst]
    have e2 : (s.putHeap t).self.ptr = t.self.ptr := by simp [SmallH.ptr, St.putHeap]
    rw [e1, e2]
    exact ht.own.gown
  · intro v' e
    rw [hst] at e; cases e
    exact ⟨t.self, rfl, ht.place⟩
  · intro slots len v' e; rw [hst] at e; cases e

theorem putHeap_reserved {s : SSt α} {l l' : List α} (h : SRep c s.self s.w l) {v : VecH}
    (hst : s.self.store = .heap v) {t : VSt α} (ht : Reserved c l' ⟨v, s.w⟩ t) :
    SReserved c l' s (s.putHeap t) :=
  ⟨putHeap_trans h hst ht.trans, ht.log, ht.refusals⟩

theorem putStack_self {s : SSt α} {slots : List (Option α)} {len : Nat}
    (h : s.self.store = .stack slots len) : s.putStack (s.stackBuf slots len) = s := by
  rcases s with ⟨⟨n, store, m⟩, w⟩
  simp only at h
  subst h
  rfl

theorem putHeap_self {s : SSt α} {v : VecH} (h : s.self.store = .heap v) :
    s.putHeap ⟨v, s.w⟩ = s := by
  rcases s with ⟨⟨n, store, m⟩, w⟩
  simp only at h
  subst h
  rfl

theorem putHeap_refuse {s : SSt α} {v : VecH} (h : s.self.store = .heap v) :
    s.putHeap (St.refuse ⟨v, s.w⟩) = s.refuse := by
  rcases s with ⟨⟨n, store, m⟩, w⟩
  simp only at h
  subst h
  rfl

/-- An operation on the buffer, wherever it is, that always returns. -/
theorem onAny_ok {β : Type} {m : M (Buf α) β} {s : SSt α} {l l' : List α} {a : β}
    (hs : c.size ≠ 0) (h : SRep c s.self s.w l) (hw : s.w.WF)
    (hm : ∀ b, BRep b l → b.cap = Small.capacity c s.self → ∃ b', m b = .ok a b' ∧
      BTrans l' [] b b' ∧ b'.log = b.log) :
    ∃ s', Small.onAny c m s = .ok a s' ∧ SReserved c l' s s' ∧
      Small.capacity c s'.self = Small.capacity c s.self ∧ s'.w.tick = s.w.tick := by
  unfold Small.onAny
  cases hst : s.self.store with
  | stack slots len =>
    obtain ⟨b', e1, e2, e3⟩ := hm (s.stackBuf slots len) (h.brep hst)
      (by simp [St.stackBuf, Small.capacity, hst])
    refine ⟨s.putStack b', ?_, ⟨putStack_trans h hw hst e2, e3, rfl⟩, ?_, rfl⟩
    · rw [onStore_stack hst, e1]
    · simp [Small.capacity, St.putStack, hst]
  | heap v =>
    obtain ⟨t, e1, e2, e3, e4⟩ := onBuf_ok (s := ⟨v, s.w⟩) (l' := l') (m := m) (a := a) hs
      (h.heap v hst) hw
      (fun b hb hc => hm b hb (by simpa [Small.capacity, hst, capacity_eq hs] using hc))
    refine ⟨s.putHeap t, ?_, putHeap_reserved h hst e2, ?_, e4⟩
    · rw [onStore_heap hst, e1]
    · simpa [Small.capacity, St.putHeap, hst, capacity_eq hs] using e3

/-- Looking at the buffer, wherever it is. -/
theorem onAny_look {β : Type} {m : M (Buf α) β} {s : SSt α} {l : List α} {a : β}
    (hs : c.size ≠ 0) (h : SRep c s.self s.w l)
    (hm : ∀ b, BRep b l → m b = .ok a b) : Small.onAny c m s = .ok a s := by
  unfold Small.onAny
  cases hst : s.self.store with
  | stack slots len => rw [onStore_stack hst, hm _ (h.brep hst)]; simp [putStack_self hst]
  | heap v =>
    rw [onStore_heap hst, onBuf_look (hm _ ((h.heap v hst).brep (s := ⟨v, s.w⟩) hs))]
    simp [putHeap_self hst]

/-- The slots seen through `as_ptr` start with the contents. -/
theorem SRep.slotsOf {v : SmallH α} {w : World α} {l : List α} (hs : c.size ≠ 0)
    (h : SRep c v w l) : ∃ rest, Small.slotsOf v w = l.map some ++ rest := by
  cases hst : v.store with
  | stack slots len => simpa [Small.slotsOf, hst] using (h.stack _ _ hst).2.2
  | heap hv =>
    simpa [Small.slotsOf, hst, bufOf] using ((h.heap hv hst).brep (s := ⟨hv, w⟩) hs).holds

end Lokky
