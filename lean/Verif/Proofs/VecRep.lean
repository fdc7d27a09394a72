import Verif.Proofs.Basic

/-!
# What it means that a vector header represents a list, and how operations move between such states
-/

namespace Lokky
variable {α : Type}

/-- No block lives at an address not handed out yet. -/
def World.WF (w : World α) : Prop := ∀ p, w.next ≤ p → w.heap p = none

/-- The vector `v` in world `w` holds the list `l` (element type of non-zero size). -/
structure Rep (c : Cfg α) (v : VecH) (w : World α) (l : List α) : Prop where
  len : v.len = l.length
  buf : (v.ptr = none ∧ v.cap = 0 ∧ l = []) ∨
    ∃ p b rest, v.ptr = some p ∧ w.heap p = some b ∧ b.alloc = v.alloc ∧
      b.bytes = v.cap * c.size ∧ b.slots = l.map some ++ rest ∧ b.slots.length = v.cap ∧
      0 < v.cap ∧ c.Fits v.cap

/-- From `s` to `s'` nothing but the buffer of the vector was touched: other blocks are as before;
if the vector moved, its old block is released and its new one was fresh. -/
structure Own (s s' : VSt α) : Prop where
  frame : ∀ p, some p ≠ s.self.ptr → some p ≠ s'.self.ptr → s'.w.heap p = s.w.heap p
  freed : ∀ p, s.self.ptr = some p → s'.self.ptr ≠ some p → s'.w.heap p = none
  fresh : ∀ p, s'.self.ptr = some p → s.self.ptr ≠ some p → s.w.next ≤ p
  kept : ∀ p, s.self.ptr = some p → s'.self.ptr = none → False
  next : s.w.next ≤ s'.w.next

/-- Allocator and marker of the vector: kept, except that the first allocation takes the allocator
the current scope selects for the vector's marker. -/
structure Place (s s' : VSt α) : Prop where
  marker : s'.self.marker = s.self.marker
  big : 0 < s.self.cap → 0 < s'.self.cap ∧ s'.self.alloc = s.self.alloc
  small : s.self.cap = 0 → (s'.self.cap = 0 ∧ s'.self.alloc = s.self.alloc) ∨
    s'.self.alloc = s.w.allocFor s.self.marker
  scope : s'.w.allocFor = s.w.allocFor

/-- A complete account of a step of a vector: what it holds afterwards, what was dropped, and that
nothing else changed. -/
structure Trans (c : Cfg α) (l' d : List α) (s s' : VSt α) : Prop where
  rep : Rep c s'.self s'.w l'
  wf : s'.w.WF
  own : Own s s'
  place : Place s s'
  drops : s'.w.log.drops = s.w.log.drops ++ d

variable {c : Cfg α}

theorem Own.refl (s : VSt α) : Own s s :=
  ⟨fun _ _ _ => rfl, fun _ h h' => absurd h h', fun _ h h' => absurd h h',
    fun _ h h' => (by rw [h] at h'; cases h'), Nat.le_refl _⟩

theorem Place.refl (s : VSt α) : Place s s :=
  ⟨rfl, fun h => ⟨h, rfl⟩, fun h => Or.inl ⟨h, rfl⟩, rfl⟩

theorem Trans.refl {s : VSt α} {l : List α} (h : Rep c s.self s.w l) (hw : s.w.WF) :
    Trans c l [] s s := ⟨h, hw, Own.refl s, Place.refl s, by simp⟩

theorem Rep.ptr_lt {v : VecH} {w : World α} {l : List α} (h : Rep c v w l) (hw : w.WF) {p : Nat}
    (hp : v.ptr = some p) : p < w.next := by
  rcases h.buf with ⟨h0, _⟩ | ⟨q, b, rest, hq, hb, _⟩
  · rw [h0] at hp; cases hp
  · rw [hq] at hp; cases hp
    apply Nat.lt_of_not_le
    intro hle
    rw [hw p hle] at hb; cases hb

theorem Own.trans {s s' s'' : VSt α} (hw : s.w.WF)
    (h : Own s s') (h' : Own s' s'') : Own s s'' := by
  refine ⟨?_, ?_, ?_, ?_, Nat.le_trans h.next h'.next⟩
  · intro p h1 h2
    by_cases h3 : some p = s'.self.ptr
    · -- the intermediate buffer: fresh in `s`, freed in `s''`
      have e1 := h.fresh p h3.symm (fun e => h1 e.symm)
      have e2 := h'.freed p h3.symm (fun e => h2 e.symm)
      rw [e2, hw p e1]
    · rw [h'.frame p h3 h2, h.frame p h1 h3]
  · intro p h1 h2
    by_cases h3 : s'.self.ptr = some p
    · exact h'.freed p h3 h2
    · have e1 := h.freed p h1 h3
      rw [h'.frame p (fun e => h3 e.symm) (fun e => h2 e.symm), e1]
  · intro p h1 h2
    by_cases h3 : s'.self.ptr = some p
    · exact h.fresh p h3 h2
    · exact Nat.le_trans h.next (h'.fresh p h1 h3)
  · intro p h1 h2
    cases h3 : s'.self.ptr with
    | none => exact h.kept p h1 h3
    | some q => exact h'.kept q h3 h2

theorem Place.trans {s s' s'' : VSt α} (h : Place s s') (h' : Place s' s'') : Place s s'' := by
  refine ⟨h'.marker.trans h.marker, ?_, ?_, h'.scope.trans h.scope⟩
  · intro hb
    obtain ⟨h1, h2⟩ := h.big hb
    obtain ⟨h3, h4⟩ := h'.big h1
    exact ⟨h3, h4.trans h2⟩
  · intro hs
    by_cases h0 : s'.self.cap = 0
    · rcases h'.small h0 with ⟨h5, h6⟩ | h6
      · rcases h.small hs with ⟨_, h4⟩ | h4
        · exact Or.inl ⟨h5, h6.trans h4⟩
        · exact Or.inr (h6.trans h4)
      · right; rw [h6, h.scope, h.marker]
    · obtain ⟨_, h4⟩ := h'.big (Nat.pos_of_ne_zero h0)
      rcases h.small hs with ⟨h5, _⟩ | h5
      · exact absurd h5 h0
      · exact Or.inr (h4.trans h5)

theorem Trans.trans {s s' s'' : VSt α} {l' l'' d d' : List α}
    (hw : s.w.WF) (h : Trans c l' d s s') (h' : Trans c l'' d' s' s'') :
    Trans c l'' (d ++ d') s s'' :=
  ⟨h'.rep, h'.wf, h.own.trans hw h'.own, h.place.trans h'.place,
    by rw [h'.drops, h.drops, List.append_assoc]⟩

/-! ## Working on the buffer -/

/-- The buffer a vector header gives access to. -/
def bufOf (c : Cfg α) (s : VSt α) : Buf α :=
  ⟨s.w.slots s.self.ptr, Vec.capacity c s.self, s.self.len, s.w.log⟩

theorem capacity_eq (hs : c.size ≠ 0) (v : VecH) : Vec.capacity c v = v.cap := by
  simp [Vec.capacity, hs]

theorem Rep.brep {s : VSt α} {l : List α} (hs : c.size ≠ 0) (h : Rep c s.self s.w l) :
    BRep (bufOf c s) l := by
  refine ⟨h.len, ?_, ?_⟩
  · rcases h.buf with ⟨h0, h1, _⟩ | ⟨p, b, rest, hp, hb, _, _, _, h5, _⟩
    · simp [bufOf, World.slots, h0, capacity_eq hs, h1]
    · simp [bufOf, World.slots, hp, hb, capacity_eq hs, h5]
  · rcases h.buf with ⟨h0, h1, h2⟩ | ⟨p, b, rest, hp, hb, _, _, h4, _, _⟩
    · exact ⟨[], by simp [bufOf, World.slots, h0, h2]⟩
    · exact ⟨rest, by simp [bufOf, World.slots, hp, hb, h4]⟩

/-- What the state becomes when the buffer is changed to `b`. -/
def putBuf (s : VSt α) (b : Buf α) : VSt α :=
  ⟨{ s.self with len := b.len }, { s.w.setSlots s.self.ptr b.slots with log := b.log }⟩

theorem onBuf_eq {β : Type} (m : M (Buf α) β) (s : VSt α) :
    Vec.onBuf c m s = match m (bufOf c s) with
      | .ok a b => .ok a (putBuf s b)
      | .panic b => .panic (putBuf s b)
      | .abort => .abort
      | .ub u => .ub u := by
  simp only [Vec.onBuf, bufOf, putBuf]
  split <;> simp_all

@[simp] theorem World.setSlots_next (w : World α) (p : Option Nat) (ss : List (Option α)) :
    (w.setSlots p ss).next = w.next := by
  unfold World.setSlots; split
  · rfl
  · split <;> rfl
@[simp] theorem World.setSlots_allocFor (w : World α) (p : Option Nat) (ss : List (Option α)) :
    (w.setSlots p ss).allocFor = w.allocFor := by
  unfold World.setSlots; split
  · rfl
  · split <;> rfl
@[simp] theorem World.setSlots_tick (w : World α) (p : Option Nat) (ss : List (Option α)) :
    (w.setSlots p ss).tick = w.tick := by
  unfold World.setSlots; split
  · rfl
  · split <;> rfl
@[simp] theorem World.setSlots_refusals (w : World α) (p : Option Nat) (ss : List (Option α)) :
    (w.setSlots p ss).refusals = w.refusals := by
  unfold World.setSlots; split
  · rfl
  · split <;> rfl

theorem World.setSlots_heap_ne (w : World α) (p : Option Nat) (ss : List (Option α)) {q : Nat}
    (h : some q ≠ p) : (w.setSlots p ss).heap q = w.heap q := by
  unfold World.setSlots; split
  · rfl
  · rename_i r
    split
    · rfl
    · have : q ≠ r := fun e => h (by rw [e])
      simp [this]

theorem World.setSlots_heap_self (w : World α) (p : Nat) (ss : List (Option α)) {b : Block α}
    (h : w.heap p = some b) :
    (w.setSlots (some p) ss).heap p = some { b with slots := ss } := by
  simp [World.setSlots, h]

theorem World.setSlots_heap_none (w : World α) (p : Option Nat) (ss : List (Option α)) {q : Nat}
    (h : w.heap q = none) : (w.setSlots p ss).heap q = none := by
  by_cases hq : some q = p
  · subst hq; simp [World.setSlots, h]
  · rw [World.setSlots_heap_ne _ _ _ hq, h]

theorem putBuf_trans {s : VSt α} {l l' d : List α} (hs : c.size ≠ 0) (h : Rep c s.self s.w l)
    (hw : s.w.WF) {b : Buf α} (hb : BTrans l' d (bufOf c s) b) : Trans c l' d s (putBuf s b) := by
  have hcap : b.slots.length = s.self.cap := by
    rw [hb.rep.cap, hb.cap]; simp [bufOf, capacity_eq hs]
  refine ⟨⟨hb.rep.len, ?_⟩, ?_, ?_, ?_, hb.drops⟩
  · rcases h.buf with ⟨h0, h1, _⟩ | ⟨p, b', rest, hp, hb', h3, h4, _, _, h5, h6⟩
    · refine Or.inl ⟨h0, h1, ?_⟩
      have := hb.rep.le_cap
      rw [← hb.rep.cap, hcap, h1] at this
      exact List.length_eq_zero_iff.mp (Nat.le_zero.mp this)
    · obtain ⟨rest', hr'⟩ := hb.rep.holds
      refine Or.inr ⟨p, { b' with slots := b.slots }, rest', hp, ?_, h3, h4, hr', hcap, h5, h6⟩
      simp only [putBuf, hp]
      exact World.setSlots_heap_self _ _ _ hb'
  · intro p hp
    simp only [putBuf, World.setSlots_next] at hp ⊢
    exact World.setSlots_heap_none _ _ _ (hw p hp)
  · refine ⟨?_, ?_, ?_, ?_, ?_⟩
    · intro p h1 _
      exact World.setSlots_heap_ne _ _ _ h1
    · intro p h1 h2; exact absurd h1 h2
    · intro p h1 h2; exact absurd h1 h2
    · intro p h1 h2
      simp only [putBuf] at h2
      rw [h1] at h2; cases h2
    · simp [putBuf]
  · refine ⟨rfl, fun h => ⟨h, rfl⟩, fun h => Or.inl ⟨h, rfl⟩, ?_⟩
    simp [putBuf]

/-- Lifting a statement about buffers to vectors. -/
theorem onBuf_sat {β : Type} {m : M (Buf α) β} {s : VSt α} {l : List α} (hs : c.size ≠ 0)
    (h : Rep c s.self s.w l) {Q : β → Buf α → Prop} {E : Buf α → Prop}
    {Q' : β → VSt α → Prop} {E' : VSt α → Prop}
    (hm : ∀ b, BRep b l → b = bufOf c s → Sat c (m b) Q E)
    (hQ : ∀ a b, Q a b → Q' a (putBuf s b)) (hE : ∀ b, E b → E' (putBuf s b)) :
    Sat c (Vec.onBuf c m s) Q' E' := by
  rw [onBuf_eq]
  have := hm (bufOf c s) (h.brep hs) rfl
  cases hr : m (bufOf c s) <;> simp_all [Sat]

theorem onBuf_sat0 {β : Type} {m : M (Buf α) β} {s : VSt α} {Q : β → Buf α → Prop}
    {E : Buf α → Prop} {Q' : β → VSt α → Prop} {E' : VSt α → Prop}
    (hm : Sat c (m (bufOf c s)) Q E)
    (hQ : ∀ a b, Q a b → Q' a (putBuf s b)) (hE : ∀ b, E b → E' (putBuf s b)) :
    Sat c (Vec.onBuf c m s) Q' E' := by
  rw [onBuf_eq]
  cases hr : m (bufOf c s) <;> simp_all [Sat]

@[simp] theorem putBuf_tick (s : VSt α) (b : Buf α) : (putBuf s b).w.tick = s.w.tick := by
  simp [putBuf]
@[simp] theorem putBuf_refusals (s : VSt α) (b : Buf α) :
    (putBuf s b).w.refusals = s.w.refusals := by simp [putBuf]
@[simp] theorem putBuf_cap (s : VSt α) (b : Buf α) : (putBuf s b).self.cap = s.self.cap := rfl
@[simp] theorem putBuf_log (s : VSt α) (b : Buf α) : (putBuf s b).w.log = b.log := rfl
@[simp] theorem putBuf_len (s : VSt α) (b : Buf α) : (putBuf s b).self.len = b.len := rfl
@[simp] theorem bufOf_log (s : VSt α) : (bufOf c s).log = s.w.log := rfl

end Lokky
