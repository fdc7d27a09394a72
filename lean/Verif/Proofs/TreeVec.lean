import Verif.Proofs.TreeBorrows

/-!
# Lemmas on vectors under Tree Borrows
-/

open Lokky.Alias

namespace Lokky.TB

/-- The state of a vector with a block of `cap` slots. -/
structure VInv (cap : Nat) (s : St) : Prop where
  inv : Inv s
  live : ∀ i, i < cap → s.live i = true

/-- A pointer that came from the vector's own by `&mut`s that were not written through. -/
def IsRes (cap t : Nat) (s : St) : Prop := t < s.next ∧ ∀ i, i < cap → Res s t i

/-- A pointer that may read. -/
def IsShr (cap t : Nat) (s : St) : Prop := t < s.next ∧ ∀ i, i < cap → CanR s t i

theorem IsRes.rd {cap t : Nat} {s s' : St} (h : IsRes cap t s) (hs : VInv cap s) (hr : Rd s s') :
    IsRes cap t s' :=
  ⟨Nat.lt_of_lt_of_le h.1 hr.next, fun i hi => (h.2 i hi).rd hs.inv h.1 hr⟩

theorem IsShr.rd {cap t : Nat} {s s' : St} (h : IsShr cap t s) (hs : VInv cap s) (hr : Rd s s') :
    IsShr cap t s' :=
  ⟨Nat.lt_of_lt_of_le h.1 hr.next, fun i hi => (h.2 i hi).rd hs.inv h.1 hr⟩

theorem IsRes.shr {cap t : Nat} {s : St} (h : IsRes cap t s) (hs : VInv cap s) : IsShr cap t s :=
  ⟨h.1, fun i hi => ((h.2 i hi).canW hs.inv).canR⟩

theorem VInv.root {cap : Nat} {s : St} (h : VInv cap s) : IsRes cap 0 s :=
  ⟨h.inv.pos, fun i hi => h.inv.res_root (h.live i hi)⟩

theorem VInv.rd {cap : Nat} {s s' : St} (h : VInv cap s) (hi : Inv s') (hr : Rd s s') :
    VInv cap s' := ⟨hi, fun i hl => by rw [hr.live]; exact h.live i hl⟩

theorem VInv.wr {cap lo n : Nat} {s s' : St} (h : VInv cap s) (hi : Inv s') (hr : Wr lo n s s') :
    VInv cap s' := ⟨hi, fun i hl => by rw [hr.live]; exact h.live i hl⟩

/-! ## Primitives -/

theorem VInv.readAt {cap t lo n : Nat} {s : St} (h : VInv cap s) (ht : IsShr cap t s)
    (hn : lo + n ≤ cap) :
    ∃ s', Mach.readAt t lo n s = some ((), s') ∧ VInv cap s' ∧ Rd s s' := by
  obtain ⟨s', e, hi, hr, _⟩ := h.inv.readAt (t := t) (lo := lo) (n := n) fun i _ hu =>
    ht.2 i (by omega)
  exact ⟨s', e, h.rd hi hr, hr⟩

theorem VInv.writeAt {cap t lo n : Nat} {s : St} (h : VInv cap s)
    (ht : ∀ i, lo ≤ i → i < lo + n → Res s t i) :
    ∃ s', Mach.writeAt t lo n s = some ((), s') ∧ VInv cap s' ∧ Wr lo n s s' := by
  obtain ⟨s', e, hi, hr, _⟩ := h.inv.writeAt (t := t) (lo := lo) (n := n) fun i hl hu =>
    (ht i hl hu).canW h.inv
  exact ⟨s', e, h.wr hi hr, hr⟩

theorem VInv.mutRef {cap t lo n : Nat} {s : St} (h : VInv cap s) (ht : IsRes cap t s)
    (hn : lo + n ≤ cap) :
    ∃ u s', Mach.mutRef t lo n s = some (u, s') ∧ VInv cap s' ∧ Rd s s' ∧ IsRes cap u s' := by
  obtain ⟨s', e, hi, hr, hx, hq, _⟩ := h.inv.mutRef (t := t) (lo := lo) (n := n) fun i _ hu =>
    (ht.shr h).2 i (by omega)
  exact ⟨_, s', e, h.rd hi hr, hr, by omega, fun i hl => hq i (ht.2 i hl)⟩

theorem VInv.rawMut {cap t lo n : Nat} {s : St} (h : VInv cap s) (ht : IsRes cap t s) :
    ∃ u s', Mach.rawMut t lo n s = some (u, s') ∧ VInv cap s' ∧ Rd s s' ∧ IsRes cap u s' := by
  obtain ⟨s', e, hi, hr, hx, hq, _⟩ := h.inv.rawMut (t := t) (lo := lo) (n := n)
  exact ⟨_, s', e, h.rd hi hr, hr, by omega, fun i hl => hq i (ht.2 i hl)⟩

theorem VInv.shrRef {cap t lo n : Nat} {s : St} (h : VInv cap s) (ht : IsShr cap t s)
    (hn : lo + n ≤ cap) :
    ∃ u s', Mach.shrRef t lo n s = some (u, s') ∧ VInv cap s' ∧ Rd s s' ∧ IsShr cap u s' := by
  obtain ⟨s', e, hi, hr, hx, hq⟩ := h.inv.shrRef (t := t) (lo := lo) (n := n) fun i _ hu =>
    ht.2 i (by omega)
  exact ⟨_, s', e, h.rd hi hr, hr, by omega, fun i hl => hq i (ht.2 i hl)⟩

/-! ## Code that only reads -/

/-- Code that works in every state, and only reads. -/
def Shr {β : Type} (cap : Nat) (m : B β) (Q : β → St → Prop) : Prop :=
  ∀ s, VInv cap s → ∃ b s', m s = some (b, s') ∧ VInv cap s' ∧ Rd s s' ∧ Q b s'

/-- Nothing more is known. -/
def Any {β : Type} (_ : β) (_ : St) : Prop := True

theorem shr_capacity (cap : Nat) : Shr cap (Alias.capacity cap) Any := by
  intro s h
  obtain ⟨u, s1, e1, h1, r1, _⟩ := h.shrRef (t := 0) (lo := 0) (n := cap) (h.root.shr h) (by omega)
  exact ⟨(), s1, by simp only [Alias.capacity]; rw [bind_some e1]; rfl, h1, r1, trivial⟩

theorem shr_setLen (cap : Nat) (dbg : Bool) : Shr cap (Alias.setLen dbg cap) Any := by
  unfold Alias.setLen
  split
  · exact shr_capacity cap
  · exact fun s h => ⟨(), s, rfl, h, Rd.refl s, trivial⟩

theorem shr_sliceMut {cap n : Nat} (hn : n ≤ cap) : Shr cap (Alias.sliceMut cap n) (IsRes cap) := by
  intro s h
  obtain ⟨a, s1, e1, h1, r1, q1⟩ := h.mutRef (lo := 0) (n := cap) h.root (by omega)
  obtain ⟨p, s2, e2, h2, r2, q2⟩ := h1.rawMut (lo := 0) (n := cap) q1
  obtain ⟨u, s3, e3, h3, r3, q3⟩ := h2.mutRef (lo := 0) (n := n) q2 (by omega)
  refine ⟨u, s3, ?_, h3, (r1.trans r2).trans r3, q3⟩
  simp only [Alias.sliceMut]
  rw [bind_some e1, bind_some e2, e3]

theorem shr_slice {cap n : Nat} (hn : n ≤ cap) : Shr cap (Alias.slice cap n) (IsShr cap) := by
  intro s h
  obtain ⟨a, s1, e1, h1, r1, q1⟩ := h.shrRef (lo := 0) (n := cap) (h.root.shr h) (by omega)
  obtain ⟨u, s2, e2, h2, r2, q2⟩ := h1.shrRef (lo := 0) (n := n) q1 (by omega)
  refine ⟨u, s2, ?_, h2, r1.trans r2, q2⟩
  simp only [Alias.slice]
  rw [bind_some e1, e2]

theorem shr_asMutPtr {cap n : Nat} (hn : n ≤ cap) : Shr cap (Alias.asMutPtr cap n) (IsRes cap) := by
  intro s h
  obtain ⟨a, s1, e1, h1, r1, q1⟩ := shr_sliceMut hn s h
  obtain ⟨p, s2, e2, h2, r2, q2⟩ := h1.rawMut (lo := 0) (n := n) q1
  refine ⟨p, s2, ?_, h2, r1.trans r2, q2⟩
  simp only [Alias.asMutPtr]
  rw [bind_some e1, e2]

theorem shr_asPtr {cap n : Nat} (hn : n ≤ cap) : Shr cap (Alias.asPtr cap n) (IsShr cap) :=
  shr_slice hn

theorem shr_getRef {cap len i : Nat} (hn : len ≤ cap) (hi : i < len) :
    Shr cap (Alias.getRef cap len i) (IsShr cap) := by
  intro s h
  obtain ⟨a, s1, e1, h1, r1, q1⟩ := shr_slice hn s h
  obtain ⟨u, s2, e2, h2, r2, q2⟩ := h1.shrRef (lo := i) (n := 1) q1 (by omega)
  refine ⟨u, s2, ?_, h2, r1.trans r2, q2⟩
  simp only [Alias.getRef]
  rw [bind_some e1, e2]

theorem shr_getMut {cap len i : Nat} (hn : len ≤ cap) (hi : i < len) :
    Shr cap (Alias.getMut cap len i) (IsRes cap) := by
  intro s h
  obtain ⟨a, s1, e1, h1, r1, q1⟩ := shr_sliceMut hn s h
  obtain ⟨u, s2, e2, h2, r2, q2⟩ := h1.mutRef (lo := i) (n := 1) q1 (by omega)
  refine ⟨u, s2, ?_, h2, r1.trans r2, q2⟩
  simp only [Alias.getMut]
  rw [bind_some e1, e2]

theorem shr_getMutPtr {cap len i : Nat} (hn : len ≤ cap) (hi : i < len) :
    Shr cap (Alias.getMutPtr cap len i) (IsRes cap) := by
  intro s h
  obtain ⟨a, s1, e1, h1, r1, q1⟩ := shr_getMut hn hi s h
  obtain ⟨u, s2, e2, h2, r2, q2⟩ := h1.rawMut (lo := i) (n := 1) q1
  refine ⟨u, s2, ?_, h2, r1.trans r2, q2⟩
  simp only [Alias.getMutPtr]
  rw [bind_some e1, e2]

theorem shr_spareCapacity {cap len : Nat} (hn : len ≤ cap) :
    Shr cap (Alias.spareCapacity cap len) (IsShr cap) := by
  intro s h
  obtain ⟨a, s1, e1, h1, r1, q1⟩ := shr_asPtr hn s h
  obtain ⟨_, s2, e2, h2, r2, _⟩ := shr_capacity cap s1 h1
  obtain ⟨u, s3, e3, h3, r3, q3⟩ := h2.shrRef (lo := len) (n := cap - len) (q1.rd h1 r2) (by omega)
  refine ⟨u, s3, ?_, h3, (r1.trans r2).trans r3, q3⟩
  simp only [Alias.spareCapacity]
  rw [bind_some e1, bind_some e2, e3]

theorem shr_spareCapacityMut {cap len : Nat} (hn : len ≤ cap) :
    Shr cap (Alias.spareCapacityMut cap len) (IsRes cap) := by
  intro s h
  obtain ⟨a, s1, e1, h1, r1, q1⟩ := shr_asMutPtr hn s h
  obtain ⟨_, s2, e2, h2, r2, _⟩ := shr_capacity cap s1 h1
  obtain ⟨u, s3, e3, h3, r3, q3⟩ := h2.mutRef (lo := len) (n := cap - len) (q1.rd h1 r2) (by omega)
  refine ⟨u, s3, ?_, h3, (r1.trans r2).trans r3, q3⟩
  simp only [Alias.spareCapacityMut]
  rw [bind_some e1, bind_some e2, e3]

theorem shr_intoSlice {cap len i : Nat} (hn : len ≤ cap) (hi : i ≤ len) :
    Shr cap (Alias.intoSlice cap len i) (IsShr cap) := by
  intro s h
  obtain ⟨a, s1, e1, h1, r1, q1⟩ := shr_asPtr hn s h
  obtain ⟨u, s2, e2, h2, r2, q2⟩ := h1.shrRef (lo := i) (n := len - i) q1 (by omega)
  refine ⟨u, s2, ?_, h2, r1.trans r2, q2⟩
  simp only [Alias.intoSlice]
  rw [bind_some e1, e2]

theorem shr_intoSliceMut {cap len i : Nat} (hn : len ≤ cap) (hi : i ≤ len) :
    Shr cap (Alias.intoSliceMut cap len i) (IsRes cap) := by
  intro s h
  obtain ⟨a, s1, e1, h1, r1, q1⟩ := shr_asMutPtr hn s h
  obtain ⟨u, s2, e2, h2, r2, q2⟩ := h1.mutRef (lo := i) (n := len - i) q1 (by omega)
  refine ⟨u, s2, ?_, h2, r1.trans r2, q2⟩
  simp only [Alias.intoSliceMut]
  rw [bind_some e1, e2]

/-- `ptr::read` of elements. -/
theorem shr_read {cap len i k n : Nat} (hn : len ≤ cap) (hi : i < len) (hk : k + n ≤ cap) :
    Shr cap (do let r ← Alias.getRef cap len i; Mach.readAt r k n) Any := by
  intro s h
  obtain ⟨a, s1, e1, h1, r1, q1⟩ := shr_getRef hn hi s h
  obtain ⟨s2, e2, h2, r2⟩ := h1.readAt (lo := k) (n := n) q1 hk
  exact ⟨(), s2, by rw [bind_some e1, e2], h2, r1.trans r2, trivial⟩

theorem shr_intoNext {cap len i : Nat} (hn : len ≤ cap) (hi : i < len) :
    Shr cap (Alias.intoNext cap len i) Any := shr_read hn hi (by omega)

theorem shr_splitOff {cap len k : Nat} (hn : len ≤ cap) : Shr cap (Alias.splitOff cap len k) Any := by
  unfold Alias.splitOff
  split
  · exact fun s h => ⟨(), s, rfl, h, Rd.refl s, trivial⟩
  · exact shr_read hn (by omega) (by omega)

theorem shr_pop {cap len : Nat} (dbg : Bool) (hn : len ≤ cap) (h0 : 0 < len) :
    Shr cap (Alias.pop dbg cap len) Any := by
  intro s h
  obtain ⟨a, s1, e1, h1, r1, q1⟩ := shr_getRef (i := len - 1) hn (by omega) s h
  obtain ⟨s2, e2, h2, r2⟩ := h1.readAt (lo := len - 1) (n := 1) q1 (by omega)
  obtain ⟨_, s3, e3, h3, r3, _⟩ := shr_setLen cap dbg s2 h2
  exact ⟨(), s3, by simp only [Alias.pop]; rw [bind_some e1, bind_some e2, e3], h3,
    (r1.trans r2).trans r3, trivial⟩

/-! ## Code that writes -/

/-- Code that works in every state. -/
def Wrk {β : Type} (cap : Nat) (m : B β) : Prop :=
  ∀ s, VInv cap s → ∃ b s', m s = some (b, s') ∧ VInv cap s'

theorem Shr.wrk {β : Type} {cap : Nat} {m : B β} {Q : β → St → Prop} (h : Shr cap m Q) :
    Wrk cap m := by
  intro s hs
  obtain ⟨b, s1, e1, h1, _⟩ := h s hs
  exact ⟨b, s1, e1, h1⟩

theorem wrk_ret {β : Type} {cap : Nat} (b : β) : Wrk cap (ret b : B β) := fun s h => ⟨b, s, rfl, h⟩

theorem Wrk.bind {β γ : Type} {cap : Nat} {m : B β} {k : β → B γ} (h : Wrk cap m)
    (hk : ∀ b, Wrk cap (k b)) : Wrk cap (m >>= k) := by
  intro s hs
  obtain ⟨b, s1, e1, h1⟩ := h s hs
  obtain ⟨c, s2, e2, h2⟩ := hk b s1 h1
  exact ⟨c, s2, by rw [bind_some e1, e2], h2⟩

/-- First something that makes a pointer, then something with it. -/
theorem Shr.use {γ : Type} {cap : Nat} {m : B Nat} {k : Nat → B γ} {Q : Nat → St → Prop}
    (h : Shr cap m Q)
    (hk : ∀ b s, VInv cap s → Q b s → ∃ c s', k b s = some (c, s') ∧ VInv cap s') :
    Wrk cap (m >>= k) := by
  intro s hs
  obtain ⟨b, s1, e1, h1, _, q1⟩ := h s hs
  obtain ⟨c, s2, e2, h2⟩ := hk b s1 h1 q1
  exact ⟨c, s2, by rw [bind_some e1, e2], h2⟩

theorem Wrk.at {β γ : Type} {cap : Nat} {m : B β} {k : β → B γ} {s s1 : St} {b : β}
    (h : Wrk cap (k b)) (e : m s = some (b, s1)) (h1 : VInv cap s1) :
    ∃ c s', (m >>= k) s = some (c, s') ∧ VInv cap s' := by
  obtain ⟨c, s2, e2, h2⟩ := h s1 h1
  exact ⟨c, s2, by rw [bind_some e, e2], h2⟩

theorem VInv.dropAt {cap t i : Nat} {s : St} (h : VInv cap s)
    (hr : Res s t i) :
    ∃ s', Alias.dropAt t i s = some ((), s') ∧ VInv cap s' ∧ s.next ≤ s'.next ∧
      ∀ u j, u < s.next → j ≠ i → Res s u j → Res s' u j := by
  obtain ⟨s1, e1, i1, r1, n1, q1, _⟩ := h.inv.mutRef (t := t) (lo := i) (n := 1) fun j h1 h2 => by
    have : j = i := by omega
    subst this; exact (hr.canW h.inv).canR
  have h1 := h.rd i1 r1
  obtain ⟨s2, e2, h2, w2⟩ := h1.writeAt (t := s.next) (lo := i) (n := 1) fun j h1 h2 => by
    have : j = i := by omega
    subst this; exact q1 j hr
  refine ⟨s2, ?_, h2, by rw [w2.next]; omega, fun u j hu hj hur => ?_⟩
  · simp only [Alias.dropAt]
    rw [bind_some e1, e2]
  · exact (hur.rd h.inv hu r1).wr w2 (by omega)

/-- Dropping elements through one pointer. -/
theorem VInv.dropAll {cap t : Nat} (n : Nat) : ∀ {i : Nat} {s : St}, VInv cap s → i + n ≤ cap →
    t < s.next → (∀ j, i ≤ j → j < i + n → Res s t j) →
    ∃ s', forUp (fun k => Alias.dropAt t k) i n s = some ((), s') ∧ VInv cap s' := by
  induction n with
  | zero => intro i s h _ _ _; exact ⟨s, rfl, h⟩
  | succ n ih =>
    intro i s h hn ht hr
    obtain ⟨s1, e1, h1, n1, k1⟩ := h.dropAt (t := t) (i := i)
      (hr i (Nat.le_refl _) (by omega))
    obtain ⟨s2, e2, h2⟩ := ih (i := i + 1) h1 (by omega) (by omega) fun j hl hu =>
      k1 t j ht (by omega) (hr j (by omega) (by omega))
    refine ⟨s2, ?_, h2⟩
    simp only [forUp]
    rw [bind_some e1, e2]

/-- Doing something for many slots. -/
theorem wrk_forUp {cap : Nat} {f : Nat → B Unit} (n : Nat) : ∀ i, (∀ j, i ≤ j → j < i + n → Wrk cap (f j)) →
    Wrk cap (forUp f i n) := by
  induction n with
  | zero => intro i _; exact wrk_ret ()
  | succ n ih =>
    intro i h
    exact (h i (Nat.le_refl _) (by omega)).bind fun _ => ih (i + 1) fun j hl hu =>
      h j (by omega) (by omega)

theorem wrk_dropElem {cap len i : Nat} (hn : len ≤ cap) (hi : i < len) :
    Wrk cap (do let r ← Alias.getMut cap len i; Alias.dropAt r i) :=
  (shr_getMut hn hi).use fun t s h q => by
    obtain ⟨s', e, h', _⟩ := h.dropAt (t := t) (i := i) (q.2 i (by omega))
    exact ⟨(), s', e, h'⟩

theorem wrk_discardNext {cap len i : Nat} (hn : len ≤ cap) (hi : i < len) :
    Wrk cap (Alias.discardNext cap len i) := wrk_dropElem hn hi

theorem wrk_clear {cap len : Nat} (dbg : Bool) (hn : len ≤ cap) : Wrk cap (Alias.clear dbg cap len) :=
  (wrk_forUp len 0 fun j _ hj => wrk_dropElem hn (by omega)).bind fun _ => (shr_setLen cap dbg).wrk

/-- Writing through the pointer of a vector. -/
theorem wrk_fill {cap len lo n : Nat} (hn : len ≤ cap) (hl : lo + n ≤ cap) {m : B Unit}
    (hm : Wrk cap m) :
    Wrk cap (do let p ← Alias.asMutPtr cap len; Mach.writeAt p lo n; m) :=
  (shr_asMutPtr hn).use fun t s h q => by
    obtain ⟨s', e, h', _⟩ := h.writeAt (t := t) (lo := lo) (n := n) fun i _ _ => q.2 i (by omega)
    exact hm.at e h'

theorem wrk_fill' {cap len lo n : Nat} (hn : len ≤ cap) (hl : lo + n ≤ cap) :
    Wrk cap (do let p ← Alias.asMutPtr cap len; Mach.writeAt p lo n) :=
  (shr_asMutPtr hn).use fun t s h q => by
    obtain ⟨s', e, h', _⟩ := h.writeAt (t := t) (lo := lo) (n := n) fun i _ _ => q.2 i (by omega)
    exact ⟨(), s', e, h'⟩

theorem wrk_push {cap len : Nat} (dbg : Bool) (hn : len < cap) : Wrk cap (Alias.push dbg cap len) :=
  (shr_capacity cap).wrk.bind fun _ => wrk_fill (by omega) (by omega) (shr_setLen cap dbg).wrk

theorem wrk_append {cap len n : Nat} (dbg : Bool) (hn : len + n ≤ cap) :
    Wrk cap (Alias.append dbg cap len n) :=
  (shr_capacity cap).wrk.bind fun _ => wrk_fill (by omega) (by omega) (shr_setLen cap dbg).wrk

theorem wrk_splitOffNew (n : Nat) : Wrk n (Alias.splitOffNew n) := wrk_fill' (by omega) (by omega)

theorem wrk_fromArray (dbg : Bool) (n : Nat) : Wrk n (Alias.fromArray dbg n) :=
  (shr_capacity n).wrk.bind fun _ => wrk_fill (by omega) (by omega) (shr_setLen n dbg).wrk

theorem wrk_moveToHeap {cap n : Nat} (hn : n ≤ cap) : Wrk cap (Alias.moveToHeap cap n) :=
  wrk_fill' (by omega) (by omega)

theorem wrk_moveToStack {cap n : Nat} (hn : n ≤ cap) : Wrk cap (Alias.moveToStack cap n) :=
  wrk_fill' (by omega) (by omega)

theorem wrk_swapRemove {cap len i : Nat} (dbg : Bool) (hn : len ≤ cap) (hi : i < len) :
    Wrk cap (Alias.swapRemove dbg cap len i) := by
  unfold Alias.swapRemove
  split
  · exact (shr_pop dbg hn (by omega)).wrk
  · refine (shr_getMutPtr hn hi).use fun e s h q => ?_
    obtain ⟨l, s1, e1, h1, r1, q1⟩ := shr_getMutPtr (i := len - 1) hn (by omega) s h
    have q := q.rd h r1
    obtain ⟨s2, e2, h2, r2⟩ := h1.readAt (lo := i) (n := 1) (q.shr h1) (by omega)
    have q := q.rd h1 r2
    have q1 := q1.rd h1 r2
    obtain ⟨s3, e3, h3, r3⟩ := h2.readAt (lo := len - 1) (n := 1) (q1.shr h2) (by omega)
    have q := q.rd h2 r3
    obtain ⟨s4, e4, h4, _⟩ := h3.writeAt (t := e) (lo := i) (n := 1) fun j _ _ => q.2 j (by omega)
    obtain ⟨_, s5, e5, h5, _⟩ := shr_setLen cap dbg s4 h4
    have ec : copyAt l (len - 1) e i 1 s2 = some ((), s4) := by
      simp only [copyAt]; rw [bind_some e3, e4]
    exact ⟨(), s5, by rw [bind_some e1, bind_some e2, bind_some ec, e5], h5⟩

theorem wrk_insert {cap len i : Nat} (dbg : Bool) (hn : len < cap) (hi : i ≤ len) :
    Wrk cap (Alias.insert dbg cap len i) := by
  refine (shr_capacity cap).wrk.bind fun _ => ?_
  refine (shr_sliceMut (n := len + 1) (by omega)).use fun a s h q => ?_
  obtain ⟨b, s1, e1, h1, r1, q1⟩ := h.mutRef (lo := i) (n := 1) q (by omega)
  obtain ⟨p, s2, e2, h2, r2, q2⟩ := h1.rawMut (lo := i) (n := 1) q1
  obtain ⟨s3, e3, h3, r3⟩ := h2.readAt (lo := i) (n := len - i) (q2.shr h2) (by omega)
  have q3 := q2.rd h2 r3
  obtain ⟨s4, e4, h4, w4⟩ := h3.writeAt (t := p) (lo := i + 1) (n := len - i) fun j _ _ =>
    q3.2 j (by omega)
  obtain ⟨s5, e5, h5, _⟩ := h4.writeAt (t := p) (lo := i) (n := 1) fun j _ _ =>
    (q3.2 j (by omega)).wr w4 (by omega)
  obtain ⟨_, s6, e6, h6, _⟩ := shr_setLen cap dbg s5 h5
  have ec : copyAt p i p (i + 1) (len - i) s2 = some ((), s4) := by
    simp only [copyAt]; rw [bind_some e3, e4]
  exact ⟨(), s6, by rw [bind_some e1, bind_some e2, bind_some ec, bind_some e5, e6], h6⟩

theorem wrk_truncate {cap len n : Nat} (dbg : Bool) (hn : len ≤ cap) :
    Wrk cap (Alias.truncate dbg cap len n) := by
  unfold Alias.truncate
  split
  · exact wrk_ret ()
  · refine (shr_asMutPtr hn).use fun p s h q => ?_
    obtain ⟨_, s1, e1, h1, r1, _⟩ := shr_setLen cap dbg s h
    have q := q.rd h r1
    obtain ⟨s2, e2, h2⟩ := h1.dropAll (t := p) (len - n) (i := n) (by omega) q.1 fun j _ _ =>
      q.2 j (by omega)
    exact ⟨(), s2, by rw [bind_some e1, e2], h2⟩

theorem wrk_remove {cap len i : Nat} (dbg : Bool) (hn : len ≤ cap) (hi : i < len) :
    Wrk cap (Alias.remove dbg cap len i) := by
  refine (shr_getMutPtr hn hi).use fun p s h q => ?_
  obtain ⟨s1, e1, h1, r1⟩ := h.readAt (lo := i) (n := 1) (q.shr h) (by omega)
  have q := q.rd h r1
  obtain ⟨s2, e2, h2, r2⟩ := h1.readAt (lo := i + 1) (n := len - i - 1) (q.shr h1) (by omega)
  have q := q.rd h1 r2
  obtain ⟨s3, e3, h3, _⟩ := h2.writeAt (t := p) (lo := i) (n := len - i - 1) fun j _ _ =>
    q.2 j (by omega)
  obtain ⟨_, s4, e4, h4, _⟩ := shr_setLen cap dbg s3 h3
  have ec : copyAt p (i + 1) p i (len - i - 1) s1 = some ((), s3) := by
    simp only [copyAt]; rw [bind_some e2, e3]
  exact ⟨(), s4, by rw [bind_some e1, bind_some ec, e4], h4⟩

theorem wrk_dropVec {cap len : Nat} (hn : len ≤ cap) : Wrk cap (Alias.dropVec cap len) := by
  refine (shr_capacity cap).wrk.bind fun _ =>
    (wrk_forUp len 0 fun j _ hj => wrk_dropElem hn (by omega)).bind fun _ => fun s h => ?_
  obtain ⟨s', e, h', _⟩ := h.writeAt (t := 0) (lo := 0) (n := cap) fun i _ hi =>
    h.root.2 i (by omega)
  exact ⟨(), s', e, h'⟩

theorem wrk_intoDrop {cap len i : Nat} (dbg : Bool) (hn : len ≤ cap) (hi : i ≤ len) :
    Wrk cap (Alias.intoDrop dbg cap len i) := by
  refine (shr_setLen cap dbg).wrk.bind fun _ => ?_
  refine (shr_asMutPtr (n := 0) (Nat.zero_le _)).use fun p s h q => ?_
  obtain ⟨b, s1, e1, h1, _, q1⟩ := h.mutRef (lo := i) (n := len - i) q (by omega)
  obtain ⟨s2, e2, h2⟩ := h1.dropAll (t := b) (len - i) (i := i) (by omega) q1.1 fun j _ _ =>
    q1.2 j (by omega)
  exact ⟨(), s2, by rw [bind_some e1, e2], h2⟩

theorem wrk_keepNext {cap len read write : Nat} (dbg : Bool) (hn : len ≤ cap) (hr : read < len)
    (hw : write < len) : Wrk cap (Alias.keepNext dbg cap len read write) := by
  have : Wrk cap (Alias.retainCopy cap len read write) := by
    refine (shr_getRef hn hr).use fun r s h q => ?_
    obtain ⟨w, s1, e1, h1, r1, q1⟩ := shr_getMutPtr hn hw s h
    obtain ⟨s2, e2, h2, r2⟩ := h1.readAt (lo := read) (n := 1) (q.rd h r1) (by omega)
    have q1 := q1.rd h1 r2
    obtain ⟨s3, e3, h3, _⟩ := h2.writeAt (t := w) (lo := write) (n := 1) fun j _ _ =>
      q1.2 j (by omega)
    exact ⟨(), s3, by rw [bind_some e1]; simp only [copyAt]; rw [bind_some e2, e3], h3⟩
  exact this.bind fun _ => (shr_setLen cap dbg).wrk

theorem wrk_retainLoop {cap len : Nat} (dbg : Bool) (keep : Nat → Bool) (hn : len ≤ cap) (n : Nat) :
    ∀ read write, read + n ≤ len → write < read →
      Wrk cap (Alias.retainLoop dbg cap len keep read write n) := by
  induction n with
  | zero => intro _ _ _ _; exact wrk_ret ()
  | succ n ih =>
    intro read write hr hw
    refine (shr_getRef hn (by omega)).use fun r s h q => ?_
    obtain ⟨s1, e1, h1, _⟩ := h.readAt (lo := read) (n := 1) q (by omega)
    refine Wrk.at ?_ e1 h1
    cases keep read with
    | true =>
      exact (wrk_keepNext dbg hn (by omega) (by omega)).bind fun _ => ih _ _ (by omega) (by omega)
    | false =>
      exact (wrk_discardNext hn (by omega)).bind fun _ => ih _ _ (by omega) (by omega)

theorem wrk_retain {cap len : Nat} (dbg : Bool) (keep : Nat → Bool) (hn : len ≤ cap)
    (h0 : 0 < len) : Wrk cap (Alias.retain dbg cap len keep) := by
  refine (shr_getRef hn h0).use fun r s h q => ?_
  obtain ⟨s1, e1, h1, _⟩ := h.readAt (lo := 0) (n := 1) q (by omega)
  refine Wrk.at ?_ e1 h1
  refine (shr_setLen cap dbg).wrk.bind fun _ => ?_
  cases keep 0 with
  | true =>
    by_cases h2 : 2 ≤ len
    · exact wrk_retainLoop dbg keep hn _ _ _ (by omega) (by omega)
    · rw [show len - 2 = 0 by omega]; exact wrk_ret ()
  | false =>
    exact (wrk_discardNext hn h0).bind fun _ => wrk_retainLoop dbg keep hn _ _ _ (by omega) (by omega)

theorem wrk_writeElem {cap len i : Nat} (hn : len ≤ cap) (hi : i < len) {m : B Unit}
    (hm : Wrk cap m) : Wrk cap (do let r ← Alias.getMut cap len i; Mach.writeAt r i 1; m) :=
  (shr_getMut hn hi).use fun t s h q => by
    obtain ⟨s', e, h', _⟩ := h.writeAt (t := t) (lo := i) (n := 1) fun j _ _ => q.2 j (by omega)
    exact hm.at e h'

theorem wrk_dedupKeyLoop {cap len : Nat} (dbg : Bool) (same : Nat → Bool) (hn : len ≤ cap)
    (n : Nat) : ∀ read write, read + n ≤ len → write < read →
      Wrk cap (Alias.dedupKeyLoop dbg cap len same read write n) := by
  induction n with
  | zero => intro _ _ _ _; exact wrk_ret ()
  | succ n ih =>
    intro read write hr hw
    refine wrk_writeElem hn (by omega) ?_
    cases same read with
    | true =>
      exact (wrk_discardNext hn (by omega)).bind fun _ => ih _ _ (by omega) (by omega)
    | false =>
      exact (wrk_keepNext dbg hn (by omega) (by omega)).bind fun _ => ih _ _ (by omega) (by omega)

theorem wrk_dedupKey {cap len : Nat} (dbg : Bool) (same : Nat → Bool) (hn : len ≤ cap)
    (h0 : 0 < len) : Wrk cap (Alias.dedupKey dbg cap len same) := by
  refine wrk_writeElem hn h0 ((shr_setLen cap dbg).wrk.bind fun _ => ?_)
  by_cases h2 : 2 ≤ len
  · exact wrk_dedupKeyLoop dbg same hn _ _ _ (by omega) (by omega)
  · rw [show len - 2 = 0 by omega]; exact wrk_ret ()

/-! ## `StackVec` and `String` -/

theorem wrk_stackClear {cap len : Nat} (hn : len ≤ cap) : Wrk cap (Alias.stackClear cap len) :=
  (shr_sliceMut hn).use fun p s h q => by
    obtain ⟨s2, e2, h2⟩ := h.dropAll (t := p) len (i := 0) (by omega) q.1 fun j _ _ =>
      q.2 j (by omega)
    exact ⟨(), s2, e2, h2⟩

theorem wrk_stackPush {cap len : Nat} (hn : len < cap) : Wrk cap (Alias.stackPush cap len) :=
  (shr_sliceMut (n := len + 1) (by omega)).use fun p s h q => by
    obtain ⟨b, s1, e1, h1, _, q1⟩ := h.mutRef (lo := len) (n := 1) q (by omega)
    obtain ⟨s2, e2, h2, _⟩ := h1.writeAt (t := b) (lo := len) (n := 1) fun j _ _ =>
      q1.2 j (by omega)
    exact ⟨(), s2, by rw [bind_some e1, e2], h2⟩

theorem wrk_stackInsert {cap len i : Nat} (hn : len < cap) (hi : i < len) :
    Wrk cap (Alias.stackInsert cap len i) := by
  refine (shr_getMutPtr (by omega) hi).use fun p s h q => ?_
  obtain ⟨s1, e1, h1, r1⟩ := h.readAt (lo := i) (n := len - i) (q.shr h) (by omega)
  have q := q.rd h r1
  obtain ⟨s2, e2, h2, w2⟩ := h1.writeAt (t := p) (lo := i + 1) (n := len - i) fun j _ _ =>
    q.2 j (by omega)
  obtain ⟨s3, e3, h3, _⟩ := h2.writeAt (t := p) (lo := i) (n := 1) fun j _ _ =>
    (q.2 j (by omega)).wr w2 (by omega)
  have ec : copyAt p i p (i + 1) (len - i) s = some ((), s2) := by
    simp only [copyAt]; rw [bind_some e1, e2]
  exact ⟨(), s3, by rw [bind_some ec, e3], h3⟩

/-- `ptr::copy` from `as_ptr` to `as_mut_ptr`. -/
theorem wrk_move {cap len fr to n : Nat} (hn : len ≤ cap) (hf : fr + n ≤ cap) (ht : to + n ≤ cap)
    {m : B Unit} (hm : Wrk cap m) :
    Wrk cap (do
      let r ← Alias.asPtr cap len
      let w ← Alias.asMutPtr cap len
      copyAt r fr w to n
      m) := by
  refine (shr_asPtr hn).use fun r s h q => ?_
  obtain ⟨w, s1, e1, h1, r1, q1⟩ := shr_asMutPtr hn s h
  obtain ⟨s2, e2, h2, r2⟩ := h1.readAt (lo := fr) (n := n) (q.rd h r1) (by omega)
  have q1 := q1.rd h1 r2
  obtain ⟨s3, e3, h3, _⟩ := h2.writeAt (t := w) (lo := to) (n := n) fun j _ _ => q1.2 j (by omega)
  have ec : copyAt r fr w to n s1 = some ((), s3) := by
    simp only [copyAt]; rw [bind_some e2, e3]
  obtain ⟨c, s4, e4, h4⟩ := hm s3 h3
  exact ⟨c, s4, by rw [bind_some e1, bind_some ec, e4], h4⟩

theorem wrk_move' {cap len fr to n : Nat} (hn : len ≤ cap) (hf : fr + n ≤ cap) (ht : to + n ≤ cap) :
    Wrk cap (do
      let r ← Alias.asPtr cap len
      let w ← Alias.asMutPtr cap len
      copyAt r fr w to n) := by
  refine (shr_asPtr hn).use fun r s h q => ?_
  obtain ⟨w, s1, e1, h1, r1, q1⟩ := shr_asMutPtr hn s h
  obtain ⟨s2, e2, h2, r2⟩ := h1.readAt (lo := fr) (n := n) (q.rd h r1) (by omega)
  have q1 := q1.rd h1 r2
  obtain ⟨s3, e3, h3, _⟩ := h2.writeAt (t := w) (lo := to) (n := n) fun j _ _ => q1.2 j (by omega)
  exact ⟨(), s3, by rw [bind_some e1]; simp only [copyAt]; rw [bind_some e2, e3], h3⟩

theorem wrk_stackRemove {cap len i : Nat} (hn : len < cap) (hi : i < len) :
    Wrk cap (Alias.stackRemove cap len i) := by
  refine (shr_getMutPtr (by omega) hi).use fun p s h q => ?_
  obtain ⟨s1, e1, h1, _⟩ := h.readAt (lo := i) (n := 1) (q.shr h) (by omega)
  refine Wrk.at ?_ e1 h1
  exact wrk_move' (by omega) (by omega) (by omega)

theorem wrk_stackSwapRemove {cap len i : Nat} (hn : len ≤ cap) (hi : i < len) :
    Wrk cap (Alias.stackSwapRemove cap len i) := by
  refine (shr_getMutPtr hn hi).use fun p s h q => ?_
  obtain ⟨s1, e1, h1, r1⟩ := h.readAt (lo := i) (n := 1) (q.shr h) (by omega)
  have q := q.rd h r1
  obtain ⟨l, s2, e2, h2, r2, q2⟩ := shr_getRef (i := len - 1) hn (by omega) s1 h1
  have q := q.rd h1 r2
  obtain ⟨s3, e3, h3, r3⟩ := h2.readAt (lo := len - 1) (n := 1) q2 (by omega)
  have q := q.rd h2 r3
  obtain ⟨s4, e4, h4, _⟩ := h3.writeAt (t := p) (lo := i) (n := 1) fun j _ _ => q.2 j (by omega)
  exact ⟨(), s4, by rw [bind_some e1, bind_some e2]; simp only [copyAt]; rw [bind_some e3, e4], h4⟩

theorem wrk_stackDrop {cap len : Nat} (hn : len ≤ cap) : Wrk cap (Alias.stackDrop cap len) :=
  wrk_stackClear hn

theorem wrk_strRemove {cap len idx next : Nat} (dbg : Bool) (hn : len ≤ cap) (hi : idx ≤ next)
    (hx : next ≤ len) : Wrk cap (Alias.strRemove dbg cap len idx next) := by
  refine (shr_asPtr hn).use fun r s h q => ?_
  obtain ⟨s1, e1, h1, _⟩ := h.readAt (lo := idx) (n := next - idx) q (by omega)
  refine Wrk.at ?_ e1 h1
  exact wrk_move hn (by omega) (by omega) (shr_setLen cap dbg).wrk

theorem wrk_strInsert {cap len idx amt : Nat} (dbg : Bool) (hn : len + amt ≤ cap) (hi : idx ≤ len) :
    Wrk cap (Alias.strInsert dbg cap len idx amt) :=
  (shr_capacity cap).wrk.bind fun _ => wrk_move (by omega) (by omega) (by omega)
    (wrk_fill (by omega) (by omega) (shr_setLen cap dbg).wrk)

theorem wrk_strRetainMove {cap len to n : Nat} (hn : len ≤ cap) (ht : to + n ≤ cap) :
    Wrk cap (Alias.strRetainMove cap len to n) := by
  refine (shr_asMutPtr hn).use fun r s h q => ?_
  obtain ⟨b, s1, e1, h1, _, q1⟩ := h.mutRef (lo := to) (n := n) q (by omega)
  obtain ⟨s2, e2, h2, _⟩ := h1.writeAt (t := b) (lo := to) (n := n) fun j _ _ => q1.2 j (by omega)
  exact ⟨(), s2, by rw [bind_some e1, e2], h2⟩

end Lokky.TB
