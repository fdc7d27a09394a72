import Verif.Proofs.AliasRc
import Verif.Proofs.TreeBorrows

/-!
# Lemmas on the pointers of `Rc` and `Arc` under Tree Borrows
-/

open Lokky.Alias

namespace Lokky.TB

/-- The state of a counted block. -/
structure Blk (s : St) : Prop where
  inv : Inv s
  live : ∀ i, i < 3 → s.live i = true

/-- A `&` to the value. -/
def IsRef (t : Nat) (s : St) : Prop := t < s.next ∧ CanR s t 0

/-- A `&mut` to the value. -/
def IsMut (t : Nat) (s : St) : Prop := CanW s t 0

theorem Blk.res {s : St} (h : Blk s) {i : Nat} (hi : i < 3) : Res s 0 i :=
  h.inv.res_root (h.live i hi)

theorem IsRef.at {t : Nat} {s s' : St} (h : IsRef t s) (hs : Blk s) (ha : At 0 s s') :
    IsRef t s' := ⟨Nat.lt_of_lt_of_le h.1 ha.next, h.2.at hs.inv h.1 ha⟩

theorem Blk.to {s s' : St} (h : Blk s) (hi : Inv s') (hl : s'.live = s.live) : Blk s' :=
  ⟨hi, fun i hl' => by rw [hl]; exact h.live i hl'⟩

/-- The two pointers of a `&` to the block: the first is as good as the pointer of the block, the
second can be read. -/
theorem Blk.boxRef {s : St} (h : Blk s) :
    ∃ r s', Alias.boxRef 0 s = some (r, s') ∧ Blk s' ∧ Rd s s' ∧ r.1 < s'.next ∧
      s'.path r.1 = [0] ∧ IsRef r.2 s' := by
  obtain ⟨s1, e1, i1, r1, n1, _, _, _, p1⟩ := h.inv.rawMut (t := 0) (lo := 1) (n := 2)
  have b1 := h.to i1 r1.live
  obtain ⟨s2, e2, i2, r2, n2, c2⟩ := i1.shrRef (t := 0) (lo := 0) (n := 1) fun i _ hi =>
    ((b1.res (by omega)).canW i1).canR
  refine ⟨(s.next, s1.next), s2, ?_, b1.to i2 r2.live, r1.trans r2, ?_, ?_, ?_,
    c2 0 ((b1.res (by omega)).canW i1).canR⟩
  · simp only [Alias.boxRef]
    rw [bind_some e1, bind_some e2]
    rfl
  · show s.next < s2.next
    omega
  · show s2.path s.next = [0]
    rw [r2.path _ (by omega), p1, h.inv.own]
  · show s1.next < s2.next
    omega

theorem Blk.raw {s : St} (h : Blk s) {t i : Nat} (hp : s.path t = [0]) (hi : i < 3) :
    CanW s t i :=
  ⟨h.live i hi, fun u hu => by
    rw [hp] at hu
    simp at hu
    subst hu
    exact .inr (h.inv.act i)⟩

theorem Blk.readCnt {s : St} (h : Blk s) {t i : Nat} (ht : t < s.next) (hp : s.path t = [0])
    (hi : i < 3) :
    ∃ s', Mach.readAt t i 1 s = some ((), s') ∧ Blk s' ∧ Rd s s' ∧ t < s'.next ∧
      s'.path t = [0] := by
  obtain ⟨s', e, i', r, n, _⟩ := h.inv.readAt (t := t) (lo := i) (n := 1) fun j _ hj =>
    (h.raw hp (by omega)).canR
  exact ⟨s', e, h.to i' r.live, r, by omega, by rw [r.path t ht, hp]⟩

theorem Blk.writeCnt {s : St} (h : Blk s) {t i : Nat} (hp : s.path t = [0])
    (hi : i = 1 ∨ i = 2) :
    ∃ s', Mach.writeAt t i 1 s = some ((), s') ∧ Blk s' ∧ At 0 s s' := by
  obtain ⟨s', e, i', r, _⟩ := h.inv.writeAt (t := t) (lo := i) (n := 1) fun j _ hj =>
    h.raw hp (by omega)
  exact ⟨s', e, h.to i' r.live, r.at (by omega)⟩

theorem Blk.readRef {s : St} (h : Blk s) {t : Nat} (ht : IsRef t s) :
    ∃ s', Mach.readAt t 0 1 s = some ((), s') ∧ Blk s' ∧ Rd s s' := by
  obtain ⟨s', e, i', r, _⟩ := h.inv.readAt (t := t) (lo := 0) (n := 1) fun j _ hj => by
    have : j = 0 := by omega
    subst this; exact ht.2
  exact ⟨s', e, h.to i' r.live, r⟩

instance instHRules : HRules St where
  Blk := Blk
  IsRef := IsRef
  IsMut := IsMut
  start := ⟨inv_fresh 3, fun i hi => by simp [Mach.heap, fresh, hi]⟩
  load i hi := fun s h => by
    obtain ⟨r, s1, e1, h1, r1, t1, p1, _⟩ := h.boxRef
    obtain ⟨s2, e2, h2, r2, _⟩ := h1.readCnt (i := i) t1 p1 (by omega)
    refine ⟨(), s2, ?_, h2, fun t ht => (ht.at h (r1 0)).at h1 (r2 0), trivial⟩
    simp only [loadCnt, Nat.zero_add]
    rw [bind_some e1, e2]
  store i hi := fun s h => by
    obtain ⟨r, s1, e1, h1, r1, t1, p1, _⟩ := h.boxRef
    obtain ⟨s2, e2, h2, r2⟩ := h1.writeCnt p1 hi
    refine ⟨(), s2, ?_, h2, fun t ht => (ht.at h (r1 0)).at h1 r2, trivial⟩
    simp only [storeCnt, Nat.zero_add]
    rw [bind_some e1, e2]
  bump i hi := fun s h => by
    obtain ⟨r, s1, e1, h1, r1, t1, p1, _⟩ := h.boxRef
    obtain ⟨s2, e2, h2, r2, t2, p2⟩ := h1.readCnt (i := i) t1 p1 (by omega)
    obtain ⟨s3, e3, h3, r3⟩ := h2.writeCnt p2 hi
    refine ⟨(), s3, ?_, h3, fun t ht => ((ht.at h (r1 0)).at h1 (r2 0)).at h2 r3, trivial⟩
    simp only [bumpCnt, Nat.zero_add]
    rw [bind_some e1, bind_some e2, e3]
  deref := fun s h => by
    obtain ⟨r, s1, e1, h1, r1, _, _, q1⟩ := h.boxRef
    obtain ⟨s2, e2, i2, r2, n2, c2⟩ := h1.inv.shrRef (t := r.2) (lo := 0) (n := 1) fun j _ hj => by
      have : j = 0 := by omega
      subst this; exact q1.2
    refine ⟨s1.next, s2, ?_, h1.to i2 r2.live, fun t ht => (ht.at h (r1 0)).at h1 (r2 0), by omega,
      c2 0 q1.2⟩
    simp only [rcDeref]
    rw [bind_some e1, e2]
  single strong := fun s h => by
    obtain ⟨r, s1, e1, h1, r1, t1, p1, _⟩ := h.boxRef
    obtain ⟨s2, e2, h2, r2, t2, p2⟩ := h1.readCnt (i := 1) t1 p1 (by omega)
    simp only [rcIsSingle]
    rw [bind_some e1, bind_some e2]
    split
    · obtain ⟨s3, e3, h3, r3, _⟩ := h2.readCnt (i := 2) t2 p2 (by omega)
      exact ⟨(), s3, e3, h3, fun t ht => ((ht.at h (r1 0)).at h1 (r2 0)).at h2 (r3 0), trivial⟩
    · exact ⟨(), s2, rfl, h2, fun t ht => (ht.at h (r1 0)).at h1 (r2 0), trivial⟩
  upgrade := fun s h => by
    obtain ⟨r, s1, e1, h1, r1, t1, p1, _⟩ := h.boxRef
    obtain ⟨s2, e2, h2, r2, t2, p2⟩ := h1.readCnt (i := 1) t1 p1 (by omega)
    obtain ⟨s3, e3, h3, r3, t3, p3⟩ := h2.readCnt (i := 1) t2 p2 (by omega)
    obtain ⟨s4, e4, h4, r4⟩ := h3.writeCnt p3 (.inl rfl)
    refine ⟨(), s4, ?_, h4,
      fun t ht => (((ht.at h (r1 0)).at h1 (r2 0)).at h2 (r3 0)).at h3 r4, trivial⟩
    simp only [rcUpgrade]
    rw [bind_some e1, bind_some e2, bind_some e3, e4]
  value := fun s h => by
    obtain ⟨r, s1, e1, h1, r1, _, _, q1⟩ := h.boxRef
    obtain ⟨s2, e2, h2, r2⟩ := h1.readRef q1
    exact ⟨(), s2, by rw [bind_some e1, e2], h2, fun t ht => (ht.at h (r1 0)).at h1 (r2 0), trivial⟩
  asMut := fun s h => by
    obtain ⟨s1, e1, i1, r1, n1, _, q1, _⟩ := h.inv.mutRef (t := 0) (lo := 0) (n := 3) fun i _ hi =>
      ((h.res (by omega)).canW h.inv).canR
    have q1 := q1 0 ((h.res (by omega)).canW h.inv)
    obtain ⟨s2, e2, i2, r2, n2, _, q2, _⟩ := i1.mutRef (t := s.next) (lo := 0) (n := 1)
      fun i _ hi => by
        have : i = 0 := by omega
        subst this; exact q1.canR
    refine ⟨s1.next, s2, ?_, (h.to i1 r1.live).to i2 r2.live, q2 0 q1⟩
    simp only [rcAsMut, boxMut]
    rw [bind_some e1, e2]
  readAt t s h ht := by
    obtain ⟨s', e, h', r⟩ := h.readRef ht
    exact ⟨s', e, h', fun u hu => hu.at h (r 0)⟩
  writeAt t s h ht := by
    obtain ⟨s', e, i', r, k⟩ := h.inv.writeAt (t := t) (lo := 0) (n := 1) fun j _ hj => by
      have : j = 0 := by omega
      subst this; exact ht
    exact ⟨s', e, h.to i' r.live, k 0 ht⟩
  dropAt t s h ht := by
    have hz : ∀ j, 0 ≤ j → j < 0 + 1 → j = 0 := by omega
    obtain ⟨s1, e1, i1, r1, n1, _, q1, _⟩ := h.inv.mutRef (t := t) (lo := 0) (n := 1)
      fun i h1 hi => by rw [hz i h1 hi]; exact CanW.canR ht
    have q1 := q1 0 ht
    obtain ⟨s2, e2, i2, r2, k⟩ := i1.writeAt (t := s.next) (lo := 0) (n := 1) fun j h1 hj => by
      rw [hz j h1 hj]; exact q1
    refine ⟨s2, ?_, (h.to i1 r1.live).to i2 r2.live⟩
    simp only [Alias.dropAt]
    rw [bind_some e1, e2]

end Lokky.TB
