import Verif.Proofs.AliasBox
import Verif.Proofs.TreeBorrows

/-!
# Lemmas on the pointers of `Box` under Tree Borrows
-/

open Lokky.Alias

namespace Lokky.TB

namespace Bx

/-- A block of `n` slots with its pointer. -/
structure Own (n p : Nat) (s : St) : Prop where
  inv : Inv s
  old : p < s.next
  can : ∀ i, i < n → CanW s p i

/-- A `&` to the block, made from `p`. -/
structure Shr (n p t : Nat) (s : St) : Prop where
  old : t < s.next
  can : ∀ i, i < n → CanR s t i
  above : ∀ u ∈ s.path p, u ∈ s.path t

/-- A `&mut` to the block, made from `p`. -/
structure Mut (n p t : Nat) (s : St) : Prop where
  own : Own n p s
  old : t < s.next
  can : ∀ i, i < n → CanW s t i
  above : ∀ u ∈ s.path p, u ∈ s.path t

/-- Reading does not take away the right to write of the pointers above. -/
theorem CanW.read {s : St} {t p lo n i : Nat} (h : CanW s p i) (ha : ∀ u ∈ s.path p, u ∈ s.path t) :
    CanW (s.after false t lo n) p i :=
  ⟨h.1, fun u hu => by
    by_cases hi : lo ≤ i ∧ i < lo + n
    · rw [after_in hi (ha u hu), own_read]; exact h.2 u hu
    · rw [after_out hi]; exact h.2 u hu⟩

/-- Nor does writing. -/
theorem CanW.write {s : St} {t p lo n i : Nat} (h : CanW s p i) (ha : ∀ u ∈ s.path p, u ∈ s.path t) :
    CanW (s.after true t lo n) p i :=
  ⟨h.1, fun u hu => by
    by_cases hi : lo ≤ i ∧ i < lo + n
    · rw [after_in hi (ha u hu)]
      rcases h.2 u hu with e | e <;> rw [e] <;> exact .inr rfl
    · rw [after_out hi]; exact h.2 u hu⟩

theorem readAt_ok {s : St} {t lo n : Nat} (hc : ∀ i, lo ≤ i → i < lo + n → CanR s t i) :
    Mach.readAt t lo n s = some ((), s.after false t lo n) := by
  have hg : s.grants false t lo n = true := grants_iff.2 fun i hl hu =>
    ⟨(hc i hl hu).1, fun u hp => by
      have := (hc i hl hu).2 u hp
      cases e : s.perm i u <;> first | rfl | exact absurd e this⟩
  rw [mach_readAt, access, if_pos hg]

theorem writeAt_ok {s : St} {t lo n : Nat} (hc : ∀ i, lo ≤ i → i < lo + n → CanW s t i) :
    Mach.writeAt t lo n s = some ((), s.after true t lo n) := by
  have hg : s.grants true t lo n = true := grants_iff.2 fun i hl hu =>
    ⟨(hc i hl hu).1, fun u hp => by rcases (hc i hl hu).2 u hp with e | e <;> rw [e] <;> rfl⟩
  rw [mach_writeAt, access, if_pos hg]

theorem Own.read {n p t lo k : Nat} {s : St} (h : Own n p s) (ha : ∀ u ∈ s.path p, u ∈ s.path t) :
    Own n p (s.after false t lo k) := ⟨h.inv.after _ _ _ _, h.old, fun i hi => CanW.read (h.can i hi) ha⟩

theorem Own.write {n p t lo k : Nat} {s : St} (h : Own n p s) (ha : ∀ u ∈ s.path p, u ∈ s.path t) :
    Own n p (s.after true t lo k) := ⟨h.inv.after _ _ _ _, h.old, fun i hi => CanW.write (h.can i hi) ha⟩

/-- Making a reference from a pointer that may write. -/
theorem ref_ok {n p t lo k : Nat} {s : St} {q : Perm} (hq : q = .reserved ∨ q = .frozen) (h : Own n p s)
    (hc : ∀ i, lo ≤ i → i < lo + k → CanR s t i) (ha : ∀ u ∈ s.path p, u ∈ s.path t) :
    ∃ s', refTo q t lo k s = some (s.next, s') ∧ Own n p s' ∧ Rd s s' ∧ s'.next = s.next + 1 ∧
      s'.path s.next = s.next :: s.path t ∧ (∀ i, s'.perm i s.next = q) ∧
      ∀ i u, u ∈ s.path t → s'.perm i u = s.perm i u := by
  obtain ⟨s', e, h', r, hn, hp, hq', hk, _⟩ := h.inv.refTo hq hc
  refine ⟨s', e, ⟨h', by have := h.old; omega, fun i hi => ⟨by rw [r.live]; exact (h.can i hi).1, fun u hu => ?_⟩⟩, r, hn, hp, hq', hk⟩
  rw [r.path p h.old] at hu
  rw [hk i u (ha u hu)]
  exact (h.can i hi).2 u hu

/-- The same for the new reference. -/
theorem canW_new {t i : Nat} {s s' : St} (h : CanW s t i) (hl : s'.live = s.live)
    (hp : s'.path s.next = s.next :: s.path t) (hq : s'.perm i s.next = .reserved)
    (hk : ∀ u, u ∈ s.path t → s'.perm i u = s.perm i u) : CanW s' s.next i :=
  ⟨by rw [hl]; exact h.1, fun u hu => by
    rw [hp] at hu
    rcases List.mem_cons.1 hu with rfl | hu
    · exact .inl hq
    · rw [hk u hu]; exact h.2 u hu⟩

theorem Own.mutRef {n p lo k : Nat} {s : St} (h : Own n p s) (hk : lo + k ≤ n) :
    ∃ s', Mach.mutRef p lo k s = some (s.next, s') ∧ Own n p s' ∧ s.next < s'.next ∧
      (∀ i, i < n → CanW s' s.next i) ∧ s'.path p = s.path p ∧ s'.path s.next = s.next :: s.path p := by
  obtain ⟨s', e, h', r, hn, hp, hq, hk'⟩ := ref_ok (.inl rfl) h (t := p) (lo := lo) (k := k)
    (fun i _ hi => (h.can i (by omega)).canR) (fun _ hu => hu)
  exact ⟨s', e, h', by omega, fun i hi => canW_new (h.can i hi) r.live hp (hq i) (hk' i), r.path p h.old, hp⟩

theorem Own.raw {n p : Nat} {s : St} (h : Own n p s) :
    ∃ s', Mach.rawMut p 0 n s = some (s.next, s') ∧ Own n s.next s' := by
  obtain ⟨s', e, h', r, hn, _, hw, _⟩ := h.inv.rawMut (t := p) (lo := 0) (n := n)
  exact ⟨s', e, h', by omega, fun i hi => hw i (h.can i hi)⟩

end Bx

open Bx in
/-- Tree Borrows allows what `Box` does. -/
instance instBxRules : BxRules St where
  Own := Bx.Own
  Shr := Bx.Shr
  Mut := Bx.Mut
  start n := ⟨inv_fresh n, Nat.one_pos, fun i hi => ⟨by simp [Mach.heap, fresh, hi], fun u _ => .inr rfl⟩⟩
  shr n p s h := by
    obtain ⟨s', e, h', r, hn, hp, hq, hk⟩ := ref_ok (.inr rfl) h (t := p) (lo := 0) (k := n)
      (fun i _ hi => (h.can i (by omega)).canR) (fun _ hu => hu)
    refine ⟨s.next, s', e, h', ⟨by omega, fun i hi => ⟨by rw [r.live]; exact (h.can i hi).1, fun u hu => ?_⟩, fun u hu => ?_⟩,
      fun u hu => ⟨by have := hu.old; omega, fun i hi => (hu.can i hi).rd h.inv hu.old r, fun v hv => ?_⟩⟩
    · rw [hp] at hu
      rcases List.mem_cons.1 hu with rfl | hu
      · rw [hq]; decide
      · rw [hk i u hu]; exact (h.can i hi).canR.2 u hu
    · rw [r.path p h.old] at hu
      rw [hp]
      exact List.mem_cons_of_mem _ hu
    · rw [r.path p h.old] at hv
      rw [r.path u hu.old]
      exact hu.above v hv
  mutr n p s h := by
    obtain ⟨s', e, h', hn, hc, hp, hq⟩ := h.mutRef (lo := 0) (k := n) (by omega)
    exact ⟨s.next, s', e, h', hn, hc, fun u hu => by rw [hp] at hu; rw [hq]; exact List.mem_cons_of_mem _ hu⟩
  own n p t s h := h.own
  read n p t s i h ht hi := by
    refine ⟨_, readAt_ok fun j _ hj => ht.can j (by omega), h.read ht.above, fun u hu =>
      ⟨hu.old, fun j hj => (hu.can j hj).rd h.inv hu.old (rd_after _ _ _ _), hu.above⟩⟩
  readMut n p t s i h hi :=
    ⟨_, readAt_ok fun j _ hj => (h.can j (by omega)).canR, h.own.read h.above, h.old,
      fun j hj => CanW.read (h.can j hj) fun _ hu => hu, h.above⟩
  write n p t s lo k h hle :=
    ⟨_, writeAt_ok fun j _ hj => h.can j (by omega), h.own.write h.above, h.old,
      fun j hj => CanW.write (h.can j hj) fun _ hu => hu, h.above⟩
  dropMut n p t s i h hi := by
    obtain ⟨s1, e1, h1, hn, hc, hp, hq⟩ := Bx.Own.mutRef (n := n) (p := t) (s := s) (lo := i) (k := 1)
      ⟨h.own.inv, h.old, h.can⟩ (by omega)
    obtain ⟨s1', e1', h1', r', _, _, _, hk'⟩ := ref_ok (.inl rfl) h.own (t := t) (lo := i) (k := 1)
      (fun j _ hj => (h.can j (by omega)).canR) h.above
    have : s1' = s1 := by
      have := e1'.symm.trans (show refTo .reserved t i 1 s = some (s.next, s1) from e1)
      simpa using this
    subst this
    have ha : ∀ u ∈ s1'.path t, u ∈ s1'.path s.next := fun u hu => by
      rw [hp] at hu; rw [hq]; exact List.mem_cons_of_mem _ hu
    have ha' : ∀ u ∈ s1'.path p, u ∈ s1'.path t := fun u hu => by
      rw [r'.path p h.own.old] at hu; rw [hp]; exact h.above u hu
    refine ⟨s1'.after true s.next i 1, ?_, h1'.write fun u hu => ha u (ha' u hu), h1.old,
      fun j hj => CanW.write (h1.can j hj) ha, ha'⟩
    rw [Alias.dropAt, bind_some e1]
    exact writeAt_ok fun j _ hj => hc j (by omega)
  raw n p t s h := by
    obtain ⟨s', e, h'⟩ := Bx.Own.raw (n := n) (p := t) (s := s) ⟨h.own.inv, h.old, h.can⟩
    exact ⟨s.next, s', e, h'⟩
  dropOwn n p s i h hi := by
    obtain ⟨s1, e1, h1, hn, hc, hp, hq⟩ := h.mutRef (lo := i) (k := 1) (by omega)
    refine ⟨s1.after true s.next i 1, ?_, h1.write fun u hu => by rw [hp] at hu; rw [hq]; exact List.mem_cons_of_mem _ hu⟩
    rw [Alias.dropAt, bind_some e1]
    exact writeAt_ok fun j _ hj => hc j (by omega)
  readOwn n p s h := ⟨_, readAt_ok fun j _ hj => (h.can j (by omega)).canR, h.read fun _ hu => hu⟩
  writeOwn n p s h := ⟨_, writeAt_ok fun j _ hj => h.can j (by omega), h.write fun _ hu => hu⟩

end Lokky.TB
