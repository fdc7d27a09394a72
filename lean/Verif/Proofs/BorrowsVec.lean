import Verif.Proofs.Borrows

/-!
# Lemmas on the pointers of `Vec` and `StackVec`
-/

open Lokky.Alias

namespace Lokky.SB

/-! ## A pointer that is gone stays gone -/

/-- All tags of `k'` but `new` occur in `k`. -/
def TagsIn (new : Nat) (k k' : Stack) : Prop := ∀ x ∈ k', x.tag = new ∨ ∃ y ∈ k, y.tag = x.tag

theorem grantWrite_split {t : Nat} {k a b : Stack} (h : k.grantWrite t = some (a, b)) :
    k = a ++ b := by
  simp only [Stack.grantWrite] at h
  split at h
  · rename_i above g below e
    obtain ⟨hk, _⟩ := splitFirst_some e
    cases h
    rw [hk, ← List.append_assoc, ← List.reverse_append, List.take_append_drop, List.reverse_reverse]
  · cases h

theorem write_tags {t new : Nat} {k k' : Stack} (h : k.write t = some k') : TagsIn new k k' := by
  simp only [Stack.write] at h
  split at h
  · rename_i a kept e
    cases h
    intro x hx
    exact .inr ⟨x, by rw [grantWrite_split e]; exact List.mem_append_right _ hx, rfl⟩
  · cases h

theorem mutRef_tags {t new : Nat} {k k' : Stack} (h : k.mutRef t new = some k') :
    TagsIn new k k' := by
  simp only [Stack.mutRef] at h
  split at h
  · rename_i s' e
    cases h
    intro x hx
    rcases List.mem_cons.1 hx with rfl | hx
    · exact .inl rfl
    · exact write_tags e x hx
  · cases h

theorem rawMut_tags {t new : Nat} {k k' : Stack} (h : k.rawMut t new = some k') :
    TagsIn new k k' := by
  simp only [Stack.rawMut] at h
  split at h
  · rename_i a kept e
    cases h
    intro x hx
    rw [grantWrite_split e]
    rcases List.mem_append.1 hx with hx | hx
    · exact .inr ⟨x, List.mem_append_left _ hx, rfl⟩
    · rcases List.mem_cons.1 hx with rfl | hx
      · exact .inl rfl
      · exact .inr ⟨x, List.mem_append_right _ hx, rfl⟩
  · cases h

theorem read_tags {t new : Nat} {k k' : Stack} (h : k.read t = some k') : TagsIn new k k' := by
  simp only [Stack.read] at h
  split at h
  · rename_i a g b e
    obtain ⟨hk, _⟩ := splitFirst_some e
    cases h
    intro x hx
    rw [hk]
    rcases List.mem_append.1 hx with hx | hx
    · obtain ⟨y, hy, rfl⟩ := List.mem_map.1 hx
      exact .inr ⟨y, List.mem_append_left _ hy, (afterRead_tag y).symm⟩
    · exact .inr ⟨x, List.mem_append_right _ hx, rfl⟩
  · cases h

theorem shrRef_tags {t new : Nat} {k k' : Stack} (h : k.shrRef t new = some k') :
    TagsIn new k k' := by
  simp only [Stack.shrRef] at h
  split at h
  · rename_i s' e
    cases h
    intro x hx
    rcases List.mem_cons.1 hx with rfl | hx
    · exact .inl rfl
    · exact read_tags e x hx
  · cases h

theorem TagsIn.gone {new u : Nat} {k k' : Stack} (h : TagsIn new k k') (hu : u ≠ new)
    (hg : Gone u k) : Gone u k' := by
  intro x hx e
  rcases h x hx with h' | ⟨y, hy, h'⟩
  · exact hu (e.symm.trans h')
  · exact hg y hy (h'.trans e)

theorem retag_gone {f : Nat → Stack → Option Stack} {lo n r u i : Nat} {s s' : St}
    (hf : ∀ k k', f s.next k = some k' → TagsIn s.next k k')
    (h : retag f lo n s = some (r, s')) (hu : u ≠ s.next) (hg : Gone u (s.stack i)) :
    Gone u (s'.stack i) := by
  simp only [retag] at h
  split at h
  · rename_i st e
    cases h
    obtain ⟨h1, h2⟩ := forSlots_some e
    by_cases hr : lo ≤ i ∧ i < lo + n
    · exact (hf _ _ (h1 i hr.1 hr.2)).gone hu hg
    · show Gone u (st i)
      rw [h2 i hr]; exact hg
  · cases h

theorem mutRef_stays {t lo n r u i : Nat} {s s' : St} (h : mutRef t lo n s = some (r, s'))
    (hu : u ≠ s.next) (hg : Gone u (s.stack i)) : Gone u (s'.stack i) :=
  retag_gone (fun _ _ => mutRef_tags) h hu hg

theorem rawMut_stays {t lo n r u i : Nat} {s s' : St} (h : rawMut t lo n s = some (r, s'))
    (hu : u ≠ s.next) (hg : Gone u (s.stack i)) : Gone u (s'.stack i) :=
  retag_gone (fun _ _ => rawMut_tags) h hu hg

theorem shrRef_stays {t lo n r u i : Nat} {s s' : St} (h : shrRef t lo n s = some (r, s'))
    (hu : u ≠ s.next) (hg : Gone u (s.stack i)) : Gone u (s'.stack i) :=
  retag_gone (fun _ _ => shrRef_tags) h hu hg

theorem readAt_stays {t lo n u i : Nat} {s s' : St} {r : Unit} (h : readAt t lo n s = some (r, s'))
    (hg : Gone u (s.stack i)) : Gone u (s'.stack i) := by
  simp only [SB.readAt, touch] at h
  split at h
  · rename_i st e
    cases h
    obtain ⟨h1, h2⟩ := forSlots_some e
    by_cases hr : lo ≤ i ∧ i < lo + n
    · exact (read_tags (new := u + 1) (h1 i hr.1 hr.2)).gone (by omega) hg
    · show Gone u (st i)
      rw [h2 i hr]; exact hg
  · cases h

theorem writeAt_stays {t lo n u i : Nat} {s s' : St} {r : Unit}
    (h : writeAt t lo n s = some (r, s')) (hg : Gone u (s.stack i)) : Gone u (s'.stack i) := by
  simp only [SB.writeAt, touch] at h
  split at h
  · rename_i st e
    cases h
    obtain ⟨h1, h2⟩ := forSlots_some e
    by_cases hr : lo ≤ i ∧ i < lo + n
    · exact (write_tags (new := u + 1) (h1 i hr.1 hr.2)).gone (by omega) hg
    · show Gone u (st i)
      rw [h2 i hr]; exact hg
  · cases h

/-! ## The pieces of the functions -/

theorem canW_srw {t : Nat} {k : Stack} (h : (⟨t, .srw⟩ : Item) ∈ k) : CanW t k :=
  ⟨_, h, rfl, .inr rfl⟩

theorem canR_sro {t : Nat} {k : Stack} (h : (⟨t, .sro⟩ : Item) ∈ k) : CanR t k :=
  ⟨_, h, rfl, by simp⟩

/-- What asking for the capacity does. -/
theorem Inv.capacity {p : Perm} {cap : Nat} {s : St} (h : Inv p cap s) :
    ∃ s', Alias.capacity cap s = some ((), s') ∧ Inv p cap s' ∧ s.next ≤ s'.next ∧ Keeps s s' ∧
      ∀ i u, u < s.next → Gone u (s.stack i) → Gone u (s'.stack i) := by
  obtain ⟨s', e, hi, hn, _, hk, _⟩ := h.shrRef (t := 0) (lo := 0) (n := cap)
    fun i _ hu => (h.canW_root (by omega)).canR
  refine ⟨s', ?_, hi, by omega, hk, fun i u hu hg => shrRef_stays e (by omega) hg⟩
  simp only [Alias.capacity]
  rw [bind_some e]
  rfl

/-- What setting the length does. -/
theorem Inv.setLen {p : Perm} {cap : Nat} {s : St} (dbg : Bool) (h : Inv p cap s) :
    ∃ s', Alias.setLen dbg cap s = some ((), s') ∧ Inv p cap s' ∧ s.next ≤ s'.next ∧ Keeps s s' ∧
      ∀ i u, u < s.next → Gone u (s.stack i) → Gone u (s'.stack i) := by
  cases dbg with
  | true => exact h.capacity
  | false => exact ⟨s, rfl, h, Nat.le_refl _, Keeps.refl s, fun _ _ _ hg => hg⟩

/-- What a call of `as_slice_with_len_mut` gives. -/
theorem Inv.sliceMut {p : Perm} {cap n : Nat} {s : St} (h : Inv p cap s) (hn : n ≤ cap) :
    ∃ t s', Alias.sliceMut cap n s = some (t, s') ∧ Inv p cap s' ∧ s.next ≤ t ∧ t < s'.next ∧
      (∀ i, i < n → CanW t (s'.stack i)) ∧ (∀ i, n ≤ i → Gone t (s'.stack i)) ∧
      ∀ i u, i < cap → u ≠ 0 → u < s.next → Gone u (s'.stack i) := by
  obtain ⟨s1, e1, h1, n1, c1, g1⟩ := h.mutRef_root
  obtain ⟨s2, e2, h2, n2, o2, c2⟩ := h1.rawMut (t := s.next) (lo := 0) (n := cap)
    (by have := h.pos; omega) fun i _ hu => c1 i (by omega)
  obtain ⟨s3, e3, h3, n3, o3, c3⟩ := h2.mutRef (t := s1.next) (lo := 0) (n := n)
    fun i hl hu => canW_srw (c2 i hl (by omega))
  refine ⟨s2.next, s3, ?_, h3, by omega, by omega, fun i hi => c3 i (Nat.zero_le _) (by omega),
    fun i hi => ?_, fun i u hi hu hlt => ?_⟩
  · simp only [Alias.sliceMut]
    rw [bind_some e1, bind_some e2, e3]
  · rw [o3 i (by omega)]
    exact h2.gone (Nat.le_refl _)
  · exact mutRef_stays e3 (by omega) (rawMut_stays e2 (by omega) (g1 i u hi hu (by omega)))

/-- What a call of `as_slice_with_len` gives. -/
theorem Inv.slice {p : Perm} {cap n : Nat} {s : St} (h : Inv p cap s) (hn : n ≤ cap) :
    ∃ t s', Alias.slice cap n s = some (t, s') ∧ Inv p cap s' ∧ s.next ≤ t ∧ t < s'.next ∧
      Keeps s s' ∧ (∀ i, i < n → (⟨t, .sro⟩ : Item) ∈ s'.stack i) ∧
      (∀ i, n ≤ i → Gone t (s'.stack i)) ∧
      ∀ i u, u < s.next → Gone u (s.stack i) → Gone u (s'.stack i) := by
  obtain ⟨s1, e1, h1, n1, o1, k1, c1⟩ := h.shrRef (t := 0) (lo := 0) (n := cap)
    fun i _ hu => (h.canW_root (by omega)).canR
  obtain ⟨s2, e2, h2, n2, o2, k2, c2⟩ := h1.shrRef (t := s.next) (lo := 0) (n := n)
    fun i hl hu => canR_sro (c1 i hl (by omega))
  refine ⟨s1.next, s2, ?_, h2, by omega, by omega, k1.trans k2,
    fun i hi => c2 i (Nat.zero_le _) (by omega), fun i hi => ?_, fun i u hu hg => ?_⟩
  · simp only [Alias.slice]
    rw [bind_some e1, e2]
  · rw [o2 i (by omega)]
    exact h1.gone (Nat.le_refl _)
  · exact shrRef_stays e2 (by omega) (shrRef_stays e1 (by omega) hg)

/-- What `as_mut_ptr` gives. -/
theorem Inv.asMutPtr {p : Perm} {cap len : Nat} {s : St} (h : Inv p cap s) (hn : len ≤ cap) :
    ∃ t s', Alias.asMutPtr cap len s = some (t, s') ∧ Inv p cap s' ∧ s.next ≤ t ∧ t < s'.next ∧
      (∀ i, i < len → (⟨t, .srw⟩ : Item) ∈ s'.stack i) ∧ (∀ i, len ≤ i → Gone t (s'.stack i)) ∧
      ∀ i u, i < cap → u ≠ 0 → u < s.next → Gone u (s'.stack i) := by
  obtain ⟨r, s1, e1, h1, l1, b1, c1, g1, k1⟩ := h.sliceMut hn
  obtain ⟨s2, e2, h2, n2, o2, c2⟩ := h1.rawMut (t := r) (lo := 0) (n := len)
    (by have := h.pos; omega) fun i _ hu => c1 i (by omega)
  refine ⟨s1.next, s2, ?_, h2, by omega, by omega, fun i hi => c2 i (Nat.zero_le _) (by omega),
    fun i hi => ?_, fun i u hi hu hlt => ?_⟩
  · simp only [Alias.asMutPtr]
    rw [bind_some e1, e2]
  · rw [o2 i (by omega)]
    exact h1.gone (Nat.le_refl _)
  · exact rawMut_stays e2 (by omega) (k1 i u hi hu hlt)

/-- What `get_unchecked` gives. -/
theorem Inv.getRef {p : Perm} {cap len i : Nat} {s : St} (h : Inv p cap s) (hn : len ≤ cap)
    (hi : i < len) :
    ∃ t s', Alias.getRef cap len i s = some (t, s') ∧ Inv p cap s' ∧ s.next ≤ t ∧ t < s'.next ∧
      Keeps s s' ∧ (⟨t, .sro⟩ : Item) ∈ s'.stack i ∧ (∀ j, j ≠ i → Gone t (s'.stack j)) ∧
      ∀ i u, u < s.next → Gone u (s.stack i) → Gone u (s'.stack i) := by
  obtain ⟨r, s1, e1, h1, l1, b1, k1, c1, g1, st1⟩ := h.slice hn
  obtain ⟨s2, e2, h2, n2, o2, k2, c2⟩ := h1.shrRef (t := r) (lo := i) (n := 1)
    fun j hl hu => canR_sro (c1 j (by omega))
  refine ⟨s1.next, s2, ?_, h2, by omega, by omega, k1.trans k2,
    c2 i (Nat.le_refl _) (by omega), fun j hj => ?_, fun i u hu hg => ?_⟩
  · simp only [Alias.getRef]
    rw [bind_some e1, e2]
  · rw [o2 j (by omega)]
    exact h1.gone (Nat.le_refl _)
  · exact shrRef_stays e2 (by omega) (st1 i u hu hg)

/-- What `get_unchecked_mut` gives. -/
theorem Inv.getMut {p : Perm} {cap len i : Nat} {s : St} (h : Inv p cap s) (hn : len ≤ cap)
    (hi : i < len) :
    ∃ t s', Alias.getMut cap len i s = some (t, s') ∧ Inv p cap s' ∧ s.next ≤ t ∧ t < s'.next ∧
      CanW t (s'.stack i) ∧ (∀ j, j ≠ i → Gone t (s'.stack j)) ∧
      ∀ i u, i < cap → u ≠ 0 → u < s.next → Gone u (s'.stack i) := by
  obtain ⟨r, s1, e1, h1, l1, b1, c1, g1, k1⟩ := h.sliceMut hn
  obtain ⟨s2, e2, h2, n2, o2, c2⟩ := h1.mutRef (t := r) (lo := i) (n := 1)
    fun j hl hu => c1 j (by omega)
  refine ⟨s1.next, s2, ?_, h2, by omega, by omega, c2 i (Nat.le_refl _) (by omega),
    fun j hj => ?_, fun i u hi hu hlt => ?_⟩
  · simp only [Alias.getMut]
    rw [bind_some e1, e2]
  · rw [o2 j (by omega)]
    exact h1.gone (Nat.le_refl _)
  · exact mutRef_stays e2 (by omega) (k1 i u hi hu hlt)

/-- `get_unchecked_mut` of an index that is not below the length. -/
theorem Inv.getMut_out {p : Perm} {cap len i : Nat} {s : St} (h : Inv p cap s) (hn : len ≤ cap)
    (hi : len ≤ i) : Alias.getMut cap len i s = none := by
  obtain ⟨r, s1, e1, h1, l1, b1, c1, g1, k1⟩ := h.sliceMut hn
  simp only [Alias.getMut]
  rw [bind_some e1]
  exact mutRef_none (Nat.le_refl _) (by omega) (g1 i hi)

/-- What `get_unchecked_mut` gives, as a raw pointer. -/
theorem Inv.getMutPtr {p : Perm} {cap len i : Nat} {s : St} (h : Inv p cap s) (hn : len ≤ cap)
    (hi : i < len) :
    ∃ t s', Alias.getMutPtr cap len i s = some (t, s') ∧ Inv p cap s' ∧ s.next ≤ t ∧ t < s'.next ∧
      (⟨t, .srw⟩ : Item) ∈ s'.stack i ∧ (∀ j, j ≠ i → Gone t (s'.stack j)) ∧
      ∀ i u, i < cap → u ≠ 0 → u < s.next → Gone u (s'.stack i) := by
  obtain ⟨r, s1, e1, h1, l1, b1, c1, g1, k1⟩ := h.getMut hn hi
  obtain ⟨s2, e2, h2, n2, o2, c2⟩ := h1.rawMut (t := r) (lo := i) (n := 1)
    (by have := h.pos; omega) fun j hl hu => by
      have : j = i := by omega
      subst this; exact c1
  refine ⟨s1.next, s2, ?_, h2, by omega, by omega, c2 i (Nat.le_refl _) (by omega),
    fun j hj => ?_, fun i u hi hu hlt => ?_⟩
  · simp only [Alias.getMutPtr]
    rw [bind_some e1, e2]
  · rw [o2 j (by omega)]
    exact h1.gone (Nat.le_refl _)
  · exact rawMut_stays e2 (by omega) (k1 i u hi hu hlt)

/-- Dropping an element through a pointer to it. -/
theorem Inv.dropAt {p : Perm} {cap t i : Nat} {s : St} (h : Inv p cap s) (hc : CanW t (s.stack i)) :
    ∃ s', Alias.dropAt t i s = some ((), s') ∧ Inv p cap s' ∧ s.next ≤ s'.next ∧
      ∀ j, j ≠ i → s'.stack j = s.stack j := by
  obtain ⟨s1, e1, h1, n1, o1, c1⟩ := h.mutRef (t := t) (lo := i) (n := 1) fun j hl hu => by
    have : j = i := by omega
    subst this; exact hc
  obtain ⟨s2, e2, h2, n2, o2, c2⟩ := h1.writeAt (t := s.next) (lo := i) (n := 1) c1
  refine ⟨s2, ?_, h2, by omega, fun j hj => ?_⟩
  · simp only [Alias.dropAt]
    rw [bind_some e1, e2]
  · rw [o2 j (by omega), o1 j (by omega)]

/-- A loop all of whose rounds keep something. -/
theorem forUp_ok {f : Nat → B Unit} {P : Nat → St → Prop} {i n : Nat} {s : St}
    (hf : ∀ k s, i ≤ k → k < i + n → P k s → ∃ s', f k s = some ((), s') ∧ P (k + 1) s')
    (h : P i s) : ∃ s', forUp f i n s = some ((), s') ∧ P (i + n) s' := by
  induction n generalizing i s with
  | zero => exact ⟨s, rfl, h⟩
  | succ n ih =>
    obtain ⟨s1, e1, h1⟩ := hf i s (Nat.le_refl _) (by omega) h
    obtain ⟨s2, e2, h2⟩ := ih (fun k s hl hu hp => hf k s (by omega) (by omega) hp) h1
    refine ⟨s2, ?_, by rwa [show i + (n + 1) = i + 1 + n by omega]⟩
    simp only [forUp]
    rw [bind_some e1, e2]

/-- Dropping a range of elements through one pointer. -/
theorem Inv.dropRange {p : Perm} {cap t i n : Nat} {s : St} (h : Inv p cap s)
    (hc : ∀ j, i ≤ j → j < i + n → CanW t (s.stack j)) :
    ∃ s', forUp (fun k => Alias.dropAt t k) i n s = some ((), s') ∧ Inv p cap s' := by
  obtain ⟨s', e, h', _⟩ := forUp_ok (f := fun k => Alias.dropAt t k) (i := i) (n := n) (s := s)
    (P := fun k s' => Inv p cap s' ∧ ∀ j, k ≤ j → j < i + n → CanW t (s'.stack j))
    (fun k s1 hl hu ⟨h1, c1⟩ => by
      obtain ⟨s2, e2, h2, _, o2⟩ := h1.dropAt (c1 k (Nat.le_refl _) hu)
      exact ⟨s2, e2, h2, fun j hl hu => by rw [o2 j (by omega)]; exact c1 j (by omega) hu⟩)
    ⟨h, hc⟩
  exact ⟨s', e, h'⟩

/-- Dropping the elements one by one, each through a pointer of its own. -/
theorem Inv.dropEach {p : Perm} {cap len : Nat} {s : St} (h : Inv p cap s) (hn : len ≤ cap) :
    ∃ s', forUp (fun i => do
      let r ← Alias.getMut cap len i
      Alias.dropAt r i) 0 len s = some ((), s') ∧ Inv p cap s' := by
  obtain ⟨s', e, h'⟩ := forUp_ok (P := fun _ s' => Inv p cap s') (i := 0) (n := len) (s := s)
    (f := fun i => do
      let r ← Alias.getMut cap len i
      Alias.dropAt r i)
    (fun k s1 hl hu h1 => by
      obtain ⟨t, s2, e2, h2, _, _, c2, _⟩ := h1.getMut hn (i := k) (by omega)
      obtain ⟨s3, e3, h3, _⟩ := h2.dropAt c2
      exact ⟨s3, by rw [bind_some e2, e3], h3⟩)
    h
  exact ⟨s', e, h'⟩

/-! ## Functions that keep to the rules -/

theorem Inv.pop {p : Perm} {cap len : Nat} {s : St} (dbg : Bool) (h : Inv p cap s)
    (hn : len ≤ cap) (h0 : 0 < len) :
    ∃ s', Alias.pop dbg cap len s = some ((), s') ∧ Inv p cap s' := by
  obtain ⟨t, s1, e1, h1, _, _, _, m1, _⟩ := h.getRef hn (i := len - 1) (by omega)
  obtain ⟨s2, e2, h2, _⟩ := h1.readAt (t := t) (lo := len - 1) (n := 1) fun j hl hu => by
    have : j = len - 1 := by omega
    subst this; exact canR_sro m1
  obtain ⟨s3, e3, h3, _⟩ := h2.setLen dbg
  exact ⟨s3, by simp only [Alias.pop]; rw [bind_some e1, bind_some e2, e3], h3⟩

theorem Inv.clear {p : Perm} {cap len : Nat} {s : St} (dbg : Bool) (h : Inv p cap s)
    (hn : len ≤ cap) : ∃ s', Alias.clear dbg cap len s = some ((), s') ∧ Inv p cap s' := by
  obtain ⟨s1, e1, h1⟩ := h.dropEach hn
  obtain ⟨s2, e2, h2, _⟩ := h1.setLen dbg
  exact ⟨s2, by simp only [Alias.clear]; rw [bind_some e1, e2], h2⟩

theorem Inv.truncate {p : Perm} {cap len n : Nat} {s : St} (dbg : Bool) (h : Inv p cap s)
    (hn : len ≤ cap) : ∃ s', Alias.truncate dbg cap len n s = some ((), s') ∧ Inv p cap s' := by
  unfold Alias.truncate
  split
  · exact ⟨s, rfl, h⟩
  · obtain ⟨t, s1, e1, h1, _, _, m1, _⟩ := h.asMutPtr hn
    obtain ⟨s2, e2, h2, _, k2, _⟩ := h1.setLen dbg
    obtain ⟨s3, e3, h3⟩ := h2.dropRange (t := t) (i := n) (n := len - n) fun j hl hu =>
      canW_srw (k2 j _ (m1 j (by omega)) (by simp))
    exact ⟨s3, by rw [bind_some e1, bind_some e2, e3], h3⟩

theorem Inv.insert_last {p : Perm} {cap len : Nat} {s : St} (dbg : Bool) (h : Inv p cap s)
    (hn : len < cap) : ∃ s', Alias.insert dbg cap len len s = some ((), s') ∧ Inv p cap s' := by
  obtain ⟨s0, e0, h0, _⟩ := h.capacity
  obtain ⟨t, s1, e1, h1, l1, _, c1, _⟩ := h0.sliceMut (n := len + 1) (by omega)
  obtain ⟨s2, e2, h2, n2, o2, c2⟩ := h1.mutRef (t := t) (lo := len) (n := 1)
    fun j hl hu => c1 j (by omega)
  obtain ⟨s3, e3, h3, n3, o3, c3⟩ := h2.rawMut (t := s1.next) (lo := len) (n := 1)
    (by have := h1.pos; omega) c2
  obtain ⟨s4, e4, h4, n4, o4, k4⟩ := h3.readAt (t := s2.next) (lo := len) (n := len - len)
    fun j _ _ => by omega
  obtain ⟨s5, e5, h5, n5, o5, k5⟩ := h4.writeAt (t := s2.next) (lo := len + 1) (n := len - len)
    fun j _ _ => by omega
  have hc : ∀ j, len ≤ j → j < len + 1 → CanW s2.next (s5.stack j) := fun j hl hu => by
    rw [o5 j (by omega)]
    exact canW_srw (k4 j _ (c3 j hl hu) (by simp))
  obtain ⟨s6, e6, h6, n6, o6, k6⟩ := h5.writeAt (t := s2.next) (lo := len) (n := 1) hc
  obtain ⟨s7, e7, h7, _⟩ := h6.setLen dbg
  refine ⟨s7, ?_, h7⟩
  have ec : copyAt s2.next len s2.next (len + 1) (len - len) s3 = some ((), s5) := by
    simp only [copyAt]; rw [bind_some e4, e5]
  simp only [Alias.insert]
  rw [bind_some e0, bind_some e1, bind_some e2, bind_some e3, bind_some ec, bind_some e6, e7]

theorem Inv.remove_last {p : Perm} {cap len : Nat} {s : St} (dbg : Bool) (h : Inv p cap s)
    (hn : len ≤ cap) (h0 : 0 < len) :
    ∃ s', Alias.remove dbg cap len (len - 1) s = some ((), s') ∧ Inv p cap s' := by
  obtain ⟨t, s1, e1, h1, _, _, m1, _⟩ := h.getMutPtr hn (i := len - 1) (by omega)
  obtain ⟨s2, e2, h2, _⟩ := h1.readAt (t := t) (lo := len - 1) (n := 1) fun j hl hu => by
    have : j = len - 1 := by omega
    subst this; exact (canW_srw m1).canR
  obtain ⟨s3, e3, h3, _⟩ := h2.readAt (t := t) (lo := len - 1 + 1) (n := len - (len - 1) - 1)
    fun j hl hu => by omega
  obtain ⟨s4, e4, h4, _⟩ := h3.writeAt (t := t) (lo := len - 1) (n := len - (len - 1) - 1)
    fun j hl hu => by omega
  obtain ⟨s5, e5, h5, _⟩ := h4.setLen dbg
  refine ⟨s5, ?_, h5⟩
  have ec : copyAt t (len - 1 + 1) t (len - 1) (len - (len - 1) - 1) s2 = some ((), s4) := by
    simp only [copyAt]; rw [bind_some e3, e4]
  simp only [Alias.remove]
  rw [bind_some e1, bind_some e2, bind_some ec, e5]

theorem Inv.swapRemove_one {p : Perm} {cap : Nat} {s : St} (dbg : Bool) (h : Inv p cap s)
    (hn : 1 ≤ cap) : ∃ s', Alias.swapRemove dbg cap 1 0 s = some ((), s') ∧ Inv p cap s' := by
  simp only [Alias.swapRemove, if_true]
  exact h.pop dbg hn Nat.one_pos

/-! ## A program that uses a vector -/

/-- What holds for a program at all times. -/
structure PInv (g : Prog St) : Prop where
  inv : Inv .srw g.cap g.st
  len : g.len ≤ g.cap
  shr : ∀ t lo n, (t, lo, n) ∈ g.shr → ∀ i, lo ≤ i → i < lo + n →
    (⟨t, .sro⟩ : Item) ∈ g.st.stack i
  uniq : ∀ t lo n, g.uniq = some (t, lo, n) → ∀ i, lo ≤ i → i < lo + n → CanW t (g.st.stack i)
  excl : g.uniq ≠ none → g.shr = []

theorem pinv_start (cap len : Nat) (h : len ≤ cap) : PInv (Prog.start cap len) :=
  ⟨inv_fresh (.inr rfl) cap, h, (by intro _ _ _ h; cases h), (by intro _ _ _ h; cases h),
    fun h => absurd rfl h⟩

theorem PInv.shared {β : Type} {g : Prog St} (h : PInv g) {m : B β} {k : β → Prog St → Prog St} {b : β}
    {st : St} (e : m g.st = some (b, st)) (hi : Inv .srw g.cap st) (hk : Keeps g.st st)
    (hf : ∀ g', PInv g' → g'.st = st → g'.cap = g.cap → g'.len = g.len → g'.uniq = none →
      PInv (k b g')) : ∃ g', g.shared m k = some g' ∧ PInv g' := by
  refine ⟨k b { g with st := st, uniq := none }, by simp only [Prog.shared, e], hf _ ⟨hi, h.len, fun t lo n ht i hl hu => ?_,
    (by intro _ _ _ h; cases h), fun h => absurd rfl h⟩ rfl rfl rfl rfl⟩
  exact hk i _ (h.shr t lo n ht i hl hu) (by simp)

theorem PInv.unique {β : Type} {g : Prog St} (h : PInv g) {m : B β} {k : β → Prog St → Prog St} {b : β}
    {st : St} (e : m g.st = some (b, st)) (hi : Inv .srw g.cap st)
    (hf : ∀ g', PInv g' → g'.st = st → g'.cap = g.cap → g'.len = g.len → g'.uniq = none →
      g'.shr = [] → PInv (k b g')) : ∃ g', g.unique m k = some g' ∧ PInv g' := by
  exact ⟨k b { g with st := st, shr := [], uniq := none }, by simp only [Prog.unique, e], hf _ ⟨hi, h.len, (by intro _ _ _ h; cases h),
    (by intro _ _ _ h; cases h), fun h => absurd rfl h⟩ rfl rfl rfl rfl rfl⟩

theorem PInv.setLen {g : Prog St} (h : PInv g) {n : Nat} (hn : n ≤ g.cap) :
    PInv { g with len := n } := ⟨h.inv, hn, h.shr, h.uniq, h.excl⟩

theorem PInv.addShr {g : Prog St} (h : PInv g) {t lo n : Nat} (hu : g.uniq = none)
    (hm : ∀ i, lo ≤ i → i < lo + n → (⟨t, .sro⟩ : Item) ∈ g.st.stack i) :
    PInv { g with shr := g.shr ++ [(t, lo, n)] } := by
  refine ⟨h.inv, h.len, fun t' lo' n' ht => ?_, h.uniq, fun hne => absurd hu hne⟩
  rcases List.mem_append.1 ht with ht | ht
  · exact h.shr t' lo' n' ht
  · simp at ht
    obtain ⟨rfl, rfl, rfl⟩ := ht
    exact hm

theorem PInv.setUniq {g : Prog St} (h : PInv g) {t lo n : Nat} (hs : g.shr = [])
    (hm : ∀ i, lo ≤ i → i < lo + n → CanW t (g.st.stack i)) :
    PInv { g with uniq := some (t, lo, n) } := by
  refine ⟨h.inv, h.len, h.shr, fun t' lo' n' ht => ?_, fun _ => hs⟩
  cases ht
  exact hm

/-- A read through a `&` held. -/
theorem PInv.readShr {g : Prog St} (h : PInv g) {t lo n i : Nat} (ht : (t, lo, n) ∈ g.shr)
    (hl : lo ≤ i) (hu : i < lo + n) : ∃ g', g.through (Mach.readAt t i 1) = some g' ∧ PInv g' := by
  obtain ⟨s, e, hi, _, _, hk⟩ := h.inv.readAt (t := t) (lo := i) (n := 1) fun j h1 h2 => by
    have : j = i := by omega
    subst this; exact canR_sro (h.shr t lo n ht j hl hu)
  refine ⟨{ g with st := s }, by unfold Prog.through; rw [e], hi, h.len,
    fun t' lo' n' ht' j hl' hu' => hk j _ (h.shr t' lo' n' ht' j hl' hu') (by simp),
    fun t' lo' n' ht' => ?_, h.excl⟩
  have := h.excl (by rw [show g.uniq = _ from ht']; simp)
  rw [this] at ht
  cases ht

theorem read_canW {t : Nat} {k k' : Stack} (h : CanW t k) (e : k.read t = some k') :
    CanW t k' := by
  obtain ⟨x, hx, h1, h2⟩ := h
  simp only [Stack.read] at e
  split at e
  · rename_i a g b e'
    obtain ⟨hk, hg⟩ := splitFirst_some e'
    cases e
    subst hk
    rcases h2 with h2 | h2
    · rcases List.mem_append.1 hx with hx | hx
      · exfalso
        have hfirst : ∀ (s a b : Stack) (g : Item), splitFirst (Item.reads t) s = some (a, g, b) →
            ∀ y ∈ a, Item.reads t y = false := by
          intro s
          induction s with
          | nil => intro a b g h; simp [splitFirst] at h
          | cons i is ih =>
            intro a b g h y hy
            simp only [splitFirst] at h
            split at h
            · cases h; cases hy
            · rename_i hni
              split at h
              · rename_i a' g' b' e''
                cases h
                rcases List.mem_cons.1 hy with rfl | hy
                · simpa using hni
                · exact ih _ _ _ e'' y hy
              · cases h
        have := hfirst _ _ _ _ e' x hx
        have h3 : Item.reads t x = true := reads_iff.2 ⟨h1, by simp [h2]⟩
        rw [this] at h3
        cases h3
      · exact ⟨x, List.mem_append_right _ hx, h1, .inl h2⟩
    · exact ⟨x, mem_afterRead hx (by simp [h2]), h1, .inr h2⟩
  · cases e

/-- A read or write through the `&mut` held. -/
theorem PInv.readUniq {g : Prog St} (h : PInv g) {t lo n i : Nat} (ht : g.uniq = some (t, lo, n))
    (hl : lo ≤ i) (hu : i < lo + n) : ∃ g', g.through (Mach.readAt t i 1) = some g' ∧ PInv g' := by
  have hc := h.uniq t lo n ht
  obtain ⟨s, e, hi, _, ho, hk⟩ := h.inv.readAt (t := t) (lo := i) (n := 1) fun j h1 h2 => by
    have : j = i := by omega
    subst this; exact (hc j hl hu).canR
  refine ⟨{ g with st := s }, by unfold Prog.through; rw [e], hi, h.len, fun t' lo' n' ht' => ?_,
    fun t' lo' n' ht' j hl' hu' => ?_, h.excl⟩
  · have := h.excl (by rw [ht]; simp)
    simp [this] at ht'
  · have he : some (t, lo, n) = some (t', lo', n') := ht.symm.trans ht'
    cases he
    by_cases hj : j = i
    · subst hj
      simp only [mach_readAt, SB.readAt, touch] at e
      split at e
      · rename_i st est
        cases e
        exact read_canW (hc j hl hu) ((forSlots_some est).1 j (Nat.le_refl _) (by omega))
      · cases e
    · show CanW t (s.stack j)
      rw [ho j (by omega)]
      exact hc j hl' hu'

theorem PInv.writeUniq {g : Prog St} (h : PInv g) {t lo n i : Nat} (ht : g.uniq = some (t, lo, n))
    (hl : lo ≤ i) (hu : i < lo + n) : ∃ g', g.through (Mach.writeAt t i 1) = some g' ∧ PInv g' := by
  have hc := h.uniq t lo n ht
  obtain ⟨s, e, hi, _, ho, hk⟩ := h.inv.writeAt (t := t) (lo := i) (n := 1) fun j h1 h2 => by
    have : j = i := by omega
    subst this; exact hc j hl hu
  refine ⟨{ g with st := s }, by unfold Prog.through; rw [e], hi, h.len, fun t' lo' n' ht' => ?_,
    fun t' lo' n' ht' j hl' hu' => ?_, h.excl⟩
  · have := h.excl (by rw [ht]; simp)
    simp [this] at ht'
  · have he : some (t, lo, n) = some (t', lo', n') := ht.symm.trans ht'
    cases he
    by_cases hj : j = i
    · subst hj
      exact hk j (Nat.le_refl _) (by omega)
    · show CanW t (s.stack j)
      rw [ho j (by omega)]
      exact hc j hl' hu'

theorem PInv.step {g : Prog St} (h : PInv g) (dbg : Bool) (c : Call) :
    ∃ g', g.step dbg c = some g' ∧ PInv g' := by
  cases c with
  | capacity =>
    simp only [Prog.step]
    obtain ⟨s, e, hi, _, hk, _⟩ := h.inv.capacity
    exact h.shared e hi hk fun g' hg _ _ _ _ => hg
  | asSlice =>
    simp only [Prog.step]
    obtain ⟨t, s, e, hi, _, _, hk, hm, _⟩ := h.inv.slice h.len
    refine h.shared e hi hk fun g' hg hs _ hl hu => hg.addShr hu ?_
    intro i _ h2
    rw [hs]; exact hm i (by omega)
  | index i =>
    simp only [Prog.step]
    split
    · rename_i hlt
      obtain ⟨t, s, e, hi, _, _, hk, hm, _⟩ := h.inv.getRef h.len hlt
      refine h.shared e hi hk fun g' hg hs _ hl hu => hg.addShr hu ?_
      intro j h1 h2
      have : j = i := by omega
      subst this
      rw [hs]; exact hm
    · exact ⟨g, rfl, h⟩
  | readShr k i =>
    simp only [Prog.step]
    split
    · rename_i t lo n hk
      split
      · rename_i hr
        exact h.readShr (List.mem_of_getElem? hk) hr.1 hr.2
      · exact ⟨g, rfl, h⟩
    · exact ⟨g, rfl, h⟩
  | asMutSlice =>
    simp only [Prog.step]
    obtain ⟨t, s, e, hi, _, _, hc, _⟩ := h.inv.sliceMut h.len
    refine h.unique e hi fun g' hg hs _ hl hu hsh => hg.setUniq hsh ?_
    intro i _ h2
    rw [hs]; exact hc i (by omega)
  | indexMut i =>
    simp only [Prog.step]
    split
    · rename_i hlt
      obtain ⟨t, s, e, hi, _, _, hc, _⟩ := h.inv.getMut h.len hlt
      refine h.unique e hi fun g' hg hs _ hl hu hsh => hg.setUniq hsh ?_
      intro j h1 h2
      have : j = i := by omega
      subst this
      rw [hs]; exact hc
    · exact ⟨g, rfl, h⟩
  | readMut i =>
    simp only [Prog.step]
    split
    · rename_i t lo n hk
      split
      · rename_i hr
        exact h.readUniq hk hr.1 hr.2
      · exact ⟨g, rfl, h⟩
    · exact ⟨g, rfl, h⟩
  | writeMut i =>
    simp only [Prog.step]
    split
    · rename_i t lo n hk
      split
      · rename_i hr
        exact h.writeUniq hk hr.1 hr.2
      · exact ⟨g, rfl, h⟩
    · exact ⟨g, rfl, h⟩
  | pop =>
    simp only [Prog.step]
    split
    · rename_i h0
      obtain ⟨s, e, hi⟩ := h.inv.pop dbg h.len h0
      exact h.unique e hi fun g' hg _ hc hl _ _ => hg.setLen (by have := h.len; omega)
    · exact ⟨g, rfl, h⟩
  | clear =>
    simp only [Prog.step]
    obtain ⟨s, e, hi⟩ := h.inv.clear dbg h.len
    exact h.unique e hi fun g' hg _ _ _ _ _ => hg.setLen (Nat.zero_le _)
  | truncate n =>
    simp only [Prog.step]
    obtain ⟨s, e, hi⟩ := h.inv.truncate dbg (n := n) h.len
    exact h.unique e hi fun g' hg _ hc hl _ _ => hg.setLen (by have := h.len; omega)
  | insertLast =>
    simp only [Prog.step]
    split
    · rename_i h0
      obtain ⟨s, e, hi⟩ := h.inv.insert_last dbg h0
      exact h.unique e hi fun g' hg _ hc hl _ _ => hg.setLen (by omega)
    · exact ⟨g, rfl, h⟩
  | removeLast =>
    simp only [Prog.step]
    split
    · rename_i h0
      obtain ⟨s, e, hi⟩ := h.inv.remove_last dbg h.len h0
      exact h.unique e hi fun g' hg _ hc hl _ _ => hg.setLen (by have := h.len; omega)
    · exact ⟨g, rfl, h⟩
  | swapRemoveOnly =>
    simp only [Prog.step]
    split
    · rename_i h1
      have hl := h.len
      rw [h1] at hl ⊢
      obtain ⟨s, e, hi⟩ := h.inv.swapRemove_one dbg hl
      exact h.unique e hi fun g' hg _ hc hl _ _ => hg.setLen (by have := h.len; omega)
    · exact ⟨g, rfl, h⟩
  | realloc cap =>
    simp only [Prog.step]
    split
    · rename_i hle
      exact ⟨_, rfl, inv_fresh (.inr rfl) cap, hle, (by intro _ _ _ h; cases h),
        (by intro _ _ _ h; cases h), fun h => absurd rfl h⟩
    · exact ⟨g, rfl, h⟩

theorem PInv.run {g : Prog St} (h : PInv g) (dbg : Bool) (cs : List Call) :
    ∃ g', g.run dbg cs = some g' ∧ PInv g' := by
  induction cs generalizing g with
  | nil => exact ⟨g, rfl, h⟩
  | cons c cs ih =>
    obtain ⟨g1, e1, h1⟩ := h.step dbg c
    obtain ⟨g2, e2, h2⟩ := ih h1
    exact ⟨g2, by simp only [Prog.run, e1, e2], h2⟩

/-! ## Functions that break the rules -/

theorem copyAt_src {src fr dst to n i : Nat} {s : St} (hl : fr ≤ i) (hu : i < fr + n)
    (h : Gone src (s.stack i)) : copyAt src fr dst to n s = none := by
  simp only [copyAt]
  exact bind_none (readAt_none hl hu h)

theorem copyAt_dst {src fr dst to n i : Nat} {s : St} (hl : to ≤ i) (hu : i < to + n)
    (h : Gone dst (s.stack i)) : copyAt src fr dst to n s = none := by
  simp only [copyAt]
  cases e : Mach.readAt src fr n s with
  | none => exact bind_none e
  | some r =>
    obtain ⟨u, s'⟩ := r
    rw [bind_some e]
    exact writeAt_none hl hu (readAt_stays e h)

theorem Inv.push_none {p : Perm} {cap len : Nat} {s : St} (dbg : Bool) (h : Inv p cap s)
    (hn : len < cap) : Alias.push dbg cap len s = none := by
  obtain ⟨s0, e0, h0, _⟩ := h.capacity
  obtain ⟨t, s1, e1, h1, _, _, _, g1, _⟩ := h0.asMutPtr (len := len) (by omega)
  simp only [Alias.push]
  rw [bind_some e0, bind_some e1]
  exact bind_none (writeAt_none (Nat.le_refl _) (by omega) (g1 len (Nat.le_refl _)))

theorem Inv.append_none {p : Perm} {cap len n : Nat} {s : St} (dbg : Bool) (h : Inv p cap s)
    (hn : len + n ≤ cap) (h0 : 0 < n) : Alias.append dbg cap len n s = none := by
  obtain ⟨s0, e0, h0, _⟩ := h.capacity
  obtain ⟨t, s1, e1, h1, _, _, _, g1, _⟩ := h0.asMutPtr (len := len) (by omega)
  simp only [Alias.append]
  rw [bind_some e0, bind_some e1]
  exact bind_none (writeAt_none (Nat.le_refl _) (by omega) (g1 len (Nat.le_refl _)))

theorem Inv.fromArray_none {p : Perm} {n : Nat} {s : St} (dbg : Bool) (h : Inv p n s)
    (hn : 0 < n) : Alias.fromArray dbg n s = none := by
  obtain ⟨s0, e0, h0, _⟩ := h.capacity
  obtain ⟨t, s1, e1, h1, _, _, _, g1, _⟩ := h0.asMutPtr (len := 0) (by omega)
  simp only [Alias.fromArray]
  rw [bind_some e0, bind_some e1]
  exact bind_none (writeAt_none (Nat.le_refl _) (by omega) (g1 0 (Nat.le_refl _)))

theorem Inv.splitOffNew_none {p : Perm} {n : Nat} {s : St} (h : Inv p n s)
    (hn : 0 < n) : Alias.splitOffNew n s = none := by
  obtain ⟨t, s1, e1, h1, _, _, _, g1, _⟩ := h.asMutPtr (len := 0) (by omega)
  simp only [Alias.splitOffNew]
  rw [bind_some e1]
  exact writeAt_none (Nat.le_refl _) (by omega) (g1 0 (Nat.le_refl _))

theorem Inv.splitOff_none {p : Perm} {cap len k : Nat} {s : St} (h : Inv p cap s)
    (hn : len ≤ cap) (hk : k + 1 < len) : Alias.splitOff cap len k s = none := by
  obtain ⟨t, s1, e1, h1, _, _, _, _, g1, _⟩ := h.getRef hn (i := k) (by omega)
  unfold Alias.splitOff
  rw [if_neg (by omega), bind_some e1]
  exact readAt_none (i := k + 1) (by omega) (by omega) (g1 _ (by omega))

theorem Inv.spare_none {p : Perm} {cap len : Nat} {s : St} (h : Inv p cap s)
    (hn : len < cap) : Alias.spareCapacity cap len s = none := by
  obtain ⟨t, s1, e1, h1, _, b1, _, _, g1, _⟩ := h.slice (n := len) (by omega)
  obtain ⟨s2, e2, h2, _, _, k2⟩ := h1.capacity
  simp only [Alias.spareCapacity, asPtr]
  rw [bind_some e1, bind_some e2]
  exact shrRef_none (Nat.le_refl _) (by omega) (k2 _ _ b1 (g1 len (Nat.le_refl _)))

theorem Inv.spareMut_none {p : Perm} {cap len : Nat} {s : St} (h : Inv p cap s)
    (hn : len < cap) : Alias.spareCapacityMut cap len s = none := by
  obtain ⟨t, s1, e1, h1, _, b1, _, g1, _⟩ := h.asMutPtr (len := len) (by omega)
  obtain ⟨s2, e2, h2, _, _, k2⟩ := h1.capacity
  simp only [Alias.spareCapacityMut]
  rw [bind_some e1, bind_some e2]
  exact mutRef_none (Nat.le_refl _) (by omega) (k2 _ _ b1 (g1 len (Nat.le_refl _)))

theorem Inv.insert_none {p : Perm} {cap len i : Nat} {s : St} (dbg : Bool) (h : Inv p cap s)
    (hn : len < cap) (hi : i < len) : Alias.insert dbg cap len i s = none := by
  obtain ⟨s0, e0, h0, _⟩ := h.capacity
  obtain ⟨t, s1, e1, h1, l1, _, c1, _⟩ := h0.sliceMut (n := len + 1) (by omega)
  obtain ⟨s2, e2, h2, n2, o2, c2⟩ := h1.mutRef (t := t) (lo := i) (n := 1)
    fun j hl hu => c1 j (by omega)
  obtain ⟨s3, e3, h3, n3, o3, c3⟩ := h2.rawMut (t := s1.next) (lo := i) (n := 1)
    (by have := h1.pos; omega) c2
  simp only [Alias.insert]
  rw [bind_some e0, bind_some e1, bind_some e2, bind_some e3]
  refine bind_none (copyAt_dst (i := i + 1) (Nat.le_refl _) (by omega) ?_)
  rw [o3 _ (by omega)]
  exact h2.gone (Nat.le_refl _)

theorem Inv.remove_none {p : Perm} {cap len i : Nat} {s : St} (dbg : Bool) (h : Inv p cap s)
    (hn : len ≤ cap) (hi : i + 1 < len) : Alias.remove dbg cap len i s = none := by
  obtain ⟨t, s1, e1, h1, _, _, m1, g1, _⟩ := h.getMutPtr hn (i := i) (by omega)
  obtain ⟨s2, e2, h2, _⟩ := h1.readAt (t := t) (lo := i) (n := 1) fun j hl hu => by
    have : j = i := by omega
    subst this; exact (canW_srw m1).canR
  simp only [Alias.remove]
  rw [bind_some e1, bind_some e2]
  exact bind_none (copyAt_src (i := i + 1) (Nat.le_refl _) (by omega)
    (readAt_stays e2 (g1 _ (by omega))))

theorem Inv.swapRemove_none {p : Perm} {cap len i : Nat} {s : St} (dbg : Bool) (h : Inv p cap s)
    (hn : len ≤ cap) (hi : i < len) (h2 : 2 ≤ len) : Alias.swapRemove dbg cap len i s = none := by
  obtain ⟨e, s1, e1, h1, l1, b1, _⟩ := h.getMutPtr hn hi
  obtain ⟨l, s2, e2, h2', _, _, _, _, k2⟩ := h1.getMutPtr hn (i := len - 1) (by omega)
  unfold Alias.swapRemove
  rw [if_neg (by omega), bind_some e1, bind_some e2]
  exact bind_none (readAt_none (Nat.le_refl _) (by omega)
    (k2 i e (by omega) (by have := h.pos; omega) b1))

theorem Inv.intoDrop_none {p : Perm} {cap len i : Nat} {s : St} (dbg : Bool) (h : Inv p cap s)
    (hi : i < len) : Alias.intoDrop dbg cap len i s = none := by
  obtain ⟨s0, e0, h0, _⟩ := h.setLen dbg
  obtain ⟨t, s1, e1, h1, _, _, _, g1, _⟩ := h0.asMutPtr (len := 0) (by omega)
  simp only [Alias.intoDrop]
  rw [bind_some e0, bind_some e1]
  exact bind_none (mutRef_none (Nat.le_refl _) (by omega) (g1 i (Nat.zero_le _)))

theorem Inv.keepNext_none {p : Perm} {cap len read write : Nat} {s : St} (dbg : Bool)
    (h : Inv p cap s) (hn : len ≤ cap) (hr : read < len) (hw : write < len) :
    Alias.keepNext dbg cap len read write s = none := by
  obtain ⟨r, s1, e1, h1, l1, b1, _⟩ := h.getRef hn hr
  obtain ⟨w, s2, e2, h2, _, _, _, _, k2⟩ := h1.getMutPtr hn hw
  simp only [Alias.keepNext, retainCopy]
  refine bind_none ?_
  rw [bind_some e1, bind_some e2]
  exact copyAt_src (Nat.le_refl _) (by omega) (k2 read r (by omega) (by have := h.pos; omega) b1)

theorem Inv.discardNext {p : Perm} {cap len read : Nat} {s : St} (h : Inv p cap s)
    (hn : len ≤ cap) (hr : read < len) :
    ∃ s', Alias.discardNext cap len read s = some ((), s') ∧ Inv p cap s' := by
  obtain ⟨t, s1, e1, h1, _, _, c1, _⟩ := h.getMut hn hr
  obtain ⟨s2, e2, h2, _⟩ := h1.dropAt c1
  exact ⟨s2, by simp only [Alias.discardNext]; rw [bind_some e1, e2], h2⟩

theorem Inv.peek {p : Perm} {cap len i : Nat} {s : St} (h : Inv p cap s) (hn : len ≤ cap)
    (hi : i < len) :
    ∃ t s1 s2, Alias.getRef cap len i s = some (t, s1) ∧ Mach.readAt t i 1 s1 = some ((), s2) ∧
      Inv p cap s2 := by
  obtain ⟨t, s1, e1, h1, _, _, _, m1, _⟩ := h.getRef hn hi
  obtain ⟨s2, e2, h2, _⟩ := h1.readAt (t := t) (lo := i) (n := 1) fun j hl hu => by
    have : j = i := by omega
    subst this; exact canR_sro m1
  exact ⟨t, s1, s2, e1, e2, h2⟩

theorem Inv.peekMut {p : Perm} {cap len i : Nat} {s : St} (h : Inv p cap s) (hn : len ≤ cap)
    (hi : i < len) :
    ∃ t s1 s2, Alias.getMut cap len i s = some (t, s1) ∧ Mach.writeAt t i 1 s1 = some ((), s2) ∧
      Inv p cap s2 := by
  obtain ⟨t, s1, e1, h1, _, _, c1, _⟩ := h.getMut hn hi
  obtain ⟨s2, e2, h2, _⟩ := h1.writeAt (t := t) (lo := i) (n := 1) fun j hl hu => by
    have : j = i := by omega
    subst this; exact c1
  exact ⟨t, s1, s2, e1, e2, h2⟩

theorem Inv.retainLoop {p : Perm} {cap len : Nat} {keep : Nat → Bool} (dbg : Bool)
    (hn : len ≤ cap) {n : Nat} : ∀ {read write : Nat} {s : St}, Inv p cap s →
    read + n ≤ len → write ≤ read →
    ((∃ i, read ≤ i ∧ i < read + n ∧ keep i = true) →
      Alias.retainLoop dbg cap len keep read write n s = none) ∧
    ((∀ i, read ≤ i → i < read + n → keep i = false) →
      ∃ s', Alias.retainLoop dbg cap len keep read write n s = some ((), s') ∧ Inv p cap s') := by
  induction n with
  | zero =>
    intro read write s h _ _
    exact ⟨fun ⟨i, _, _, _⟩ => by omega, fun _ => ⟨s, rfl, h⟩⟩
  | succ n ih =>
    intro read write s h hr hw
    obtain ⟨t, s1, s2, e1, e2, h2⟩ := h.peek hn (i := read) (by omega)
    simp only [Alias.retainLoop]
    rw [bind_some e1, bind_some e2]
    cases hk : keep read with
    | true =>
      refine ⟨fun _ => ?_, fun hall => ?_⟩
      · rw [if_pos rfl]
        exact bind_none (h2.keepNext_none dbg hn (by omega) (by omega))
      · have := hall read (Nat.le_refl _) (by omega)
        rw [hk] at this; cases this
    | false =>
      obtain ⟨s3, e3, h3⟩ := h2.discardNext hn (read := read) (by omega)
      rw [if_neg (by simp), bind_some e3]
      obtain ⟨i1, i2⟩ := ih (read := read + 1) (write := write) h3 (by omega) (by omega)
      refine ⟨fun ⟨i, hl, hu, hi⟩ => i1 ⟨i, ?_, by omega, hi⟩, fun hall => i2 fun i hl hu =>
        hall i (by omega) (by omega)⟩
      rcases Nat.eq_or_lt_of_le hl with rfl | hl
      · rw [hk] at hi; cases hi
      · exact hl

theorem Inv.dedupKeyLoop {p : Perm} {cap len : Nat} {same : Nat → Bool} (dbg : Bool)
    (hn : len ≤ cap) {n : Nat} : ∀ {read write : Nat} {s : St}, Inv p cap s →
    read + n ≤ len → write ≤ read →
    ((∃ i, read ≤ i ∧ i < read + n ∧ same i = false) →
      Alias.dedupKeyLoop dbg cap len same read write n s = none) ∧
    ((∀ i, read ≤ i → i < read + n → same i = true) →
      ∃ s', Alias.dedupKeyLoop dbg cap len same read write n s = some ((), s') ∧ Inv p cap s') := by
  induction n with
  | zero =>
    intro read write s h _ _
    exact ⟨fun ⟨i, _, _, _⟩ => by omega, fun _ => ⟨s, rfl, h⟩⟩
  | succ n ih =>
    intro read write s h hr hw
    obtain ⟨t, s1, s2, e1, e2, h2⟩ := h.peekMut hn (i := read) (by omega)
    simp only [Alias.dedupKeyLoop]
    rw [bind_some e1, bind_some e2]
    cases hk : same read with
    | false =>
      refine ⟨fun _ => ?_, fun hall => ?_⟩
      · rw [if_neg (by simp)]
        exact bind_none (h2.keepNext_none dbg hn (by omega) (by omega))
      · have := hall read (Nat.le_refl _) (by omega)
        rw [hk] at this; cases this
    | true =>
      obtain ⟨s3, e3, h3⟩ := h2.discardNext hn (read := read) (by omega)
      rw [if_pos rfl, bind_some e3]
      obtain ⟨i1, i2⟩ := ih (read := read + 1) (write := write) h3 (by omega) (by omega)
      refine ⟨fun ⟨i, hl, hu, hi⟩ => i1 ⟨i, ?_, by omega, hi⟩, fun hall => i2 fun i hl hu =>
        hall i (by omega) (by omega)⟩
      rcases Nat.eq_or_lt_of_le hl with rfl | hl
      · rw [hk] at hi; cases hi
      · exact hl

theorem Inv.dedupBy_none {p : Perm} {cap len : Nat} {wt wk same : Nat → Bool} {s : St} (dbg : Bool)
    (h : Inv p cap s) (hn : len ≤ cap) (h3 : 3 ≤ len) : Alias.dedupBy dbg cap len wt wk same s = none := by
  obtain ⟨t, s1, e1, h1, l1, b1, _⟩ := h.getMutPtr hn (i := 0) (by omega)
  obtain ⟨s2, e2, h2, l2, _⟩ := h1.setLen dbg
  obtain ⟨r, s3, e3, h3', l3, b3, m3, _, k3⟩ := h2.getMutPtr hn (i := 2) (by omega)
  obtain ⟨s4, e4, h4, n4, o4, c4⟩ := h3'.mutRef (t := r) (lo := 2) (n := 1) fun j hl hu => by
    have : j = 2 := by omega
    subst this; exact canW_srw m3
  simp only [Alias.dedupBy]
  rw [bind_some e1, bind_some e2, show len - 2 = (len - 3) + 1 by omega]
  simp only [Alias.dedupByLoop]
  rw [bind_some e3, bind_some e4]
  refine bind_none (mutRef_none (i := 0) (Nat.le_refl _) (by omega) ?_)
  rw [o4 0 (by omega)]
  exact k3 0 t (by omega) (by have := h.pos; omega) (by omega)

theorem Inv.stackInsert_none {p : Perm} {cap len i : Nat} {s : St} (h : Inv p cap s)
    (hn : len ≤ cap) (hi : i ≤ len) : Alias.stackInsert cap len i s = none := by
  simp only [Alias.stackInsert]
  by_cases he : i = len
  · refine bind_none ?_
    simp only [Alias.getMutPtr]
    exact bind_none (h.getMut_out hn (by omega))
  · obtain ⟨t, s1, e1, h1, _, _, m1, g1, _⟩ := h.getMutPtr hn (i := i) (by omega)
    rw [bind_some e1]
    exact bind_none (copyAt_dst (i := i + 1) (Nat.le_refl _) (by omega) (g1 _ (by omega)))

theorem retag_next {f : Nat → Stack → Option Stack} {lo n r : Nat} {s s' : St}
    (h : retag f lo n s = some (r, s')) : s'.next = s.next + 1 := by
  simp only [retag] at h
  split at h
  · cases h; rfl
  · cases h

theorem asMutPtr_stays {cap len w u i : Nat} {s s' : St} (h : asMutPtr cap len s = some (w, s'))
    (hu : u < s.next) (hg : Gone u (s.stack i)) : Gone u (s'.stack i) := by
  simp only [asMutPtr] at h
  obtain ⟨b1, s1, h1, h⟩ := bind_inv h
  simp only [Alias.sliceMut] at h1
  obtain ⟨b2, s2, h2, h1⟩ := bind_inv h1
  obtain ⟨b3, s3, h3, h1⟩ := bind_inv h1
  have n2 := retag_next h2
  have n3 := retag_next h3
  have n1 := retag_next h1
  exact rawMut_stays h (by omega) (mutRef_stays h1 (by omega)
    (rawMut_stays h3 (by omega) (mutRef_stays h2 (by omega) hg)))

theorem Inv.stackRemove_none {p : Perm} {cap len i : Nat} {s : St} (h : Inv p cap s)
    (hn : len ≤ cap) (hi : i < len) : Alias.stackRemove cap len i s = none := by
  obtain ⟨t, s1, e1, h1, _, _, m1, _⟩ := h.getMutPtr hn hi
  obtain ⟨s2, e2, h2, _⟩ := h1.readAt (t := t) (lo := i) (n := 1) fun j hl hu => by
    have : j = i := by omega
    subst this; exact (canW_srw m1).canR
  obtain ⟨r, s3, e3, h3, l3, b3, _, _, g3, _⟩ := h2.slice (n := len) hn
  obtain ⟨w, s4, e4, h4, _, _, _, _, k4⟩ := h3.asMutPtr (len := len) hn
  simp only [Alias.stackRemove, asPtr]
  rw [bind_some e1, bind_some e2, bind_some e3, bind_some e4]
  by_cases he : i + 1 < len
  · exact copyAt_src (i := i + 1) (Nat.le_refl _) (by omega)
      (k4 _ r (by omega) (by have := h2.pos; omega) b3)
  · have hg : Gone r (s4.stack (i + 1)) := by
      have hg3 := g3 (i + 1) (by omega)
      by_cases hc : i + 1 < cap
      · exact k4 _ r hc (by have := h2.pos; omega) b3
      · intro x hx hxr
        exact asMutPtr_stays e4 b3 hg3 x hx hxr
    exact copyAt_src (i := i + 1) (Nat.le_refl _) (by omega) hg

/-! ## `StackVec` and `IntoIter` -/

theorem Inv.stackPush {p : Perm} {cap len : Nat} {s : St} (h : Inv p cap s) (hn : len < cap) :
    ∃ s', Alias.stackPush cap len s = some ((), s') ∧ Inv p cap s' := by
  obtain ⟨t, s1, e1, h1, l1, _, c1, _⟩ := h.sliceMut (n := len + 1) (by omega)
  obtain ⟨s2, e2, h2, n2, o2, c2⟩ := h1.mutRef (t := t) (lo := len) (n := 1)
    fun j hl hu => c1 j (by omega)
  obtain ⟨s3, e3, h3, _⟩ := h2.writeAt (t := s1.next) (lo := len) (n := 1) c2
  exact ⟨s3, by simp only [Alias.stackPush]; rw [bind_some e1, bind_some e2, e3], h3⟩

theorem Inv.stackClear {p : Perm} {cap len : Nat} {s : St} (h : Inv p cap s) (hn : len ≤ cap) :
    ∃ s', Alias.stackClear cap len s = some ((), s') ∧ Inv p cap s' := by
  obtain ⟨t, s1, e1, h1, l1, _, c1, _⟩ := h.sliceMut hn
  obtain ⟨s2, e2, h2⟩ := h1.dropRange (t := t) (i := 0) (n := len) fun j _ hu => c1 j (by omega)
  exact ⟨s2, by simp only [Alias.stackClear]; rw [bind_some e1, e2], h2⟩

theorem Inv.stackSwapRemove {p : Perm} {cap len i : Nat} {s : St} (h : Inv p cap s)
    (hn : len ≤ cap) (hi : i < len) :
    ∃ s', Alias.stackSwapRemove cap len i s = some ((), s') ∧ Inv p cap s' := by
  obtain ⟨t, s1, e1, h1, _, _, m1, _⟩ := h.getMutPtr hn hi
  obtain ⟨s2, e2, h2, _, _, k2⟩ := h1.readAt (t := t) (lo := i) (n := 1) fun j hl hu => by
    have : j = i := by omega
    subst this; exact (canW_srw m1).canR
  obtain ⟨l, s3, e3, h3, _, _, k3, m3, _⟩ := h2.getRef hn (i := len - 1) (by omega)
  obtain ⟨s4, e4, h4, _, _, k4⟩ := h3.readAt (t := l) (lo := len - 1) (n := 1) fun j hl hu => by
    have : j = len - 1 := by omega
    subst this; exact canR_sro m3
  obtain ⟨s5, e5, h5, _⟩ := h4.writeAt (t := t) (lo := i) (n := 1) fun j hl hu => by
    have : j = i := by omega
    subst this
    exact canW_srw (k4 _ _ (k3 _ _ (k2 _ _ m1 (by simp)) (by simp)) (by simp))
  refine ⟨s5, ?_, h5⟩
  have ec : copyAt l (len - 1) t i 1 s3 = some ((), s5) := by
    simp only [copyAt]; rw [bind_some e4, e5]
  simp only [Alias.stackSwapRemove]
  rw [bind_some e1, bind_some e2, bind_some e3, ec]

theorem Inv.dropVec {p : Perm} {cap len : Nat} {s : St} (h : Inv p cap s) (hn : len ≤ cap) :
    ∃ s', Alias.dropVec cap len s = some ((), s') ∧ Inv p cap s' := by
  obtain ⟨s0, e0, h0, _⟩ := h.capacity
  obtain ⟨s1, e1, h1⟩ := h0.dropEach hn
  obtain ⟨s2, e2, h2, _⟩ := h1.writeAt (t := 0) (lo := 0) (n := cap)
    fun j _ hu => h1.canW_root (by omega)
  exact ⟨s2, by simp only [Alias.dropVec]; rw [bind_some e0, bind_some e1, e2], h2⟩

theorem Inv.intoNext {p : Perm} {cap len i : Nat} {s : St} (h : Inv p cap s) (hn : len ≤ cap)
    (hi : i < len) : ∃ s', Alias.intoNext cap len i s = some ((), s') ∧ Inv p cap s' := by
  obtain ⟨t, s1, s2, e1, e2, h2⟩ := h.peek hn hi
  exact ⟨s2, by simp only [Alias.intoNext]; rw [bind_some e1, e2], h2⟩

theorem Inv.intoSlice {p : Perm} {cap len i : Nat} {s : St} (h : Inv p cap s) (hn : len ≤ cap) :
    ∃ t s', Alias.intoSlice cap len i s = some (t, s') ∧ Inv p cap s' ∧
      ∀ j, i ≤ j → j < len → CanR t (s'.stack j) := by
  obtain ⟨t, s1, e1, h1, _, _, _, m1, _⟩ := h.slice hn
  obtain ⟨s2, e2, h2, _, _, _, m2⟩ := h1.shrRef (t := t) (lo := i) (n := len - i)
    fun j hl hu => canR_sro (m1 j (by omega))
  exact ⟨_, s2, by simp only [Alias.intoSlice, asPtr]; rw [bind_some e1, e2], h2,
    fun j hl hu => canR_sro (m2 j hl (by omega))⟩

theorem Inv.intoSliceMut {p : Perm} {cap len i : Nat} {s : St} (h : Inv p cap s)
    (hn : len ≤ cap) :
    ∃ t s', Alias.intoSliceMut cap len i s = some (t, s') ∧ Inv p cap s' ∧
      ∀ j, i ≤ j → j < len → CanW t (s'.stack j) := by
  obtain ⟨t, s1, e1, h1, _, _, m1, _⟩ := h.asMutPtr hn
  obtain ⟨s2, e2, h2, _, _, c2⟩ := h1.mutRef (t := t) (lo := i) (n := len - i)
    fun j hl hu => canW_srw (m1 j (by omega))
  exact ⟨_, s2, by simp only [Alias.intoSliceMut]; rw [bind_some e1, e2], h2,
    fun j hl hu => c2 j hl (by omega)⟩

/-! ## `String` and moving a `SmallVec` -/

theorem Inv.fill_none {p : Perm} {cap n : Nat} {s : St} (h : Inv p cap s) (hn : 0 < n) :
    Alias.moveToHeap cap n s = none := by
  obtain ⟨t, s1, e1, h1, _, _, _, g1, _⟩ := h.asMutPtr (len := 0) (by omega)
  simp only [Alias.moveToHeap]
  rw [bind_some e1]
  exact writeAt_none (Nat.le_refl _) (by omega) (g1 0 (Nat.le_refl _))

theorem Inv.strRetainMove {p : Perm} {cap len to n : Nat} {s : St} (h : Inv p cap s)
    (hl : len ≤ cap) (hn : to + n ≤ len) :
    ∃ s', Alias.strRetainMove cap len to n s = some ((), s') ∧ Inv p cap s' := by
  obtain ⟨t, s1, e1, h1, _, _, m1, _⟩ := h.asMutPtr hl
  obtain ⟨s2, e2, h2, n2, _, c2⟩ := h1.mutRef (t := t) (lo := to) (n := n)
    fun j hl hu => canW_srw (m1 j (by omega))
  obtain ⟨s3, e3, h3, _⟩ := h2.writeAt (t := s1.next) (lo := to) (n := n) c2
  exact ⟨s3, by simp only [Alias.strRetainMove]; rw [bind_some e1, bind_some e2, e3], h3⟩

/-- A `*const T` made before a `*mut T` can no longer be used. -/
theorem Inv.stale {p : Perm} {cap len : Nat} {s : St} (h : Inv p cap s) (hl : len ≤ cap) :
    ∃ r s1 w s2, asPtr cap len s = some (r, s1) ∧ Alias.asMutPtr cap len s1 = some (w, s2) ∧
      Inv p cap s2 ∧ (∀ i, i < cap → Gone r (s2.stack i)) ∧
      (∀ i, i < len → (⟨w, .srw⟩ : Item) ∈ s2.stack i) := by
  obtain ⟨r, s1, e1, h1, l1, b1, _⟩ := h.slice hl
  obtain ⟨w, s2, e2, h2, _, _, m2, _, k2⟩ := h1.asMutPtr hl
  exact ⟨r, s1, w, s2, e1, e2, h2, fun i hi => k2 i r hi (by have := h.pos; omega) b1, m2⟩

theorem Inv.strRemove {p : Perm} {cap len idx next : Nat} {s : St} (dbg : Bool) (h : Inv p cap s)
    (hl : len ≤ cap) (h1 : idx < next) (h2 : next ≤ len) :
    (Alias.strRemove dbg cap len idx next s).isSome = true ↔ next = len := by
  obtain ⟨r, s1, e1, i1, _, _, _, m1, _⟩ := h.slice hl
  obtain ⟨s2, e2, i2, _⟩ := i1.readAt (t := r) (lo := idx) (n := next - idx)
    fun j _ hu => canR_sro (m1 j (by omega))
  obtain ⟨r', s3, w, s4, e3, e4, i4, g4, m4⟩ := i2.stale hl
  simp only [Alias.strRemove]
  rw [bind_some (show asPtr cap len s = _ from e1), bind_some e2, bind_some e3, bind_some e4]
  by_cases he : next = len
  · subst he
    obtain ⟨s5, e5, i5, _⟩ := i4.readAt (t := r') (lo := next) (n := next - next)
      fun j _ _ => by omega
    obtain ⟨s6, e6, i6, _⟩ := i5.writeAt (t := w) (lo := idx) (n := next - next)
      fun j _ _ => by omega
    obtain ⟨s7, e7, _⟩ := i6.setLen dbg
    have ec : copyAt r' next w idx (next - next) s4 = some ((), s6) := by
      simp only [copyAt]; rw [bind_some e5, e6]
    rw [bind_some ec, e7]
    simp
  · rw [bind_none (copyAt_src (i := next) (Nat.le_refl _) (by omega) (g4 next (by omega)))]
    simp [he]

theorem Inv.strInsert {p : Perm} {cap len idx amt : Nat} {s : St} (dbg : Bool) (h : Inv p cap s)
    (hl : len + amt ≤ cap) (hi : idx ≤ len) :
    (Alias.strInsert dbg cap len idx amt s).isSome = true ↔ idx = len ∧ amt = 0 := by
  obtain ⟨s0, e0, i0, _⟩ := h.capacity
  obtain ⟨r', s3, w, s4, e3, e4, i4, g4, m4⟩ := i0.stale (len := len) (by omega)
  simp only [Alias.strInsert]
  rw [bind_some e0, bind_some e3, bind_some e4]
  by_cases he : idx = len
  · subst he
    obtain ⟨s5, e5, i5, _⟩ := i4.readAt (t := r') (lo := idx) (n := idx - idx)
      fun j _ _ => by omega
    obtain ⟨s6, e6, i6, _⟩ := i5.writeAt (t := w) (lo := idx + amt) (n := idx - idx)
      fun j _ _ => by omega
    have ec : copyAt r' idx w (idx + amt) (idx - idx) s4 = some ((), s6) := by
      simp only [copyAt]; rw [bind_some e5, e6]
    obtain ⟨w2, s7, e7, i7, _, _, _, g7, _⟩ := i6.asMutPtr (len := idx) (by omega)
    rw [bind_some ec, bind_some e7]
    by_cases ha : amt = 0
    · subst ha
      obtain ⟨s8, e8, i8, _⟩ := i7.writeAt (t := w2) (lo := idx) (n := 0) fun j _ _ => by omega
      obtain ⟨s9, e9, _⟩ := i8.setLen dbg
      rw [bind_some e8, e9]
      simp
    · rw [bind_none (writeAt_none (i := idx) (Nat.le_refl _) (by omega) (g7 idx (Nat.le_refl _)))]
      simp [ha]
  · rw [bind_none (copyAt_src (i := idx) (Nat.le_refl _) (by omega) (g4 idx (by omega)))]
    simp [he]

end Lokky.SB
