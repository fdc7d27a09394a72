import Verif.Model.Borrows
import Verif.Proofs.Alias

/-!
# Lemmas on Stacked Borrows
-/

open Lokky.Alias

namespace Lokky.SB

theorem mach_mutRef (t lo n : Nat) : (Mach.mutRef t lo n : B Nat) = SB.mutRef t lo n := rfl

theorem mach_shrRef (t lo n : Nat) : (Mach.shrRef t lo n : B Nat) = SB.shrRef t lo n := rfl

theorem mach_rawMut (t lo n : Nat) : (Mach.rawMut t lo n : B Nat) = SB.rawMut t lo n := rfl

theorem mach_readAt (t lo n : Nat) : (Mach.readAt t lo n : B Unit) = SB.readAt t lo n := rfl

theorem mach_writeAt (t lo n : Nat) : (Mach.writeAt t lo n : B Unit) = SB.writeAt t lo n := rfl

theorem splitFirst_some {p : Item → Bool} {s a b : Stack} {g : Item}
    (h : splitFirst p s = some (a, g, b)) : s = a ++ g :: b ∧ p g = true := by
  induction s generalizing a with
  | nil => simp [splitFirst] at h
  | cons i is ih =>
    simp only [splitFirst] at h
    split at h
    · cases h; exact ⟨rfl, by assumption⟩
    · split at h
      · rename_i above g' below e
        cases h
        obtain ⟨h1, h2⟩ := ih e
        exact ⟨by rw [h1]; rfl, h2⟩
      · cases h

theorem splitFirst_exists {p : Item → Bool} {s : Stack} {x : Item} (hx : x ∈ s) (hp : p x = true) :
    ∃ a g b, splitFirst p s = some (a, g, b) := by
  induction s with
  | nil => cases hx
  | cons i is ih =>
    simp only [splitFirst]
    by_cases hi : p i = true
    · simp [hi]
    · rcases List.mem_cons.1 hx with rfl | hx
      · exact absurd hp hi
      · obtain ⟨a, g, b, e⟩ := ih hx
        simp [hi, e]

theorem splitFirst_none {p : Item → Bool} {s : Stack} (h : ∀ x ∈ s, p x = false) :
    splitFirst p s = none := by
  induction s with
  | nil => rfl
  | cons i is ih =>
    simp only [splitFirst]
    rw [h i List.mem_cons_self, ih fun x hx => h x (List.mem_cons_of_mem _ hx)]
    rfl

/-! ## Stacks rooted in the pointer of the vector -/

/-- The item of the vector's pointer is at the bottom, all others have another tag, and there is no
raw pointer directly above it. -/
inductive Rooted (p : Perm) : Stack → Prop
  | root : Rooted p [⟨0, p⟩]
  | cons (i : Item) (k : Stack) : i.tag ≠ 0 → (k = [⟨0, p⟩] → i.perm ≠ .srw) → Rooted p k →
      Rooted p (i :: k)

theorem Rooted.ne_nil {p : Perm} {k : Stack} (h : Rooted p k) : k ≠ [] := by
  cases h <;> simp

theorem Rooted.suffix {p : Perm} {a k : Stack} (h : Rooted p (a ++ k)) (hk : k ≠ []) :
    Rooted p k := by
  induction a with
  | nil => exact h
  | cons i a ih =>
    generalize e : i :: a ++ k = m at h
    cases h with
    | root =>
      simp at e
      exact absurd e.2.2 hk
    | cons j m' _ _ h' =>
      simp at e
      obtain ⟨rfl, rfl⟩ := e
      exact ih h'

theorem afterRead_tag (i : Item) : i.afterRead.tag = i.tag := by
  unfold Item.afterRead; split <;> rfl

theorem afterRead_srw {i : Item} (h : i.perm ≠ .srw) : i.afterRead.perm ≠ .srw := by
  unfold Item.afterRead; split
  · simp
  · exact h

theorem Rooted.read {p : Perm} {a k : Stack} (h : Rooted p (a ++ k)) (hk : k ≠ []) :
    Rooted p (a.map Item.afterRead ++ k) := by
  induction a with
  | nil => exact h
  | cons i a ih =>
    generalize e : i :: a ++ k = m at h
    cases h with
    | root =>
      simp at e
      exact absurd e.2.2 hk
    | cons j m' h1 h2 h' =>
      simp at e
      obtain ⟨rfl, rfl⟩ := e
      refine .cons _ _ (by rw [afterRead_tag]; exact h1) (fun e => afterRead_srw (h2 ?_)) (ih h')
      cases a with
      | nil => exact e
      | cons x a =>
        simp at e
        exact absurd e.2.2 hk

theorem Rooted.mid {p : Perm} {a k : Stack} {i : Item} (h : Rooted p (a ++ k)) (hi : i.tag ≠ 0)
    (hk : k ≠ []) (hr : k ≠ [⟨0, p⟩]) : Rooted p (a ++ i :: k) := by
  induction a with
  | nil => exact .cons i k hi (fun e => absurd e hr) h
  | cons j a ih =>
    generalize e : j :: a ++ k = m at h
    cases h with
    | root =>
      simp at e
      exact absurd e.2.2 hk
    | cons j' m' h1 h2 h' =>
      simp at e
      obtain ⟨rfl, rfl⟩ := e
      refine .cons _ _ h1 (fun e => ?_) (ih h')
      exfalso
      have := congrArg List.length e
      simp at this
      have := List.length_pos_iff.2 hk
      omega

/-- The rights of the vector's pointer allow writing. -/
def Perm.Wr (p : Perm) : Prop := p = .uniq ∨ p = .srw

theorem Rooted.mem {p : Perm} {k : Stack} (h : Rooted p k) : (⟨0, p⟩ : Item) ∈ k := by
  induction h with
  | root => simp
  | cons i k _ _ _ ih => exact List.mem_cons_of_mem _ ih

/-! ## Operations on a stack -/

theorem writes_iff {t : Nat} {i : Item} :
    i.writes t = true ↔ i.tag = t ∧ (i.perm = .uniq ∨ i.perm = .srw) := by
  simp [Item.writes]

theorem reads_iff {t : Nat} {i : Item} : i.reads t = true ↔ i.tag = t ∧ i.perm ≠ .off := by
  simp [Item.reads]

/-- May pointer `t` write, by this stack? -/
def CanW (t : Nat) (k : Stack) : Prop := ∃ x ∈ k, x.tag = t ∧ (x.perm = .uniq ∨ x.perm = .srw)

/-- May pointer `t` read, by this stack? -/
def CanR (t : Nat) (k : Stack) : Prop := ∃ x ∈ k, x.tag = t ∧ x.perm ≠ .off

/-- Pointer `t` does not occur in this stack. -/
def Gone (t : Nat) (k : Stack) : Prop := ∀ x ∈ k, x.tag ≠ t

theorem CanW.canR {t : Nat} {k : Stack} (h : CanW t k) : CanR t k := by
  obtain ⟨x, hx, h1, h2⟩ := h
  exact ⟨x, hx, h1, by rcases h2 with h | h <;> simp [h]⟩

theorem grantWrite_ok {t : Nat} {k : Stack} (h : CanW t k) :
    ∃ a b, k.grantWrite t = some (a, b) ∧ k = a ++ b ∧ CanW t b ∧ b ≠ [] := by
  obtain ⟨x, hx, h1, h2⟩ := h
  obtain ⟨a, g, b, e⟩ := splitFirst_exists (p := Item.writes t) hx (writes_iff.2 ⟨h1, h2⟩)
  obtain ⟨hk, hg⟩ := splitFirst_some e
  simp only [Stack.grantWrite, e]
  refine ⟨_, _, rfl, ?_, ⟨g, by simp, writes_iff.1 hg⟩, by simp⟩
  rw [hk, ← List.append_assoc, ← List.reverse_append, List.take_append_drop, List.reverse_reverse]

theorem write_ok {t : Nat} {k : Stack} (h : CanW t k) :
    ∃ a b, k.write t = some b ∧ k = a ++ b ∧ CanW t b ∧ b ≠ [] := by
  obtain ⟨a, b, e, h1, h2, h3⟩ := grantWrite_ok h
  exact ⟨a, b, by simp [Stack.write, e], h1, h2, h3⟩

theorem mutRef_ok {t new : Nat} {k : Stack} (h : CanW t k) :
    ∃ a b, k.mutRef t new = some (⟨new, .uniq⟩ :: b) ∧ k = a ++ b ∧ CanW t b ∧ b ≠ [] := by
  obtain ⟨a, b, e, h1, h2, h3⟩ := write_ok h
  exact ⟨a, b, by simp [Stack.mutRef, e], h1, h2, h3⟩

theorem rawMut_ok {t new : Nat} {k : Stack} (h : CanW t k) :
    ∃ a b, k.rawMut t new = some (a ++ ⟨new, .srw⟩ :: b) ∧ k = a ++ b ∧ CanW t b ∧ b ≠ [] := by
  obtain ⟨a, b, e, h1, h2, h3⟩ := grantWrite_ok h
  exact ⟨a, b, by simp [Stack.rawMut, e], h1, h2, h3⟩

theorem read_ok {t : Nat} {k : Stack} (h : CanR t k) :
    ∃ a b, k.read t = some (a.map Item.afterRead ++ b) ∧ k = a ++ b ∧ CanR t b ∧ b ≠ [] := by
  obtain ⟨x, hx, h1, h2⟩ := h
  obtain ⟨a, g, b, e⟩ := splitFirst_exists (p := Item.reads t) hx (reads_iff.2 ⟨h1, h2⟩)
  obtain ⟨hk, hg⟩ := splitFirst_some e
  exact ⟨a, g :: b, by simp [Stack.read, e], hk, ⟨g, by simp, reads_iff.1 hg⟩, by simp⟩

theorem shrRef_ok {t new : Nat} {k : Stack} (h : CanR t k) :
    ∃ a b, k.shrRef t new = some (⟨new, .sro⟩ :: (a.map Item.afterRead ++ b)) ∧ k = a ++ b ∧
      CanR t b ∧ b ≠ [] := by
  obtain ⟨a, b, e, h1, h2, h3⟩ := read_ok h
  exact ⟨a, b, by simp [Stack.shrRef, e], h1, h2, h3⟩

theorem grantWrite_gone {t : Nat} {k : Stack} (h : Gone t k) : k.grantWrite t = none := by
  simp only [Stack.grantWrite]
  rw [splitFirst_none]
  intro x hx
  have := h x hx
  simp [Item.writes, this]

theorem write_gone {t : Nat} {k : Stack} (h : Gone t k) : k.write t = none := by
  simp [Stack.write, grantWrite_gone h]

theorem mutRef_gone {t new : Nat} {k : Stack} (h : Gone t k) : k.mutRef t new = none := by
  simp [Stack.mutRef, write_gone h]

theorem read_gone {t : Nat} {k : Stack} (h : Gone t k) : k.read t = none := by
  simp only [Stack.read]
  rw [splitFirst_none]
  intro x hx
  have := h x hx
  simp [Item.reads, this]

theorem shrRef_gone {t new : Nat} {k : Stack} (h : Gone t k) : k.shrRef t new = none := by
  simp [Stack.shrRef, read_gone h]

/-- What is left after a write through the vector's pointer. -/
theorem Rooted.write_root {p : Perm} {k : Stack} (hp : p.Wr) (h : Rooted p k) :
    k.write 0 = some [⟨0, p⟩] := by
  have hsplit : ∃ a, splitFirst (Item.writes 0) k = some (a, ⟨0, p⟩, []) ∧
      ∀ x, a.getLast? = some x → x.perm ≠ .srw := by
    induction h with
    | root =>
      have : Item.writes 0 ⟨0, p⟩ = true := writes_iff.2 ⟨rfl, hp⟩
      exact ⟨[], by simp [splitFirst, this], by simp⟩
    | cons i k h1 h2 h' ih =>
      obtain ⟨a, e, hl⟩ := ih
      have : Item.writes 0 i = false := by simp [Item.writes, h1]
      refine ⟨i :: a, by simp [splitFirst, this, e], ?_⟩
      intro x hx
      cases a with
      | nil =>
        simp at hx
        subst hx
        have := (splitFirst_some e).1
        exact h2 this
      | cons y a =>
        rw [List.getLast?_cons_cons] at hx
        exact hl x hx
  obtain ⟨a, e, hl⟩ := hsplit
  have hg : group ⟨0, p⟩ a.reverse = [] := by
    unfold group
    split
    · cases hr : a.reverse with
      | nil => rfl
      | cons y ys =>
        have : a.getLast? = some y := by rw [List.getLast?_eq_head?_reverse, hr]; rfl
        have := hl y this
        simp [this]
    · rfl
  simp [Stack.write, Stack.grantWrite, e, hg]

theorem Rooted.mutRef_root {p : Perm} {k : Stack} {new : Nat} (hp : p.Wr) (h : Rooted p k) :
    k.mutRef 0 new = some [⟨new, .uniq⟩, ⟨0, p⟩] := by
  simp [Stack.mutRef, h.write_root hp]

/-! ## Blocks -/

theorem forSlots_some {f : Stack → Option Stack} {lo n : Nat} {st st' : Nat → Stack}
    (h : forSlots f lo n st = some st') :
    (∀ i, lo ≤ i → i < lo + n → f (st i) = some (st' i)) ∧
      ∀ i, ¬ (lo ≤ i ∧ i < lo + n) → st' i = st i := by
  induction n generalizing lo st with
  | zero => cases h; exact ⟨fun i _ _ => by omega, fun _ _ => rfl⟩
  | succ n ih =>
    simp only [forSlots] at h
    split at h
    · rename_i k e
      obtain ⟨h1, h2⟩ := ih h
      refine ⟨fun i hl hu => ?_, fun i hi => ?_⟩
      · by_cases hil : i = lo
        · subst hil
          rw [h2 i (by omega)]
          simp [e]
        · have := h1 i (by omega) (by omega)
          simpa [hil] using this
      · rw [h2 i (by omega)]
        have : i ≠ lo := by omega
        simp [this]
    · cases h

theorem forSlots_ok {f : Stack → Option Stack} {lo n : Nat} {st : Nat → Stack}
    (h : ∀ i, lo ≤ i → i < lo + n → ∃ k, f (st i) = some k) :
    ∃ st', forSlots f lo n st = some st' := by
  induction n generalizing lo st with
  | zero => exact ⟨st, rfl⟩
  | succ n ih =>
    obtain ⟨k, e⟩ := h lo (Nat.le_refl _) (by omega)
    simp only [forSlots, e]
    refine ih fun i hl hu => ?_
    have : i ≠ lo := by omega
    simpa [this] using h i (by omega) (by omega)

theorem forSlots_none {f : Stack → Option Stack} {lo n i : Nat} {st : Nat → Stack}
    (hl : lo ≤ i) (hu : i < lo + n) (h : f (st i) = none) : forSlots f lo n st = none := by
  cases e : forSlots f lo n st with
  | none => rfl
  | some st' =>
    have := (forSlots_some e).1 i hl hu
    rw [h] at this
    cases this

/-- The state of a block of `cap` slots whose pointer has rights `p`. -/
structure Inv (p : Perm) (cap : Nat) (s : St) : Prop where
  wr : p.Wr
  rooted : ∀ i, i < cap → Rooted p (s.stack i)
  lt : ∀ i, ∀ x ∈ s.stack i, x.tag < s.next
  pos : 0 < s.next

theorem inv_fresh {p : Perm} (hp : p.Wr) (cap : Nat) : Inv p cap (fresh p cap) := by
  refine ⟨hp, fun i hi => ?_, fun i x hx => ?_, Nat.one_pos⟩
  · simp only [fresh, hi, if_true]; exact .root
  · simp only [fresh] at hx ⊢
    split at hx
    · simp at hx; subst hx; exact Nat.one_pos
    · cases hx

theorem Inv.canW_root {p : Perm} {cap i : Nat} {s : St} (h : Inv p cap s) (hi : i < cap) :
    CanW 0 (s.stack i) := ⟨_, (h.rooted i hi).mem, rfl, h.wr⟩

theorem Inv.gone {p : Perm} {cap i t : Nat} {s : St} (h : Inv p cap s) (ht : s.next ≤ t) :
    Gone t (s.stack i) := fun x hx => by have := h.lt i x hx; omega

/-- Items other than `&mut`s that are still there. -/
def Keeps (s s' : St) : Prop := ∀ i x, x ∈ s.stack i → x.perm ≠ .uniq → x ∈ s'.stack i

theorem Keeps.trans {s s' s'' : St} (h : Keeps s s') (h' : Keeps s' s'') : Keeps s s'' :=
  fun i x hx hp => h' i x (h i x hx hp) hp

theorem Keeps.refl (s : St) : Keeps s s := fun _ _ hx _ => hx

/-- Slots outside of the range are as before. -/
def Out (lo n : Nat) (s s' : St) : Prop := ∀ i, ¬ (lo ≤ i ∧ i < lo + n) → s'.stack i = s.stack i

theorem mem_afterRead {a b : Stack} {x : Item} (hx : x ∈ a ++ b) (hp : x.perm ≠ .uniq) :
    x ∈ a.map Item.afterRead ++ b := by
  rcases List.mem_append.1 hx with h | h
  · refine List.mem_append_left _ (List.mem_map.2 ⟨x, h, ?_⟩)
    simp [Item.afterRead, hp]
  · exact List.mem_append_right _ h

theorem lt_afterRead {a b : Stack} {n : Nat} (h : ∀ x ∈ a ++ b, x.tag < n) :
    ∀ x ∈ a.map Item.afterRead ++ b, x.tag < n := by
  intro x hx
  rcases List.mem_append.1 hx with hx | hx
  · obtain ⟨y, hy, rfl⟩ := List.mem_map.1 hx
    rw [afterRead_tag]
    exact h y (List.mem_append_left _ hy)
  · exact h x (List.mem_append_right _ hx)

/-- A new `&mut`. -/
theorem Inv.mutRef {p : Perm} {cap t lo n : Nat} {s : St} (h : Inv p cap s)
    (hc : ∀ i, lo ≤ i → i < lo + n → CanW t (s.stack i)) :
    ∃ s', Mach.mutRef t lo n s = some (s.next, s') ∧ Inv p cap s' ∧ s'.next = s.next + 1 ∧
      Out lo n s s' ∧ ∀ i, lo ≤ i → i < lo + n → CanW s.next (s'.stack i) := by
  obtain ⟨st, e⟩ := forSlots_ok (f := Stack.mutRef t s.next) (lo := lo) (n := n) (st := s.stack)
    fun i hl hu => by
      obtain ⟨a, b, e, _⟩ := mutRef_ok (new := s.next) (hc i hl hu)
      exact ⟨_, e⟩
  obtain ⟨hin, hout⟩ := forSlots_some e
  have key : ∀ i, lo ≤ i → i < lo + n → ∃ a b, st i = ⟨s.next, .uniq⟩ :: b ∧ s.stack i = a ++ b ∧
      b ≠ [] := fun i hl hu => by
    obtain ⟨a, b, e', h1, _, h3⟩ := mutRef_ok (new := s.next) (hc i hl hu)
    rw [hin i hl hu] at e'
    exact ⟨a, b, Option.some.inj e', h1, h3⟩
  refine ⟨⟨st, s.next + 1⟩, by simp [mach_mutRef, SB.mutRef, retag, e], ⟨h.wr, fun i hi => ?_, fun i x hx => ?_,
    Nat.succ_pos _⟩, rfl, hout, fun i hl hu => ?_⟩
  · by_cases hr : lo ≤ i ∧ i < lo + n
    · obtain ⟨a, b, e', h1, h3⟩ := key i hr.1 hr.2
      simp only [e']
      have := h.rooted i hi
      rw [h1] at this
      exact .cons _ _ (by have := h.pos; show s.next ≠ 0; omega) (fun _ => by simp)
        (this.suffix h3)
    · simp only [hout i hr]; exact h.rooted i hi
  · by_cases hr : lo ≤ i ∧ i < lo + n
    · obtain ⟨a, b, e', h1, h3⟩ := key i hr.1 hr.2
      simp only [e'] at hx
      rcases List.mem_cons.1 hx with rfl | hx
      · exact Nat.lt_succ_self _
      · have := h.lt i x (by rw [h1]; exact List.mem_append_right _ hx)
        exact Nat.lt_succ_of_lt this
    · simp only [hout i hr] at hx
      exact Nat.lt_succ_of_lt (h.lt i x hx)
  · obtain ⟨a, b, e', _⟩ := key i hl hu
    simp only [e']
    exact ⟨_, List.mem_cons_self, rfl, .inl rfl⟩

/-- A new raw pointer. -/
theorem Inv.rawMut {p : Perm} {cap t lo n : Nat} {s : St} (h : Inv p cap s) (ht : t ≠ 0)
    (hc : ∀ i, lo ≤ i → i < lo + n → CanW t (s.stack i)) :
    ∃ s', Mach.rawMut t lo n s = some (s.next, s') ∧ Inv p cap s' ∧ s'.next = s.next + 1 ∧
      Out lo n s s' ∧
      ∀ i, lo ≤ i → i < lo + n → (⟨s.next, .srw⟩ : Item) ∈ s'.stack i := by
  obtain ⟨st, e⟩ := forSlots_ok (f := Stack.rawMut t s.next) (lo := lo) (n := n) (st := s.stack)
    fun i hl hu => by
      obtain ⟨a, b, e, _⟩ := rawMut_ok (new := s.next) (hc i hl hu)
      exact ⟨_, e⟩
  obtain ⟨hin, hout⟩ := forSlots_some e
  have key : ∀ i, lo ≤ i → i < lo + n → ∃ a b, st i = a ++ ⟨s.next, .srw⟩ :: b ∧
      s.stack i = a ++ b ∧ CanW t b ∧ b ≠ [] := fun i hl hu => by
    obtain ⟨a, b, e', h1, h2, h3⟩ := rawMut_ok (new := s.next) (hc i hl hu)
    rw [hin i hl hu] at e'
    exact ⟨a, b, Option.some.inj e', h1, h2, h3⟩
  refine ⟨⟨st, s.next + 1⟩, by simp [mach_rawMut, SB.rawMut, retag, e], ⟨h.wr, fun i hi => ?_, fun i x hx => ?_,
    Nat.succ_pos _⟩, rfl, hout, fun i hl hu => ?_⟩
  · by_cases hr : lo ≤ i ∧ i < lo + n
    · obtain ⟨a, b, e', h1, h2, h3⟩ := key i hr.1 hr.2
      simp only [e']
      have := h.rooted i hi
      rw [h1] at this
      refine this.mid (by have := h.pos; show s.next ≠ 0; omega) h3 fun eb => ?_
      subst eb
      obtain ⟨x, hx, hxt, _⟩ := h2
      simp at hx
      subst hx
      exact ht hxt.symm
    · simp only [hout i hr]; exact h.rooted i hi
  · by_cases hr : lo ≤ i ∧ i < lo + n
    · obtain ⟨a, b, e', h1, h3⟩ := key i hr.1 hr.2
      simp only [e'] at hx
      have hlt := h.lt i
      rw [h1] at hlt
      rcases List.mem_append.1 hx with hx | hx
      · exact Nat.lt_succ_of_lt (hlt x (List.mem_append_left _ hx))
      · rcases List.mem_cons.1 hx with rfl | hx
        · exact Nat.lt_succ_self _
        · exact Nat.lt_succ_of_lt (hlt x (List.mem_append_right _ hx))
    · simp only [hout i hr] at hx
      exact Nat.lt_succ_of_lt (h.lt i x hx)
  · obtain ⟨a, b, e', _⟩ := key i hl hu
    simp only [e']
    simp

/-- A new `&`. -/
theorem Inv.shrRef {p : Perm} {cap t lo n : Nat} {s : St} (h : Inv p cap s)
    (hc : ∀ i, lo ≤ i → i < lo + n → CanR t (s.stack i)) :
    ∃ s', Mach.shrRef t lo n s = some (s.next, s') ∧ Inv p cap s' ∧ s'.next = s.next + 1 ∧
      Out lo n s s' ∧ Keeps s s' ∧
      ∀ i, lo ≤ i → i < lo + n → (⟨s.next, .sro⟩ : Item) ∈ s'.stack i := by
  obtain ⟨st, e⟩ := forSlots_ok (f := Stack.shrRef t s.next) (lo := lo) (n := n) (st := s.stack)
    fun i hl hu => by
      obtain ⟨a, b, e, _⟩ := shrRef_ok (new := s.next) (hc i hl hu)
      exact ⟨_, e⟩
  obtain ⟨hin, hout⟩ := forSlots_some e
  have key : ∀ i, lo ≤ i → i < lo + n → ∃ a b,
      st i = ⟨s.next, .sro⟩ :: (a.map Item.afterRead ++ b) ∧ s.stack i = a ++ b ∧
      b ≠ [] := fun i hl hu => by
    obtain ⟨a, b, e', h1, _, h3⟩ := shrRef_ok (new := s.next) (hc i hl hu)
    rw [hin i hl hu] at e'
    exact ⟨a, b, Option.some.inj e', h1, h3⟩
  refine ⟨⟨st, s.next + 1⟩, by simp [mach_shrRef, SB.shrRef, retag, e], ⟨h.wr, fun i hi => ?_, fun i x hx => ?_,
    Nat.succ_pos _⟩, rfl, hout, fun i x hx hxp => ?_, fun i hl hu => ?_⟩
  · by_cases hr : lo ≤ i ∧ i < lo + n
    · obtain ⟨a, b, e', h1, h3⟩ := key i hr.1 hr.2
      simp only [e']
      have := h.rooted i hi
      rw [h1] at this
      exact .cons _ _ (by have := h.pos; show s.next ≠ 0; omega) (fun _ => by simp)
        (this.read h3)
    · simp only [hout i hr]; exact h.rooted i hi
  · by_cases hr : lo ≤ i ∧ i < lo + n
    · obtain ⟨a, b, e', h1, h3⟩ := key i hr.1 hr.2
      simp only [e'] at hx
      rcases List.mem_cons.1 hx with rfl | hx
      · exact Nat.lt_succ_self _
      · have hlt := h.lt i
        rw [h1] at hlt
        exact Nat.lt_succ_of_lt (lt_afterRead hlt x hx)
    · simp only [hout i hr] at hx
      exact Nat.lt_succ_of_lt (h.lt i x hx)
  · by_cases hr : lo ≤ i ∧ i < lo + n
    · obtain ⟨a, b, e', h1, h3⟩ := key i hr.1 hr.2
      simp only [e']
      rw [h1] at hx
      exact List.mem_cons_of_mem _ (mem_afterRead hx hxp)
    · simp only [hout i hr]; exact hx
  · obtain ⟨a, b, e', _⟩ := key i hl hu
    simp only [e']
    exact List.mem_cons_self

/-- A read. The pointer keeps its rights. -/
theorem Inv.readAt {p : Perm} {cap t lo n : Nat} {s : St} (h : Inv p cap s)
    (hc : ∀ i, lo ≤ i → i < lo + n → CanR t (s.stack i)) :
    ∃ s', Mach.readAt t lo n s = some ((), s') ∧ Inv p cap s' ∧ s'.next = s.next ∧
      Out lo n s s' ∧ Keeps s s' := by
  obtain ⟨st, e⟩ := forSlots_ok (f := Stack.read t) (lo := lo) (n := n) (st := s.stack)
    fun i hl hu => by
      obtain ⟨a, b, e, _⟩ := read_ok (hc i hl hu)
      exact ⟨_, e⟩
  obtain ⟨hin, hout⟩ := forSlots_some e
  have key : ∀ i, lo ≤ i → i < lo + n → ∃ a b,
      st i = a.map Item.afterRead ++ b ∧ s.stack i = a ++ b ∧
      b ≠ [] := fun i hl hu => by
    obtain ⟨a, b, e', h1, _, h3⟩ := read_ok (hc i hl hu)
    rw [hin i hl hu] at e'
    exact ⟨a, b, Option.some.inj e', h1, h3⟩
  refine ⟨⟨st, s.next⟩, by simp [mach_readAt, SB.readAt, touch, e], ⟨h.wr, fun i hi => ?_, fun i x hx => ?_,
    h.pos⟩, rfl, hout, fun i x hx hxp => ?_⟩
  · by_cases hr : lo ≤ i ∧ i < lo + n
    · obtain ⟨a, b, e', h1, h3⟩ := key i hr.1 hr.2
      simp only [e']
      have := h.rooted i hi
      rw [h1] at this
      exact this.read h3
    · simp only [hout i hr]; exact h.rooted i hi
  · by_cases hr : lo ≤ i ∧ i < lo + n
    · obtain ⟨a, b, e', h1, h3⟩ := key i hr.1 hr.2
      simp only [e'] at hx
      have hlt := h.lt i
      rw [h1] at hlt
      exact lt_afterRead hlt x hx
    · simp only [hout i hr] at hx
      exact h.lt i x hx
  · by_cases hr : lo ≤ i ∧ i < lo + n
    · obtain ⟨a, b, e', h1, h3⟩ := key i hr.1 hr.2
      simp only [e']
      rw [h1] at hx
      exact mem_afterRead hx hxp
    · simp only [hout i hr]; exact hx

/-- A write. The pointer keeps its rights. -/
theorem Inv.writeAt {p : Perm} {cap t lo n : Nat} {s : St} (h : Inv p cap s)
    (hc : ∀ i, lo ≤ i → i < lo + n → CanW t (s.stack i)) :
    ∃ s', Mach.writeAt t lo n s = some ((), s') ∧ Inv p cap s' ∧ s'.next = s.next ∧
      Out lo n s s' ∧ ∀ i, lo ≤ i → i < lo + n → CanW t (s'.stack i) := by
  obtain ⟨st, e⟩ := forSlots_ok (f := Stack.write t) (lo := lo) (n := n) (st := s.stack)
    fun i hl hu => by
      obtain ⟨a, b, e, _⟩ := write_ok (hc i hl hu)
      exact ⟨_, e⟩
  obtain ⟨hin, hout⟩ := forSlots_some e
  have key : ∀ i, lo ≤ i → i < lo + n → ∃ a b, st i = b ∧ s.stack i = a ++ b ∧
      CanW t b ∧ b ≠ [] := fun i hl hu => by
    obtain ⟨a, b, e', h1, h2, h3⟩ := write_ok (hc i hl hu)
    rw [hin i hl hu] at e'
    exact ⟨a, b, Option.some.inj e', h1, h2, h3⟩
  refine ⟨⟨st, s.next⟩, by simp [mach_writeAt, SB.writeAt, touch, e], ⟨h.wr, fun i hi => ?_, fun i x hx => ?_,
    h.pos⟩, rfl, hout, fun i hl hu => ?_⟩
  · by_cases hr : lo ≤ i ∧ i < lo + n
    · obtain ⟨a, b, e', h1, h2, h3⟩ := key i hr.1 hr.2
      simp only [e']
      have := h.rooted i hi
      rw [h1] at this
      exact this.suffix h3
    · simp only [hout i hr]; exact h.rooted i hi
  · by_cases hr : lo ≤ i ∧ i < lo + n
    · obtain ⟨a, b, e', h1, h3⟩ := key i hr.1 hr.2
      simp only [e'] at hx
      exact h.lt i x (by rw [h1]; exact List.mem_append_right _ hx)
    · simp only [hout i hr] at hx
      exact h.lt i x hx
  · obtain ⟨a, b, e', _, h2, _⟩ := key i hl hu
    simp only [e']
    exact h2

/-- Making a `&mut` of the whole block takes away the rights of all others. -/
theorem Inv.mutRef_root {p : Perm} {cap : Nat} {s : St} (h : Inv p cap s) :
    ∃ s', Mach.mutRef 0 0 cap s = some (s.next, s') ∧ Inv p cap s' ∧ s'.next = s.next + 1 ∧
      (∀ i, i < cap → CanW s.next (s'.stack i)) ∧
      ∀ i t, i < cap → t ≠ 0 → t ≠ s.next → Gone t (s'.stack i) := by
  obtain ⟨s', e, hi, hn, hout, hc⟩ := h.mutRef (t := 0) (lo := 0) (n := cap)
    fun i _ hu => h.canW_root (by omega)
  refine ⟨s', e, hi, hn, fun i hi => hc i (Nat.zero_le _) (by omega), fun i t hic h0 ht => ?_⟩
  have : s'.stack i = [⟨s.next, .uniq⟩, ⟨0, p⟩] := by
    simp only [mach_mutRef, SB.mutRef, retag] at e
    split at e
    · rename_i st est
      have h2 := (forSlots_some est).1 i (Nat.zero_le _) (by omega)
      rw [(h.rooted i hic).mutRef_root h.wr] at h2
      cases e
      exact (Option.some.inj h2).symm
    · cases e
  rw [this]
  intro x hx
  simp at hx
  rcases hx with rfl | rfl
  · exact fun e => ht e.symm
  · exact fun e => h0 e.symm

theorem mutRef_none {t lo n i : Nat} {s : St} (hl : lo ≤ i) (hu : i < lo + n)
    (h : Gone t (s.stack i)) : Mach.mutRef t lo n s = none := by
  simp [mach_mutRef, SB.mutRef, retag, forSlots_none hl hu (mutRef_gone h)]

theorem shrRef_none {t lo n i : Nat} {s : St} (hl : lo ≤ i) (hu : i < lo + n)
    (h : Gone t (s.stack i)) : Mach.shrRef t lo n s = none := by
  simp [mach_shrRef, SB.shrRef, retag, forSlots_none hl hu (shrRef_gone h)]

theorem readAt_none {t lo n i : Nat} {s : St} (hl : lo ≤ i) (hu : i < lo + n)
    (h : Gone t (s.stack i)) : Mach.readAt t lo n s = none := by
  simp [mach_readAt, SB.readAt, touch, forSlots_none hl hu (read_gone h)]

theorem writeAt_none {t lo n i : Nat} {s : St} (hl : lo ≤ i) (hu : i < lo + n)
    (h : Gone t (s.stack i)) : Mach.writeAt t lo n s = none := by
  simp [mach_writeAt, SB.writeAt, touch, forSlots_none hl hu (write_gone h)]

end Lokky.SB
