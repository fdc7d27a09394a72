import Verif.Model.BorrowsBox
import Verif.Proofs.Alias

/-!
# Lemmas on the pointers of `Box`, whatever the aliasing rules are

What is needed of the rules is in `BxRules`; everything else follows from it.
-/

namespace Lokky.Alias

/-- What the rules must allow. -/
class BxRules (σ : Type) [Mach σ] where
  /-- a block of `n` slots with a pointer `p` that may do anything -/
  Own : Nat → Nat → σ → Prop
  /-- a `&` made from `p` -/
  Shr : Nat → Nat → Nat → σ → Prop
  /-- a `&mut` made from `p` -/
  Mut : Nat → Nat → Nat → σ → Prop
  start : ∀ n, Own n 0 (Mach.heap n)
  shr : ∀ n p s, Own n p s → ∃ t s', Mach.shrRef p 0 n s = some (t, s') ∧ Own n p s' ∧ Shr n p t s' ∧
    ∀ u, Shr n p u s → Shr n p u s'
  mutr : ∀ n p s, Own n p s → ∃ t s', Mach.mutRef p 0 n s = some (t, s') ∧ Mut n p t s'
  own : ∀ n p t s, Mut n p t s → Own n p s
  read : ∀ n p t s i, Own n p s → Shr n p t s → i < n → ∃ s', Mach.readAt t i 1 s = some ((), s') ∧
    Own n p s' ∧ ∀ u, Shr n p u s → Shr n p u s'
  readMut : ∀ n p t s i, Mut n p t s → i < n → ∃ s', Mach.readAt t i 1 s = some ((), s') ∧ Mut n p t s'
  write : ∀ n p t s lo k, Mut n p t s → lo + k ≤ n → ∃ s', Mach.writeAt t lo k s = some ((), s') ∧
    Mut n p t s'
  dropMut : ∀ n p t s i, Mut n p t s → i < n → ∃ s', dropAt t i s = some ((), s') ∧ Mut n p t s'
  raw : ∀ n p t s, Mut n p t s → ∃ q s', Mach.rawMut t 0 n s = some (q, s') ∧ Own n q s'
  dropOwn : ∀ n p s i, Own n p s → i < n → ∃ s', dropAt p i s = some ((), s') ∧ Own n p s'
  readOwn : ∀ n p s, Own n p s → ∃ s', Mach.readAt p 0 n s = some ((), s') ∧ Own n p s'
  writeOwn : ∀ n p s, Own n p s → ∃ s', Mach.writeAt p 0 n s = some ((), s') ∧ Own n p s'

namespace Boxes

open BxRules

variable {σ : Type} [Mach σ] [BxRules σ]

theorem forUp_ok {I : σ → Prop} {f : Nat → M σ Unit} {n : Nat}
    (h : ∀ i s, i < n → I s → ∃ s', f i s = some ((), s') ∧ I s') :
    ∀ k i s, i + k ≤ n → I s → ∃ s', forUp f i k s = some ((), s') ∧ I s' := by
  intro k
  induction k with
  | zero => exact fun i s _ hs => ⟨s, rfl, hs⟩
  | succ k ih =>
    intro i s hi hs
    obtain ⟨s1, e1, h1⟩ := h i s (by omega) hs
    obtain ⟨s2, e2, h2⟩ := ih (i + 1) s1 (by omega) h1
    exact ⟨s2, by rw [forUp, bind_some e1, e2], h2⟩

theorem new_ok {n p : Nat} {s : σ} (h : Own n p s) : ∃ s', bxNew p n s = some ((), s') ∧ Own n p s' := by
  obtain ⟨t, s1, e1, h1⟩ := mutr n p s h
  obtain ⟨s2, e2, h2⟩ := forUp_ok (I := Mut n p t) (f := fun i => dropAt t i) (n := n)
    (fun i s hi hs => dropMut n p t s i hs hi) n 0 s1 (by omega) h1
  obtain ⟨s3, e3, h3⟩ := write n p t s2 0 n h2 (by omega)
  exact ⟨s3, by rw [bxNew, bxDerefMut, bind_some e1, bind_some e2, e3], own _ _ _ _ h3⟩

theorem toBytes_ok {n p : Nat} {s : σ} (h : Own n p s) :
    ∃ q s', bxToBytes p n s = some (q, s') ∧ Own n q s' := by
  obtain ⟨t, s1, e1, h1, _⟩ := shr n p s h
  obtain ⟨a, s2, e2, h2⟩ := mutr n p s1 h1
  obtain ⟨q, s3, e3, h3⟩ := raw n p a s2 h2
  obtain ⟨c, s4, e4, h4⟩ := mutr n q s3 h3
  obtain ⟨r, s5, e5, h5⟩ := raw n q c s4 h4
  exact ⟨r, s5, by rw [bxToBytes, bind_some e1, bind_some e2, bind_some e3, bind_some e4, e5], h5⟩

theorem dealloc_ok {n p : Nat} {s : σ} (h : Own n p s) : ∃ s', bxDealloc p n s = some ((), s') := by
  obtain ⟨t, s1, e1, h1, _⟩ := shr n p s h
  obtain ⟨s2, e2, h2⟩ := writeOwn n p s1 h1
  exact ⟨s2, by rw [bxDealloc, bind_some e1, e2]⟩

theorem drop_ok {n p : Nat} {s : σ} (h : Own n p s) : ∃ s', bxDrop p n s = some ((), s') := by
  obtain ⟨s1, e1, h1⟩ := forUp_ok (I := Own n p) (f := fun i => dropAt p i) (n := n)
    (fun i s hi hs => dropOwn n p s i hs hi) n 0 s (by omega) h
  obtain ⟨s2, e2⟩ := dealloc_ok h1
  exact ⟨s2, by rw [bxDrop, bind_some e1, e2]⟩

theorem intoInner_ok {n p : Nat} {s : σ} (h : Own n p s) : ∃ s', bxIntoInner p n s = some ((), s') := by
  obtain ⟨s1, e1, h1⟩ := readOwn n p s h
  obtain ⟨s2, e2⟩ := dealloc_ok h1
  exact ⟨s2, by rw [bxIntoInner, bind_some e1, e2]⟩

/-- What holds between the calls of a program. -/
structure BxInv (g : BxProg σ) : Prop where
  own : ∀ p, g.ptr = some p → Own g.n p g.st
  refs : ∀ p t, g.ptr = some p → t ∈ g.refs → Shr g.n p t g.st
  mref : ∀ p t, g.ptr = some p → g.mref = some t → Mut g.n p t g.st ∧ g.refs = []

theorem start_ok (n : Nat) : ∃ g : BxProg σ, BxProg.start n = some g ∧ BxInv g ∧ g.ptr = some 0 ∧
    g.n = n ∧ g.refs = [] ∧ g.mref = none := by
  obtain ⟨s, e, h⟩ := new_ok (BxRules.start (σ := σ) n)
  exact ⟨⟨s, some 0, n, [], none⟩, by simp [BxProg.start, BxProg.call, e],
    ⟨fun p hp => (by cases hp; exact h), fun p t _ ht => (by cases ht), fun p t _ ht => (by cases ht)⟩,
    rfl, rfl, rfl, rfl⟩

theorem step_ok {g : BxProg σ} (h : BxInv g) (c : BxCall) : ∃ g', g.step c = some g' ∧ BxInv g' := by
  unfold BxProg.step
  rcases hp : g.ptr with _ | p
  · exact ⟨g, rfl, h⟩
  have ho := h.own p hp
  cases c with
  | deref =>
    obtain ⟨t, s', e, h1, h2, h3⟩ := shr _ _ _ ho
    refine ⟨{ g with st := s', refs := g.refs ++ [t], mref := none }, by simp [BxProg.call, bxDeref, e], ?_, ?_, ?_⟩
    · intro p' hp'
      rw [show g.ptr = some p' from hp'] at hp
      cases hp
      exact h1
    · intro p' u hp' hu
      have hp'' : g.ptr = some p' := hp'
      rw [hp''] at hp
      cases hp
      rcases List.mem_append.1 (show u ∈ g.refs ++ [t] from hu) with hu | hu
      · exact h3 u (h.refs _ _ hp'' hu)
      · rw [List.mem_singleton.1 hu]; exact h2
    · intro p' u _ hu
      cases hu
  | read j i =>
    rcases ht : g.refs[j]? with _ | t
    · exact ⟨g, by simp [ht], h⟩
    by_cases hi : i < g.n
    · have hr := h.refs p t hp (List.mem_of_getElem? ht)
      obtain ⟨s', e, h1, h2⟩ := read _ _ _ _ i ho hr hi
      refine ⟨{ g with st := s' }, by simp [ht, hi, BxProg.call, e], ?_, ?_, ?_⟩
      · intro p' hp'
        rw [show g.ptr = some p' from hp'] at hp
        cases hp
        exact h1
      · intro p' u hp' hu
        have hp'' : g.ptr = some p' := hp'
        rw [hp''] at hp
        cases hp
        exact h2 u (h.refs _ _ hp'' hu)
      · intro p' u hp' hu
        have := (h.mref p' u hp' hu).2
        rw [this] at ht
        cases ht
    · exact ⟨g, by simp [ht, hi], h⟩
  | derefMut =>
    obtain ⟨t, s', e, h1⟩ := mutr _ _ _ ho
    refine ⟨{ g with st := s', refs := [], mref := some t }, by simp [BxProg.call, bxDerefMut, e], ?_, ?_, ?_⟩
    · intro p' hp'
      rw [show g.ptr = some p' from hp'] at hp
      cases hp
      exact BxRules.own _ _ _ _ h1
    · intro p' u _ hu
      cases hu
    · intro p' u hp' hu
      rw [show g.ptr = some p' from hp'] at hp
      cases hp
      cases hu
      exact ⟨h1, rfl⟩
  | readMut i =>
    rcases ht : g.mref with _ | t
    · exact ⟨g, by simp, h⟩
    by_cases hi : i < g.n
    · obtain ⟨hm, hr⟩ := h.mref p t hp ht
      obtain ⟨s', e, h1⟩ := readMut _ _ _ _ i hm hi
      refine ⟨{ g with st := s' }, by simp [hi, BxProg.call, e], ?_, ?_, ?_⟩
      · intro p' hp'
        rw [show g.ptr = some p' from hp'] at hp
        cases hp
        exact BxRules.own _ _ _ _ h1
      · intro p' u _ hu
        rw [show u ∈ g.refs ↔ u ∈ ([] : List Nat) by rw [hr]] at hu
        cases hu
      · intro p' u hp' hu
        rw [show g.ptr = some p' from hp'] at hp
        rw [show g.mref = some u from hu] at ht
        cases hp
        cases ht
        exact ⟨h1, hr⟩
    · exact ⟨g, by simp [hi], h⟩
  | write i =>
    rcases ht : g.mref with _ | t
    · exact ⟨g, by simp, h⟩
    by_cases hi : i < g.n
    · obtain ⟨hm, hr⟩ := h.mref p t hp ht
      obtain ⟨s', e, h1⟩ := write _ _ _ _ i 1 hm (by omega)
      refine ⟨{ g with st := s' }, by simp [hi, BxProg.call, e], ?_, ?_, ?_⟩
      · intro p' hp'
        rw [show g.ptr = some p' from hp'] at hp
        cases hp
        exact BxRules.own _ _ _ _ h1
      · intro p' u _ hu
        rw [show u ∈ g.refs ↔ u ∈ ([] : List Nat) by rw [hr]] at hu
        cases hu
      · intro p' u hp' hu
        rw [show g.ptr = some p' from hp'] at hp
        rw [show g.mref = some u from hu] at ht
        cases hp
        cases ht
        exact ⟨h1, hr⟩
    · exact ⟨g, by simp [hi], h⟩
  | dropOld i =>
    rcases ht : g.mref with _ | t
    · exact ⟨g, by simp, h⟩
    by_cases hi : i < g.n
    · obtain ⟨hm, hr⟩ := h.mref p t hp ht
      obtain ⟨s', e, h1⟩ := dropMut _ _ _ _ i hm hi
      refine ⟨{ g with st := s' }, by simp [hi, BxProg.call, e], ?_, ?_, ?_⟩
      · intro p' hp'
        rw [show g.ptr = some p' from hp'] at hp
        cases hp
        exact BxRules.own _ _ _ _ h1
      · intro p' u _ hu
        rw [show u ∈ g.refs ↔ u ∈ ([] : List Nat) by rw [hr]] at hu
        cases hu
      · intro p' u hp' hu
        rw [show g.ptr = some p' from hp'] at hp
        rw [show g.mref = some u from hu] at ht
        cases hp
        cases ht
        exact ⟨h1, hr⟩
    · exact ⟨g, by simp [hi], h⟩
  | toBytes =>
    obtain ⟨q, s', e, h1⟩ := toBytes_ok ho
    refine ⟨{ g with st := s', ptr := some q, refs := [], mref := none }, by simp [BxProg.call, e], ?_, ?_, ?_⟩
    · intro p' hp'
      cases hp'
      exact h1
    · intro p' u _ hu
      cases hu
    · intro p' u _ hu
      cases hu
  | drop =>
    obtain ⟨s', e⟩ := drop_ok ho
    exact ⟨{ g with st := s', ptr := none, refs := [], mref := none }, by simp [BxProg.call, e],
      ⟨fun _ hp' => (by cases hp'), fun _ _ hp' => (by cases hp'), fun _ _ hp' => (by cases hp')⟩⟩
  | intoInner =>
    obtain ⟨s', e⟩ := intoInner_ok ho
    exact ⟨{ g with st := s', ptr := none, refs := [], mref := none }, by simp [BxProg.call, e],
      ⟨fun _ hp' => (by cases hp'), fun _ _ hp' => (by cases hp'), fun _ _ hp' => (by cases hp')⟩⟩

theorem run_ok {g : BxProg σ} (h : BxInv g) (cs : List BxCall) : ∃ g', g.run cs = some g' ∧ BxInv g' := by
  induction cs generalizing g with
  | nil => exact ⟨g, rfl, h⟩
  | cons c cs ih =>
    obtain ⟨g1, e1, h1⟩ := step_ok h c
    obtain ⟨g2, e2, h2⟩ := ih h1
    exact ⟨g2, by rw [BxProg.run, e1]; exact e2, h2⟩

end Boxes

end Lokky.Alias
