import Verif.Model.BorrowsScope
import Verif.Proofs.Alias
import Verif.Proofs.Borrows
import Verif.Proofs.TreeBox

/-!
# Lemmas on the pointers to the environment of scopes
-/

namespace Lokky.Alias

/-- Does the code unwind? -/
def EnvCode.panics : EnvCode → Bool
  | .skip => false
  | .current => false
  | .spawn i b => i.panics || b.panics
  | .seq a b => a.panics || b.panics
  | .panic => true
  | .caught _ => false

/-- Does the code use the environment (before it unwinds, if it does)? -/
def EnvCode.Uses : EnvCode → Prop
  | .skip => False
  | .current => True
  | .spawn _ _ => True
  | .seq a b => a.Uses ∨ a.panics = false ∧ b.Uses
  | .panic => False
  | .caught c => c.Uses

/-- Does the code enter a scope, that is, write `cur`? -/
def EnvCode.Enters : EnvCode → Prop
  | .skip => False
  | .current => False
  | .spawn i _ => i.panics = false ∨ i.Enters
  | .seq a b => a.Enters ∨ a.panics = false ∧ b.Enters
  | .panic => False
  | .caught c => c.Enters

theorem EnvCode.Enters.uses {c : EnvCode} (h : c.Enters) : c.Uses := by
  induction c with
  | skip => cases h
  | current => cases h
  | spawn => trivial
  | seq a b iha ihb => exact h.imp iha fun x => ⟨x.1, ihb x.2⟩
  | panic => cases h
  | caught c ih => exact ih h

end Lokky.Alias

open Lokky.Alias

/-! ## Stacked Borrows -/

namespace Lokky.SB

/-- Code that keeps to the rules: neither `scope_init` nor the function of a `spawn` uses the
environment, if it returns. -/
def EnvQuiet : EnvCode → Prop
  | .skip => True
  | .current => True
  | .spawn i b => EnvQuiet i ∧ (i.panics = false → ¬ i.Uses ∧ EnvQuiet b ∧ (b.panics = false → ¬ b.Uses))
  | .seq a b => EnvQuiet a ∧ (a.panics = false → EnvQuiet b)
  | .panic => True
  | .caught c => EnvQuiet c

/-- What is known after code has run. -/
structure EnvRan (c : EnvCode) (s s' : St) : Prop where
  inv : Inv .srw 1 s'
  le : s.next ≤ s'.next
  gone : c.Uses → ∀ t, t ≠ 0 → t < s.next → Gone t (s'.stack 0)
  same : ¬ c.Uses → s' = s

theorem env_mut {s : St} (h : Inv .srw 1 s) : ∃ s', (envMut : B Nat) s = some (s.next, s') ∧ Inv .srw 1 s' ∧
    s'.next = s.next + 1 ∧ CanW s.next (s'.stack 0) ∧ ∀ t, t ≠ 0 → t ≠ s.next → Gone t (s'.stack 0) := by
  obtain ⟨s', e, h1, h2, h3, h4⟩ := h.mutRef_root
  exact ⟨s', e, h1, h2, h3 0 (by omega), fun t h0 ht => h4 0 t (by omega) h0 ht⟩

theorem gone_reads {t : Nat} {k k' : Stack} {u new : Nat} (h : Gone t k) (hn : new ≠ t) :
    (k.read u = some k' → Gone t k') ∧ (k.shrRef u new = some k' → Gone t k') ∧
      (k.mutRef u new = some k' → Gone t k') ∧ (k.write u = some k' → Gone t k') := by
  have hr : ∀ k', k.read u = some k' → Gone t k' := by
    intro k' e x hx
    simp only [Stack.read] at e
    split at e
    · rename_i a g b es
      cases e
      obtain ⟨rfl, _⟩ := splitFirst_some es
      rcases List.mem_append.1 hx with hx | hx
      · obtain ⟨y, hy, rfl⟩ := List.mem_map.1 hx
        rw [afterRead_tag]
        exact h y (List.mem_append_left _ hy)
      · exact h x (List.mem_append_right _ hx)
    · cases e
  have hw : ∀ k', k.write u = some k' → Gone t k' := by
    intro k' e x hx
    simp only [Stack.write, Stack.grantWrite] at e
    split at e
    · rename_i a kept eg
      cases e
      split at eg
      · rename_i a g b es
        cases eg
        obtain ⟨rfl, _⟩ := splitFirst_some es
        rcases List.mem_append.1 hx with hx | hx
        · exact h x (List.mem_append_left _ (List.mem_reverse.1 (List.mem_of_mem_take (List.mem_reverse.1 hx))))
        · exact h x (List.mem_append_right _ hx)
      · cases eg
    · cases e
  have hc : ∀ {p : Perm} {k' : Stack}, Gone t k' → Gone t (⟨new, p⟩ :: k') := by
    intro p k' hk x hx
    rcases List.mem_cons.1 hx with rfl | hx
    · exact hn
    · exact hk x hx
  refine ⟨hr k', fun e => ?_, fun e => ?_, hw k'⟩
  · simp only [Stack.shrRef] at e
    split at e
    · rename_i k1 e1
      cases e
      exact hc (hr _ e1)
    · cases e
  · simp only [Stack.mutRef] at e
    split at e
    · rename_i k1 e1
      cases e
      exact hc (hw _ e1)
    · cases e

theorem slot_retag {f : Nat → Stack → Option Stack} {s s' : St} {r : Nat} (e : retag f 0 1 s = some (r, s')) :
    f s.next (s.stack 0) = some (s'.stack 0) ∧ r = s.next ∧ s'.next = s.next + 1 := by
  simp only [retag] at e
  split at e
  · rename_i st es
    cases e
    exact ⟨(forSlots_some es).1 0 (by omega) (by omega), rfl, rfl⟩
  · cases e

theorem slot_touch {f : Stack → Option Stack} {s s' : St} {r : Unit} (e : touch f 0 1 s = some (r, s')) :
    f (s.stack 0) = some (s'.stack 0) ∧ s'.next = s.next := by
  simp only [touch] at e
  split at e
  · rename_i st es
    cases e
    exact ⟨(forSlots_some es).1 0 (by omega) (by omega), rfl⟩
  · cases e

/-- `current` works at any time, and all other pointers to the environment are lost. -/
theorem current_ran {s : St} (h : Inv .srw 1 s) : ∃ s', (scCurrent : B Unit) s = some ((), s') ∧
    EnvRan .current s s' := by
  obtain ⟨s1, e1, h1, n1, c1, g1⟩ := env_mut h
  obtain ⟨s2, e2, h2, n2, o2, k2, m2⟩ := h1.shrRef (t := s.next) (lo := 0) (n := 1) fun i _ hi => by
    have : i = 0 := by omega
    subst this; exact c1.canR
  obtain ⟨s3, e3, h3, n3, _⟩ := h2.readAt (t := s1.next) (lo := 0) (n := 1) fun i _ hi => by
    have : i = 0 := by omega
    subst this; exact ⟨_, m2 0 (by omega) (by omega), rfl, by simp⟩
  refine ⟨s3, ?_, h3, by omega, fun _ t h0 ht => ?_, fun hn => absurd trivial hn⟩
  · simp only [scCurrent, envRef]
    rw [bind_some (show _ = some (s1.next, s2) by rw [bind_some (show Mach.mutRef 0 0 1 s = _ from e1)]; exact e2)]
    exact e3
  · have a1 := g1 t h0 (by omega)
    have a2 := (gone_reads (u := s.next) a1 (show s1.next ≠ t by omega)).2.1 (slot_retag e2).1
    exact (gone_reads (u := s1.next) a2 (show s1.next ≠ t by omega)).1 (slot_touch e3).1

/-- A new `&Env`. -/
theorem env_ref {s : St} (h : Inv .srw 1 s) : ∃ s', (envRef : B Nat) s = some (s.next + 1, s') ∧ Inv .srw 1 s' ∧
    s'.next = s.next + 2 ∧ (Mach.readAt (s.next + 1) 0 1 s').isSome = true := by
  obtain ⟨s1, e1, h1, n1, c1, g1⟩ := env_mut h
  obtain ⟨s2, e2, h2, n2, o2, k2, m2⟩ := h1.shrRef (t := s.next) (lo := 0) (n := 1) fun i _ hi => by
    have : i = 0 := by omega
    subst this; exact c1.canR
  obtain ⟨s3, e3, _⟩ := h2.readAt (t := s1.next) (lo := 0) (n := 1) fun i _ hi => by
    have : i = 0 := by omega
    subst this; exact ⟨_, m2 0 (by omega) (by omega), rfl, by simp⟩
  rw [n1] at e3
  refine ⟨s2, ?_, h2, by omega, by rw [e3]; rfl⟩
  rw [envRef, bind_some (show Mach.mutRef 0 0 1 s = _ from e1), e2, n1]

/-- Reading `cur` and making a `&mut` to it through the `&mut Env`. -/
theorem prev_ran {s : St} {t : Nat} (h : Inv .srw 1 s) (hc : CanW t (s.stack 0)) :
    ∃ s', (scPrev t : B Unit) s = some ((), s') ∧ Inv .srw 1 s' ∧ s'.next = s.next + 1 ∧ CanW t (s'.stack 0) ∧
      ∀ u, u < s.next → Gone u (s.stack 0) → Gone u (s'.stack 0) := by
  have hr : ∀ i, 0 ≤ i → i < 0 + 1 → CanW t (s.stack i) := fun i _ hi => by
    have : i = 0 := by omega
    subst this; exact hc
  obtain ⟨s1, e1, h1, n1, o1, c1⟩ := h.mutRef (t := t) (lo := 0) (n := 1) hr
  obtain ⟨s2, e2, h2, n2, o2, k2⟩ := h1.readAt (t := s.next) (lo := 0) (n := 1) fun i hl hi => (c1 i hl hi).canR
  refine ⟨s2, by rw [scPrev, bind_some e1]; exact e2, h2, by omega, ?_, fun u hu hg => ?_⟩
  · obtain ⟨a, b, em, hk, hb, _⟩ := mutRef_ok (new := s.next) hc
    have e1' := (slot_retag e1).1
    rw [em] at e1'
    have e2' := (slot_touch e2).1
    rw [← Option.some.inj e1'] at e2'
    simp only [Stack.read, splitFirst] at e2'
    simp only [Item.reads, beq_self_eq_true, Bool.true_and] at e2'
    simp at e2'
    rw [← e2']
    obtain ⟨x, hx, h1, h2⟩ := hb
    exact ⟨x, List.mem_cons_of_mem _ hx, h1, h2⟩
  · have a1 := (gone_reads (u := t) hg (show s.next ≠ u by omega)).2.2.1 (slot_retag e1).1
    exact (gone_reads (u := s.next) a1 (show s.next ≠ u by omega)).1 (slot_touch e2).1

/-- Writing `cur`. -/
theorem set_ran {s : St} {t : Nat} (h : Inv .srw 1 s) (hc : CanW t (s.stack 0)) :
    ∃ s', (scSet t : B Unit) s = some ((), s') ∧ Inv .srw 1 s' ∧ s'.next = s.next ∧ CanW t (s'.stack 0) ∧
      ∀ u, Gone u (s.stack 0) → Gone u (s'.stack 0) := by
  obtain ⟨s1, e1, h1, n1, o1, c1⟩ := h.writeAt (t := t) (lo := 0) (n := 1) fun i _ hi => by
    have : i = 0 := by omega
    subst this; exact hc
  exact ⟨s1, e1, h1, n1, c1 0 (by omega) (by omega), fun u hg =>
    (gone_reads (u := t) (new := u + 1) hg (by omega)).2.2.2 (slot_touch e1).1⟩

theorem set_gone {s : St} {t : Nat} (h : Gone t (s.stack 0)) : (scSet t : B Unit) s = none :=
  writeAt_none (i := 0) (by omega) (by omega) h

/-- What was lost stays lost. -/
theorem EnvRan.keep {c : EnvCode} {s s' : St} (h : EnvRan c s s') {t : Nat} (h0 : t ≠ 0) (ht : t < s.next)
    (hg : Gone t (s.stack 0)) : Gone t (s'.stack 0) := by
  by_cases hu : c.Uses
  · exact h.gone hu t h0 ht
  · rw [h.same hu]; exact hg

/-- Code runs exactly if it is quiet. -/
theorem env_ran (c : EnvCode) : ∀ s : St, Inv .srw 1 s →
    (EnvQuiet c → ∃ s', (c.run : B Bool) s = some (c.panics, s') ∧ EnvRan c s s') ∧
    (¬ EnvQuiet c → (c.run : B Bool) s = none) := by
  induction c with
  | skip => exact fun s h => ⟨fun _ => ⟨s, rfl, h, Nat.le_refl _, fun hu => hu.elim, fun _ => rfl⟩, fun hq => absurd trivial hq⟩
  | panic => exact fun s h => ⟨fun _ => ⟨s, rfl, h, Nat.le_refl _, fun hu => hu.elim, fun _ => rfl⟩, fun hq => absurd trivial hq⟩
  | current =>
    intro s h
    obtain ⟨s', e, r⟩ := current_ran h
    exact ⟨fun _ => ⟨s', by simp only [EnvCode.run]; rw [bind_some e]; rfl, r⟩, fun hq => absurd trivial hq⟩
  | caught c ih =>
    intro s h
    refine ⟨fun hq => ?_, fun hq => by simp only [EnvCode.run]; exact bind_none ((ih s h).2 hq)⟩
    obtain ⟨s', e, r⟩ := (ih s h).1 hq
    exact ⟨s', by simp only [EnvCode.run]; rw [bind_some e]; rfl, r.inv, r.le, r.gone, r.same⟩
  | seq a b iha ihb =>
    intro s h
    by_cases ha : EnvQuiet a
    · obtain ⟨s1, e1, r1⟩ := (iha s h).1 ha
      simp only [EnvCode.run]
      rw [bind_some e1]
      cases pa : a.panics with
      | true =>
        refine ⟨fun _ => ⟨s1, by simp [EnvCode.panics, pa, ret], r1.inv, r1.le, fun hu => ?_, fun hu => ?_⟩,
          fun hq => absurd ⟨ha, fun x => by rw [pa] at x; cases x⟩ hq⟩
        · exact r1.gone (hu.resolve_right fun x => by rw [pa] at x; cases x.1)
        · exact r1.same fun x => hu (.inl x)
      | false =>
        refine ⟨fun hq => ?_, fun hq => (ihb s1 r1.inv).2 fun hb => hq ⟨ha, fun _ => hb⟩⟩
        obtain ⟨s2, e2, r2⟩ := (ihb s1 r1.inv).1 (hq.2 pa)
        refine ⟨s2, by simpa [EnvCode.panics, pa] using e2, r2.inv, Nat.le_trans r1.le r2.le, fun hu t h0 ht => ?_, fun hu => ?_⟩
        · rcases hu with hu | hu
          · exact r2.keep h0 (Nat.lt_of_lt_of_le ht r1.le) (r1.gone hu t h0 ht)
          · exact r2.gone hu.2 t h0 (Nat.lt_of_lt_of_le ht r1.le)
        · rw [r2.same fun hb => hu (.inr ⟨pa, hb⟩), r1.same fun ha => hu (.inl ha)]
    · refine ⟨fun hq => absurd hq.1 ha, fun _ => ?_⟩
      simp only [EnvCode.run]
      exact bind_none ((iha s h).2 ha)
  | spawn i b ihi ihb =>
    intro s h
    obtain ⟨s1, e1, h1, n1, c1, g1⟩ := env_mut h
    obtain ⟨s2, e2, h2, n2, c2, g2⟩ := prev_ran h1 c1
    have hp := h.pos
    have gone2 : ∀ t, t ≠ 0 → t < s.next → Gone t (s2.stack 0) := fun t h0 ht => g2 t (by omega) (g1 t h0 (by omega))
    have out : ∀ s', Inv .srw 1 s' → s.next ≤ s'.next → (∀ t, t ≠ 0 → t < s.next → Gone t (s'.stack 0)) →
        EnvRan (.spawn i b) s s' := fun s' a1 a2 a3 => ⟨a1, a2, fun _ => a3, fun hu => absurd trivial hu⟩
    simp only [EnvCode.run, scSpawn]
    rw [bind_some e1, bind_some e2]
    by_cases hi : EnvQuiet i
    · obtain ⟨s3, e3, r3⟩ := (ihi s2 h2).1 hi
      have n3 := r3.le
      rw [bind_some e3]
      have gone3 : ∀ t, t ≠ 0 → t < s.next → Gone t (s3.stack 0) := fun t h0 ht => r3.keep h0 (by omega) (gone2 t h0 ht)
      cases pi : i.panics with
      | true =>
        exact ⟨fun _ => ⟨s3, by simp [EnvCode.panics, pi, ret], out s3 r3.inv (by omega) gone3⟩,
          fun hq => absurd ⟨hi, fun x => by rw [pi] at x; cases x⟩ hq⟩
      | false =>
        simp only [Bool.false_eq_true, if_false]
        by_cases ui : i.Uses
        · exact ⟨fun hq => absurd ui (hq.2 pi).1, fun _ => bind_none (set_gone (r3.gone ui s.next (by omega) (by omega)))⟩
        · have es3 := r3.same ui
          subst es3
          obtain ⟨s4, e4, h4, n4, c4, g4⟩ := set_ran h2 c2
          rw [bind_some e4]
          by_cases hb : EnvQuiet b
          · obtain ⟨s5, e5, r5⟩ := (ihb s4 h4).1 hb
            have n5 := r5.le
            rw [bind_some e5]
            have gone5 : ∀ t, t ≠ 0 → t < s.next → Gone t (s5.stack 0) :=
              fun t h0 ht => r5.keep h0 (by omega) (g4 t (gone2 t h0 ht))
            cases pb : b.panics with
            | true =>
              exact ⟨fun _ => ⟨s5, by simp [EnvCode.panics, pb, ret], out s5 r5.inv (by omega) gone5⟩,
                fun hq => absurd ⟨hi, fun _ => ⟨ui, hb, fun x => by rw [pb] at x; cases x⟩⟩ hq⟩
            | false =>
              simp only [Bool.false_eq_true, if_false]
              by_cases ub : b.Uses
              · exact ⟨fun hq => absurd ub ((hq.2 pi).2.2 pb), fun _ => bind_none (set_gone (r5.gone ub s.next (by omega) (by omega)))⟩
              · have es5 := r5.same ub
                subst es5
                obtain ⟨s6, e6, h6, n6, c6, g6⟩ := set_ran h4 c4
                exact ⟨fun _ => ⟨s6, by rw [bind_some e6]; simp [EnvCode.panics, pi, pb, ret],
                  out s6 h6 (by omega) fun t h0 ht => g6 t (gone5 t h0 ht)⟩,
                  fun hq => absurd ⟨hi, fun _ => ⟨ui, hb, fun _ => ub⟩⟩ hq⟩
          · exact ⟨fun hq => absurd (hq.2 pi).2.1 hb, fun _ => bind_none ((ihb s4 h4).2 hb)⟩
    · exact ⟨fun hq => absurd hq.1 hi, fun _ => bind_none ((ihi s2 h2).2 hi)⟩

end Lokky.SB

/-! ## Tree Borrows -/

namespace Lokky.TB

/-- Code that keeps to the rules: the `scope_init` of a `spawn` enters no scope, and its function
does not use the environment, if they return. -/
def EnvQuiet : EnvCode → Prop
  | .skip => True
  | .current => True
  | .spawn i b => EnvQuiet i ∧ (i.panics = false → ¬ i.Enters ∧ EnvQuiet b ∧ (b.panics = false → ¬ b.Uses))
  | .seq a b => EnvQuiet a ∧ (a.panics = false → EnvQuiet b)
  | .panic => True
  | .caught c => EnvQuiet c

/-- What is known after code has run. -/
structure EnvRan (c : EnvCode) (s s' : St) : Prop where
  inv : Inv s'
  live : s'.live 0 = true
  next : s.next ≤ s'.next
  path : ∀ t, t < s.next → s'.path t = s.path t
  same : ¬ c.Uses → s' = s
  rd : ¬ c.Enters → At 0 s s'
  froze : c.Uses → ∀ u, u ≠ 0 → u < s.next → s'.perm 0 u ≠ .active
  lost : c.Enters → ∀ u, u ≠ 0 → u < s.next → s'.perm 0 u = .disabled

theorem At.not_active {s s' : St} {u : Nat} (h : At 0 s s') (hu : u < s.next)
    (hn : s.perm 0 u ≠ .active) : s'.perm 0 u ≠ .active := by
  rcases h.perm u hu with e | ⟨e, _⟩
  · rw [e]; exact hn
  · exact absurd e hn

/-- A new `&mut Env`. -/
theorem env_mut {s : St} (h : Inv s) (hl : s.live 0 = true) : ∃ s', (envMut : B Nat) s = some (s.next, s') ∧
    Inv s' ∧ Rd s s' ∧ s'.next = s.next + 1 ∧ Res s' s.next 0 ∧ s'.path s.next = [s.next, 0] ∧
      ∀ u, u ≠ 0 → u < s.next → s'.perm 0 u ≠ .active := by
  have hr := h.res_root hl
  obtain ⟨s', e, h', r, n, r1, _, _, p, x⟩ := h.mutRef (t := 0) (lo := 0) (n := 1) fun i _ hi => by
    have : i = 0 := by omega
    subst this; exact (hr.canW h).canR
  refine ⟨s', e, h', r, n, r1 0 hr, by rw [p, h.own], fun u h0 hu => x 0 u (by omega) (by omega) hu ?_⟩
  rw [h.own]; simpa using h0

theorem current_ran {s : St} (h : Inv s) (hl : s.live 0 = true) :
    ∃ s', (scCurrent : B Unit) s = some ((), s') ∧ EnvRan .current s s' := by
  obtain ⟨s1, e1, h1, r1, n1, c1, _, x1⟩ := env_mut h hl
  have c1' := (c1.canW h1).canR
  obtain ⟨s2, e2, h2, r2, n2, k2⟩ := h1.shrRef (t := s.next) (lo := 0) (n := 1) fun i _ hi => by
    have : i = 0 := by omega
    subst this; exact c1'
  obtain ⟨s3, e3, h3, r3, n3, _⟩ := h2.readAt (t := s1.next) (lo := 0) (n := 1) fun i _ hi => by
    have : i = 0 := by omega
    subst this; exact k2 0 c1'
  have r := (r1.trans r2).trans r3
  refine ⟨s3, ?_, h3, by rw [r.live]; exact hl, r.next, r.path, fun hn => absurd trivial hn, fun _ => r 0,
    fun _ u h0 hu => ?_, fun hs => hs.elim⟩
  · simp only [scCurrent, envRef]
    rw [bind_some (show _ = some (s1.next, s2) by rw [bind_some (show Mach.mutRef 0 0 1 s = _ from e1)]; exact e2)]
    exact e3
  · exact ((r2.trans r3) 0).not_active (by omega) (x1 u h0 hu)

/-- A new `&Env`. -/
theorem env_ref {s : St} (h : Inv s) (hl : s.live 0 = true) : ∃ s', (envRef : B Nat) s = some (s.next + 1, s') ∧
    Inv s' ∧ s'.next = s.next + 2 ∧ CanR s' (s.next + 1) 0 ∧ s.next + 1 ∈ s'.path (s.next + 1) ∧
      s'.perm 0 (s.next + 1) = .frozen := by
  obtain ⟨s1, e1, h1, r1, n1, c1, _, x1⟩ := env_mut h hl
  have c1' := (c1.canW h1).canR
  obtain ⟨s2, e2, h2, r2, n2, p2, q2, k2, _⟩ := h1.refTo (p := .frozen) (.inr rfl) (t := s.next) (lo := 0) (n := 1) fun i _ hi => by
    have : i = 0 := by omega
    subst this; exact c1'
  rw [n1] at p2 q2
  refine ⟨s2, ?_, h2, by omega, ⟨by rw [r2.live]; exact c1'.1, fun u hu => ?_⟩, by rw [p2]; simp, q2 0⟩
  · rw [envRef, bind_some (show Mach.mutRef 0 0 1 s = _ from e1), mach_shrRef, e2, n1]
  · rw [p2] at hu
    rcases List.mem_cons.1 hu with rfl | hu
    · rw [q2]; decide
    · rw [k2 0 u hu]; exact c1'.2 u hu

theorem get_none {s : St} {t : Nat} (ht : t ∈ s.path t) (h : (s.perm 0 t).allows false = false) :
    (Mach.readAt t 0 1 : B Unit) s = none := by
  have hg : ¬ s.grants false t 0 1 = true := fun hg => by
    have := (grants_iff.1 hg 0 (by omega) (by omega)).2 t ht
    rw [h] at this; cases this
  rw [mach_readAt, access, if_neg hg]

theorem prev_ran {s : St} {t : Nat} (h : Inv s) (hc : CanR s t 0) :
    ∃ s', (scPrev t : B Unit) s = some ((), s') ∧ Inv s' ∧ Rd s s' := by
  obtain ⟨s1, e1, h1, r1, n1, _, _, k1, _⟩ := h.mutRef (t := t) (lo := 0) (n := 1) fun i _ hi => by
    have : i = 0 := by omega
    subst this; exact hc
  obtain ⟨s2, e2, h2, r2, _⟩ := h1.readAt (t := s.next) (lo := 0) (n := 1) fun i _ hi => by
    have : i = 0 := by omega
    subst this; exact k1 0 hc
  exact ⟨s2, by rw [scPrev, bind_some e1]; exact e2, h2, r1.trans r2⟩

theorem set_ran {s : St} {t : Nat} (hc : CanW s t 0) :
    (scSet t : B Unit) s = some ((), s.after true t 0 1) := by
  refine Bx.writeAt_ok fun i _ hi => ?_
  have : i = 0 := by omega
  subst this; exact hc

theorem set_none {s : St} {t : Nat} (ht : t ∈ s.path t) (h : (s.perm 0 t).allows true = false) :
    (scSet t : B Unit) s = none := by
  have hg : ¬ s.grants true t 0 1 = true := fun hg => by
    have := (grants_iff.1 hg 0 (by omega) (by omega)).2 t ht
    rw [h] at this; cases this
  show access true t 0 1 s = none
  rw [access, if_neg hg]

/-- What was lost stays lost. -/
theorem EnvRan.keep {c : EnvCode} {s s' : St} (h : EnvRan c s s') {u : Nat} (h0 : u ≠ 0) (hu : u < s.next)
    (hd : s.perm 0 u = .disabled) : s'.perm 0 u = .disabled := by
  by_cases he : c.Enters
  · exact h.lost he u h0 hu
  · rcases (h.rd he).perm u hu with e | ⟨e, _⟩
    · rw [e, hd]
    · rw [hd] at e; cases e

theorem EnvRan.keep_froze {c : EnvCode} {s s' : St} (h : EnvRan c s s') {u : Nat} (h0 : u ≠ 0) (hu : u < s.next)
    (hd : s.perm 0 u ≠ .active) : s'.perm 0 u ≠ .active := by
  by_cases he : c.Uses
  · exact h.froze he u h0 hu
  · rw [h.same he]; exact hd

/-- Code runs exactly if it is quiet. -/
theorem env_ran (c : EnvCode) : ∀ s : St, Inv s → s.live 0 = true →
    (EnvQuiet c → ∃ s', (c.run : B Bool) s = some (c.panics, s') ∧ EnvRan c s s') ∧
    (¬ EnvQuiet c → (c.run : B Bool) s = none) := by
  induction c with
  | skip => exact fun s h hl => ⟨fun _ => ⟨s, rfl, h, hl, Nat.le_refl _, fun _ _ => rfl, fun _ => rfl,
      fun _ => At.refl 0 s, fun hu => hu.elim, fun hu => hu.elim⟩, fun hq => absurd trivial hq⟩
  | panic => exact fun s h hl => ⟨fun _ => ⟨s, rfl, h, hl, Nat.le_refl _, fun _ _ => rfl, fun _ => rfl,
      fun _ => At.refl 0 s, fun hu => hu.elim, fun hu => hu.elim⟩, fun hq => absurd trivial hq⟩
  | current =>
    intro s h hl
    obtain ⟨s', e, r⟩ := current_ran h hl
    exact ⟨fun _ => ⟨s', by simp only [EnvCode.run]; rw [bind_some e]; rfl, r⟩, fun hq => absurd trivial hq⟩
  | caught c ih =>
    intro s h hl
    refine ⟨fun hq => ?_, fun hq => by simp only [EnvCode.run]; exact bind_none ((ih s h hl).2 hq)⟩
    obtain ⟨s', e, r⟩ := (ih s h hl).1 hq
    exact ⟨s', by simp only [EnvCode.run]; rw [bind_some e]; rfl, r.inv, r.live, r.next, r.path, r.same, r.rd, r.froze, r.lost⟩
  | seq a b iha ihb =>
    intro s h hl
    by_cases ha : EnvQuiet a
    · obtain ⟨s1, e1, r1⟩ := (iha s h hl).1 ha
      simp only [EnvCode.run]
      rw [bind_some e1]
      cases pa : a.panics with
      | true =>
        have no : ∀ {P : Prop}, ¬ (a.panics = false ∧ P) := fun x => by rw [pa] at x; cases x.1
        exact ⟨fun _ => ⟨s1, by simp [EnvCode.panics, pa, ret], r1.inv, r1.live, r1.next, r1.path,
          fun hu => r1.same fun x => hu (.inl x), fun hu => r1.rd fun x => hu (.inl x),
          fun hu => r1.froze (hu.resolve_right no), fun hu => r1.lost (hu.resolve_right no)⟩,
          fun hq => absurd ⟨ha, fun x => by rw [pa] at x; cases x⟩ hq⟩
      | false =>
        refine ⟨fun hq => ?_, fun hq => (ihb s1 r1.inv r1.live).2 fun hb => hq ⟨ha, fun _ => hb⟩⟩
        obtain ⟨s2, e2, r2⟩ := (ihb s1 r1.inv r1.live).1 (hq.2 pa)
        have up : ∀ {u}, u < s.next → u < s1.next := fun hu => Nat.lt_of_lt_of_le hu r1.next
        refine ⟨s2, by simpa [EnvCode.panics, pa] using e2, r2.inv, r2.live,
          Nat.le_trans r1.next r2.next, fun t ht => by rw [r2.path t (up ht), r1.path t ht],
          fun hu => by rw [r2.same fun hb => hu (.inr ⟨pa, hb⟩), r1.same fun ha => hu (.inl ha)],
          fun hu => (r1.rd fun x => hu (.inl x)).trans (r2.rd fun x => hu (.inr ⟨pa, x⟩)), fun hu u h0 ht => ?_, fun hu u h0 ht => ?_⟩
        · rcases hu with hu | hu
          · exact r2.keep_froze h0 (up ht) (r1.froze hu u h0 ht)
          · exact r2.froze hu.2 u h0 (up ht)
        · rcases hu with hu | hu
          · exact r2.keep h0 (up ht) (r1.lost hu u h0 ht)
          · exact r2.lost hu.2 u h0 (up ht)
    · refine ⟨fun hq => absurd hq.1 ha, fun _ => ?_⟩
      simp only [EnvCode.run]
      exact bind_none ((iha s h hl).2 ha)
  | spawn i b ihi ihb =>
    intro s h hl
    have hp := h.pos
    obtain ⟨s1, e1, h1, r1, n1, c1, p1, x1⟩ := env_mut h hl
    obtain ⟨s2, e2, h2, r2⟩ := prev_ran h1 (c1.canW h1).canR
    have n2 := r2.next
    have c2 := c1.rd h1 (by omega) r2
    have p2 : s2.path s.next = [s.next, 0] := by rw [r2.path _ (by omega), p1]
    have l2 : s2.live 0 = true := c2.1
    simp only [EnvCode.run, scSpawn]
    rw [bind_some e1, bind_some e2]
    by_cases hi : EnvQuiet i
    · obtain ⟨s3, e3, r3⟩ := (ihi s2 h2 l2).1 hi
      have n3 := r3.next
      rw [bind_some e3]
      have path3 : ∀ t, t < s.next → s3.path t = s.path t := fun t ht => by
        rw [r3.path t (by omega), r2.path t (by omega), r1.path t ht]
      have froze3 : ∀ u, u ≠ 0 → u < s.next → s3.perm 0 u ≠ .active := fun u h0 hu =>
        r3.keep_froze h0 (by omega) ((r2 0).not_active (by omega) (x1 u h0 hu))
      cases pi : i.panics with
      | true =>
        have no : i.panics ≠ false := by rw [pi]; decide
        exact ⟨fun _ => ⟨s3, by simp [EnvCode.panics, pi, ret], r3.inv, r3.live, by omega, path3,
          fun hu => absurd trivial hu, fun he => ((r1.trans r2) 0).trans (r3.rd fun x => he (.inr x)), fun _ => froze3,
          fun he u h0 hu => r3.lost (he.resolve_left no) u h0 (by omega)⟩,
          fun hq => absurd ⟨hi, fun x => absurd x no⟩ hq⟩
      | false =>
        simp only [Bool.false_eq_true, if_false]
        by_cases ui : i.Enters
        · refine ⟨fun hq => absurd ui (hq.2 pi).1, fun _ => bind_none (set_none (by rw [r3.path _ (by omega), p2]; simp) ?_)⟩
          rw [r3.lost ui s.next (by omega) (by omega)]; rfl
        · have c3 := c2.at h2 (by omega) (r3.rd ui)
          have p3 : s3.path s.next = [s.next, 0] := by rw [r3.path _ (by omega), p2]
          have e4 := set_ran (c3.canW r3.inv)
          generalize e4' : s3.after true s.next 0 1 = s4 at e4
          have h4 : Inv s4 := by subst e4'; exact r3.inv.after _ _ _ _
          have path4 : s4.path = s3.path := by subst e4'; rfl
          have p4 : s4.path s.next = [s.next, 0] := by rw [path4]; exact p3
          have a4 : s4.perm 0 s.next = .active := by
            subst e4'
            rw [after_in (by omega) (by rw [p3]; simp), c3.2 s.next (by rw [p3]; simp) (by omega)]; rfl
          have l4 : s4.live 0 = true := by subst e4'; exact r3.live
          have n4 : s4.next = s3.next := by subst e4'; rfl
          have d4 : ∀ u, u ≠ 0 → u < s.next → s4.perm 0 u = .disabled := by
            intro u h0 hu
            subst e4'
            rw [after_other (by omega) (by rw [p3]; simp; omega)]; rfl
          have out : ∀ s', Inv s' → s'.live 0 = true → s.next ≤ s'.next → (∀ t, t < s.next → s'.path t = s.path t) →
              (∀ u, u ≠ 0 → u < s.next → s'.perm 0 u = .disabled) → EnvRan (.spawn i b) s s' :=
            fun s' a1 a2 a3 a4 a5 => ⟨a1, a2, a3, a4, fun hu => absurd trivial hu, fun he => absurd (.inl pi) he,
              fun _ u h0 hu => by rw [a5 u h0 hu]; decide, fun _ => a5⟩
          rw [bind_some e4]
          by_cases hb : EnvQuiet b
          · obtain ⟨s5, e5, r5⟩ := (ihb s4 h4 l4).1 hb
            have n5 := r5.next
            have path5 : ∀ t, t < s.next → s5.path t = s.path t := fun t ht => by
              rw [r5.path t (by omega), path4, path3 t ht]
            have d5 : ∀ u, u ≠ 0 → u < s.next → s5.perm 0 u = .disabled := fun u h0 hu =>
              r5.keep h0 (by omega) (d4 u h0 hu)
            rw [bind_some e5]
            cases pb : b.panics with
            | true =>
              exact ⟨fun _ => ⟨s5, by simp [EnvCode.panics, pb, ret], out s5 r5.inv r5.live (by omega) path5 d5⟩,
                fun hq => absurd ⟨hi, fun _ => ⟨ui, hb, fun x => by rw [pb] at x; cases x⟩⟩ hq⟩
            | false =>
              simp only [Bool.false_eq_true, if_false]
              by_cases ub : b.Uses
              · refine ⟨fun hq => absurd ub ((hq.2 pi).2.2 pb), fun _ => bind_none
                  (set_none (by rw [r5.path _ (by omega), p4]; simp) ?_)⟩
                by_cases hs : b.Enters
                · rw [r5.lost hs s.next (by omega) (by omega)]; rfl
                · rcases (r5.rd hs).perm s.next (by omega) with e | ⟨_, e⟩
                  · exact absurd (e.trans a4) (r5.froze ub s.next (by omega) (by omega))
                  · rw [e]; rfl
              · have es5 := r5.same ub
                subst es5
                have c4 : CanW s5 s.next 0 := ⟨l4, fun u hu => by
                  rw [p4] at hu
                  rcases List.mem_cons.1 hu with rfl | hu
                  · exact .inr a4
                  · rw [List.mem_singleton.1 hu]; exact .inr (h4.act 0)⟩
                refine ⟨fun _ => ⟨_, by rw [bind_some (set_ran c4)]; simp [EnvCode.panics, pi, pb, ret]; rfl,
                  out _ (h4.after _ _ _ _) l4 (show s.next ≤ s5.next by omega) path5 fun u h0 hu => ?_⟩,
                  fun hq => absurd ⟨hi, fun _ => ⟨ui, hb, fun _ => ub⟩⟩ hq⟩
                rw [after_other (by omega) (by rw [p4]; simp; omega)]; rfl
          · exact ⟨fun hq => absurd (hq.2 pi).2.1 hb, fun _ => bind_none ((ihb s4 h4 l4).2 hb)⟩
    · exact ⟨fun hq => absurd hq.1 hi, fun _ => bind_none ((ihi s2 h2 l2).2 hi)⟩

end Lokky.TB
