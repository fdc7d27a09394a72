import Verif.Model.BorrowsScopeProtect
import Verif.Proofs.BorrowsScope

/-!
# Lemmas on scopes under Stacked Borrows with protectors
-/

open Lokky.Alias

namespace Lokky.SB

/-- Code that keeps to the rules with protectors: nothing within a `spawn` uses the environment,
whether it returns or not. -/
def EnvStill : EnvCode → Prop
  | .skip => True
  | .current => True
  | .spawn i b => ¬ i.Uses ∧ (i.panics = false → ¬ b.Uses)
  | .seq a b => EnvStill a ∧ (a.panics = false → EnvStill b)
  | .panic => True
  | .caught c => EnvStill c

theorem holds_of {t : Nat} {k : Stack} (h : CanR t k) : k.holds t = true := by
  obtain ⟨x, hx, h1, h2⟩ := h
  exact List.any_eq_true.2 ⟨x, hx, by simp [Item.reads, h1, h2]⟩

theorem holds_gone {t : Nat} {k : Stack} (h : Gone t k) : k.holds t = false := by
  cases e : k.holds t with
  | false => rfl
  | true =>
    obtain ⟨x, hx, h1⟩ := List.any_eq_true.1 e
    simp only [Item.reads, Bool.and_eq_true, beq_iff_eq] at h1
    exact absurd h1.1 (h x hx)

theorem shielded_ok {β : Type} {m : B β} {s s' : St} {l : List Nat} {b : β} (e : m s = some (b, s'))
    (h : ∀ t ∈ l, CanR t (s'.stack 0)) : shielded m (s, l) = some (b, (s', l)) := by
  have : (l.all fun t => (s'.stack 0).holds t) = true := List.all_eq_true.2 fun t ht => holds_of (h t ht)
  simp [shielded, e, this]

theorem shielded_gone {β : Type} {m : B β} {s s' : St} {l : List Nat} {b : β} {t : Nat} (e : m s = some (b, s'))
    (ht : t ∈ l) (h : Gone t (s'.stack 0)) : shielded m (s, l) = none := by
  have : ¬ (l.all fun t => (s'.stack 0).holds t) = true := fun ha => by
    have := List.all_eq_true.1 ha t ht
    rw [holds_gone h] at this
    cases this
  simp only [shielded, e]
  rw [if_neg this]

/-- While a `&mut Env` is protected, code cannot use the environment. -/
theorem shielded_ran (c : EnvCode) {s : St} {l : List Nat} {t : Nat} (h : Inv .srw 1 s) (hl : t ∈ l) (h0 : t ≠ 0)
    (ht : t < s.next) :
    (c.Uses → runP c (s, l) = none) ∧ (¬ c.Uses → runP c (s, l) = some (c.panics, (s, l))) := by
  induction c with
  | skip => exact ⟨fun hu => hu.elim, fun _ => rfl⟩
  | panic => exact ⟨fun hu => hu.elim, fun _ => rfl⟩
  | current =>
    obtain ⟨s', e, r⟩ := current_ran h
    exact ⟨fun hu => bind_none (shielded_gone e hl (r.gone hu t h0 ht)), fun hu => absurd trivial hu⟩
  | caught c ih =>
    refine ⟨fun hu => bind_none (ih.1 hu), fun hu => ?_⟩
    simp only [runP]
    rw [bind_some (ih.2 hu)]; rfl
  | seq a b iha ihb =>
    simp only [runP]
    by_cases ha : a.Uses
    · exact ⟨fun _ => bind_none (iha.1 ha), fun hu => absurd (.inl ha) hu⟩
    · rw [bind_some (iha.2 ha)]
      cases pa : a.panics with
      | true =>
        exact ⟨fun hu => hu.elim (fun x => absurd x ha) (fun x => absurd (pa.symm.trans x.1) (by decide)),
          fun _ => by simp [EnvCode.panics, pa, ret]⟩
      | false =>
        exact ⟨fun hu => ihb.1 (hu.resolve_left ha).2,
          fun hu => by simpa [EnvCode.panics, pa] using ihb.2 fun x => hu (.inr ⟨pa, x⟩)⟩
  | spawn i b _ _ =>
    obtain ⟨s1, e1, _, _, _, g1⟩ := env_mut h
    exact ⟨fun _ => bind_none (shielded_gone e1 hl (g1 t h0 (by omega))), fun hu => absurd trivial hu⟩

/-- Code runs exactly if it is still. -/
theorem protect_ran (c : EnvCode) : ∀ s : St, Inv .srw 1 s →
    (EnvStill c → ∃ s', runP c (s, []) = some (c.panics, (s', [])) ∧ Inv .srw 1 s') ∧
    (¬ EnvStill c → runP c (s, []) = none) := by
  induction c with
  | skip => exact fun s h => ⟨fun _ => ⟨s, rfl, h⟩, fun hq => absurd trivial hq⟩
  | panic => exact fun s h => ⟨fun _ => ⟨s, rfl, h⟩, fun hq => absurd trivial hq⟩
  | current =>
    intro s h
    obtain ⟨s', e, r⟩ := current_ran h
    refine ⟨fun _ => ⟨s', ?_, r.inv⟩, fun hq => absurd trivial hq⟩
    simp only [runP]
    rw [bind_some (shielded_ok e (by simp))]; rfl
  | caught c ih =>
    intro s h
    refine ⟨fun hq => ?_, fun hq => bind_none ((ih s h).2 hq)⟩
    obtain ⟨s', e, h'⟩ := (ih s h).1 hq
    exact ⟨s', by simp only [runP]; rw [bind_some e]; rfl, h'⟩
  | seq a b iha ihb =>
    intro s h
    simp only [runP]
    by_cases ha : EnvStill a
    · obtain ⟨s1, e1, h1⟩ := (iha s h).1 ha
      rw [bind_some e1]
      cases pa : a.panics with
      | true =>
        exact ⟨fun _ => ⟨s1, by simp [EnvCode.panics, pa, ret], h1⟩,
          fun hq => absurd ⟨ha, fun x => by rw [pa] at x; cases x⟩ hq⟩
      | false =>
        refine ⟨fun hq => ?_, fun hq => (ihb s1 h1).2 fun hb => hq ⟨ha, fun _ => hb⟩⟩
        obtain ⟨s2, e2, h2⟩ := (ihb s1 h1).1 (hq.2 pa)
        exact ⟨s2, by simpa [EnvCode.panics, pa] using e2, h2⟩
    · exact ⟨fun hq => absurd hq.1 ha, fun _ => bind_none ((iha s h).2 ha)⟩
  | spawn i b _ _ =>
    intro s h
    have hp := h.pos
    obtain ⟨s1, e1, h1, n1, c1, g1⟩ := env_mut h
    obtain ⟨s2, e2, h2, n2, c2, g2⟩ := prev_ran h1 c1
    have one : ∀ {s' : St}, CanW s.next (s'.stack 0) → ∀ t ∈ [s.next], CanR t (s'.stack 0) := fun hc t ht => by
      rw [List.mem_singleton.1 ht]; exact hc.canR
    have e2' := shielded_ok e2 (one c2)
    have ri := shielded_ran i h2 (t := s.next) (l := [s.next]) (by simp) (by omega) (by omega)
    -- the outside of `spawn`
    have fin : ∀ {p : Bool} {s' : St}, scBody s.next (runP i) (runP b) (s1, [s.next]) = some (p, (s', [s.next])) →
        runP (.spawn i b) (s, []) = some (p, (s', [])) := by
      intro p s' e
      simp only [runP, scSpawnP]
      rw [bind_some (shielded_ok e1 (by simp)), bind_some (show protect s.next (s1, []) = some ((), (s1, [s.next])) from rfl),
        bind_some e]
      rfl
    have bad : scBody s.next (runP i) (runP b) (s1, [s.next]) = none → runP (.spawn i b) (s, []) = none := by
      intro e
      simp only [runP, scSpawnP]
      rw [bind_some (shielded_ok e1 (by simp)), bind_some (show protect s.next (s1, []) = some ((), (s1, [s.next])) from rfl)]
      exact bind_none e
    by_cases ui : i.Uses
    · refine ⟨fun hq => absurd ui hq.1, fun _ => bad ?_⟩
      rw [scBody, bind_some e2']
      exact bind_none (ri.1 ui)
    · have e3 := ri.2 ui
      cases pi : i.panics with
      | true =>
        refine ⟨fun _ => ⟨s2, fin ?_, h2⟩, fun hq => absurd ⟨ui, fun x => by rw [pi] at x; cases x⟩ hq⟩
        rw [scBody, bind_some e2', bind_some e3]
        simp [EnvCode.panics, pi, ret]
      | false =>
        obtain ⟨s4, e4, h4, n4, c4, _⟩ := set_ran h2 c2
        have rb := shielded_ran b h4 (t := s.next) (l := [s.next]) (by simp) (by omega) (by omega)
        have head : scBody s.next (runP i) (runP b) (s1, [s.next]) =
            (do let q ← runP b; if q then ret true else do shielded (scSet s.next); ret false : M Shielded Bool) (s4, [s.next]) := by
          rw [scBody, bind_some e2', bind_some e3]
          simp only [pi, Bool.false_eq_true, if_false]
          rw [bind_some (shielded_ok e4 (one c4))]
        by_cases ub : b.Uses
        · refine ⟨fun hq => absurd ub (hq.2 pi), fun _ => bad ?_⟩
          rw [head]
          exact bind_none (rb.1 ub)
        · have e5 := rb.2 ub
          cases pb : b.panics with
          | true =>
            refine ⟨fun _ => ⟨s4, fin ?_, h4⟩, fun hq => absurd ⟨ui, fun _ => ub⟩ hq⟩
            rw [head, bind_some e5]
            simp [EnvCode.panics, pb, ret]
          | false =>
            obtain ⟨s6, e6, h6, _, c6, _⟩ := set_ran h4 c4
            refine ⟨fun _ => ⟨s6, fin ?_, h6⟩, fun hq => absurd ⟨ui, fun _ => ub⟩ hq⟩
            rw [head, bind_some e5]
            simp only [pb, Bool.false_eq_true, if_false]
            rw [bind_some (shielded_ok e6 (one c6))]
            simp [EnvCode.panics, pi, pb, ret]

end Lokky.SB
