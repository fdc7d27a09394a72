import Verif.Proofs.Handles
import Verif.Props.UrcSent

/-!
# `Urc` handles in vectors
-/

namespace Lokky
variable {α : Type} {c : Cfg α}

/-- A call that ends leaves handles as `Q` says. -/
def UrcLeaves (Q : List (Option UrcHand) → Prop) : Res (UrcPool α) (UrcOut α) → Prop
  | .ok _ P' => Q P'.hands
  | .panic P' => Q P'.hands
  | _ => True

theorem UrcPool.on_leaves {β : Type} {Q : List (Option UrcHand) → Prop} {m : M (UrcWorld α) β}
    {H : β → List (Option UrcHand)} {H' : List (Option UrcHand)} {out : β → UrcOut α} {P : UrcPool α}
    (h1 : ∀ a, Q (H a)) (h2 : Q H') : UrcLeaves Q (UrcPool.on m H H' out P) := by
  unfold UrcPool.on
  cases m P.w <;> first | exact h1 _ | exact h2 | trivial

theorem runUrc_leaves (P : UrcPool α) (cmd : UrcCmd α) : UrcLeaves (HandsStep P.hands) (runUrc c cmd P) := by
  have same : HandsStep P.hands P.hands := .inl rfl
  have push : ∀ k, HandsStep P.hands (P.hands ++ [some k]) := fun k => .inr (.inl ⟨k, rfl⟩)
  have set : ∀ {i a} (k), P.hands[i]? = some (some a) → HandsStep P.hands (P.hands.set i k) :=
    fun k h => .inr (.inr ⟨_, k, ⟨_, h⟩, rfl⟩)
  cases cmd with
  | new x => exact UrcPool.on_leaves (fun _ => push _) same
  | makeMut h f =>
    simp only [runUrc]
    split
    · rename_i p e
      unfold UrcPool.makeMut
      split
      · exact UrcPool.on_leaves (fun _ => set _ e) (set _ e)
      · exact set _ e
      · trivial
      · trivial
    · exact same
  | tryUnwrap h =>
    simp only [runUrc]
    split
    · rename_i p e
      refine UrcPool.on_leaves (fun a => ?_) (set _ e)
      cases a with
      | none => exact same
      | some q => exact set _ e
    · exact same
  | intoFence h =>
    simp only [runUrc]
    split
    · rename_i p e
      refine UrcPool.on_leaves (fun a => ?_) same
      cases a with
      | false => exact same
      | true => exact set _ e
    · exact same
  | _ =>
    simp only [runUrc]
    split <;> first
      | exact UrcPool.on_leaves (fun _ => push _) same
      | exact UrcPool.on_leaves (fun _ => same) same
      | exact UrcPool.on_leaves (fun _ => set _ (by assumption)) (set _ (by assumption))
      | exact same

theorem UrcHappens.handsStep {P P' : UrcPool α} {cmd : UrcCmd α} {o : Option (UrcOut α)}
    (h : UrcHappens c P cmd o P') : HandsStep P.hands P'.hands := by
  have key := runUrc_leaves (c := c) P cmd
  cases h with
  | ret hr => rw [hr] at key; exact key
  | panic hr => rw [hr] at key; exact key

theorem runUrc_drop_hands {P P' : UrcPool α} {x : Nat} {o : UrcOut α} (hx : isThere P.hands x = true)
    (h : runUrc c (.drop x) P = .ok o P') : P'.hands = P.hands.set x none := by
  obtain ⟨k, hk⟩ := isThere_iff.mp hx
  have key : UrcLeaves (· = P.hands.set x none) (runUrc c (.drop x) P) := by
    cases k <;> simp only [runUrc, hk] <;> exact UrcPool.on_leaves (fun _ => rfl) rfl
  rw [h] at key
  exact key

/-- What is known of `Urc` handles after `n` calls. -/
def UrcAfter (c : Cfg α) (n : Nat) (P : UrcPool α) : Prop :=
  ∃ hist : List (UrcCmd α × Option (UrcOut α)), hist.length = n ∧ UrcReaches c (UrcCmd.Permitted c) hist P

theorem urcThings_good : (urcThings c (UrcCmd.Permitted c)).Good (UrcAfter c) c.usizeMax where
  lt := fun _ h => isThere_lt h
  use := by
    rintro n P P' ⟨hist, hn, hr⟩ hb ⟨cmd, ev, hc, he⟩
    obtain ⟨a, b, _⟩ := he.handsStep.old
    exact ⟨⟨hist ++ [(cmd, ev)], by simp [hn], hr.step hc he⟩, a, b⟩
  fresh := by
    rintro n P P' - - ⟨cmd, ev, _, he⟩
    exact he.handsStep.old.2.2
  drop := by
    rintro n P x ⟨hist, hn, hr⟩ hb hx
    have hp : (UrcCmd.drop x).Permitted c P := ⟨isThere_iff.mp hx, trivial⟩
    obtain ⟨o, P', e⟩ := C98_partial hr (by omega) hp trivial
    have hh := runUrc_drop_hands hx e
    refine ⟨P', ?_, ⟨hist ++ [(.drop x, _)], by simp [hn], hr.step hp (.ret e)⟩, ?_, fun y => ?_⟩
    · simp only [urcThings, e]
    · simp only [urcThings, hh, List.length_set]
    · show isThere P'.hands y = true ↔ isThere P.hands y = true ∧ y ≠ x
      rw [hh]
      exact isThere_set

end Lokky
