import Verif.Model.ArcClones
import Verif.Proofs.ArcChests
import Verif.Proofs.HandleClonesGood

/-!
# `Arc`s as elements that vectors clone
-/

namespace Lokky
variable {α : Type} {mx n : Nat} {s : ArcSys α}

/-- The object of a handle, and its value. -/
def ArcSys.shows (s : ArcSys α) (x : Nat) : Option (Nat × Option α) := (handAt s.hands x).map fun p => (p, s.objs[p]?.map (·.val))

/-- `clone` adds a handle of the same value, and changes no value. -/
theorem arcClone_ok (h : ArcAfter mx n s) (hb : n < mx / 3) {x p : Nat} (hx : s.hands[x]? = some (some p)) :
    ∃ s', (arcClonables mx).clone x s = .ok s.hands.length s' ∧ ArcAfter mx (n + 1) s' ∧ s'.hands = s.hands ++ [some p] ∧
      ∀ q : Nat, s'.objs[q]?.map (·.val) = s.objs[q]?.map (·.val) := by
  obtain ⟨m, hm, hr, hl⟩ := h
  obtain ⟨k, hk⟩ := hr.more
  have hlast : s.more.threads[s.threads.length]? = some none := by simp [ArcSys.more]
  have h1 : ArcSteps mx True (ArcSys.start k) (m + 1)
      { s.more with threads := s.more.threads.set s.threads.length (some (.clone x p)) } :=
    .tail hk (.borrow s.threads.length (.clone x) hlast rfl hx)
  have e1 : ({ s.more with threads := s.more.threads.set s.threads.length (some (.clone x p)) } : ArcSys α) =
      { s with threads := s.threads ++ [some (.clone x p)] } := by
    simp [ArcSys.more]
  rw [e1] at h1
  generalize hs0 : ({ s with threads := s.threads ++ [some (.clone x p)] } : ArcSys α) = s0 at h1
  have ht : s0.threads[s.threads.length]? = some (some (.clone x p)) := by subst hs0; simp
  have hr1 : ArcReaches mx True (m + 1) s0 := ⟨k, h1⟩
  have I := ArcInv.reaches hr1 (by omega)
  have hx0 : s0.hands[x]? = some (some p) := by subst hs0; exact hx
  obtain ⟨o, ho, hlo, ha, hfr, hou, hst, htl, hkk⟩ := I.live (ArcInv.own_pos_of_hand hx0) (hr1.whole.not_lost p)
  have hfew := hkk.few
  have hle : ¬ o.strong > mx := by omega
  have hlk : o.strong ≠ Arc.lock mx := by unfold Arc.lock; omega
  have hs : Arc.step mx {} s.threads.length (.clone x p) s0 =
      .ok () (s0.upd p { o with strong := o.strong + 1 } s.threads.length none 1 ((s.threads.length, .unit) :: s0.log)) := by
    simp [Arc.step, M.bind_apply, ArcInv.obj_ok ho hfr, Arc.put, hle, Arc.give, Arc.done, Arc.incr, hlk, ArcSys.upd]
  have hh : (s0.upd p { o with strong := o.strong + 1 } s.threads.length none 1 ((s.threads.length, .unit) :: s0.log)).hands =
      s.hands ++ [some p] := by
    subst hs0; simp [ArcSys.upd]
  refine ⟨_, ?_, ⟨m + 2, by omega, ⟨k, .tail h1 (.run s.threads.length {} ht hs fun _ => id)⟩, ?_⟩, hh, ?_⟩
  · simp only [arcClonables, hx, hs0, hs]
    rw [if_neg]
    rw [hh]; simp
  · intro h' t op ht'
    subst hs0
    simp only [ArcSys.upd, List.set_append_right _ _ (Nat.le_refl _), Nat.sub_self, List.set_cons_zero,
      List.getElem?_append] at ht'
    split at ht'
    · exact hl h' t op ht'
    · cases e : t - s.threads.length <;> simp [e] at ht'
  · intro q
    have ho' : s.objs[p]? = some o := by subst hs0; exact ho
    subst hs0
    simp only [ArcSys.upd, List.getElem?_set]
    split
    · rename_i e
      subst e
      rw [if_pos (List.getElem?_eq_some_iff.mp ho').1, ho']
      rfl
    · rfl

theorem arcClonables_good :
    (arcClonables (α := α) mx).Good (ArcAfter mx) (mx / 3) ArcSys.shows False where
  base := arcThings_good
  alive := fun _ h => h
  clone := by
    intro n s x hi hb hx
    left
    obtain ⟨p, hp⟩ := isThere_iff.mp hx
    obtain ⟨s', e, hi', hh, hv⟩ := arcClone_ok hi hb hp
    refine ⟨s', e, ⟨hi', ?_, fun y => ?_, fun y hy => ?_, fun y hy => ?_, fun i hi => ?_⟩⟩
    · show s'.hands.length = s.hands.length + 1
      rw [hh]; simp
    · show isThere s'.hands y = true ↔ isThere s.hands y = true ∨ _
      rw [hh]; exact isThere_snoc y
    · show isThere s'.hands y = true
      rw [hh]; exact (isThere_snoc y).mpr (.inl hy)
    · simp only [ArcSys.shows, hh, handAt_snoc (k := p) (show isThere s.hands y = true from hy), hv]
    · have : i = 0 := by simpa using hi
      subst this
      show s'.shows s.hands.length = s.shows x
      simp only [ArcSys.shows, hh, handAt_last, handAt_some hp, hv]
  dropVal := by
    intro n s s' x hi hb hx e y hy
    obtain ⟨p, hp⟩ := isThere_iff.mp hx
    simp only [arcClonables, arcThings, hp] at e
    injection e with _ e
    subst e
    simp only [ArcSys.shows]
    rw [handAt_set hy]

end Lokky
