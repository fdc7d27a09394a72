import Verif.Model.UrcData
import Verif.Proofs.Urc

/-!
# The addresses that `Urc` handles keep are those of allocated memory
-/

namespace Lokky
variable {α β γ : Type} {c : Cfg α}

/-- What a call at fence `f` does to the memory: no master goes, no fence but `f` goes, and fences lead where they
did before. -/
structure UrcGrow (f : Nat) (w w' : UrcWorld α) : Prop where
  fl : w.fences.length ≤ w'.fences.length
  ml : w.masters.length ≤ w'.masters.length
  old : ∀ (g : Nat) (F' : UrcFence), g < w.fences.length → w'.fences[g]? = some (some F') →
    ∃ F, w.fences[g]? = some (some F) ∧ F.master = F'.master
  stay : ∀ (g : Nat) (F : UrcFence), g ≠ f → w.fences[g]? = some (some F) → ∃ F', w'.fences[g]? = some (some F')
  master : ∀ (m : Nat) (x : UrcMaster α), w.masters[m]? = some (some x) → ∃ x', w'.masters[m]? = some (some x')

namespace UrcGrow
variable {f : Nat} {w w' w'' : UrcWorld α}

theorem refl (f : Nat) (w : UrcWorld α) : UrcGrow f w w :=
  ⟨Nat.le_refl _, Nat.le_refl _, fun _ F' _ h => ⟨F', h, rfl⟩, fun _ F _ h => ⟨F, h⟩, fun _ x h => ⟨x, h⟩⟩

theorem trans (a : UrcGrow f w w') (b : UrcGrow f w' w'') : UrcGrow f w w'' := by
  refine ⟨Nat.le_trans a.fl b.fl, Nat.le_trans a.ml b.ml, fun g F' hg h => ?_, fun g F hg h => ?_, fun m x h => ?_⟩
  · obtain ⟨F, h1, e1⟩ := b.old g F' (Nat.lt_of_lt_of_le hg a.fl) h
    obtain ⟨F0, h0, e0⟩ := a.old g F hg h1
    exact ⟨F0, h0, e0.trans e1⟩
  · obtain ⟨F', h'⟩ := a.stay g F hg h
    exact b.stay g F' hg h'
  · obtain ⟨x', h'⟩ := a.master m x h
    exact b.master m x' h'

/-- Same fences, and masters that are not fewer. -/
theorem ofMasters (hf : w'.fences = w.fences) (hm : w.masters.length ≤ w'.masters.length)
    (h : ∀ (m : Nat) (x : UrcMaster α), w.masters[m]? = some (some x) → ∃ x', w'.masters[m]? = some (some x')) : UrcGrow f w w' :=
  ⟨by rw [hf]; exact Nat.le_refl _, hm, fun _ F' _ e => ⟨F', hf ▸ e, rfl⟩, fun _ F _ e => ⟨F, hf ▸ e⟩, h⟩

theorem putMaster (m : Nat) (x : UrcMaster α) :
    UrcGrow f w { w with masters := w.masters.set m (some x) } := by
  refine ofMasters rfl (by simp) fun m' y h => ?_
  by_cases e : m' = m
  · subst e
    have hl := (List.getElem?_eq_some_iff.mp h).1
    exact ⟨x, by simp [hl]⟩
  · exact ⟨y, by simpa [List.getElem?_set_ne (Ne.symm e)] using h⟩

theorem putFence {F : UrcFence} (h : w.fences[f]? = some (some F)) (F' : UrcFence) (e : F'.master = F.master) :
    UrcGrow f w { w with fences := w.fences.set f (some F') } := by
  have hl := (List.getElem?_eq_some_iff.mp h).1
  refine ⟨by simp, Nat.le_refl _, fun g G hg hG => ?_, fun g G hg hG => ?_, fun m x hm => ⟨x, hm⟩⟩
  · by_cases e' : g = f
    · subst e'
      simp only [List.getElem?_set_self hl] at hG
      cases hG
      exact ⟨F, h, e.symm⟩
    · exact ⟨G, by simpa [List.getElem?_set_ne (Ne.symm e')] using hG, rfl⟩
  · exact ⟨G, by simpa [List.getElem?_set_ne (Ne.symm hg)] using hG⟩

theorem dropFence : UrcGrow f w { w with fences := w.fences.set f none } := by
  refine ⟨by simp, Nat.le_refl _, fun g G hg hG => ?_, fun g G hg hG => ?_, fun m x hm => ⟨x, hm⟩⟩
  · by_cases e' : g = f
    · subst e'
      simp only [List.getElem?_set_self hg] at hG
      cases hG
    · exact ⟨G, by simpa [List.getElem?_set_ne (Ne.symm e')] using hG, rfl⟩
  · exact ⟨G, by simpa [List.getElem?_set_ne (Ne.symm hg)] using hG⟩

end UrcGrow

/-- A call at fence `f` does no more than `UrcGrow` says, whether it returns or panics. -/
def UrcTame (f : Nat) (m : M (UrcWorld α) β) : Prop := ∀ w,
  (∀ a w', m w = .ok a w' → UrcGrow f w w') ∧ ∀ w', m w = .panic w' → UrcGrow f w w'

namespace UrcTame
variable {f : Nat}

theorem bind {m : M (UrcWorld α) β} {k : β → M (UrcWorld α) γ} (h : UrcTame f m) (hk : ∀ a, UrcTame f (k a)) :
    UrcTame f (m >>= k) := fun w => by
  rw [M.bind_apply]
  cases e : m w with
  | ok a w1 =>
    have g := (h w).1 a w1 e
    exact ⟨fun b w' e' => g.trans ((hk a w1).1 b w' e'), fun w' e' => g.trans ((hk a w1).2 w' e')⟩
  | panic w1 =>
    have g := (h w).2 w1 e
    exact ⟨fun b w' e' => by simp at e', fun w' e' => by simp at e'; exact e' ▸ g⟩
  | abort => exact ⟨fun b w' e' => by simp at e', fun w' e' => by simp at e'⟩
  | ub u => exact ⟨fun b w' e' => by simp at e', fun w' e' => by simp at e'⟩

theorem pure (a : β) : UrcTame (α := α) f (Pure.pure a) := fun w =>
  ⟨fun b w' e => by simp at e; exact e.2 ▸ .refl _ _, fun w' e => by simp at e⟩

theorem boom : UrcTame (α := α) (β := β) f M.boom := fun w =>
  ⟨fun b w' e => by simp at e, fun w' e => by simp at e; exact e ▸ .refl _ _⟩

theorem undef (u : UB) : UrcTame (α := α) (β := β) f (M.undef u) := fun w =>
  ⟨fun b w' e => by simp at e, fun w' e => by simp at e⟩

theorem ite {p : Prop} [Decidable p] {a b : M (UrcWorld α) β} (ha : UrcTame f a) (hb : UrcTame f b) :
    UrcTame f (if p then a else b) := by split <;> assumption

theorem fence (g : Nat) : UrcTame (α := α) f (Urc.fence g) := fun w => by
  unfold Urc.fence
  split
  · exact ⟨fun b w' e => by simp at e; exact e.2 ▸ .refl _ _, fun w' e => by simp at e⟩
  · exact ⟨fun b w' e => by simp at e, fun w' e => by simp at e⟩

theorem master (m : Nat) : UrcTame (α := α) f (Urc.master m) := fun w => by
  unfold Urc.master
  split
  · exact ⟨fun b w' e => by simp at e; exact e.2 ▸ .refl _ _, fun w' e => by simp at e⟩
  · exact ⟨fun b w' e => by simp at e, fun w' e => by simp at e⟩

theorem putMaster (m : Nat) (x : UrcMaster α) : UrcTame f (Urc.putMaster m x) := fun w =>
  ⟨fun b w' e => by
    simp only [Urc.putMaster, M.modify_apply] at e
    cases e
    exact .putMaster m x, fun w' e => by simp [Urc.putMaster] at e⟩

theorem data (m : Nat) : UrcTame (α := α) f (Urc.data m) :=
  .bind (.master m) fun _ => .ite (.pure _) (.undef _)

theorem uadd (a b : Nat) : UrcTame (α := α) f (uadd c a b) := by
  unfold Lokky.uadd; exact .ite (.pure _) (.ite .boom (.pure _))

theorem usub (a b : Nat) : UrcTame (α := α) f (usub c a b) := by
  unfold Lokky.usub; exact .ite (.pure _) (.ite .boom (.pure _))

theorem debugAssert (p : Prop) [Decidable p] : UrcTame (α := α) f (debugAssert c p) := by
  unfold Lokky.debugAssert; exact .ite .boom (.pure _)

/-- Read a fence, do something that leaves it alone, store it with other counts. -/
theorem update {n : UrcFence → M (UrcWorld α) Nat} {g : UrcFence → Nat → UrcFence}
    (hn : ∀ F w, (∃ k, n F w = .ok k w) ∨ n F w = .panic w) (hg : ∀ F k, (g F k).master = F.master) :
    UrcTame f (do
      let F ← Urc.fence f
      let k ← n F
      Urc.putFence f (g F k)) := fun w => by
  simp only [M.bind_apply, Urc.fence]
  cases e : w.fences[f]? with
  | none => exact ⟨fun b w' e => by simp at e, fun w' e => by simp at e⟩
  | some o =>
    cases o with
    | none => exact ⟨fun b w' e => by simp at e, fun w' e => by simp at e⟩
    | some F =>
      simp only
      rcases hn F w with ⟨k, hk⟩ | hk
      · rw [hk]
        simp only [Urc.putFence, M.modify_apply]
        refine ⟨fun b w' e' => ?_, fun w' e' => by simp at e'⟩
        cases e'
        exact .putFence e _ (hg F k)
      · rw [hk]
        refine ⟨fun b w' e' => by simp at e', fun w' e' => ?_⟩
        cases e'
        exact .refl _ _

theorem uadd_same (a b : Nat) (w : UrcWorld α) :
    (∃ k, Lokky.uadd c a b w = .ok k w) ∨ Lokky.uadd c a b w = .panic w := by
  unfold Lokky.uadd
  split
  · exact .inl ⟨_, rfl⟩
  · split
    · exact .inr rfl
    · exact .inl ⟨_, rfl⟩

theorem dec_same (p : Prop) [Decidable p] (a b : Nat) (w : UrcWorld α) :
    (∃ k, (do Lokky.debugAssert c p; Lokky.usub c a b : M (UrcWorld α) Nat) w = .ok k w) ∨
    (do Lokky.debugAssert c p; Lokky.usub c a b : M (UrcWorld α) Nat) w = .panic w := by
  unfold Lokky.debugAssert Lokky.usub
  by_cases h1 : p <;> by_cases h2 : b ≤ a <;> by_cases h3 : c.debug = true <;>
    simp [M.bind_apply, h1, h2, h3]

theorem bind_assoc (m : M (UrcWorld α) β) (k : β → M (UrcWorld α) γ) {δ : Type} (l : γ → M (UrcWorld α) δ) :
    (m >>= k) >>= l = m >>= fun a => k a >>= l := by
  funext w
  simp only [M.bind_apply]
  cases m w <;> rfl

theorem incStrong : UrcTame f (Urc.incStrong c f) :=
  update (n := fun F => Lokky.uadd c F.strong 1) (g := fun F k => { F with strong := k })
    (fun _ _ => uadd_same _ _ _) fun _ _ => rfl

theorem incWeak : UrcTame f (Urc.incWeak c f) :=
  update (n := fun F => Lokky.uadd c F.weak 1) (g := fun F k => { F with weak := k })
    (fun _ _ => uadd_same _ _ _) fun _ _ => rfl

theorem decStrong : UrcTame f (Urc.decStrong c f) := by
  have h := update (f := f) (n := fun F => do Lokky.debugAssert c (F.strong > 0); Lokky.usub c F.strong 1)
    (g := fun F k => { F with strong := k }) (fun _ _ => dec_same _ _ _ _) fun _ _ => rfl
  simp only [bind_assoc] at h
  exact h

theorem decWeak : UrcTame f (Urc.decWeak c f) := by
  have h := update (f := f) (n := fun F => do Lokky.debugAssert c (F.weak > 0); Lokky.usub c F.weak 1)
    (g := fun F k => { F with weak := k }) (fun _ _ => dec_same _ _ _ _) fun _ _ => rfl
  simp only [bind_assoc] at h
  exact h


theorem freeFence : UrcTame (α := α) f (Urc.freeFence f) := fun w => by
  unfold Urc.freeFence
  split
  · exact ⟨fun b w' e => by cases e; exact .dropFence, fun w' e => by simp at e⟩
  · exact ⟨fun b w' e => by simp at e, fun w' e => by simp at e⟩

theorem modifyTick (h : UrcWorld α → UrcWorld α) (h1 : ∀ w, (h w).fences = w.fences)
    (h2 : ∀ w, (h w).masters = w.masters) (w : UrcWorld α) : UrcGrow f w (h w) :=
  .ofMasters (h1 w) (by rw [h2]; exact Nat.le_refl _) fun m x e => ⟨x, by rw [h2]; exact e⟩

theorem cloneVal (a : α) : UrcTame f (Urc.cloneVal c a) := fun w => by
  have g : UrcGrow f w { w with calls := w.calls + 1 } :=
    .ofMasters rfl (Nat.le_refl _) fun m x e => ⟨x, e⟩
  unfold Urc.cloneVal
  split
  · exact ⟨fun b w' e => by cases e; exact g, fun w' e => by simp at e⟩
  · exact ⟨fun b w' e => by simp at e, fun w' e => by cases e; exact g⟩

theorem allocFence (F : UrcFence) : UrcTame f (Urc.allocFence c F) := fun w => by
  unfold Urc.allocFence
  split
  · refine ⟨fun b w' e => ?_, fun w' e => by simp at e⟩
    cases e
    refine ⟨by simp, Nat.le_refl _, fun g F' hg h => ⟨F', ?_, rfl⟩, fun g G _ h => ⟨G, ?_⟩, fun m x h => ⟨x, h⟩⟩
    · simpa [List.getElem?_append_left hg] using h
    · have hg := (List.getElem?_eq_some_iff.mp h).1
      simpa [List.getElem?_append_left hg] using h
  · refine ⟨fun b w' e => ?_, fun w' e => by simp at e⟩
    cases e
    exact .ofMasters rfl (Nat.le_refl _) fun m x e => ⟨x, e⟩

theorem allocMaster (x : UrcMaster α) : UrcTame f (Urc.allocMaster c x) := fun w => by
  unfold Urc.allocMaster
  split
  · refine ⟨fun b w' e => ?_, fun w' e => by simp at e⟩
    cases e
    refine .ofMasters rfl (by simp) fun m y h => ⟨y, ?_⟩
    have hg := (List.getElem?_eq_some_iff.mp h).1
    simpa [List.getElem?_append_left hg] using h
  · refine ⟨fun b w' e => ?_, fun w' e => by simp at e⟩
    cases e
    exact .ofMasters rfl (Nat.le_refl _) fun m x e => ⟨x, e⟩

theorem new (x : α) : UrcTame f (Urc.new c x) := by
  unfold Urc.new
  refine .bind (.allocMaster _) fun m => ?_
  cases m with
  | none => exact .boom
  | some m =>
    refine .bind (.allocFence _) fun g => ?_
    cases g with
    | none => exact .boom
    | some g => exact .pure _

theorem drop : UrcTame f (Urc.drop c f) := by
  unfold Urc.drop Urc.dropData Urc.dropMaster
  refine .bind (.fence f) fun F => .ite ?_ .decStrong
  refine .bind .freeFence fun _ => .bind (.master _) fun x => .bind (.putMaster _ _) fun _ => .ite ?_ (.pure _)
  exact .bind (.pure _) fun _ => .bind (.master _) fun _ => .ite (.pure _) (.pure _)

theorem weakDrop (m : Nat) : UrcTame f (Urc.weakDrop c f m) := by
  unfold Urc.weakDrop Urc.dropFence Urc.dropMaster
  refine .bind (.fence f) fun F => .ite ?_ .decWeak
  refine .bind (.pure _) fun _ => .bind (.master _) fun x => .bind (.putMaster _ _) fun _ => .ite ?_ (.pure _)
  exact .bind (.master _) fun _ => .ite (.pure _) (.pure _)

theorem envelop : UrcTame f (Urc.envelop c f) := by
  unfold Urc.envelop
  refine .bind (.fence f) fun F => .bind (.master _) fun x => .bind (.putMaster _ _) fun _ =>
    .bind (.allocFence _) fun g => ?_
  cases g with
  | none => exact .boom
  | some g => exact .pure _

theorem asRef : UrcTame (α := α) f (Urc.asRef f) := .bind (.fence f) fun _ => .data _

theorem write (g : α → α) (f' : Nat) : UrcTame f (Urc.write f' g) :=
  .bind (.fence f') fun _ => .bind (.data _) fun _ => .bind (.master _) fun _ => .bind (.putMaster _ _) fun _ => .pure _

theorem getMut : UrcTame f (Urc.getMut c f) :=
  .bind (.fence f) fun _ => .bind (.master _) fun _ => .ite
    (.bind (.putMaster _ _) fun _ => .bind (.master _) fun _ => .ite
      (.bind (.putMaster _ _) fun _ => .pure _) (.pure _)) (.pure _)

theorem isSole : UrcTame (α := α) f (Urc.isSole f) := .bind (.fence f) fun _ => .bind (.master _) fun _ => .pure _

/-- Undefined behaviour whatever follows: the fence is used after it was given back. -/
theorem releaseBoth_ub (f : Nat) (w : UrcWorld α) : ∃ u, Urc.releaseBoth f w = .ub u := by
  unfold Urc.releaseBoth
  rw [M.bind_apply]
  cases e : Urc.freeFence f w with
  | ub u => exact ⟨u, rfl⟩
  | panic w' => unfold Urc.freeFence at e; split at e <;> simp at e
  | abort => unfold Urc.freeFence at e; split at e <;> simp at e
  | ok a w' =>
    unfold Urc.freeFence at e
    split at e
    · rename_i F h
      cases e
      have hl := (List.getElem?_eq_some_iff.mp h).1
      exact ⟨.oob, by simp [M.bind_apply, Urc.fence, hl]⟩
    · simp at e

theorem releaseBoth : UrcTame (α := α) f (Urc.releaseBoth f) := fun w => by
  obtain ⟨u, e⟩ := releaseBoth_ub f w
  rw [e]
  exact ⟨fun b w' e => by simp at e, fun w' e => by simp at e⟩

theorem tryUnwrap : UrcTame (α := α) f (Urc.tryUnwrap f) := by
  unfold Urc.tryUnwrap
  refine .bind (.fence f) fun F => .bind (.master _) fun x => .ite ?_ (.pure _)
  refine .bind (.putMaster _ _) fun _ => .ite (.pure _) ?_
  refine .bind (.data _) fun v => .bind (.master _) fun y => .bind (.putMaster _ _) fun _ => ?_
  exact .bind (.ite .releaseBoth (.pure _)) fun _ => .pure _

theorem intoFence : UrcTame (α := α) f (Urc.intoFence f) := .bind (.fence f) fun _ => .pure _

end UrcTame

/-- `fromFence` gives the fence back twice. -/
theorem Urc.fromFence_ub (c : Cfg α) (f : Nat) (w : UrcWorld α) : ∃ u, Urc.fromFence c f w = .ub u := by
  unfold Urc.fromFence
  rw [M.bind_apply]
  cases e : Urc.fence f w with
  | ub u => exact ⟨u, rfl⟩
  | panic w' => unfold Urc.fence at e; split at e <;> simp at e
  | abort => unfold Urc.fence at e; split at e <;> simp at e
  | ok F w' =>
    unfold Urc.fence at e
    split at e
    · rename_i F' h
      cases e
      have hl := (List.getElem?_eq_some_iff.mp h).1
      refine ⟨.badFree, ?_⟩
      simp only [M.bind_apply, Urc.freeFence, h, List.getElem?_set_self hl]
    · simp at e

/-- A fence of master `m`, which is allocated. -/
def UrcWorld.Leads (w : UrcWorld α) (q m : Nat) : Prop :=
  ∃ F, w.fences[q]? = some (some F) ∧ F.master = m ∧ ∃ y, w.masters[m]? = some (some y)

theorem UrcGrow.leads {f q m : Nat} {w w' : UrcWorld α} (g : UrcGrow f w w') (h : w.Leads q m) (hq : q ≠ f) :
    w'.Leads q m := by
  obtain ⟨F, hF, rfl, y, hy⟩ := h
  obtain ⟨F', hF'⟩ := g.stay q F hq hF
  obtain ⟨F0, h0, e⟩ := g.old q F' (List.getElem?_eq_some_iff.mp hF).1 hF'
  rw [hF] at h0
  cases h0
  exact ⟨F', hF', e.symm, g.master _ y hy⟩

/-- What `new` makes: a fence that was not there, of a master that was not there. -/
theorem Urc.new_fresh {x : α} {w w' : UrcWorld α} {q : Nat} (h : Urc.new c x w = .ok q w') :
    w.fences.length ≤ q ∧ ∃ m, w.masters.length ≤ m ∧ w'.Leads q m := by
  unfold Urc.new at h
  simp only [M.bind_apply, Urc.allocMaster] at h
  by_cases h1 : c.grant w.tick c.size = true
  · by_cases h2 : c.grant (w.tick + 1) c.size = true
    · simp only [h1, h2, if_true, M.bind_apply, Urc.allocFence, M.pure_apply] at h
      cases h
      exact ⟨Nat.le_refl _, w.masters.length, Nat.le_refl _, ⟨1, 0, w.masters.length⟩, by simp, rfl, ⟨1, 0, x, true, 0⟩, by simp⟩
    · simp [h1, h2, M.bind_apply, Urc.allocFence] at h
  · simp [h1] at h

/-- A handle of fence `q` in place of the one of fence `f`, whether the code returns or panics; the latter stays
only if there was a panic. -/
def UrcTurns (f q : Nat) (m : M (Nat × UrcWorld α) β) : Prop := ∀ w s',
  ((∃ a, m (f, w) = .ok a s') → UrcGrow f w s'.2 ∧ s'.1 = q) ∧
  (m (f, w) = .panic s' → UrcGrow f w s'.2 ∧ (s'.1 = q ∨ s'.1 = f))

/-- A handle of a fence and of a value that were not there, in place of the one of fence `f`; the latter stays
only if there was a panic. -/
def UrcRenews (f : Nat) (m : M (Nat × UrcWorld α) β) : Prop := ∀ w s',
  ((∃ a, m (f, w) = .ok a s') → UrcGrow f w s'.2 ∧
    w.fences.length ≤ s'.1 ∧ ∃ k, w.masters.length ≤ k ∧ (s'.1 ≠ f → s'.2.Leads s'.1 k)) ∧
  (m (f, w) = .panic s' → UrcGrow f w s'.2 ∧ (s'.1 = f ∨
    w.fences.length ≤ s'.1 ∧ ∃ k, w.masters.length ≤ k ∧ (s'.1 ≠ f → s'.2.Leads s'.1 k)))

theorem Urc.lift_cases (m : M (UrcWorld α) β) (f : Nat) (w : UrcWorld α) :
    (∃ a w', m w = .ok a w' ∧ Urc.lift m (f, w) = .ok a (f, w')) ∨
    (∃ w', m w = .panic w' ∧ Urc.lift m (f, w) = .panic (f, w')) ∨
    Urc.lift m (f, w) = .abort ∨ ∃ u, Urc.lift m (f, w) = .ub u := by
  unfold Urc.lift
  cases e : m w with
  | ok a w' => exact .inl ⟨a, w', rfl, by simp⟩
  | panic w' => exact .inr (.inl ⟨w', rfl, by simp⟩)
  | abort => exact .inr (.inr (.inl (by simp)))
  | ub u => exact .inr (.inr (.inr ⟨u, by simp⟩))

theorem UrcTurns.lift {f q : Nat} {m : M (UrcWorld α) β} {k : β → M (Nat × UrcWorld α) γ} (h : UrcTame f m)
    (hk : ∀ a, UrcTurns f q (k a)) : UrcTurns f q (Urc.lift m >>= k) := fun w s' => by
  rw [M.bind_apply]
  rcases Urc.lift_cases m f w with ⟨a, w1, e, e'⟩ | ⟨w1, e, e'⟩ | e' | ⟨u, e'⟩ <;> rw [e']
  · have g := (h w).1 a w1 e
    exact ⟨fun x => ⟨g.trans ((hk a w1 s').1 x).1, ((hk a w1 s').1 x).2⟩,
      fun x => ⟨g.trans ((hk a w1 s').2 x).1, ((hk a w1 s').2 x).2⟩⟩
  · have g := (h w).2 w1 e
    exact ⟨fun ⟨_, x⟩ => (nomatch x), fun x => by cases x; exact ⟨g, .inr rfl⟩⟩
  · exact ⟨fun ⟨_, x⟩ => (nomatch x), fun x => nomatch x⟩
  · exact ⟨fun ⟨_, x⟩ => (nomatch x), fun x => nomatch x⟩

theorem UrcRenews.lift {f : Nat} {m : M (UrcWorld α) β} {k : β → M (Nat × UrcWorld α) γ} (h : UrcTame f m)
    (hk : ∀ a, UrcRenews f (k a)) : UrcRenews f (Urc.lift m >>= k) := fun w s' => by
  rw [M.bind_apply]
  rcases Urc.lift_cases m f w with ⟨a, w1, e, e'⟩ | ⟨w1, e, e'⟩ | e' | ⟨u, e'⟩ <;> rw [e']
  · have g := (h w).1 a w1 e
    refine ⟨fun x => ?_, fun x => ?_⟩
    · obtain ⟨h1, h2, j, h3, h4⟩ := (hk a w1 s').1 x
      exact ⟨g.trans h1, Nat.le_trans g.fl h2, j, Nat.le_trans g.ml h3, h4⟩
    · obtain ⟨h1, h2⟩ := (hk a w1 s').2 x
      refine ⟨g.trans h1, h2.imp id fun ⟨h2, j, h3, h4⟩ => ?_⟩
      exact ⟨Nat.le_trans g.fl h2, j, Nat.le_trans g.ml h3, h4⟩
  · have g := (h w).2 w1 e
    exact ⟨fun ⟨_, x⟩ => (nomatch x), fun x => by cases x; exact ⟨g, .inl rfl⟩⟩
  · exact ⟨fun ⟨_, x⟩ => (nomatch x), fun x => nomatch x⟩
  · exact ⟨fun ⟨_, x⟩ => (nomatch x), fun x => nomatch x⟩

theorem UrcTurns.replace (f q : Nat) : UrcTurns f q (Urc.replace c q) := fun w s' => by
  unfold Urc.replace M.andAlways
  have D : UrcTame f (Urc.drop c f) := .drop
  simp only [M.onUnwind, M.seq, M.bind_apply, M.get_apply]
  rcases Urc.lift_cases (Urc.drop c f) f w with ⟨a, w1, e, e'⟩ | ⟨w1, e, e'⟩ | e' | ⟨u, e'⟩ <;> rw [e'] <;>
    simp only [M.modify_apply]
  · have g := (D w).1 a w1 e
    exact ⟨fun ⟨_, x⟩ => by cases x; exact ⟨g, rfl⟩, fun x => nomatch x⟩
  · have g := (D w).2 w1 e
    exact ⟨fun ⟨_, x⟩ => (nomatch x), fun x => by cases x; exact ⟨g, .inl rfl⟩⟩
  · exact ⟨fun ⟨_, x⟩ => (nomatch x), fun x => nomatch x⟩
  · exact ⟨fun ⟨_, x⟩ => (nomatch x), fun x => nomatch x⟩

theorem UrcRenews.new {f : Nat} (v : α) {k : Nat → M (Nat × UrcWorld α) γ} (hk : ∀ q, UrcTurns f q (k q)) :
    UrcRenews f (Urc.lift (Urc.new c v) >>= k) := fun w s' => by
  rw [M.bind_apply]
  have h : UrcTame f (Urc.new c v) := .new v
  rcases Urc.lift_cases (Urc.new c v) f w with ⟨q, w1, e, e'⟩ | ⟨w1, e, e'⟩ | e' | ⟨u, e'⟩ <;> rw [e']
  · have g := (h w).1 q w1 e
    obtain ⟨hq, m, hm, hl⟩ := Urc.new_fresh e
    refine ⟨fun x => ?_, fun x => ?_⟩
    · obtain ⟨h1, rfl⟩ := (hk q w1 s').1 x
      exact ⟨g.trans h1, hq, m, hm, fun hne => h1.leads hl hne⟩
    · obtain ⟨h1, h2⟩ := (hk q w1 s').2 x
      refine ⟨g.trans h1, ?_⟩
      rcases h2 with rfl | h2
      · exact .inr ⟨hq, m, hm, fun hne => h1.leads hl hne⟩
      · exact .inl h2
  · have g := (h w).2 w1 e
    exact ⟨fun ⟨_, x⟩ => (nomatch x), fun x => by cases x; exact ⟨g, .inl rfl⟩⟩
  · exact ⟨fun ⟨_, x⟩ => (nomatch x), fun x => nomatch x⟩
  · exact ⟨fun ⟨_, x⟩ => (nomatch x), fun x => nomatch x⟩

theorem UrcRenews.cloneOut (f m : Nat) : UrcRenews f (Urc.cloneOut c m) := by
  unfold Urc.cloneOut
  exact .lift (.data _) fun v => .lift (.cloneVal v) fun v' => .new v' fun q => .replace f q

/-- Two steps on the memory are one. -/
theorem Urc.lift_lift (m : M (UrcWorld α) β) (k : β → M (UrcWorld α) γ) {δ : Type} (l : γ → M (Nat × UrcWorld α) δ) :
    (Urc.lift m >>= fun a => Urc.lift (k a) >>= l) = Urc.lift (m >>= k) >>= l := by
  funext s
  simp only [M.bind_apply, Urc.lift]
  cases e : m s.2 <;> simp

theorem UrcTame.zero {f : Nat} : UrcTame (α := α) f
    (do let F ← Urc.fence f; Urc.putFence f { F with strong := 0 }) :=
  update (n := fun _ => Pure.pure 0) (g := fun F k => { F with strong := k })
    (fun _ _ => .inl ⟨0, rfl⟩) fun _ _ => rfl

theorem UrcRenews.moveOut (f m : Nat) : UrcRenews f (Urc.moveOut c f m) := by
  unfold Urc.moveOut
  refine .lift (.data _) fun v => ?_
  rw [Urc.lift_lift]
  refine .lift .zero fun _ => .lift (.master _) fun x => .lift (.putMaster _ _) fun _ => .new v fun q => ?_
  exact .lift (.master _) fun y => .lift (.putMaster _ _) fun _ => .replace f q

theorem UrcRenews.ite {f : Nat} {p : Prop} [Decidable p] {a b : M (Nat × UrcWorld α) β} (ha : UrcRenews f a)
    (hb : UrcRenews f b) : UrcRenews f (if p then a else b) := by split <;> assumption

theorem UrcRenews.makeMut (f : Nat) : UrcRenews f (Urc.makeMut c) := by
  have h : UrcRenews f (do
      let F ← Urc.lift (Urc.fence f)
      let x ← Urc.lift (Urc.master F.master)
      if x.sf = 1 then
        if F.weak ≠ 0 then
          if x.wf = 1 then
            if F.strong = 1 then Urc.moveOut c f F.master else Urc.cloneOut c F.master
          else Urc.moveOut c f F.master
        else do
          let n ← Urc.lift (uadd c x.wf 1)
          Urc.lift (Urc.putMaster F.master { x with wf := n })
          Urc.lift (Urc.weakDrop c f F.master)
          Urc.moveOut c f F.master
      else Urc.cloneOut c F.master) := by
    refine .lift (.fence _) fun F => .lift (.master _) fun x => .ite (.ite (.ite (.ite ?_ ?_) ?_) ?_) ?_
    · exact .moveOut _ _
    · exact .cloneOut _ _
    · exact .moveOut _ _
    · exact .lift (.uadd _ _) fun n => .lift (.putMaster _ _) fun _ => .lift (.weakDrop _) fun _ => .moveOut _ _
    · exact .cloneOut _ _
  exact fun w s' => h w s'

theorem Urc.envelop_leads {f g : Nat} {w w' : UrcWorld α} (h : Urc.envelop c f w = .ok g w') :
    ∃ F, w.fences[f]? = some (some F) ∧ w'.Leads g F.master := by
  unfold Urc.envelop at h
  simp only [M.bind_apply, Urc.fence] at h
  split at h <;> try contradiction
  rename_i F w1 e
  split at e <;> try contradiction
  rename_i F' hF
  cases e
  simp only [Urc.master] at h
  split at h <;> try contradiction
  rename_i x w1 e
  split at e <;> try contradiction
  rename_i x' hx
  cases e
  have hl := (List.getElem?_eq_some_iff.mp hx).1
  simp only [Urc.putMaster, M.modify_apply, Urc.allocFence] at h
  by_cases hg : c.grant w.tick c.size = true
  · simp only [hg, if_true, M.pure_apply] at h
    cases h
    exact ⟨F, hF, _, List.getElem?_concat_length, rfl, _, List.getElem?_set_self hl⟩
  · simp [hg] at h

/-- The handles' addresses are those of allocated masters, and of those that their fences lead to. -/
structure UrcKept (P : UrcPool α) (D : List Nat) : Prop where
  len : D.length = P.hands.length
  below : ∀ (i : Nat) (k : UrcHand), P.hands[i]? = some (some k) → k.at < P.w.fences.length
  there : ∀ (i : Nat) (k : UrcHand), P.hands[i]? = some (some k) → ∃ y, P.w.masters[D.getD i 0]? = some (some y)
  same : ∀ (i : Nat) (k : UrcHand) (F : UrcFence), P.hands[i]? = some (some k) →
    P.w.fences[k.at]? = some (some F) → F.master = D.getD i 0

theorem UrcKept.grow {P P' : UrcPool α} {D D' : List Nat} {f : Nat} (K : UrcKept P D) (g : UrcGrow f P.w P'.w)
    (hl : D'.length = P'.hands.length)
    (h : ∀ (i : Nat) (k : UrcHand), P'.hands[i]? = some (some k) →
      (∃ i' k', P.hands[i']? = some (some k') ∧ k'.at = k.at ∧ D'.getD i 0 = D.getD i' 0) ∨
      P'.w.Leads k.at (D'.getD i 0)) : UrcKept P' D' := by
  refine ⟨hl, fun i k hi => ?_, fun i k hi => ?_, fun i k F hi hF => ?_⟩
  · rcases h i k hi with ⟨i', k', h1, h2, h3⟩ | ⟨F, hF, -⟩
    · exact h2 ▸ Nat.lt_of_lt_of_le (K.below i' k' h1) g.fl
    · exact (List.getElem?_eq_some_iff.mp hF).1
  · rcases h i k hi with ⟨i', k', h1, h2, h3⟩ | ⟨F, hF, h1, h2⟩
    · obtain ⟨y, hy⟩ := K.there i' k' h1
      exact h3 ▸ g.master _ y hy
    · exact h2
  · rcases h i k hi with ⟨i', k', h1, h2, h3⟩ | ⟨F', hF', h1, -⟩
    · obtain ⟨F0, h0, e⟩ := g.old k.at F (h2 ▸ K.below i' k' h1) hF
      rw [← e, h3]
      exact K.same i' k' F0 h1 (h2 ▸ h0)
    · rw [hF] at hF'
      cases hF'
      exact h1

/-- Handles only go. -/
theorem UrcKept.less {P P' : UrcPool α} {D : List Nat} {f : Nat} (K : UrcKept P D) (g : UrcGrow f P.w P'.w)
    (hl : P'.hands.length = P.hands.length)
    (h : ∀ (i : Nat) (k : UrcHand), P'.hands[i]? = some (some k) →
      ∃ k', P.hands[i]? = some (some k') ∧ k'.at = k.at) : UrcKept P' D :=
  K.grow g (K.len.trans hl.symm) fun i k hi =>
    let ⟨k', h1, h2⟩ := h i k hi
    .inl ⟨i, k', h1, h2, rfl⟩

theorem UrcKept.same_hands {P : UrcPool α} {D : List Nat} {f : Nat} (K : UrcKept P D) {w' : UrcWorld α}
    (g : UrcGrow f P.w w') : UrcKept ⟨P.hands, w'⟩ D :=
  K.less g rfl fun _ k hi => ⟨k, hi, rfl⟩

theorem UrcKept.gone {P : UrcPool α} {D : List Nat} {f : Nat} (K : UrcKept P D) {w' : UrcWorld α}
    (g : UrcGrow f P.w w') (h : Nat) : UrcKept ⟨P.hands.set h none, w'⟩ D :=
  K.less g (by simp) fun i k hi => by
    simp only [List.getElem?_set] at hi
    split at hi
    · split at hi <;> cases hi
    · exact ⟨k, hi, rfl⟩

/-- A handle is put in, by one of another kind. -/
theorem UrcKept.kind {P : UrcPool α} {D : List Nat} {f : Nat} (K : UrcKept P D) {w' : UrcWorld α}
    (g : UrcGrow f P.w w') {h : Nat} {k k' : UrcHand} (hk : P.hands[h]? = some (some k)) (e : k.at = k'.at) :
    UrcKept ⟨P.hands.set h (some k'), w'⟩ D :=
  K.less g (by simp) fun i l hi => by
    simp only [List.getElem?_set] at hi
    split at hi
    · rename_i e'
      subst e'
      split at hi <;> cases hi
      exact ⟨k, hk, e⟩
    · exact ⟨l, hi, rfl⟩

theorem UrcKept.push {P : UrcPool α} {D : List Nat} {f : Nat} (K : UrcKept P D) {w' : UrcWorld α}
    (g : UrcGrow f P.w w') {k : UrcHand} {d : Nat}
    (hk : (∃ i' k', P.hands[i']? = some (some k') ∧ k'.at = k.at ∧ d = D.getD i' 0) ∨ w'.Leads k.at d) :
    UrcKept ⟨P.hands ++ [some k], w'⟩ (D ++ [d]) := by
  refine K.grow g (by simp [K.len]) fun i l hi => ?_
  rcases Nat.lt_trichotomy i P.hands.length with h | h | h
  · simp only [List.getElem?_append_left h] at hi
    refine .inl ⟨i, l, hi, rfl, ?_⟩
    simp [List.getD, List.getElem?_append_left (by rw [K.len]; exact h : i < D.length)]
  · subst h
    simp only [List.getElem?_concat_length] at hi
    cases hi
    have e : (D ++ [d]).getD P.hands.length 0 = d := by
      rw [← K.len]; simp
    rw [e]
    exact hk
  · rw [List.getElem?_eq_none (by simp; omega)] at hi
    cases hi

theorem UrcKept.swap {P : UrcPool α} {D : List Nat} {f : Nat} (K : UrcKept P D) {w' : UrcWorld α}
    (g : UrcGrow f P.w w') {h : Nat} {k : UrcHand} {d : Nat} (hk : w'.Leads k.at d) :
    UrcKept ⟨P.hands.set h (some k), w'⟩ (D.set h d) := by
  refine K.grow g (by simp [K.len]) fun i l hi => ?_
  simp only [List.getElem?_set] at hi
  split at hi
  · rename_i e
    subst e
    split at hi <;> cases hi
    rename_i hl
    refine .inr ?_
    have e : (D.set h d).getD h 0 = d := by simp [List.getD, K.len, hl]
    rw [e]
    exact hk
  · rename_i e
    refine .inl ⟨i, l, hi, rfl, ?_⟩
    simp [List.getD, List.getElem?_set_ne e]

theorem UrcPool.leadsTo_eq {P : UrcPool α} {q m : Nat} (h : P.w.Leads q m) : P.leadsTo q = m := by
  obtain ⟨F, hF, e, -⟩ := h
  simp [UrcPool.leadsTo, hF, e]

/-- Code on the memory, from a client: it returned or panicked. -/
theorem UrcPool.on_cases {m : M (UrcWorld α) β} {f : Nat} (T : UrcTame f m) {H : β → List (Option UrcHand)}
    {H' : List (Option UrcHand)} {out : β → UrcOut α} {P P' : UrcPool α}
    (h : (∃ o, UrcPool.on m H H' out P = .ok o P') ∨ UrcPool.on m H H' out P = .panic P') :
    (∃ a w', m P.w = .ok a w' ∧ UrcGrow f P.w w' ∧ P' = ⟨H a, w'⟩) ∨
    (∃ w', m P.w = .panic w' ∧ UrcGrow f P.w w' ∧ P' = ⟨H', w'⟩) := by
  unfold UrcPool.on at h
  cases e : m P.w with
  | ok a w' =>
    simp only [e] at h
    rcases h with ⟨o, h⟩ | h <;> cases h
    exact .inl ⟨a, w', rfl, (T P.w).1 a w' e, rfl⟩
  | panic w' =>
    simp only [e] at h
    rcases h with ⟨o, h⟩ | h <;> cases h
    exact .inr ⟨w', rfl, (T P.w).2 w' e, rfl⟩
  | abort => simp only [e] at h; rcases h with ⟨o, h⟩ | h <;> cases h
  | ub u => simp only [e] at h; rcases h with ⟨o, h⟩ | h <;> cases h

theorem UrcKept.look {m : M (UrcWorld α) β} {f : Nat} (T : UrcTame f m) {out : β → UrcOut α} {P P' : UrcPool α}
    {D : List Nat} (K : UrcKept P D)
    (h : (∃ o, UrcPool.look m out P = .ok o P') ∨ UrcPool.look m out P = .panic P') : UrcKept P' D := by
  rcases UrcPool.on_cases T h with ⟨a, w', -, g, rfl⟩ | ⟨w', -, g, rfl⟩ <;> exact K.same_hands g

theorem Urc.clone_at {f g : Nat} {w w' : UrcWorld α} (h : Urc.clone c f w = .ok g w') : g = f := by
  unfold Urc.clone at h
  rw [M.bind_apply] at h
  split at h <;> simp at h
  exact h.1.symm

theorem Urc.downgrade_at {f : Nat} {r : Nat × Nat} {w w' : UrcWorld α} (h : Urc.downgrade c f w = .ok r w') :
    r.1 = f := by
  unfold Urc.downgrade at h
  rw [M.bind_apply] at h
  split at h <;> try (simp at h; done)
  rw [M.bind_apply] at h
  split at h <;> simp at h
  rw [← h.1]

/-- What `make_mut` of a client does. -/
theorem UrcPool.makeMut_cases {h f : Nat} {g : α → α} {P P' : UrcPool α}
    (e : (∃ o, UrcPool.makeMut c h f g P = .ok o P') ∨ UrcPool.makeMut c h f g P = .panic P') :
    ∃ q w', P' = ⟨P.hands.set h (some (.urc q)), w'⟩ ∧ UrcGrow f P.w w' ∧
      (q = f ∧ (¬ ∃ o, UrcPool.makeMut c h f g P = .ok o P') ∨
        P.w.fences.length ≤ q ∧ ∃ k, P.w.masters.length ≤ k ∧ (q ≠ f → w'.Leads q k)) := by
  unfold UrcPool.makeMut at e ⊢
  have R := UrcRenews.makeMut (c := c) f P.w
  cases hm : Urc.makeMut c (f, P.w) with
  | ok a s' =>
    obtain ⟨q, w1⟩ := s'
    obtain ⟨g1, h1, k, h2, h3⟩ := (R (q, w1)).1 ⟨a, hm⟩
    simp only [hm] at e
    have W : UrcTame f (Urc.write q g) := .write g q
    rcases UrcPool.on_cases W e with ⟨b, w', -, g2, rfl⟩ | ⟨w', -, g2, rfl⟩
    · exact ⟨q, w', rfl, g1.trans g2, .inr ⟨h1, k, h2, fun hne => g2.leads (h3 hne) hne⟩⟩
    · exact ⟨q, w', rfl, g1.trans g2, .inr ⟨h1, k, h2, fun hne => g2.leads (h3 hne) hne⟩⟩
  | panic s' =>
    obtain ⟨q, w1⟩ := s'
    obtain ⟨g1, h1⟩ := (R (q, w1)).2 hm
    simp only [hm] at e
    rcases e with ⟨o, e⟩ | e <;> cases e
    refine ⟨q, w1, rfl, g1, h1.imp (fun e => ⟨e, fun ⟨o, x⟩ => nomatch x⟩) id⟩
  | abort => simp only [hm] at e; rcases e with ⟨o, e⟩ | e <;> cases e
  | ub u => simp only [hm] at e; rcases e with ⟨o, e⟩ | e <;> cases e

theorem UrcTame.clone {f : Nat} : UrcTame f (Urc.clone c f) := .bind .incStrong fun _ => .pure _

theorem UrcTame.downgrade {f : Nat} : UrcTame f (Urc.downgrade c f) :=
  .bind .incWeak fun _ => .bind (.fence _) fun _ => .pure _

theorem UrcTame.setMut {f : Nat} (x : α) : UrcTame f (do
    if ← Urc.getMut c f then do
      let old ← Urc.write f fun _ => x
      Pure.pure (some old)
    else Pure.pure none) :=
  .bind .getMut fun b => by
    cases b
    · exact .pure _
    · exact .bind (.write _ _) fun _ => .pure _

/-- Every call keeps the addresses right. -/
theorem UrcKept.step {P P' : UrcPool α} {D : List Nat} {cmd : UrcCmd α} (K : UrcKept P D) (hc : cmd.Callable P)
    (h : (∃ o, runUrc c cmd P = .ok o P') ∨ runUrc c cmd P = .panic P') : UrcKept P' (cmd.data P P' D) := by
  cases cmd with
  | new x =>
    simp only [runUrc] at h
    rcases UrcPool.on_cases (.new x (f := 0)) h with ⟨q, w', e, g, rfl⟩ | ⟨w', -, g, rfl⟩
    · obtain ⟨-, m, -, hl⟩ := Urc.new_fresh e
      simp only [UrcCmd.data, List.getElem?_concat_length]
      refine K.push g (.inr ?_)
      rw [UrcPool.leadsTo_eq hl]
      exact hl
    · simp only [UrcCmd.data, List.getElem?_eq_none (Nat.le_refl _)]
      exact K.same_hands g
  | clone h' =>
    obtain ⟨f, hf⟩ := hc
    simp only [runUrc, hf] at h
    rcases UrcPool.on_cases .clone h with ⟨q, w', e, g, rfl⟩ | ⟨w', -, g, rfl⟩
    · have e' := Urc.clone_at e
      subst e'
      simp only [UrcCmd.data, List.length_append, List.length_singleton, Nat.lt_add_one, if_true]
      exact K.push g (.inl ⟨h', _, hf, rfl, rfl⟩)
    · simp only [UrcCmd.data, Nat.lt_irrefl, if_false]
      exact K.same_hands g
  | downgrade h' =>
    obtain ⟨f, hf⟩ := hc
    simp only [runUrc, hf] at h
    rcases UrcPool.on_cases .downgrade h with ⟨q, w', e, g, rfl⟩ | ⟨w', -, g, rfl⟩
    · have e' := Urc.downgrade_at e
      simp only [UrcCmd.data, List.length_append, List.length_singleton, Nat.lt_add_one, if_true]
      exact K.push g (.inl ⟨h', _, hf, e'.symm, rfl⟩)
    · simp only [UrcCmd.data, Nat.lt_irrefl, if_false]
      exact K.same_hands g
  | envelop h' =>
    obtain ⟨f, hf⟩ := hc
    simp only [runUrc, hf] at h
    rcases UrcPool.on_cases .envelop h with ⟨q, w', e, g, rfl⟩ | ⟨w', -, g, rfl⟩
    · obtain ⟨F, hF, hl⟩ := Urc.envelop_leads e
      simp only [UrcCmd.data, List.length_append, List.length_singleton, Nat.lt_add_one, if_true]
      refine K.push g (.inr ?_)
      rw [← K.same h' _ F hf hF]
      exact hl
    · simp only [UrcCmd.data, Nat.lt_irrefl, if_false]
      exact K.same_hands g
  | drop h' =>
    obtain ⟨k, hk⟩ := hc
    cases k with
    | urc f =>
      simp only [runUrc, hk] at h
      rcases UrcPool.on_cases .drop h with ⟨q, w', e, g, rfl⟩ | ⟨w', -, g, rfl⟩ <;> exact K.gone g h'
    | weak f m =>
      simp only [runUrc, hk] at h
      rcases UrcPool.on_cases (.weakDrop m) h with ⟨q, w', e, g, rfl⟩ | ⟨w', -, g, rfl⟩ <;> exact K.gone g h'
    | fence f =>
      simp only [runUrc, hk] at h
      rcases UrcPool.on_cases .freeFence h with ⟨q, w', e, g, rfl⟩ | ⟨w', -, g, rfl⟩ <;> exact K.gone g h'
  | read h' =>
    obtain ⟨f, hf⟩ := hc
    simp only [runUrc, hf] at h
    exact K.look .asRef h
  | strongCount h' =>
    rcases hc with ⟨f, hf⟩ | ⟨f, hf⟩ <;>
    · simp only [runUrc, hf] at h
      exact K.look (.fence f (f := f)) h
  | weakCount h' =>
    rcases hc with ⟨f, hf⟩ | ⟨f, hf⟩ <;>
    · simp only [runUrc, hf] at h
      exact K.look (.fence f (f := f)) h
  | isSole h' =>
    obtain ⟨f, hf⟩ := hc
    simp only [runUrc, hf] at h
    exact K.look .isSole h
  | setMut h' x =>
    obtain ⟨f, hf⟩ := hc
    simp only [runUrc, hf] at h
    exact K.look (.setMut x) h
  | makeMut h' g =>
    obtain ⟨f, hf⟩ := hc
    simp only [runUrc, hf] at h
    obtain ⟨q, w', rfl, hg, hq⟩ := UrcPool.makeMut_cases h
    have hl := (List.getElem?_eq_some_iff.mp hf).1
    simp only [UrcCmd.data, hf, List.getElem?_set_self hl]
    by_cases e : f = q
    · rw [if_pos e]
      exact K.kind hg hf e
    · rw [if_neg e]
      rcases hq with ⟨hq, -⟩ | ⟨-, k, -, hk⟩
      · exact absurd hq.symm e
      · have hk := hk (Ne.symm e)
        refine K.swap hg ?_
        rw [UrcPool.leadsTo_eq hk]
        exact hk
  | tryUnwrap h' =>
    obtain ⟨f, hf⟩ := hc
    simp only [runUrc, hf] at h
    rcases UrcPool.on_cases .tryUnwrap h with ⟨q, w', e, g, rfl⟩ | ⟨w', -, g, rfl⟩
    · cases q with
      | none => exact K.same_hands g
      | some v => exact K.gone g h'
    · exact K.gone g h'
  | intoFence h' =>
    obtain ⟨f, hf⟩ := hc
    simp only [runUrc, hf] at h
    rcases UrcPool.on_cases .intoFence h with ⟨q, w', e, g, rfl⟩ | ⟨w', -, g, rfl⟩
    · cases q with
      | false => exact K.same_hands g
      | true => exact K.kind g hf rfl
    · exact K.same_hands g
  | fromFence h' =>
    obtain ⟨f, hf⟩ := hc
    obtain ⟨u, hu⟩ := Urc.fromFence_ub c f P.w
    simp only [runUrc, hf, UrcPool.on, hu] at h
    rcases h with ⟨o, h⟩ | h <;> cases h

theorem UrcHappens.lands {P P' : UrcPool α} {cmd : UrcCmd α} {o : Option (UrcOut α)} (h : UrcHappens c P cmd o P') :
    (∃ o, runUrc c cmd P = .ok o P') ∨ runUrc c cmd P = .panic P' := by
  cases h with
  | ret h => exact .inl ⟨_, h⟩
  | panic h => exact .inr h

theorem UrcHolds.kept {hist : List (UrcCmd α × Option (UrcOut α))} {P : UrcPool α} {D : List Nat}
    (h : UrcHolds c hist P D) : UrcKept P D := by
  induction h with
  | start => exact ⟨rfl, fun i k h => by simp [UrcPool.start] at h, fun i k h => by simp [UrcPool.start] at h,
      fun i k F h => by simp [UrcPool.start] at h⟩
  | step _ hc hh ih => exact ih.step hc hh.lands

/-- Every history has its addresses. -/
theorem UrcReaches.keeps {hist : List (UrcCmd α × Option (UrcOut α))} {P : UrcPool α}
    (h : UrcReaches c (fun P cmd => cmd.Callable P) hist P) : ∃ D, UrcHolds c hist P D := by
  induction h with
  | start => exact ⟨_, .start⟩
  | step _ hc hh ih =>
    obtain ⟨D, ih⟩ := ih
    exact ⟨_, ih.step hc hh⟩

end Lokky
