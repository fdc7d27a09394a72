import Verif.Proofs.UrcStep

/-!
# Calls of `Urc` keep what holds between calls (continued)
-/

namespace Lokky
variable {α : Type} {c : Cfg α}

theorem set_same {β : Type} {l : List β} {i : Nat} {a : β} (h : l[i]? = some a) : l.set i a = l := by
  obtain ⟨hl, e⟩ := List.getElem?_eq_some_iff.mp h
  rw [← e]
  exact List.set_getElem_self hl

namespace UrcOk
variable {n : Nat} {w : UrcWorld α} {C : UrcHand → Nat}

/-- A handle is given up without a change to its fence. -/
theorem less (I : UrcOk n w C) {k : UrcHand} {F : UrcFence} (hF : w.fences[k.at]? = some (some F))
    (hs : lessHand C k (.urc k.at) + lessHand C k (.fence k.at) = 0)
    (hw : ∀ j : UrcHand, 0 < lessHand C k j → j.at = k.at → F.weak = lessHand C k (.weak k.at F.master)) :
    UrcOk n w (lessHand C k) := by
  have := I.lessFence hF (F' := F) rfl (fun h => by omega) hw
  rwa [set_same hF] at this

theorem weakDrop (I : UrcOk n w C) {f m : Nat} (hk : 0 < C (.weak f m)) :
    ∃ w', Urc.weakDrop c f m w = .ok () w' ∧ UrcOk n w' (lessHand C (.weak f m)) ∧
      UrcKeeps (fun _ => True) w w' := by
  obtain ⟨F, hF⟩ := I.live _ hk
  have K := I.fence _ F hF
  obtain rfl : F.master = m := K.fits _ hk rfl
  obtain ⟨x, hx⟩ := I.hasMaster _ _ hF
  have Q := I.master _ _ hx
  simp only [UrcHand.at] at hF K
  have e2 : F.weak = C (.weak f F.master) := K.weak _ hk rfl
  have hml := (List.getElem?_eq_some_iff.mp hx).1
  by_cases hd : F.weak = 1 ∧ F.strong = 0
  · have hU : C (.urc f) + C (.fence f) = 0 := by
      refine Nat.eq_zero_of_not_pos fun h => ?_
      have := K.strong h
      omega
    have hr : Urc.weakDrop c f F.master w = .ok () { w with
        masters := w.masters.set F.master (some { x with wf := Urc.wrapSub c x.wf }) } := by
      rw [Urc.weakDrop, M.bind_apply, Urc.fence_eq hF]
      simp only [hd, and_self, if_true]
      rw [M.bind_apply]
      simp only [Urc.dropFence, M.pure_apply]
      rw [M.bind_apply, Urc.master_eq hx]
      simp only [Urc.putMaster, M.modify, M.bind_apply]
      split
      · simp [M.bind_apply, Urc.dropMaster, Urc.master, hml]
      · rfl
    refine ⟨_, hr, ?_, UrcKeeps.setMaster hx rfl rfl⟩
    have J := I.setMaster (x' := { x with wf := Urc.wrapSub c x.wf }) hx (Nat.le_refl n)
      ⟨Q.few, Q.alive, Q.dead, fun ha hsent k G ho hk' hG hmm => by
        have h1 := Q.alone ha hsent k G ho hk' hG hmm
        have h2 : k.at = f := I.only hk hF hx ha h1.1 hk' hG hmm
        cases k with
        | urc g => simp only [UrcHand.at] at h2; subst h2; omega
        | fence g => simp only [UrcHand.at] at h2; subst h2; omega
        | weak g q => exact ho.elim⟩
    refine J.less (F := F) hF ?_ (fun j hj ha => ?_)
    · show lessHand C _ (.urc f) + lessHand C _ (.fence f) = 0
      rw [lessHand_ne C (by simp), lessHand_ne C (by simp)]
      exact hU
    · exfalso
      cases j with
      | urc g =>
        simp only [UrcHand.at] at ha
        subst ha
        rw [lessHand_ne C (by simp)] at hj
        omega
      | fence g =>
        simp only [UrcHand.at] at ha
        subst ha
        rw [lessHand_ne C (by simp)] at hj
        omega
      | weak g q =>
        simp only [UrcHand.at] at ha
        subst ha
        have h1 : F.master = q := K.fits (.weak g q) (by
          have := lessHand_le C (.weak g F.master) (.weak g q); omega) rfl
        subst h1
        rw [lessHand_self] at hj
        omega
  · have hr : Urc.weakDrop c f F.master w = .ok () { w with
        fences := w.fences.set f (some { F with weak := F.weak - 1 }) } := by
      rw [Urc.weakDrop, M.bind_apply, Urc.fence_eq hF]
      simp only []
      rw [if_neg hd]
      exact Urc.decWeak_eq hF (by omega)
    refine ⟨_, hr, ?_, UrcKeeps.setFence hF rfl⟩
    refine I.lessFence (k := .weak f F.master) (F := F) hF rfl (fun h => ?_) (fun j _ _ => ?_)
    · simp only [UrcHand.at] at h ⊢
      rw [lessHand_ne C (by simp), lessHand_ne C (by simp)] at h ⊢
      exact K.strong h
    · show F.weak - 1 = lessHand C (.weak f F.master) (.weak f F.master)
      rw [lessHand_self]
      omega

/-- Dropping a fence that was taken out of a `Urc`. -/
theorem fenceDrop (I : UrcOk n w C) {f : Nat} (hk : 0 < C (.fence f)) :
    ∃ w', Urc.freeFence f w = .ok () w' ∧ UrcOk n w' (lessHand C (.fence f)) ∧
      UrcKeeps (fun g => 0 < C (.urc g)) w w' := by
  obtain ⟨F, hF⟩ := I.live _ hk
  simp only [UrcHand.at] at hF
  have K := I.fence _ F hF
  obtain ⟨a, b, d⟩ := K.fence hk
  have hl := (List.getElem?_eq_some_iff.mp hF).1
  refine ⟨_, by simp only [Urc.freeFence, hF], I.release hl (fun k hk => lessHand_at C hk) ?_,
    UrcKeeps.release fun g hg e => by subst e; omega⟩
  intro k hkf
  cases k with
  | urc g => simp only [UrcHand.at] at hkf; subst hkf; rw [lessHand_ne C (by simp)]; exact b
  | fence g => simp only [UrcHand.at] at hkf; subst hkf; rw [lessHand_self]; omega
  | weak g m =>
    simp only [UrcHand.at] at hkf
    subst hkf
    rw [lessHand_ne C (by simp)]
    refine Nat.eq_zero_of_not_pos fun h => ?_
    have h1 : F.master = m := K.fits _ h rfl
    subst h1
    omega

theorem new (I : UrcOk n w C) (hn : 1 ≤ n) (x : α) :
    match Urc.new c x w with
    | .ok f w' => UrcOk n w' (moreHand C (.urc f)) ∧ UrcKeeps (fun _ => True) w w' ∧
        f = w.fences.length ∧ w'.fences = w.fences ++ [some ⟨1, 0, w.masters.length⟩] ∧
        w'.masters = w.masters ++ [some ⟨1, 0, x, true, 0⟩]
    | .panic w' => UrcOk n w' C ∧ UrcKeeps (fun _ => True) w w' ∧ w'.fences = w.fences ∧ ¬ w.Granted c
    | _ => False := by
  rw [Urc.new, M.bind_apply]
  unfold Urc.allocMaster
  by_cases h1 : c.grant w.tick c.size = true
  · rw [if_pos h1]
    simp only []
    rw [M.bind_apply]
    unfold Urc.allocFence
    have J := I.pushMaster (x := ⟨1, 0, x, true, 0⟩) hn
    by_cases h2 : c.grant (w.tick + 1) c.size = true
    · rw [if_pos h2]
      simp only [M.pure_apply]
      refine ⟨?_, ?_, trivial, trivial, trivial⟩
      · refine UrcOk.world (J.pushFence (m := w.masters.length) (x := ⟨1, 0, x, true, 0⟩) (by simp) rfl
          ⟨[], by simp, fun k F hk hF hm => ?_⟩ (fun _ => ⟨rfl, rfl⟩) hn (fun k => rfl)) rfl rfl
        obtain ⟨y, hy⟩ := I.hasMaster _ F hF
        have := (List.getElem?_eq_some_iff.mp hy).1
        omega
      · exact (UrcKeeps.pushMaster (x := some ⟨1, 0, x, true, 0⟩)).trans
          ((UrcKeeps.pushFence (F := some ⟨1, 0, w.masters.length⟩)).trans (S' := fun _ => True)
            (UrcKeeps.same rfl rfl) fun g h => h) fun g h => h
    · rw [if_neg h2]
      exact ⟨J.world rfl rfl, (UrcKeeps.pushMaster (x := some ⟨1, 0, x, true, 0⟩)).trans (S' := fun _ => True)
        (UrcKeeps.same rfl rfl) fun g h => h, rfl, fun h => h2 h.2⟩
  · rw [if_neg h1]
    exact ⟨I.world rfl rfl, UrcKeeps.same rfl rfl, rfl, fun h => h1 h.1⟩

theorem envelop (I : UrcOk n w C) {f : Nat} (hk : 0 < C (.urc f)) (hn : n < c.usizeMax) :
    match Urc.envelop c f w with
    | .ok g w' => UrcOk (n + 1) w' (moreHand C (.urc g)) ∧ UrcKeeps (fun _ => True) w w' ∧
        (∀ v, UrcSees w f v → UrcSees w' g v)
    | .panic w' => UrcOk (n + 1) w' C ∧ UrcKeeps (fun _ => True) w w'
    | _ => False := by
  obtain ⟨F, x, hF, hx, ha, hs⟩ := I.owner hk trivial
  simp only [UrcHand.at] at hF
  have Q := I.master _ _ hx
  have hw : Urc.wrapAdd c x.sf = x.sf + 1 := by
    have := Q.few
    rw [Urc.wrapAdd, if_neg (by omega)]
  have hml := (List.getElem?_eq_some_iff.mp hx).1
  obtain ⟨L, hL, hmem⟩ := Q.alive ha
  have J := I.setMaster (x' := { x with sf := x.sf + 1, sent := x.sent + 1 }) hx (Nat.le_succ n)
    ⟨Nat.succ_le_succ Q.few, fun h => ⟨L, Nat.le_succ_of_le hL, hmem⟩, Q.dead, fun _ h => by cases h⟩
  have hk1 : UrcKeeps (fun _ => True) w { w with
      masters := w.masters.set F.master (some { x with sf := x.sf + 1, sent := x.sent + 1 }) } :=
    UrcKeeps.setMaster hx rfl rfl
  rw [Urc.envelop, M.bind_apply, Urc.fence_eq hF]
  simp only []
  rw [M.bind_apply, Urc.master_eq hx]
  simp only [M.bind_apply, Urc.putMaster, M.modify, hw]
  unfold Urc.allocFence
  by_cases h1 : c.grant w.tick c.size = true
  · rw [if_pos h1]
    simp only [M.pure_apply]
    refine ⟨UrcOk.world (J.pushFence (m := F.master) (x := { x with sf := x.sf + 1, sent := x.sent + 1 })
      (by simp [hml]) ha ⟨L, Nat.succ_le_succ hL, hmem⟩ (fun h => by cases h) (by omega) (fun k => rfl)) rfl rfl,
      hk1.trans ((UrcKeeps.pushFence (F := some ⟨1, 0, F.master⟩)).trans (S' := fun _ => True)
        (UrcKeeps.same rfl rfl) fun g h => h) fun g h => h, ?_⟩
    rintro v ⟨G, y, h2, h3, h4, h5⟩
    obtain rfl : F = G := Option.some.inj (Option.some.inj (hF.symm.trans h2))
    obtain rfl : x = y := Option.some.inj (Option.some.inj (hx.symm.trans h3))
    exact ⟨⟨1, 0, F.master⟩, { x with sf := x.sf + 1, sent := x.sent + 1 }, by simp, by simp [hml], ha, h5⟩
  · rw [if_neg h1]
    exact ⟨J.world rfl rfl, hk1.trans (S' := fun _ => True) (UrcKeeps.same rfl rfl) fun g h => h⟩

/-- `get_mut`: if it gives access there is no other handle of the value; if the value was never sent, it
gives access to a handle that is the only one. -/
theorem getMut (I : UrcOk n w C) {f : Nat} (hk : 0 < C (.urc f)) :
    ∃ b w', Urc.getMut c f w = .ok b w' ∧ UrcOk n w' C ∧ UrcKeeps (fun _ => True) w w' ∧
      w'.fences = w.fences ∧
      ∃ F x, w.fences[f]? = some (some F) ∧ w.masters[F.master]? = some (some x) ∧
      (b = true → x.sf = 1 ∧ C (.urc f) = 1 ∧ C (.weak f F.master) = 0 ∧
        w'.masters[F.master]? = some (some x)) ∧
      (x.sent = 0 → C (.urc f) = 1 → C (.weak f F.master) = 0 → b = true) := by
  obtain ⟨F, x, hF, hx, ha, hs⟩ := I.owner hk trivial
  simp only [UrcHand.at] at hF
  obtain ⟨e1, e2, e3⟩ := I.atUrc hk hF
  have Q := I.master _ _ hx
  have hml := (List.getElem?_eq_some_iff.mp hx).1
  by_cases h0 : x.wf = 0
  · by_cases h1 : x.sf = 1
    · refine ⟨F.strong == 1 && F.weak == 0, w, ?_, I, fun g v _ h => h, rfl, F, x, hF, hx, ?_, ?_⟩
      · rw [Urc.getMut, M.bind_apply, Urc.fence_eq hF]
        simp only []
        rw [M.bind_apply, Urc.master_eq hx]
        simp only [h0, if_true]
        rw [M.bind_apply]
        simp only [Urc.putMaster, M.modify]
        rw [M.bind_apply, Urc.master_eq (x := { x with wf := c.usizeMax }) (by simp [hml])]
        simp only [h1, if_true, M.bind_apply, M.modify, M.pure_apply, List.set_set]
        rw [show ({ sf := 1, wf := 0, val := x.val, alive := x.alive, sent := x.sent } : UrcMaster α) = x from by
          rw [← h1, ← h0]]
        rw [set_same hx]
      · intro h
        simp only [Bool.and_eq_true, beq_iff_eq] at h
        exact ⟨h1, by omega, by omega, hx⟩
      · intro _ h2 h3
        simp only [Bool.and_eq_true, beq_iff_eq]
        omega
    · refine ⟨false, { w with masters := w.masters.set F.master (some { x with wf := c.usizeMax }) }, ?_, ?_,
        UrcKeeps.setMaster hx rfl rfl, rfl, F, x, hF, hx, (by simp), ?_⟩
      · rw [Urc.getMut, M.bind_apply, Urc.fence_eq hF]
        simp only []
        rw [M.bind_apply, Urc.master_eq hx]
        simp only [h0, if_true]
        rw [M.bind_apply]
        simp only [Urc.putMaster, M.modify]
        rw [M.bind_apply, Urc.master_eq (x := { x with wf := c.usizeMax }) (by simp [hml])]
        simp only []
        rw [if_neg h1]
        rfl
      · exact I.setMaster hx (Nat.le_refl n) ⟨Q.few, Q.alive, Q.dead, fun ha' hsent k G ho hk' hG hmm =>
          (h1 (Q.alone ha hsent k G ho hk' hG hmm).1).elim⟩
      · intro hsent
        exact (h1 (Q.alone ha hsent (.urc f) F trivial hk hF rfl).1).elim
  · refine ⟨false, w, ?_, I, fun g v _ h => h, rfl, F, x, hF, hx, (by simp), ?_⟩
    · rw [Urc.getMut, M.bind_apply, Urc.fence_eq hF]
      simp only []
      rw [M.bind_apply, Urc.master_eq hx]
      simp only []
      rw [if_neg h0]
      rfl
    · intro hsent
      exact (h0 (Q.alone ha hsent (.urc f) F trivial hk hF rfl).2).elim

/-- Writing through the only handle of a value. -/
theorem write (I : UrcOk n w C) {f : Nat} (hk : C (.urc f) = 1) {F : UrcFence} {x : UrcMaster α}
    (hF : w.fences[f]? = some (some F)) (hx : w.masters[F.master]? = some (some x)) (hs : x.sf = 1)
    (ha : x.alive = true) (g : α → α) :
    ∃ w', Urc.write f g w = .ok x.val w' ∧ UrcOk n w' C ∧ UrcSees w' f (g x.val) ∧
      UrcKeeps (fun h => 0 < lessHand C (.urc f) (.urc h)) w w' ∧
      w'.fences[f]? = some (some F) ∧ w'.masters[F.master]? = some (some { x with val := g x.val }) := by
  have Q := I.master _ _ hx
  have hml := (List.getElem?_eq_some_iff.mp hx).1
  refine ⟨{ w with masters := w.masters.set F.master (some { x with val := g x.val }) }, ?_, ?_, ?_, ?_, hF,
    by simp [hml]⟩
  · rw [Urc.write, M.bind_apply, Urc.fence_eq hF]
    simp only []
    rw [M.bind_apply, Urc.data_eq hx ha]
    simp only []
    rw [M.bind_apply, Urc.master_eq hx]
    rfl
  · exact I.setMaster hx (Nat.le_refl n) ⟨Q.few, Q.alive, Q.dead, Q.alone⟩
  · exact ⟨F, { x with val := g x.val }, hF, by simp [hml], ha, rfl⟩
  · refine UrcKeeps.setMaster_other fun h G hh hG hm => ?_
    have h1 : 0 < C (.urc h) := by have := lessHand_le C (.urc f) (.urc h); omega
    have h2 : h = f := I.only (k := .urc f) (by omega) hF hx ha hs h1 hG hm
    subst h2
    rw [lessHand_self] at hh
    omega

/-- `try_unwrap` as permitted. -/
theorem tryUnwrap (I : UrcOk n w C) {f : Nat} (hk : 0 < C (.urc f)) {F : UrcFence} {x : UrcMaster α}
    (hF : w.fences[f]? = some (some F)) (hx : w.masters[F.master]? = some (some x))
    (hp : x.sf ≠ 1 ∨ (F.strong = 1 ∧ F.weak ≠ 0)) :
    (x.sf ≠ 1 ∧ Urc.tryUnwrap f w = .ok none w) ∨
    (x.sf = 1 ∧ C (.urc f) = 1 ∧ ∃ w', Urc.tryUnwrap f w = .ok (some x.val) w' ∧
      UrcOk n w' (lessHand C (.urc f)) ∧ UrcKeeps (fun g => 0 < lessHand C (.urc f) (.urc g)) w w') := by
  by_cases h1 : x.sf = 1
  · right
    have ha : x.alive = true := by
      obtain ⟨F', x', hF', hx', ha, _⟩ := I.owner hk trivial
      obtain rfl : F = F' := Option.some.inj (Option.some.inj (hF.symm.trans hF'))
      obtain rfl : x = x' := Option.some.inj (Option.some.inj (hx.symm.trans hx'))
      exact ha
    obtain ⟨hs, hw⟩ := hp.resolve_left (fun h => h h1)
    obtain ⟨e1, e2, e3⟩ := I.atUrc hk hF
    have hml := (List.getElem?_eq_some_iff.mp hx).1
    have hz : ∀ g G, 0 < lessHand C (.urc f) (.urc g) → w.fences[g]? = some (some G) → G.master ≠ F.master := by
      intro g G hg hG hm
      have h2 : 0 < C (.urc g) := by have := lessHand_le C (.urc f) (.urc g); omega
      have h3 : g = f := I.only (k := .urc f) hk hF hx ha h1 h2 hG hm
      subst h3
      rw [lessHand_self] at hg
      omega
    refine ⟨h1, by omega, { w with masters := w.masters.set F.master (some { x with sf := 0, alive := false }) },
      ?_, ?_, UrcKeeps.setMaster_other hz⟩
    · rw [Urc.tryUnwrap, M.bind_apply, Urc.fence_eq hF]
      simp only []
      rw [M.bind_apply, Urc.master_eq hx]
      simp only [h1, if_true]
      rw [M.bind_apply]
      simp only [Urc.putMaster, M.modify]
      rw [if_neg (by simp [hs])]
      rw [M.bind_apply, Urc.data_eq (x := { x with sf := 0 }) (by simp [hml]) ha]
      simp only []
      rw [M.bind_apply, Urc.master_eq (x := { x with sf := 0 }) (by simp [hml])]
      simp only [M.bind_apply, M.modify, List.set_set]
      rw [if_neg hw]
      rfl
    · have J := I.less (k := .urc f) hF (by
        show lessHand C (.urc f) (.urc f) + lessHand C (.urc f) (.fence f) = 0
        rw [lessHand_self, lessHand_ne C (by simp)]
        omega) (fun j _ _ => by
        rw [lessHand_ne C (by simp)]
        exact e2)
      refine J.setMaster hx (Nat.le_refl n) ⟨Nat.zero_le n, (by simp), fun _ k G ho hG hmm => ?_, (by simp)⟩
      refine Nat.eq_zero_of_not_pos fun hpos => ?_
      have h2 : 0 < C k := by have := lessHand_le C (.urc f) k; omega
      have h3 : k.at = f := I.only (k := .urc f) hk hF hx ha h1 h2 hG hmm
      cases k with
      | urc g => simp only [UrcHand.at] at h3; subst h3; rw [lessHand_self] at hpos; omega
      | fence g => simp only [UrcHand.at] at h3; subst h3; omega
      | weak g m => exact ho
  · left
    refine ⟨h1, ?_⟩
    rw [Urc.tryUnwrap, M.bind_apply, Urc.fence_eq hF]
    simp only []
    rw [M.bind_apply, Urc.master_eq hx]
    simp only []
    rw [if_neg h1]
    rfl

/-- `try_into_fence`. -/
theorem intoFence (I : UrcOk n w C) {f : Nat} (hk : 0 < C (.urc f)) :
    ∃ F, w.fences[f]? = some (some F) ∧
    ((C (.urc f) = 1 ∧ C (.weak f F.master) = 0 ∧ Urc.intoFence f w = .ok true w ∧
      UrcOk n w (moreHand (lessHand C (.urc f)) (.fence f))) ∨
    (¬ (C (.urc f) = 1 ∧ C (.weak f F.master) = 0) ∧ Urc.intoFence f w = .ok false w)) := by
  obtain ⟨F, x, hF, hx, ha, hs⟩ := I.owner hk trivial
  simp only [UrcHand.at] at hF
  obtain ⟨e1, e2, e3⟩ := I.atUrc hk hF
  have K := I.fence _ F hF
  have hr : Urc.intoFence f w = .ok (F.strong == 1 && F.weak == 0) w := by
    rw [Urc.intoFence, M.bind_apply, Urc.fence_eq hF]
    rfl
  refine ⟨F, hF, ?_⟩
  by_cases h : C (.urc f) = 1 ∧ C (.weak f F.master) = 0
  · refine Or.inl ⟨h.1, h.2, ?_, ?_⟩
    · rw [hr, show (F.strong == 1 && F.weak == 0) = true by simp; omega]
    · have c1 : moreHand (lessHand C (.urc f)) (.fence f) (.urc f) = 0 := by
        rw [moreHand_ne _ (by simp), lessHand_self]; omega
      have c2 : moreHand (lessHand C (.urc f)) (.fence f) (.fence f) = 1 := by
        rw [moreHand_self, lessHand_ne C (by simp)]; omega
      have c3 : ∀ m, moreHand (lessHand C (.urc f)) (.fence f) (.weak f m) = C (.weak f m) := by
        intro m; rw [moreHand_ne _ (by simp), lessHand_ne C (by simp)]
      have := I.setFence (C' := moreHand (lessHand C (.urc f)) (.fence f)) hF rfl
        (fun k hk => by rw [moreHand_at _ hk, lessHand_at C hk]) (fun k => ?_)
        ⟨fun k hk' ha' => ?_, fun _ => by omega, fun k _ _ => by rw [c3]; exact e2, fun _ => ⟨c2, c1, by rw [c3]; exact h.2⟩⟩
        (fun k _ _ => ⟨.urc f, rfl, hk⟩) (fun k _ _ _ => ⟨.urc f, rfl, trivial, hk⟩)
      · rwa [set_same hF] at this
      · by_cases e : k = .fence f
        · subst e; rw [c2]; have := I.small (.urc f); omega
        · rw [moreHand_ne _ e]
          have := lessHand_le C (.urc f) k
          have := I.small k
          omega
      · cases k with
        | urc g => trivial
        | fence g => trivial
        | weak g m =>
          simp only [UrcHand.at] at ha'
          subst ha'
          rw [c3] at hk'
          exact K.fits _ hk' rfl
  · refine Or.inr ⟨h, ?_⟩
    rw [hr, show (F.strong == 1 && F.weak == 0) = false by
      rw [Bool.eq_false_iff]; simp only [ne_eq, Bool.and_eq_true, beq_iff_eq]; omega]

end UrcOk

end Lokky
