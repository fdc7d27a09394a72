import Verif.Proofs.UrcUse

/-!
# `make_mut`
-/

namespace Lokky
variable {α : Type} {c : Cfg α}

/-- Memory after a value was moved out of the master of `f` into a new one. -/
def urcMoved (w : UrcWorld α) (f : Nat) (F : UrcFence) (x : UrcMaster α) (u k s : Nat) : UrcWorld α where
  masters := w.masters.set F.master (some { x with sf := 0, alive := false, wf := k })
    ++ [some ⟨1, 0, x.val, true, 0⟩]
  fences := w.fences.set f (some { F with strong := s, weak := u }) ++ [some ⟨1, 0, w.masters.length⟩]
  tick := w.tick + 2
  calls := w.calls
  dropped := w.dropped

namespace Urc
variable {w : UrcWorld α} {f : Nat} {F : UrcFence} {x : UrcMaster α}

theorem lift_ok {β : Type} {m : M (UrcWorld α) β} {a : β} {w w' : UrcWorld α} {q : Nat} (h : m w = .ok a w') :
    lift m (q, w) = .ok a (q, w') := by
  simp [lift, h]

theorem new_granted (hg : w.Granted c) (v : α) :
    new c v w = .ok w.fences.length { w with
      masters := w.masters ++ [some ⟨1, 0, v, true, 0⟩]
      fences := w.fences ++ [some ⟨1, 0, w.masters.length⟩]
      tick := w.tick + 2 } := by
  simp [new, M.bind_apply, allocMaster, allocFence, hg.1, hg.2]

/-- The move in `make_mut` up to the assignment. -/
theorem moveOut_upto (hF : w.fences[f]? = some (some F)) (hx : w.masters[F.master]? = some (some x))
    (ha : x.alive = true) (hg : w.Granted c) :
    moveOut c f F.master (f, w) = replace c w.fences.length (f, urcMoved w f F x F.weak x.wf 0) := by
  have hl := (List.getElem?_eq_some_iff.mp hF).1
  have hml := (List.getElem?_eq_some_iff.mp hx).1
  have hg' : UrcWorld.Granted c { w with
      fences := w.fences.set f (some { F with strong := 0 })
      masters := w.masters.set F.master (some { x with sf := 0 }) } := hg
  rw [moveOut, M.bind_apply, lift_ok (data_eq hx ha)]
  simp only []
  rw [M.bind_apply, lift_ok (fence_eq hF)]
  simp only []
  rw [M.bind_apply, lift_ok (w := w) (m := putFence f { F with strong := 0 }) rfl]
  simp only []
  rw [M.bind_apply, lift_ok (master_eq (x := x) (by simpa using hx))]
  simp only []
  rw [M.bind_apply, lift_ok (m := putMaster F.master { x with sf := 0 }) rfl]
  simp only []
  rw [M.bind_apply, lift_ok (new_granted hg' x.val)]
  simp only []
  rw [M.bind_apply, lift_ok (master_eq (x := { x with sf := 0 }) (by
    simp only []
    rw [List.getElem?_append_left (by simpa using hml), List.getElem?_set_self hml]))]
  simp only []
  rw [M.bind_apply, lift_ok (m := putMaster F.master { x with sf := 0, alive := false }) rfl]
  simp only [List.set_append_left _ _ (show F.master < (w.masters.set F.master (some { x with sf := 0 })).length by
    simpa using hml), List.set_set, List.length_set, urcMoved]

/-- The assignment in a release build. -/
theorem replace_release (hd : c.debug = false) {q : Nat} (hF : w.fences[f]? = some (some F)) (h0 : F.strong = 0) :
    replace c q (f, w) =
      .ok () (q, { w with fences := w.fences.set f (some { F with strong := c.usizeMax }) }) := by
  have hdrop : Urc.drop c f w = .ok () { w with
      fences := w.fences.set f (some { F with strong := c.usizeMax }) } := by
    rw [Urc.drop, M.bind_apply, fence_eq hF]
    simp only []
    rw [if_neg (by omega)]
    exact decStrong_wrap hF h0 hd
  simp [replace, M.andAlways, M.onUnwind, M.seq, M.bind_apply, lift, hdrop, M.modify]

/-- The assignment in a debug build. -/
theorem replace_debug (hd : c.debug = true) {q : Nat} (hF : w.fences[f]? = some (some F)) (h0 : F.strong = 0) :
    replace c q (f, w) = .panic (q, w) := by
  have hdrop : Urc.drop c f w = .panic w := by
    rw [Urc.drop, M.bind_apply, fence_eq hF]
    simp only []
    rw [if_neg (by omega)]
    exact decStrong_debug hF h0 hd
  simp [replace, M.andAlways, M.onUnwind, M.seq, M.bind_apply, lift, hdrop, M.modify]

theorem moveOut_release (hd : c.debug = false) (hF : w.fences[f]? = some (some F))
    (hx : w.masters[F.master]? = some (some x)) (ha : x.alive = true) (hg : w.Granted c) :
    moveOut c f F.master (f, w) =
      .ok () (w.fences.length, urcMoved w f F x F.weak x.wf c.usizeMax) := by
  have hl := (List.getElem?_eq_some_iff.mp hF).1
  rw [moveOut_upto hF hx ha hg, replace_release (F := { F with strong := 0 }) hd (by
    simp only [urcMoved]
    rw [List.getElem?_append_left (by simpa using hl), List.getElem?_set_self hl]) rfl]
  simp only [urcMoved]
  rw [List.set_append_left _ _ (by simpa using hl), List.set_set]

theorem makeMut_unfold (hF : w.fences[f]? = some (some F)) (hx : w.masters[F.master]? = some (some x)) :
    makeMut c (f, w) =
      (if x.sf = 1 then
        if F.weak ≠ 0 then
          if x.wf = 1 then
            if F.strong = 1 then moveOut c f F.master else cloneOut c F.master
          else moveOut c f F.master
        else do
          let n ← lift (uadd c x.wf 1)
          lift (putMaster F.master { x with wf := n })
          lift (weakDrop c f F.master)
          moveOut c f F.master
      else cloneOut c F.master) (f, w) := by
  rw [makeMut, M.bind_apply]
  simp only [M.get_apply]
  rw [M.bind_apply]
  simp only [lift, fence_eq hF]
  rw [M.bind_apply]
  simp only [lift, master_eq hx]

theorem makeMut_clone (hF : w.fences[f]? = some (some F)) (hx : w.masters[F.master]? = some (some x))
    (h : x.sf ≠ 1 ∨ (x.wf = 1 ∧ F.weak ≠ 0 ∧ F.strong ≠ 1)) :
    makeMut c (f, w) = cloneOut c F.master (f, w) := by
  rw [makeMut_unfold hF hx]
  rcases h with h | ⟨h1, h2, h3⟩
  · rw [if_neg h]
  · by_cases h : x.sf = 1
    · rw [if_pos h, if_pos h2, if_pos h1, if_neg h3]
    · rw [if_neg h]

theorem makeMut_move (hd : c.debug = false) (hF : w.fences[f]? = some (some F))
    (hx : w.masters[F.master]? = some (some x)) (h1 : x.sf = 1) (hs : F.strong = 1)
    (ha : x.alive = true) (hg : w.Granted c) :
    ∃ u k, (F.weak ≠ 0 → u = F.weak) ∧
      makeMut c (f, w) = .ok () (w.fences.length, urcMoved w f F x u k c.usizeMax) := by
  have hl := (List.getElem?_eq_some_iff.mp hF).1
  have hml := (List.getElem?_eq_some_iff.mp hx).1
  rw [makeMut_unfold hF hx, if_pos h1]
  by_cases h2 : F.weak ≠ 0
  · refine ⟨F.weak, x.wf, fun _ => rfl, ?_⟩
    rw [if_pos h2]
    simp only [hs, if_true, ite_self]
    exact moveOut_release hd hF hx ha hg
  · have h2' : F.weak = 0 := by omega
    rw [if_neg h2]
    obtain ⟨k, hk⟩ : ∃ k, uadd c x.wf 1 w = .ok k w := by
      unfold uadd
      split
      · exact ⟨_, rfl⟩
      · rw [hd]; exact ⟨_, rfl⟩
    refine ⟨c.usizeMax, k, fun h => (h h2').elim, ?_⟩
    rw [M.bind_apply]
    simp only [lift, hk]
    rw [M.bind_apply]
    simp only [lift, putMaster, M.modify]
    rw [M.bind_apply]
    have hw : weakDrop c f F.master { w with
        masters := w.masters.set F.master (some { x with wf := k }) } = .ok () { w with
        masters := w.masters.set F.master (some { x with wf := k })
        fences := w.fences.set f (some { F with weak := c.usizeMax }) } := by
      rw [weakDrop, M.bind_apply, fence_eq (F := F) (by simpa using hF)]
      simp only []
      rw [if_neg (by omega)]
      exact decWeak_wrap hF h2' hd
    simp only [lift, hw]
    have := moveOut_release (c := c) (w := { w with
        masters := w.masters.set F.master (some { x with wf := k })
        fences := w.fences.set f (some { F with weak := c.usizeMax }) }) (f := f)
        (F := { F with weak := c.usizeMax }) (x := { x with wf := k }) hd (by simp [hl]) (by simp [hml]) ha hg
    simp only [] at this
    rw [this]
    simp [urcMoved]

end Urc

namespace UrcOk
variable {n : Nat} {w : UrcWorld α} {C : UrcHand → Nat}

theorem moved (I : UrcOk n w C) (hn : 1 ≤ n) {f : Nat} (hk : C (.urc f) = 1) {F : UrcFence} {x : UrcMaster α}
    (hF : w.fences[f]? = some (some F)) (hx : w.masters[F.master]? = some (some x)) (h1 : x.sf = 1)
    (ha : x.alive = true) (u k s : Nat) (hu : F.weak ≠ 0 → u = F.weak) :
    UrcOk n (urcMoved w f F x u k s) (moreHand (lessHand C (.urc f)) (.urc w.fences.length)) ∧
      UrcKeeps (fun g => 0 < lessHand C (.urc f) (.urc g)) w (urcMoved w f F x u k s) := by
  have hl := (List.getElem?_eq_some_iff.mp hF).1
  have hml := (List.getElem?_eq_some_iff.mp hx).1
  obtain ⟨e1, e2, e3⟩ := I.atUrc (by omega) hF
  have K := I.fence _ F hF
  have hU : lessHand C (.urc f) (.urc f) + lessHand C (.urc f) (.fence f) = 0 := by
    rw [lessHand_self, lessHand_ne C (by simp)]; omega
  have hzero : ∀ (k : UrcHand) G, k.Owns → w.fences[k.at]? = some (some G) → G.master = F.master →
      lessHand C (.urc f) k = 0 := by
    intro k G ho hG hmm
    refine Nat.eq_zero_of_not_pos fun hpos => ?_
    have h2 : 0 < C k := by have := lessHand_le C (.urc f) k; omega
    have h3 : k.at = f := I.only (k := .urc f) (by omega) hF hx ha h1 h2 hG hmm
    cases k with
    | urc g => simp only [UrcHand.at] at h3; subst h3; omega
    | fence g => simp only [UrcHand.at] at h3; subst h3; omega
    | weak g m => exact ho
  have J1 := I.lessFence (k := .urc f) (F := F) (F' := { F with strong := s, weak := u }) hF rfl
    (fun h => by simp only [UrcHand.at] at h; omega) (fun j hj hja => by
      show u = lessHand C (.urc f) (.weak f F.master)
      rw [lessHand_ne C (by simp)]
      have hj0 : 0 < C j := by have := lessHand_le C (.urc f) j; omega
      simp only [UrcHand.at] at hja
      cases j with
      | urc g => simp only [] at hja; subst hja; omega
      | fence g => simp only [] at hja; subst hja; omega
      | weak g m =>
        simp only [] at hja
        subst hja
        have h5 : F.master = m := K.fits _ hj0 rfl
        subst h5
        rw [← e2]
        exact hu (by omega))
  have J2 := J1.setMaster (x := x) (x' := { x with sf := 0, alive := false, wf := k }) hx (Nat.le_refl n)
    ⟨Nat.zero_le n, (by simp), fun _ j G ho hG hmm => by
      by_cases e : f = j.at
      · exact hzero j F ho (e ▸ hF) rfl
      · have hG' : (w.fences.set f (some { F with strong := s, weak := u }))[j.at]? = some (some G) := hG
        rw [List.getElem?_set_ne e] at hG'
        exact hzero j G ho hG' hmm, (by simp)⟩
  have J3 := J2.pushMaster (x := ⟨1, 0, x.val, true, 0⟩) hn
  have J4 := J3.pushFence (m := w.masters.length) (x := ⟨1, 0, x.val, true, 0⟩)
    (C' := moreHand (lessHand C (.urc f)) (.urc w.fences.length)) (by simp) rfl
    ⟨[], by simp, fun j G hj hG hmm => by
      obtain ⟨y, hy⟩ := J2.hasMaster _ G hG
      have := (List.getElem?_eq_some_iff.mp hy).1
      simp only [List.length_set] at this
      omega⟩
    (fun _ => ⟨rfl, rfl⟩) hn (fun k => by simp [moreHand])
  refine ⟨J4.world rfl rfl, ?_⟩
  have k1 : UrcKeeps (fun g => 0 < lessHand C (.urc f) (.urc g)) w
      { w with masters := w.masters.set F.master (some { x with sf := 0, alive := false, wf := k }) } :=
    UrcKeeps.setMaster_other fun g G hg hG hm => by
      have := hzero (.urc g) G trivial hG hm
      omega
  have k2 := UrcKeeps.setFence (S := fun g => 0 < lessHand C (.urc f) (.urc g)) (w := { w with
    masters := w.masters.set F.master (some { x with sf := 0, alive := false, wf := k }) }) (F := F)
    (F' := { F with strong := s, weak := u }) hF rfl
  exact k1.trans (k2.trans (UrcKeeps.pushMaster.trans (UrcKeeps.pushFence.trans (S' := fun _ => True)
    (UrcKeeps.same rfl rfl) fun _ _ => trivial) fun g h => h) fun g h => h) fun g h => h

/-- `make_mut` as permitted. -/
theorem makeMut (I : UrcOk n w C) (hn : 1 ≤ n) {f : Nat} (hk : 0 < C (.urc f)) {F : UrcFence} {x : UrcMaster α}
    (hF : w.fences[f]? = some (some F)) (hx : w.masters[F.master]? = some (some x))
    (hp : x.sf ≠ 1 ∨ (x.wf = 1 ∧ F.weak ≠ 0 ∧ F.strong ≠ 1) ∨ (c.debug = false ∧ F.strong = 1 ∧ w.Granted c)) :
    match Urc.makeMut c (f, w) with
    | .ok _ (q, w') => UrcOk n w' (moreHand (lessHand C (.urc f)) (.urc q)) ∧
        UrcKeeps (fun g => 0 < lessHand C (.urc f) (.urc g)) w w' ∧
        moreHand (lessHand C (.urc f)) (.urc q) (.urc q) = 1 ∧
        ∃ m v, w'.fences[q]? = some (some ⟨1, 0, m⟩) ∧ w'.masters[m]? = some (some ⟨1, 0, v, true, 0⟩) ∧
          ((x.sf = 1 ∧ ¬ (x.wf = 1 ∧ F.weak ≠ 0 ∧ F.strong ≠ 1) → v = x.val) ∧
           (v = x.val ∨ c.clone w.calls x.val = some v))
    | .panic (q, w') => q = f ∧ UrcOk n w' C ∧ UrcKeeps (fun _ => True) w w' ∧
        (¬ w.Granted c ∨ c.clone w.calls x.val = none)
    | _ => False := by
  have hl := (List.getElem?_eq_some_iff.mp hF).1
  have hml := (List.getElem?_eq_some_iff.mp hx).1
  obtain ⟨e1, e2, e3⟩ := I.atUrc hk hF
  have ha : x.alive = true := by
    obtain ⟨F', x', hF', hx', ha, _⟩ := I.owner hk trivial
    obtain rfl : F = F' := Option.some.inj (Option.some.inj (hF.symm.trans hF'))
    obtain rfl : x = x' := Option.some.inj (Option.some.inj (hx.symm.trans hx'))
    exact ha
  by_cases hcl : x.sf ≠ 1 ∨ (x.wf = 1 ∧ F.weak ≠ 0 ∧ F.strong ≠ 1)
  · rw [Urc.makeMut_clone hF hx hcl, Urc.cloneOut, M.bind_apply]
    simp only [Urc.lift, Urc.data_eq hx ha]
    rw [M.bind_apply]
    simp only [Urc.lift, Urc.cloneVal]
    cases hv : c.clone w.calls x.val with
    | none => exact ⟨rfl, I.world rfl rfl, UrcKeeps.same rfl rfl, Or.inr rfl⟩
    | some v =>
      simp only []
      rw [M.bind_apply]
      have I0 : UrcOk n { w with calls := w.calls + 1 } C := I.world rfl rfl
      have hnew := I0.new (c := c) hn v
      cases hr : Urc.new c v { w with calls := w.calls + 1 } with
      | panic w1 =>
        rw [hr] at hnew
        simp only [Urc.lift, hr]
        exact ⟨trivial, hnew.1, (UrcKeeps.same (w := w) (S := fun _ => True) rfl rfl).trans hnew.2.1 fun _ h => h,
          Or.inl hnew.2.2.2⟩
      | abort => rw [hr] at hnew; exact hnew.elim
      | ub u => rw [hr] at hnew; exact hnew.elim
      | ok q w1 =>
        rw [hr] at hnew
        obtain ⟨J, hk1, hq, hf1, hm1⟩ := hnew
        simp only [] at hq hf1 hm1
        have hqf : f ≠ q := by omega
        have hkq : 0 < moreHand C (.urc q) (.urc f) := by
          rw [moreHand_ne C (by simpa using hqf)]; exact hk
        obtain ⟨w2, hd2, J2, hk2, F2, hF2, _, hof, hom⟩ := J.drop (c := c) hkq
        have hFF : F2 = F := by
          rw [hf1, List.getElem?_append_left hl, hF] at hF2
          exact (Option.some.inj (Option.some.inj hF2)).symm
        simp only [Urc.lift, hr]
        have hrep : Urc.replace c q (f, w1) = .ok () (q, w2) := by
          simp [Urc.replace, M.andAlways, M.onUnwind, M.seq, M.bind_apply, Urc.lift, hd2, M.modify]
        rw [hrep]
        have hcc : ∀ k, moreHand (lessHand C (.urc f)) (.urc q) k = lessHand (moreHand C (.urc q)) (.urc f) k := by
          intro k
          simp only [moreHand, lessHand]
          by_cases a : k = .urc q
          · subst a
            have : UrcHand.urc q ≠ .urc f := by simpa using hqf.symm
            simp [this]
          · simp [a]
        have hq1 : lessHand (moreHand C (.urc q)) (.urc f) (.urc q) = 1 := by
          rw [lessHand_ne _ (by simpa using hqf.symm), moreHand_self, I0.outside (by simp [UrcHand.at, hq])]
        refine ⟨J2.handles hcc, ?_, ?_, w.masters.length, v, ?_, ?_, ?_, ?_⟩
        · refine ((UrcKeeps.same (w := w) (S := fun g => 0 < lessHand C (.urc f) (.urc g)) rfl rfl).trans hk1
            fun _ _ => trivial).trans hk2 ?_
          intro g hg
          rw [← hcc]
          unfold moreHand
          omega
        · rw [hcc]; exact hq1
        · rw [hof q (Ne.symm hqf), hf1, hq]; simp
        · rw [hom _ (by rw [hFF]; omega), hm1]; simp
        · rintro ⟨a, b⟩
          rcases hcl with h | h
          · exact (h a).elim
          · exact (b h).elim
        · exact Or.inr rfl
  · have hs1 : x.sf = 1 := Classical.byContradiction fun h => hcl (Or.inl h)
    obtain ⟨hd, hst, hg⟩ : c.debug = false ∧ F.strong = 1 ∧ w.Granted c := by
      rcases hp with h | h | h
      · exact (hcl (Or.inl h)).elim
      · exact (hcl (Or.inr h)).elim
      · exact h
    obtain ⟨u, k, hu, hr⟩ := Urc.makeMut_move hd hF hx hs1 hst ha hg
    rw [hr]
    have hk1 : C (.urc f) = 1 := by omega
    obtain ⟨J, hkeep⟩ := I.moved hn hk1 hF hx hs1 ha u k c.usizeMax hu
    refine ⟨J, hkeep, ?_, w.masters.length, x.val, ?_, ?_, fun _ => rfl, Or.inl rfl⟩
    · rw [moreHand_self, lessHand_ne C (by simp; omega), I.outside (by simp [UrcHand.at])]
    · simp [urcMoved]
    · simp [urcMoved]

end UrcOk

end Lokky
