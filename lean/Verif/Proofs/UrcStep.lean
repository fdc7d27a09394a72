import Verif.Proofs.Urc

/-!
# Calls of `Urc` keep what holds between calls
-/

namespace Lokky
variable {α : Type} {c : Cfg α}

/-- Fences in `S` lead to the same value before and after. -/
def UrcKeeps (S : Nat → Prop) (w w' : UrcWorld α) : Prop :=
  ∀ g v, S g → UrcSees w g v → UrcSees w' g v

/-- One handle more, or one less. -/
def moreHand (C : UrcHand → Nat) (k : UrcHand) : UrcHand → Nat := fun j => C j + if j = k then 1 else 0
def lessHand (C : UrcHand → Nat) (k : UrcHand) : UrcHand → Nat := fun j => C j - if j = k then 1 else 0

theorem moreHand_self (C : UrcHand → Nat) (k : UrcHand) : moreHand C k k = C k + 1 := by simp [moreHand]
theorem lessHand_self (C : UrcHand → Nat) (k : UrcHand) : lessHand C k k = C k - 1 := by simp [lessHand]
theorem moreHand_ne (C : UrcHand → Nat) {k j : UrcHand} (h : j ≠ k) : moreHand C k j = C j := by
  simp [moreHand, h]
theorem lessHand_ne (C : UrcHand → Nat) {k j : UrcHand} (h : j ≠ k) : lessHand C k j = C j := by
  simp [lessHand, h]
theorem lessHand_le (C : UrcHand → Nat) (k j : UrcHand) : lessHand C k j ≤ C j := Nat.sub_le _ _

theorem moreHand_at (C : UrcHand → Nat) {k j : UrcHand} (h : j.at ≠ k.at) : moreHand C k j = C j :=
  moreHand_ne C fun e => h (e ▸ rfl)
theorem lessHand_at (C : UrcHand → Nat) {k j : UrcHand} (h : j.at ≠ k.at) : lessHand C k j = C j :=
  lessHand_ne C fun e => h (e ▸ rfl)

namespace Urc
variable {w : UrcWorld α} {f m : Nat} {F : UrcFence} {x : UrcMaster α}

theorem fence_eq (hF : w.fences[f]? = some (some F)) : fence f w = .ok F w := by
  simp [fence, hF]

theorem master_eq (hx : w.masters[m]? = some (some x)) : master m w = .ok x w := by
  simp [master, hx]

theorem data_eq (hx : w.masters[m]? = some (some x)) (ha : x.alive = true) : data m w = .ok x.val w := by
  simp [data, M.bind_apply, master_eq hx, ha]

theorem asRef_eq (hF : w.fences[f]? = some (some F)) (hx : w.masters[F.master]? = some (some x))
    (ha : x.alive = true) : asRef f w = .ok x.val w := by
  simp [asRef, M.bind_apply, fence_eq hF, data_eq hx ha]

theorem incStrong_eq (hF : w.fences[f]? = some (some F)) (h : F.strong < c.usizeMax) :
    incStrong c f w = .ok () { w with fences := w.fences.set f (some { F with strong := F.strong + 1 }) } := by
  have h1 : F.strong + 1 ≤ c.usizeMax := h
  simp [incStrong, M.bind_apply, fence_eq hF, uadd, h1, putFence, M.modify]

theorem incWeak_eq (hF : w.fences[f]? = some (some F)) (h : F.weak < c.usizeMax) :
    incWeak c f w = .ok () { w with fences := w.fences.set f (some { F with weak := F.weak + 1 }) } := by
  have h1 : F.weak + 1 ≤ c.usizeMax := h
  simp [incWeak, M.bind_apply, fence_eq hF, uadd, h1, putFence, M.modify]

theorem decStrong_eq (hF : w.fences[f]? = some (some F)) (h : 0 < F.strong) :
    decStrong c f w = .ok () { w with fences := w.fences.set f (some { F with strong := F.strong - 1 }) } := by
  have h1 : 1 ≤ F.strong := h
  have h2 : F.strong ≠ 0 := by omega
  simp [decStrong, M.bind_apply, fence_eq hF, usub, h1, debugAssert, h2, putFence, M.modify]

theorem decWeak_eq (hF : w.fences[f]? = some (some F)) (h : 0 < F.weak) :
    decWeak c f w = .ok () { w with fences := w.fences.set f (some { F with weak := F.weak - 1 }) } := by
  have h1 : 1 ≤ F.weak := h
  have h2 : F.weak ≠ 0 := by omega
  simp [decWeak, M.bind_apply, fence_eq hF, usub, h1, debugAssert, h2, putFence, M.modify]

/-- In a release build a count of zero wraps around. -/
theorem decStrong_wrap (hF : w.fences[f]? = some (some F)) (h : F.strong = 0) (hd : c.debug = false) :
    decStrong c f w = .ok () { w with fences := w.fences.set f (some { F with strong := c.usizeMax }) } := by
  simp [decStrong, M.bind_apply, fence_eq hF, usub, debugAssert, h, hd, putFence, M.modify]

theorem decWeak_wrap (hF : w.fences[f]? = some (some F)) (h : F.weak = 0) (hd : c.debug = false) :
    decWeak c f w = .ok () { w with fences := w.fences.set f (some { F with weak := c.usizeMax }) } := by
  simp [decWeak, M.bind_apply, fence_eq hF, usub, debugAssert, h, hd, putFence, M.modify]

/-- In a debug build it panics. -/
theorem decStrong_debug (hF : w.fences[f]? = some (some F)) (h : F.strong = 0) (hd : c.debug = true) :
    decStrong c f w = .panic w := by
  simp [decStrong, M.bind_apply, fence_eq hF, debugAssert, h, hd]

theorem decWeak_debug (hF : w.fences[f]? = some (some F)) (h : F.weak = 0) (hd : c.debug = true) :
    decWeak c f w = .panic w := by
  simp [decWeak, M.bind_apply, fence_eq hF, debugAssert, h, hd]

end Urc

namespace UrcKeeps
variable {w w' : UrcWorld α} {S : Nat → Prop}

theorem trans {w'' : UrcWorld α} {S' : Nat → Prop} (h : UrcKeeps S w w') (h' : UrcKeeps S' w' w'')
    (hs : ∀ g, S g → S' g) : UrcKeeps S w w'' := fun g v hg hv => h' g v (hs g hg) (h g v hg hv)

theorem same (hm : w'.masters = w.masters) (hf : w'.fences = w.fences) : UrcKeeps S w w' := by
  rintro g v _ ⟨F, x, h1, h2, h3⟩
  exact ⟨F, x, hf ▸ h1, hm ▸ h2, h3⟩

theorem setMaster {m : Nat} {x x' : UrcMaster α} (hx : w.masters[m]? = some (some x))
    (ha : x'.alive = x.alive) (hv : x'.val = x.val) :
    UrcKeeps S w { w with masters := w.masters.set m (some x') } := by
  rintro g v _ ⟨F, y, h1, h2, h3, h4⟩
  by_cases e : m = F.master
  · subst e
    obtain rfl : x = y := Option.some.inj (Option.some.inj (hx.symm.trans h2))
    have hl := (List.getElem?_eq_some_iff.mp hx).1
    exact ⟨F, x', h1, by simp [hl], ha.trans h3, hv.trans h4⟩
  · exact ⟨F, y, h1, by simpa [List.getElem?_set_ne e] using h2, h3, h4⟩

theorem setMaster_other {m : Nat} {x' : UrcMaster α}
    (h : ∀ g F, S g → w.fences[g]? = some (some F) → F.master ≠ m) :
    UrcKeeps S w { w with masters := w.masters.set m (some x') } := by
  rintro g v hg ⟨F, y, h1, h2, h3, h4⟩
  have e := h g F hg h1
  exact ⟨F, y, h1, by simpa [List.getElem?_set_ne (Ne.symm e)] using h2, h3, h4⟩

theorem setFence {f : Nat} {F F' : UrcFence} (hF : w.fences[f]? = some (some F))
    (hm : F'.master = F.master) : UrcKeeps S w { w with fences := w.fences.set f (some F') } := by
  rintro g v _ ⟨G, y, h1, h2, h3⟩
  by_cases e : f = g
  · subst e
    obtain rfl : F = G := Option.some.inj (Option.some.inj (hF.symm.trans h1))
    have hl := (List.getElem?_eq_some_iff.mp hF).1
    exact ⟨F', y, by simp [hl], by simpa [hm] using h2, h3⟩
  · exact ⟨G, y, by simpa [List.getElem?_set_ne e] using h1, h2, h3⟩

theorem release {f : Nat} (h : ∀ g, S g → g ≠ f) :
    UrcKeeps S w { w with fences := w.fences.set f none } := by
  rintro g v hg ⟨G, y, h1, h2, h3⟩
  exact ⟨G, y, by simpa [List.getElem?_set_ne (Ne.symm (h g hg))] using h1, h2, h3⟩

theorem pushMaster {x : Option (UrcMaster α)} : UrcKeeps S w { w with masters := w.masters ++ [x] } := by
  rintro g v hg ⟨G, y, h1, h2, h3⟩
  have := (List.getElem?_eq_some_iff.mp h2).1
  exact ⟨G, y, h1, by simpa only [List.getElem?_append_left this] using h2, h3⟩

theorem pushFence {F : Option UrcFence} : UrcKeeps S w { w with fences := w.fences ++ [F] } := by
  rintro g v hg ⟨G, y, h1, h2, h3⟩
  have := (List.getElem?_eq_some_iff.mp h1).1
  exact ⟨G, y, by simpa only [List.getElem?_append_left this] using h1, h2, h3⟩

end UrcKeeps

namespace UrcOk
variable {n : Nat} {w : UrcWorld α} {C : UrcHand → Nat}

/-- Every handle of a value that only has `sf = 1` is of the fence at hand. -/
theorem only (I : UrcOk n w C) {k : UrcHand} (hk : 0 < C k) {F : UrcFence} {x : UrcMaster α}
    (hF : w.fences[k.at]? = some (some F)) (hx : w.masters[F.master]? = some (some x))
    (ha : x.alive = true) (h1 : x.sf = 1) {j : UrcHand} {G : UrcFence} (hj : 0 < C j)
    (hG : w.fences[j.at]? = some (some G)) (hm : G.master = F.master) : j.at = k.at := by
  obtain ⟨L, hL, hmem⟩ := (I.master _ _ hx).alive ha
  have a := hmem k F hk hF rfl
  have b := hmem j G hj hG hm
  match L, hL, a, b with
  | [p], _, a, b =>
    simp only [List.mem_singleton] at a b
    rw [a, b]
  | p :: q :: L, hL, _, _ => simp only [List.length_cons] at hL; omega

/-- The counts of the fence of a `Urc`. -/
theorem atUrc (I : UrcOk n w C) {f : Nat} (hk : 0 < C (.urc f)) {F : UrcFence}
    (hF : w.fences[f]? = some (some F)) :
    F.strong = C (.urc f) ∧ F.weak = C (.weak f F.master) ∧ C (.fence f) = 0 := by
  have K := I.fence f F hF
  have h0 : C (.fence f) = 0 := by
    refine Nat.eq_zero_of_not_pos fun h => ?_
    have := (K.fence h).2.1
    omega
  refine ⟨?_, K.weak (.urc f) hk rfl, h0⟩
  have := K.strong (by omega)
  omega

theorem clone (I : UrcOk n w C) {f : Nat} (hk : 0 < C (.urc f)) (hn : n < c.usizeMax) :
    ∃ w', Urc.clone c f w = .ok f w' ∧ UrcOk (n + 1) w' (moreHand C (.urc f)) ∧
      UrcKeeps (fun _ => True) w w' := by
  obtain ⟨F, x, hF, hx, ha, hs⟩ := I.owner hk trivial
  simp only [UrcHand.at] at hF
  obtain ⟨e1, e2, e3⟩ := I.atUrc hk hF
  have hsm := I.small
  refine ⟨{ w with fences := w.fences.set f (some { F with strong := F.strong + 1 }) }, by
    rw [Urc.clone, M.bind_apply, Urc.incStrong_eq hF (by have := hsm (.urc f); omega)]; rfl, ?_,
    UrcKeeps.setFence hF rfl⟩
  refine (I.more (Nat.le_succ n)).setFence hF rfl (fun k hk => moreHand_at C hk) (fun k => ?_) ?_
    (fun k _ _ => ⟨.urc f, rfl, hk⟩) (fun k _ _ _ => ⟨.urc f, rfl, trivial, hk⟩)
  · have := hsm k
    unfold moreHand
    split <;> omega
  · have K := I.fence f F hF
    refine ⟨fun k hk' ha => ?_, fun _ => ?_, fun k _ _ => ?_, fun h => ?_⟩
    · by_cases e : k = .urc f
      · subst e; trivial
      · rw [moreHand_ne C e] at hk'
        exact K.fits k hk' ha
    · rw [moreHand_self, moreHand_ne C (by simp), e3]; show F.strong + 1 = _; omega
    · rw [moreHand_ne C (by simp)]; exact e2
    · rw [moreHand_ne C (by simp)] at h; omega

theorem downgrade (I : UrcOk n w C) {f : Nat} (hk : 0 < C (.urc f)) (hn : n < c.usizeMax) :
    ∃ w' m, Urc.downgrade c f w = .ok (f, m) w' ∧ UrcOk (n + 1) w' (moreHand C (.weak f m)) ∧
      UrcKeeps (fun _ => True) w w' := by
  obtain ⟨F, x, hF, hx, ha, hs⟩ := I.owner hk trivial
  simp only [UrcHand.at] at hF
  obtain ⟨e1, e2, e3⟩ := I.atUrc hk hF
  have hsm := I.small
  have hl := (List.getElem?_eq_some_iff.mp hF).1
  refine ⟨{ w with fences := w.fences.set f (some { F with weak := F.weak + 1 }) }, F.master, by
    rw [Urc.downgrade, M.bind_apply, Urc.incWeak_eq hF (by have := hsm (.weak f F.master); omega)]
    simp only []
    rw [M.bind_apply, Urc.fence_eq (F := { F with weak := F.weak + 1 }) (by simp [hl])]
    rfl, ?_, UrcKeeps.setFence hF rfl⟩
  refine (I.more (Nat.le_succ n)).setFence hF rfl (fun k hk => moreHand_at C hk) (fun k => ?_) ?_
    (fun k _ _ => ⟨.urc f, rfl, hk⟩) (fun k _ _ _ => ⟨.urc f, rfl, trivial, hk⟩)
  · have := hsm k
    unfold moreHand
    split <;> omega
  · have K := I.fence f F hF
    refine ⟨fun k hk' ha => ?_, fun _ => ?_, fun k _ _ => ?_, fun h => ?_⟩
    · by_cases e : k = .weak f F.master
      · subst e; rfl
      · rw [moreHand_ne C e] at hk'
        exact K.fits k hk' ha
    · rw [moreHand_ne C (by simp), moreHand_ne C (by simp), e1, e3]; rfl
    · show F.weak + 1 = _
      rw [moreHand_self, e2]
    · rw [moreHand_ne C (by simp)] at h; omega

/-- A handle of a fence is given up, the counts of the fence being `F'`. -/
theorem lessFence (I : UrcOk n w C) {k : UrcHand} {F F' : UrcFence}
    (hF : w.fences[k.at]? = some (some F)) (hm : F'.master = F.master)
    (hs : 0 < lessHand C k (.urc k.at) + lessHand C k (.fence k.at) →
      F'.strong = lessHand C k (.urc k.at) + lessHand C k (.fence k.at))
    (hw : ∀ j : UrcHand, 0 < lessHand C k j → j.at = k.at → F'.weak = lessHand C k (.weak k.at F.master)) :
    UrcOk n { w with fences := w.fences.set k.at (some F') } (lessHand C k) := by
  have K := I.fence _ F hF
  have hle := lessHand_le C k
  have hpos : ∀ j, 0 < lessHand C k j → 0 < C j := fun j h => by have := hle j; omega
  refine I.setFence hF hm (fun j hj => lessHand_at C hj) (fun j => Nat.le_trans (hle j) (I.small j))
    ⟨fun j hj ha => ?_, hs, hm.symm ▸ hw, fun h => ?_⟩ (fun j hj hp => ⟨j, hj, hpos j hp⟩)
    (fun j hj ho hp => ⟨j, hj, ho, hpos j hp⟩)
  · have := K.fits j (hpos j hj) ha
    cases j <;> simp_all [UrcHand.Fits]
  · obtain ⟨a, b, d⟩ := K.fence (hpos _ h)
    have a' := hle (.fence k.at)
    have b' := hle (.urc k.at)
    have d' := hle (.weak k.at F.master)
    rw [hm]
    exact ⟨by omega, by omega, by omega⟩

theorem drop (I : UrcOk n w C) {f : Nat} (hk : 0 < C (.urc f)) :
    ∃ w', Urc.drop c f w = .ok () w' ∧ UrcOk n w' (lessHand C (.urc f)) ∧
      UrcKeeps (fun g => 0 < lessHand C (.urc f) (.urc g)) w w' ∧
      ∃ F, w.fences[f]? = some (some F) ∧
        ((F.strong = 1 ∧ F.weak = 0) → w'.fences = w.fences.set f none) ∧
        (∀ g, g ≠ f → w'.fences[g]? = w.fences[g]?) ∧
        ∀ m, m ≠ F.master → w'.masters[m]? = w.masters[m]? := by
  obtain ⟨F, x, hF, hx, ha, hs⟩ := I.owner hk trivial
  simp only [UrcHand.at] at hF
  obtain ⟨e1, e2, e3⟩ := I.atUrc hk hF
  have hl := (List.getElem?_eq_some_iff.mp hF).1
  have hml := (List.getElem?_eq_some_iff.mp hx).1
  have K := I.fence f F hF
  by_cases hd : F.strong = 1 ∧ F.weak = 0
  · have hr : Urc.drop c f w = .ok () { w with
        fences := w.fences.set f none
        masters := w.masters.set F.master (some { x with sf := x.sf - 1 }) } := by
      have hx0 : x.sf ≠ 0 := by omega
      rw [Urc.drop, M.bind_apply, Urc.fence_eq hF]
      simp only [hd, and_self, if_true]
      rw [M.bind_apply]
      simp only [Urc.freeFence, hF]
      rw [M.bind_apply, Urc.master_eq (x := x) (by simpa using hx)]
      simp only [Urc.putMaster, M.modify, M.bind_apply, Urc.wrapSub, hx0, if_false]
      split
      · simp [M.bind_apply, Urc.dropData, Urc.dropMaster, Urc.master, hml]
      · rfl
    refine ⟨_, hr, ?_, ?_, F, hF, fun _ => rfl, fun g hg => List.getElem?_set_ne (Ne.symm hg),
      fun m hm => List.getElem?_set_ne (Ne.symm hm)⟩
    · have hz : ∀ k : UrcHand, k.at = f → lessHand C (.urc f) k = 0 := by
        intro k hkf
        cases k with
        | urc g => simp only [UrcHand.at] at hkf; subst hkf; rw [lessHand_self]; omega
        | fence g => simp only [UrcHand.at] at hkf; subst hkf; rw [lessHand_ne C (by simp)]; exact e3
        | weak g m =>
          simp only [UrcHand.at] at hkf
          subst hkf
          rw [lessHand_ne C (by simp)]
          refine Nat.eq_zero_of_not_pos fun h => ?_
          have h1 : F.master = m := K.fits _ h rfl
          subst h1
          omega
      have J := I.release hl (C' := lessHand C (.urc f)) (fun k hk => lessHand_at C hk) hz
      refine J.setMaster (x := x) (by simpa using hx) (Nat.le_refl n) ⟨?_, ?_, ?_, ?_⟩
      · have := (I.master _ _ hx).few
        show x.sf - 1 ≤ n
        omega
      · intro _
        obtain ⟨L, hL, hmem⟩ := (I.master _ _ hx).alive ha
        have hfL : f ∈ L := hmem (.urc f) F hk hF rfl
        refine ⟨L.erase f, ?_, fun k G hk' hG hmm => ?_⟩
        · show _ ≤ x.sf - 1
          rw [List.length_erase_of_mem hfL]; omega
        · have hne : k.at ≠ f := fun e => by have := hz k e; omega
          rw [lessHand_at C hne] at hk'
          simp only [List.getElem?_set_ne (Ne.symm hne)] at hG
          exact (List.mem_erase_of_ne hne).mpr (hmem k G hk' hG hmm)
      · intro h
        simp only [ha] at h
        cases h
      · intro _ hsent k G ho hk' hG hmm
        have hne : k.at ≠ f := fun e => by have := hz k e; omega
        rw [lessHand_at C hne] at hk'
        simp only [List.getElem?_set_ne (Ne.symm hne)] at hG
        have h1 := (I.master _ _ hx).alone ha hsent (.urc f) F trivial hk hF rfl
        exact (hne (I.only hk hF hx ha h1.1 hk' hG hmm)).elim
    · refine UrcKeeps.trans (UrcKeeps.release (f := f) ?_)
        (UrcKeeps.setMaster (x := x) (x' := { x with sf := x.sf - 1 }) (by simpa using hx) rfl rfl) (fun g h => h)
      intro g hg e
      subst e
      rw [lessHand_self] at hg
      omega
  · have hr : Urc.drop c f w = .ok () { w with
        fences := w.fences.set f (some { F with strong := F.strong - 1 }) } := by
      rw [Urc.drop, M.bind_apply, Urc.fence_eq hF]
      simp only []
      rw [if_neg hd]
      exact Urc.decStrong_eq hF (by omega)
    refine ⟨_, hr, ?_, UrcKeeps.setFence hF rfl, F, hF, fun h => (hd h).elim,
      fun g hg => List.getElem?_set_ne (Ne.symm hg), fun m _ => rfl⟩
    refine I.lessFence (k := .urc f) (F := F) hF rfl (fun _ => ?_) (fun j _ _ => ?_)
    · show F.strong - 1 = lessHand C (.urc f) (.urc f) + lessHand C (.urc f) (.fence f)
      rw [lessHand_self, lessHand_ne C (by simp), e1, e3]
      rfl
    · show F.weak = lessHand C (.urc f) (.weak f F.master)
      rw [lessHand_ne C (by simp)]
      exact e2

end UrcOk

end Lokky
