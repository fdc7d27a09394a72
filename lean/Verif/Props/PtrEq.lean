import Verif.Proofs.UrcData
import Verif.Proofs.UrcPlain
import Verif.Props.Compare

/-!
# C110 for `Arc` and `Urc`: `ptr_eq`
-/

namespace Lokky
open ArcOp
variable {α : Type} {c : Cfg α} {mx n : Nat} {calm : Prop} {s : ArcSys α}

/-- An object with a handle has its memory, in all runs. -/
theorem ArcInv.hand_obj (I : ArcInv mx n s) {i p : Nat} (hi : s.hands[i]? = some (some p)) :
    ∃ o, s.objs[p]? = some o ∧ o.freed = false := by
  obtain ⟨o, ho⟩ := I.exists_obj (Or.inl (ArcInv.own_pos_of_hand hi))
  refine ⟨o, ho, ?_⟩
  by_contra hx
  exact (I.freed_left ho (by simpa using hx)).1.1 i hi

/-- C110 for `Arc`, in all runs: whether two handles are of the same object. -/
theorem C110_arc (h : ArcReaches mx calm n s) (hn : n ≤ mx) {i j p q : Nat}
    (hi : s.hands[i]? = some (some p)) (hj : s.hands[j]? = some (some q)) :
    Arc.ptrEq p q s = .ok (decide (p = q)) s := by
  have I := h.inv hn
  obtain ⟨o, ho, hf⟩ := I.hand_obj hi
  obtain ⟨o', ho', hf'⟩ := I.hand_obj hj
  simp only [Arc.ptrEq, M.bind_apply, ArcInv.obj_ok ho hf, ArcInv.obj_ok ho' hf', M.pure_apply]
  by_cases e : p = q <;> simp [e]

/-- C110 for `Arc`, in all runs: the handle that `clone` gives, if it does not panic, is of the object of the handle
that was cloned, which is still there. What `new` and `make_mut` make is an object that no handle is of. -/
theorem C110_arc_made (h : ArcReaches mx calm n s) (hn : n ≤ mx) {t : Nat} :
    (∀ i p : Nat, s.threads[t]? = some (some (.clone i p)) → s.hands[i]? = some (some p) ∧
      ∀ ch s', Arc.step mx ch t (.clone i p) s = .ok () s' →
        (s'.hands = s.hands ∧ s'.log = (t, .panic) :: s.log) ∨ s'.hands = s.hands ++ [some p]) ∧
    (∀ i p : Nat, s.hands[i]? = some (some p) → p ≠ s.objs.length) ∧
    (∀ p v x z ch s', Arc.step mx ch t (.mmA p v x z) s = .ok () s' → ch.grant = true →
      t < s.threads.length → ∃ q, s'.threads[t]? = some (some (.mm5 p v q z)) ∧ s'.hands = s.hands ∧
        ∀ i : Nat, s.hands[i]? ≠ some (some q)) := by
  have I := h.inv hn
  have fresh : ∀ i p : Nat, s.hands[i]? = some (some p) → p ≠ s.objs.length := fun i p hi e => by
    obtain ⟨o, ho, -⟩ := I.hand_obj hi
    have := (List.getElem?_eq_some_iff.mp ho).1
    omega
  refine ⟨fun i p ht => ?_, fresh, fun p v x z ch s' e hg hl => ?_⟩
  · have hh := I.borrow_hand ht (h := i) (p := p) (by simp [borrowsAt])
    refine ⟨hh, fun ch s' e => ?_⟩
    obtain ⟨o, ho, hf⟩ := I.hand_obj hh
    by_cases hs : o.strong > mx
    · simp [Arc.step, M.bind_apply, ArcInv.obj_ok ho hf, Arc.put, hs, Arc.done] at e
      subst e
      exact .inl ⟨rfl, rfl⟩
    · simp [Arc.step, M.bind_apply, ArcInv.obj_ok ho hf, Arc.put, hs, Arc.give, Arc.done] at e
      subst e
      exact .inr rfl
  · simp [Arc.step, M.bind_apply, hg, Arc.goto] at e
    subst e
    exact ⟨s.objs.length, by simp [hl], rfl, fun i hi => fresh i _ hi rfl⟩

/-- Also after `make_mut` was refused memory. -/
example : ∃ (n : Nat) (s : ArcSys Nat), ArcReaches arcMax False n s ∧ n ≤ arcMax ∧
    s.hands[1]? = some (some 0) ∧ s.threads[1]? = some (some (.clone 1 0)) ∧ s.objs[0]?.map (·.lost) = some true :=
  ⟨_, arcEnd false (arcRefused ++ [.call 0 (.clone 1)] ++ arcRun 0 1 ++ [.call 0 (.makeMut 2)] ++
      arcRun 0 7 ++ [.call 1 (.clone 1)]), arcEnd_any (by decide +kernel), by decide +kernel,
    by decide +kernel, by decide +kernel, by decide +kernel⟩

/-- C110 for `Urc`, after all histories: `ptr_eq` tells whether the addresses that two handles keep are the same,
and uses no memory that was given back. If the fences of both are there, it tells whether they lead to the same
value. -/
theorem C110_urc {hist : List (UrcCmd α × Option (UrcOut α))} {P : UrcPool α} {D : List Nat}
    (h : UrcHolds c hist P D) {i j f g : Nat}
    (hi : P.hands[i]? = some (some (.urc f))) (hj : P.hands[j]? = some (some (.urc g))) :
    Urc.ptrEqKept D i j P.w = .ok (decide (D.getD i 0 = D.getD j 0)) P.w ∧
    ∀ F G, P.w.fences[f]? = some (some F) → P.w.fences[g]? = some (some G) →
      (D.getD i 0 = D.getD j 0 ↔ P.Shares i j) := by
  have K := h.kept
  obtain ⟨x, hx⟩ := K.there i _ hi
  obtain ⟨y, hy⟩ := K.there j _ hj
  refine ⟨?_, fun F G hF hG => ?_⟩
  · simp only [Urc.ptrEqKept, Urc.asPtr, M.bind_apply, Urc.master_eq hx, Urc.master_eq hy, M.pure_apply]
    congr 1
  · rw [← K.same i _ F hi hF, ← K.same j _ G hj hG]
    have vi := valueAt_eq hi hF
    have vj := valueAt_eq hj hG
    exact ⟨fun e => ⟨_, vi, e ▸ vj⟩, fun ⟨m, h1, h2⟩ => by
      rw [vi] at h1; rw [vj] at h2
      exact Option.some.inj (h1.trans h2.symm)⟩

/-- A handle, its clone, one that another thread received, and then `make_mut` on the first. -/
example : ∃ (hist : List (UrcCmd Nat × Option (UrcOut Nat))) (P : UrcPool Nat) (D : List Nat),
    UrcHolds cfg64 hist P D ∧
    P.hands[0]? = some (some (.urc 2)) ∧ P.hands[1]? = some (some (.urc 0)) ∧
    P.hands[2]? = some (some (.urc 1)) ∧ D.getD 0 0 ≠ D.getD 1 0 ∧ D.getD 1 0 = D.getD 2 0 :=
  ⟨_, _, _, .step (cmd := .makeMut 0 fun x => x + 1) (o := some (.val 7))
      (P' := ⟨[some (.urc 2), some (.urc 0), some (.urc 1)],
        ⟨[some ⟨2, 0, 7, true, 1⟩, some ⟨1, 0, 8, true, 0⟩],
          [some ⟨1, 0, 0⟩, some ⟨1, 0, 0⟩, some ⟨1, 0, 1⟩], 5, 1, []⟩⟩)
      (.step (cmd := .envelop 0) (o := some .unit)
        (P' := ⟨[some (.urc 0), some (.urc 0), some (.urc 1)],
          ⟨[some ⟨2, 0, 7, true, 1⟩], [some ⟨2, 0, 0⟩, some ⟨1, 0, 0⟩], 3, 0, []⟩⟩)
        (.step (cmd := .clone 0) (o := some .unit)
          (P' := ⟨[some (.urc 0), some (.urc 0)], ⟨[some ⟨1, 0, 7, true, 0⟩], [some ⟨2, 0, 0⟩], 2, 0, []⟩⟩)
          (.step (cmd := .new 7) (o := some .unit)
            (P' := ⟨[some (.urc 0)], ⟨[some ⟨1, 0, 7, true, 0⟩], [some ⟨1, 0, 0⟩], 2, 0, []⟩⟩)
            .start trivial (.ret rfl)) ⟨0, rfl⟩ (.ret rfl)) ⟨0, rfl⟩ (.ret rfl)) ⟨0, rfl⟩ (.ret rfl),
    rfl, rfl, rfl, by decide, by decide⟩

/-- What `ptr_eq` says of two handles that have not just been made. -/
theorem UrcHolds.ptrEq {hist : List (UrcCmd α × Option (UrcOut α))} {P : UrcPool α} {D : List Nat}
    (h : UrcHolds c hist P D) {i j : Nat} {k l : UrcHand}
    (hi : P.hands[i]? = some (some k)) (hj : P.hands[j]? = some (some l)) :
    Urc.ptrEqKept D i j P.w = .ok (decide (D.getD i 0 = D.getD j 0)) P.w := by
  obtain ⟨x, hx⟩ := h.kept.there i _ hi
  obtain ⟨y, hy⟩ := h.kept.there j _ hj
  simp only [Urc.ptrEqKept, Urc.asPtr, M.bind_apply, Urc.master_eq hx, Urc.master_eq hy, M.pure_apply]
  congr 1

/-- C110 for `Urc`, after all histories: a clone, and the handle another thread receives, are of the same value as
the original; what `new` makes, and the value that `make_mut` gives access to, is of no other handle. -/
theorem C110_urc_made {hist : List (UrcCmd α × Option (UrcOut α))} {P P' : UrcPool α} {D : List Nat}
    (h : UrcHolds c hist P D) {i f : Nat} (hi : P.hands[i]? = some (some (.urc f))) {o : UrcOut α} :
    (runUrc c (.clone i) P = .ok o P' →
      Urc.ptrEqKept ((UrcCmd.clone i).data P P' D) i P.hands.length P'.w = .ok true P'.w) ∧
    (runUrc c (.envelop i) P = .ok o P' →
      Urc.ptrEqKept ((UrcCmd.envelop i).data P P' D) i P.hands.length P'.w = .ok true P'.w) ∧
    (∀ x, runUrc c (.new x) P = .ok o P' →
      Urc.ptrEqKept ((UrcCmd.new x).data P P' D) i P.hands.length P'.w = .ok false P'.w) ∧
    (∀ g j k, P.hands[j]? = some (some (.urc k)) → j ≠ i → runUrc c (.makeMut j g) P = .ok o P' →
      Urc.ptrEqKept ((UrcCmd.makeMut j g).data P P' D) i j P'.w = .ok false P'.w) := by
  have K := h.kept
  have hil := (List.getElem?_eq_some_iff.mp hi).1
  have hdl : i < D.length := by rw [K.len]; exact hil
  obtain ⟨x0, hx0⟩ := K.there i _ hi
  have hml := (List.getElem?_eq_some_iff.mp hx0).1
  have old : ∀ d, (D ++ [d]).getD i 0 = D.getD i 0 := fun d => by
    simp [List.getD, List.getElem?_append_left hdl]
  have last : ∀ d, (D ++ [d]).getD P.hands.length 0 = d := fun d => by rw [← K.len]; simp
  refine ⟨fun e => ?_, fun e => ?_, fun x e => ?_, fun g j k hj hne e => ?_⟩
  · have h' := h.step (cmd := .clone i) ⟨f, hi⟩ (.ret e)
    simp only [runUrc, hi] at e
    rcases UrcPool.on_cases .clone (.inl ⟨_, e⟩) with ⟨q, w', -, -, rfl⟩ | ⟨w', hp, -, rfl⟩
    · rw [h'.ptrEq (k := .urc f) (l := .urc q) (by simp [List.getElem?_append_left hil, hi]) (by simp)]
      simp only [UrcCmd.data, List.length_append, List.length_singleton, Nat.lt_add_one, if_true, old, last,
        decide_true]
    · simp only [UrcPool.make, UrcPool.on, hp] at e
      cases e
  · have h' := h.step (cmd := .envelop i) ⟨f, hi⟩ (.ret e)
    simp only [runUrc, hi] at e
    rcases UrcPool.on_cases .envelop (.inl ⟨_, e⟩) with ⟨q, w', -, -, rfl⟩ | ⟨w', hp, -, rfl⟩
    · rw [h'.ptrEq (k := .urc f) (l := .urc q) (by simp [List.getElem?_append_left hil, hi]) (by simp)]
      simp only [UrcCmd.data, List.length_append, List.length_singleton, Nat.lt_add_one, if_true, old, last,
        decide_true]
    · simp only [UrcPool.make, UrcPool.on, hp] at e
      cases e
  · have h' := h.step (cmd := .new x) trivial (.ret e)
    simp only [runUrc] at e
    rcases UrcPool.on_cases (.new x (f := 0)) (.inl ⟨_, e⟩) with ⟨q, w', e', -, rfl⟩ | ⟨w', hp, -, rfl⟩
    · obtain ⟨-, m, hm, hl⟩ := Urc.new_fresh e'
      rw [h'.ptrEq (k := .urc f) (l := .urc q) (by simp [List.getElem?_append_left hil, hi]) (by simp)]
      simp only [UrcCmd.data, List.getElem?_concat_length, old, last,
        UrcPool.leadsTo_eq (P := ⟨P.hands ++ [some (.urc q)], w'⟩) hl]
      rw [decide_eq_false (by omega)]
    · simp only [UrcPool.make, UrcPool.on, hp] at e
      cases e
  · have h' := h.step (cmd := .makeMut j g) ⟨k, hj⟩ (.ret e)
    simp only [runUrc, hj] at e
    obtain ⟨q, w', rfl, hg, hq⟩ := UrcPool.makeMut_cases (.inl ⟨_, e⟩)
    have hjl := (List.getElem?_eq_some_iff.mp hj).1
    rcases hq with ⟨-, hq⟩ | ⟨hq, m, hm, hl⟩
    · exact absurd ⟨_, e⟩ hq
    · have hkq : k ≠ q := by
        have := K.below j _ hj
        simp only [UrcHand.at] at this
        omega
      have hl := hl (Ne.symm hkq)
      rw [h'.ptrEq (k := .urc f) (l := .urc q) (by simp [List.getElem?_set_ne hne, hi])
        (by simp [List.getElem?_set_self hjl])]
      simp only [UrcCmd.data, hj, List.getElem?_set_self hjl, if_neg hkq,
        UrcPool.leadsTo_eq (P := ⟨P.hands.set j (some (.urc q)), w'⟩) hl]
      rw [decide_eq_false]
      have e1 : (D.set j m).getD i 0 = D.getD i 0 := by simp [List.getD, List.getElem?_set_ne hne]
      have e2 : (D.set j m).getD j 0 = m := by simp [List.getD, K.len, hjl]
      rw [e1, e2]
      omega

/-- C110 for `Urc`: calls change nothing about handles that they do not make or, as `make_mut` does, change. -/
theorem C110_urc_stays {hist : List (UrcCmd α × Option (UrcOut α))} {P P' : UrcPool α} {D : List Nat}
    {cmd : UrcCmd α} {o : Option (UrcOut α)} (h : UrcHolds c hist P D) (hc : cmd.Callable P)
    (hh : UrcHappens c P cmd o P') {i j : Nat} {k l k' l' : UrcHand}
    (hi : P.hands[i]? = some (some k)) (hj : P.hands[j]? = some (some l))
    (hi' : P'.hands[i]? = some (some k')) (hj' : P'.hands[j]? = some (some l'))
    (hm : ∀ g, cmd ≠ .makeMut i g ∧ cmd ≠ .makeMut j g) :
    ∃ b, Urc.ptrEqKept D i j P.w = .ok b P.w ∧ Urc.ptrEqKept (cmd.data P P' D) i j P'.w = .ok b P'.w := by
  have K := h.kept
  have h' := h.step hc hh
  refine ⟨_, h.ptrEq hi hj, ?_⟩
  rw [h'.ptrEq hi' hj']
  have hil := (List.getElem?_eq_some_iff.mp hi).1
  have hjl := (List.getElem?_eq_some_iff.mp hj).1
  rw [← K.len] at hil hjl
  have app : ∀ d i, i < D.length → (D ++ [d]).getD i 0 = D.getD i 0 := fun d i hl => by
    simp [List.getD, List.getElem?_append_left hl]
  have e : (cmd.data P P' D).getD i 0 = D.getD i 0 ∧ (cmd.data P P' D).getD j 0 = D.getD j 0 := by
    cases cmd with
    | new x => simp only [UrcCmd.data]; split <;> simp only [app _ _ hil, app _ _ hjl, and_self]
    | clone m => simp only [UrcCmd.data]; split <;> simp only [app _ _ hil, app _ _ hjl, and_self]
    | envelop m => simp only [UrcCmd.data]; split <;> simp only [app _ _ hil, app _ _ hjl, and_self]
    | downgrade m => simp only [UrcCmd.data]; split <;> simp only [app _ _ hil, app _ _ hjl, and_self]
    | makeMut m g =>
      have h1 : m ≠ i := fun e => (hm g).1 (e ▸ rfl)
      have h2 : m ≠ j := fun e => (hm g).2 (e ▸ rfl)
      simp only [UrcCmd.data]
      split
      · split
        · exact ⟨rfl, rfl⟩
        · simp [List.getD, List.getElem?_set_ne h1, List.getElem?_set_ne h2]
      · exact ⟨rfl, rfl⟩
    | fromFence m =>
      obtain ⟨f, hf⟩ := hc
      obtain ⟨u, hu⟩ := Urc.fromFence_ub c f P.w
      have := hh.lands
      simp only [runUrc, hf, UrcPool.on, hu] at this
      rcases this with ⟨o, x⟩ | x <;> cases x
    | _ => exact ⟨rfl, rfl⟩
  rw [e.1, e.2]

/-- C67 after all histories: a handle reads the value at the address it keeps. The memory is there; only a value that
was moved out of it, by `make_mut` or `try_unwrap` (`C67_refuted_release`), is not. While the fence is there, this is
what `read` does. -/
theorem C67_kept_partial {hist : List (UrcCmd α × Option (UrcOut α))} {P : UrcPool α} {D : List Nat}
    (h : UrcHolds c hist P D) {i f : Nat} (hi : P.hands[i]? = some (some (.urc f))) :
    ∃ x, P.w.masters[D.getD i 0]? = some (some x) ∧
      (x.alive = true → Urc.readKept D i P.w = .ok x.val P.w) ∧
      (x.alive = false → Urc.readKept D i P.w = .ub .uninit) ∧
      ∀ F, P.w.fences[f]? = some (some F) → Urc.asRef f P.w = Urc.readKept D i P.w := by
  obtain ⟨x, hx⟩ := h.kept.there i _ hi
  refine ⟨x, hx, fun ha => ?_, fun ha => ?_, fun F hF => ?_⟩
  · simp only [Urc.readKept, Urc.data, M.bind_apply, Urc.master_eq hx, ha, if_true, M.pure_apply]
  · simp only [Urc.readKept, Urc.data, M.bind_apply, Urc.master_eq hx, ha, Bool.false_eq_true, if_false,
      M.undef_apply]
  · have e := h.kept.same i _ F hi hF
    simp only [Urc.readKept, Urc.asRef, M.bind_apply, Urc.fence_eq hF, e]

example : ∃ (hist : List (UrcCmd Nat × Option (UrcOut Nat))) (P : UrcPool Nat) (D : List Nat),
    UrcHolds cfg64 hist P D ∧ P.hands[1]? = some (some (.urc 0)) ∧ Urc.readKept D 1 P.w = .ok 7 P.w :=
  ⟨_, _, _, .step (cmd := .clone 0) (o := some .unit)
      (P' := ⟨[some (.urc 0), some (.urc 0)], ⟨[some ⟨1, 0, 7, true, 0⟩], [some ⟨2, 0, 0⟩], 2, 0, []⟩⟩)
      (.step (cmd := .new 7) (o := some .unit)
        (P' := ⟨[some (.urc 0)], ⟨[some ⟨1, 0, 7, true, 0⟩], [some ⟨1, 0, 0⟩], 2, 0, []⟩⟩)
        .start trivial (.ret rfl)) ⟨0, rfl⟩ (.ret rfl), rfl, rfl⟩

end Lokky
