import Verif.Proofs.UrcLost
import Verif.Proofs.Arc

/-!
# Client programs with `Urc` that make no `Weak` and take nothing apart

In these the count of fences of a value is exact.
-/

namespace Lokky
variable {α : Type} {c : Cfg α}

/-- The calls of these programs, with what they returned: all but `downgrade`, `make_mut`, `try_unwrap`,
`try_into_fence` and `into_urc`; none panicked; and `get_mut` always gave access. -/
def UrcCmd.Plain : UrcCmd α → Option (UrcOut α) → Prop
  | .new _, o | .clone _, o | .envelop _, o | .drop _, o | .read _, o | .strongCount _, o | .weakCount _, o
  | .isSole _, o => o ≠ none
  | .setMut _ _, o => ∃ v, o = some (.opt (some v))
  | _, _ => False

/-- The number of fences of a master. -/
def UrcWorld.fencesOf (w : UrcWorld α) (m : Nat) : Nat :=
  w.fences.countP fun o => o.any fun F => F.master == m

/-- What holds in these programs. -/
structure UrcPlain (P : UrcPool α) : Prop where
  count : ∀ (m : Nat) (x : UrcMaster α), P.w.masters[m]? = some (some x) → x.sf = P.w.fencesOf m ∧ x.wf = 0
  hands : ∀ (i : Nat) (k : UrcHand), P.hands[i]? = some (some k) → ∃ f, k = .urc f
  busy : ∀ (f : Nat) (F : UrcFence), P.w.fences[f]? = some (some F) → 0 < urcCount P.hands (.urc f)

namespace Urc
variable {w : UrcWorld α} {f : Nat} {F : UrcFence} {x : UrcMaster α}

theorem drop_last_eq (hF : w.fences[f]? = some (some F)) (hx : w.masters[F.master]? = some (some x))
    (hs : F.strong = 1) (hw : F.weak = 0) (h0 : x.sf ≠ 0) :
    drop c f w = .ok () { w with
      fences := w.fences.set f none
      masters := w.masters.set F.master (some { x with sf := x.sf - 1 }) } := by
  have hml := (List.getElem?_eq_some_iff.mp hx).1
  rw [drop, M.bind_apply, fence_eq hF]
  simp only [hs, hw, and_self, if_true]
  rw [M.bind_apply]
  simp only [freeFence, hF]
  rw [M.bind_apply, master_eq (x := x) (by simpa using hx)]
  simp only [putMaster, M.modify, M.bind_apply, wrapSub, h0, if_false]
  split
  · simp [M.bind_apply, dropData, dropMaster, master, hml]
  · rfl

theorem drop_more_eq (hF : w.fences[f]? = some (some F)) (hs : ¬ (F.strong = 1 ∧ F.weak = 0)) (h0 : 0 < F.strong) :
    drop c f w = .ok () { w with fences := w.fences.set f (some { F with strong := F.strong - 1 }) } := by
  rw [drop, M.bind_apply, fence_eq hF]
  simp only []
  rw [if_neg hs]
  exact decStrong_eq hF h0

theorem clone_eq (hF : w.fences[f]? = some (some F)) (h : F.strong < c.usizeMax) :
    clone c f w = .ok f { w with fences := w.fences.set f (some { F with strong := F.strong + 1 }) } := by
  rw [clone, M.bind_apply, incStrong_eq hF h]
  rfl

theorem envelop_eq (hF : w.fences[f]? = some (some F)) (hx : w.masters[F.master]? = some (some x))
    (h : x.sf < c.usizeMax) (hg : c.grant w.tick c.size = true) :
    envelop c f w = .ok w.fences.length { w with
      masters := w.masters.set F.master (some { x with sf := x.sf + 1, sent := x.sent + 1 })
      fences := w.fences ++ [some ⟨1, 0, F.master⟩], tick := w.tick + 1 } := by
  rw [envelop, M.bind_apply, fence_eq hF]
  simp only []
  rw [M.bind_apply, master_eq hx]
  simp only [M.bind_apply, putMaster, M.modify, wrapAdd, if_neg (Nat.ne_of_lt h)]
  unfold allocFence
  rw [if_pos hg]
  rfl

theorem envelop_refused (hF : w.fences[f]? = some (some F)) (hx : w.masters[F.master]? = some (some x))
    (hg : ¬ c.grant w.tick c.size = true) : ∃ w', envelop c f w = .panic w' := by
  rw [envelop, M.bind_apply, fence_eq hF]
  simp only []
  rw [M.bind_apply, master_eq hx]
  simp only [M.bind_apply, putMaster, M.modify]
  unfold allocFence
  rw [if_neg hg]
  exact ⟨_, rfl⟩

theorem getMut_one (hF : w.fences[f]? = some (some F)) (hx : w.masters[F.master]? = some (some x))
    (h0 : x.wf = 0) (h1 : x.sf = 1) : getMut c f w = .ok (F.strong == 1 && F.weak == 0) w := by
  have hml := (List.getElem?_eq_some_iff.mp hx).1
  rw [getMut, M.bind_apply, fence_eq hF]
  simp only []
  rw [M.bind_apply, master_eq hx]
  simp only [h0, if_true]
  rw [M.bind_apply]
  simp only [putMaster, M.modify]
  rw [M.bind_apply, master_eq (x := { x with wf := c.usizeMax }) (by simp [hml])]
  simp only [h1, if_true, M.bind_apply, M.modify, M.pure_apply, List.set_set]
  rw [show ({ sf := 1, wf := 0, val := x.val, alive := x.alive, sent := x.sent } : UrcMaster α) = x from by
    rw [← h1, ← h0]]
  rw [set_same hx]

theorem getMut_more (hF : w.fences[f]? = some (some F)) (hx : w.masters[F.master]? = some (some x))
    (h1 : x.sf ≠ 1) : ∃ w', getMut c f w = .ok false w' := by
  have hml := (List.getElem?_eq_some_iff.mp hx).1
  rw [getMut, M.bind_apply, fence_eq hF]
  simp only []
  rw [M.bind_apply, master_eq hx]
  by_cases h0 : x.wf = 0
  · simp only [h0, if_true]
    rw [M.bind_apply]
    simp only [putMaster, M.modify]
    rw [M.bind_apply, master_eq (x := { x with wf := c.usizeMax }) (by simp [hml])]
    simp only [h1, if_false, M.pure_apply]
    exact ⟨_, rfl⟩
  · simp only [h0, if_false, M.pure_apply]
    exact ⟨_, rfl⟩

theorem write_eq (hF : w.fences[f]? = some (some F)) (hx : w.masters[F.master]? = some (some x))
    (ha : x.alive = true) (g : α → α) :
    write f g w = .ok x.val { w with masters := w.masters.set F.master (some { x with val := g x.val }) } := by
  rw [write, M.bind_apply, fence_eq hF]
  simp only []
  rw [M.bind_apply, data_eq hx ha]
  simp only []
  rw [M.bind_apply, master_eq hx]
  rfl

end Urc

theorem fencesOf_push (L : List (Option UrcFence)) (F : UrcFence) (m : Nat) :
    (L ++ [some F]).countP (fun o => o.any fun F => F.master == m) =
      L.countP (fun o => o.any fun F => F.master == m) + if F.master = m then 1 else 0 := by
  simp [List.countP_append, List.countP_cons]

theorem fencesOf_free {L : List (Option UrcFence)} {f : Nat} {F : UrcFence} (hF : L[f]? = some (some F)) (m : Nat) :
    (L.set f none).countP (fun o => o.any fun F => F.master == m) + (if F.master = m then 1 else 0) =
      L.countP (fun o => o.any fun F => F.master == m) := by
  have := countP_set_add (fun o : Option UrcFence => o.any fun F => F.master == m) hF none
  simp at this
  by_cases e : F.master = m
  · simp [e] at this ⊢
    exact this
  · have e' : (F.master == m) = false := by simpa using e
    simp [e, e'] at this ⊢
    exact this

theorem fencesOf_set {L : List (Option UrcFence)} {f : Nat} {F F' : UrcFence} (hF : L[f]? = some (some F))
    (hm : F'.master = F.master) (m : Nat) :
    (L.set f (some F')).countP (fun o => o.any fun F => F.master == m) =
      L.countP (fun o => o.any fun F => F.master == m) := by
  have := countP_set_add (fun o : Option UrcFence => o.any fun F => F.master == m) hF (some F')
  simp [hm] at this
  omega

/-- There is one fence or more than one. -/
theorem fencesOf_one {w : UrcWorld α} {f m : Nat} {F : UrcFence} (hF : w.fences[f]? = some (some F))
    (hm : F.master = m) :
    w.fencesOf m = 1 ↔ ∀ g G, w.fences[g]? = some (some G) → G.master = m → g = f := by
  have h1 := fencesOf_free hF m
  rw [if_pos hm] at h1
  have hl := (List.getElem?_eq_some_iff.mp hF).1
  unfold UrcWorld.fencesOf
  constructor
  · intro h g G hG hGm
    refine Decidable.byContradiction fun ne => ?_
    have h0 : (w.fences.set f none).countP (fun o => o.any fun F => F.master == m) = 0 := by omega
    rw [List.countP_eq_zero] at h0
    have hg := (List.getElem?_eq_some_iff.mp hG)
    refine h0 (some G) ?_ (by simp [hGm])
    refine List.mem_of_getElem? (i := g) ?_
    rw [List.getElem?_set_ne (Ne.symm ne)]
    exact hG
  · intro h
    have h0 : (w.fences.set f none).countP (fun o => o.any fun F => F.master == m) = 0 := by
      rw [List.countP_eq_zero]
      intro o ho
      obtain ⟨g, hg⟩ := List.mem_iff_getElem?.mp ho
      by_cases e : f = g
      · subst e
        rw [List.getElem?_set_self hl] at hg
        cases hg
        simp
      · rw [List.getElem?_set_ne e] at hg
        cases o with
        | none => simp
        | some G =>
          intro hc
          exact e (h g G hg (by simpa using hc)).symm
    omega

namespace UrcPlain
variable {n : Nat} {P P' : UrcPool α}

theorem same (Q : UrcPlain P) (h : P' = P) : UrcPlain P' := h ▸ Q

theorem step (I : UrcInv n P) (hn : n < c.usizeMax) (Q : UrcPlain P) {cmd : UrcCmd α} {o : Option (UrcOut α)}
    (hc : cmd.Callable P) (hh : UrcHappens c P cmd o P') (hp : cmd.Plain o) : UrcPlain P' := by
  cases hh with
  | panic e =>
    cases cmd <;> first
      | exact (hp rfl).elim
      | (obtain ⟨_, h⟩ := hp; cases h)
      | exact hp.elim
  | ret e =>
    cases cmd with
    | new x =>
      simp only [runUrc, UrcPool.make, UrcPool.on] at e
      have hnew := (I.ok.more (Nat.le_succ n)).new (c := c) (by omega) x
      cases hr : Urc.new c x P.w with
      | panic w' => rw [hr] at e; cases e
      | abort => rw [hr] at e; cases e
      | ub u => rw [hr] at e; cases e
      | ok f w' =>
        rw [hr] at e hnew
        obtain ⟨-, -, rfl, hf, hm⟩ := hnew
        cases e
        have h0 : P.w.fencesOf P.w.masters.length = 0 := by
          unfold UrcWorld.fencesOf
          rw [List.countP_eq_zero]
          intro o ho
          obtain ⟨g, hg⟩ := List.mem_iff_getElem?.mp ho
          cases o with
          | none => simp
          | some G =>
            intro hc
            obtain ⟨y, hy⟩ := I.ok.hasMaster g G hg
            have := (List.getElem?_eq_some_iff.mp hy).1
            simp at hc
            omega
        refine ⟨fun m y hy => ?_, fun i k hk => ?_, fun f F hF => ?_⟩
        · simp only [hm] at hy
          have hl := (List.getElem?_eq_some_iff.mp hy).1
          simp only [UrcWorld.fencesOf, hf, fencesOf_push]
          by_cases e : m < P.w.masters.length
          · rw [List.getElem?_append_left e] at hy
            rw [if_neg (by omega)]
            exact Q.count m y hy
          · simp only [List.length_append, List.length_cons, List.length_nil] at hl
            obtain rfl : m = P.w.masters.length := by omega
            simp at hy
            subst hy
            rw [if_pos rfl]
            exact ⟨by have := h0; unfold UrcWorld.fencesOf at this; simp only []; omega, rfl⟩
        · have hl := (List.getElem?_eq_some_iff.mp hk).1
          by_cases e : i < P.hands.length
          · exact Q.hands i k (by simpa [List.getElem?_append_left e] using hk)
          · simp only [List.length_append, List.length_cons, List.length_nil] at hl
            obtain rfl : i = P.hands.length := by omega
            simp at hk
            exact ⟨_, hk.symm⟩
        · simp only [hf] at hF
          simp only [urcCount_push]
          by_cases e : f < P.w.fences.length
          · rw [List.getElem?_append_left e] at hF
            have := Q.busy f F hF
            unfold moreHand
            omega
          · have hl := (List.getElem?_eq_some_iff.mp hF).1
            simp only [List.length_append, List.length_cons, List.length_nil] at hl
            obtain rfl : f = P.w.fences.length := by omega
            rw [moreHand_self]
            omega
    | clone h =>
      obtain ⟨f, hf⟩ := hc
      obtain ⟨F, x, hF, hx, ha, -⟩ := I.ok.owner (urcCount_pos hf) trivial
      simp only [UrcHand.at] at hF
      obtain ⟨e1, e2, e3⟩ := I.ok.atUrc (urcCount_pos hf) hF
      have := I.ok.small (.urc f)
      simp only [runUrc, hf, UrcPool.make, UrcPool.on, Urc.clone_eq (c := c) hF (by omega)] at e
      cases e
      have hl := (List.getElem?_eq_some_iff.mp hF).1
      refine ⟨fun m y hy => ?_, fun i k hk => ?_, fun g G hG => ?_⟩
      · have := Q.count m y hy
        simp only [UrcWorld.fencesOf] at this ⊢
        rw [fencesOf_set (F' := { F with strong := F.strong + 1 }) hF rfl]
        exact this
      · have hl := (List.getElem?_eq_some_iff.mp hk).1
        by_cases e : i < P.hands.length
        · exact Q.hands i k (by simpa [List.getElem?_append_left e] using hk)
        · simp only [List.length_append, List.length_cons, List.length_nil] at hl
          obtain rfl : i = P.hands.length := by omega
          simp at hk
          exact ⟨_, hk.symm⟩
      · simp only [urcCount_push, moreHand]
        by_cases e : f = g
        · subst e
          have := urcCount_pos hf
          omega
        · simp only [List.getElem?_set_ne e] at hG
          have := Q.busy g G hG
          omega
    | envelop h =>
      obtain ⟨f, hf⟩ := hc
      obtain ⟨F, x, hF, hx, ha, -⟩ := I.ok.owner (urcCount_pos hf) trivial
      simp only [UrcHand.at] at hF
      have hfew := (I.ok.master _ _ hx).few
      by_cases hg : c.grant P.w.tick c.size = true
      · simp only [runUrc, hf, UrcPool.make, UrcPool.on, Urc.envelop_eq (c := c) hF hx (by omega) hg] at e
        cases e
        have hml := (List.getElem?_eq_some_iff.mp hx).1
        refine ⟨fun m y hy => ?_, fun i k hk => ?_, fun g G hG => ?_⟩
        · simp only [UrcWorld.fencesOf, fencesOf_push]
          by_cases e : F.master = m
          · subst e
            rw [List.getElem?_set_self hml] at hy
            cases hy
            rw [if_pos rfl]
            have := Q.count _ x hx
            simp only [UrcWorld.fencesOf] at this ⊢
            omega
          · simp only [List.getElem?_set_ne e] at hy
            rw [if_neg e]
            exact Q.count m y hy
        · have hl := (List.getElem?_eq_some_iff.mp hk).1
          by_cases e : i < P.hands.length
          · exact Q.hands i k (by simpa [List.getElem?_append_left e] using hk)
          · simp only [List.length_append, List.length_cons, List.length_nil] at hl
            obtain rfl : i = P.hands.length := by omega
            simp at hk
            exact ⟨_, hk.symm⟩
        · simp only [urcCount_push]
          by_cases e : g < P.w.fences.length
          · simp only [List.getElem?_append_left e] at hG
            have := Q.busy g G hG
            unfold moreHand
            omega
          · have hl := (List.getElem?_eq_some_iff.mp hG).1
            simp only [List.length_append, List.length_cons, List.length_nil] at hl
            obtain rfl : g = P.w.fences.length := by omega
            rw [moreHand_self]
            omega
      · obtain ⟨w', hr⟩ := Urc.envelop_refused (c := c) hF hx hg
        simp only [runUrc, hf, UrcPool.make, UrcPool.on, hr] at e
        cases e
    | drop h =>
      obtain ⟨k, hk⟩ := hc
      obtain ⟨f, rfl⟩ := Q.hands h k hk
      obtain ⟨F, x, hF, hx, ha, h1⟩ := I.ok.owner (urcCount_pos hk) trivial
      simp only [UrcHand.at] at hF
      obtain ⟨e1, e2, e3⟩ := I.ok.atUrc (urcCount_pos hk) hF
      have hw0 : F.weak = 0 := by
        rw [e2]
        refine Nat.eq_zero_of_not_pos fun hpos => ?_
        obtain ⟨i, hi⟩ := List.mem_iff_getElem?.mp (List.count_pos_iff.mp hpos)
        obtain ⟨g, hg⟩ := Q.hands i _ hi
        cases hg
      have hhands : ∀ (i : Nat) (k : UrcHand), (P.hands.set h none)[i]? = some (some k) → ∃ f, k = .urc f := by
        intro i k hi
        by_cases e : h = i
        · subst e
          have := (List.getElem?_eq_some_iff.mp hk).1
          rw [List.getElem?_set_self this] at hi
          cases hi
        · rw [List.getElem?_set_ne e] at hi
          exact Q.hands i k hi
      have hl := (List.getElem?_eq_some_iff.mp hF).1
      by_cases hs : F.strong = 1
      · simp only [runUrc, hk, UrcPool.on, Urc.drop_last_eq (c := c) hF hx hs hw0 (by omega)] at e
        cases e
        have hml := (List.getElem?_eq_some_iff.mp hx).1
        refine ⟨fun m y hy => ?_, hhands, fun g G hG => ?_⟩
        · have hfree := fencesOf_free hF m
          simp only [UrcWorld.fencesOf]
          by_cases e : F.master = m
          · subst e
            simp only [List.getElem?_set_self hml, Option.some.injEq] at hy
            cases hy
            rw [if_pos rfl] at hfree
            have := Q.count _ x hx
            simp only [UrcWorld.fencesOf] at this ⊢
            omega
          · simp only [List.getElem?_set_ne e] at hy
            rw [if_neg e] at hfree
            have := Q.count m y hy
            simp only [UrcWorld.fencesOf] at this ⊢
            omega
        · by_cases e : f = g
          · subst e
            simp only [List.getElem?_set_self hl] at hG
            cases hG
          · simp only [List.getElem?_set_ne e] at hG
            simp only [urcCount_less hk]
            rw [lessHand_ne _ (by simpa using fun h => e h.symm)]
            exact Q.busy g G hG
      · have hpos := urcCount_pos hk
        simp only [runUrc, hk, UrcPool.on, Urc.drop_more_eq (c := c) hF (fun h => hs h.1) (by omega)] at e
        cases e
        refine ⟨fun m y hy => ?_, hhands, fun g G hG => ?_⟩
        · have := Q.count m y hy
          simp only [UrcWorld.fencesOf] at this ⊢
          rw [fencesOf_set (F' := { F with strong := F.strong - 1 }) hF rfl]
          exact this
        · simp only [urcCount_less hk]
          by_cases e : f = g
          · subst e
            rw [lessHand_self]
            omega
          · simp only [List.getElem?_set_ne e] at hG
            rw [lessHand_ne _ (by simpa using fun h => e h.symm)]
            exact Q.busy g G hG
    | read h =>
      obtain ⟨f, hf⟩ := hc
      obtain ⟨F, x, hF, hx, ha, -⟩ := I.ok.owner (urcCount_pos hf) trivial
      simp only [runUrc, hf, UrcPool.look, UrcPool.on, Urc.asRef_eq (f := f) hF hx ha] at e
      cases e
      exact Q
    | strongCount h =>
      rcases hc with ⟨f, hf⟩ | ⟨f, hf⟩
      all_goals
        obtain ⟨F, hF⟩ := I.ok.live _ (urcCount_pos hf)
        simp only [runUrc, hf, UrcPool.look, UrcPool.on, Urc.fence_eq (f := f) hF] at e
        cases e
        exact Q
    | weakCount h =>
      rcases hc with ⟨f, hf⟩ | ⟨f, hf⟩
      all_goals
        obtain ⟨F, hF⟩ := I.ok.live _ (urcCount_pos hf)
        simp only [runUrc, hf, UrcPool.look, UrcPool.on, Urc.fence_eq (f := f) hF] at e
        cases e
        exact Q
    | isSole h =>
      obtain ⟨f, hf⟩ := hc
      obtain ⟨F, x, hF, hx, ha, -⟩ := I.ok.owner (urcCount_pos hf) trivial
      simp only [runUrc, hf, UrcPool.look, UrcPool.on, Urc.isSole, M.bind_apply, Urc.fence_eq (f := f) hF,
        Urc.master_eq hx, M.pure_apply] at e
      cases e
      exact Q
    | setMut h v =>
      obtain ⟨f, hf⟩ := hc
      obtain ⟨old, ho⟩ := hp
      cases ho
      have hpos := urcCount_pos hf
      obtain ⟨F, x, hF, hx, ha, -⟩ := I.ok.owner hpos trivial
      simp only [UrcHand.at] at hF
      by_cases h1 : x.sf = 1
      · have h2 := Urc.getMut_one (c := c) hF hx (Q.count _ x hx).2 h1
        have h3 := Urc.write_eq hF hx ha fun _ => v
        simp only [runUrc, hf, UrcPool.look, UrcPool.on, M.bind_apply, h2] at e
        cases hb : (F.strong == 1 && F.weak == 0) with
        | false => rw [hb] at e; simp [M.pure_apply] at e
        | true =>
          rw [hb] at e
          simp only [if_true, M.bind_apply, h3, M.pure_apply] at e
          cases e
          have hml := (List.getElem?_eq_some_iff.mp hx).1
          refine ⟨fun m y hy => ?_, Q.hands, Q.busy⟩
          by_cases e : F.master = m
          · subst e
            simp only [List.getElem?_set_self hml, Option.some.injEq] at hy
            cases hy
            exact Q.count _ x hx
          · simp only [List.getElem?_set_ne e] at hy
            exact Q.count m y hy
      · obtain ⟨w', h2⟩ := Urc.getMut_more (c := c) hF hx h1
        simp [runUrc, hf, UrcPool.look, UrcPool.on, M.bind_apply, h2, M.pure_apply] at e
    | downgrade h => exact hp.elim
    | makeMut h g => exact hp.elim
    | tryUnwrap h => exact hp.elim
    | intoFence h => exact hp.elim
    | fromFence h => exact hp.elim

theorem start : UrcPlain (UrcPool.start : UrcPool α) where
  count m x hx := by simp [UrcPool.start] at hx
  hands i k hk := by simp [UrcPool.start] at hk
  busy f F hF := by simp [UrcPool.start] at hF

end UrcPlain

theorem UrcReaches.plain {hist : List (UrcCmd α × Option (UrcOut α))} {P : UrcPool α}
    (h : UrcReaches c (UrcCmd.Permitted c) hist P) (hl : hist.length ≤ c.usizeMax)
    (hp : ∀ e ∈ hist, e.1.Plain e.2) : UrcPlain P := by
  induction h with
  | start => exact UrcPlain.start
  | @step hist P P' cmd o h hok hh ih =>
    simp only [List.length_append, List.length_cons, List.length_nil] at hl
    exact UrcPlain.step (h.inv (by omega)) (by omega) (ih (by omega) fun e he => hp e (by simp [he])) hok.1 hh
      (hp (cmd, o) (by simp))

end Lokky
