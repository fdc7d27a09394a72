import Verif.Proofs.UrcMake

/-!
# Client programs with `Urc`
-/

namespace Lokky
variable {α : Type} {c : Cfg α}

/-- The number of handles `k`. -/
def urcCount (H : List (Option UrcHand)) (k : UrcHand) : Nat := H.count (some k)

/-- What holds after at most `n` calls. -/
structure UrcInv (n : Nat) (P : UrcPool α) : Prop where
  ok : UrcOk n P.w (urcCount P.hands)
  len : P.hands.length ≤ n

/-- The handle a call takes or changes, or through which it writes. -/
def UrcCmd.target : UrcCmd α → Option Nat
  | .drop h | .setMut h _ | .makeMut h _ | .tryUnwrap h | .intoFence h | .fromFence h => some h
  | _ => none

section
variable {H : List (Option UrcHand)} {h i : Nat} {k : UrcHand}

theorem urcCount_pos (hk : H[h]? = some (some k)) : 0 < urcCount H k := by
  obtain ⟨hl, e⟩ := List.getElem?_eq_some_iff.mp hk
  exact List.count_pos_iff.mpr (e ▸ List.getElem_mem hl)

theorem urcCount_push (H : List (Option UrcHand)) (k : UrcHand) :
    urcCount (H ++ [some k]) = moreHand (urcCount H) k := by
  funext j
  simp only [urcCount, moreHand, List.count_append, List.count_singleton, beq_iff_eq, Option.some.injEq]
  simp only [eq_comm]

theorem urcCount_less (hk : H[h]? = some (some k)) : urcCount (H.set h none) = lessHand (urcCount H) k := by
  funext j
  obtain ⟨hl, e⟩ := List.getElem?_eq_some_iff.mp hk
  simp only [urcCount, lessHand]
  rw [List.count_set hl, e]
  simp only [beq_iff_eq, Option.some.injEq, reduceCtorEq, if_false, Nat.add_zero]
  simp only [eq_comm]

theorem urcCount_set (hk : H[h]? = some (some k)) (k' : UrcHand) :
    urcCount (H.set h (some k')) = moreHand (lessHand (urcCount H) k) k' := by
  funext j
  obtain ⟨hl, e⟩ := List.getElem?_eq_some_iff.mp hk
  simp only [urcCount, lessHand, moreHand]
  rw [List.count_set hl, e]
  simp only [beq_iff_eq, Option.some.injEq]
  simp only [eq_comm]

theorem urcCount_other (hk : H[h]? = some (some k)) (hi : i ≠ h) {j : UrcHand} (hj : H[i]? = some (some j)) :
    0 < lessHand (urcCount H) k j := by
  rw [← urcCount_less hk]
  exact urcCount_pos (h := i) (by rw [List.getElem?_set_ne (Ne.symm hi)]; exact hj)

end

/-- What a call does to the handles it does not take: they stay, and read the same. -/
def UrcFrame (P : UrcPool α) (cmd : UrcCmd α) (P' : UrcPool α) : Prop :=
  ∀ i g, cmd.target ≠ some i → P.hands[i]? = some (some (.urc g)) →
    P'.hands[i]? = some (some (.urc g)) ∧ ∀ v, UrcSees P.w g v → UrcSees P'.w g v

/-- A call returns or panics, and what held before holds after it. -/
def UrcDoes (n : Nat) (P : UrcPool α) (cmd : UrcCmd α) (r : Res (UrcPool α) (UrcOut α)) : Prop :=
  match r with
  | .ok _ P' => UrcInv (n + 1) P' ∧ UrcFrame P cmd P'
  | .panic P' => UrcInv (n + 1) P' ∧ UrcFrame P cmd P'
  | _ => False

namespace UrcInv
variable {n : Nat} {P : UrcPool α}

theorem more (I : UrcInv n P) : UrcInv (n + 1) P :=
  ⟨I.ok.more (Nat.le_succ n), Nat.le_succ_of_le I.len⟩

theorem frame_refl (cmd : UrcCmd α) : UrcFrame P cmd P := fun _ _ _ hk => ⟨hk, fun _ h => h⟩

/-- A call that only looks. -/
theorem look (I : UrcInv n P) {β : Type} {m : M (UrcWorld α) β} {out : β → UrcOut α} {a : β}
    (h : m P.w = .ok a P.w) (cmd : UrcCmd α) : UrcDoes n P cmd (UrcPool.look m out P) := by
  simp only [UrcPool.look, UrcPool.on, h]
  exact ⟨I.more, frame_refl cmd⟩

theorem pushed (I : UrcInv n P) {k : UrcHand} {w' : UrcWorld α}
    (J : UrcOk (n + 1) w' (moreHand (urcCount P.hands) k)) (hk : UrcKeeps (fun _ => True) P.w w')
    (cmd : UrcCmd α) : UrcInv (n + 1) ⟨P.hands ++ [some k], w'⟩ ∧ UrcFrame P cmd ⟨P.hands ++ [some k], w'⟩ := by
  refine ⟨⟨urcCount_push P.hands k ▸ J, ?_⟩, fun i g _ hi => ⟨?_, fun v hv => hk g v trivial hv⟩⟩
  · have := I.len
    simp only [List.length_append, List.length_cons, List.length_nil]
    omega
  · have := (List.getElem?_eq_some_iff.mp hi).1
    simpa only [List.getElem?_append_left this] using hi

theorem stay (I : UrcInv n P) {w' : UrcWorld α} (J : UrcOk (n + 1) w' (urcCount P.hands))
    (hk : UrcKeeps (fun _ => True) P.w w') (cmd : UrcCmd α) :
    UrcInv (n + 1) ⟨P.hands, w'⟩ ∧ UrcFrame P cmd ⟨P.hands, w'⟩ :=
  ⟨⟨J, Nat.le_succ_of_le I.len⟩, fun _ g _ hi => ⟨hi, fun v hv => hk g v trivial hv⟩⟩

/-- Handle `h` is replaced. -/
theorem changed (I : UrcInv n P) {h : Nat} {k : UrcHand} {k' : Option UrcHand} {w' : UrcWorld α} {cmd : UrcCmd α}
    (ht : cmd.target = some h) (hk : P.hands[h]? = some (some k))
    (J : UrcOk (n + 1) w' (urcCount (P.hands.set h k')))
    (hkeep : UrcKeeps (fun g => 0 < lessHand (urcCount P.hands) k (.urc g)) P.w w') :
    UrcInv (n + 1) ⟨P.hands.set h k', w'⟩ ∧ UrcFrame P cmd ⟨P.hands.set h k', w'⟩ := by
  refine ⟨⟨J, ?_⟩, fun i g hi hg => ?_⟩
  · have := I.len
    simp only [List.length_set]
    omega
  · have hne : i ≠ h := fun e => hi (e ▸ ht)
    exact ⟨by rw [List.getElem?_set_ne (Ne.symm hne)]; exact hg,
      fun v hv => hkeep g v (urcCount_other hk hne hg) hv⟩

/-- Handle `h` stays; something may have been written through it. -/
theorem written (I : UrcInv n P) {h : Nat} {k : UrcHand} {w' : UrcWorld α} {cmd : UrcCmd α}
    (ht : cmd.target = some h) (hk : P.hands[h]? = some (some k))
    (J : UrcOk (n + 1) w' (urcCount P.hands))
    (hkeep : UrcKeeps (fun g => 0 < lessHand (urcCount P.hands) k (.urc g)) P.w w') :
    UrcInv (n + 1) ⟨P.hands, w'⟩ ∧ UrcFrame P cmd ⟨P.hands, w'⟩ := by
  refine ⟨⟨J, Nat.le_succ_of_le I.len⟩, fun i g hi hg => ?_⟩
  have hne : i ≠ h := fun e => hi (e ▸ ht)
  exact ⟨hg, fun v hv => hkeep g v (urcCount_other hk hne hg) hv⟩

/-- `get_mut` and writing through it. -/
theorem setMut (I : UrcInv n P) {h f : Nat} (hk : P.hands[h]? = some (some (.urc f))) (v : α) :
    ∃ r w' F x, runUrc c (.setMut h v) P = .ok (.opt r) ⟨P.hands, w'⟩ ∧
      P.w.fences[f]? = some (some F) ∧ P.w.masters[F.master]? = some (some x) ∧ x.alive = true ∧
      UrcOk n w' (urcCount P.hands) ∧
      UrcKeeps (fun g => 0 < lessHand (urcCount P.hands) (.urc f) (.urc g)) P.w w' ∧
      (r ≠ none → r = some x.val ∧ x.sf = 1 ∧ urcCount P.hands (.urc f) = 1 ∧
        urcCount P.hands (.weak f F.master) = 0 ∧ UrcSees w' f v) ∧
      (r = none → UrcKeeps (fun _ => True) P.w w') ∧
      (x.sent = 0 → urcCount P.hands (.urc f) = 1 → urcCount P.hands (.weak f F.master) = 0 → r = some x.val) := by
  have hp := urcCount_pos hk
  obtain ⟨b, w1, hr, J, hkeep, hf1, F, x, hF, hx, hb1, hb2⟩ := I.ok.getMut (c := c) hp
  obtain ⟨F', x', hF', hx', ha, _⟩ := I.ok.owner hp trivial
  obtain rfl : F = F' := Option.some.inj (Option.some.inj (hF.symm.trans hF'))
  obtain rfl : x = x' := Option.some.inj (Option.some.inj (hx.symm.trans hx'))
  cases b with
  | false =>
    refine ⟨none, w1, F, x, ?_, hF, hx, ha, J, fun g v _ hv => hkeep g v trivial hv, fun h => (h rfl).elim,
      fun _ => hkeep, fun a b d => by cases hb2 a b d⟩
    simp only [runUrc, hk, UrcPool.look, UrcPool.on, M.bind_apply, hr]
    rfl
  | true =>
    obtain ⟨h1, h2, h3, h4⟩ := hb1 rfl
    obtain ⟨w2, hr2, J2, hs2, hk2, _⟩ := J.write h2 (hf1 ▸ hF) h4 h1 ha (fun _ => v)
    refine ⟨some x.val, w2, F, x, ?_, hF, hx, ha, J2, ?_, fun _ => ⟨rfl, h1, h2, h3, hs2⟩, (fun h => by cases h),
      fun _ _ _ => rfl⟩
    · simp only [runUrc, hk, UrcPool.look, UrcPool.on, M.bind_apply, hr, if_true, hr2, M.pure_apply]
    · exact UrcKeeps.trans (fun g v _ hv => hkeep g v trivial hv) hk2 fun _ h => h

/-- `make_mut` and changing the value. -/
theorem makeMut (I : UrcInv n P) {h f : Nat} (hk : P.hands[h]? = some (some (.urc f))) {F : UrcFence}
    {x : UrcMaster α} (hF : P.w.fences[f]? = some (some F)) (hx : P.w.masters[F.master]? = some (some x))
    (hp : x.sf ≠ 1 ∨ (x.wf = 1 ∧ F.weak ≠ 0 ∧ F.strong ≠ 1) ∨
      (c.debug = false ∧ F.strong = 1 ∧ P.w.Granted c)) (g : α → α) :
    match runUrc c (.makeMut h g) P with
    | .ok o P' => (UrcInv (n + 1) P' ∧ UrcFrame P (.makeMut h g) P') ∧
        ∃ q w' v, P' = ⟨P.hands.set h (some (.urc q)), w'⟩ ∧ o = .val v ∧ UrcSees w' q (g v) ∧
          urcCount (P.hands.set h (some (.urc q))) (.urc q) = 1 ∧
          (∀ k, k.at = q → k ≠ .urc q → urcCount (P.hands.set h (some (.urc q))) k = 0) ∧
          (v = x.val ∨ c.clone P.w.calls x.val = some v) ∧
          ∃ F' x', w'.fences[q]? = some (some F') ∧ w'.masters[F'.master]? = some (some x') ∧
            x'.alive = true ∧ x'.sf = 1
    | .panic P' => (UrcInv (n + 1) P' ∧ UrcFrame P (.makeMut h g) P') ∧ P'.hands = P.hands ∧
        UrcKeeps (fun _ => True) P.w P'.w ∧ (¬ P.w.Granted c ∨ c.clone P.w.calls x.val = none)
    | _ => False := by
  have hpos := urcCount_pos hk
  have h1 : 1 ≤ n + 1 := by omega
  have hm := (I.ok.more (Nat.le_succ n)).makeMut (c := c) h1 hpos hF hx hp
  simp only [runUrc, hk, UrcPool.makeMut]
  cases hr : Urc.makeMut c (f, P.w) with
  | abort => rw [hr] at hm; exact hm.elim
  | ub u => rw [hr] at hm; exact hm.elim
  | panic s =>
    obtain ⟨q, w'⟩ := s
    rw [hr] at hm
    obtain ⟨rfl, J, hkeep, hwhy⟩ := hm
    simp only [set_same hk]
    exact ⟨I.stay J hkeep _, trivial, hkeep, hwhy⟩
  | ok u s =>
    obtain ⟨q, w'⟩ := s
    rw [hr] at hm
    obtain ⟨J, hkeep, hone, m, v, hFq, hmq, _, hv⟩ := hm
    obtain ⟨w2, hr2, J2, hs2, hk2, hFw, hmw⟩ := J.write hone hFq hmq rfl rfl g
    simp only [UrcPool.on, hr2]
    have hc := urcCount_set hk (.urc q)
    obtain ⟨a1, a2, a3⟩ := J.atUrc (by omega) hFq
    refine ⟨I.changed (cmd := .makeMut h g) rfl hk (hc ▸ J2) ?_, q, w2, v, rfl, rfl, hs2, hc ▸ hone, ?_, hv,
      _, _, hFw, hmw, rfl, rfl⟩
    · refine hkeep.trans hk2 fun g' hg' => ?_
      by_cases e : g' = q
      · subst e
        exfalso
        rw [moreHand_self] at hone
        omega
      · rw [lessHand_ne _ (by simpa using e), moreHand_ne _ (by simpa using e)]
        exact hg'
    · intro k hkq hne
      rw [hc]
      cases k with
      | urc g' => simp only [UrcHand.at] at hkq; subst hkq; exact (hne rfl).elim
      | fence g' => simp only [UrcHand.at] at hkq; subst hkq; exact a3
      | weak g' m' =>
        simp only [UrcHand.at] at hkq
        subst hkq
        refine Nat.eq_zero_of_not_pos fun hp' => ?_
        have h5 : m = m' := (J.fence _ _ hFq).fits _ hp' rfl
        subst h5
        simp only [] at a2
        omega

/-- Permitted calls return or panic, and what held before holds after them. -/
theorem does (I : UrcInv n P) (hn : n < c.usizeMax) {cmd : UrcCmd α} (hp : cmd.Permitted c P) :
    UrcDoes n P cmd (runUrc c cmd P) := by
  obtain ⟨hc, hp⟩ := hp
  have IO := I.ok.more (Nat.le_succ n)
  cases cmd with
  | new x =>
    have := IO.new (c := c) (by omega) x
    simp only [runUrc, UrcPool.make, UrcPool.on]
    cases hr : Urc.new c x P.w with
    | ok f w' => rw [hr] at this; exact I.pushed this.1 this.2.1 _
    | panic w' => rw [hr] at this; exact I.stay this.1 this.2.1 _
    | abort => rw [hr] at this; exact this.elim
    | ub u => rw [hr] at this; exact this.elim
  | clone h =>
    obtain ⟨f, hf⟩ := hc
    obtain ⟨w', hr, J, hk⟩ := I.ok.clone (c := c) (urcCount_pos hf) hn
    simp only [runUrc, hf, UrcPool.make, UrcPool.on, hr]
    exact I.pushed J hk _
  | downgrade h =>
    obtain ⟨f, hf⟩ := hc
    obtain ⟨w', m, hr, J, hk⟩ := I.ok.downgrade (c := c) (urcCount_pos hf) hn
    simp only [runUrc, hf, UrcPool.make, UrcPool.on, hr]
    exact I.pushed J hk _
  | envelop h =>
    obtain ⟨f, hf⟩ := hc
    have := I.ok.envelop (c := c) (urcCount_pos hf) hn
    simp only [runUrc, hf, UrcPool.make, UrcPool.on]
    cases hr : Urc.envelop c f P.w with
    | ok f w' => rw [hr] at this; exact I.pushed this.1 this.2.1 _
    | panic w' => rw [hr] at this; exact I.stay this.1 this.2 _
    | abort => rw [hr] at this; exact this.elim
    | ub u => rw [hr] at this; exact this.elim
  | drop h =>
    obtain ⟨k, hk⟩ := hc
    cases k with
    | urc f =>
      obtain ⟨w', hr, J, hkeep, _⟩ := IO.drop (c := c) (urcCount_pos hk)
      simp only [runUrc, hk, UrcPool.on, hr]
      exact I.changed rfl hk (urcCount_less hk ▸ J) hkeep
    | weak f m =>
      obtain ⟨w', hr, J, hkeep⟩ := IO.weakDrop (c := c) (urcCount_pos hk)
      simp only [runUrc, hk, UrcPool.on, hr]
      exact I.changed rfl hk (urcCount_less hk ▸ J) fun g v _ hv => hkeep g v trivial hv
    | fence f =>
      obtain ⟨w', hr, J, hkeep⟩ := IO.fenceDrop (urcCount_pos hk)
      simp only [runUrc, hk, UrcPool.on, hr]
      refine I.changed rfl hk (urcCount_less hk ▸ J) fun g v hg hv => hkeep g v ?_ hv
      have := lessHand_le (urcCount P.hands) (.fence f) (.urc g)
      omega
  | read h =>
    obtain ⟨f, hf⟩ := hc
    obtain ⟨F, x, hF, hx, ha, _⟩ := I.ok.owner (urcCount_pos hf) trivial
    simp only [runUrc, hf]
    exact I.look (Urc.asRef_eq hF hx ha) _
  | strongCount h =>
    rcases hc with ⟨f, hf⟩ | ⟨f, hf⟩
    all_goals
      obtain ⟨F, hF⟩ := I.ok.live _ (urcCount_pos hf)
      simp only [runUrc, hf]
      exact I.look (Urc.fence_eq hF) _
  | weakCount h =>
    rcases hc with ⟨f, hf⟩ | ⟨f, hf⟩
    all_goals
      obtain ⟨F, hF⟩ := I.ok.live _ (urcCount_pos hf)
      simp only [runUrc, hf]
      exact I.look (Urc.fence_eq hF) _
  | isSole h =>
    obtain ⟨f, hf⟩ := hc
    obtain ⟨F, x, hF, hx, ha, _⟩ := I.ok.owner (urcCount_pos hf) trivial
    simp only [runUrc, hf]
    refine I.look (a := x.sf == 1) ?_ _
    rw [Urc.isSole, M.bind_apply, Urc.fence_eq (f := f) hF]
    simp only []
    rw [M.bind_apply, Urc.master_eq hx]
    rfl
  | setMut h x =>
    obtain ⟨f, hf⟩ := hc
    obtain ⟨r, w', F, y, hr, _, _, _, J, hkeep, _⟩ := I.setMut (c := c) hf x
    rw [hr]
    exact I.written rfl hf (J.more (Nat.le_succ n)) hkeep
  | makeMut h g =>
    obtain ⟨f, hf⟩ := hc
    obtain ⟨F, x, hF, hx, ha, _⟩ := I.ok.owner (urcCount_pos hf) trivial
    have := I.makeMut (c := c) hf hF hx (hp f F x hf hF hx) g
    cases hr : runUrc c (.makeMut h g) P with
    | ok o P' => rw [hr] at this; exact this.1
    | panic P' => rw [hr] at this; exact this.1
    | abort => rw [hr] at this; exact this
    | ub u => rw [hr] at this; exact this
  | tryUnwrap h =>
    obtain ⟨f, hf⟩ := hc
    obtain ⟨F, x, hF, hx, ha, _⟩ := I.ok.owner (urcCount_pos hf) trivial
    rcases IO.tryUnwrap (urcCount_pos hf) hF hx (hp f F x hf hF hx) with ⟨_, hr⟩ | ⟨_, _, w', hr, J, hkeep⟩
    · simp only [runUrc, hf, UrcPool.on, hr]
      exact ⟨I.more, frame_refl _⟩
    · simp only [runUrc, hf, UrcPool.on, hr]
      exact I.changed rfl hf (urcCount_less hf ▸ J) hkeep
  | intoFence h =>
    obtain ⟨f, hf⟩ := hc
    obtain ⟨F, hF, ⟨_, _, hr, J⟩ | ⟨_, hr⟩⟩ := IO.intoFence (urcCount_pos hf)
    · simp only [runUrc, hf, UrcPool.on, hr, if_true]
      exact I.changed rfl hf (urcCount_set hf _ ▸ J) fun _ _ _ hv => hv
    · simp only [runUrc, hf, UrcPool.on, hr]
      exact ⟨I.more, frame_refl _⟩
  | fromFence h => exact hp.elim

end UrcInv

theorem UrcInv.start : UrcInv 0 (UrcPool.start : UrcPool α) where
  ok := {
    small := fun k => by simp [urcCount, UrcPool.start]
    live := fun k hk => by simp [urcCount, UrcPool.start] at hk
    hasMaster := fun f F hF => by simp [UrcPool.start] at hF
    fence := fun f F hF => by simp [UrcPool.start] at hF
    master := fun m x hx => by simp [UrcPool.start] at hx }
  len := Nat.le_refl 0

theorem UrcDoes.happens {n : Nat} {P P' : UrcPool α} {cmd : UrcCmd α} {o : Option (UrcOut α)}
    (h : UrcDoes n P cmd (runUrc c cmd P)) (hh : UrcHappens c P cmd o P') :
    UrcInv (n + 1) P' ∧ UrcFrame P cmd P' := by
  cases hh with
  | ret e => rw [e] at h; exact h
  | panic e => rw [e] at h; exact h

theorem UrcReaches.inv {hist : List (UrcCmd α × Option (UrcOut α))} {P : UrcPool α}
    (h : UrcReaches c (UrcCmd.Permitted c) hist P) (hl : hist.length ≤ c.usizeMax) :
    UrcInv hist.length P := by
  induction h with
  | start => exact UrcInv.start
  | @step hist P P' cmd o h hok hh ih =>
    simp only [List.length_append, List.length_cons, List.length_nil] at hl ⊢
    have I := ih (by omega)
    exact ((I.does (c := c) (by omega) hok).happens hh).1

end Lokky
