import Verif.Proofs.RcSim

/-!
# Permitted calls of `Rc` do what they are specified to do
-/

namespace Lokky
open Spec
variable {α β : Type} {c : Cfg α} {P : RcPool α} {S : RcState α}

namespace RcSim

theorem stay (I : RcSim P S) {cmd : RcCmd α} {out : RcOut α}
    (hs : RcStep cmd (.ret out) S S) : RcMove P S cmd (some out) P :=
  move S rfl hs I (by omega)

theorem on_ok {m : M (RcWorld α) β} {H : β → Hands} {H' : Hands} {out : β → RcOut α} {a : β}
    {w : RcWorld α} (h : m P.w = .ok a w) {Q : RcOut α → RcPool α → Prop} {E : RcPool α → Prop}
    (hQ : Q (out a) ⟨H a, w⟩) : Ends (RcPool.on m H H' out P) Q E := by
  unfold RcPool.on
  rw [h]
  exact hQ

theorem on_panic {m : M (RcWorld α) β} {H : β → Hands} {H' : Hands} {out : β → RcOut α}
    {w : RcWorld α} (h : m P.w = .panic w) {Q : RcOut α → RcPool α → Prop} {E : RcPool α → Prop}
    (hE : E ⟨H', w⟩) : Ends (RcPool.on m H H' out P) Q E := by
  unfold RcPool.on
  rw [h]
  exact hE

/-- What each call is to establish. -/
abbrev Does (c : Cfg α) (P : RcPool α) (S : RcState α) (cmd : RcCmd α) : Prop :=
  Ends (runRc c cmd P) (fun o => RcMove P S cmd (some o)) (RcMove P S cmd none)

theorem does_new (I : RcSim P S) (x : α) : Does c P S (.new x) := by
  simp only [Does, runRc, RcPool.make]
  by_cases hg : c.grant P.w.tick c.size = true
  · refine on_ok (by rw [Rc.new_eq, if_pos hg]) ?_
    simp only [Function.comp]
    have ha := I.add (b := ⟨1, 0, x⟩) (o := ⟨x, false, false⟩) (w' := P.w.add ⟨1, 0, x⟩) rfl rfl rfl
    have hb := I.beyond P.w.boxes.length (Nat.le_refl _)
    refine move ⟨S.hands ++ [some (.rc S.objs.length)], S.objs ++ [⟨x, false, false⟩]⟩ rfl (.new x S) ?_
      (by simp)
    have hl : P.w.boxes.length = S.objs.length := I.len
    refine ha.update (p := P.w.boxes.length) (b' := ⟨1, 0, x⟩) (o' := ⟨x, false, false⟩) ?_ ?_ ?_ ?_ ?_ ?_
    · simp [RcWorld.add]
    · simp [I.hands, hl]
    · exact (set_same (by simp [RcWorld.add])).symm
    · exact (set_same (by simp [hl])).symm
    · intro q hq
      constructor
      · simp only [Hands.rcs_push]
        rw [if_neg (by intro e; cases e; exact hq rfl)]; rfl
      · simp [Hands.weaks_push]
    · refine ⟨rfl, ?_, Or.inl ⟨?_, Or.inr ?_⟩⟩
      · simp [Hands.weaks_push, hb.2]
      · simp [Hands.rcs_push, hb.1]
      · simp [Hands.rcs_push]
  · refine on_panic (w := P.w.refuse) (by rw [Rc.new_eq, if_neg hg]) ⟨S, ?_, ?_, by simp⟩
    · have : ((P.w.refuse).refusals != P.w.refusals) = true := by simp [RcWorld.refuse]
      rw [this]
      exact .newRefused x S
    · exact I.still I.hands rfl rfl fun q => ⟨rfl, rfl⟩

theorem does_clone (I : RcSim P S) (hm : P.hands.length + 1 < c.usizeMax) {h : Nat} {k : Hand}
    (hk : P.hands[h]? = some (some k)) : Does c P S (.clone h) := by
  have hk' : S.hands[h]? = some (some k) := I.hands ▸ hk
  simp only [Does, runRc, hk]
  cases k with
  | rc p =>
    obtain ⟨o, b, ho, hb, hp, hv, hw, hs, h1⟩ := I.atRc hk
    have := Hands.rcs_le P.hands p
    refine on_ok (Rc.clone_eq hb (by split at hs <;> omega)) ?_
    exact move _ rfl (.clone h p S hk') (I.pushRc ho hp hv hw hs) (by simp)
  | weak k => cases k with
    | none => exact move _ rfl (.cloneWeak h none S hk') I.pushNull (by simp)
    | some p =>
      obtain ⟨o, b, ho, hb, hp, hv, hw, hs, h1⟩ := I.atWeak hk
      have := Hands.weaks_le P.hands p
      refine on_ok (Rc.weakClone_eq hb (by omega)) ?_
      exact move _ rfl (.cloneWeak h (some p) S hk') (I.pushWeak ho hp hv hw hs h1) (by simp)

theorem does_downgrade (I : RcSim P S) (hm : P.hands.length + 1 < c.usizeMax) {h p : Nat}
    (hk : P.hands[h]? = some (some (.rc p))) : Does c P S (.downgrade h) := by
  have hk' : S.hands[h]? = some (some (.rc p)) := I.hands ▸ hk
  simp only [Does, runRc, hk]
  obtain ⟨o, b, ho, hb, hp, hv, hw, hs, h1⟩ := I.atRc hk
  have := Hands.weaks_le P.hands p
  refine on_ok (Rc.downgrade_eq hb (by omega)) ?_
  exact move _ rfl (.downgrade h p S hk') (I.pushWeak ho hp hv hw hs h1) (by simp)

theorem does_upgrade (I : RcSim P S) (hm : P.hands.length + 1 < c.usizeMax) {h : Nat}
    {k : Option Nat} (hk : P.hands[h]? = some (some (.weak k))) : Does c P S (.upgrade h) := by
  have hk' : S.hands[h]? = some (some (.weak k)) := I.hands ▸ hk
  simp only [Does, runRc, hk]
  cases k with
  | none => exact I.stay (.upgradeNull h S hk')
  | some p =>
    obtain ⟨o, b, ho, hb, hp, hv, hw, hs, h1⟩ := I.atWeak hk
    have := Hands.rcs_le P.hands p
    refine on_ok (Rc.upgrade_eq hb (by omega) (by split at hs <;> omega)) ?_
    exact move _ rfl (.upgrade h p S hk') (I.pushRc ho hp hv hw hs) (by simp)

theorem others_set {H : Hands} {h p : Nat} {k' : Option Hand} {a : Hand} (hk : H[h]? = some (some a))
    (ha : a = .rc p ∨ a = .weak (some p)) (hk' : k' = none ∨ k' = some (.rc p)) (q : Nat)
    (hq : q ≠ p) : Hands.rcs (H.set h k') q = H.rcs q ∧ Hands.weaks (H.set h k') q = H.weaks q := by
  have e1 := Hands.rcs_set H hk k' q
  have e2 := Hands.weaks_set H hk k' q
  have n1 : ¬ (Hand.rc p = .rc q) := by intro e; cases e; exact hq rfl
  have n2 : ¬ (Hand.weak (some p) = .weak (some q)) := by intro e; cases e; exact hq rfl
  rcases ha with rfl | rfl <;> rcases hk' with rfl | rfl <;>
    simp [Ne.symm hq] at e1 e2 <;> exact ⟨e1, e2⟩

theorem does_drop (I : RcSim P S) {h : Nat} {k : Hand} (hk : P.hands[h]? = some (some k)) :
    Does c P S (.drop h) := by
  have hk' : S.hands[h]? = some (some k) := I.hands ▸ hk
  simp only [Does, runRc, hk]
  cases k with
  | rc p =>
    obtain ⟨o, b, ho, hb, hp, hv, hw, hs, h1⟩ := I.atRc hk
    have hr := Hands.rcs_pos hk
    have er := Hands.rcs_set P.hands hk none p
    have ew := Hands.weaks_set P.hands hk none p
    simp at er ew
    have hoth := others_set (k' := none) hk (Or.inl rfl) (Or.inl rfl)
    by_cases hb1 : b.strong = 1
    · refine on_ok (Rc.drop_last hb hb1) ?_
      have hr1 : P.hands.rcs p = 1 := by omega
      have hof : o.orphan = false := by
        cases e : o.orphan
        · rfl
        · rw [e] at hs; simp at hs; omega
      refine move _ rfl (.drop h p o S hk' ho) ?_ (by simp)
      rw [if_pos (I.hands ▸ hr1)]
      refine I.update (p := p) (b' := b) hp (by simp [I.hands]) (set_same hb).symm rfl hoth ?_
      exact ⟨hv, by rw [hw]; exact ew.symm, Or.inl ⟨by simp; omega, Or.inl rfl⟩⟩
    · refine on_ok (Rc.drop_more hb (by omega)) ?_
      refine move _ rfl (.drop h p o S hk' ho) ?_ (by simp)
      by_cases hr1 : P.hands.rcs p = 1
      · have hof : o.orphan = true := by
          cases e : o.orphan
          · rw [e] at hs; simp at hs; omega
          · rfl
        rw [if_pos (I.hands ▸ hr1)]
        rw [hof] at hs
        simp at hs
        refine I.update (p := p) hp (by simp [I.hands]) rfl rfl hoth ?_
        exact ⟨hv, by simp only [hw]; exact ew.symm, Or.inl ⟨by simp; omega, Or.inl rfl⟩⟩
      · rw [if_neg (I.hands ▸ hr1)]
        refine I.update (p := p) (o' := o) hp (by simp [I.hands]) rfl (set_same ho).symm hoth ?_
        refine ⟨hv, by simp only [hw]; exact ew.symm, Or.inl ⟨?_, Or.inr (by simp only; omega)⟩⟩
        simp only
        omega
  | weak k => cases k with
    | none =>
      refine move _ rfl (.dropWeak h none S hk') ?_ (by simp)
      refine I.still (by simp [I.hands]) rfl rfl fun q => ?_
      have e1 := Hands.rcs_set P.hands hk none q
      have e2 := Hands.weaks_set P.hands hk none q
      simp at e1 e2
      exact ⟨e1, e2⟩
    | some p =>
      obtain ⟨o, b, ho, hb, hp, hv, hw, hs, h1⟩ := I.atWeak hk
      have hr := Hands.weaks_pos hk
      have er := Hands.rcs_set P.hands hk none p
      have ew := Hands.weaks_set P.hands hk none p
      simp at er ew
      refine on_ok (Rc.weakDrop_eq hb (by omega)) ?_
      refine move _ rfl (.dropWeak h (some p) S hk') ?_ (by simp)
      refine I.update (p := p) (o' := o) hp (by simp [I.hands]) rfl (set_same ho).symm
        (others_set (k' := none) hk (Or.inr rfl) (Or.inl rfl)) ?_
      refine ⟨hv, by simp only; omega, Or.inl ⟨by simp only [er]; exact hs, ?_⟩⟩
      simp only [er]
      cases e : o.orphan
      · rw [e] at hs; simp at hs; right; omega
      · exact Or.inl rfl

theorem does_read (I : RcSim P S) {h p : Nat} (hk : P.hands[h]? = some (some (.rc p))) :
    Does c P S (.read h) := by
  have hk' : S.hands[h]? = some (some (.rc p)) := I.hands ▸ hk
  simp only [Does, runRc, hk]
  obtain ⟨o, b, ho, hb, hp, hv, hw, hs, h1⟩ := I.atRc hk
  exact on_ok (Rc.asRef_eq hb) (I.stay (by rw [hv]; exact .read h p o S hk' ho))

theorem does_strong (I : RcSim P S) {h : Nat} {k : Hand} (hk : P.hands[h]? = some (some k)) :
    Does c P S (.strongCount h) := by
  have hk' : S.hands[h]? = some (some k) := I.hands ▸ hk
  simp only [Does, runRc, hk]
  cases k with
  | rc p =>
    obtain ⟨o, b, ho, hb, hp, hv, hw, hs, h1⟩ := I.atRc hk
    refine on_ok (Rc.strongCount_eq hb) (I.stay ?_)
    rw [hs, I.hands]
    exact .strong h p o S (Or.inl hk') ho
  | weak k => cases k with
    | none => exact I.stay (.strongNull h S hk')
    | some p =>
      obtain ⟨o, b, ho, hb, hp, hv, hw, hs, h1⟩ := I.atWeak hk
      refine on_ok (Rc.strongCount_eq hb) (I.stay ?_)
      rw [hs, I.hands]
      exact .strong h p o S (Or.inr hk') ho

theorem does_weak (I : RcSim P S) {h : Nat} {k : Hand} (hk : P.hands[h]? = some (some k)) :
    Does c P S (.weakCount h) := by
  have hk' : S.hands[h]? = some (some k) := I.hands ▸ hk
  simp only [Does, runRc, hk]
  cases k with
  | rc p =>
    obtain ⟨o, b, ho, hb, hp, hv, hw, hs, h1⟩ := I.atRc hk
    refine on_ok (Rc.weakCount_eq hb) (I.stay ?_)
    rw [hw, I.hands]
    exact .weak h p S (Or.inl hk')
  | weak k => cases k with
    | none => exact I.stay (.weakNull h S hk')
    | some p =>
      obtain ⟨o, b, ho, hb, hp, hv, hw, hs, h1⟩ := I.atWeak hk
      refine on_ok (Rc.weakCount_eq hb) (I.stay ?_)
      rw [hw, I.hands]
      exact .weak h p S (Or.inr hk')

/-- Writing to the only handle's object. -/
theorem written (I : RcSim P S) {p : Nat} {b : RcBox α} (hp : p < P.w.boxes.length)
    (hw : b.weak = P.hands.weaks p) (h1 : b.strong = 1) (hr : P.hands.rcs p = 1) (x : α)
    (m : Bool) : RcSim ⟨P.hands, P.w.put p { b with val := x }⟩ ⟨S.hands, S.objs.set p ⟨x, false, m⟩⟩ :=
  I.update hp I.hands rfl rfl (fun _ _ => ⟨rfl, rfl⟩)
    ⟨rfl, hw, Or.inl ⟨by simp [h1, hr], Or.inr (by simp [hr])⟩⟩

theorem does_setMut (I : RcSim P S) {h p : Nat} (hk : P.hands[h]? = some (some (.rc p))) (x : α) :
    Does c P S (.setMut h x) := by
  have hk' : S.hands[h]? = some (some (.rc p)) := I.hands ▸ hk
  simp only [Does, runRc, hk]
  obtain ⟨o, b, ho, hb, hp, hv, hw, hs, h1⟩ := I.atRc hk
  have ha := I.alone_iff hw hs (Hands.rcs_pos hk)
  by_cases hA : S.Alone p o
  · obtain ⟨e1, e2⟩ := ha.mp hA
    refine on_ok (a := some b.val) (w := P.w.put p { b with val := x }) ?_ ?_
    · have e : (b.strong == 1 && b.weak == 0) = true := by simp [e1, e2]
      rw [M.bind_ok (Rc.getMut_eq hb), e]
      show (do
        let old ← Rc.write p fun _ => x
        pure (some old) : M (RcWorld α) (Option α)) P.w = _
      rw [M.bind_ok (Rc.write_eq hb _)]
      rfl
    · rw [hv]
      exact move _ rfl (.setMut h x p o S hk' ho hA)
        (I.written hp hw e1 (I.hands ▸ hA.1) x false) (by simp)
  · have hne := fun e => hA (ha.mpr e)
    refine on_ok (a := none) (w := P.w) ?_ (I.stay (.setMutShared h x p o S hk' ho hA))
    have e : (b.strong == 1 && b.weak == 0) = false := by
      cases h : (b.strong == 1 && b.weak == 0)
      · rfl
      · simp at h; exact absurd h hne
    rw [M.bind_ok (Rc.getMut_eq hb), e]
    rfl

theorem does_tryUnwrap (I : RcSim P S) {h p : Nat} (hk : P.hands[h]? = some (some (.rc p))) :
    Does c P S (.tryUnwrap h) := by
  have hk' : S.hands[h]? = some (some (.rc p)) := I.hands ▸ hk
  simp only [Does, runRc, hk]
  obtain ⟨o, b, ho, hb, hp, hv, hw, hs, h1⟩ := I.atRc hk
  have ha := I.only_iff hs (Hands.rcs_pos hk)
  by_cases hA : S.Only p o
  · have e1 := ha.mp hA
    have er := Hands.rcs_set P.hands hk none p
    have ew := Hands.weaks_set P.hands hk none p
    simp at er ew
    have hr1 : P.hands.rcs p = 1 := I.hands ▸ hA.1
    refine on_ok (Rc.tryUnwrap_one hb e1) ?_
    rw [hv]
    refine move _ rfl (.tryUnwrap h p o S hk' ho hA) ?_ (by simp)
    refine I.update (p := p) (b' := b) hp (by simp [I.hands]) (set_same hb).symm
      rfl (others_set (k' := none) hk (Or.inl rfl) (Or.inl rfl)) ?_
    exact ⟨hv, by rw [hw]; exact ew.symm, Or.inl ⟨by simp; omega, Or.inl rfl⟩⟩
  · have hne : b.strong ≠ 1 := fun e => hA (ha.mpr e)
    exact on_ok (Rc.tryUnwrap_more hb hne) (I.stay (.tryUnwrapShared h p o S hk' ho hA))

/-- The states of handle and memory as a pool. -/
theorem makeMut_ok {h p q : Nat} {w : RcWorld α} {b : RcBox α} {f : α → α}
    (hm : Rc.makeMut c (p, P.w) = .ok () (q, w)) (hb : w.boxes[q]? = some (some b)) :
    RcPool.makeMut c h p f P
      = .ok (.val b.val) ⟨P.hands.set h (some (.rc q)), w.put q { b with val := f b.val }⟩ := by
  simp only [RcPool.makeMut, hm, RcPool.on, Rc.write_eq hb]

theorem makeMut_boom {h p q : Nat} {w : RcWorld α} {f : α → α}
    (hm : Rc.makeMut c (p, P.w) = .panic (q, w)) :
    RcPool.makeMut c h p f P = .panic ⟨P.hands.set h (some (.rc q)), w⟩ := by
  simp only [RcPool.makeMut, hm]

theorem makeMut_alone {p : Nat} {w : RcWorld α} {b : RcBox α} (hb : w.boxes[p]? = some (some b))
    (h1 : b.strong = 1) (h0 : b.weak = 0) : Rc.makeMut c (p, w) = .ok () (p, w) := by
  unfold Rc.makeMut
  rw [M.bind_ok (M.get_apply _), M.bind_ok (Rc.lift_ok (Rc.inner_eq hb) p), if_pos h1,
    if_neg (by simp [h0])]
  rfl

theorem makeMut_shared {p : Nat} {w : RcWorld α} {b : RcBox α} (hb : w.boxes[p]? = some (some b))
    (h1 : 2 ≤ b.strong) {y : α} (hc : c.clone w.calls b.val = some y)
    (hg : c.grant w.tick c.size = true) :
    Rc.makeMut c (p, w) = .ok () (w.boxes.length,
      ({ w with calls := w.calls + 1 } : RcWorld α).add ⟨1, 0, y⟩ |>.put p
        { b with strong := b.strong - 1 }) := by
  unfold Rc.makeMut
  have e := Rc.cloneVal_eq (c := c) b.val w
  rw [hc] at e
  rw [M.bind_ok (M.get_apply _), M.bind_ok (Rc.lift_ok (Rc.inner_eq hb) p), if_neg (by omega),
    M.bind_ok (Rc.lift_ok e p)]
  have hp := (List.getElem?_eq_some_iff.mp hb).1
  exact Rc.assign_ok (w := { w with calls := w.calls + 1 }) hg
    (Rc.drop_more (by
      simp only [RcWorld.add]
      rw [List.getElem?_append_left hp]
      exact hb) h1)

theorem makeMut_refused {p : Nat} {w : RcWorld α} {b : RcBox α} (hb : w.boxes[p]? = some (some b))
    (h1 : 2 ≤ b.strong) {y : α} (hc : c.clone w.calls b.val = some y)
    (hg : ¬ c.grant w.tick c.size = true) :
    Rc.makeMut c (p, w) = .panic (p, ({ w with calls := w.calls + 1 } : RcWorld α).refuse) := by
  unfold Rc.makeMut
  have e := Rc.cloneVal_eq (c := c) b.val w
  rw [hc] at e
  rw [M.bind_ok (M.get_apply _), M.bind_ok (Rc.lift_ok (Rc.inner_eq hb) p), if_neg (by omega),
    M.bind_ok (Rc.lift_ok e p)]
  exact Rc.assign_refused (w := { w with calls := w.calls + 1 }) hg

theorem makeMut_noClone {p : Nat} {w : RcWorld α} {b : RcBox α} (hb : w.boxes[p]? = some (some b))
    (h1 : 2 ≤ b.strong) (hc : c.clone w.calls b.val = none) :
    Rc.makeMut c (p, w) = .panic (p, { w with calls := w.calls + 1 }) := by
  unfold Rc.makeMut
  have e := Rc.cloneVal_eq (c := c) b.val w
  rw [hc] at e
  rw [M.bind_ok (M.get_apply _), M.bind_ok (Rc.lift_ok (Rc.inner_eq hb) p), if_neg (by omega)]
  exact M.bind_panic (Rc.lift_panic e p)

theorem does_makeMut (I : RcSim P S) (hcl : ∀ k a b, c.clone k a = some b → b = a) {h p : Nat}
    (hk : P.hands[h]? = some (some (.rc p))) (h0 : P.hands.weaks p = 0 ∨ 2 ≤ P.hands.rcs p)
    (f : α → α) : Does c P S (.makeMut h f) := by
  have hk' : S.hands[h]? = some (some (.rc p)) := I.hands ▸ hk
  simp only [Does, runRc, hk]
  obtain ⟨o, b, ho, hb, hp, hv, hw, hs, h1⟩ := I.atRc hk
  have ha := I.alone_iff hw hs (Hands.rcs_pos hk)
  have hself : P.hands.set h (some (.rc p)) = P.hands := set_same hk
  by_cases hA : S.Alone p o
  · obtain ⟨e1, e2⟩ := ha.mp hA
    rw [makeMut_ok (makeMut_alone hb e1 e2) hb, hself, hv]
    exact move _ rfl (.makeMut h f p o S hk' ho hA)
      (I.written hp hw e1 (I.hands ▸ hA.1) _ _) (by simp)
  · have h2 : 2 ≤ b.strong := by
      by_cases e : 2 ≤ b.strong
      · exact e
      · exfalso
        apply hA
        refine ha.mpr ⟨by omega, ?_⟩
        rcases h0 with h0 | h0
        · omega
        · split at hs <;> omega
    cases hc : c.clone P.w.calls b.val with
    | none =>
      rw [makeMut_boom (makeMut_noClone hb h2 hc), hself]
      exact move S rfl (.makeMutPanic h f S) (I.still I.hands rfl rfl fun q => ⟨rfl, rfl⟩) (by simp)
    | some y =>
      have hy := hcl _ _ _ hc
      by_cases hg : c.grant P.w.tick c.size = true
      · have hm := makeMut_shared hb h2 hc hg
        have hlt := hp
        have hnew : (({ P.w with calls := P.w.calls + 1 } : RcWorld α).add ⟨1, 0, y⟩ |>.put p
            { b with strong := b.strong - 1 }).boxes[P.w.boxes.length]? = some (some ⟨1, 0, y⟩) := by
          simp only [RcWorld.put, RcWorld.add]
          rw [List.getElem?_set_ne (by omega)]
          simp
        rw [makeMut_ok hm hnew]
        show RcMove P S _ (some (.val y)) _
        rw [hy, hv]
        refine move _ rfl (.makeMutShared h f p o S hk' ho hA) ?_ (by simp)
        -- the new object, without handle
        have I1 := I.add (b := ⟨1, 0, o.val⟩) (o := ⟨o.val, false, o.moved⟩)
          (w' := ({ P.w with calls := P.w.calls + 1 } : RcWorld α).add ⟨1, 0, o.val⟩) rfl rfl rfl
        -- the handle leaves the old one
        have er := Hands.rcs_set P.hands hk none p
        have ew := Hands.weaks_set P.hands hk none p
        simp at er ew
        have hol : p < S.objs.length := by rw [← I.len]; exact hp
        have I2 := I1.update (p := p) (b' := { b with strong := b.strong - 1 }) (o' := o)
          (P' := ⟨P.hands.set h none, ({ P.w with calls := P.w.calls + 1 } : RcWorld α).add
            ⟨1, 0, o.val⟩ |>.put p { b with strong := b.strong - 1 }⟩)
          (S' := ⟨S.hands.set h none, S.objs ++ [⟨o.val, false, o.moved⟩]⟩)
          (by simp [RcWorld.add]; omega) (by simp [I.hands]) rfl
          (set_same (by rw [List.getElem?_append_left hol]; exact ho)).symm
          (others_set (k' := none) hk (Or.inl rfl) (Or.inl rfl))
          (by
            refine ⟨hv, by simp only [hw]; exact ew.symm, Or.inl ⟨by simp only; omega, ?_⟩⟩
            simp only
            cases e : o.orphan
            · rw [e] at hs; simp at hs; right; omega
            · exact Or.inl rfl)
        -- and takes the new one
        have hl : P.w.boxes.length = S.objs.length := I.len
        have hnone : (P.hands.set h none)[h]? = some none := by
          rw [List.getElem?_set_self (List.getElem?_eq_some_iff.mp hk).1]
        have hset : (P.hands.set h none).set h (some (.rc P.w.boxes.length))
            = P.hands.set h (some (.rc P.w.boxes.length)) := List.set_set ..
        have e1 : ∀ q, Hands.rcs (P.hands.set h (some (.rc P.w.boxes.length))) q
            = Hands.rcs (P.hands.set h none) q
              + if some (Hand.rc P.w.boxes.length) = some (.rc q) then 1 else 0 := by
          intro q
          have := Hands.rcs_set (P.hands.set h none) hnone (some (.rc P.w.boxes.length)) q
          rw [hset] at this
          simpa using this
        have e2 : ∀ q, Hands.weaks (P.hands.set h (some (.rc P.w.boxes.length))) q
            = Hands.weaks (P.hands.set h none) q := by
          intro q
          have := Hands.weaks_set (P.hands.set h none) hnone (some (.rc P.w.boxes.length)) q
          rw [hset] at this
          simpa using this
        have hz := I.beyond P.w.boxes.length (Nat.le_refl _)
        have hoth := others_set (k' := none) hk (Or.inl rfl) (Or.inl rfl) P.w.boxes.length (by omega)
        refine I2.update (p := P.w.boxes.length) (b' := ⟨1, 0, f o.val⟩) (o' := ⟨f o.val, false, o.moved⟩)
          ?_ ?_ (by rw [← hv]; rfl) ?_ ?_ ?_
        · simp [RcWorld.add, RcWorld.put]
        · simp [I.hands, hl]
        · simp only
          rw [hl, List.set_append_right _ _ (Nat.le_refl _)]
          simp
        · intro q hq
          refine ⟨?_, e2 q⟩
          show Hands.rcs (P.hands.set h (some (.rc P.w.boxes.length))) q = _
          rw [e1, if_neg (by intro e; cases e; exact hq rfl)]
          rfl
        · refine ⟨rfl, ?_, Or.inl ⟨?_, Or.inr ?_⟩⟩
          · show 0 = Hands.weaks (P.hands.set h (some (.rc P.w.boxes.length))) _
            rw [e2, hoth.2, hz.2]
          · show 1 = Hands.rcs (P.hands.set h (some (.rc P.w.boxes.length))) _ + _
            rw [e1, hoth.1, hz.1]
            simp
          · show 0 < Hands.rcs (P.hands.set h (some (.rc P.w.boxes.length))) _
            rw [e1, hoth.1, hz.1]
            simp
      · rw [makeMut_boom (makeMut_refused hb h2 hc hg), hself]
        refine ⟨S, ?_, I.still I.hands rfl rfl fun q => ⟨rfl, rfl⟩, by simp⟩
        have : ((({ P.w with calls := P.w.calls + 1 } : RcWorld α).refuse).refusals != P.w.refusals)
            = true := by simp [RcWorld.refuse]
        simp only
        rw [this]
        exact .makeMutRefused h f S

theorem does (I : RcSim P S) (hcl : ∀ k a b, c.clone k a = some b → b = a)
    (hm : P.hands.length + 1 < c.usizeMax) {cmd : RcCmd α} (hc : cmd.Tame P.hands) :
    Does c P S cmd := by
  obtain ⟨hc, hx⟩ := hc
  cases cmd with
  | new x => exact I.does_new x
  | weakNew => exact move _ rfl (.weakNew S) I.pushNull (by simp)
  | clone h => obtain ⟨k, hk⟩ := hc; exact I.does_clone hm hk
  | drop h => obtain ⟨k, hk⟩ := hc; exact I.does_drop hk
  | strongCount h => obtain ⟨k, hk⟩ := hc; exact I.does_strong hk
  | weakCount h => obtain ⟨k, hk⟩ := hc; exact I.does_weak hk
  | upgrade h => obtain ⟨k, hk⟩ := hc; exact I.does_upgrade hm hk
  | downgrade h => obtain ⟨p, hk⟩ := hc; exact I.does_downgrade hm hk
  | read h => obtain ⟨p, hk⟩ := hc; exact I.does_read hk
  | setMut h x => obtain ⟨p, hk⟩ := hc; exact I.does_setMut hk x
  | makeMut h f => obtain ⟨p, hk⟩ := hc; exact I.does_makeMut hcl hk (hx p hk) f
  | tryUnwrap h => obtain ⟨p, hk⟩ := hc; exact I.does_tryUnwrap hk
  | ptrEq h h' =>
    rcases hc with ⟨p, q, e, e'⟩ | ⟨p, q, e, e'⟩
    · simp only [Does, runRc, e, e']
      exact I.stay (.ptrEq h h' p q S (I.hands ▸ e) (I.hands ▸ e'))
    · simp only [Does, runRc, e, e']
      exact I.stay (.ptrEqWeak h h' p q S (I.hands ▸ e) (I.hands ▸ e'))

end RcSim

/-- The invariant of arbitrary programs. -/
theorem RcReaches.inv {hist : RcHistory α} (h : RcReaches c RcCmd.Callable hist P)
    (hl : hist.length < c.usizeMax) : RcInv P ∧ P.hands.length ≤ hist.length := by
  induction h with
  | start => exact ⟨RcInv.start, by simp [RcPool.start]⟩
  | @step hist P P' cmd ev _ hc hh ih =>
    simp only [List.length_append, List.length_singleton] at hl
    obtain ⟨I, hn⟩ := ih (by omega)
    have e := I.step (c := c) (by omega) hc
    cases hh with
    | ret hr => rw [hr] at e; exact ⟨e.1, by have := e.2; simp; omega⟩
    | panic hr => rw [hr] at e; exact ⟨e.1, by have := e.2; simp; omega⟩

/-- The states of tame programs. -/
theorem RcReaches.sim {hist : RcHistory α} (h : RcReaches c RcCmd.Tame hist P)
    (hcl : ∀ k a b, c.clone k a = some b → b = a) (hl : hist.length + 1 < c.usizeMax) :
    ∃ S, RcRuns hist S ∧ RcSim P S ∧ P.hands.length ≤ hist.length := by
  induction h with
  | start => exact ⟨_, .start, RcSim.start, by simp [RcPool.start]⟩
  | @step hist P P' cmd ev _ hc hh ih =>
    simp only [List.length_append, List.length_singleton] at hl
    obtain ⟨S, hr, I, hn⟩ := ih (by omega)
    have e := I.does hcl (c := c) (by omega) hc
    cases hh with
    | ret hr' =>
      rw [RcSim.Does, hr'] at e
      obtain ⟨S', hs, I', hn'⟩ := e
      exact ⟨S', .step hr hs, I', by simp; omega⟩
    | panic hr' =>
      rw [RcSim.Does, hr'] at e
      obtain ⟨S', hs, I', hn'⟩ := e
      exact ⟨S', .step hr hs, I', by simp; omega⟩

theorem RcReaches.weaken {ok ok' : Hands → RcCmd α → Prop} (hok : ∀ H cmd, ok H cmd → ok' H cmd)
    {hist : RcHistory α} (h : RcReaches c ok hist P) : RcReaches c ok' hist P := by
  induction h with
  | start => exact .start
  | step _ hc hh ih => exact .step ih (hok _ _ hc) hh

/-! ## No handle of a moved-out value -/

/-- No handle refers to an object whose value was moved out. -/
def Spec.RcState.Sound (S : RcState α) : Prop :=
  ∀ p o, S.objs[p]? = some o → o.moved = true → S.hands.rcs p = 0 ∧ S.hands.weaks p = 0

namespace Spec.RcState
variable {S S' : RcState α}

theorem Sound.atRc (h : S.Sound) {i p : Nat} {o : RcObj α} (hk : S.hands[i]? = some (some (.rc p)))
    (ho : S.objs[p]? = some o) : o.moved = false := by
  cases e : o.moved
  · rfl
  · have := (h p o ho e).1
    have := Hands.rcs_pos hk
    omega

/-- One object changes and handles change. -/
theorem Sound.update (h : S.Sound) {p : Nat} {o' : RcObj α} {H' : Hands}
    (hq : ∀ q, q ≠ p → H'.rcs q ≤ S.hands.rcs q ∧ H'.weaks q ≤ S.hands.weaks q)
    (hp : o'.moved = true → H'.rcs p = 0 ∧ H'.weaks p = 0) :
    Sound ⟨H', S.objs.set p o'⟩ := by
  intro q o hqo hm
  by_cases e : q = p
  · subst e
    have hl : q < S.objs.length := by
      have := (List.getElem?_eq_some_iff.mp hqo).1
      simpa using this
    simp only [List.getElem?_set_self hl] at hqo
    cases hqo
    exact hp hm
  · simp only [List.getElem?_set_ne (Ne.symm e)] at hqo
    have h1 := h q o hqo hm
    have h2 := hq q e
    exact ⟨by show H'.rcs q = 0; omega, by show H'.weaks q = 0; omega⟩

theorem Sound.push (h : S.Sound) {k : Hand} {i p : Nat} {k' : Hand}
    (hk : S.hands[i]? = some (some k')) (hk' : k' = .rc p ∨ k' = .weak (some p))
    (e : k = .rc p ∨ k = .weak (some p)) : Sound ⟨S.hands ++ [some k], S.objs⟩ := by
  intro q o hqo hm
  have h1 := h q o hqo hm
  have hne : q ≠ p := by
    intro e'
    subst e'
    rcases hk' with rfl | rfl
    · have := Hands.rcs_pos hk; omega
    · have := Hands.weaks_pos hk; omega
  simp only [Hands.rcs_push, Hands.weaks_push]
  rcases e with rfl | rfl <;> simp [Ne.symm hne, h1]

theorem Sound.pushNull (h : S.Sound) : Sound ⟨S.hands ++ [some (.weak none)], S.objs⟩ := by
  intro q o hqo hm
  have h1 := h q o hqo hm
  simp only [Hands.rcs_push, Hands.weaks_push]
  simp [h1]

theorem Sound.less (h : S.Sound) {H' : Hands}
    (hq : ∀ q, H'.rcs q ≤ S.hands.rcs q ∧ H'.weaks q ≤ S.hands.weaks q) : Sound ⟨H', S.objs⟩ := by
  intro q o hqo hm
  have h1 := h q o hqo hm
  have h2 := hq q
  exact ⟨by show H'.rcs q = 0; omega, by show H'.weaks q = 0; omega⟩

theorem drop_less {H : Hands} {i : Nat} {k : Hand} (hk : H[i]? = some (some k)) (q : Nat) :
    Hands.rcs (H.set i none) q ≤ H.rcs q ∧ Hands.weaks (H.set i none) q ≤ H.weaks q := by
  have e1 := Hands.rcs_set H hk none q
  have e2 := Hands.weaks_set H hk none q
  simp at e1 e2
  omega

theorem Sound.step (h : S.Sound) {cmd : RcCmd α} {ev : RcEvent α} (hs : RcStep cmd ev S S')
    (hc : cmd.Permitted S.hands) : S'.Sound := by
  cases hs with
  | new x =>
    intro q o hqo hm
    by_cases e : q < S.objs.length
    · simp only [List.getElem?_append_left e] at hqo
      have h1 := h q o hqo hm
      simp only [Hands.rcs_push, Hands.weaks_push]
      simp [h1]
      omega
    · have hl := (List.getElem?_eq_some_iff.mp hqo).1
      simp at hl
      have : q = S.objs.length := by omega
      subst this
      simp at hqo
      subst hqo
      cases hm
  | newRefused x => exact h
  | clone i p _ hk => exact h.push hk (Or.inl rfl) (Or.inl rfl)
  | cloneWeak i p _ hk =>
    cases p with
    | none => exact h.pushNull
    | some p => exact h.push hk (Or.inr rfl) (Or.inr rfl)
  | downgrade i p _ hk => exact h.push hk (Or.inl rfl) (Or.inr rfl)
  | upgrade i p _ hk => exact h.push hk (Or.inr rfl) (Or.inl rfl)
  | upgradeNull => exact h
  | weakNew => exact h.pushNull
  | drop i p o _ hk ho =>
    split
    · refine h.update (fun q _ => drop_less hk q) fun hm => ?_
      simp only [h.atRc hk ho] at hm
      cases hm
    · exact h.less (drop_less hk)
  | dropWeak i p _ hk => exact h.less (drop_less hk)
  | read => exact h
  | strong => exact h
  | strongNull => exact h
  | weak => exact h
  | weakNull => exact h
  | setMut i x p o _ hk ho hA =>
    exact h.update (fun q _ => ⟨Nat.le_refl _, Nat.le_refl _⟩) fun hm => by cases hm
  | setMutShared => exact h
  | makeMut i f p o _ hk ho hA =>
    refine h.update (fun q _ => ⟨Nat.le_refl _, Nat.le_refl _⟩) fun hm => ?_
    simp only [h.atRc hk ho] at hm
    cases hm
  | makeMutShared i f p o _ hk ho hA =>
    intro q x hqo hm
    by_cases e : q < S.objs.length
    · simp only [List.getElem?_append_left e] at hqo
      have h1 := h q x hqo hm
      have e1 := Hands.rcs_set S.hands hk (some (.rc S.objs.length)) q
      have e2 := Hands.weaks_set S.hands hk (some (.rc S.objs.length)) q
      have : ¬ S.objs.length = q := by omega
      simp [this] at e1 e2
      show Hands.rcs (S.hands.set i (some (.rc S.objs.length))) q = 0 ∧
        Hands.weaks (S.hands.set i (some (.rc S.objs.length))) q = 0
      omega
    · have hl := (List.getElem?_eq_some_iff.mp hqo).1
      simp at hl
      have : q = S.objs.length := by omega
      subst this
      simp at hqo
      subst hqo
      simp only [h.atRc hk ho] at hm
      cases hm
  | makeMutPanic => exact h
  | makeMutRefused => exact h
  | tryUnwrap i p o _ hk ho hA =>
    refine h.update (fun q _ => drop_less hk q) fun _ => ?_
    have hw : S.hands.weaks p = 0 := hc.2 p hk
    have e1 := Hands.rcs_set S.hands hk none p
    have e2 := Hands.weaks_set S.hands hk none p
    have := hA.1
    simp at e1 e2
    omega
  | tryUnwrapShared => exact h
  | ptrEq => exact h
  | ptrEqWeak => exact h

end Spec.RcState

/-- The states of permitted programs. -/
theorem RcReaches.sound {hist : RcHistory α} (h : RcReaches c RcCmd.Permitted hist P)
    (hcl : ∀ k a b, c.clone k a = some b → b = a) (hl : hist.length + 1 < c.usizeMax) :
    ∃ S, RcRuns hist S ∧ RcSim P S ∧ P.hands.length ≤ hist.length ∧ S.Sound := by
  induction h with
  | start => exact ⟨_, .start, RcSim.start, by simp [RcPool.start], fun p o h => by simp at h⟩
  | @step hist P P' cmd ev _ hc hh ih =>
    simp only [List.length_append, List.length_singleton] at hl
    obtain ⟨S, hr, I, hn, hS⟩ := ih (by omega)
    have e := I.does hcl (c := c) (by omega) hc.1
    cases hh with
    | ret hr' =>
      rw [RcSim.Does, hr'] at e
      obtain ⟨S', hs, I', hn'⟩ := e
      exact ⟨S', .step hr hs, I', by simp; omega, hS.step hs (I.hands ▸ hc)⟩
    | panic hr' =>
      rw [RcSim.Does, hr'] at e
      obtain ⟨S', hs, I', hn'⟩ := e
      exact ⟨S', .step hr hs, I', by simp; omega, hS.step hs (I.hands ▸ hc)⟩

end Lokky
