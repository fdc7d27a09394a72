import Verif.Proofs.HandleClones
import Verif.Props.Urc

/-!
# `Rc`, `Urc` and `Vec` as elements that vectors clone
-/

namespace Lokky
open Spec
variable {α β : Type} {c : Cfg α}

/-- The handle numbered `x`. -/
def handAt {κ : Type} (H : List (Option κ)) (x : Nat) : Option κ := H[x]?.getD none

theorem handAt_some {κ : Type} {H : List (Option κ)} {x : Nat} {k : κ} (h : H[x]? = some (some k)) :
    handAt H x = some k := by rw [handAt, h]; rfl

theorem isThere_snoc {κ : Type} {H : List (Option κ)} {k : κ} (y : Nat) :
    isThere (H ++ [some k]) y = true ↔ isThere H y = true ∨ (H.length ≤ y ∧ y < H.length + 1) := by
  by_cases e : y < H.length
  · have : isThere (H ++ [some k]) y = isThere H y := by
      unfold isThere; rw [List.getElem?_append_left e]
    rw [this]
    exact ⟨.inl, fun h => h.resolve_right (by omega)⟩
  · by_cases e2 : y = H.length
    · subst e2
      exact ⟨fun _ => .inr (by omega), fun _ => isThere_iff.mpr ⟨k, by simp⟩⟩
    · constructor
      · intro h
        have := isThere_lt h
        simp only [List.length_append, List.length_singleton] at this
        omega
      · rintro (h | h)
        · have := isThere_lt h; omega
        · omega

theorem handAt_snoc {κ : Type} {H : List (Option κ)} {k : κ} {y : Nat} (h : isThere H y = true) :
    handAt (H ++ [some k]) y = handAt H y := by
  unfold handAt; rw [List.getElem?_append_left (isThere_lt h)]

theorem handAt_last {κ : Type} {H : List (Option κ)} {k : κ} : handAt (H ++ [some k]) H.length = some k := by
  simp [handAt]

theorem handAt_set {κ : Type} {H : List (Option κ)} {x y : Nat} (h : isThere (H.set x none) y = true) :
    handAt (H.set x none) y = handAt H y := by
  have := (isThere_set.mp h).2
  unfold handAt; rw [List.getElem?_set_ne (fun e => this e.symm)]

/-! ## `Rc` -/

theorem RcSim.clone_ok {P : RcPool α} {S : RcState α} (I : RcSim P S) (hm : P.hands.length + 1 < c.usizeMax) {x : Nat}
    {k : Hand} (hk : P.hands[x]? = some (some k)) :
    ∃ P', runRc c (.clone x) P = .ok .unit P' ∧ P'.hands = P.hands ++ [some k] := by
  have d := I.does_clone (c := c) hm hk
  rw [RcSim.Does] at d
  have hk' : S.hands[x]? = some (some k) := I.hands ▸ hk
  cases hr : runRc c (.clone x) P with
  | ok o P' =>
    rw [hr] at d
    obtain ⟨S', hs, I', _⟩ := d
    refine ⟨P', ?_, ?_⟩
    · generalize hev : (⟨some o, P'.w.refusals != P.w.refusals⟩ : RcEvent α) = ev at hs
      cases hs <;> (injection hev with e1 e2; injection e1 with e1; rw [e1])
    · rw [I'.hands, I.hands]
      generalize (⟨some o, P'.w.refusals != P.w.refusals⟩ : RcEvent α) = ev at hs
      cases hs <;> (rename_i e; rw [hk'] at e; cases e; rfl)
  | panic P' =>
    rw [hr] at d
    obtain ⟨S', hs, _⟩ := d
    generalize hev : (⟨none, P'.w.refusals != P.w.refusals⟩ : RcEvent α) = ev at hs
    cases hs <;> cases hev
  | abort => rw [hr] at d; exact d.elim
  | ub u => rw [hr] at d; exact d.elim

theorem rcClonables_good (hcl : ∀ k a b, c.clone k a = some b → b = a) :
    (rcClonables c RcCmd.Tame).Good (RcAfter c) (c.usizeMax - 2) (fun P x => handAt P.hands x) False where
  base := rcThings_good hcl
  alive := fun _ h => h
  clone := by
    rintro n P x ⟨hist, hn, hr⟩ hb hx
    left
    obtain ⟨S, _, J, hlen⟩ := hr.sim hcl (by omega)
    obtain ⟨k, hk⟩ := isThere_iff.mp hx
    obtain ⟨P', e, hh⟩ := J.clone_ok (c := c) (by omega) hk
    refine ⟨P', by simp only [rcClonables, e, cloneResult]; rfl, ⟨⟨hist ++ [(.clone x, _)], by simp [hn],
      hr.step (cmd := .clone x) ⟨⟨k, hk⟩, trivial⟩ (.ret e)⟩, ?_, fun y => ?_, fun y hy => ?_, fun y hy => ?_,
      fun i hi => ?_⟩⟩
    · show P'.hands.length = P.hands.length + 1
      rw [hh]; simp
    · show isThere P'.hands y = true ↔ isThere P.hands y = true ∨ _
      rw [hh]; exact isThere_snoc y
    · show isThere P'.hands y = true
      rw [hh]; exact (isThere_snoc y).mpr (.inl hy)
    · show handAt P'.hands y = handAt P.hands y
      rw [hh]; exact handAt_snoc hy
    · have : i = 0 := by simpa using hi
      subst this
      show handAt P'.hands P.hands.length = handAt P.hands x
      rw [hh, handAt_last, handAt_some hk]
  dropVal := by
    rintro n P P' x ⟨hist, hn, hr⟩ hb hx e y hy
    obtain ⟨S, _, J, _⟩ := hr.sim hcl (by omega)
    obtain ⟨P1, e1, hh⟩ := J.drop_ok (c := c) hx
    have : P' = P1 := by
      simp only [rcClonables, rcThings, e1] at e
      injection e with _ e; exact e.symm
    subst this
    show handAt P'.hands y = handAt P.hands y
    have hy : isThere P'.hands y = true := hy
    rw [hh] at hy ⊢
    exact handAt_set hy

/-! ## `Urc` -/

theorem urcClonable_iff {ok : UrcPool α → UrcCmd α → Prop} {P : UrcPool α} {x : Nat} :
    (urcClonables c ok).clonable P x = true ↔ ∃ f, P.hands[x]? = some (some (.urc f)) := by
  simp only [urcClonables]
  split
  · rename_i f e; exact ⟨fun _ => ⟨f, e⟩, fun _ => rfl⟩
  · rename_i h
    refine ⟨fun h' => (Bool.false_ne_true h').elim, ?_⟩
    rintro ⟨f, e⟩
    exact (h f e).elim

theorem urcClonables_good :
    (urcClonables c (UrcCmd.Permitted c)).Good (UrcAfter c) c.usizeMax (fun P x => handAt P.hands x) False where
  base := urcThings_good
  alive := by
    intro n P x _ h
    obtain ⟨f, e⟩ := urcClonable_iff.mp h
    exact isThere_iff.mpr ⟨_, e⟩
  clone := by
    rintro n P x ⟨hist, hn, hr⟩ hb hx
    left
    obtain ⟨f, hk⟩ := urcClonable_iff.mp hx
    have J := hr.inv (c := c) (by omega)
    obtain ⟨w', e1, _, _⟩ := J.ok.clone (c := c) (urcCount_pos hk) (by omega)
    have e : runUrc c (.clone x) P = .ok .unit ⟨P.hands ++ [some (.urc f)], w'⟩ := by
      simp only [runUrc, hk, UrcPool.make, UrcPool.on, e1]
    refine ⟨⟨P.hands ++ [some (.urc f)], w'⟩, by simp only [urcClonables, e, cloneResult]; rfl,
      ⟨⟨hist ++ [(.clone x, _)], by simp [hn], hr.step (cmd := .clone x) ⟨⟨f, hk⟩, trivial⟩ (.ret e)⟩, ?_, fun y => ?_,
        fun y hy => ?_, fun y hy => ?_, fun i hi => ?_⟩⟩
    · show (P.hands ++ [some (UrcHand.urc f)]).length = P.hands.length + 1
      simp
    · exact isThere_snoc y
    · obtain ⟨g, hg⟩ := urcClonable_iff.mp hy
      refine urcClonable_iff.mpr ⟨g, ?_⟩
      rw [List.getElem?_append_left (List.getElem?_eq_some_iff.mp hg).1]; exact hg
    · exact handAt_snoc hy
    · have : i = 0 := by simpa using hi
      subst this
      show handAt (P.hands ++ [some (.urc f)]) P.hands.length = handAt P.hands x
      rw [handAt_last, handAt_some hk]
  dropVal := by
    rintro n P P' x ⟨hist, hn, hr⟩ hb hx e y hy
    have hp : (UrcCmd.drop x).Permitted c P := ⟨isThere_iff.mp hx, trivial⟩
    obtain ⟨o, P1, e1⟩ := C98_partial hr (by omega) hp trivial
    have hh := runUrc_drop_hands hx e1
    have : P' = P1 := by
      simp only [urcClonables, urcThings, e1] at e
      injection e with _ e; exact e.symm
    subst this
    show handAt P'.hands y = handAt P.hands y
    have hy : isThere P'.hands y = true := hy
    rw [hh] at hy ⊢
    exact handAt_set hy

/-! ## `Vec` -/

/-- What is known of vectors after `n` calls. -/
def VecAfter (c : Cfg α) (P0 : Pool α) (n : Nat) (P : Pool α) : Prop :=
  ∃ hist : Spec.History α, hist.length = n ∧ Reaches c P0 hist P

theorem VecAfter.pinv {P0 P : Pool α} {n : Nat} (hs : c.size ≠ 0) (hd : ∀ a, c.dropPanics a = false)
    (h0 : P0.Initial) (h : VecAfter c P0 n P) : ∃ L, PInv c P L := by
  obtain ⟨hist, _, hr⟩ := h
  obtain ⟨L, _, _, i⟩ := hr.inv hs hd h0
  exact ⟨L, i⟩

theorem alive_has {P : Pool α} {L : Spec.Lists α} (i : PInv c P L) (x : Nat) : P.alive x = true ↔ L.Has x :=
  Pool.alive_iff.trans (i.alive_iff x)

/-- The contents of vector `x`. -/
def listAt (c : Cfg α) (P : Pool α) (x : Nat) : Option (List α) := (P.lists c)[x]?.getD none

/-- `f`: what is compared of a vector and its clone. -/
theorem vecClonables_good {P0 : Pool α} (hs : c.size ≠ 0) (hd : ∀ a, c.dropPanics a = false) (h0 : P0.Initial)
    {f : Option (List α) → β} (hf : ∀ l ys, Spec.Clones c.cloneRel l ys → f (some ys) = f (some l)) (B : Nat) :
    (vecClonables c).Good (VecAfter c P0) B (fun P x => f (listAt c P x)) True where
  base := {
    lt := by
      intro n P x h hx
      obtain ⟨L, i⟩ := h.pinv hs hd h0
      have := PInv.has_lt ((alive_has i x).mp hx)
      show x < P.vecs.length
      rw [i.len]; exact this
    use := by
      rintro n P P' h - ⟨cmd, ev, hl, he⟩
      obtain ⟨L, i⟩ := h.pinv hs hd h0
      obtain ⟨hist, hn, hr⟩ := h
      obtain ⟨L', made, dropped, h1, h2, h3⟩ := he.ok hs hd i hl
      obtain ⟨g1, g2⟩ := h1.has
      refine ⟨⟨hist ++ [(cmd, ev)], by simp [hn], hr.step hl he⟩, ?_, fun x hx => ?_⟩
      · show P.vecs.length ≤ P'.vecs.length
        rw [i.len, h2.len]; exact g1
      · rcases (g2 x).mp ((alive_has h2 x).mp hx) with h | h
        · exact .inl ((alive_has i x).mpr h.1)
        · right
          show P.vecs.length ≤ x
          rw [i.len]; exact h.1
    fresh := by
      rintro n P P' h - ⟨cmd, ev, hl, he⟩ x k1 k2
      obtain ⟨L, i⟩ := h.pinv hs hd h0
      obtain ⟨L', made, dropped, h1, h2, h3⟩ := he.ok hs hd i hl
      obtain ⟨g1, g2⟩ := h1.has
      have k1 : P.vecs.length ≤ x := k1
      have k2 : x < P'.vecs.length := k2
      rw [i.len] at k1
      rw [h2.len] at k2
      exact (alive_has h2 x).mpr ((g2 x).mpr (.inr ⟨k1, k2⟩))
    drop := by
      rintro n P x h - hx
      obtain ⟨L, i⟩ := h.pinv hs hd h0
      obtain ⟨hist, hn, hr⟩ := h
      have hl : (Spec.Cmd.drop x : Spec.Cmd α).Legal c P := Pool.alive_iff.mp hx
      obtain ⟨ev, P1, he⟩ := happens hs hd i (.drop x) hl
      obtain ⟨L1, made, dropped, h1, h2, h3⟩ := he.ok hs hd i hl
      obtain ⟨g1, g2⟩ := h1.has
      have hev : ev = .ret .unit := by cases h1; rfl
      have hlen : L1.length = L.length := by cases h1; simp
      have hrun : ∃ o, runCmd c (.drop x) P = .ok o P1 := by
        cases he with
        | ret hr => exact ⟨_, hr⟩
        | panic hr => simp at hev
      obtain ⟨o, hrun⟩ := hrun
      refine ⟨P1, by simp only [vecClonables, hrun], ⟨hist ++ [(.drop x, ev)], by simp [hn], hr.step hl he⟩, ?_,
        fun y => ?_⟩
      · show P1.vecs.length = P.vecs.length
        rw [h2.len, i.len, hlen]
      · show P1.alive y = true ↔ P.alive y = true ∧ y ≠ x
        rw [alive_has h2, alive_has i, g2 y, hlen]
        simp only [ne_eq, Spec.Cmd.drop.injEq]
        constructor
        · rintro (h | ⟨k1, k2⟩)
          · exact ⟨h.1, fun e => h.2 e.symm⟩
          · omega
        · rintro ⟨a, b⟩; exact .inl ⟨a, fun e => b e.symm⟩ }
  alive := fun _ h => h
  clone := by
    rintro n P x h - hx
    obtain ⟨L, i⟩ := h.pinv hs hd h0
    obtain ⟨hist, hn, hr⟩ := h
    have hl : (Spec.Cmd.clone x : Spec.Cmd α).Legal c P := Pool.alive_iff.mp hx
    obtain ⟨ev, P1, he⟩ := happens hs hd i (.clone x) hl
    obtain ⟨L1, made, dropped, h1, h2, h3⟩ := he.ok hs hd i hl
    have hreach : VecAfter c P0 (n + 1) P1 := ⟨hist ++ [(.clone x, ev)], by simp [hn], hr.step hl he⟩
    have at' : ∀ {P : Pool α} {L : Spec.Lists α}, PInv c P L → ∀ y, listAt c P y = L[y]?.getD none := by
      intro P L i y
      rw [listAt, i.lists_eq hs]
    cases h1 with
    | clone _ l ys _ hL hcl =>
      left
      have hrun : ∃ o, runCmd c (.clone x) P = .ok o P1 := by
        generalize hev : (Event.ret Out.unit : Event α) = ev at he
        cases he with
        | ret hr => exact ⟨_, hr⟩
        | panic hr => simp at hev
      obtain ⟨o, hrun⟩ := hrun
      have lt : ∀ y, P.alive y = true → y < L.length := fun y hy => PInv.has_lt ((alive_has i y).mp hy)
      refine ⟨P1, by simp only [vecClonables, hrun, cloneResult], ⟨hreach, ?_, fun y => ?_, fun y hy => ?_,
        fun y hy => ?_, fun j hj => ?_⟩⟩
      · show P1.vecs.length = P.vecs.length + 1
        rw [h2.len, i.len]; simp
      · show P1.alive y = true ↔ P.alive y = true ∨ (P.vecs.length ≤ y ∧ y < P.vecs.length + 1)
        rw [alive_has h2, alive_has i, has_snoc, i.len]
        constructor
        · rintro (a | a)
          · exact .inl a
          · exact .inr (by omega)
        · rintro (a | a)
          · exact .inl a
          · exact .inr (by omega)
      · exact (alive_has h2 y).mpr ((has_snoc L made y).mpr (.inl ((alive_has i y).mp hy)))
      · show f (listAt c P1 y) = f (listAt c P y)
        rw [at' h2, at' i, List.getElem?_append_left (lt y hy)]
      · have : j = 0 := by simpa using hj
        subst this
        show f (listAt c P1 P.vecs.length) = f (listAt c P x)
        rw [at' h2, at' i, i.len, hL]
        simpa using hf l made hcl
    | cloneRefused _ _ =>
      refine .inr ⟨trivial, P1, ?_, hreach, ?_, fun y => ?_, fun y _ => ?_⟩
      · have hrun : runCmd c (.clone x) P = .panic P1 := by
          generalize hev : (Event.refuse : Event α) = ev at he
          cases he with
          | ret hr => simp at hev
          | panic hr => exact hr
        simp only [vecClonables, hrun, cloneResult]
      · show P1.vecs.length = P.vecs.length
        rw [h2.len, i.len]
      · show P1.alive y = true ↔ P.alive y = true
        rw [alive_has h2, alive_has i]
      · show f (listAt c P1 y) = f (listAt c P y)
        rw [at' h2, at' i]
    | clonePanic _ pre a post ys _ hL hcl hno =>
      refine .inr ⟨trivial, P1, ?_, hreach, ?_, fun y => ?_, fun y _ => ?_⟩
      · have hrun : runCmd c (.clone x) P = .panic P1 := by
          generalize hev : (Event.panic : Event α) = ev at he
          cases he with
          | ret hr => simp at hev
          | panic hr => exact hr
        simp only [vecClonables, hrun, cloneResult]
      · show P1.vecs.length = P.vecs.length
        rw [h2.len, i.len]
      · show P1.alive y = true ↔ P.alive y = true
        rw [alive_has h2, alive_has i]
      · show f (listAt c P1 y) = f (listAt c P y)
        rw [at' h2, at' i]
  dropVal := by
    rintro n P P' x h - hx e y hy
    obtain ⟨L, i⟩ := h.pinv hs hd h0
    have hl : (Spec.Cmd.drop x : Spec.Cmd α).Legal c P := Pool.alive_iff.mp hx
    have hrun : ∃ o, runCmd c (.drop x) P = .ok o P' := by
      simp only [vecClonables] at e
      cases hr : runCmd c (.drop x) P with
      | ok o P1 => rw [hr] at e; injection e with _ e; exact ⟨o, by rw [e]⟩
      | panic P1 => rw [hr] at e; cases e
      | abort => rw [hr] at e; cases e
      | ub u => rw [hr] at e; cases e
    obtain ⟨o, hrun⟩ := hrun
    obtain ⟨L1, made, dropped, h1, h2, h3⟩ := (Happens.ret hrun).ok hs hd i hl
    have hh := (alive_has h2 y).mp hy
    show f (listAt c P' y) = f (listAt c P y)
    rw [listAt, listAt, h2.lists_eq hs, i.lists_eq hs]
    generalize (⟨some o, P'.w.refusals != P.w.refusals⟩ : Event α) = ev at h1
    cases h1 with
    | drop _ l _ hL =>
      have := ((has_unset L x y).mp hh).2
      rw [List.getElem?_set_ne this]

end Lokky
