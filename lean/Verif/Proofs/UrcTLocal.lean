import Verif.Proofs.UrcT

/-! How steps change handles, fences and values, and that this keeps the invariant. -/

namespace Lokky
variable {α : Type} {n n' : Nat} {s : UrcSys α}

theorem UrcHold.strongAt_ne {x : UrcHold} {g : Nat} (h : x.fen ≠ g) : strongAt g (some x) = false := by
  simp [strongAt, h]

theorem UrcHold.weakAt_ne {x : UrcHold} {g : Nat} (h : x.fen ≠ g) : weakAt g (some x) = false := by
  simp [weakAt, h]

/-- What a thread relies on depends only on its handle, its fence, and the fences of its master. -/
theorem UrcOpOk.mono {t : Nat} {op : UrcOp α} {s' : UrcSys α} (o : UrcOpOk s t op)
    (h1 : ∀ h f p, op.hand = some (h, f, p) → s'.hands[h]? = s.hands[h]? ∧ s'.nU f = s.nU f ∧
      s'.nW f = s.nW f ∧ s'.Fen f p)
    (h2 : ∀ h f p, op.hand = some (h, f, p) → op.sole = true → ∀ g, s'.Fen g p → s.Fen g p)
    (h3 : ∀ p k, op = .fin p k → ∀ g, s'.Fen g p → s.Fen g p)
    (h4 : s.vals.length ≤ s'.vals.length)
    (h5 : ∀ h f p v, op = .mv1 h f p v → s'.Alive p → s.Alive p) : UrcOpOk s' t op where
  own h f p e := (h1 h f p e).1 ▸ o.own h f p e
  fen h f p e := (h1 h f p e).2.2.2
  sole h f p e a g hg := o.sole h f p e a g (h2 h f p e a g hg)
  only h f p e a := (h1 h f p e).2.1 ▸ o.only h f p e a
  noWeak h f p e a := (h1 h f p e).2.2.1 ▸ o.noWeak h f p e a
  hasWeak h f p e a := (h1 h f p e).2.2.1 ▸ o.hasWeak h f p e a
  left p e := Nat.lt_of_lt_of_le (o.left p e) h4
  gone p k e g hg := o.gone p k e g (h3 p k e g hg)
  dead h f p v e ha := o.dead h f p v e (h5 h f p v e ha)

theorem UrcOpOk.same {t : Nat} {op : UrcOp α} {s' : UrcSys α} (o : UrcOpOk s t op)
    (hh : s'.hands = s.hands) (hf : s'.fences = s.fences) (hv : s'.vals = s.vals) : UrcOpOk s' t op := by
  have hF : ∀ g p, s'.Fen g p ↔ s.Fen g p := fun g p => by simp only [UrcSys.Fen, hf]
  refine o.mono (fun h f p e => ⟨by rw [hh], by simp only [UrcSys.nU, hh], by simp only [UrcSys.nW, hh],
    (hF _ _).2 (o.fen h f p e)⟩) (fun h f p _ _ g => (hF g p).1) (fun p k _ g => (hF g p).1)
    (by rw [hv]; exact Nat.le_refl _) (fun h f p v _ ha => ?_)
  simpa only [UrcSys.Alive, hv] using ha

theorem UrcSys.at_set {t t' : Nat} {a b : Option (UrcOp α)} {op : UrcOp α} {th : List (Option (UrcOp α))}
    (ht : th[t]? = some a) (h : (th.set t b)[t']? = some (some op)) :
    t' = t ∧ b = some op ∨ t' ≠ t ∧ th[t']? = some (some op) := by
  obtain ⟨hlt, -⟩ := List.getElem?_eq_some_iff.1 ht
  by_cases e : t' = t
  · subst e
    rw [List.getElem?_set_self hlt] at h
    injection h with h
    exact Or.inl ⟨rfl, h⟩
  · rw [List.getElem?_set_ne (Ne.symm e)] at h
    exact Or.inr ⟨e, h⟩

/-- What may not be given up without further ado. -/
def UrcOp.pinned : UrcOp α → Bool
  | .mv0 _ _ _ | .mv1 _ _ _ _ | .unw1 _ _ _ => true
  | _ => false

namespace UrcLInv

/-- Memory changes, but not `strong_fence`. -/
theorem memory (I : UrcLInv n s) {m : ArcMem} {l : List (Nat × Option (UrcOut α))}
    (h : ∀ p, m.msgs .strong p = s.mem.msgs .strong p) :
    UrcLInv n { s with mem := m, log := l } := by
  have hsf : ∀ p, ({ s with mem := m, log := l } : UrcSys α).sf p = s.sf p := fun p => by
    simp only [UrcSys.sf, h]
  exact
    { hlen := I.hlen, bound := fun p => by rw [hsf]; exact I.bound p, fen := I.fen, mas := I.mas
      weakm := I.weakm, loc := I.loc, strong := I.strong, weak := I.weak, weak0 := I.weak0
      alive := I.alive
      count := fun p ha => by rw [hsf]; exact I.count p ha
      ops := fun t op ht => (I.ops t op ht).same rfl rfl rfl }

theorem mono (I : UrcLInv n s) (h : n ≤ n') : UrcLInv n' s :=
  { I with hlen := Nat.le_trans I.hlen h, bound := fun p => Nat.le_trans (I.bound p) h }

/-- A thread goes on with something else. -/
theorem rethread (I : UrcLInv n s) {t : Nat} {a b : Option (UrcOp α)} (ht : s.threads[t]? = some a)
    (ha : ∀ op, a = some op → op.pinned = false) (hb : ∀ op, b = some op → UrcOpOk s t op) :
    UrcLInv n { s with threads := s.threads.set t b } := by
  have stay : ∀ t' op, s.At t' op → op.pinned = true →
      ({ s with threads := s.threads.set t b } : UrcSys α).At t' op := by
    intro t' op h hp
    have ne : t ≠ t' := by
      rintro rfl
      unfold UrcSys.At at h
      rw [ht] at h
      injection h with h
      have := ha op h
      rw [hp] at this
      cases this
    unfold UrcSys.At
    simp only
    rw [List.getElem?_set_ne ne]
    exact h
  exact
    { hlen := I.hlen, bound := I.bound, fen := I.fen, mas := I.mas, weakm := I.weakm, loc := I.loc
      strong := I.strong, weak := I.weak
      weak0 := fun f F e h1 h2 => (I.weak0 f F e h1 h2).imp_right fun ⟨t', op, h, hp⟩ =>
        ⟨t', op, stay t' op h (by cases op <;> simp_all [UrcOp.pins, UrcOp.pinned]), hp⟩
      alive := fun h x p e hs hp => (I.alive h x p e hs hp).imp_right fun ⟨t', h', v, h⟩ =>
        ⟨t', h', v, stay t' _ h rfl⟩
      count := fun p hp => (I.count p hp).imp_right fun ⟨t', h', f, h⟩ => ⟨t', h', f, stay t' _ h rfl⟩
      ops := fun t' op h => by
        rcases UrcSys.at_set ht h with ⟨rfl, e⟩ | ⟨-, h⟩
        · exact (hb op e).same rfl rfl rfl
        · exact (I.ops t' op h).same rfl rfl rfl }

theorem fen_set {f g p : Nat} {F F' : UrcFence} (eF : s.fences[f]? = some (some F))
    (hm : F'.master = F.master) {H : List (Option UrcHold)} {v : List (α × Bool)} {m : ArcMem}
    {th : List (Option (UrcOp α))} {l : List (Nat × Option (UrcOut α))} :
    (⟨v, s.fences.set f (some F'), H, th, l, m⟩ : UrcSys α).Fen g p ↔ s.Fen g p := by
  obtain ⟨hlt, -⟩ := List.getElem?_eq_some_iff.1 eF
  unfold UrcSys.Fen
  by_cases e : g = f
  · subst e
    simp only [List.getElem?_set_self hlt, eF]
    constructor
    · rintro ⟨G, h, rfl⟩
      simp only [Option.some.injEq] at h
      exact ⟨F, rfl, by rw [← h, hm]⟩
    · rintro ⟨G, h, rfl⟩
      simp only [Option.some.injEq] at h
      exact ⟨F', rfl, by rw [← h, hm]⟩
  · simp only [List.getElem?_set_ne (Ne.symm e)]

theorem fenceOf_set {f p : Nat} {F F' : UrcFence} (eF : s.fences[f]? = some (some F))
    (hm : F'.master = F.master) : (s.fences.set f (some F')).countP (fenceOf p) = s.unf p := by
  have := countP_set_add (fenceOf p) eF (some F')
  have e : fenceOf p (some F') = fenceOf p (some F) := by simp [fenceOf, hm]
  rw [e] at this
  unfold UrcSys.unf
  omega

/-- Thread `t`, which has a handle of fence `f`, changes the counts of `f` and its handles of it. -/
theorem change (I : UrcLInv n s) {t h f : Nat} {k : UrcHand} (ht : s.threads[t]? = some none)
    (e : s.hands[h]? = some (some (.own t k))) (hk : k.fen = f) {F F' : UrcFence}
    (eF : s.fences[f]? = some (some F)) (hm : F'.master = F.master) {H : List (Option UrcHold)}
    (hlen : H.length ≤ n') (hn : n ≤ n')
    (keep : ∀ (i : Nat) (x : UrcHold), x.fen ≠ f → (H[i]? = some (some x) ↔ s.hands[i]? = some (some x)))
    (cU : ∀ g, g ≠ f → H.countP (UrcHold.strongAt g) = s.nU g)
    (cW : ∀ g, g ≠ f → H.countP (UrcHold.weakAt g) = s.nW g)
    (own : ∀ (i : Nat) (x : UrcHold), H[i]? = some (some x) → x.fen = f →
      ∃ k, x = .own t k ∧ ∀ m, k = .weak f m → m = F.master)
    (lone : ∀ (i i' : Nat) (x x' : UrcHold), H[i]? = some (some x) → H[i']? = some (some x') → x.fen = f →
      x'.fen = f → i = i' ∨ x.shared t = true ∧ x'.shared t = true)
    (st : 1 ≤ H.countP (UrcHold.strongAt f) → F'.strong = H.countP (UrcHold.strongAt f))
    (wk : 1 ≤ H.countP (UrcHold.weakAt f) → F'.weak = H.countP (UrcHold.weakAt f))
    (wk0 : H.countP (UrcHold.weakAt f) = 0 → 1 ≤ H.countP (UrcHold.strongAt f) → F'.weak = 0)
    (al : 1 ≤ H.countP (UrcHold.strongAt f) → 1 ≤ s.nU f) :
    UrcLInv n' { s with hands := H, fences := s.fences.set f (some F') } := by
  obtain ⟨hlt, -⟩ := List.getElem?_eq_some_iff.1 eF
  have hF : ∀ g p, ({ s with hands := H, fences := s.fences.set f (some F') } : UrcSys α).Fen g p ↔
    s.Fen g p := fun g p => fen_set eF hm
  have hFf : s.Fen f F.master := ⟨F, eF, rfl⟩
  refine
    { hlen := hlen, bound := fun p => Nat.le_trans (I.bound p) hn, fen := ?_, mas := ?_, weakm := ?_, loc := ?_
      strong := ?_, weak := ?_, weak0 := ?_, alive := ?_, count := ?_, ops := ?_ }
  · intro i x hx
    by_cases ef : x.fen = f
    · exact ⟨_, (hF _ _).2 (ef ▸ hFf)⟩
    · obtain ⟨p, hp⟩ := I.fen i x ((keep i x ef).1 hx)
      exact ⟨p, (hF _ _).2 hp⟩
  · intro g p hg
    exact I.mas g p ((hF _ _).1 hg)
  · intro i t' g m hx
    by_cases ef : g = f
    · subst ef
      obtain ⟨k', h1, h2⟩ := own i _ hx rfl
      injection h1 with h1 h1'
      have := h2 m h1'.symm
      subst this
      exact (hF _ _).2 hFf
    · exact (hF _ _).2 (I.weakm i t' g m ((keep i (.own t' (.weak g m)) ef).1 hx))
  · intro i i' x x' hx hx' hxx
    by_cases ef : x.fen = f
    · rcases lone i i' x x' hx hx' ef (hxx ▸ ef) with h | h
      · exact Or.inl h
      · exact Or.inr ⟨t, h⟩
    · exact I.loc i i' x x' ((keep i x ef).1 hx) ((keep i' x' (hxx ▸ ef)).1 hx') hxx
  · intro g G hG hc
    by_cases ef : g = f
    · subst ef
      simp only [List.getElem?_set_self hlt, Option.some.injEq] at hG
      subst hG
      exact st hc
    · simp only [List.getElem?_set_ne (Ne.symm ef)] at hG
      have hU := cU g ef
      show G.strong = H.countP _
      rw [hU]
      refine I.strong g G hG ?_
      rw [← hU]; exact hc
  · intro g G hG hc
    by_cases ef : g = f
    · subst ef
      simp only [List.getElem?_set_self hlt, Option.some.injEq] at hG
      subst hG
      exact wk hc
    · simp only [List.getElem?_set_ne (Ne.symm ef)] at hG
      have hU := cW g ef
      show G.weak = H.countP _
      rw [hU]
      refine I.weak g G hG ?_
      rw [← hU]; exact hc
  · intro g G hG h0 h1
    by_cases ef : g = f
    · subst ef
      simp only [List.getElem?_set_self hlt, Option.some.injEq] at hG
      subst hG
      exact Or.inl (wk0 h0 h1)
    · simp only [List.getElem?_set_ne (Ne.symm ef)] at hG
      exact I.weak0 g G hG (by rw [← cW g ef]; exact h0) (by rw [← cU g ef]; exact h1)
  · intro i x p hx hs hp
    have hp' := (hF _ _).1 hp
    by_cases ef : x.fen = f
    · have h1 : 1 ≤ H.countP (UrcHold.strongAt f) :=
        countP_pos_of _ hx (by simp [UrcHold.strongAt, hs, ef])
      obtain ⟨j, y, hy, hys, hyf⟩ := UrcSys.nU_hand (al h1)
      rw [ef] at hp' ⊢
      rw [← hyf] at hp' ⊢
      exact I.alive j y p hy hys hp'
    · exact I.alive i x p ((keep i x ef).1 hx) hs hp'
  · intro p ha
    have : ({ s with hands := H, fences := s.fences.set f (some F') } : UrcSys α).unf p = s.unf p :=
      fenceOf_set eF hm
    rw [this]
    exact I.count p ha
  · intro t' op h
    have ne : t' ≠ t := by
      rintro rfl
      unfold UrcSys.At at h
      simp only at h
      rw [ht] at h
      cases h
    have o := I.ops t' op h
    refine o.mono (fun h' f' p eo => ?_) (fun _ _ _ _ _ g => (hF g _).1) (fun _ _ _ g => (hF g _).1)
      (Nat.le_refl _) (fun _ _ _ _ _ ha => ha)
    have nf := I.foreign e hk h ne eo
    have ho := o.own h' f' p eo
    exact ⟨by rw [ho]; exact (keep h' (.own t' (.urc f')) nf).2 ho, cU f' nf, cW f' nf, (hF _ _).2 (o.fen h' f' p eo)⟩

theorem not_at {t : Nat} (ht : s.threads[t]? = some none) {op : UrcOp α} : ¬ s.At t op := by
  intro h
  unfold UrcSys.At at h
  rw [ht] at h
  cases h

/-- `weak` of a fence is right if its thread is idle. -/
theorem weak_eq (I : UrcLInv n s) {t h f : Nat} {k : UrcHand} (ht : s.threads[t]? = some none)
    (e : s.hands[h]? = some (some (.own t k))) (hs : (UrcHold.own t k).strong = true) (hk : k.fen = f)
    {F : UrcFence} (eF : s.fences[f]? = some (some F)) : F.weak = s.nW f := by
  by_cases h0 : s.nW f = 0
  · rcases I.weak0 f F eF h0 (UrcSys.nU_pos e hs hk) with h1 | ⟨t', op, h1, h2⟩
    · omega
    · exfalso
      by_cases et : t' = t
      · subst et
        exact not_at ht h1
      · cases op <;> simp [UrcOp.pins] at h2
        · exact I.foreign e hk h1 et rfl h2
        · exact I.foreign e hk h1 et rfl h2
  · exact I.weak f F eF (by omega)

theorem strong_eq (I : UrcLInv n s) {t h f : Nat} {k : UrcHand}
    (e : s.hands[h]? = some (some (.own t k))) (hs : (UrcHold.own t k).strong = true) (hk : k.fen = f)
    {F : UrcFence} (eF : s.fences[f]? = some (some F)) : F.strong = s.nU f :=
  I.strong f F eF (UrcSys.nU_pos e hs hk)

/-- Thread `t` gets another handle of its fence `f`. -/
theorem add (I : UrcLInv n s) {t h f : Nat} {k : UrcHand} (ht : s.threads[t]? = some none)
    (e : s.hands[h]? = some (some (.own t (.urc f)))) {F F' : UrcFence}
    (eF : s.fences[f]? = some (some F)) (hm : F'.master = F.master)
    (hk : k = .urc f ∧ F' = { F with strong := F.strong + 1 } ∨
      k = .weak f F.master ∧ F' = { F with weak := F.weak + 1 }) :
    UrcLInv (n + 1) { s with
      hands := s.hands ++ [some (.own t k)], fences := s.fences.set f (some F') } := by
  have hkf : k.fen = f := by rcases hk with ⟨rfl, -⟩ | ⟨rfl, -⟩ <;> rfl
  have hsh : (UrcHold.own t k).shared t = true := by
    rcases hk with ⟨rfl, -⟩ | ⟨rfl, -⟩ <;> simp [UrcHold.shared]
  have hU := UrcSys.nU_pos e rfl rfl
  have cU : ∀ g, (s.hands ++ [some (UrcHold.own t k)]).countP (UrcHold.strongAt g) =
      s.nU g + ((UrcHold.strongAt g (some (.own t k))).toNat) := fun g => by
    rw [List.countP_append]; simp [UrcSys.nU, List.countP_singleton]; split <;> simp_all
  have cW : ∀ g, (s.hands ++ [some (UrcHold.own t k)]).countP (UrcHold.weakAt g) =
      s.nW g + ((UrcHold.weakAt g (some (.own t k))).toNat) := fun g => by
    rw [List.countP_append]; simp [UrcSys.nW, List.countP_singleton]; split <;> simp_all
  have back : ∀ (i : Nat) (x : UrcHold), (s.hands ++ [some (UrcHold.own t k)])[i]? = some (some x) →
      s.hands[i]? = some (some x) ∨ x = .own t k ∧ i = s.hands.length := by
    intro i x hx
    by_cases hi : i < s.hands.length
    · rw [List.getElem?_append_left hi] at hx
      exact Or.inl hx
    · rw [List.getElem?_append_right (by omega)] at hx
      by_cases h0 : i - s.hands.length = 0
      · rw [h0] at hx
        simp only [List.getElem?_cons_zero, Option.some.injEq] at hx
        exact Or.inr ⟨hx.symm, by omega⟩
      · rw [List.getElem?_eq_none (by simp; omega)] at hx
        cases hx
  have old : ∀ (i : Nat) (x : UrcHold), s.hands[i]? = some (some x) → x.fen = f → x.shared t = true := by
    intro i x hx hf
    rcases I.loc i h x _ hx e (by simp [hf]) with rfl | ⟨t', h1, h2⟩
    · rw [e] at hx
      injection hx with hx
      injection hx with hx
      subst hx
      simp [UrcHold.shared]
    · simp [UrcHold.shared] at h2
      subst h2
      exact h1
  refine I.change ht e rfl eF hm (by simp; exact I.hlen) (by omega) ?_ ?_ ?_ ?_ ?_ ?_ ?_ ?_ (fun _ => hU)
  · intro i x hx
    constructor
    · intro h'
      rcases back i x h' with h' | ⟨rfl, -⟩
      · exact h'
      · exact absurd hkf hx
    · intro h'
      obtain ⟨hl, -⟩ := List.getElem?_eq_some_iff.1 h'
      rw [List.getElem?_append_left hl]
      exact h'
  · intro g hg
    rw [cU]
    have : UrcHold.strongAt g (some (.own t k)) = false := 
      UrcHold.strongAt_ne (by rw [UrcHold.fen_own, hkf]; exact Ne.symm hg)
    simp [this]
  · intro g hg
    rw [cW]
    have : UrcHold.weakAt g (some (.own t k)) = false := 
      UrcHold.weakAt_ne (by rw [UrcHold.fen_own, hkf]; exact Ne.symm hg)
    simp [this]
  · intro i x hx hf
    rcases back i x hx with hx | ⟨rfl, -⟩
    · obtain ⟨k', rfl⟩ := I.mine e hx hf
      refine ⟨k', rfl, ?_⟩
      rintro m rfl
      exact UrcSys.Fen.inj (I.weakm i t f m hx) ⟨F, eF, rfl⟩
    · refine ⟨k, rfl, ?_⟩
      rintro m rfl
      rcases hk with ⟨h1, -⟩ | ⟨h1, -⟩
      · cases h1
      · injection h1
  · intro i i' x x' hx hx' hf hf'
    right
    constructor
    · rcases back i x hx with hx | ⟨rfl, -⟩
      · exact old i x hx hf
      · exact hsh
    · rcases back i' x' hx' with hx | ⟨rfl, -⟩
      · exact old i' x' hx hf'
      · exact hsh
  · intro _
    rw [cU]
    have := I.strong f F eF hU
    rcases hk with ⟨rfl, rfl⟩ | ⟨rfl, rfl⟩ <;> simp [UrcHold.strongAt, UrcHold.strong, this]
  · intro hc
    rw [cW] at hc ⊢
    rcases hk with ⟨rfl, rfl⟩ | ⟨rfl, rfl⟩
    · simp [UrcHold.weakAt, UrcHold.strong] at hc ⊢
      exact I.weak f F eF hc
    · simp [UrcHold.weakAt, UrcHold.strong]
      exact I.weak_eq ht e rfl rfl eF
  · intro h0 _
    rw [cW] at h0
    rcases hk with ⟨rfl, rfl⟩ | ⟨rfl, rfl⟩
    · simp [UrcHold.weakAt, UrcHold.strong] at h0
      exact (I.weak_eq ht e rfl rfl eF).trans h0
    · simp [UrcHold.weakAt, UrcHold.strong] at h0

/-- Thread `t` gives up its handle `h` of fence `f`, or makes it another one. -/
theorem swap (I : UrcLInv n s) {t h f : Nat} {k : UrcHand} {y : Option UrcHold} (ht : s.threads[t]? = some none)
    (e : s.hands[h]? = some (some (.own t k))) (hk : k.fen = f) {F F' : UrcFence}
    (eF : s.fences[f]? = some (some F)) (hm : F'.master = F.master)
    (hy : y = none ∨ y = some (.own t (.fence f)) ∧ k = .urc f ∧ s.nU f = 1 ∧ s.nW f = 0)
    (st : 1 ≤ (s.hands.set h y).countP (UrcHold.strongAt f) →
      F'.strong = (s.hands.set h y).countP (UrcHold.strongAt f))
    (wk : 1 ≤ (s.hands.set h y).countP (UrcHold.weakAt f) →
      F'.weak = (s.hands.set h y).countP (UrcHold.weakAt f))
    (wk0 : (s.hands.set h y).countP (UrcHold.weakAt f) = 0 →
      1 ≤ (s.hands.set h y).countP (UrcHold.strongAt f) → F'.weak = 0) :
    UrcLInv n { s with hands := s.hands.set h y, fences := s.fences.set f (some F') } := by
  obtain ⟨hlt, -⟩ := List.getElem?_eq_some_iff.1 e
  have back : ∀ (i : Nat) (x : UrcHold), (s.hands.set h y)[i]? = some (some x) →
      i ≠ h ∧ s.hands[i]? = some (some x) ∨ i = h ∧ y = some x := by
    intro i x hx
    by_cases hi : i = h
    · subst hi
      rw [List.getElem?_set_self hlt] at hx
      exact Or.inr ⟨rfl, by simpa using hx⟩
    · rw [List.getElem?_set_ne (Ne.symm hi)] at hx
      exact Or.inl ⟨hi, hx⟩
  have cU := fun g => countP_set_add (UrcHold.strongAt g) e y
  have cW := fun g => countP_set_add (UrcHold.weakAt g) e y
  have zU : ∀ g, g ≠ f → UrcHold.strongAt g y = false := by
    intro g hg
    rcases hy with rfl | ⟨rfl, -⟩
    · rfl
    · exact UrcHold.strongAt_ne (Ne.symm hg)
  have zW : ∀ g, g ≠ f → UrcHold.weakAt g y = false := by
    intro g hg
    rcases hy with rfl | ⟨rfl, -⟩
    · rfl
    · exact UrcHold.weakAt_ne (Ne.symm hg)
  have own : ∀ (i : Nat) (x : UrcHold), s.hands[i]? = some (some x) → x.fen = f →
      i = h ∨ ∃ k', x = .own t k' ∧ x.shared t = true := by
    intro i x hx hf
    rcases I.loc i h x _ hx e (by simp [hf, hk]) with rfl | ⟨t', h1, h2⟩
    · exact Or.inl rfl
    · have : t' = t := by
        cases k <;> simp [UrcHold.shared] at h2 <;> exact h2.symm
      subst this
      right
      cases x with
      | env f => simp [UrcHold.shared] at h1
      | own t'' k' =>
        cases k' <;> simp [UrcHold.shared] at h1 <;> subst h1 <;> exact ⟨_, rfl, by simp [UrcHold.shared]⟩
  refine I.change ht e hk eF hm (by simp; exact I.hlen) (Nat.le_refl _) ?_ ?_ ?_ ?_ ?_ st wk wk0 ?_
  · intro i x hx
    constructor
    · intro h'
      rcases back i x h' with ⟨-, h'⟩ | ⟨-, h'⟩
      · exact h'
      · rcases hy with rfl | ⟨rfl, -⟩
        · cases h'
        · injection h' with h'
          subst h'
          exact absurd rfl hx
    · intro h'
      rw [List.getElem?_set_ne]
      · exact h'
      · rintro rfl
        rw [e] at h'
        injection h' with h'
        injection h' with h'
        subst h'
        exact hx hk
  · intro g hg
    have := cU g
    rw [zU g hg, UrcHold.strongAt_ne (x := .own t k) (by simpa [hk] using Ne.symm hg)] at this
    simpa [UrcSys.nU] using this
  · intro g hg
    have := cW g
    rw [zW g hg, UrcHold.weakAt_ne (x := .own t k) (by simpa [hk] using Ne.symm hg)] at this
    simpa [UrcSys.nW] using this
  · intro i x hx hf
    rcases back i x hx with ⟨ni, hx'⟩ | ⟨-, hx'⟩
    · rcases own i x hx' hf with rfl | ⟨k', rfl, -⟩
      · exact absurd rfl ni
      · refine ⟨k', rfl, ?_⟩
        rintro m rfl
        exact UrcSys.Fen.inj (I.weakm i t f m hx') ⟨F, eF, rfl⟩
    · rcases hy with rfl | ⟨rfl, -⟩
      · cases hx'
      · injection hx' with hx'
        subst hx'
        exact ⟨_, rfl, fun m hm => by cases hm⟩
  · intro i i' x x' hx hx' hf hf'
    rcases hy with rfl | ⟨rfl, hku, h1, h2⟩
    · rcases back i x hx with ⟨ni, hx⟩ | ⟨-, hx⟩
      · rcases back i' x' hx' with ⟨ni', hx'⟩ | ⟨-, hx'⟩
        · rcases own i x hx hf with rfl | ⟨-, -, h1⟩
          · exact absurd rfl ni
          · rcases own i' x' hx' hf' with rfl | ⟨-, -, h2⟩
            · exact absurd rfl ni'
            · exact Or.inr ⟨h1, h2⟩
        · cases hx'
      · cases hx
    · -- there is no other handle
      have no : ∀ (j : Nat) (z : UrcHold), (s.hands.set h (some (.own t (.fence f))))[j]? = some (some z) →
          z.fen = f → j = h := by
        intro j z hz hzf
        rcases back j z hz with ⟨nj, hz⟩ | ⟨hj, -⟩
        · exfalso
          cases hs : z.strong
          · have := UrcSys.nW_pos hz hs hzf
            omega
          · subst hku
            have := UrcSys.nU_two e hz nj rfl hs rfl hzf
            simp at this
            omega
        · exact hj
      exact Or.inl ((no i x hx hf).trans (no i' x' hx' hf').symm)
  · intro h1
    rcases hy with rfl | ⟨-, rfl, -, -⟩
    · have := cU f
      simp only [show UrcHold.strongAt f none = false from rfl, Bool.toNat_false, Nat.add_zero] at this
      unfold UrcSys.nU
      omega
    · exact UrcSys.nU_pos e rfl rfl

/-- Thread `t` gives up its only handle of fence `f`, and the fence is released. -/
theorem free (I : UrcLInv n s) {t h f p : Nat} {k : UrcHand} (ht : s.threads[t]? = some none)
    (e : s.hands[h]? = some (some (.own t k))) (hk : k.fen = f) (hp : s.Fen f p)
    (hs : (UrcHold.own t k).strong = true) (h1 : s.nU f = 1) (h2 : s.nW f = 0) {m : ArcMem}
    (hq : ∀ q, q ≠ p → m.msgs .strong q = s.mem.msgs .strong q)
    (hsf : ({ s with mem := m } : UrcSys α).sf p ≤ n)
    (hsf' : s.sf p ≤ ({ s with mem := m } : UrcSys α).sf p + 1) :
    UrcLInv n { s with hands := s.hands.set h none, fences := s.fences.set f none, mem := m } := by
  obtain ⟨hlt, -⟩ := List.getElem?_eq_some_iff.1 e
  obtain ⟨F, eF, hFp⟩ := id hp
  obtain ⟨hltF, -⟩ := List.getElem?_eq_some_iff.1 eF
  have hF : ∀ g q, ({ s with hands := s.hands.set h none, fences := s.fences.set f none, mem := m } :
      UrcSys α).Fen g q ↔ g ≠ f ∧ s.Fen g q := by
    intro g q
    unfold UrcSys.Fen
    by_cases eg : g = f
    · subst eg
      simp [List.getElem?_set_self hltF]
    · simp only [List.getElem?_set_ne (Ne.symm eg)]
      simp [eg]
  have back : ∀ (i : Nat) (x : UrcHold), (s.hands.set h none)[i]? = some (some x) →
      x.fen ≠ f ∧ s.hands[i]? = some (some x) := by
    intro i x hx
    by_cases hi : i = h
    · subst hi
      rw [List.getElem?_set_self hlt] at hx
      cases hx
    · rw [List.getElem?_set_ne (Ne.symm hi)] at hx
      refine ⟨fun hf => ?_, hx⟩
      cases hs' : x.strong
      · have := UrcSys.nW_pos hx hs' hf
        omega
      · have := UrcSys.nU_two e hx hi hs hs' hk hf
        omega
  have cU : ∀ g, g ≠ f → (s.hands.set h none).countP (UrcHold.strongAt g) = s.nU g := by
    intro g hg
    have := countP_set_add (UrcHold.strongAt g) e none
    rw [UrcHold.strongAt_ne (x := .own t k) (by simpa [hk] using Ne.symm hg)] at this
    simpa [UrcHold.strongAt, UrcSys.nU] using this
  have cW : ∀ g, g ≠ f → (s.hands.set h none).countP (UrcHold.weakAt g) = s.nW g := by
    intro g hg
    have := countP_set_add (UrcHold.weakAt g) e none
    rw [UrcHold.weakAt_ne (x := .own t k) (by simpa [hk] using Ne.symm hg)] at this
    simpa [UrcHold.weakAt, UrcSys.nW] using this
  have sfq : ∀ q, q ≠ p → ({ s with hands := s.hands.set h none, fences := s.fences.set f none, mem := m } :
      UrcSys α).sf q = s.sf q := fun q hq' => by simp only [UrcSys.sf, hq q hq']
  refine
    { hlen := by simpa using I.hlen, bound := fun q => ?_, fen := ?_, mas := ?_, weakm := ?_, loc := ?_
      strong := ?_, weak := ?_, weak0 := ?_, alive := ?_, count := ?_, ops := ?_ }
  · by_cases eq : q = p
    · subst eq
      exact hsf
    · rw [sfq q eq]
      exact I.bound q
  · intro i x hx
    obtain ⟨h1, h2⟩ := back i x hx
    obtain ⟨q, hq⟩ := I.fen i x h2
    exact ⟨q, (hF _ _).2 ⟨h1, hq⟩⟩
  · intro g q hg
    exact I.mas g q ((hF _ _).1 hg).2
  · intro i t' g m' hx
    obtain ⟨h1, h2⟩ := back i _ hx
    exact (hF _ _).2 ⟨h1, I.weakm i t' g m' h2⟩
  · intro i i' x x' hx hx' hxx
    exact I.loc i i' x x' (back i x hx).2 (back i' x' hx').2 hxx
  · intro g G hG hc
    have eg : g ≠ f := by
      rintro rfl
      simp [List.getElem?_set_self hltF] at hG
    simp only [List.getElem?_set_ne (Ne.symm eg)] at hG
    show G.strong = List.countP _ _
    rw [cU g eg]
    exact I.strong g G hG (by rw [← cU g eg]; exact hc)
  · intro g G hG hc
    have eg : g ≠ f := by
      rintro rfl
      simp [List.getElem?_set_self hltF] at hG
    simp only [List.getElem?_set_ne (Ne.symm eg)] at hG
    show G.weak = List.countP _ _
    rw [cW g eg]
    exact I.weak g G hG (by rw [← cW g eg]; exact hc)
  · intro g G hG h0 h1
    have eg : g ≠ f := by
      rintro rfl
      simp [List.getElem?_set_self hltF] at hG
    simp only [List.getElem?_set_ne (Ne.symm eg)] at hG
    exact I.weak0 g G hG (by rw [← cW g eg]; exact h0) (by rw [← cU g eg]; exact h1)
  · intro i x q hx hs' hq'
    obtain ⟨-, h2⟩ := back i x hx
    exact I.alive i x q h2 hs' ((hF _ _).1 hq').2
  · intro q ha
    have c := countP_set_add (fenceOf q) eF none
    have hz : fenceOf q none = false := rfl
    rw [hz] at c
    by_cases eq : q = p
    · subst eq
      have hc := I.count_of e hk hp ha (fun op h => absurd h (not_at ht))
      left
      have h1 : fenceOf q (some F) = true := by simp [fenceOf, hFp]
      rw [h1] at c
      have : ({ s with hands := s.hands.set h none, fences := s.fences.set f none, mem := m } :
        UrcSys α).unf q + 1 = s.unf q := c
      have e2 : ({ s with hands := s.hands.set h none, fences := s.fences.set f none, mem := m } :
        UrcSys α).sf q = ({ s with mem := m } : UrcSys α).sf q := rfl
      omega
    · have h1 : fenceOf q (some F) = false := by simp [fenceOf, hFp, Ne.symm eq]
      rw [h1] at c
      rcases I.count q ha with h' | h'
      · left
        rw [sfq q eq]
        have : ({ s with hands := s.hands.set h none, fences := s.fences.set f none, mem := m } :
          UrcSys α).unf q = s.unf q := c
        omega
      · exact Or.inr h'
  · intro t' op h
    have ne : t' ≠ t := by
      rintro rfl
      exact not_at ht h
    have o := I.ops t' op h
    refine o.mono (fun h' f' q eo => ?_) (fun _ _ _ _ _ g hg => ((hF g _).1 hg).2)
      (fun _ _ _ g hg => ((hF g _).1 hg).2) (Nat.le_refl _) (fun _ _ _ _ _ ha => ha)
    have nf := I.foreign e hk h ne eo
    have ho := o.own h' f' q eo
    refine ⟨?_, cU f' nf, cW f' nf, (hF _ _).2 ⟨nf, o.fen h' f' q eo⟩⟩
    simp only
    rw [List.getElem?_set_ne]
    rintro rfl
    rw [e] at ho
    injection ho with ho
    injection ho with ho
    injection ho with ho1 ho2
    exact ne ho1.symm

/-- A new fence, of master `p`, with one handle. -/
theorem fresh (I : UrcLInv n s) {t p : Nat} {x : UrcHold} {V : List (α × Bool)} {m : ArcMem}
    (hx : x = .own t (.urc s.fences.length) ∨ x = .env s.fences.length)
    (hp : p < (s.vals ++ V).length)
    (ha : ({ s with vals := s.vals ++ V } : UrcSys α).Alive p)
    (hq : ∀ q, q ≠ p → m.msgs .strong q = s.mem.msgs .strong q)
    (hd : ∀ q, q ≠ p → ({ s with vals := s.vals ++ V } : UrcSys α).Alive q → s.Alive q)
    (hsf : ({ s with mem := m } : UrcSys α).sf p ≤ n + 1)
    (hsf' : s.unf p + 1 ≤ ({ s with mem := m } : UrcSys α).sf p)
    (h1 : ∀ t' op h f, s.At t' op → op.hand = some (h, f, p) → op.sole = false)
    (h2 : ∀ t' k, ¬ s.At t' (.fin p k)) :
    UrcLInv (n + 1) { s with
      vals := s.vals ++ V
      fences := s.fences ++ [some ⟨1, 0, p⟩]
      hands := s.hands ++ [some x]
      mem := m } := by
  have hxf : x.fen = s.fences.length := by rcases hx with rfl | rfl <;> rfl
  have hxs : x.strong = true := by rcases hx with rfl | rfl <;> rfl
  have lt : ∀ g q, s.Fen g q → g < s.fences.length := by
    rintro g q ⟨G, hG, -⟩
    exact (List.getElem?_eq_some_iff.1 hG).1
  have none_ : ∀ (i : Nat) (y : UrcHold), s.hands[i]? = some (some y) → y.fen ≠ s.fences.length := by
    intro i y hy
    obtain ⟨q, hq⟩ := I.fen i y hy
    have := lt _ _ hq
    omega
  have hF : ∀ g q, ({ s with
      vals := s.vals ++ V, fences := s.fences ++ [some ⟨1, 0, p⟩], hands := s.hands ++ [some x], mem := m } :
      UrcSys α).Fen g q ↔ s.Fen g q ∨ g = s.fences.length ∧ q = p := by
    intro g q
    unfold UrcSys.Fen
    by_cases hg : g < s.fences.length
    · simp only [List.getElem?_append_left hg]
      constructor
      · exact Or.inl
      · rintro (h | ⟨h, -⟩)
        · exact h
        · omega
    · simp only [List.getElem?_append_right (Nat.le_of_not_lt hg)]
      constructor
      · rintro ⟨G, hG, rfl⟩
        by_cases h0 : g - s.fences.length = 0
        · rw [h0] at hG
          simp only [List.getElem?_cons_zero, Option.some.injEq] at hG
          subst hG
          exact Or.inr ⟨by omega, rfl⟩
        · rw [List.getElem?_eq_none (by simp; omega)] at hG
          cases hG
      · rintro (⟨G, hG, rfl⟩ | ⟨rfl, rfl⟩)
        · exact absurd (List.getElem?_eq_some_iff.1 hG).1 hg
        · exact ⟨⟨1, 0, q⟩, by simp, rfl⟩
  have back : ∀ (i : Nat) (y : UrcHold), (s.hands ++ [some x])[i]? = some (some y) →
      s.hands[i]? = some (some y) ∨ y = x ∧ i = s.hands.length := by
    intro i y hy
    by_cases hi : i < s.hands.length
    · rw [List.getElem?_append_left hi] at hy
      exact Or.inl hy
    · rw [List.getElem?_append_right (by omega)] at hy
      by_cases h0 : i - s.hands.length = 0
      · rw [h0] at hy
        simp only [List.getElem?_cons_zero, Option.some.injEq] at hy
        exact Or.inr ⟨hy.symm, by omega⟩
      · rw [List.getElem?_eq_none (by simp; omega)] at hy
        cases hy
  have cU : ∀ g, g ≠ s.fences.length → (s.hands ++ [some x]).countP (UrcHold.strongAt g) = s.nU g := by
    intro g hg
    rw [List.countP_append, List.countP_singleton, UrcHold.strongAt_ne (by rw [hxf]; exact Ne.symm hg)]
    rfl
  have cW : ∀ g, g ≠ s.fences.length → (s.hands ++ [some x]).countP (UrcHold.weakAt g) = s.nW g := by
    intro g hg
    rw [List.countP_append, List.countP_singleton, UrcHold.weakAt_ne (by rw [hxf]; exact Ne.symm hg)]
    rfl
  have zU : s.nU s.fences.length = 0 := by
    by_contra h0
    obtain ⟨i, y, hy, -, hyf⟩ := UrcSys.nU_hand (s := s) (f := s.fences.length) (by omega)
    exact none_ i y hy hyf
  have zW : s.nW s.fences.length = 0 := by
    by_contra h0
    obtain ⟨a, ha, e⟩ := List.countP_pos_iff.1 (Nat.pos_of_ne_zero h0)
    obtain ⟨i, hi⟩ := List.getElem?_of_mem ha
    cases a with
    | none => cases e
    | some y =>
      simp [UrcHold.weakAt] at e
      exact none_ i y hi e.2
  have c1 : (s.hands ++ [some x]).countP (UrcHold.strongAt s.fences.length) = 1 := by
    rw [List.countP_append, List.countP_singleton]
    have : UrcHold.strongAt s.fences.length (some x) = true := by simp [UrcHold.strongAt, hxs, hxf]
    rw [this]
    unfold UrcSys.nU at zU
    simp [zU]
  have c0 : (s.hands ++ [some x]).countP (UrcHold.weakAt s.fences.length) = 0 := by
    rw [List.countP_append, List.countP_singleton]
    have : UrcHold.weakAt s.fences.length (some x) = false := by simp [UrcHold.weakAt, hxs]
    rw [this]
    unfold UrcSys.nW at zW
    simp [zW]
  have sfq : ∀ q, q ≠ p → ({ s with
      vals := s.vals ++ V, fences := s.fences ++ [some ⟨1, 0, p⟩], hands := s.hands ++ [some x], mem := m } :
      UrcSys α).sf q = s.sf q := fun q hq' => by simp only [UrcSys.sf, hq q hq']
  have fences : ∀ (g : Nat) (G : UrcFence), (s.fences ++ [some ⟨1, 0, p⟩])[g]? = some (some G) →
      s.fences[g]? = some (some G) ∧ g ≠ s.fences.length ∨ g = s.fences.length ∧ G = ⟨1, 0, p⟩ := by
    intro g G hG
    by_cases hg : g < s.fences.length
    · rw [List.getElem?_append_left hg] at hG
      exact Or.inl ⟨hG, by omega⟩
    · rw [List.getElem?_append_right (by omega)] at hG
      by_cases h0 : g - s.fences.length = 0
      · rw [h0] at hG
        simp only [List.getElem?_cons_zero, Option.some.injEq] at hG
        exact Or.inr ⟨by omega, hG.symm⟩
      · rw [List.getElem?_eq_none (by simp; omega)] at hG
        cases hG
  have av : ∀ q, s.Alive q → ({ s with vals := s.vals ++ V } : UrcSys α).Alive q := by
    rintro q ⟨v, hv⟩
    refine ⟨v, ?_⟩
    simp only
    rw [List.getElem?_append_left (List.getElem?_eq_some_iff.1 hv).1]
    exact hv
  refine
    { hlen := by simp; exact I.hlen, bound := fun q => ?_, fen := ?_, mas := ?_, weakm := ?_, loc := ?_
      strong := ?_, weak := ?_, weak0 := ?_, alive := ?_, count := ?_, ops := ?_ }
  · by_cases eq : q = p
    · subst eq
      exact hsf
    · rw [sfq q eq]
      exact Nat.le_trans (I.bound q) (by omega)
  · intro i y hy
    rcases back i y hy with hy | ⟨rfl, -⟩
    · obtain ⟨q, hq⟩ := I.fen i y hy
      exact ⟨q, (hF _ _).2 (Or.inl hq)⟩
    · exact ⟨p, (hF _ _).2 (Or.inr ⟨hxf, rfl⟩)⟩
  · intro g q hg
    rcases (hF _ _).1 hg with hg | ⟨-, rfl⟩
    · have := I.mas g q hg
      simp
      omega
    · exact hp
  · intro i t' g m' hy
    rcases back i _ hy with hy | ⟨hy, -⟩
    · exact (hF _ _).2 (Or.inl (I.weakm i t' g m' hy))
    · rw [← hy] at hxs
      cases hxs
  · intro i i' y y' hy hy' hyy
    rcases back i y hy with h1 | ⟨rfl, e1⟩
    · rcases back i' y' hy' with h2 | ⟨rfl, e2⟩
      · exact I.loc i i' y y' h1 h2 hyy
      · exact absurd (hyy.trans hxf) (none_ i y h1)
    · rcases back i' y' hy' with h2 | ⟨rfl, e2⟩
      · exact absurd (hyy.symm.trans hxf) (none_ i' y' h2)
      · exact Or.inl (e1.trans e2.symm)
  · intro g G hG hc
    show G.strong = List.countP _ _
    rcases fences g G hG with ⟨hG, hg⟩ | ⟨rfl, rfl⟩
    · rw [cU g hg]
      exact I.strong g G hG (by rw [← cU g hg]; exact hc)
    · rw [c1]
  · intro g G hG hc
    show G.weak = List.countP _ _
    rcases fences g G hG with ⟨hG, hg⟩ | ⟨rfl, rfl⟩
    · rw [cW g hg]
      exact I.weak g G hG (by rw [← cW g hg]; exact hc)
    · rw [c0]
  · intro g G hG h0 h1
    rcases fences g G hG with ⟨hG, hg⟩ | ⟨rfl, rfl⟩
    · exact I.weak0 g G hG (by rw [← cW g hg]; exact h0) (by rw [← cU g hg]; exact h1)
    · exact Or.inl rfl
  · intro i y q hy hs hq'
    rcases back i y hy with hy | ⟨rfl, -⟩
    · rcases (hF _ _).1 hq' with hq' | ⟨h', -⟩
      · rcases I.alive i y q hy hs hq' with h' | h'
        · exact Or.inl (av q h')
        · exact Or.inr h'
      · exact absurd h' (none_ i y hy)
    · rcases (hF _ _).1 hq' with hq' | ⟨-, rfl⟩
      · have := lt _ _ hq'
        omega
      · exact Or.inl ha
  · intro q haq
    have c : ({ s with
      vals := s.vals ++ V, fences := s.fences ++ [some ⟨1, 0, p⟩], hands := s.hands ++ [some x], mem := m } :
      UrcSys α).unf q = s.unf q + (fenceOf q (some ⟨1, 0, p⟩)).toNat := by
      unfold UrcSys.unf
      rw [List.countP_append, List.countP_singleton]
      cases fenceOf q (some ⟨1, 0, p⟩) <;> rfl
    by_cases eq : q = p
    · subst eq
      left
      rw [c]
      simp only [fenceOf, beq_self_eq_true, Bool.toNat_true]
      exact hsf'
    · rcases I.count q (hd q eq haq) with h' | h'
      · left
        rw [sfq q eq, c]
        have : (p == q) = false := by simpa using Ne.symm eq
        simp [fenceOf, this]
        exact h'
      · exact Or.inr h'
  · intro t' op h
    have o := I.ops t' op h
    refine o.mono (fun h' f' q eo => ?_) (fun h' f' q eo hs g hg => ?_) (fun q k e g hg => ?_)
      (by simp) (fun h' f' q v e haq => ?_)
    · have ho := o.own h' f' q eo
      have nf := none_ h' _ ho
      refine ⟨?_, cU f' nf, cW f' nf, (hF _ _).2 (Or.inl (o.fen h' f' q eo))⟩
      simp only
      rw [List.getElem?_append_left (List.getElem?_eq_some_iff.1 ho).1]
    · rcases (hF _ _).1 hg with hg | ⟨-, rfl⟩
      · exact hg
      · have := h1 t' op h' f' h eo
        rw [hs] at this
        cases this
    · rcases (hF _ _).1 hg with hg | ⟨-, rfl⟩
      · exact hg
      · subst e
        exact absurd h (h2 t' k)
    · by_cases eq : q = p
      · subst eq e
        have := h1 t' _ h' f' h rfl
        cases this
      · exact hd q eq haq

end UrcLInv
end Lokky
