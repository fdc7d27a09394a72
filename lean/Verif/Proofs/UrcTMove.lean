import Verif.Proofs.UrcTLocal

/-! Receiving handles, and moving values out. -/

namespace Lokky
variable {α : Type} {n n' : Nat} {s : UrcSys α}

namespace UrcLInv

/-- Thread `t` opens the envelope `h`. -/
theorem receive (I : UrcLInv n s) {t h f : Nat} (e : s.hands[h]? = some (some (.env f))) :
    UrcLInv n { s with hands := s.hands.set h (some (.own t (.urc f))) } := by
  obtain ⟨hlt, -⟩ := List.getElem?_eq_some_iff.1 e
  have back : ∀ (i : Nat) (x : UrcHold), (s.hands.set h (some (.own t (.urc f))))[i]? = some (some x) →
      i ≠ h ∧ s.hands[i]? = some (some x) ∨ i = h ∧ x = .own t (.urc f) := by
    intro i x hx
    by_cases hi : i = h
    · subst hi
      rw [List.getElem?_set_self hlt] at hx
      simp only [Option.some.injEq] at hx
      exact Or.inr ⟨rfl, hx.symm⟩
    · rw [List.getElem?_set_ne (Ne.symm hi)] at hx
      exact Or.inl ⟨hi, hx⟩
  have cU : ∀ g, (s.hands.set h (some (.own t (.urc f)))).countP (UrcHold.strongAt g) = s.nU g := by
    intro g
    have := countP_set_add (UrcHold.strongAt g) e (some (.own t (.urc f)))
    have h' : UrcHold.strongAt g (some (.own t (.urc f))) = UrcHold.strongAt g (some (.env f)) := rfl
    rw [h'] at this
    unfold UrcSys.nU
    omega
  have cW : ∀ g, (s.hands.set h (some (.own t (.urc f)))).countP (UrcHold.weakAt g) = s.nW g := by
    intro g
    have := countP_set_add (UrcHold.weakAt g) e (some (.own t (.urc f)))
    have h' : UrcHold.weakAt g (some (.own t (.urc f))) = UrcHold.weakAt g (some (.env f)) := rfl
    rw [h'] at this
    unfold UrcSys.nW
    omega
  have no : ∀ (i : Nat) (x : UrcHold), s.hands[i]? = some (some x) → x.fen = f → i = h := by
    intro i x hx hf
    rcases I.loc i h x _ hx e hf with h' | ⟨t', -, h'⟩
    · exact h'
    · cases h'
  refine
    { hlen := by simpa using I.hlen, bound := I.bound, fen := ?_, mas := I.mas, weakm := ?_, loc := ?_
      strong := ?_, weak := ?_, weak0 := ?_, alive := ?_, count := I.count, ops := ?_ }
  · intro i x hx
    rcases back i x hx with ⟨-, hx⟩ | ⟨-, rfl⟩
    · exact I.fen i x hx
    · exact I.fen h (.env f) e
  · intro i t' g m hx
    rcases back i _ hx with ⟨-, hx⟩ | ⟨-, hx⟩
    · exact I.weakm i t' g m hx
    · cases hx
  · intro i i' x x' hx hx' hxx
    rcases back i x hx with ⟨n1, h1⟩ | ⟨e1, rfl⟩
    · rcases back i' x' hx' with ⟨n2, h2⟩ | ⟨e2, rfl⟩
      · exact I.loc i i' x x' h1 h2 hxx
      · exact absurd (no i x h1 hxx) n1
    · rcases back i' x' hx' with ⟨n2, h2⟩ | ⟨e2, rfl⟩
      · exact absurd (no i' x' h2 hxx.symm) n2
      · exact Or.inl (e1.trans e2.symm)
  · intro g G hG hc
    show G.strong = List.countP _ _
    rw [cU]
    exact I.strong g G hG (by rw [← cU]; exact hc)
  · intro g G hG hc
    show G.weak = List.countP _ _
    rw [cW]
    exact I.weak g G hG (by rw [← cW]; exact hc)
  · intro g G hG h0 h1
    exact I.weak0 g G hG (by rw [← cW]; exact h0) (by rw [← cU]; exact h1)
  · intro i x p hx hs hp
    rcases back i x hx with ⟨-, hx⟩ | ⟨-, rfl⟩
    · exact I.alive i x p hx hs hp
    · exact I.alive h (.env f) p e rfl hp
  · intro t' op h'
    have o := I.ops t' op h'
    refine o.mono (fun h1 f1 p1 eo => ?_) (fun _ _ _ _ _ _ h => h) (fun _ _ _ _ h => h) (Nat.le_refl _)
      (fun _ _ _ _ _ h => h)
    refine ⟨?_, cU f1, cW f1, o.fen h1 f1 p1 eo⟩
    simp only
    rw [List.getElem?_set_ne]
    rintro rfl
    have := o.own _ f1 p1 eo
    rw [e] at this
    cases this

/-- `try_unwrap` has set `strong_fence` to zero. -/
theorem unwrap (I : UrcLInv n s) {t h f p : Nat} (ht : s.threads[t]? = some none)
    (e : s.hands[h]? = some (some (.own t (.urc f)))) {F : UrcFence} (eF : s.fences[f]? = some (some F))
    (hp : F.master = p) (h1 : F.strong = 1) (h2 : F.weak ≠ 0) (h3 : s.sf p = 1) {m : ArcMem}
    (hq : ∀ q, q ≠ p → m.msgs .strong q = s.mem.msgs .strong q)
    (hsf : ({ s with mem := m } : UrcSys α).sf p ≤ n) :
    UrcLInv n { s with threads := s.threads.set t (some (.unw1 h f p)), mem := m } := by
  have hF : s.Fen f p := ⟨F, eF, hp⟩
  obtain ⟨hlt, -⟩ := List.getElem?_eq_some_iff.1 ht
  have ha := I.alive_of e rfl rfl hF (fun op h => absurd h (not_at ht))
  have hc := I.count_of e rfl hF ha (fun op h => absurd h (not_at ht))
  have stay : ∀ t' op, s.At t' op →
      ({ s with threads := s.threads.set t (some (.unw1 h f p)), mem := m } : UrcSys α).At t' op := by
    intro t' op h'
    have ne : t ≠ t' := by
      rintro rfl
      exact not_at ht h'
    unfold UrcSys.At
    simp only
    rw [List.getElem?_set_ne ne]
    exact h'
  have sfq : ∀ q, q ≠ p → ({ s with threads := s.threads.set t (some (.unw1 h f p)), mem := m } :
      UrcSys α).sf q = s.sf q := fun q hq' => by simp only [UrcSys.sf, hq q hq']
  refine
    { hlen := I.hlen, bound := fun q => ?_, fen := I.fen, mas := I.mas, weakm := I.weakm, loc := I.loc
      strong := I.strong, weak := I.weak
      weak0 := fun g G hG h0 h1 => (I.weak0 g G hG h0 h1).imp_right fun ⟨t', op, h', hp⟩ =>
        ⟨t', op, stay t' op h', hp⟩
      alive := fun i x q hx hs hq' => (I.alive i x q hx hs hq').imp_right fun ⟨t', h', v, hh⟩ =>
        ⟨t', h', v, stay t' _ hh⟩
      count := fun q hq' => ?_, ops := ?_ }
  · by_cases eq : q = p
    · subst eq
      exact hsf
    · rw [sfq q eq]
      exact I.bound q
  · by_cases eq : q = p
    · subst eq
      refine Or.inr ⟨t, h, f, ?_⟩
      unfold UrcSys.At
      simp only
      rw [List.getElem?_set_self hlt]
    · rw [sfq q eq]
      exact (I.count q hq').imp_right fun ⟨t', h', g, hh⟩ => ⟨t', h', g, stay t' _ hh⟩
  · intro t' op h'
    rcases UrcSys.at_set ht h' with ⟨rfl, e'⟩ | ⟨-, h'⟩
    · injection e' with e'
      subst e'
      refine UrcOpOk.same (s := s) ?_ rfl rfl rfl
      refine ⟨?_, ?_, ?_, ?_, ?_, ?_, fun _ h => by (cases h), fun _ _ h => (by cases h), fun _ _ _ _ h => (by cases h)⟩
      · rintro _ _ _ ⟨⟩; exact e
      · rintro _ _ _ ⟨⟩; exact hF
      · rintro _ _ _ ⟨⟩ - g hg; exact UrcSys.unf_one (by omega) hF hg
      · rintro _ _ _ ⟨⟩ -
        have := I.strong_eq e rfl rfl eF
        simp at this
        omega
      · rintro _ _ _ ⟨⟩ h; cases h
      · rintro _ _ _ ⟨⟩ -
        have := I.weak_eq ht e rfl rfl eF
        simp at this
        omega
    · exact (I.ops t' op h').same rfl rfl rfl

/-- The only strong handle of the only fence of master `p` is given up, and the value is not there any more. -/
theorem giveUp (I : UrcLInv n s) {t h f p : Nat} {op : UrcOp α} (ht : s.At t op) (ho : op.hand = some (h, f, p))
    (h1 : op.sole = true) (h2 : op.only = true) {F F' : UrcFence} (eF : s.fences[f]? = some (some F))
    (hm : F'.master = F.master) (hw : F'.weak = F.weak) {V : List (α × Bool)} {m : ArcMem}
    (hV : V.length = s.vals.length)
    (hp : ¬ ({ s with vals := V } : UrcSys α).Alive p)
    (hd : ∀ q, q ≠ p → (({ s with vals := V } : UrcSys α).Alive q ↔ s.Alive q))
    (hq : ∀ q, q ≠ p → m.msgs .strong q = s.mem.msgs .strong q)
    (hsf : ({ s with mem := m } : UrcSys α).sf p ≤ n) :
    UrcLInv n { s with
      vals := V, hands := s.hands.set h none, fences := s.fences.set f (some F')
      threads := s.threads.set t none, mem := m } := by
  have o := I.ops t op ht
  have e := o.own h f p ho
  have hFp := o.fen h f p ho
  have hsole := o.sole h f p ho h1
  have hU := o.only h f p ho h2
  obtain ⟨hlt, -⟩ := List.getElem?_eq_some_iff.1 e
  obtain ⟨hltF, -⟩ := List.getElem?_eq_some_iff.1 eF
  have hF : ∀ g q, ({ s with
      vals := V, hands := s.hands.set h none, fences := s.fences.set f (some F')
      threads := s.threads.set t none, mem := m } : UrcSys α).Fen g q ↔ s.Fen g q :=
    fun g q => fen_set eF hm
  have back : ∀ (i : Nat) (x : UrcHold), (s.hands.set h none)[i]? = some (some x) →
      i ≠ h ∧ s.hands[i]? = some (some x) := by
    intro i x hx
    by_cases hi : i = h
    · subst hi
      rw [List.getElem?_set_self hlt] at hx
      cases hx
    · rw [List.getElem?_set_ne (Ne.symm hi)] at hx
      exact ⟨hi, hx⟩
  have cU : ∀ g, g ≠ f → (s.hands.set h none).countP (UrcHold.strongAt g) = s.nU g := by
    intro g hg
    have := countP_set_add (UrcHold.strongAt g) e none
    rw [UrcHold.strongAt_ne (x := .own t (.urc f)) (by simpa using Ne.symm hg)] at this
    simpa [UrcHold.strongAt, UrcSys.nU] using this
  have cUf : (s.hands.set h none).countP (UrcHold.strongAt f) = 0 := by
    have := countP_set_add (UrcHold.strongAt f) e none
    have h' : UrcHold.strongAt f (some (.own t (.urc f))) = true := by
      simp [UrcHold.strongAt, UrcHold.strong]
    have h0 : UrcHold.strongAt f none = false := rfl
    rw [h', h0] at this
    unfold UrcSys.nU at hU
    simp at this
    omega
  have cW : ∀ g, (s.hands.set h none).countP (UrcHold.weakAt g) = s.nW g := by
    intro g
    have := countP_set_add (UrcHold.weakAt g) e none
    have h' : UrcHold.weakAt g (some (.own t (.urc f))) = false := rfl
    have h0 : UrcHold.weakAt g none = false := rfl
    rw [h', h0] at this
    simpa [UrcSys.nW] using this
  have sfq : ∀ q, q ≠ p → ({ s with
      vals := V, hands := s.hands.set h none, fences := s.fences.set f (some F')
      threads := s.threads.set t none, mem := m } : UrcSys α).sf q = s.sf q :=
    fun q hq' => by simp only [UrcSys.sf, hq q hq']
  have stay : ∀ t' op', s.At t' op' → op' ≠ op →
      ({ s with
        vals := V, hands := s.hands.set h none, fences := s.fences.set f (some F')
        threads := s.threads.set t none, mem := m } : UrcSys α).At t' op' := by
    intro t' op' h' hne
    have ne : t ≠ t' := by
      rintro rfl
      unfold UrcSys.At at h' ht
      rw [ht] at h'
      injection h' with h'
      injection h' with h'
      exact hne h'.symm
    unfold UrcSys.At
    simp only
    rw [List.getElem?_set_ne ne]
    exact h'
  refine
    { hlen := by simpa using I.hlen, bound := fun q => ?_, fen := ?_, mas := ?_, weakm := ?_, loc := ?_
      strong := ?_, weak := ?_, weak0 := ?_, alive := ?_, count := ?_, ops := ?_ }
  · by_cases eq : q = p
    · subst eq
      exact hsf
    · rw [sfq q eq]
      exact I.bound q
  · intro i x hx
    obtain ⟨q, hq⟩ := I.fen i x (back i x hx).2
    exact ⟨q, (hF _ _).2 hq⟩
  · intro g q hg
    have := I.mas g q ((hF _ _).1 hg)
    simpa [hV] using this
  · intro i t' g m' hx
    exact (hF _ _).2 (I.weakm i t' g m' (back i _ hx).2)
  · intro i i' x x' hx hx' hxx
    exact I.loc i i' x x' (back i x hx).2 (back i' x' hx').2 hxx
  · intro g G hG hc
    by_cases eg : g = f
    · subst eg
      have : 1 ≤ List.countP (UrcHold.strongAt g) (s.hands.set h none) := hc
      omega
    · simp only [List.getElem?_set_ne (Ne.symm eg)] at hG
      show G.strong = List.countP _ _
      rw [cU g eg]
      exact I.strong g G hG (by rw [← cU g eg]; exact hc)
  · intro g G hG hc
    show G.weak = List.countP _ _
    have hc' : 1 ≤ s.nW g := by rw [← cW g]; exact hc
    rw [cW g]
    by_cases eg : g = f
    · subst eg
      simp only [List.getElem?_set_self hltF, Option.some.injEq] at hG
      subst hG
      rw [hw]
      exact I.weak g F eF hc'
    · simp only [List.getElem?_set_ne (Ne.symm eg)] at hG
      exact I.weak g G hG hc'
  · intro g G hG h0 hc
    by_cases eg : g = f
    · subst eg
      have : 1 ≤ List.countP (UrcHold.strongAt g) (s.hands.set h none) := hc
      omega
    · simp only [List.getElem?_set_ne (Ne.symm eg)] at hG
      rcases I.weak0 g G hG (by rw [← cW g]; exact h0) (by rw [← cU g eg]; exact hc) with h' | ⟨t', op', h', hp'⟩
      · exact Or.inl h'
      · refine Or.inr ⟨t', op', stay t' op' h' ?_, hp'⟩
        rintro rfl
        cases op' <;> simp [UrcOp.pins] at hp' <;> simp [UrcOp.hand] at ho
        · exact eg (by rw [← hp', ho.2.1])
        · exact eg (by rw [← hp', ho.2.1])
  · intro i x q hx hs hq'
    have hq2 := (hF _ _).1 hq'
    by_cases eq : q = p
    · subst eq
      have := hsole _ hq2
      have h' : 1 ≤ List.countP (UrcHold.strongAt f) (s.hands.set h none) :=
        countP_pos_of _ hx (by simp [UrcHold.strongAt, hs, this])
      omega
    · rcases I.alive i x q (back i x hx).2 hs hq2 with h' | ⟨t', h', v, hh⟩
      · exact Or.inl ((hd q eq).2 h')
      · refine Or.inr ⟨t', h', v, stay t' _ hh ?_⟩
        rintro rfl
        simp [UrcOp.hand] at ho
        exact eq ho.2.2
  · intro q ha
    have eq : q ≠ p := by
      rintro rfl
      exact hp ha
    have hu : ({ s with
      vals := V, hands := s.hands.set h none, fences := s.fences.set f (some F')
      threads := s.threads.set t none, mem := m } : UrcSys α).unf q = s.unf q := fenceOf_set eF hm
    rw [sfq q eq, hu]
    refine (I.count q ((hd q eq).1 ha)).imp_right fun ⟨t', h', g, hh⟩ => ⟨t', h', g, stay t' _ hh ?_⟩
    rintro rfl
    simp [UrcOp.hand] at ho
    exact eq ho.2.2
  · intro t' op' h'
    rcases UrcSys.at_set ht h' with ⟨-, h'⟩ | ⟨ne, h'⟩
    · cases h'
    · have o' := I.ops t' op' h'
      refine o'.mono (fun h1 f1 p1 eo => ?_) (fun _ _ _ _ _ g => (hF g _).1) (fun _ _ _ g => (hF g _).1)
        (by simp [hV]) (fun h1 f1 p1 v eo ha => ?_)
      · have nf := I.foreign e rfl h' ne eo
        have ho' := o'.own h1 f1 p1 eo
        refine ⟨?_, cU f1 nf, cW f1, (hF _ _).2 (o'.fen h1 f1 p1 eo)⟩
        simp only
        rw [List.getElem?_set_ne]
        rintro rfl
        rw [e] at ho'
        injection ho' with ho'
        injection ho' with ho'
        injection ho' with ho1 ho2
        exact ne ho1.symm
      · have eq : p1 ≠ p := by
          rintro rfl
          exact hp ha
        exact (hd p1 eq).1 ha

/-- `make_mut` has moved the value out. -/
theorem moved (I : UrcLInv n s) {t h f p : Nat} (ht : s.At t (.mv0 h f p)) {F : UrcFence}
    (eF : s.fences[f]? = some (some F)) (h1 : F.strong = 1) {V : List (α × Bool)} {v : α}
    (hV : V.length = s.vals.length) (hp : ¬ ({ s with vals := V } : UrcSys α).Alive p)
    (hd : ∀ q, q ≠ p → (({ s with vals := V } : UrcSys α).Alive q ↔ s.Alive q)) :
    UrcLInv n { s with vals := V, threads := s.threads.set t (some (.mv1 h f p v)) } := by
  have o := I.ops t _ ht
  have e := o.own h f p rfl
  have hFp := o.fen h f p rfl
  have hsole := o.sole h f p rfl rfl
  obtain ⟨hlt, -⟩ := List.getElem?_eq_some_iff.1 ht
  have here : ({ s with vals := V, threads := s.threads.set t (some (.mv1 h f p v)) } : UrcSys α).At t
      (.mv1 h f p v) := by
    unfold UrcSys.At
    simp only
    rw [List.getElem?_set_self hlt]
  have stay : ∀ t' op', s.At t' op' → op' ≠ .mv0 h f p →
      ({ s with vals := V, threads := s.threads.set t (some (.mv1 h f p v)) } : UrcSys α).At t' op' := by
    intro t' op' h' hne
    have ne : t ≠ t' := by
      rintro rfl
      unfold UrcSys.At at h' ht
      rw [ht] at h'
      injection h' with h'
      injection h' with h'
      exact hne h'.symm
    unfold UrcSys.At
    simp only
    rw [List.getElem?_set_ne ne]
    exact h'
  refine
    { hlen := I.hlen, bound := I.bound, fen := I.fen, mas := fun g q hg => by simpa [hV] using I.mas g q hg
      weakm := I.weakm, loc := I.loc, strong := I.strong, weak := I.weak, weak0 := ?_, alive := ?_, count := ?_
      ops := ?_ }
  · intro g G hG h0 hc
    rcases I.weak0 g G hG h0 hc with h' | ⟨t', op', h', hp'⟩
    · exact Or.inl h'
    · by_cases eo : op' = .mv0 h f p
      · subst eo
        exact Or.inr ⟨t, _, here, hp'⟩
      · exact Or.inr ⟨t', op', stay t' op' h' eo, hp'⟩
  · intro i x q hx hs hq
    by_cases eq : q = p
    · subst eq
      have := hsole _ hq
      rw [this]
      exact Or.inr ⟨t, h, v, here⟩
    · rcases I.alive i x q hx hs hq with h' | ⟨t', h', w, hh⟩
      · exact Or.inl ((hd q eq).2 h')
      · exact Or.inr ⟨t', h', w, stay t' _ hh (by simp)⟩
  · intro q ha
    have eq : q ≠ p := by
      rintro rfl
      exact hp ha
    exact (I.count q ((hd q eq).1 ha)).imp_right fun ⟨t', h', g, hh⟩ => ⟨t', h', g, stay t' _ hh (by simp)⟩
  · intro t' op' h'
    rcases UrcSys.at_set ht h' with ⟨rfl, e'⟩ | ⟨ne, h'⟩
    · injection e' with e'
      subst e'
      refine ⟨?_, ?_, ?_, ?_, ?_, ?_, fun _ h => by (cases h), fun _ _ h => (by cases h), ?_⟩
      · rintro _ _ _ ⟨⟩; exact e
      · rintro _ _ _ ⟨⟩; exact hFp
      · rintro _ _ _ ⟨⟩ - g hg; exact hsole g hg
      · rintro _ _ _ ⟨⟩ -
        have := I.strong_eq e rfl rfl eF
        simp at this
        show s.nU f = 1
        omega
      · rintro _ _ _ ⟨⟩ h; cases h
      · rintro _ _ _ ⟨⟩ h; cases h
      · rintro _ _ _ _ ⟨⟩; exact hp
    · have o' := I.ops t' op' h'
      refine o'.mono (fun h1 f1 p1 eo => ⟨rfl, rfl, rfl, o'.fen h1 f1 p1 eo⟩) (fun _ _ _ _ _ _ h => h)
        (fun _ _ _ _ h => h) (by simp [hV]) (fun h1 f1 p1 v eo ha => ?_)
      have eq : p1 ≠ p := by
        rintro rfl
        exact hp ha
      exact (hd p1 eq).1 ha

/-- `make_mut` has made a `Weak` and dropped it, and `weak` of the fence is wrong now. -/
theorem wrap (I : UrcLInv n s) {t h f p w : Nat} (ht : s.At t (.mm2 h f p w)) {F F' : UrcFence}
    (eF : s.fences[f]? = some (some F)) (hm : F'.master = F.master) (hs : F'.strong = F.strong) :
    UrcLInv n { s with
      fences := s.fences.set f (some F'), threads := s.threads.set t (some (.mv0 h f p)) } := by
  have o := I.ops t _ ht
  have e := o.own h f p rfl
  have hFp := o.fen h f p rfl
  have hsole := o.sole h f p rfl rfl
  have hW := o.noWeak h f p rfl rfl
  obtain ⟨hlt, -⟩ := List.getElem?_eq_some_iff.1 ht
  obtain ⟨hltF, -⟩ := List.getElem?_eq_some_iff.1 eF
  have hF : ∀ g q, ({ s with
      fences := s.fences.set f (some F'), threads := s.threads.set t (some (.mv0 h f p)) } :
      UrcSys α).Fen g q ↔ s.Fen g q := fun g q => fen_set eF hm
  have here : ({ s with
      fences := s.fences.set f (some F'), threads := s.threads.set t (some (.mv0 h f p)) } : UrcSys α).At t
      (.mv0 h f p) := by
    unfold UrcSys.At
    simp only
    rw [List.getElem?_set_self hlt]
  have stay : ∀ t' op', s.At t' op' → op'.pinned = true →
      ({ s with fences := s.fences.set f (some F'), threads := s.threads.set t (some (.mv0 h f p)) } :
        UrcSys α).At t' op' := by
    intro t' op' h' hne
    have ne : t ≠ t' := by
      rintro rfl
      unfold UrcSys.At at h' ht
      rw [ht] at h'
      injection h' with h'
      injection h' with h'
      rw [← h'] at hne
      cases hne
    unfold UrcSys.At
    simp only
    rw [List.getElem?_set_ne ne]
    exact h'
  refine
    { hlen := I.hlen, bound := I.bound, fen := ?_, mas := fun g q hg => I.mas g q ((hF _ _).1 hg)
      weakm := fun i t' g m hx => (hF _ _).2 (I.weakm i t' g m hx), loc := I.loc, strong := ?_, weak := ?_
      weak0 := ?_, alive := ?_, count := ?_, ops := ?_ }
  · intro i x hx
    obtain ⟨q, hq⟩ := I.fen i x hx
    exact ⟨q, (hF _ _).2 hq⟩
  · intro g G hG hc
    by_cases eg : g = f
    · subst eg
      simp only [List.getElem?_set_self hltF, Option.some.injEq] at hG
      subst hG
      rw [hs]
      exact I.strong g F eF hc
    · simp only [List.getElem?_set_ne (Ne.symm eg)] at hG
      exact I.strong g G hG hc
  · intro g G hG hc
    by_cases eg : g = f
    · subst eg
      have : 1 ≤ s.nW g := hc
      omega
    · simp only [List.getElem?_set_ne (Ne.symm eg)] at hG
      exact I.weak g G hG hc
  · intro g G hG h0 hc
    by_cases eg : g = f
    · subst eg
      exact Or.inr ⟨t, _, here, by simp [UrcOp.pins]⟩
    · simp only [List.getElem?_set_ne (Ne.symm eg)] at hG
      exact (I.weak0 g G hG h0 hc).imp_right fun ⟨t', op', h', hp'⟩ =>
        ⟨t', op', stay t' op' h' (by cases op' <;> simp_all [UrcOp.pins, UrcOp.pinned]), hp'⟩
  · intro i x q hx hs' hq
    exact (I.alive i x q hx hs' ((hF _ _).1 hq)).imp_right fun ⟨t', h', v, hh⟩ =>
      ⟨t', h', v, stay t' _ hh rfl⟩
  · intro q ha
    have hu : ({ s with
      fences := s.fences.set f (some F'), threads := s.threads.set t (some (.mv0 h f p)) } :
      UrcSys α).unf q = s.unf q := fenceOf_set eF hm
    rw [hu]
    exact (I.count q ha).imp_right fun ⟨t', h', g, hh⟩ => ⟨t', h', g, stay t' _ hh rfl⟩
  · intro t' op' h'
    rcases UrcSys.at_set ht h' with ⟨rfl, e'⟩ | ⟨ne, h'⟩
    · injection e' with e'
      subst e'
      refine ⟨?_, ?_, ?_, ?_, ?_, ?_, fun _ h => by (cases h), fun _ _ h => (by cases h), fun _ _ _ _ h => (by cases h)⟩
      · rintro _ _ _ ⟨⟩; exact e
      · rintro _ _ _ ⟨⟩; exact (hF _ _).2 hFp
      · rintro _ _ _ ⟨⟩ - g hg; exact hsole g ((hF _ _).1 hg)
      · rintro _ _ _ ⟨⟩ h; cases h
      · rintro _ _ _ ⟨⟩ h; cases h
      · rintro _ _ _ ⟨⟩ h; cases h
    · have o' := I.ops t' op' h'
      exact o'.mono (fun h1 f1 p1 eo => ⟨rfl, rfl, rfl, (hF _ _).2 (o'.fen h1 f1 p1 eo)⟩)
        (fun _ _ _ _ _ g => (hF g _).1) (fun _ _ _ g => (hF g _).1) (Nat.le_refl _) (fun _ _ _ _ _ h => h)

end UrcLInv
end Lokky
