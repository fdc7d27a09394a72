import Verif.Proofs.UrcTView

/-! The invariant on known accesses where fences come and go. -/

namespace Lokky
variable {α : Type} {n n' : Nat} {s : UrcSys α}

namespace UrcVInv

theorem last_some (V : UrcVInv s) {c : ArcCtr} {p : Nat} (hp : p < s.vals.length) :
    ∃ x, (s.mem.msgs c p).getLast? = some x := by
  cases h : (s.mem.msgs c p).getLast? with
  | none => exact absurd (List.getLast?_eq_none_iff.1 h) (V.some_ c p hp)
  | some x => exact ⟨x, rfl⟩

theorem sf_last {p : Nat} {x : ArcMsg} (h : (s.mem.msgs .strong p).getLast? = some x) : s.sf p = x.val := by
  simp only [UrcSys.sf, h]

/-- Where `strong_fence` is 1, the thread that has the fence knows of everything once it has read that. -/
theorem acquired (V : UrcVInv s) (I : UrcLInv n s) {t h f p : Nat}
    (e : s.hands[h]? = some (some (.own t (.urc f)))) (hF : s.Fen f p) (ha : s.Alive p)
    (hc : s.unf p ≤ s.sf p) (h1 : s.sf p = 1) {x : ArcMsg} (hx : (s.mem.msgs .strong p).getLast? = some x)
    (i : Nat) (k : ArcKind) (hi : s.mem.evts[i]? = some (p, k)) (hk : k ≠ .atomic) :
    i ∈ s.mem.thr t ∨ i ∈ x.view := by
  have hU := UrcSys.unf_pos hF
  rcases V.spread i p k hi hk ha with ⟨h', x', e1, -, e2, e3⟩ | ⟨y, h2, h3⟩ | ⟨g, h2, h3⟩ | h2
  · have := UrcSys.unf_one (by omega) hF e2
    obtain ⟨k', rfl⟩ := I.mine e e1 this
    exact Or.inl e3
  · rw [hx] at h2
    injection h2 with h2
    subst h2
    exact Or.inr h3
  · have := UrcSys.unf_one (by omega) hF h2
    subst this
    have := UrcSys.nU_pos e rfl rfl
    simp at this
    omega
  · omega

/-- A load of `strong_fence` that reads 1 reads the latest message. -/
theorem latest_one (V : UrcVInv s) {t h f p : Nat} {k : UrcHand}
    (e : s.hands[h]? = some (some (.own t k))) (hs : (UrcHold.own t k).strong = true) (hf : k.fen = f)
    (hF : s.Fen f p) {j : Nat} {x : ArcMsg}
    (hx : (s.mem.msgs .strong p)[s.mem.pick t .strong p j]? = some x) (hv : x.val = 1) :
    s.mem.pick t .strong p j = s.mem.latest .strong p := by
  unfold ArcMem.pick at hx ⊢
  split
  · rename_i hr
    rw [if_pos hr] at hx
    by_contra hne
    have hlt := (List.getElem?_eq_some_iff.1 hx).1
    have hj : j + 1 < (s.mem.msgs .strong p).length := by
      unfold ArcMem.latest at hne
      omega
    subst hf
    obtain ⟨i, z, h1, h2, h3⟩ := V.one p j x hx hv hj h _ e hs hF
    simp only [ArcMem.readable, Bool.and_eq_true, List.all_eq_true] at hr
    have := hr.2 z (by
      refine List.mem_of_getElem? (i := i - (j + 1)) ?_
      rw [List.getElem?_drop]
      rw [show j + 1 + (i - (j + 1)) = i by omega]
      exact h2)
    simp only [UrcSys.Knows] at h3
    simp [h3] at this
  · rfl

/-- The last strong handle of fence `f` is given up and the fence is released. -/
theorem free (V : UrcVInv s) (I : UrcLInv n s) {t h f p : Nat} {k : UrcHand} (ht : s.threads[t]? = some none)
    (e : s.hands[h]? = some (some (.own t k))) (hk : k.fen = f) (hp : s.Fen f p)
    (hs : (UrcHold.own t k).strong = true) (h1 : s.nU f = 1) {m : ArcMem}
    {es : List (Nat × ArcKind)} {new : ArcCtr → List ArcMsg} (P : ArcPre t p s.mem m es new)
    (hes : ∀ e ∈ es, e.2 = .atomic)
    (hn : new .strong = [] ∨ ∃ y, new .strong = [y] ∧ y.val + 1 = s.sf p ∧ (∀ i ∈ m.thr t, i ∈ y.view) ∧
      ∀ x, (s.mem.msgs .strong p).getLast? = some x → ∀ i ∈ x.view, i ∈ y.view) :
    UrcVInv { s with hands := s.hands.set h none, fences := s.fences.set f none, mem := m } := by
  subst hk
  obtain ⟨hlt, -⟩ := List.getElem?_eq_some_iff.1 e
  obtain ⟨F, eF, hFp⟩ := id hp
  obtain ⟨hltF, -⟩ := List.getElem?_eq_some_iff.1 eF
  have ha := I.alive_of e hs rfl hp (fun op h => absurd h (UrcLInv.not_at ht))
  have hc := I.count_of e rfl hp ha (fun op h => absurd h (UrcLInv.not_at ht))
  have hF : ∀ g q, ({ s with hands := s.hands.set h none, fences := s.fences.set k.fen none, mem := m } :
      UrcSys α).Fen g q ↔ g ≠ k.fen ∧ s.Fen g q := by
    intro g q
    unfold UrcSys.Fen
    by_cases eg : g = k.fen
    · subst eg
      simp [List.getElem?_set_self hltF]
    · simp [List.getElem?_set_ne (Ne.symm eg), eg]
  have back : ∀ (i : Nat) (x : UrcHold), (s.hands.set h none)[i]? = some (some x) →
      i ≠ h ∧ s.hands[i]? = some (some x) := by
    intro i x hx
    by_cases hi : i = h
    · subst hi
      rw [List.getElem?_set_self hlt] at hx
      cases hx
    · rw [List.getElem?_set_ne (Ne.symm hi)] at hx
      exact ⟨hi, hx⟩
  have cU : ∀ g, g ≠ k.fen → (s.hands.set h none).countP (UrcHold.strongAt g) = s.nU g := by
    intro g hg
    have := countP_set_add (UrcHold.strongAt g) e none
    rw [UrcHold.strongAt_ne (x := .own t k) (by simpa using Ne.symm hg)] at this
    simpa [UrcHold.strongAt, UrcSys.nU] using this
  have hunf : ∀ q, (s.fences.set k.fen none).countP (fenceOf q) + (p == q).toNat = s.unf q := by
    intro q
    have := countP_set_add (fenceOf q) eF none
    simpa [fenceOf, hFp, UrcSys.unf] using this
  have hkn : ∀ (h' : Nat) (x : UrcHold) i, s.Knows h' x i →
      ({ s with hands := s.hands.set h none, fences := s.fences.set k.fen none, mem := m } :
        UrcSys α).Knows h' x i :=
    fun h x i hk => knows_mono (s' := { s with
      hands := s.hands.set _ none, fences := s.fences.set k.fen none, mem := m }) P.thr_mono P.hnd hk
  refine V.step (hd := m.hnd) P rfl (I.mas _ p hp) rfl (fun _ h => h) (fun e he => by rw [hes e he]; simp)
    (fun h' x q hx hx' => ⟨h', x, (back h' x hx).2, ((hF _ _).1 hx').2, fun h => h, hkn h' x⟩)
    (fun e he hw => by rw [hes e he] at hw; cases hw)
    (fun t' op q h1 h2 => Or.inl ⟨op, h1, h2⟩)
    (fun t' op h' f' q h1 h2 h3 => ⟨fun _ _ => hes, Or.inl ⟨op, h', f', h1, h2, h3⟩⟩)
    (fun q i _ hH => ?_) (fun e he hw => absurd (hes e he) hw) ?_ ?_
  · by_cases eq : q = p
    · subst eq
      have hu := hunf q
      simp only [beq_self_eq_true, Bool.toNat_true] at hu
      have hlast : ∀ y, new .strong = [y] → (m.msgs .strong q).getLast? = some y := by
        intro y hy
        rw [P.msgsAt, hy]
        simp
      have hsf : new .strong = [] →
          ({ s with hands := s.hands.set h none, fences := s.fences.set k.fen none, mem := m } :
            UrcSys α).sf q = s.sf q := by
        intro h0
        simp only [UrcSys.sf, P.msgsAt, h0, List.append_nil]
      have hsf' : ∀ y, new .strong = [y] →
          ({ s with hands := s.hands.set h none, fences := s.fences.set k.fen none, mem := m } :
            UrcSys α).sf q = y.val := fun y hy => sf_last (hlast y hy)
      rcases hH with ⟨h0, x0, e1, e2, e3, e4⟩ | ⟨x, e1, e2⟩ | ⟨g, e1, e2⟩ | e1
      · by_cases eh : h0 = h
        · subst eh
          rw [e] at e1
          injection e1 with e1
          injection e1 with e1
          subst e1
          rcases hn with h0 | ⟨y, hy, h2, h3, h4⟩
          · refine Or.inr (Or.inr (Or.inr ?_))
            rw [hsf h0]
            show List.countP (fenceOf q) (s.fences.set k.fen none) < _
            omega
          · exact Or.inr (Or.inl ⟨y, hlast y hy, h3 i (P.thr_mono t i e4)⟩)
        · have ne : x0.fen ≠ k.fen := by
            intro hc'
            have := UrcSys.nU_two e e1 eh hs e2 rfl hc'
            simp at this
            omega
          refine Or.inl ⟨h0, x0, ?_, e2, (hF _ _).2 ⟨ne, e3⟩, hkn h0 x0 i e4⟩
          simp only
          rw [List.getElem?_set_ne (Ne.symm eh)]
          exact e1
      · rcases hn with h0 | ⟨y, hy, h2, h3, h4⟩
        · refine Or.inr (Or.inl ⟨x, ?_, e2⟩)
          simp only [P.msgsAt, h0, List.append_nil]
          exact e1
        · exact Or.inr (Or.inl ⟨y, hlast y hy, h4 x e1 i e2⟩)
      · have ne : g ≠ k.fen := by
          rintro rfl
          omega
        refine Or.inr (Or.inr (Or.inl ⟨g, (hF _ _).2 ⟨ne, e1⟩, ?_⟩))
        show List.countP _ _ = 0
        rw [cU g ne]
        exact e2
      · refine Or.inr (Or.inr (Or.inr ?_))
        show List.countP (fenceOf q) (s.fences.set k.fen none) < _
        rcases hn with h0 | ⟨y, hy, h2, h3, h4⟩
        · rw [hsf h0]
          omega
        · rw [hsf' y hy]
          omega
    · have hu := hunf q
      rw [show (p == q) = false by simpa using Ne.symm eq] at hu
      rcases hH with ⟨h0, x0, e1, e2, e3, e4⟩ | ⟨x, e1, e2⟩ | ⟨g, e1, e2⟩ | e1
      · have ne : x0.fen ≠ k.fen := by
          intro hc'
          rw [hc'] at e3
          exact eq (e3.inj hp)
        have eh : h0 ≠ h := by
          rintro rfl
          rw [e] at e1
          injection e1 with e1
          injection e1 with e1
          subst e1
          exact ne rfl
        refine Or.inl ⟨h0, x0, ?_, e2, (hF _ _).2 ⟨ne, e3⟩, hkn h0 x0 i e4⟩
        simp only
        rw [List.getElem?_set_ne (Ne.symm eh)]
        exact e1
      · exact Or.inr (Or.inl ⟨x, by simp only [P.msgs _ _ eq]; exact e1, e2⟩)
      · have ne : g ≠ k.fen := by
          rintro rfl
          exact eq (e1.inj hp)
        refine Or.inr (Or.inr (Or.inl ⟨g, (hF _ _).2 ⟨ne, e1⟩, ?_⟩))
        show List.countP _ _ = 0
        rw [cU g ne]
        exact e2
      · refine Or.inr (Or.inr (Or.inr ?_))
        show List.countP (fenceOf q) (s.fences.set k.fen none) < _
        simp only [UrcSys.sf, P.msgs _ _ eq]
        unfold UrcSys.sf at e1
        simp at hu
        omega
  · rcases hn with h0 | ⟨y, hy, -⟩
    · rw [h0]; simp
    · rw [hy]; simp
  · intro h2 y hy h' x hx hs' hx'
    exfalso
    obtain ⟨h3, h4⟩ := (hF _ _).1 hx'
    exact h3 (UrcSys.unf_one (by omega) hp h4)

/-- `envelop` gets memory for a fence. -/
theorem envelop (V : UrcVInv s) (I : UrcLInv n s) {t h f p : Nat} (ht : s.threads[t]? = some none)
    (e : s.hands[h]? = some (some (.own t (.urc f)))) (hp : s.Fen f p) {m : ArcMem}
    {es : List (Nat × ArcKind)} {new : ArcCtr → List ArcMsg} (P : ArcPre t p s.mem m es new)
    (hes : ∀ e ∈ es, e.2 = .atomic) {y : ArcMsg} (hy : new .strong = [y]) (hv : y.val = s.sf p + 1)
    (hye : y.evt ∈ m.thr t)
    (hw : ∀ x, (s.mem.msgs .strong p).getLast? = some x → ∀ i ∈ x.view, i ∈ y.view) :
    UrcVInv { s with
      fences := s.fences ++ [some ⟨1, 0, p⟩]
      hands := s.hands ++ [some (.env s.fences.length)]
      mem := { m with hnd := fun h => if h = s.hands.length then m.thr t else m.hnd h } } := by
  obtain ⟨hlt, -⟩ := List.getElem?_eq_some_iff.1 e
  have ha := I.alive_of e rfl rfl hp (fun op h => absurd h (UrcLInv.not_at ht))
  have hc := I.count_of e rfl hp ha (fun op h => absurd h (UrcLInv.not_at ht))
  have hF : ∀ g q, ({ s with
      fences := s.fences ++ [some ⟨1, 0, p⟩]
      hands := s.hands ++ [some (.env s.fences.length)]
      mem := { m with hnd := fun h => if h = s.hands.length then m.thr t else m.hnd h } } : UrcSys α).Fen g q ↔
      s.Fen g q ∨ g = s.fences.length ∧ q = p := by
    intro g q
    unfold UrcSys.Fen
    constructor
    · rintro ⟨G, hG, hq⟩
      by_cases hg : g < s.fences.length
      · simp only [List.getElem?_append_left hg] at hG
        exact Or.inl ⟨G, hG, hq⟩
      · simp only [List.getElem?_append_right (Nat.le_of_not_lt hg)] at hG
        have hgl : g - s.fences.length = 0 := by
          have := (List.getElem?_eq_some_iff.1 hG).1
          simpa using this
        rw [hgl] at hG
        simp at hG
        subst hG
        exact Or.inr ⟨by omega, hq.symm⟩
    · rintro (⟨G, hG, hq⟩ | ⟨rfl, rfl⟩)
      · exact ⟨G, getElem?_append_some hG, hq⟩
      · exact ⟨⟨1, 0, q⟩, by simp, rfl⟩
  have old : ∀ (i : Nat) (x : UrcHold), s.hands[i]? = some (some x) → x.fen ≠ s.fences.length := by
    intro i x hx hf
    obtain ⟨q, G, hG, -⟩ := I.fen i x hx
    have := (List.getElem?_eq_some_iff.1 hG).1
    omega
  have hkn : ∀ (h' : Nat) (x : UrcHold) i, s.hands[h']? = some (some x) → s.Knows h' x i →
      ({ s with
      fences := s.fences ++ [some ⟨1, 0, p⟩]
      hands := s.hands ++ [some (.env s.fences.length)]
      mem := { m with hnd := fun h => if h = s.hands.length then m.thr t else m.hnd h } } :
        UrcSys α).Knows h' x i := by
    intro h' x i hx hk
    have hl := (List.getElem?_eq_some_iff.1 hx).1
    cases x with
    | own t' k => exact P.thr_mono t' i hk
    | env f' =>
      simp only [UrcSys.Knows] at hk ⊢
      rw [if_neg (by omega), P.hnd]
      exact hk
  have cU : ∀ g, g ≠ s.fences.length →
      (s.hands ++ [some (UrcHold.env s.fences.length)]).countP (UrcHold.strongAt g) = s.nU g := by
    intro g hg
    rw [List.countP_append]
    have : UrcHold.strongAt g (some (.env s.fences.length)) = false := UrcHold.strongAt_ne (by simpa using Ne.symm hg)
    simp [UrcSys.nU, this]
  refine V.step P rfl (I.mas _ p hp) rfl (fun _ h => h) (fun e he => by rw [hes e he]; simp) ?_
    (fun e he hw => by rw [hes e he] at hw; cases hw)
    (fun t' op q h1 h2 => Or.inl ⟨op, h1, h2⟩)
    (fun t' op h' f' q h1 h2 h3 => ⟨fun _ _ => hes, Or.inl ⟨op, h', f', h1, h2, h3⟩⟩)
    (fun q i _ hH => ?_) (fun e he hw => absurd (hes e he) hw) (by rw [hy]; simp) ?_
  · intro h' x q hx hx'
    by_cases hl : h' < s.hands.length
    · simp only [List.getElem?_append_left hl] at hx
      rcases (hF _ _).1 hx' with h1 | ⟨h1, -⟩
      · exact ⟨h', x, hx, h1, fun h => h, fun i => hkn h' x i hx⟩
      · exact absurd h1 (old h' x hx)
    · simp only [List.getElem?_append_right (Nat.le_of_not_lt hl)] at hx
      have hgl : h' - s.hands.length = 0 := by
        have := (List.getElem?_eq_some_iff.1 hx).1
        simpa using this
      rw [hgl] at hx
      simp at hx
      subst hx
      rcases (hF _ _).1 hx' with ⟨G, h1, -⟩ | ⟨-, rfl⟩
      · have := (List.getElem?_eq_some_iff.1 h1).1
        simp at this
      · refine ⟨h, _, e, hp, fun _ => rfl, fun i hi => ?_⟩
        simp only [UrcSys.Knows]
        rw [if_pos (by omega)]
        exact P.thr_mono t i hi
  · rcases hH with ⟨h0, x0, e1, e2, e3, e4⟩ | ⟨x, e1, e2⟩ | ⟨g, e1, e2⟩ | e1
    · exact Or.inl ⟨h0, x0, getElem?_append_some e1, e2, (hF _ _).2 (Or.inl e3), hkn h0 x0 i e1 e4⟩
    · by_cases eq : q = p
      · subst eq
        exact Or.inr (Or.inl ⟨y, by simp only [P.msgsAt, hy]; simp, hw x e1 i e2⟩)
      · exact Or.inr (Or.inl ⟨x, by simp only [P.msgs _ _ eq]; exact e1, e2⟩)
    · refine Or.inr (Or.inr (Or.inl ⟨g, (hF _ _).2 (Or.inl e1), ?_⟩))
      show List.countP _ _ = 0
      rw [cU g]
      · exact e2
      · rintro rfl
        obtain ⟨G, h1, -⟩ := e1
        have := (List.getElem?_eq_some_iff.1 h1).1
        omega
    · refine Or.inr (Or.inr (Or.inr ?_))
      show List.countP _ _ < _
      by_cases eq : q = p
      · subst eq
        rw [List.countP_append]
        have : ({ s with
          fences := s.fences ++ [some ⟨1, 0, q⟩]
          hands := s.hands ++ [some (.env s.fences.length)]
          mem := { m with hnd := fun h => if h = s.hands.length then m.thr t else m.hnd h } } : UrcSys α).sf q =
            s.sf q + 1 := by
          rw [sf_last (x := y) (by simp only [P.msgsAt, hy]; simp), hv]
        rw [this]
        unfold UrcSys.unf at e1
        simp [fenceOf]
        omega
      · rw [List.countP_append]
        have : (p == q) = false := by simpa using Ne.symm eq
        simp only [UrcSys.sf, P.msgs _ _ eq]
        unfold UrcSys.unf UrcSys.sf at e1
        simp [fenceOf, this]
        exact e1
  · intro h1 y' hy' h' x hx hs hx'
    rw [hy] at hy'
    simp at hy'
    subst hy'
    by_cases hl : h' < s.hands.length
    · simp only [List.getElem?_append_left hl] at hx
      rcases (hF _ _).1 hx' with h2 | ⟨h2, -⟩
      · have := UrcSys.unf_one (by omega) hp h2
        obtain ⟨k', rfl⟩ := I.mine e hx this
        exact hye
      · exact absurd h2 (old h' x hx)
    · simp only [List.getElem?_append_right (Nat.le_of_not_lt hl)] at hx
      have hgl : h' - s.hands.length = 0 := by
        have := (List.getElem?_eq_some_iff.1 hx).1
        simpa using this
      rw [hgl] at hx
      simp at hx
      subst hx
      simp only [UrcSys.Knows]
      rw [if_pos (by omega)]
      exact hye

/-- `envelop` gets no memory for a fence. -/
theorem refused (V : UrcVInv s) (I : UrcLInv n s) {t h f p : Nat} (ht : s.threads[t]? = some none)
    (e : s.hands[h]? = some (some (.own t (.urc f)))) (hp : s.Fen f p) {m : ArcMem}
    {es : List (Nat × ArcKind)} {new : ArcCtr → List ArcMsg} (P : ArcPre t p s.mem m es new)
    (hes : ∀ e ∈ es, e.2 = .atomic) {y : ArcMsg} (hy : new .strong = [y]) (hv : y.val = s.sf p + 1)
    (hye : y.evt ∈ m.thr t) :
    UrcVInv { s with mem := m } := by
  have ha := I.alive_of e rfl rfl hp (fun op h => absurd h (UrcLInv.not_at ht))
  have hc := I.count_of e rfl hp ha (fun op h => absurd h (UrcLInv.not_at ht))
  have hkn : ∀ (h : Nat) (x : UrcHold) i, s.Knows h x i → ({ s with mem := m } : UrcSys α).Knows h x i :=
    fun h x i hk => knows_mono (s' := { s with mem := m }) P.thr_mono P.hnd hk
  refine V.step (hd := m.hnd) P rfl (I.mas _ p hp) rfl (fun _ h => h) (fun e he => by rw [hes e he]; simp)
    (fun h' x q hx hx' => ⟨h', x, hx, hx', fun h => h, hkn h' x⟩)
    (fun e he hw => by rw [hes e he] at hw; cases hw)
    (fun t' op q h1 h2 => Or.inl ⟨op, h1, h2⟩)
    (fun t' op h' f' q h1 h2 h3 => ⟨fun _ _ => hes, Or.inl ⟨op, h', f', h1, h2, h3⟩⟩)
    (fun q i _ hH => ?_) (fun e he hw => absurd (hes e he) hw) (by rw [hy]; simp) ?_
  · by_cases eq : q = p
    · subst eq
      refine Or.inr (Or.inr (Or.inr ?_))
      rw [sf_last (s := { s with mem := m }) (x := y) (by simp only [P.msgsAt, hy]; simp), hv]
      show s.unf q < _
      omega
    · rcases hH with ⟨h0, x0, e1, e2, e3, e4⟩ | ⟨x, e1, e2⟩ | e1 | e1
      · exact Or.inl ⟨h0, x0, e1, e2, e3, hkn h0 x0 i e4⟩
      · exact Or.inr (Or.inl ⟨x, by simp only [P.msgs _ _ eq]; exact e1, e2⟩)
      · exact Or.inr (Or.inr (Or.inl e1))
      · refine Or.inr (Or.inr (Or.inr ?_))
        simp only [UrcSys.sf, P.msgs _ _ eq]
        exact e1
  · intro h1 y' hy' h' x hx hs hx'
    rw [hy] at hy'
    simp at hy'
    subst hy'
    have := UrcSys.unf_one (by omega) hp hx'
    obtain ⟨k', rfl⟩ := I.mine e hx this
    exact hye

/-- `try_unwrap` has set `strong_fence` to zero. -/
theorem unwrap (V : UrcVInv s) (I : UrcLInv n s) {t h f p : Nat} (ht : s.threads[t]? = some none)
    (e : s.hands[h]? = some (some (.own t (.urc f)))) (hp : s.Fen f p) (h3 : s.sf p = 1) {m : ArcMem}
    {es : List (Nat × ArcKind)} {new : ArcCtr → List ArcMsg} (P : ArcPre t p s.mem m es new)
    (hes : ∀ e ∈ es, e.2 = .atomic) {y : ArcMsg} (hy : new .strong = [y])
    (hye : y.evt ∈ m.thr t)
    (hw : ∀ x, (s.mem.msgs .strong p).getLast? = some x → ∀ i ∈ x.view, i ∈ y.view ∧ i ∈ m.thr t) :
    UrcVInv { s with threads := s.threads.set t (some (.unw1 h f p)), mem := m } := by
  have ha := I.alive_of e rfl rfl hp (fun op h => absurd h (UrcLInv.not_at ht))
  have hc := I.count_of e rfl hp ha (fun op h => absurd h (UrcLInv.not_at ht))
  have hpl := I.mas _ p hp
  have hkn : ∀ (h' : Nat) (x : UrcHold) i, s.Knows h' x i →
      ({ s with threads := s.threads.set t (some (.unw1 h f p)), mem := m } : UrcSys α).Knows h' x i :=
    fun _ x i hk => knows_mono (s' := { s with
      threads := s.threads.set t (some (.unw1 h f p)), mem := m }) P.thr_mono P.hnd hk
  refine V.step (hd := m.hnd) P rfl hpl rfl (fun _ h => h) (fun e he => by rw [hes e he]; simp)
    (fun h' x q hx hx' => ⟨h', x, hx, hx', fun h => h, hkn h' x⟩)
    (fun e he hw => by rw [hes e he] at hw; cases hw) ?_ ?_
    (fun q i _ hH => ?_) (fun e he hw => absurd (hes e he) hw) (by rw [hy]; simp) ?_
  · intro t' op q h1 h2
    rcases UrcSys.at_set ht h1 with ⟨rfl, e'⟩ | ⟨-, h1⟩
    · injection e' with e'
      subst e'
      cases h2
    · exact Or.inl ⟨op, h1, h2⟩
  · intro t' op h' f' q h1 h2 h3'
    refine ⟨fun _ _ => hes, ?_⟩
    rcases UrcSys.at_set ht h1 with ⟨rfl, e'⟩ | ⟨-, h1⟩
    · injection e' with e'
      subst e'
      injection h2 with h2
      injection h2 with h2 h4
      injection h4 with h4 h5
      subst h5
      refine Or.inr ⟨rfl, fun i k hi hk => ?_⟩
      obtain ⟨x, hx⟩ := V.last_some (c := .strong) hpl
      rcases V.acquired I e hp ha hc h3 hx i k hi hk with h6 | h6
      · exact P.mono i h6
      · exact (hw x hx i h6).2
    · exact Or.inl ⟨op, h', f', h1, h2, h3'⟩
  · by_cases eq : q = p
    · subst eq
      have hU := UrcSys.unf_pos hp
      rcases hH with ⟨h0, x0, e1, e2, e3, e4⟩ | ⟨x, e1, e2⟩ | ⟨g, e1, e2⟩ | e1
      · exact Or.inl ⟨h0, x0, e1, e2, e3, hkn h0 x0 i e4⟩
      · exact Or.inr (Or.inl ⟨y, by simp only [P.msgsAt, hy]; simp, (hw x e1 i e2).1⟩)
      · have := UrcSys.unf_one (by omega) hp e1
        subst this
        have := UrcSys.nU_pos e rfl rfl
        simp at this
        omega
      · omega
    · rcases hH with ⟨h0, x0, e1, e2, e3, e4⟩ | ⟨x, e1, e2⟩ | e1 | e1
      · exact Or.inl ⟨h0, x0, e1, e2, e3, hkn h0 x0 i e4⟩
      · exact Or.inr (Or.inl ⟨x, by simp only [P.msgs _ _ eq]; exact e1, e2⟩)
      · exact Or.inr (Or.inr (Or.inl e1))
      · refine Or.inr (Or.inr (Or.inr ?_))
        simp only [UrcSys.sf, P.msgs _ _ eq]
        exact e1
  · intro h1 y' hy' h' x hx hs hx'
    rw [hy] at hy'
    simp at hy'
    subst hy'
    have := UrcSys.unf_one (by omega) hp hx'
    obtain ⟨k', rfl⟩ := I.mine e hx this
    exact hye

/-- The only strong handle of the only fence of master `p` is given up, and the value is not there any more. -/
theorem giveUp (V : UrcVInv s) (I : UrcLInv n s) {t h f p : Nat} {op : UrcOp α} (ht : s.At t op)
    (ho : op.hand = some (h, f, p)) (h1 : op.sole = true) (h2 : op.only = true) {F F' : UrcFence}
    (eF : s.fences[f]? = some (some F)) (hm : F'.master = F.master) {W : List (α × Bool)} {m : ArcMem}
    {es : List (Nat × ArcKind)} {new : ArcCtr → List ArcMsg} (P : ArcPre t p s.mem m es new)
    (hes : ∀ e ∈ es, e.2 = .atomic) (hlen : (new .strong).length ≤ 1)
    (hV : W.length = s.vals.length)
    (hp : ¬ ({ s with vals := W } : UrcSys α).Alive p)
    (hd : ∀ q, q ≠ p → (({ s with vals := W } : UrcSys α).Alive q ↔ s.Alive q)) :
    UrcVInv { s with
      vals := W, hands := s.hands.set h none, fences := s.fences.set f (some F')
      threads := s.threads.set t none, mem := m } := by
  have o := I.ops t op ht
  have e := o.own h f p ho
  have hFp := o.fen h f p ho
  have hsole := o.sole h f p ho h1
  have hU := o.only h f p ho h2
  obtain ⟨hlt, -⟩ := List.getElem?_eq_some_iff.1 e
  have hF : ∀ g q, ({ s with
      vals := W, hands := s.hands.set h none, fences := s.fences.set f (some F')
      threads := s.threads.set t none, mem := m } : UrcSys α).Fen g q ↔ s.Fen g q :=
    fun g q => UrcLInv.fen_set eF hm
  have back : ∀ (i : Nat) (x : UrcHold), (s.hands.set h none)[i]? = some (some x) →
      i ≠ h ∧ s.hands[i]? = some (some x) := by
    intro i x hx
    by_cases hi : i = h
    · subst hi
      rw [List.getElem?_set_self hlt] at hx
      cases hx
    · rw [List.getElem?_set_ne (Ne.symm hi)] at hx
      exact ⟨hi, hx⟩
  have cU : ∀ g, g ≠ f → (s.hands.set h none).countP (UrcHold.strongAt g) = s.nU g := by
    intro g hg
    have := countP_set_add (UrcHold.strongAt g) e none
    rw [UrcHold.strongAt_ne (x := .own t (.urc f)) (by simpa using Ne.symm hg)] at this
    simpa [UrcHold.strongAt, UrcSys.nU] using this
  have hkn : ∀ (h' : Nat) (x : UrcHold) i, s.Knows h' x i →
      ({ s with
      vals := W, hands := s.hands.set h none, fences := s.fences.set f (some F')
      threads := s.threads.set t none, mem := m } : UrcSys α).Knows h' x i :=
    fun _ x i hk => knows_mono (s' := { s with
      vals := W, hands := s.hands.set h none, fences := s.fences.set f (some F')
      threads := s.threads.set t none, mem := m }) P.thr_mono P.hnd hk
  refine V.step (hd := m.hnd) P rfl (I.mas _ p hFp) hV (fun q hq => ?_) (fun e he => by rw [hes e he]; simp)
    (fun h' x q hx hx' => ⟨h', x, (back h' x hx).2, (hF _ _).1 hx', fun h => h, hkn h' x⟩)
    (fun e he hw => by rw [hes e he] at hw; cases hw) ?_ ?_
    (fun q i hq hH => ?_) (fun e he hw => absurd (hes e he) hw) hlen ?_
  · by_cases eq : q = p
    · subst eq
      exact absurd hq hp
    · exact (hd q eq).1 hq
  · intro t' op' q h3 h4
    rcases UrcSys.at_set ht h3 with ⟨-, e'⟩ | ⟨-, h3⟩
    · cases e'
    · exact Or.inl ⟨op', h3, h4⟩
  · intro t' op' h' f' q h3 h4 h5
    refine ⟨fun _ _ => hes, ?_⟩
    rcases UrcSys.at_set ht h3 with ⟨-, e'⟩ | ⟨-, h3⟩
    · cases e'
    · exact Or.inl ⟨op', h', f', h3, h4, h5⟩
  · have eq : q ≠ p := by
      rintro rfl
      exact hp hq
    rcases hH with ⟨h0, x0, e1, e2, e3, e4⟩ | ⟨x, e1, e2⟩ | ⟨g, e1, e2⟩ | e1
    · refine Or.inl ⟨h0, x0, ?_, e2, (hF _ _).2 e3, hkn h0 x0 i e4⟩
      simp only
      rw [List.getElem?_set_ne]
      · exact e1
      · rintro rfl
        rw [e] at e1
        injection e1 with e1
        injection e1 with e1
        subst e1
        exact eq (e3.inj hFp)
    · exact Or.inr (Or.inl ⟨x, by simp only [P.msgs _ _ eq]; exact e1, e2⟩)
    · refine Or.inr (Or.inr (Or.inl ⟨g, (hF _ _).2 e1, ?_⟩))
      show List.countP _ _ = 0
      rw [cU g]
      · exact e2
      · rintro rfl
        exact eq (e1.inj hFp)
    · refine Or.inr (Or.inr (Or.inr ?_))
      have hu : ({ s with
        vals := W, hands := s.hands.set h none, fences := s.fences.set f (some F')
        threads := s.threads.set t none, mem := m } : UrcSys α).unf q = s.unf q := UrcLInv.fenceOf_set eF hm
      rw [hu]
      simp only [UrcSys.sf, P.msgs _ _ eq]
      exact e1
  · intro _ y hy h' x hx hs hx'
    exfalso
    obtain ⟨h3, h4⟩ := back h' x hx
    have := UrcSys.nU_two e h4 h3 rfl hs rfl (hsole _ ((hF _ _).1 hx'))
    simp at this
    omega

/-- A new master. -/
theorem alloc (V : UrcVInv s) (I : UrcLInv n s) {t : Nat} {x : α} :
    UrcVInv { s with
      vals := s.vals ++ [(x, true)]
      fences := s.fences ++ [some ⟨1, 0, s.vals.length⟩]
      hands := s.hands ++ [some (.own t (.urc s.fences.length))]
      mem := s.mem.apply t 0 (.init s.vals.length) } := by
  have hF : ∀ g q, ({ s with
      vals := s.vals ++ [(x, true)]
      fences := s.fences ++ [some ⟨1, 0, s.vals.length⟩]
      hands := s.hands ++ [some (.own t (.urc s.fences.length))]
      mem := s.mem.apply t 0 (.init s.vals.length) } : UrcSys α).Fen g q ↔
      s.Fen g q ∨ g = s.fences.length ∧ q = s.vals.length := by
    intro g q
    unfold UrcSys.Fen
    constructor
    · rintro ⟨G, hG, hq⟩
      by_cases hg : g < s.fences.length
      · simp only [List.getElem?_append_left hg] at hG
        exact Or.inl ⟨G, hG, hq⟩
      · simp only [List.getElem?_append_right (Nat.le_of_not_lt hg)] at hG
        have hgl : g - s.fences.length = 0 := by
          have := (List.getElem?_eq_some_iff.1 hG).1
          simpa using this
        rw [hgl] at hG
        simp at hG
        subst hG
        exact Or.inr ⟨by omega, hq.symm⟩
    · rintro (⟨G, hG, hq⟩ | ⟨rfl, rfl⟩)
      · exact ⟨G, getElem?_append_some hG, hq⟩
      · exact ⟨⟨1, 0, s.vals.length⟩, by simp, rfl⟩
  have hands : ∀ (i : Nat) (y : UrcHold), (s.hands ++ [some (UrcHold.own t (.urc s.fences.length))])[i]? = some (some y) →
      s.hands[i]? = some (some y) ∨ y = .own t (.urc s.fences.length) := by
    intro i y hy
    rcases getElem?_append_cases hy with hy | ⟨-, hy⟩
    · exact Or.inl hy
    · simp at hy
      exact Or.inr hy
  have fold : ∀ (i : Nat) (y : UrcHold) q, s.hands[i]? = some (some y) →
      (s.Fen y.fen q ∨ y.fen = s.fences.length ∧ q = s.vals.length) → s.Fen y.fen q := by
    rintro i y q hy (h1 | ⟨h1, -⟩)
    · exact h1
    · obtain ⟨q', G, hG, -⟩ := I.fen i y hy
      have := (List.getElem?_eq_some_iff.1 hG).1
      omega
  have fnew : ∀ q, (s.Fen s.fences.length q ∨ s.fences.length = s.fences.length ∧ q = s.vals.length) →
      q = s.vals.length := by
    rintro q (⟨G, hG, -⟩ | ⟨-, h1⟩)
    · have := (List.getElem?_eq_some_iff.1 hG).1
      omega
    · exact h1
  have hthr : ∀ t' i, i ∈ s.mem.thr t' → i ∈ (s.mem.apply t 0 (.init s.vals.length)).thr t' := by
    intro t' i hi
    simp only [ArcMem.apply, ArcMem.post, ArcMem.note, ArcMem.learn]
    split
    · rename_i e
      subst e
      exact List.mem_append_left _ hi
    · exact hi
  have hnew : s.mem.evts.length ∈ (s.mem.apply t 0 (.init s.vals.length)).thr t := by
    simp [ArcMem.apply, ArcMem.post, ArcMem.note, ArcMem.learn]
  have hevt : ∀ (i q : Nat) (k : ArcKind), (s.mem.apply t 0 (.init s.vals.length)).evts[i]? = some (q, k) →
      s.mem.evts[i]? = some (q, k) ∨ i = s.mem.evts.length ∧ q = s.vals.length ∧ k = .init := by
    intro i q k h
    have h' : (s.mem.evts ++ [(s.vals.length, ArcKind.init)])[i]? = some (q, k) := h
    have hl := (List.getElem?_eq_some_iff.1 h').1
    rcases getElem?_append_cases h' with h | ⟨h1, h2⟩
    · exact Or.inl h
    · simp at h2 hl
      exact Or.inr ⟨by omega, h2.1, h2.2⟩
  have hkn : ∀ (h' : Nat) (y : UrcHold) i, s.Knows h' y i → ({ s with
      vals := s.vals ++ [(x, true)]
      fences := s.fences ++ [some ⟨1, 0, s.vals.length⟩]
      hands := s.hands ++ [some (.own t (.urc s.fences.length))]
      mem := s.mem.apply t 0 (.init s.vals.length) } : UrcSys α).Knows h' y i :=
    fun _ y i hk => knows_mono (s' := { s with
      vals := s.vals ++ [(x, true)]
      fences := s.fences ++ [some ⟨1, 0, s.vals.length⟩]
      hands := s.hands ++ [some (.own t (.urc s.fences.length))]
      mem := s.mem.apply t 0 (.init s.vals.length) }) hthr rfl hk
  have hms : ∀ c q, q ≠ s.vals.length → (s.mem.apply t 0 (.init s.vals.length)).msgs c q = s.mem.msgs c q := by
    intro c q hq
    simp [ArcMem.apply, ArcMem.post, ArcMem.note, ArcMem.learn, hq]
  have hms1 : ∀ c, ∃ v, (s.mem.apply t 0 (.init s.vals.length)).msgs c s.vals.length =
      [⟨v, s.mem.evts.length, []⟩] := by
    intro c
    cases c
    · exact ⟨1, by simp [ArcMem.apply, ArcMem.post, ArcMem.note, ArcMem.learn, V.empty .strong _ (Nat.le_refl _)]⟩
    · exact ⟨0, by simp [ArcMem.apply, ArcMem.post, ArcMem.note, ArcMem.learn, V.empty .weak _ (Nat.le_refl _)]⟩
  constructor
  · intro c q hq
    simp only
    by_cases e : q = s.vals.length
    · subst e
      obtain ⟨v, hv⟩ := hms1 c
      rw [hv]
      simp
    · rw [hms c q e]
      simp at hq
      exact V.some_ c q (by omega)
  · intro c q hq
    simp at hq
    simp only
    rw [hms c q (by omega)]
    exact V.empty c q (by omega)
  · intro i q k h
    rcases hevt i q k h with h | ⟨-, rfl, rfl⟩
    · have := V.place i q k h
      exact ⟨by simp; omega, this.2⟩
    · simp
  · intro i q k h hk h' y hy hy'
    rcases hevt i q k h with h | ⟨rfl, rfl, rfl⟩
    · rcases hands h' y hy with h1 | rfl
      · exact hkn h' y i (V.known i q k h hk h' y h1 (fold h' y q h1 ((hF _ _).1 hy')))
      · have := fnew q ((hF _ _).1 hy')
        have := (V.place i q k h).1
        omega
    · rcases hands h' y hy with h1 | rfl
      · have := I.mas _ _ (fold h' y _ h1 ((hF _ _).1 hy'))
        omega
      · exact hnew
  · intro i q h t' op h1 h2
    rcases hevt i q _ h with h | ⟨rfl, rfl, -⟩
    · exact hthr t' i (V.knownF i q h t' op h1 h2)
    · have := (I.ops t' op h1).left _ h2
      omega
  · intro i q k h hk hq
    rcases hevt i q k h with h | ⟨rfl, rfl, -⟩
    · have hql := (V.place i q k h).1
      have hq' : s.Alive q := by
        obtain ⟨v, hv⟩ := hq
        simp only at hv
        rw [List.getElem?_append_left hql] at hv
        exact ⟨v, hv⟩
      rcases V.spread i q k h hk hq' with ⟨h0, x0, e1, e2, e3, e4⟩ | ⟨z, e1, e2⟩ | ⟨g, e1, e2⟩ | e1
      · exact Or.inl ⟨h0, x0, getElem?_append_some e1, e2, (hF _ _).2 (Or.inl e3), hkn h0 x0 i e4⟩
      · exact Or.inr (Or.inl ⟨z, by simp only; rw [hms _ q (by omega)]; exact e1, e2⟩)
      · refine Or.inr (Or.inr (Or.inl ⟨g, (hF _ _).2 (Or.inl e1), ?_⟩))
        have hg : s.fences.length ≠ g := by
          rintro rfl
          obtain ⟨G, h1, -⟩ := e1
          have := (List.getElem?_eq_some_iff.1 h1).1
          omega
        show List.countP _ _ = 0
        rw [List.countP_append]
        have : UrcHold.strongAt g (some (.own t (.urc s.fences.length))) = false :=
          UrcHold.strongAt_ne (by simpa using hg)
        unfold UrcSys.nU at e2
        simp [this, e2]
      · refine Or.inr (Or.inr (Or.inr ?_))
        show List.countP _ _ < _
        rw [List.countP_append]
        have : (s.vals.length == q) = false := by
          simp
          omega
        simp only [UrcSys.sf]
        rw [hms _ q (by omega)]
        unfold UrcSys.unf UrcSys.sf at e1
        simp [fenceOf, this]
        exact e1
    · exact Or.inl ⟨s.hands.length, .own t (.urc s.fences.length), by simp, rfl,
        (hF _ _).2 (Or.inr ⟨rfl, rfl⟩), hnew⟩
  · intro t' op h f q h1 h2 h3 i k h4 hk
    rcases hevt i q k h4 with h4 | ⟨rfl, rfl, -⟩
    · exact hthr t' i (V.alone t' op h f q h1 h2 h3 i k h4 hk)
    · have := I.mas _ _ ((I.ops t' op h1).fen h f _ h2)
      omega
  · intro q j z hz hv hj h y hy hs hy'
    simp only at hz hj ⊢
    by_cases e : q = s.vals.length
    · subst e
      obtain ⟨v, hv⟩ := hms1 .strong
      rw [hv] at hj
      simp at hj
    · rw [hms _ q e] at hz hj ⊢
      rcases hands h y hy with h1 | rfl
      · obtain ⟨i, w, h2, h3, h4⟩ := V.one q j z hz hv hj h y h1 hs (fold h y q h1 ((hF _ _).1 hy'))
        exact ⟨i, w, h2, h3, hkn h y _ h4⟩
      · exact absurd (fnew q ((hF _ _).1 hy')) e

/-- All that has happened at a new master is known. -/
theorem alloc_knows (V : UrcVInv s) {t i : Nat} {k : ArcKind}
    (h : (s.mem.apply t 0 (.init s.vals.length)).evts[i]? = some (s.vals.length, k)) :
    i ∈ (s.mem.apply t 0 (.init s.vals.length)).thr t := by
  have h' : (s.mem.evts ++ [(s.vals.length, ArcKind.init)])[i]? = some (s.vals.length, k) := h
  have hl := (List.getElem?_eq_some_iff.1 h').1
  rcases getElem?_append_cases h' with h | ⟨h1, h2⟩
  · have := (V.place i _ k h).1
    omega
  · simp at hl
    have : i = s.mem.evts.length := by omega
    subst this
    simp [ArcMem.apply, ArcMem.post, ArcMem.note, ArcMem.learn]

/-- Thread `t` opens the envelope `h`. -/
theorem receive (V : UrcVInv s) {t h f : Nat} (e : s.hands[h]? = some (some (.env f))) :
    UrcVInv { s with
      hands := s.hands.set h (some (.own t (.urc f))), mem := s.mem.learn t (s.mem.hnd h) } := by
  obtain ⟨hlt, -⟩ := List.getElem?_eq_some_iff.1 e
  have back : ∀ (i : Nat) (x : UrcHold), (s.hands.set h (some (.own t (.urc f))))[i]? = some (some x) →
      i ≠ h ∧ s.hands[i]? = some (some x) ∨ i = h ∧ x = .own t (.urc f) := by
    intro i x hx
    by_cases hi : i = h
    · subst hi
      rw [List.getElem?_set_self hlt] at hx
      simp only [Option.some.injEq] at hx
      exact Or.inr ⟨rfl, hx.symm⟩
    · rw [List.getElem?_set_ne (Ne.symm hi)] at hx
      exact Or.inl ⟨hi, hx⟩
  have hthr : ∀ t' i, i ∈ s.mem.thr t' → i ∈ (s.mem.learn t (s.mem.hnd h)).thr t' := by
    intro t' i hi
    simp only [ArcMem.learn]
    split
    · rename_i e'
      subst e'
      exact List.mem_append_left _ hi
    · exact hi
  have hkn : ∀ (h' : Nat) (x : UrcHold) i, s.Knows h' x i → ({ s with
      hands := s.hands.set h (some (.own t (.urc f))), mem := s.mem.learn t (s.mem.hnd h) } :
      UrcSys α).Knows h' x i :=
    fun _ x i hk => knows_mono (s' := { s with
      hands := s.hands.set h (some (.own t (.urc f))), mem := s.mem.learn t (s.mem.hnd h) }) hthr rfl hk
  have hk : ∀ i, s.Knows h (.env f) i → ({ s with
      hands := s.hands.set h (some (.own t (.urc f))), mem := s.mem.learn t (s.mem.hnd h) } :
      UrcSys α).Knows h (.own t (.urc f)) i := by
    intro i hi
    simp only [UrcSys.Knows, ArcMem.learn, if_true]
    exact List.mem_append_right _ hi
  have cU : ∀ g, (s.hands.set h (some (.own t (.urc f)))).countP (UrcHold.strongAt g) = s.nU g := by
    intro g
    have := countP_set_add (UrcHold.strongAt g) e (some (.own t (.urc f)))
    have h' : UrcHold.strongAt g (some (.own t (.urc f))) = UrcHold.strongAt g (some (.env f)) := rfl
    rw [h'] at this
    unfold UrcSys.nU
    omega
  refine
    { some_ := V.some_, empty := V.empty, place := V.place
      known := fun i p k h1 h2 h' x hx hx' => ?_
      knownF := fun i p h1 t' op h2 h3 => hthr t' i (V.knownF i p h1 t' op h2 h3)
      spread := fun i p k h1 h2 h3 => ?_
      alone := fun t' op h f p h1 h2 h3 i k h4 hk => hthr t' i (V.alone t' op h f p h1 h2 h3 i k h4 hk)
      one := fun p j x h1 h2 h3 h' y hy hs hy' => ?_ }
  · rcases back h' x hx with ⟨-, hx⟩ | ⟨rfl, rfl⟩
    · exact hkn h' x i (V.known i p k h1 h2 h' x hx hx')
    · exact hk i (V.known i p k h1 h2 h' _ e hx')
  · rcases V.spread i p k h1 h2 h3 with ⟨h0, x0, e1, e2, e3, e4⟩ | e1 | ⟨g, e1, e2⟩ | e1
    · by_cases eh : h0 = h
      · subst eh
        rw [e] at e1
        injection e1 with e1
        injection e1 with e1
        subst e1
        refine Or.inl ⟨h0, .own t (.urc f), ?_, rfl, e3, hk i e4⟩
        simp only
        rw [List.getElem?_set_self hlt]
      · refine Or.inl ⟨h0, x0, ?_, e2, e3, hkn h0 x0 i e4⟩
        simp only
        rw [List.getElem?_set_ne (Ne.symm eh)]
        exact e1
    · exact Or.inr (Or.inl e1)
    · refine Or.inr (Or.inr (Or.inl ⟨g, e1, ?_⟩))
      show List.countP _ _ = 0
      rw [cU g]
      exact e2
    · exact Or.inr (Or.inr (Or.inr e1))
  · rcases back h' y hy with ⟨-, hy⟩ | ⟨rfl, rfl⟩
    · obtain ⟨i, z, h4, h5, h6⟩ := V.one p j x h1 h2 h3 h' y hy hs hy'
      exact ⟨i, z, h4, h5, hkn h' y _ h6⟩
    · obtain ⟨i, z, h4, h5, h6⟩ := V.one p j x h1 h2 h3 h' _ e rfl hy'
      exact ⟨i, z, h4, h5, hk _ h6⟩

end UrcVInv
end Lokky
