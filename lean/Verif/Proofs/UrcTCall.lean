import Verif.Proofs.UrcTMem

/-! The first steps of calls keep the invariant of the `Urc` system of threads. -/

namespace Lokky
variable {α : Type} {n n' mx : Nat} {s : UrcSys α} {dbg : Bool}

/-- The step returns, or panics for the reason `P`, in a state like that once the thread is idle if it panics. -/
def UrcFine (P : Prop) (n t : Nat) (r : Res (UrcSys α) Unit) : Prop :=
  (∃ s', r = .ok () s' ∧ UrcTInv n s') ∨
  P ∧ ∃ s', r = .panic s' ∧ UrcTInv n { s' with threads := s'.threads.set t none }

theorem UrcFine.ok {P : Prop} {t : Nat} {s' : UrcSys α} (h : UrcTInv n s') : UrcFine P n t (.ok () s') :=
  Or.inl ⟨s', rfl, h⟩

theorem UrcFine.weaken {P Q : Prop} {t : Nat} {r : Res (UrcSys α) Unit} (h : UrcFine P n t r) (hp : P → Q) :
    UrcFine Q n t r := h.imp_right fun h => ⟨hp h.1, h.2⟩

theorem UrcFine.why {P : Prop} {t : Nat} {r : Res (UrcSys α) Unit} (h : UrcFine P n t r) (e : r = .panic s) : P := by
  rcases h with ⟨s', h, -⟩ | ⟨h, -⟩
  · rw [e] at h
    cases h
  · exact h

theorem UrcFine.caught {P : Prop} {t : Nat} {m : M (UrcSys α) Unit} (h : UrcFine P n t (m s)) :
    ∃ s', UrcT.caught t m s = .ok () s' ∧ UrcTInv n s' := by
  rcases h with ⟨s', e, h⟩ | ⟨-, s', e, h⟩
  · exact ⟨s', by simp [UrcT.caught, e], h⟩
  · exact ⟨{ s' with threads := s'.threads.set t none, log := (t, none) :: s'.log }, by simp only [UrcT.caught, e],
      h.log⟩

namespace UrcTInv
open UrcT

/-- What an idle thread with a `Urc` can rely on. -/
theorem base (G : UrcTInv n s) {t h f : Nat} (ht : s.threads[t]? = some none)
    (e : s.hands[h]? = some (some (.own t (.urc f)))) :
    ∃ F, s.fences[f]? = some (some F) ∧ s.Fen f F.master ∧ F.master < s.vals.length ∧ s.Alive F.master ∧
      s.unf F.master ≤ s.sf F.master ∧ s.Made t F.master ∧ F.strong = s.nU f ∧ F.weak = s.nW f ∧ 1 ≤ s.nU f := by
  obtain ⟨p, F, eF, rfl⟩ := G.L.fen h _ e
  have hF : s.Fen f F.master := ⟨F, eF, rfl⟩
  have ha := G.L.alive_of e rfl rfl hF (fun op h => absurd h (UrcLInv.not_at ht))
  exact ⟨F, eF, hF, G.L.mas _ _ hF, ha, G.L.count_of e rfl hF ha (fun op h => absurd h (UrcLInv.not_at ht)),
    G.V.made e hF, G.L.strong_eq e rfl rfl eF, G.L.weak_eq ht e rfl rfl eF, UrcSys.nU_pos e rfl rfl⟩

theorem nU_le (G : UrcTInv n s) (f : Nat) : s.nU f ≤ n := Nat.le_trans List.countP_le_length G.L.hlen
theorem nW_le (G : UrcTInv n s) (f : Nat) : s.nW f ≤ n := Nat.le_trans List.countP_le_length G.L.hlen

theorem incStrong_ok (hn : n < mx) {f : Nat} {F : UrcFence} (eF : s.fences[f]? = some (some F)) (hs : F.strong ≤ n) :
    incStrong dbg mx f s =
      .ok () { s with fences := s.fences.set f (some { F with strong := F.strong + 1 }) } := by
  unfold incStrong
  rw [M.bind_ok (fence_ok eF), if_neg (by omega)]
  simp only [putFence, M.modify_apply, incr]
  rw [if_neg (by omega)]

theorem incWeak_ok (hn : n < mx) {f : Nat} {F : UrcFence} (eF : s.fences[f]? = some (some F)) (hs : F.weak ≤ n) :
    incWeak dbg mx f s =
      .ok () { s with fences := s.fences.set f (some { F with weak := F.weak + 1 }) } := by
  unfold incWeak
  rw [M.bind_ok (fence_ok eF), if_neg (by omega)]
  simp only [putFence, M.modify_apply, incr]
  rw [if_neg (by omega)]

theorem decStrong_ok {f : Nat} {F : UrcFence} (eF : s.fences[f]? = some (some F)) (hs : F.strong ≠ 0) :
    decStrong dbg mx f s =
      .ok () { s with fences := s.fences.set f (some { F with strong := F.strong - 1 }) } := by
  unfold decStrong
  rw [M.bind_ok (fence_ok eF), if_neg (by omega)]
  simp only [putFence, M.modify_apply, decr]
  rw [if_neg (by omega)]

theorem decWeak_ok {f : Nat} {F : UrcFence} (eF : s.fences[f]? = some (some F)) (hs : F.weak ≠ 0) :
    decWeak dbg mx f s =
      .ok () { s with fences := s.fences.set f (some { F with weak := F.weak - 1 }) } := by
  unfold decWeak
  rw [M.bind_ok (fence_ok eF), if_neg (by omega)]
  simp only [putFence, M.modify_apply, decr]
  rw [if_neg (by omega)]

/-- Thread `t` gets another handle of its fence `f`. -/
theorem add (G : UrcTInv n s) {t h f : Nat} {k : UrcHand} (ht : s.threads[t]? = some none)
    (e : s.hands[h]? = some (some (.own t (.urc f)))) {F F' : UrcFence}
    (eF : s.fences[f]? = some (some F)) (hm : F'.master = F.master)
    (hk : k = .urc f ∧ F' = { F with strong := F.strong + 1 } ∨
      k = .weak f F.master ∧ F' = { F with weak := F.weak + 1 }) :
    UrcTInv (n + 1) { s with
      hands := s.hands ++ [some (.own t k)], fences := s.fences.set f (some F') } := by
  refine ⟨G.L.add ht e eF hm hk, ?_⟩
  have hkf : k.fen = f := by rcases hk with ⟨rfl, -⟩ | ⟨rfl, -⟩ <;> rfl
  have hU := UrcSys.nU_pos e rfl rfl
  refine G.V.change G.L e rfl eF hm ?_ ?_ ?_ (fun _ => hU)
  · intro i x hx
    constructor
    · intro h'
      rcases getElem?_append_cases h' with h' | ⟨-, h'⟩
      · exact h'
      · simp at h'
        subst h'
        simp [hkf] at hx
    · exact getElem?_append_some
  · intro g hg
    rw [List.countP_append]
    have : UrcHold.strongAt g (some (.own t k)) = false := UrcHold.strongAt_ne (by simp [hkf]; exact Ne.symm hg)
    simp [UrcSys.nU, this]
  · intro i x hx hf
    rcases getElem?_append_cases hx with h' | ⟨-, h'⟩
    · exact G.L.mine e h' hf
    · simp at h'
      exact ⟨k, h'⟩

theorem clone_ok (G : UrcTInv n s) (hn : n < mx) (ch : UrcChoice α) {t h f : Nat} (ht : s.threads[t]? = some none)
    (e : s.hands[h]? = some (some (.own t (.urc f)))) :
    UrcFine False (n + 1) t (call dbg mx ch t h .clone (.urc f) s) := by
  obtain ⟨F, eF, -, -, -, -, -, hs, -, -⟩ := G.base ht e
  have := G.nU_le f
  simp only [call]
  rw [M.bind_ok (incStrong_ok hn eF (by omega))]
  refine .ok ?_
  exact (G.add (F' := { F with strong := F.strong + 1 }) ht e eF rfl (Or.inl ⟨rfl, rfl⟩)).idle (a := none) ht (fun _ h => by cases h)

theorem downgrade_ok (G : UrcTInv n s) (hn : n < mx) (ch : UrcChoice α) {t h f : Nat}
    (ht : s.threads[t]? = some none) (e : s.hands[h]? = some (some (.own t (.urc f)))) :
    UrcFine False (n + 1) t (call dbg mx ch t h .downgrade (.urc f) s) := by
  obtain ⟨F, eF, -, -, -, -, -, -, hw, -⟩ := G.base ht e
  obtain ⟨hlt, -⟩ := List.getElem?_eq_some_iff.1 eF
  have := G.nW_le f
  simp only [call]
  rw [M.bind_ok (incWeak_ok hn eF (by omega)),
    M.bind_ok (fence_ok (F := { F with weak := F.weak + 1 }) (by simp [List.getElem?_set_self hlt]))]
  refine .ok ?_
  exact (G.add (F' := { F with weak := F.weak + 1 }) ht e eF rfl (Or.inr ⟨rfl, rfl⟩)).idle (a := none) ht (fun _ h => by cases h)

theorem count_ok (G : UrcTInv n s) (ch : UrcChoice α) {t h : Nat} {k : UrcHand} {cmd : UrcCall α}
    (ht : s.threads[t]? = some none) (e : s.hands[h]? = some (some (.own t k)))
    (hk : k = .urc k.fen ∨ k = .fence k.fen) (hc : cmd = .strongCount ∨ cmd = .weakCount) :
    UrcFine False (n + 1) t (call dbg mx ch t h cmd k s) := by
  obtain ⟨p, F, eF, -⟩ := G.L.fen h _ e
  simp only [UrcHold.fen_own] at eF
  have key : ∀ out, UrcFine False (n + 1) t (done t out s) := fun out =>
    .ok ((G.mono (Nat.le_succ n)).idle (a := none) ht (fun _ h => by cases h))
  rcases hk with hk | hk <;> rw [hk] <;> rcases hc with rfl | rfl <;> simp only [call] <;>
    rw [M.bind_ok (fence_ok eF)] <;> exact key _

theorem hand_set {t h f : Nat} {k : UrcHand} (e : s.hands[h]? = some (some (.own t k))) (hk : k.fen = f) :
    (∀ (i : Nat) (x : UrcHold), x.fen ≠ f → ((s.hands.set h none)[i]? = some (some x) ↔ s.hands[i]? = some (some x))) ∧
    (∀ g, g ≠ f → (s.hands.set h none).countP (UrcHold.strongAt g) = s.nU g) ∧
    (∀ (i : Nat) (x : UrcHold), (s.hands.set h none)[i]? = some (some x) → s.hands[i]? = some (some x)) ∧
    (s.hands.set h none).countP (UrcHold.strongAt f) + ((UrcHold.own t k).strong).toNat = s.nU f ∧
    (s.hands.set h none).countP (UrcHold.weakAt f) + (!(UrcHold.own t k).strong).toNat = s.nW f := by
  subst hk
  obtain ⟨hlt, -⟩ := List.getElem?_eq_some_iff.1 e
  refine ⟨?_, ?_, ?_, ?_, ?_⟩
  · intro i x hx
    by_cases hi : i = h
    · subst hi
      rw [List.getElem?_set_self hlt, e]
      simp
      rintro rfl
      exact hx rfl
    · rw [List.getElem?_set_ne (Ne.symm hi)]
  · intro g hg
    have := countP_set_add (UrcHold.strongAt g) e none
    rw [UrcHold.strongAt_ne (x := .own t k) (by simpa using Ne.symm hg)] at this
    simpa [UrcHold.strongAt, UrcSys.nU] using this
  · intro i x hx
    by_cases hi : i = h
    · subst hi
      rw [List.getElem?_set_self hlt] at hx
      cases hx
    · rwa [List.getElem?_set_ne (Ne.symm hi)] at hx
  · have := countP_set_add (UrcHold.strongAt k.fen) e none
    have h1 : UrcHold.strongAt k.fen (some (.own t k)) = (UrcHold.own t k).strong := by simp [UrcHold.strongAt]
    have h2 : UrcHold.strongAt k.fen none = false := rfl
    rw [h1, h2] at this
    simpa [UrcSys.nU] using this
  · have := countP_set_add (UrcHold.weakAt k.fen) e none
    have h1 : UrcHold.weakAt k.fen (some (.own t k)) = !(UrcHold.own t k).strong := by simp [UrcHold.weakAt]
    have h2 : UrcHold.weakAt k.fen none = false := rfl
    rw [h1, h2] at this
    simpa [UrcSys.nW] using this

/-- A handle is given up, but the fence is not released. -/
theorem give (G : UrcTInv n s) {t h f : Nat} {k : UrcHand} (ht : s.threads[t]? = some none)
    (e : s.hands[h]? = some (some (.own t k))) (hk : k.fen = f) {F F' : UrcFence}
    (eF : s.fences[f]? = some (some F)) (hm : F'.master = F.master)
    (st : 1 ≤ (s.hands.set h none).countP (UrcHold.strongAt f) →
      F'.strong = (s.hands.set h none).countP (UrcHold.strongAt f))
    (wk : 1 ≤ (s.hands.set h none).countP (UrcHold.weakAt f) →
      F'.weak = (s.hands.set h none).countP (UrcHold.weakAt f))
    (wk0 : (s.hands.set h none).countP (UrcHold.weakAt f) = 0 →
      1 ≤ (s.hands.set h none).countP (UrcHold.strongAt f) → F'.weak = 0) :
    UrcTInv n { s with hands := s.hands.set h none, fences := s.fences.set f (some F') } := by
  obtain ⟨h1, h2, h3, h4, -⟩ := hand_set e hk
  refine ⟨G.L.swap ht e hk eF hm (Or.inl rfl) st wk wk0, G.V.change G.L e hk eF hm h1 h2 ?_ (fun _ => by omega)⟩
  intro i x hx hf
  exact G.L.mine' e (h3 i x hx) (by rw [hf, hk])

theorem intoFence_ok (G : UrcTInv n s) (ch : UrcChoice α) {t h f : Nat} (ht : s.threads[t]? = some none)
    (e : s.hands[h]? = some (some (.own t (.urc f)))) :
    UrcFine False (n + 1) t (call dbg mx ch t h .intoFence (.urc f) s) := by
  obtain ⟨F, eF, -, -, -, -, -, hs, hw, -⟩ := G.base ht e
  obtain ⟨hlt, -⟩ := List.getElem?_eq_some_iff.1 e
  simp only [call]
  rw [M.bind_ok (fence_ok eF)]
  by_cases hc : F.strong = 1 ∧ F.weak = 0
  · rw [if_pos hc]
    refine .ok ?_
    have back : ∀ (i : Nat) (x : UrcHold), (s.hands.set h (some (.own t (.fence f))))[i]? = some (some x) →
        i ≠ h ∧ s.hands[i]? = some (some x) ∨ i = h ∧ x = .own t (.fence f) := by
      intro i x hx
      by_cases hi : i = h
      · subst hi
        rw [List.getElem?_set_self hlt] at hx
        simp only [Option.some.injEq] at hx
        exact Or.inr ⟨rfl, hx.symm⟩
      · rw [List.getElem?_set_ne (Ne.symm hi)] at hx
        exact Or.inl ⟨hi, hx⟩
    have cU : ∀ g, (s.hands.set h (some (.own t (.fence f)))).countP (UrcHold.strongAt g) = s.nU g := by
      intro g
      have := countP_set_add (UrcHold.strongAt g) e (some (.own t (.fence f)))
      have h' : UrcHold.strongAt g (some (.own t (.fence f))) = UrcHold.strongAt g (some (.own t (.urc f))) := rfl
      rw [h'] at this
      unfold UrcSys.nU
      omega
    have cW : ∀ g, (s.hands.set h (some (.own t (.fence f)))).countP (UrcHold.weakAt g) = s.nW g := by
      intro g
      have := countP_set_add (UrcHold.weakAt g) e (some (.own t (.fence f)))
      have h' : UrcHold.weakAt g (some (.own t (.fence f))) = UrcHold.weakAt g (some (.own t (.urc f))) := rfl
      rw [h'] at this
      unfold UrcSys.nW
      omega
    have hset : s.fences = s.fences.set f (some F) := by
      obtain ⟨h1, h2⟩ := List.getElem?_eq_some_iff.1 eF
      rw [← h2, List.set_getElem_self]
    have key : UrcTInv n { s with
        hands := s.hands.set h (some (.own t (.fence f))), fences := s.fences.set f (some F) } := by
      refine ⟨G.L.swap ht e rfl eF rfl (Or.inr ⟨rfl, rfl, by simp; omega, by simp; omega⟩) ?_ ?_ ?_,
        G.V.change G.L e rfl eF rfl ?_ (fun g _ => cU g) ?_ (fun h' => ?_)⟩
      · simp only [UrcHand.fen_urc]
        rw [cU]; omega
      · simp only [UrcHand.fen_urc]
        rw [cW]; omega
      · intros; omega
      · intro i x hx
        by_cases hi : i = h
        · subst hi
          rw [List.getElem?_set_self hlt, e]
          simp at hx ⊢
          constructor <;> rintro rfl <;> simp at hx
        · rw [List.getElem?_set_ne (Ne.symm hi)]
      · intro i x hx hf
        rcases back i x hx with ⟨-, hx⟩ | ⟨-, rfl⟩
        · exact G.L.mine e hx hf
        · exact ⟨_, rfl⟩
      · rw [← cU]; exact h'
    rw [← hset] at key
    exact (key.mono (Nat.le_succ n)).idle (a := none) ht (fun _ h => by cases h)
  · rw [if_neg hc]
    exact .ok ((G.mono (Nat.le_succ n)).idle (a := none) ht (fun _ h => by cases h))

theorem read_ok (G : UrcTInv n s) (ch : UrcChoice α) {t h f : Nat} (ht : s.threads[t]? = some none)
    (e : s.hands[h]? = some (some (.own t (.urc f)))) :
    UrcFine False (n + 1) t (call dbg mx ch t h .read (.urc f) s) := by
  obtain ⟨F, eF, hF, hp, ⟨v, hv⟩, -, -, -, -, -⟩ := G.base ht e
  simp only [call]
  rw [M.bind_ok (fence_ok eF), M.bind_ok (touch_ok (G.V.calm_read e hF)), M.bind_ok (data_ok (s := { s with mem := s.mem.apply t 0 (.touch F.master .read) }) (v := v) hv)]
  refine .ok ?_
  have P := touch_pre t F.master 0 .read s.mem
  have key : UrcTInv n { s with mem := s.mem.apply t 0 (.touch F.master .read) } :=
    ⟨G.L.memory (l := s.log) (pre_strong P rfl), G.V.touch G.L e hF (Or.inl rfl)⟩
  exact (key.mono (Nat.le_succ n)).idle (a := none) ht (fun _ h => by cases h)

theorem isSole_ok (G : UrcTInv n s) (ch : UrcChoice α) {t h f : Nat} (ht : s.threads[t]? = some none)
    (e : s.hands[h]? = some (some (.own t (.urc f)))) :
    UrcFine False (n + 1) t (call dbg mx ch t h .isSole (.urc f) s) := by
  obtain ⟨F, eF, hF, hp, -, -, hm, -, -, -⟩ := G.base ht e
  obtain ⟨x, -, hl, key⟩ := G.load ch (c := .strong) true hp hm
  simp only [call]
  rw [M.bind_ok (fence_ok eF), M.bind_ok hl]
  exact .ok ((key.mono (Nat.le_succ n)).idle (a := none) ht (fun _ h => by cases h))

/-- What a thread with a `Urc` relies on when it relies on nothing else. -/
theorem opOk {t h f p : Nat} {op : UrcOp α} (e : s.hands[h]? = some (some (.own t (.urc f)))) (hF : s.Fen f p)
    (ho : op.hand = some (h, f, p)) (h1 : op.sole = true → ∀ g, s.Fen g p → g = f)
    (h2 : op.only = true → s.nU f = 1) (h3 : op.noWeak = true → s.nW f = 0)
    (h4 : op.hasWeak = true → 1 ≤ s.nW f) (h5 : op.left = none)
    (h6 : ∀ h f p v, op ≠ .mv1 h f p v) : UrcOpOk s t op := by
  constructor
  · intro h' f' p' e'
    rw [ho] at e'
    cases e'
    exact e
  · intro h' f' p' e'
    rw [ho] at e'
    cases e'
    exact hF
  · intro h' f' p' e'
    rw [ho] at e'
    cases e'
    exact h1
  · intro h' f' p' e'
    rw [ho] at e'
    cases e'
    exact h2
  · intro h' f' p' e'
    rw [ho] at e'
    cases e'
    exact h3
  · intro h' f' p' e'
    rw [ho] at e'
    cases e'
    exact h4
  · intro p' e'
    rw [h5] at e'
    cases e'
  · rintro p' k rfl
    cases h5
  · rintro h' f' p' v rfl
    exact absurd rfl (h6 h' f' p' v)

theorem getMut_ok (G : UrcTInv n s) (ch : UrcChoice α) {t h f : Nat} (ht : s.threads[t]? = some none)
    (e : s.hands[h]? = some (some (.own t (.urc f)))) :
    UrcFine False (n + 1) t (call dbg mx ch t h .getMut (.urc f) s) := by
  obtain ⟨F, eF, hF, hp, -, -, hm, -, -, -⟩ := G.base ht e
  obtain ⟨r, m', new, hr, P, hn⟩ := G.cas ch false (u := 0) (v := mx) (acq := true) (rel := false) hp hm
  have key := (G.quiet P hp hn).mono (Nat.le_succ n)
  simp only [call]
  rw [M.bind_ok (fence_ok eF), M.bind_ok hr]
  cases r with
  | none =>
    refine .ok (key.goes (a := none) ht (fun _ h => by cases h) ?_ (by simp [UrcOp.left]) (by simp [UrcOp.sole]))
    exact opOk (s := { s with mem := m' }) e hF rfl (by simp [UrcOp.sole]) (by simp [UrcOp.only])
      (by simp [UrcOp.noWeak]) (by simp [UrcOp.hasWeak]) rfl (by simp)
  | some v => exact .ok (key.idle (a := none) ht (fun _ h => by cases h))

theorem makeMut_ok (G : UrcTInv n s) (ch : UrcChoice α) {t h f : Nat} (ht : s.threads[t]? = some none)
    (e : s.hands[h]? = some (some (.own t (.urc f)))) :
    UrcFine False (n + 1) t (call dbg mx ch t h .makeMut (.urc f) s) := by
  obtain ⟨F, eF, hF, hp, ha, hc, hm, -, -, -⟩ := G.base ht e
  obtain ⟨x, hx, hl, key⟩ := G.load ch (c := .strong) true hp hm
  simp only [call]
  rw [M.bind_ok (fence_ok eF), M.bind_ok hl]
  by_cases h1 : x.val = 1
  · rw [if_pos h1]
    obtain ⟨-, h2, h3⟩ := G.load_one e hF ha hc hx h1
    refine .ok ((key.mono (Nat.le_succ n)).goes (a := none) ht (fun _ h => by cases h) ?_ (by simp [UrcOp.left]) ?_)
    · exact opOk (s := { s with mem := _ }) e hF rfl (fun _ => h2) (by simp [UrcOp.only])
        (by simp [UrcOp.noWeak]) (by simp [UrcOp.hasWeak]) rfl (by simp)
    · intro h' f' q' e' _
      cases e'
      exact h3
  · rw [if_neg h1]
    refine .ok ((key.mono (Nat.le_succ n)).goes (a := none) ht (fun _ h => by cases h) ?_ (by simp [UrcOp.left])
      (by simp [UrcOp.sole]))
    exact opOk (s := { s with mem := _ }) e hF rfl (by simp [UrcOp.sole]) (by simp [UrcOp.only])
        (by simp [UrcOp.noWeak]) (by simp [UrcOp.hasWeak]) rfl (by simp)

theorem tryUnwrap_ok (G : UrcTInv n s) (ch : UrcChoice α) {t h f : Nat} (ht : s.threads[t]? = some none)
    (e : s.hands[h]? = some (some (.own t (.urc f)))) (hf : UrcAct.faulty s (.call t h .tryUnwrap ch) = false) :
    UrcFine False (n + 1) t (call dbg mx ch t h .tryUnwrap (.urc f) s) := by
  obtain ⟨F, eF, hF, hp, ha, hc, hm, hs, hw, hU⟩ := G.base ht e
  obtain ⟨y, hy⟩ := pick_some G.V (t := t) (c := .strong) (j := ch.pos) hp
  obtain ⟨x, hx⟩ := G.V.last_some (c := .strong) hp
  have hfail : ∀ j : Nat, UrcTInv (n + 1) { s with mem := s.mem.apply t j (.load .strong F.master false) } :=
    fun j => (G.quiet (load_pre t F.master j .strong false s.mem) hp rfl).mono (Nat.le_succ n)
  have hend : ∀ j : Nat, UrcFine False (n + 1) t (done t (.opt none)
      { s with mem := s.mem.apply t j (.load .strong F.master false) }) :=
    fun j => .ok ((hfail j).idle (a := none) ht (fun _ h => by cases h))
  simp only [call]
  rw [M.bind_ok (fence_ok eF)]
  by_cases h1 : (ch.fail && (false || y.val != 1)) = true
  · have : UrcT.cas ch false t .strong F.master 1 0 true false s = .ok (some y.val)
        { s with mem := s.mem.apply t (s.mem.pick t .strong F.master ch.pos) (.load .strong F.master false) } := by
      simp only [UrcT.cas, hy, hx, G.V.calm_atomic hm, Bool.false_eq_true, if_false, h1, if_true]
    rw [M.bind_ok this]
    exact hend _
  · by_cases h2 : x.val = 1
    · have : UrcT.cas ch false t .strong F.master 1 0 true false s = .ok none
          { s with mem := s.mem.apply t 0 (.rmw .strong F.master 0 true false) } := by
        simp only [UrcT.cas, hy, hx, G.V.calm_atomic hm, Bool.false_eq_true, if_false, h1, h2, if_true]
      rw [M.bind_ok this]
      have h3 : F.strong = 1 ∧ F.weak ≠ 0 := by
        simp only [UrcAct.faulty, e, eF, hx, Option.any_some, h2, beq_self_eq_true, Bool.true_and,
          Bool.or_eq_false_iff, bne_eq_false_iff_eq, beq_eq_false_iff_ne] at hf
        exact hf
      simp only
      rw [if_pos h3.1]
      have hsf : s.sf F.master = 1 := by rw [UrcVInv.sf_last hx, h2]
      obtain ⟨w, P, p1, -, p3⟩ := rmw_pre t F.master 0 0 .strong true false s.mem
      have hv := ArcMem.viewAt_latest hx
      have hl : ((s.mem.apply t 0 (.rmw .strong F.master 0 true false)).msgs .strong F.master).getLast? =
          some ⟨0, s.mem.evts.length, w⟩ := by rw [P.msgsAt]; simp
      refine .ok ⟨(G.L.unwrap ht e eF rfl h3.1 h3.2 hsf (fun q hq => P.msgs _ _ hq) ?_).mono (Nat.le_succ n),
        G.V.unwrap G.L ht e hF hsf P (by simp) rfl ?_ ?_⟩
      · have := UrcVInv.sf_last (s := { s with mem := s.mem.apply t 0 (.rmw .strong F.master 0 true false) }) hl
        exact Nat.le_trans (Nat.le_of_eq this) (Nat.zero_le _)
      · obtain ⟨-, -, h'⟩ := P.newEvt .strong ⟨0, s.mem.evts.length, w⟩ (by simp)
        exact h'
      · intro x' hx' i hi
        rw [hx] at hx'
        injection hx' with hx'
        subst hx'
        rw [← hv] at hi
        exact ⟨p1 i hi, p3 rfl i hi⟩
    · have : UrcT.cas ch false t .strong F.master 1 0 true false s = .ok (some x.val)
          { s with mem := s.mem.apply t (s.mem.latest .strong F.master) (.load .strong F.master false) } := by
        simp only [UrcT.cas, hy, hx, G.V.calm_atomic hm, Bool.false_eq_true, if_false, h1, h2]
      rw [M.bind_ok this]
      exact hend _

end UrcTInv
end Lokky
