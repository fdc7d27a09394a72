import Verif.Proofs.UrcTMove
import Verif.Proofs.ArcMemStep

/-! The invariant of the `Urc` system of threads: which accesses are known to whom. -/

namespace Lokky
variable {α : Type} {n n' : Nat} {s : UrcSys α}

namespace UrcSys

/-- Who has the handle named `h`, which is `x`, knows of access `i` or will get to know of it. -/
def Knows (s : UrcSys α) (h : Nat) (x : UrcHold) (i : Nat) : Prop :=
  match x with
  | .own t _ => i ∈ s.mem.thr t
  | .env _ => i ∈ s.mem.hnd h

/-- Access `i` will be known to whoever finds to have the only fence of master `p`. -/
def Held (s : UrcSys α) (p i : Nat) : Prop :=
  (∃ (h : Nat) (x : UrcHold), s.hands[h]? = some (some x) ∧ x.strong = true ∧ s.Fen x.fen p ∧ s.Knows h x i) ∨
  (∃ x, (s.mem.msgs .strong p).getLast? = some x ∧ i ∈ x.view) ∨
  (∃ f, s.Fen f p ∧ s.nU f = 0) ∨ s.unf p < s.sf p

end UrcSys

/-- The invariant. -/
structure UrcVInv (s : UrcSys α) : Prop where
  some_ : ∀ c p, p < s.vals.length → s.mem.msgs c p ≠ []
  empty : ∀ c p, s.vals.length ≤ p → s.mem.msgs c p = []
  place : ∀ (i p : Nat) (k : ArcKind), s.mem.evts[i]? = some (p, k) → p < s.vals.length ∧ k ≠ .free
  known : ∀ (i p : Nat) (k : ArcKind), s.mem.evts[i]? = some (p, k) → k = .init ∨ k = .write →
    ∀ (h : Nat) (x : UrcHold), s.hands[h]? = some (some x) → s.Fen x.fen p → s.Knows h x i
  knownF : ∀ (i p : Nat), s.mem.evts[i]? = some (p, .init) →
    ∀ t op, s.At t op → op.left = some p → i ∈ s.mem.thr t
  spread : ∀ (i p : Nat) (k : ArcKind), s.mem.evts[i]? = some (p, k) → k ≠ .atomic → s.Alive p → s.Held p i
  alone : ∀ t op h f p, s.At t op → op.hand = some (h, f, p) → op.sole = true →
    ∀ (i : Nat) (k : ArcKind), s.mem.evts[i]? = some (p, k) → k ≠ .atomic → i ∈ s.mem.thr t
  one : ∀ (p j : Nat) (x : ArcMsg), (s.mem.msgs .strong p)[j]? = some x → x.val = 1 →
    j + 1 < (s.mem.msgs .strong p).length →
    ∀ (h : Nat) (y : UrcHold), s.hands[h]? = some (some y) → y.strong = true → s.Fen y.fen p →
    ∃ (i : Nat) (z : ArcMsg), j < i ∧ (s.mem.msgs .strong p)[i]? = some z ∧ s.Knows h y z.evt

namespace UrcVInv

/-- A step of thread `t` at master `p`. -/
theorem step (V : UrcVInv s) {s' : UrcSys α} {t p : Nat} {m1 : ArcMem} {es : List (Nat × ArcKind)}
    {new : ArcCtr → List ArcMsg} {hd : Nat → List Nat} (P : ArcPre t p s.mem m1 es new)
    (hm : s'.mem = { m1 with hnd := hd }) (hp : p < s.vals.length) (hvl : s'.vals.length = s.vals.length)
    (ha : ∀ q, s'.Alive q → s.Alive q)
    (hes : ∀ e ∈ es, e.2 ≠ .free ∧ e.2 ≠ .init)
    (hh : ∀ (h : Nat) (x : UrcHold) q, s'.hands[h]? = some (some x) → s'.Fen x.fen q →
      ∃ (h0 : Nat) (x0 : UrcHold), s.hands[h0]? = some (some x0) ∧ s.Fen x0.fen q ∧
        (x.strong = true → x0.strong = true) ∧ ∀ i, s.Knows h0 x0 i → s'.Knows h x i)
    (hw : ∀ e ∈ es, e.2 = .write → ∀ (h : Nat) (x : UrcHold), s'.hands[h]? = some (some x) → s'.Fen x.fen p →
      ∀ i, i ∈ m1.thr t → s'.Knows h x i)
    (hleft : ∀ t' op q, s'.At t' op → op.left = some q → (∃ op0, s.At t' op0 ∧ op0.left = some q) ∨
      t' = t ∧ ∀ i : Nat, s.mem.evts[i]? = some (q, .init) → i ∈ m1.thr t)
    (hsole : ∀ t' op h f q, s'.At t' op → op.hand = some (h, f, q) → op.sole = true →
      (t' ≠ t → q = p → ∀ e ∈ es, e.2 = .atomic) ∧
      ((∃ op0 h0 f0, s.At t' op0 ∧ op0.hand = some (h0, f0, q) ∧ op0.sole = true) ∨
        t' = t ∧ ∀ (i : Nat) (k : ArcKind), s.mem.evts[i]? = some (q, k) → k ≠ .atomic → i ∈ m1.thr t))
    (hheld : ∀ q i, s'.Alive q → s.Held q i → s'.Held q i)
    (hnew : ∀ e ∈ es, e.2 ≠ .atomic → s'.Alive p → ∀ i, i ∈ m1.thr t → s'.Held p i)
    (hlen : (new .strong).length ≤ 1)
    (hone : s.sf p = 1 → ∀ y ∈ new .strong, ∀ (h : Nat) (x : UrcHold), s'.hands[h]? = some (some x) →
      x.strong = true → s'.Fen x.fen p → s'.Knows h x y.evt) : UrcVInv s' := by
  have hmsgs : s'.mem.msgs = m1.msgs := by rw [hm]
  have hevts : s'.mem.evts = s.mem.evts ++ es := by rw [hm]; exact P.evts
  have hthr : s'.mem.thr = m1.thr := by rw [hm]
  have hmono : ∀ t' i, i ∈ s.mem.thr t' → i ∈ s'.mem.thr t' := by
    intro t' i hi
    rw [hthr]
    by_cases e : t' = t
    · subst e; exact P.mono i hi
    · rw [P.others t' e]; exact hi
  have hevt : ∀ (i q : Nat) (k : ArcKind), s'.mem.evts[i]? = some (q, k) → s.mem.evts[i]? = some (q, k) ∨
      (q, k) ∈ es ∧ q = p ∧ i ∈ m1.thr t := by
    intro i q k h
    have hlt := (List.getElem?_eq_some_iff.1 h).1
    rw [hevts] at h
    rcases getElem?_append_cases h with h | ⟨h1, h2⟩
    · exact Or.inl h
    · exact Or.inr ⟨h2, P.at_ _ h2, P.fresh i h1 (by rw [P.evts, ← hevts]; exact hlt)⟩
  constructor
  · intro c q hq
    rw [hvl] at hq
    rw [hmsgs]
    by_cases e : q = p
    · subst e
      rw [P.msgsAt]
      intro h
      exact V.some_ c q hq (List.append_eq_nil_iff.1 h).1
    · rw [P.msgs c q e]
      exact V.some_ c q hq
  · intro c q hq
    rw [hvl] at hq
    rw [hmsgs, P.msgs c q (by omega)]
    exact V.empty c q hq
  · intro i q k h
    rw [hvl]
    rcases hevt i q k h with h | ⟨h1, rfl, -⟩
    · exact V.place i q k h
    · exact ⟨hp, (hes _ h1).1⟩
  · intro i q k h hk h' x hx hF
    rcases hevt i q k h with h | ⟨h1, rfl, h2⟩
    · obtain ⟨h0, x0, e0, e1, -, e2⟩ := hh h' x q hx hF
      exact e2 i (V.known i q k h hk h0 x0 e0 e1)
    · rcases hk with rfl | rfl
      · exact absurd rfl (hes _ h1).2
      · exact hw _ h1 rfl h' x hx hF i h2
  · intro i q h t' op h1 h2
    rcases hevt i q _ h with h | ⟨h3, -, -⟩
    · rcases hleft t' op q h1 h2 with ⟨op0, h3, h4⟩ | ⟨rfl, h3⟩
      · exact hmono t' i (V.knownF i q h t' op0 h3 h4)
      · rw [hthr]; exact h3 i h
    · exact absurd rfl (hes _ h3).2
  · intro i q k h hk hq
    rcases hevt i q k h with h | ⟨h1, rfl, h2⟩
    · exact hheld q i hq (V.spread i q k h hk (ha q hq))
    · exact hnew _ h1 hk hq i h2
  · intro t' op h f q h1 h2 h3 i k h4 hk
    obtain ⟨h5, h6⟩ := hsole t' op h f q h1 h2 h3
    rcases hevt i q k h4 with h4 | ⟨h7, rfl, h8⟩
    · rcases h6 with ⟨op0, h0, f0, h6, h7, h8⟩ | ⟨rfl, h6⟩
      · exact hmono t' i (V.alone t' op0 h0 f0 q h6 h7 h8 i k h4 hk)
      · rw [hthr]; exact h6 i k h4 hk
    · by_cases e : t' = t
      · subst e; rw [hthr]; exact h8
      · exact absurd (h5 e rfl _ h7) hk
  · intro q j x hx hv hj h y hy hs hF
    rw [hmsgs] at hx hj ⊢
    obtain ⟨h0, x0, e0, e1, e2, e3⟩ := hh h y q hy hF
    by_cases e : q = p
    · subst e
      rw [P.msgsAt] at hx hj ⊢
      by_cases hj' : j + 1 < (s.mem.msgs .strong q).length
      · rw [List.getElem?_append_left (by omega)] at hx
        obtain ⟨i, z, h1, h2, h3⟩ := V.one q j x hx hv hj' h0 x0 e0 (e2 hs) e1
        exact ⟨i, z, h1, getElem?_append_some h2, e3 _ h3⟩
      · rw [List.length_append] at hj
        have hne := List.length_pos_iff.2 (V.some_ .strong q hp)
        have hj'' : j + 1 = (s.mem.msgs .strong q).length := by omega
        rw [List.getElem?_append_left (by omega)] at hx
        have hsf : s.sf q = 1 := by
          have : (s.mem.msgs .strong q).getLast? = some x := by
            rw [List.getLast?_eq_getElem?, ← hj'']
            exact hx
          simp only [UrcSys.sf, this, hv]
        have h1 : (new .strong)[0]? = some ((new .strong)[0]'(by omega)) := by
          rw [List.getElem?_eq_getElem]
        refine ⟨j + 1, (new .strong)[0]'(by omega), by omega, ?_, ?_⟩
        · rw [hj'', List.getElem?_append_right (Nat.le_refl _), Nat.sub_self]
          exact h1
        · exact hone hsf _ (List.getElem_mem _) h y hy hs hF
    · rw [P.msgs _ _ e] at hx hj ⊢
      obtain ⟨i, z, h1, h2, h3⟩ := V.one q j x hx hv hj h0 x0 e0 (e2 hs) e1
      exact ⟨i, z, h1, h2, e3 _ h3⟩

/-! ## Memory only -/

theorem knows_mono {s' : UrcSys α} (hthr : ∀ t' i, i ∈ s.mem.thr t' → i ∈ s'.mem.thr t')
    (hhnd : s'.mem.hnd = s.mem.hnd) {h : Nat} {x : UrcHold} {i : Nat} (k : s.Knows h x i) : s'.Knows h x i := by
  cases x with
  | own t' _ => exact hthr t' i k
  | env _ => simp only [UrcSys.Knows] at k ⊢; rw [hhnd]; exact k

theorem _root_.Lokky.ArcPre.thr_mono {t p : Nat} {m m1 : ArcMem} {es : List (Nat × ArcKind)}
    {new : ArcCtr → List ArcMsg} (P : ArcPre t p m m1 es new) (t' i : Nat) (h : i ∈ m.thr t') : i ∈ m1.thr t' := by
  by_cases e : t' = t
  · subst e; exact P.mono i h
  · rw [P.others t' e]; exact h

/-- Nothing changes but memory, and that not at `strong_fence`; or another thread state. -/
theorem quiet (V : UrcVInv s) {t p : Nat} {m1 : ArcMem} {es : List (Nat × ArcKind)}
    {new : ArcCtr → List ArcMsg} {l : List (Nat × Option (UrcOut α))} {th : List (Option (UrcOp α))}
    (P : ArcPre t p s.mem m1 es new) (hp : p < s.vals.length)
    (hes : ∀ e ∈ es, e.2 = .atomic) (hn : new .strong = [])
    (hleft : ∀ t' op q, th[t']? = some (some op) → op.left = some q → (∃ op0, s.At t' op0 ∧ op0.left = some q) ∨
      t' = t ∧ ∀ i : Nat, s.mem.evts[i]? = some (q, .init) → i ∈ m1.thr t)
    (hsole : ∀ t' op h f q, th[t']? = some (some op) → op.hand = some (h, f, q) → op.sole = true →
      ((∃ op0 h0 f0, s.At t' op0 ∧ op0.hand = some (h0, f0, q) ∧ op0.sole = true) ∨
        t' = t ∧ ∀ (i : Nat) (k : ArcKind), s.mem.evts[i]? = some (q, k) → k ≠ .atomic → i ∈ m1.thr t)) :
    UrcVInv { s with mem := m1, log := l, threads := th } := by
  have hms : ∀ q, m1.msgs .strong q = s.mem.msgs .strong q := by
    intro q
    by_cases e : q = p
    · subst e; rw [P.msgsAt, hn, List.append_nil]
    · exact P.msgs _ _ e
  have hkn : ∀ (h : Nat) (x : UrcHold) i, s.Knows h x i →
      ({ s with mem := m1, log := l, threads := th } : UrcSys α).Knows h x i :=
    fun h x i hk => knows_mono (s' := { s with mem := m1, log := l, threads := th }) P.thr_mono P.hnd hk
  refine V.step (hd := m1.hnd) P rfl hp rfl (fun _ h => h) (fun e he => by rw [hes e he]; simp)
    (fun h x q hx hF => ⟨h, x, hx, hF, fun h => h, hkn h x⟩)
    (fun e he hw => by rw [hes e he] at hw; cases hw) hleft
    (fun t' op h f q h1 h2 h3 => ⟨fun _ _ => hes, hsole t' op h f q h1 h2 h3⟩)
    (fun q i _ hH => ?_) (fun e he hw => absurd (hes e he) hw) (by rw [hn]; simp)
    (fun _ y hy => by rw [hn] at hy; cases hy)
  rcases hH with ⟨h, x, h1, h2, h3, h4⟩ | ⟨x, h1, h2⟩ | h1 | h1
  · exact Or.inl ⟨h, x, h1, h2, h3, hkn h x i h4⟩
  · exact Or.inr (Or.inl ⟨x, by simp only [hms]; exact h1, h2⟩)
  · exact Or.inr (Or.inr (Or.inl h1))
  · refine Or.inr (Or.inr (Or.inr ?_))
    simp only [UrcSys.sf, hms]
    exact h1

/-- Nothing changes but memory, and that not at `strong_fence`. -/
theorem memory (V : UrcVInv s) {t p : Nat} {m1 : ArcMem} {es : List (Nat × ArcKind)}
    {new : ArcCtr → List ArcMsg} {l : List (Nat × Option (UrcOut α))}
    (P : ArcPre t p s.mem m1 es new) (hp : p < s.vals.length)
    (hes : ∀ e ∈ es, e.2 = .atomic) (hn : new .strong = []) :
    UrcVInv { s with mem := m1, log := l } :=
  V.quiet (th := s.threads) P hp hes hn (fun t' op q h1 h2 => Or.inl ⟨op, h1, h2⟩)
    (fun t' op h f q h1 h2 h3 => Or.inl ⟨op, h, f, h1, h2, h3⟩)

/-- A thread goes on with something else. -/
theorem rethread (V : UrcVInv s) {t : Nat} {a b : Option (UrcOp α)} {l : List (Nat × Option (UrcOut α))}
    (ht : s.threads[t]? = some a)
    (hleft : ∀ op q, b = some op → op.left = some q → (∃ op0, a = some op0 ∧ op0.left = some q) ∨
      ∀ i : Nat, s.mem.evts[i]? = some (q, .init) → i ∈ s.mem.thr t)
    (hsole : ∀ op h f q, b = some op → op.hand = some (h, f, q) → op.sole = true →
      (∃ op0 h0 f0, a = some op0 ∧ op0.hand = some (h0, f0, q) ∧ op0.sole = true) ∨
        ∀ (i : Nat) (k : ArcKind), s.mem.evts[i]? = some (q, k) → k ≠ .atomic → i ∈ s.mem.thr t) :
    UrcVInv { s with threads := s.threads.set t b, log := l } := by
  have hkn : ∀ (h : Nat) (x : UrcHold) i, s.Knows h x i →
      ({ s with threads := s.threads.set t b, log := l } : UrcSys α).Knows h x i :=
    fun h x i hk => hk
  refine
    { some_ := V.some_, empty := V.empty, place := V.place, known := V.known, spread := V.spread, one := V.one
      knownF := fun i p h t' op h1 h2 => ?_, alone := fun t' op h f p h1 h2 h3 i k h4 hk => ?_ }
  · rcases UrcSys.at_set ht h1 with ⟨rfl, e⟩ | ⟨ne, h1⟩
    · rcases hleft op p e h2 with ⟨op0, rfl, h3⟩ | h3
      · exact V.knownF i p h t' op0 ht h3
      · exact h3 i h
    · exact V.knownF i p h t' op h1 h2
  · rcases UrcSys.at_set ht h1 with ⟨rfl, e⟩ | ⟨ne, h1⟩
    · rcases hsole op h f p e h2 h3 with ⟨op0, h0, f0, rfl, h5, h6⟩ | h5
      · exact V.alone t' op0 h0 f0 p ht h5 h6 i k h4 hk
      · exact h5 i k h4 hk
    · exact V.alone t' op h f p h1 h2 h3 i k h4 hk

/-- The thread is idle then. -/
theorem idle (V : UrcVInv s) {t : Nat} {a : Option (UrcOp α)} {l : List (Nat × Option (UrcOut α))}
    (ht : s.threads[t]? = some a) : UrcVInv { s with threads := s.threads.set t none, log := l } :=
  V.rethread ht (fun _ _ h => by cases h) (fun _ _ _ _ h => by cases h)

/-- Values change. -/
theorem values (V : UrcVInv s) {W : List (α × Bool)} (hl : W.length = s.vals.length)
    (ha : ∀ q, ({ s with vals := W } : UrcSys α).Alive q → s.Alive q) : UrcVInv { s with vals := W } :=
  { some_ := fun c p h => V.some_ c p (by rw [← hl]; exact h)
    empty := fun c p h => V.empty c p (by rw [← hl]; exact h)
    place := fun i p k h => ⟨by have := (V.place i p k h).1; simp only [hl]; exact this, (V.place i p k h).2⟩
    known := V.known, knownF := V.knownF
    spread := fun i p k h hk hp => V.spread i p k h hk (ha p hp)
    alone := V.alone, one := V.one }

end UrcVInv

/-- A handle of the fence of a handle that thread `t` has is with `t`. -/
theorem UrcLInv.mine' (I : UrcLInv n s) {t h h' : Nat} {k : UrcHand} {x : UrcHold}
    (e : s.hands[h]? = some (some (.own t k))) (e' : s.hands[h']? = some (some x)) (hf : x.fen = k.fen) :
    ∃ k', x = .own t k' := by
  rcases I.loc h h' _ x e e' hf.symm with rfl | ⟨t', h1, h2⟩
  · rw [e] at e'
    injection e' with e'
    injection e' with e'
    exact ⟨_, e'.symm⟩
  · have h3 : t = t' := by cases k <;> simp [UrcHold.shared] at h1 <;> exact h1
    subst h3
    cases x with
    | env f => simp [UrcHold.shared] at h2
    | own t' k' =>
      cases k' <;> simp [UrcHold.shared] at h2
      · exact ⟨_, by rw [h2]⟩
      · exact ⟨_, by rw [h2]⟩

namespace UrcVInv

/-- Thread `t` accesses the value of master `p`. -/
theorem touch (V : UrcVInv s) (I : UrcLInv n s) {t h f p : Nat} {k : ArcKind}
    (e : s.hands[h]? = some (some (.own t (.urc f)))) (hF : s.Fen f p)
    (hk : k = .read ∨ k = .write ∧ ∀ g, s.Fen g p → g = f) :
    UrcVInv { s with mem := s.mem.apply t 0 (.touch p k) } := by
  have P := ArcPre.note t p k s.mem
  have hkn : ∀ (h : Nat) (x : UrcHold) i, s.Knows h x i →
      ({ s with mem := s.mem.apply t 0 (.touch p k) } : UrcSys α).Knows h x i :=
    fun h x i hk => knows_mono (s' := { s with mem := s.mem.apply t 0 (.touch p k) }) P.thr_mono P.hnd hk
  refine V.step (hd := s.mem.hnd) P rfl (I.mas f p hF) rfl (fun _ h => h) ?_
    (fun h x q hx hF => ⟨h, x, hx, hF, fun h => h, hkn h x⟩) ?_
    (fun t' op q h1 h2 => Or.inl ⟨op, h1, h2⟩) ?_ (fun q i _ hH => ?_) ?_ (by simp) (by simp)
  · intro e' he
    simp only [List.mem_singleton] at he
    subst he
    rcases hk with rfl | ⟨rfl, -⟩ <;> simp
  · intro e' he hw h' x hx hx' i hi
    simp only [List.mem_singleton] at he
    subst he
    rcases hk with rfl | ⟨rfl, h2⟩
    · cases hw
    · obtain ⟨k', rfl⟩ := I.mine e hx (h2 _ hx')
      exact hi
  · intro t' op h' f' q h1 h2 h3
    refine ⟨fun ne eq => ?_, Or.inl ⟨op, h', f', h1, h2, h3⟩⟩
    subst eq
    have := I.foreign_sole e hF h1 ne h2
    rw [h3] at this
    cases this
  · rcases hH with ⟨h, x, h1, h2, h3, h4⟩ | h1 | h1 | h1
    · exact Or.inl ⟨h, x, h1, h2, h3, hkn h x i h4⟩
    · exact Or.inr (Or.inl h1)
    · exact Or.inr (Or.inr (Or.inl h1))
    · exact Or.inr (Or.inr (Or.inr h1))
  · intro e' _ _ _ i hi
    exact Or.inl ⟨h, _, e, rfl, hF, hi⟩

/-- Thread `t`, which has a handle of fence `f`, changes the counts of `f` and its handles of it. -/
theorem change (V : UrcVInv s) (I : UrcLInv n s) {t h f : Nat} {k : UrcHand}
    (e : s.hands[h]? = some (some (.own t k))) (hk : k.fen = f) {F F' : UrcFence}
    (eF : s.fences[f]? = some (some F)) (hm : F'.master = F.master) {H : List (Option UrcHold)}
    (keep : ∀ (i : Nat) (x : UrcHold), x.fen ≠ f → (H[i]? = some (some x) ↔ s.hands[i]? = some (some x)))
    (cU : ∀ g, g ≠ f → H.countP (UrcHold.strongAt g) = s.nU g)
    (own : ∀ (i : Nat) (x : UrcHold), H[i]? = some (some x) → x.fen = f → ∃ k, x = .own t k)
    (al : 1 ≤ H.countP (UrcHold.strongAt f) → 1 ≤ s.nU f) :
    UrcVInv { s with hands := H, fences := s.fences.set f (some F') } := by
  subst hk
  have hF : ∀ g q, ({ s with hands := H, fences := s.fences.set k.fen (some F') } : UrcSys α).Fen g q ↔
      s.Fen g q := fun g q => UrcLInv.fen_set eF hm
  have hFf : s.Fen k.fen F.master := ⟨F, eF, rfl⟩
  refine V.step (hd := s.mem.hnd) (ArcPre.none t F.master s.mem) rfl (I.mas _ _ hFf) rfl (fun _ h => h)
    (by simp) ?_ (by simp) (fun t' op q h1 h2 => Or.inl ⟨op, h1, h2⟩)
    (fun t' op h' f' q h1 h2 h3 => ⟨fun _ _ => by simp, Or.inl ⟨op, h', f', h1, h2, h3⟩⟩)
    (fun q i _ hH => ?_) (by simp) (by simp) (by simp)
  · intro h' x q hx hx'
    have hx2 := (hF _ _).1 hx'
    by_cases ef : x.fen = k.fen
    · obtain ⟨k', rfl⟩ := own h' x hx ef
      by_cases hs : (UrcHold.own t k').strong = true
      · obtain ⟨h0, x0, e0, e1, e2⟩ := UrcSys.nU_hand
          (al (countP_pos_of _ hx (by simp only [UrcHold.strongAt, hs, ef]; simp)))
        obtain ⟨k0, rfl⟩ := I.mine' e e0 e2
        exact ⟨h0, _, e0, by rw [e2, ← ef]; exact hx2, fun _ => e1, fun i hi => hi⟩
      · exact ⟨h, _, e, by rw [UrcHold.fen_own, ← ef]; exact hx2, fun h => absurd h hs, fun i hi => hi⟩
    · exact ⟨h', x, (keep h' x ef).1 hx, hx2, fun h => h, fun i hi => hi⟩
  · have hz : ∀ g, s.nU g = 0 →
        ({ s with hands := H, fences := s.fences.set k.fen (some F') } : UrcSys α).nU g = 0 := by
      intro g hg
      by_cases eg : g = k.fen
      · subst eg
        by_contra hc
        have := al (by unfold UrcSys.nU at hc; simp only at hc; omega)
        omega
      · show List.countP _ _ = 0
        rw [cU g eg]
        exact hg
    rcases hH with ⟨h0, x0, h1, h2, h3, h4⟩ | h1 | ⟨g, h1, h2⟩ | h1
    · by_cases ef : x0.fen = k.fen
      · obtain ⟨k0, rfl⟩ := I.mine' e h1 ef
        by_cases hc : 1 ≤ H.countP (UrcHold.strongAt k.fen)
        · obtain ⟨h5, x5, e0, e1, e2⟩ := UrcSys.nU_hand
            (s := { s with hands := H, fences := s.fences.set k.fen (some F') }) hc
          obtain ⟨k5, rfl⟩ := own h5 x5 e0 e2
          exact Or.inl ⟨h5, _, e0, e1, (hF _ _).2 (by rw [e2, ← ef]; exact h3), h4⟩
        · refine Or.inr (Or.inr (Or.inl ⟨k.fen, (hF _ _).2 (by rw [← ef]; exact h3), ?_⟩))
          unfold UrcSys.nU
          simp only
          omega
      · exact Or.inl ⟨h0, x0, (keep h0 x0 ef).2 h1, h2, (hF _ _).2 h3, h4⟩
    · exact Or.inr (Or.inl h1)
    · exact Or.inr (Or.inr (Or.inl ⟨g, (hF _ _).2 h1, hz g h2⟩))
    · refine Or.inr (Or.inr (Or.inr ?_))
      have hu : ({ s with hands := H, fences := s.fences.set k.fen (some F') } : UrcSys α).unf q = s.unf q :=
        UrcLInv.fenceOf_set eF hm
      rw [hu]
      exact h1

end UrcVInv
end Lokky
