import Verif.Model.ArcMem
import Verif.Proofs.ArcUse

/-! The invariant of `Arc` with its memory orderings, and that steps keep it. -/

namespace Lokky
variable {α : Type} {mx n : Nat} {s : ArcSys α} {m : ArcMem}

open ArcOp ArcSys

/-- Whoever takes handle `h` of object `p` exclusively will know of access `i`. -/
def ArcMem.Knows (m : ArcMem) (s : ArcSys α) (h p i : Nat) : Prop :=
  i ∈ m.hnd h ∨ i ∈ m.ret h ∨
    ∃ (t : Nat) (op : ArcOp α), s.threads[t]? = some (some op) ∧ op.borrowsAt h p = true ∧ i ∈ m.thr t

/-- Access `i` will be known to whoever turns out to have the last handle of object `p`. -/
def ArcMem.Held (m : ArcMem) (s : ArcSys α) (p i : Nat) : Prop :=
  (∃ x, (m.msgs .strong p).getLast? = some x ∧ i ∈ x.view) ∨
  (∃ h, s.hands[h]? = some (some p) ∧ m.Knows s h p i) ∨
  ∃ (t : Nat) (op : ArcOp α), s.threads[t]? = some (some op) ∧ op.holds p = true ∧ i ∈ m.thr t

/-- Some message after message `j` of `strong` of object `p` was stored by an access like that. -/
def ArcMem.Later (m : ArcMem) (p j : Nat) (P : Nat → Prop) : Prop :=
  ∃ (i : Nat) (y : ArcMsg), j < i ∧ (m.msgs .strong p)[i]? = some y ∧ P y.evt

/-- The invariant. -/
structure ArcMemInv (s : ArcSys α) (m : ArcMem) : Prop where
  place : ∀ (i p : Nat) (k : ArcKind), m.evts[i]? = some (p, k) → p < s.objs.length
  freed : ∀ (i p : Nat), m.evts[i]? = some (p, .free) → s.At p fun o => o.freed = true
  knownH : ∀ (i p : Nat) (k : ArcKind), m.evts[i]? = some (p, k) → k = .init ∨ k = .write →
    ∀ h : Nat, s.hands[h]? = some (some p) → i ∈ m.hnd h
  knownT : ∀ (i p : Nat) (k : ArcKind), m.evts[i]? = some (p, k) → k = .init ∨ k = .write →
    ∀ (t : Nat) (op : ArcOp α), s.threads[t]? = some (some op) → op.uses p = true → i ∈ m.thr t
  spread : ∀ (i p : Nat) (k : ArcKind), m.evts[i]? = some (p, k) → 1 ≤ s.own p → m.Held s p i
  alone : ∀ (t : Nat) (op : ArcOp α) p, s.threads[t]? = some (some op) → op.sens p = true →
    ∀ (i : Nat) (k : ArcKind), m.evts[i]? = some (p, k) → i ∈ m.thr t
  msg : ∀ (c : ArcCtr) (p : Nat) (x : ArcMsg), x ∈ m.msgs c p → ∃ k, m.evts[x.evt]? = some (p, k)
  last : ∀ (p : Nat) (o : ArcObj α) c, s.objs[p]? = some o →
    ∃ x, (m.msgs c p).getLast? = some x ∧ x.val = o.count c
  oneH : ∀ (p j : Nat) (x : ArcMsg), (m.msgs .strong p)[j]? = some x → x.val = 1 → j + 1 < (m.msgs .strong p).length →
    ∀ h : Nat, s.hands[h]? = some (some p) → m.Later p j (m.Knows s h p)
  oneT : ∀ (p j : Nat) (x : ArcMsg), (m.msgs .strong p)[j]? = some x → x.val = 1 → j + 1 < (m.msgs .strong p).length →
    ∀ (t : Nat) (op : ArcOp α), s.threads[t]? = some (some op) → op.holds p = true →
      m.Later p j (· ∈ m.thr t)

theorem getElem?_append_cases {β : Type} {l l' : List β} {i : Nat} {x : β}
    (h : (l ++ l')[i]? = some x) : l[i]? = some x ∨ l.length ≤ i ∧ x ∈ l' := by
  by_cases hi : i < l.length
  · rw [List.getElem?_append_left hi] at h
    exact Or.inl h
  · rw [List.getElem?_append_right (by omega)] at h
    exact Or.inr ⟨by omega, List.mem_of_getElem? h⟩

theorem getElem?_append_some {β : Type} {l l' : List β} {i : Nat} {x : β} (h : l[i]? = some x) :
    (l ++ l')[i]? = some x := by
  obtain ⟨hl, -⟩ := List.getElem?_eq_some_iff.1 h
  rw [List.getElem?_append_left hl]
  exact h

/-- A thread that relies on being alone at an object is. -/
theorem ArcInv.sens_alone (I : ArcInv mx n s) {p : Nat} (hL : ¬ s.Lost p) {t : Nat} {op : ArcOp α}
    (ht : s.threads[t]? = some (some op)) (e : op.sens p = true) :
    (∀ h : Nat, s.hands[h]? ≠ some (some p)) ∧
      ∀ (t' : Nat) (op' : ArcOp α), t' ≠ t → s.threads[t']? = some (some op') → op'.uses p = false := by
  have hh : ∀ h : Nat, s.hands[h]? ≠ some (some p) := by
    intro h hh
    have := I.alone_hand hL hh t op ht
    rw [e] at this
    cases this
  refine ⟨hh, fun t' op' ne ht' => ?_⟩
  by_contra hc
  rcases uses_busy (show op'.uses p = true by simpa using hc) with h | h | ⟨h, hb⟩
  · have := I.alone_holds hL ht' h t op (Ne.symm ne) ht
    rw [e] at this
    cases this
  · have := I.alone_ends hL ht' h t op (Ne.symm ne) ht
    rw [e] at this
    cases this
  · exact hh h (I.borrow_hand ht' hb)

/-- Nobody else relies on being alone at an object that a thread works on. -/
theorem ArcInv.uses_alone (I : ArcInv mx n s) {p : Nat} (hL : ¬ s.Lost p) {t : Nat} {op : ArcOp α}
    (ht : s.threads[t]? = some (some op)) (e : op.uses p = true) {t' : Nat} {op' : ArcOp α}
    (ne : t' ≠ t) (ht' : s.threads[t']? = some (some op')) : op'.sens p = false := by
  by_contra hc
  have := (I.sens_alone hL ht' (by simpa using hc)).2 t op (Ne.symm ne) ht
  rw [e] at this
  cases this

/-- How memory changes with a step of thread `t`, which was doing `op` and goes on with `b`, at object `p`;
it makes the accesses `es` and stores the messages `new`. -/
structure ArcDelta (t p : Nat) (op : ArcOp α) (s s' : ArcSys α) (b : Option (ArcOp α)) (m m' : ArcMem)
    (es : List (Nat × ArcKind)) (new : ArcCtr → List ArcMsg) : Prop where
  evts : m'.evts = m.evts ++ es
  at_ : ∀ e ∈ es, e.1 = p
  others : ∀ t', t' ≠ t → m'.thr t' = m.thr t'
  mono : ∀ i, i ∈ m.thr t → i ∈ m'.thr t
  fresh : ∀ i, m.evts.length ≤ i → i < m'.evts.length → i ∈ m'.thr t
  hnd : ∀ h, h < s.hands.length → m'.hnd h = m.hnd h
  hndNew : ∀ h, s.hands.length ≤ h → h < s'.hands.length → m'.hnd h = m'.thr t
  ret : ∀ h i, i ∈ m.ret h → i ∈ m'.ret h
  over : b = none → ∀ h, op.borrows h = true → ∀ i, i ∈ m'.thr t → i ∈ m'.ret h
  msgs : ∀ c q, q ≠ p → m'.msgs c q = m.msgs c q
  msgsAt : ∀ c, m'.msgs c p = m.msgs c p ++ new c
  newEvt : ∀ c x, x ∈ new c → ∃ k, m'.evts[x.evt]? = some (p, k) ∧ x.evt ∈ m'.thr t

theorem count_one_unique {β : Type} [BEq β] [LawfulBEq β] {l : List β} {x : β}
    (h : l.count x = 1) {i j : Nat}
    (hi : l[i]? = some x) (hj : l[j]? = some x) : i = j := by
  induction l generalizing i j with
  | nil => simp at hi
  | cons y l ih =>
    by_cases e : y = x
    · subst e
      have h0 : l.count y = 0 := by simpa using h
      have hn : ∀ k : Nat, l[k]? ≠ some y := fun k hk =>
        (List.count_eq_zero.1 h0) (List.mem_of_getElem? hk)
      cases i with
      | zero =>
        cases j with
        | zero => rfl
        | succ j => exact absurd (by simpa using hj) (hn j)
      | succ i => exact absurd (by simpa using hi) (hn i)
    · have h0 : l.count x = 1 := by simpa [List.count_cons, e] using h
      cases i with
      | zero => simp at hi; exact absurd hi e
      | succ i =>
        cases j with
        | zero => simp at hj; exact absurd hj e
        | succ j => rw [ih h0 (i := i) (j := j) (by simpa using hi) (by simpa using hj)]

theorem borrowsAt_borrows {op : ArcOp α} {h p : Nat} (e : op.borrowsAt h p = true) :
    op.borrows h = true := by
  cases op <;> simp_all [borrowsAt, borrows]

namespace ArcMemInv

/-- A step of thread `t` at object `p`. -/
theorem work (J : ArcMemInv s m) (I : ArcInv mx n s) (hW : s.Whole) {t p g : Nat} {op : ArcOp α}
    {b : Option (ArcOp α)} {o o' : ArcObj α} {log : List (Nat × ArcOut α)} {m' : ArcMem}
    {es : List (Nat × ArcKind)} {new : ArcCtr → List ArcMsg}
    (ht : s.threads[t]? = some (some op)) (ho : s.objs[p]? = some o)
    (D : ArcDelta t p op s (s.upd p o' t b g log) b m m' es new)
    (hmain : op.uses p = true)
    (huse : ∀ q, on (uses q) b = true → op.uses q = true)
    (hhold : ∀ q, on (holds q) b = true → op.holds q = true)
    (hsame : ∀ q, q ≠ p → on (holds q) b = op.holds q)
    (hend : ∀ h q, op.borrowsAt h q = true → on (borrowsAt h q) b = true ∨ b = none)
    (hwrite : ∀ e ∈ es, e.2 ≠ .atomic → e.2 ≠ .read → op.sens p = true)
    (hfree : ∀ e ∈ es, e.2 = .free → o'.freed = true)
    (hfreed : o.freed = true → o'.freed = true)
    (hsens : ∀ q, on (sens q) b = true → op.sens q = true ∨
      q = p ∧ ∀ (i : Nat) (k : ArcKind), m.evts[i]? = some (p, k) → i ∈ m'.thr t)
    (hlast : ∀ c, new c = [] ∧ o'.count c = o.count c ∨ ∃ y, new c = [y] ∧ y.val = o'.count c)
    (hview : ∀ x y, (m.msgs .strong p).getLast? = some x → new .strong = [y] → ∀ i ∈ x.view, i ∈ y.view)
    (hstay : 1 ≤ (s.upd p o' t b g log).own p → on (holds p) b = true ∨ (∃ h, op.borrowsAt h p = true) ∨
      0 < g ∨ ∃ y, new .strong = [y] ∧ ∀ i ∈ m'.thr t, i ∈ y.view)
    (hone : o.strong = 1 → new .strong = [] ∨ (s.upd p o' t b g log).own p = 0 ∨
      b = none ∧ s.own p = 1 ∧ ∃ h, op.borrowsAt h p = true)
    (hgive : 0 < g → op.holds p = true ∨
      new .strong ≠ [] ∧ ∃ h, op.borrowsAt h p = true) :
    ArcMemInv (s.upd p o' t b g log) m' := by
  have hL := hW.not_lost
  have hlt : t < s.threads.length := (List.getElem?_eq_some_iff.1 ht).1
  have hself : (s.upd p o' t b g log).threads[t]? = some b := by
    simp [ArcSys.upd, List.getElem?_set_self hlt]
  have hother : ∀ t', t' ≠ t → (s.upd p o' t b g log).threads[t']? = s.threads[t']? := by
    intro t' ne
    simp [ArcSys.upd, List.getElem?_set_ne (Ne.symm ne)]
  have hhands : ∀ (h q : Nat), s.hands[h]? = some (some q) →
      (s.upd p o' t b g log).hands[h]? = some (some q) := fun h q hh => getElem?_append_some hh
  have hhands' : ∀ (h q : Nat), (s.upd p o' t b g log).hands[h]? = some (some q) →
      s.hands[h]? = some (some q) ∧ m'.hnd h = m.hnd h ∨ q = p ∧ 0 < g ∧ m'.hnd h = m'.thr t := by
    intro h q hh
    have hlt' := (List.getElem?_eq_some_iff.1 hh).1
    rcases getElem?_append_cases hh with h1 | ⟨h1, h2⟩
    · exact Or.inl ⟨h1, D.hnd h (List.getElem?_eq_some_iff.1 h1).1⟩
    · have hm := List.mem_replicate.1 h2
      simp at hm
      exact Or.inr ⟨hm.2, by omega, D.hndNew h h1 hlt'⟩
  have hevt : ∀ (i q : Nat) (k : ArcKind), m'.evts[i]? = some (q, k) → m.evts[i]? = some (q, k) ∨
      m.evts.length ≤ i ∧ (q, k) ∈ es ∧ q = p ∧ i ∈ m'.thr t := by
    intro i q k h
    have hlt' := (List.getElem?_eq_some_iff.1 h).1
    rw [D.evts] at h
    rcases getElem?_append_cases h with h | ⟨h1, h2⟩
    · exact Or.inl h
    · exact Or.inr ⟨h1, h2, D.at_ _ h2, D.fresh i h1 hlt'⟩
  have hthr : ∀ t' i, i ∈ m.thr t' → i ∈ m'.thr t' := by
    intro t' i hi
    by_cases e : t' = t
    · subst e; exact D.mono i hi
    · rw [D.others t' e]; exact hi
  have hfreedObj : ∀ q, s.At q (fun o => o.freed = true) →
      (s.upd p o' t b g log).At q fun o => o.freed = true := by
    rintro q ⟨o2, h2, h3⟩
    by_cases e : q = p
    · subst e
      rw [ho] at h2
      cases h2
      exact ⟨o', ArcInv.upd_at s ho _ _ _ _, hfreed h3⟩
    · exact ⟨o2, by rw [ArcInv.upd_at_ne s _ _ _ _ e]; exact h2, h3⟩
  have hbor : ∀ h q, op.borrowsAt h q = true → q = p := by
    intro h q e
    cases op <;> simp_all [borrowsAt, uses]
  -- what `Knows` says stays so
  have hknow : ∀ h q i, m.Knows s h q i → (h < s.hands.length) →
      m'.Knows (s.upd p o' t b g log) h q i := by
    rintro h q i (h1 | h1 | ⟨t', op', h1, h2, h3⟩) hl
    · exact Or.inl (by rw [D.hnd h hl]; exact h1)
    · exact Or.inr (Or.inl (D.ret h i h1))
    · by_cases e : t' = t
      · subst e
        rw [ht] at h1
        cases h1
        rcases hend h q h2 with h4 | h4
        · cases b with
          | none => simp at h4
          | some op2 => exact Or.inr (Or.inr ⟨t', op2, hself, h4, D.mono i h3⟩)
        · exact Or.inr (Or.inl (D.over h4 h (borrowsAt_borrows h2) i (D.mono i h3)))
      · exact Or.inr (Or.inr ⟨t', op', by rw [hother t' e]; exact h1, h2, by rw [D.others t' e]; exact h3⟩)
  -- what the thread knows is held
  have hmine : 1 ≤ (s.upd p o' t b g log).own p → ∀ i, i ∈ m'.thr t →
      m'.Held (s.upd p o' t b g log) p i := by
    intro hp i hi
    rcases hstay hp with h1 | ⟨h, h1⟩ | h1 | ⟨y, h1, h2⟩
    · cases b with
      | none => simp at h1
      | some op2 => exact Or.inr (Or.inr ⟨t, op2, hself, h1, hi⟩)
    · refine Or.inr (Or.inl ⟨h, hhands h p (I.borrow_hand ht h1), ?_⟩)
      rcases hend h p h1 with h4 | h4
      · cases b with
        | none => simp at h4
        | some op2 => exact Or.inr (Or.inr ⟨t, op2, hself, h4, hi⟩)
      · exact Or.inr (Or.inl (D.over h4 h (borrowsAt_borrows h1) i hi))
    · refine Or.inr (Or.inl ⟨s.hands.length, ?_, ?_⟩)
      · simp [ArcSys.upd, h1]
      · left
        rw [D.hndNew _ (Nat.le_refl _) (by simp [ArcSys.upd]; omega)]
        exact hi
    · left
      exact ⟨y, by rw [D.msgsAt, h1]; simp, h2 i hi⟩
  -- what is held stays so
  have hheld : ∀ q i, m.Held s q i → 1 ≤ (s.upd p o' t b g log).own q →
      m'.Held (s.upd p o' t b g log) q i := by
    rintro q i (⟨x, h1, h2⟩ | ⟨h, h1, h2⟩ | ⟨t', op', h1, h2, h3⟩) hq
    · left
      by_cases e : q = p
      · subst e
        rcases hlast .strong with ⟨h3, -⟩ | ⟨y, h3, -⟩
        · exact ⟨x, by rw [D.msgsAt, h3]; simpa using h1, h2⟩
        · exact ⟨y, by rw [D.msgsAt, h3]; simp, hview x y h1 h3 i h2⟩
      · exact ⟨x, by rw [D.msgs _ _ e]; exact h1, h2⟩
    · exact Or.inr (Or.inl ⟨h, hhands h q h1, hknow h q i h2 (List.getElem?_eq_some_iff.1 h1).1⟩)
    · by_cases e : t' = t
      · subst e
        rw [ht] at h1
        cases h1
        by_cases e' : q = p
        · subst e'
          exact hmine hq i (D.mono i h3)
        · have := hsame q e'
          rw [h2] at this
          cases b with
          | none => simp at this
          | some op2 => exact Or.inr (Or.inr ⟨t', op2, hself, this, D.mono i h3⟩)
      · exact Or.inr (Or.inr ⟨t', op', by rw [hother t' e]; exact h1, h2, by rw [D.others t' e]; exact h3⟩)
  -- the messages of `strong`, old ones that say 1
  have hold : ∀ (q j : Nat) (x : ArcMsg), (m'.msgs .strong q)[j]? = some x → x.val = 1 →
      j + 1 < (m'.msgs .strong q).length →
      (m.msgs .strong q)[j]? = some x ∧ j + 1 < (m.msgs .strong q).length ∨
      q = p ∧ ∃ y, new .strong = [y] ∧ j + 1 = (m.msgs .strong p).length ∧ o.strong = 1 := by
    intro q j x hj hx hlen
    by_cases e : q = p
    · subst e
      rw [D.msgsAt] at hj hlen
      rcases hlast .strong with ⟨h3, -⟩ | ⟨y, h3, -⟩
      · rw [h3, List.append_nil] at hj hlen
        exact Or.inl ⟨hj, hlen⟩
      · rw [h3] at hj hlen
        rcases getElem?_append_cases hj with h4 | ⟨h4, -⟩
        · by_cases h5 : j + 1 < (m.msgs .strong q).length
          · exact Or.inl ⟨h4, h5⟩
          · have h6 := (List.getElem?_eq_some_iff.1 h4).1
            refine Or.inr ⟨rfl, y, h3, by omega, ?_⟩
            obtain ⟨z, h7, h8⟩ := J.last q o .strong ho
            rw [List.getLast?_eq_getElem?, show (m.msgs .strong q).length - 1 = j by omega, h4] at h7
            cases h7
            exact h8.symm.trans hx
        · simp at hlen
          omega
    · rw [D.msgs _ _ e] at hj hlen
      exact Or.inl ⟨hj, hlen⟩
  have hlater : ∀ q j (P Q : Nat → Prop), m.Later q j P → (∀ i, P i → Q i) → m'.Later q j Q := by
    rintro q j P Q ⟨i, y, h1, h2, h3⟩ hPQ
    refine ⟨i, y, h1, ?_, hPQ _ h3⟩
    by_cases e : q = p
    · subst e
      rw [D.msgsAt]
      exact getElem?_append_some h2
    · rw [D.msgs _ _ e]
      exact h2
  have hnewest : ∀ j y, new .strong = [y] → j + 1 ≤ (m.msgs .strong p).length → ∀ P : Nat → Prop,
      P y.evt → m'.Later p j P := by
    intro j y h1 h2 P hP
    refine ⟨(m.msgs .strong p).length, y, by omega, ?_, hP⟩
    rw [D.msgsAt, h1]
    simp
  refine ⟨?_, ?_, ?_, ?_, ?_, ?_, ?_, ?_, ?_, ?_⟩
  · intro i q k h
    have hl : (s.upd p o' t b g log).objs.length = s.objs.length := by simp [ArcSys.upd]
    rw [hl]
    rcases hevt i q k h with h | ⟨-, -, rfl, -⟩
    · exact J.place i q k h
    · exact (List.getElem?_eq_some_iff.1 ho).1
  · intro i q h
    rcases hevt i q _ h with h | ⟨-, h1, rfl, -⟩
    · exact hfreedObj q (J.freed i q h)
    · exact ⟨o', ArcInv.upd_at s ho _ _ _ _, hfree _ h1 rfl⟩
  · intro i q k h hk h' hh
    rcases hevt i q k h with h | ⟨-, h1, rfl, h3⟩
    · rcases hhands' h' q hh with ⟨h4, h5⟩ | ⟨rfl, -, h5⟩
      · rw [h5]
        exact J.knownH i q k h hk h' h4
      · rw [h5]
        exact D.mono i (J.knownT i q k h hk t op ht hmain)
    · rcases hhands' h' q hh with ⟨h4, h5⟩ | ⟨-, -, h5⟩
      · have := hwrite _ h1 (by rcases hk with rfl | rfl <;> simp) (by rcases hk with rfl | rfl <;> simp)
        exact absurd h4 ((I.sens_alone (hL q) ht this).1 h')
      · rw [h5]
        exact h3
  · intro i q k h hk t' op' ht' hu
    by_cases e : t' = t
    · subst e
      rw [hself] at ht'
      cases ht'
      rcases hevt i q k h with h | ⟨-, h1, rfl, h3⟩
      · exact D.mono i (J.knownT i q k h hk t' op ht (huse q hu))
      · exact h3
    · rw [hother t' e] at ht'
      rw [D.others t' e]
      rcases hevt i q k h with h | ⟨-, h1, rfl, h3⟩
      · exact J.knownT i q k h hk t' op' ht' hu
      · have := hwrite _ h1 (by rcases hk with rfl | rfl <;> simp) (by rcases hk with rfl | rfl <;> simp)
        rw [(I.sens_alone (hL q) ht this).2 t' op' e ht'] at hu
        cases hu
  · intro i q k h hq
    rcases hevt i q k h with h | ⟨-, h1, rfl, h3⟩
    · refine hheld q i (J.spread i q k h ?_) hq
      by_cases e : q = p
      · subst e
        by_contra hc
        have h1 := ArcInv.upd_own s (p := q) ht o' b g log
        have h2 : on (holds q) b = true → False := by
          intro h2
          have := ArcInv.own_pos_of_holds ht (hhold q h2)
          omega
        have h3 : on (holds q) b = false := by simpa using h2
        have h4 : 0 < g := by
          rw [h3] at h1
          simp at h1
          omega
        rcases hgive h4 with h5 | ⟨-, h', h5⟩
        · have := ArcInv.own_pos_of_holds ht h5
          omega
        · have := ArcInv.own_pos_of_hand (I.borrow_hand ht h5)
          omega
      · have h1 := ArcInv.upd_own_ne s ht o' b g log e
        rw [on_some, hsame q e] at h1
        omega
    · exact hmine hq i h3
  · intro t' op' q ht' hs i k h
    by_cases e : t' = t
    · subst e
      rw [hself] at ht'
      cases ht'
      rcases hevt i q k h with h | ⟨-, h1, rfl, h3⟩
      · rcases hsens q hs with h2 | ⟨rfl, h2⟩
        · exact D.mono i (J.alone t' op q ht h2 i k h)
        · exact h2 i k h
      · exact h3
    · rw [hother t' e] at ht'
      rw [D.others t' e]
      rcases hevt i q k h with h | ⟨-, h1, rfl, h3⟩
      · exact J.alone t' op' q ht' hs i k h
      · rw [I.uses_alone (hL q) ht hmain e ht'] at hs
        cases hs
  · intro c q x hx
    by_cases e : q = p
    · subst e
      rw [D.msgsAt] at hx
      rcases List.mem_append.1 hx with hx | hx
      · obtain ⟨k, hk⟩ := J.msg c q x hx
        exact ⟨k, by rw [D.evts]; exact getElem?_append_some hk⟩
      · obtain ⟨k, hk, -⟩ := D.newEvt c x hx
        exact ⟨k, hk⟩
    · rw [D.msgs _ _ e] at hx
      obtain ⟨k, hk⟩ := J.msg c q x hx
      exact ⟨k, by rw [D.evts]; exact getElem?_append_some hk⟩
  · intro q o2 c h2
    by_cases e : q = p
    · subst e
      rw [ArcInv.upd_at s ho] at h2
      cases h2
      rw [D.msgsAt]
      rcases hlast c with ⟨h3, h4⟩ | ⟨y, h3, h4⟩
      · obtain ⟨x, h5, h6⟩ := J.last q o c ho
        exact ⟨x, by rw [h3]; simpa using h5, by rw [h6, h4]⟩
      · exact ⟨y, by rw [h3]; simp, h4⟩
    · rw [ArcInv.upd_at_ne s _ _ _ _ e] at h2
      rw [D.msgs _ _ e]
      exact J.last q o2 c h2
  · intro q j x hj hx hlen h hh
    rcases hold q j x hj hx hlen with ⟨h1, h2⟩ | ⟨rfl, y, h1, h2, h3⟩
    · rcases hhands' h q hh with ⟨h4, -⟩ | ⟨rfl, h4, h5⟩
      · exact hlater q j _ _ (J.oneH q j x h1 hx h2 h h4) fun i hi =>
          hknow h q i hi (List.getElem?_eq_some_iff.1 h4).1
      · rcases hgive h4 with h6 | h6
        · exact hlater q j _ _ (J.oneT q j x h1 hx h2 t op ht h6) fun i hi =>
            Or.inl (by rw [h5]; exact D.mono i hi)
        · rcases hlast .strong with ⟨h7, -⟩ | ⟨y, h7, -⟩
          · exact absurd h7 h6.1
          · obtain ⟨k, -, h8⟩ := D.newEvt .strong y (by rw [h7]; simp)
            exact hnewest j y h7 (by omega) _ (Or.inl (by rw [h5]; exact h8))
    · obtain ⟨k, -, h8⟩ := D.newEvt .strong y (by rw [h1]; simp)
      refine hnewest j y h1 (by omega) _ ?_
      rcases hone h3 with h9 | h9 | ⟨h9, h10, h', h11⟩
      · rw [h9] at h1
        cases h1
      · have := ArcInv.own_pos_of_hand hh
        omega
      · rcases hhands' h q hh with ⟨h4, -⟩ | ⟨-, -, h5⟩
        · have hb := I.borrow_hand ht h11
          have h12 : s.hands.count (some q) = 1 := by
            have : 1 ≤ s.hands.count (some q) := List.count_pos_iff.2 (List.mem_of_getElem? h4)
            unfold own at h10
            omega
          rw [count_one_unique h12 h4 hb]
          exact Or.inr (Or.inl (D.over h9 h' (borrowsAt_borrows h11) _ h8))
        · exact Or.inl (by rw [h5]; exact h8)
  · intro q j x hj hx hlen t' op' ht' hh
    by_cases e : t' = t
    · subst e
      rw [hself] at ht'
      cases ht'
      rcases hold q j x hj hx hlen with ⟨h1, h2⟩ | ⟨rfl, y, h1, h2, h3⟩
      · exact hlater q j _ _ (J.oneT q j x h1 hx h2 t' op ht (hhold q hh)) fun i hi => D.mono i hi
      · obtain ⟨k, -, h8⟩ := D.newEvt .strong y (by rw [h1]; simp)
        exact hnewest j y h1 (by omega) _ h8
    · have ht2 := ht'
      rw [hother t' e] at ht'
      rcases hold q j x hj hx hlen with ⟨h1, h2⟩ | ⟨rfl, y, h1, h2, h3⟩
      · exact hlater q j _ _ (J.oneT q j x h1 hx h2 t' op' ht' hh) fun i hi => hthr t' i hi
      · rcases hone h3 with h9 | h9 | ⟨h9, h10, h', h11⟩
        · rw [h9] at h1
          cases h1
        · have := ArcInv.own_pos_of_holds ht2 hh
          omega
        · have hb := I.borrow_hand ht h11
          have : 1 ≤ s.hands.count (some q) := List.count_pos_iff.2 (List.mem_of_getElem? hb)
          have := countP_pos_of (on (holds q)) ht' hh
          unfold own at h10
          omega

end ArcMemInv

end Lokky
