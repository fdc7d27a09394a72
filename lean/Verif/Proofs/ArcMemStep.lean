import Verif.Proofs.ArcMem

/-! Loads, read-modify-writes and accesses to the value keep the invariant of `Arc` with its memory
orderings. -/

namespace Lokky
variable {α : Type} {mx n : Nat} {s : ArcSys α} {m : ArcMem}

open ArcOp ArcSys

theorem ArcMem.viewAt_latest {c : ArcCtr} {p : Nat} {x : ArcMsg} (h : (m.msgs c p).getLast? = some x) :
    m.viewAt c p (m.latest c p) = x.view := by
  rw [List.getLast?_eq_getElem?] at h
  simp [ArcMem.viewAt, ArcMem.latest, h]

/-- The state of memory after the step but for handles. -/
structure ArcPre (t p : Nat) (m m1 : ArcMem) (es : List (Nat × ArcKind)) (new : ArcCtr → List ArcMsg) :
    Prop where
  evts : m1.evts = m.evts ++ es
  at_ : ∀ e ∈ es, e.1 = p
  others : ∀ t', t' ≠ t → m1.thr t' = m.thr t'
  mono : ∀ i, i ∈ m.thr t → i ∈ m1.thr t
  fresh : ∀ i, m.evts.length ≤ i → i < m1.evts.length → i ∈ m1.thr t
  hnd : m1.hnd = m.hnd
  ret : m1.ret = m.ret
  msgs : ∀ c q, q ≠ p → m1.msgs c q = m.msgs c q
  msgsAt : ∀ c, m1.msgs c p = m.msgs c p ++ new c
  newEvt : ∀ c x, x ∈ new c → ∃ k, m1.evts[x.evt]? = some (p, k) ∧ x.evt ∈ m1.thr t

theorem ArcPre.delta {t p : Nat} {m1 : ArcMem} {es : List (Nat × ArcKind)}
    {new : ArcCtr → List ArcMsg} (h : ArcPre t p m m1 es new) {op : ArcOp α} {s s' : ArcSys α}
    {b : Option (ArcOp α)} (hb : s'.threads[t]? = some b) :
    ArcDelta t p op s s' b m (m1.close t op s s') es new where
  evts := h.evts
  at_ := h.at_
  others := h.others
  mono := h.mono
  fresh := h.fresh
  hnd i hi := by
    simp only [ArcMem.close]
    rw [if_neg (by omega), h.hnd]
  hndNew i hi hi' := by
    simp only [ArcMem.close]
    rw [if_pos ⟨hi, hi'⟩]
  ret i x hx := by
    simp only [ArcMem.close, hb]
    rw [h.ret]
    cases b with
    | none =>
      by_cases e : borrows i op = true
      · simp only [e, if_true]; exact List.mem_append_left _ hx
      · simp only [e]; exact hx
    | some op' => exact hx
  over e i hi x hx := by
    subst e
    simp only [ArcMem.close, hb, hi, if_true]
    exact List.mem_append_right _ hx
  msgs := h.msgs
  msgsAt := h.msgsAt
  newEvt := h.newEvt

theorem ArcPre.none (t p : Nat) (m : ArcMem) : ArcPre t p m m [] fun _ => [] := by
  refine ⟨by simp, by simp, fun _ _ => rfl, fun _ h => h, fun i h1 h2 => ?_, rfl, rfl, fun _ _ _ => rfl,
    by simp, by simp⟩
  omega

theorem ArcPre.note (t p : Nat) (k : ArcKind) (m : ArcMem) :
    ArcPre t p m (m.note t p k) [(p, k)] fun _ => [] := by
  constructor <;> simp +contextual [ArcMem.note, ArcMem.learn]
  omega

theorem ArcPre.acquire {t p : Nat} {m1 : ArcMem} {es : List (Nat × ArcKind)}
    {new : ArcCtr → List ArcMsg} (h : ArcPre t p m m1 es new) (c : ArcCtr) (q j : Nat) (acq : Bool) :
    ArcPre t p m (m1.acquire t c q j acq) es new := by
  cases acq with
  | false => exact h
  | true =>
    have hm : ∀ i, i ∈ m1.thr t → i ∈ (m1.acquire t c q j true).thr t := by
      intro i hi
      simp [ArcMem.acquire, ArcMem.learn, hi]
    refine ⟨h.evts, h.at_, ?_, fun i hi => hm i (h.mono i hi), fun i h1 h2 => hm i (h.fresh i h1 h2),
      h.hnd, h.ret, h.msgs, h.msgsAt, ?_⟩
    · intro t' ne
      simp [ArcMem.acquire, ArcMem.learn, ne, h.others t' ne]
    · intro c' x hx
      obtain ⟨k, h1, h2⟩ := h.newEvt c' x hx
      exact ⟨k, h1, hm _ h2⟩

theorem ArcPre.post {t p : Nat} {m1 : ArcMem} {k : ArcKind}
    (h : ArcPre t p m m1 [(p, k)] fun _ => []) (c : ArcCtr) {x : ArcMsg} (hx : x.evt = m.evts.length) :
    ArcPre t p m (m1.post c p x) [(p, k)] fun c' => if c' = c then [x] else [] := by
  refine ⟨h.evts, h.at_, h.others, h.mono, h.fresh, h.hnd, h.ret, ?_, ?_, ?_⟩
  · intro c' q hq
    simp [ArcMem.post, hq, h.msgs c' q hq]
  · intro c'
    simp only [ArcMem.post]
    have := h.msgsAt c'
    by_cases e : c' = c
    · subst e
      simp [this]
    · simp [e, this]
  · intro c' y hy
    have e : y = x := by
      by_cases e : c' = c
      · simpa [e] using hy
      · simp [e] at hy
    subst e
    have hev : (m1.post c p y).evts = m.evts ++ [(p, k)] := h.evts
    refine ⟨k, ?_, ?_⟩
    · rw [hev, hx]; simp
    · exact h.fresh _ (by omega) (by rw [h.evts, hx]; simp)

namespace ArcMemInv

/-- Having the only handle and the view of the last message is enough to know of everything. -/
theorem acquired (J : ArcMemInv s m) {t p : Nat} {op : ArcOp α}
    (ht : s.threads[t]? = some (some op)) (hh : op.holds p = true) (how : s.own p = 1) {v : List Nat}
    (hmono : ∀ i, i ∈ m.thr t → i ∈ v)
    (hv : ∀ x, (m.msgs .strong p).getLast? = some x → ∀ i ∈ x.view, i ∈ v) :
    ∀ (i : Nat) (k : ArcKind), m.evts[i]? = some (p, k) → i ∈ v := by
  intro i k h
  have h0 := countP_pos_of (on (holds p)) ht hh
  rcases J.spread i p k h (by omega) with ⟨x, h1, h2⟩ | ⟨h', h1, -⟩ | ⟨t', op', h1, h2, h3⟩
  · exact hv x h1 i h2
  · have : 1 ≤ s.hands.count (some p) := List.count_pos_iff.2 (List.mem_of_getElem? h1)
    unfold own at how
    omega
  · by_cases e : t' = t
    · subst e
      exact hmono i h3
    · have h5 : 2 ≤ s.threads.countP (on (holds p)) := countP_two _ rfl ht h1 e hh h2
      unfold own at how
      omega

end ArcMemInv

/-- What the thread goes on with concerns the same objects. -/
structure ArcGoes (p : Nat) (op : ArcOp α) (b : Option (ArcOp α)) : Prop where
  main : op.uses p = true
  use : ∀ q, on (uses q) b = true → op.uses q = true
  hold : ∀ q, on (holds q) b = true → op.holds q = true
  same : ∀ q, q ≠ p → on (holds q) b = op.holds q
  end_ : ∀ h q, op.borrowsAt h q = true → on (borrowsAt h q) b = true ∨ b = none

namespace ArcMemInv
variable {t p g j : Nat} {op : ArcOp α} {b : Option (ArcOp α)} {o o' : ArcObj α}
  {log : List (Nat × ArcOut α)}

theorem upd_thread (ht : s.threads[t]? = some (some op)) :
    (s.upd p o' t b g log).threads[t]? = some b := by
  have hlt : t < s.threads.length := (List.getElem?_eq_some_iff.1 ht).1
  simp [ArcSys.upd, List.getElem?_set_self hlt]

/-- Loads. -/
theorem work_load (J : ArcMemInv s m) (I : ArcInv mx n s) (hW : s.Whole) {c : ArcCtr} {acq : Bool}
    (ht : s.threads[t]? = some (some op)) (ho : s.objs[p]? = some o) (G : ArcGoes p op b)
    (hsens : ∀ q, on (sens q) b = true → op.sens q = true ∨ q = p ∧ op.holds p = true ∧ s.own p = 1 ∧
      acq = true ∧ c = .strong ∧ j = m.latest .strong p)
    (hstay : on (holds p) b = true ∨ (∃ h, op.borrowsAt h p = true) ∨ 0 < g ∨ op.holds p = false ∧ s.own p = 0)
    (hgive : 0 < g → op.holds p = true) :
    ArcMemInv (s.upd p o t b g log)
      ((m.apply t j (.load c p acq)).close t op s (s.upd p o t b g log)) := by
  have hpre : ArcPre t p m (m.apply t j (.load c p acq)) [(p, .atomic)] fun _ => [] :=
    (ArcPre.note t p .atomic m).acquire c p j acq
  refine J.work I hW ht ho (hpre.delta (upd_thread ht)) G.main G.use G.hold G.same G.end_ (by simp) (by simp) id
    ?_ (fun _ => Or.inl ⟨rfl, rfl⟩) (by simp) ?_ (fun _ => Or.inl rfl) (fun h => Or.inl (hgive h))
  · intro q hq
    rcases hsens q hq with h | ⟨h1, h2, h3, h4, h5, h6⟩
    · exact Or.inl h
    · refine Or.inr ⟨h1, ?_⟩
      refine J.acquired ht h2 h3 (fun i hi => hpre.mono i hi) ?_
      intro x hx i hi
      subst h4 h5 h6
      have hv : (m.note t p .atomic).viewAt .strong p (m.latest .strong p) = x.view :=
        ArcMem.viewAt_latest hx
      simp [ArcMem.close, ArcMem.apply, ArcMem.acquire, ArcMem.learn, hv, hi]
  · intro hp
    rcases hstay with h | h | h | ⟨h, h'⟩
    · exact Or.inl h
    · exact Or.inr (Or.inl h)
    · exact Or.inr (Or.inr (Or.inl h))
    · have h1 := ArcInv.upd_own s (p := p) ht o b g log
      rw [on_some, h, h'] at h1
      cases hb : on (holds p) b with
      | true => exact Or.inl rfl
      | false =>
        rw [hb] at h1
        simp at h1
        exact Or.inr (Or.inr (Or.inl (by omega)))

/-- Accesses to the value, and release of the memory. -/
theorem work_touch (J : ArcMemInv s m) (I : ArcInv mx n s) (hW : s.Whole) {k : ArcKind}
    (ht : s.threads[t]? = some (some op)) (ho : s.objs[p]? = some o) (G : ArcGoes p op b)
    (hs : ∀ c, o'.count c = o.count c)
    (hk : k ≠ .atomic → k ≠ .read → op.sens p = true)
    (hfree : k = .free → o'.freed = true)
    (hfreed : o.freed = true → o'.freed = true)
    (hsens : ∀ q, on (sens q) b = true → op.sens q = true)
    (hstay : on (holds p) b = true ∨ (∃ h, op.borrowsAt h p = true) ∨ 0 < g ∨ op.holds p = false ∧ s.own p = 0)
    (hgive : 0 < g → op.holds p = true) :
    ArcMemInv (s.upd p o' t b g log)
      ((m.apply t j (.touch p k)).close t op s (s.upd p o' t b g log)) := by
  have hpre : ArcPre t p m (m.apply t j (.touch p k)) [(p, k)] fun _ => [] := ArcPre.note t p k m
  refine J.work I hW ht ho (hpre.delta (upd_thread ht)) G.main G.use G.hold G.same G.end_ (by simpa using hk)
    (by simpa using hfree) hfreed (fun q hq => Or.inl (hsens q hq)) (fun c => Or.inl ⟨rfl, hs c⟩) (by simp) ?_
    (fun _ => Or.inl rfl) (fun h => Or.inl (hgive h))
  intro hp
  rcases hstay with h | h | h | ⟨h, h'⟩
  · exact Or.inl h
  · exact Or.inr (Or.inl h)
  · exact Or.inr (Or.inr (Or.inl h))
  · have h1 := ArcInv.upd_own s (p := p) ht o' b g log
    rw [on_some, h, h'] at h1
    cases hb : on (holds p) b with
    | true => exact Or.inl rfl
    | false =>
      rw [hb] at h1
      simp at h1
      exact Or.inr (Or.inr (Or.inl (by omega)))

/-- Steps without access. -/
theorem work_none (J : ArcMemInv s m) (I : ArcInv mx n s) (hW : s.Whole)
    (ht : s.threads[t]? = some (some op)) (ho : s.objs[p]? = some o) (G : ArcGoes p op b)
    (hsens : ∀ q, on (sens q) b = true → op.sens q = true)
    (hstay : on (holds p) b = true ∨ 0 < g) (hgive : 0 < g → op.holds p = true) :
    ArcMemInv (s.upd p o t b g log)
      ((m.apply t j .none).close t op s (s.upd p o t b g log)) := by
  have hpre : ArcPre t p m (m.apply t j .none) [] fun _ => [] := ArcPre.none t p m
  refine J.work I hW ht ho (hpre.delta (upd_thread ht)) G.main G.use G.hold G.same G.end_ (by simp)
    (by simp) id (fun q hq => Or.inl (hsens q hq)) (fun c => Or.inl ⟨rfl, rfl⟩) (by simp) ?_
    (fun _ => Or.inl rfl) (fun h => Or.inl (hgive h))
  intro hp
  rcases hstay with h | h
  · exact Or.inl h
  · exact Or.inr (Or.inr (Or.inl h))

/-- Read-modify-writes of `weak`. -/
theorem work_weak (J : ArcMemInv s m) (I : ArcInv mx n s) (hW : s.Whole) {v : Nat} {acq rel : Bool}
    (ht : s.threads[t]? = some (some op)) (ho : s.objs[p]? = some o) (G : ArcGoes p op b)
    (hs : o'.strong = o.strong) (hv : o'.weak = v) (hf : o'.freed = o.freed)
    (hsens : ∀ q, on (sens q) b = true → op.sens q = true)
    (hstay : on (holds p) b = true ∨ (∃ h, op.borrowsAt h p = true) ∨ 0 < g)
    (hgive : 0 < g → op.holds p = true) :
    ArcMemInv (s.upd p o' t b g log)
      ((m.apply t j (.rmw .weak p v acq rel)).close t op s (s.upd p o' t b g log)) := by
  have hpre := ((ArcPre.note t p .atomic m).acquire .weak p (m.latest .weak p) acq).post .weak
    (x := ⟨v, m.evts.length, if rel then m.viewAt .weak p (m.latest .weak p) ++
      ((m.note t p .atomic).acquire t .weak p (m.latest .weak p) acq).thr t
      else m.viewAt .weak p (m.latest .weak p)⟩) rfl
  refine J.work I hW ht ho (hpre.delta (upd_thread ht)) G.main G.use G.hold G.same G.end_ (by simp)
    (by simp) (by rw [hf]; exact id) (fun q hq => Or.inl (hsens q hq)) ?_ (by simp) ?_
    (fun _ => Or.inl (by simp)) (fun h => Or.inl (hgive h))
  · intro c
    cases c with
    | strong => exact Or.inl ⟨by simp, hs⟩
    | weak => exact Or.inr ⟨_, by simp; rfl, by simp [ArcObj.count, hv]⟩
  · intro hp
    rcases hstay with h | h | h
    · exact Or.inl h
    · exact Or.inr (Or.inl h)
    · exact Or.inr (Or.inr (Or.inl h))

/-- Stores to `weak`. -/
theorem work_store (J : ArcMemInv s m) (I : ArcInv mx n s) (hW : s.Whole) {v : Nat} {rel : Bool}
    (ht : s.threads[t]? = some (some op)) (ho : s.objs[p]? = some o) (G : ArcGoes p op b)
    (hs : o'.strong = o.strong) (hv : o'.weak = v) (hf : o'.freed = o.freed)
    (hsens : ∀ q, on (sens q) b = true → op.sens q = true)
    (hstay : on (holds p) b = true ∨ 0 < g)
    (hgive : 0 < g → op.holds p = true) :
    ArcMemInv (s.upd p o' t b g log)
      ((m.apply t j (.store .weak p v rel)).close t op s (s.upd p o' t b g log)) := by
  have hpre := (ArcPre.note t p .atomic m).post .weak
    (x := ⟨v, m.evts.length, if rel then (m.note t p .atomic).thr t else []⟩) rfl
  refine J.work I hW ht ho (hpre.delta (upd_thread ht)) G.main G.use G.hold G.same G.end_ (by simp)
    (by simp) (by rw [hf]; exact id) (fun q hq => Or.inl (hsens q hq)) ?_ (by simp) ?_
    (fun _ => Or.inl (by simp)) (fun h => Or.inl (hgive h))
  · intro c
    cases c with
    | strong => exact Or.inl ⟨by simp, hs⟩
    | weak => exact Or.inr ⟨_, by simp; rfl, by simp [ArcObj.count, hv]⟩
  · intro hp
    rcases hstay with h | h
    · exact Or.inl h
    · exact Or.inr (Or.inr (Or.inl h))

/-- Read-modify-writes of `strong`. -/
theorem work_strong (J : ArcMemInv s m) (I : ArcInv mx n s) (hW : s.Whole) {v : Nat} {acq rel : Bool}
    (ht : s.threads[t]? = some (some op)) (ho : s.objs[p]? = some o) (G : ArcGoes p op b)
    (hs : o'.strong = v) (hw : o'.weak = o.weak) (hf : o'.freed = o.freed)
    (hsens : ∀ q, on (sens q) b = true → op.sens q = true ∨
      q = p ∧ op.holds p = true ∧ s.own p = 1 ∧ acq = true)
    (hstay : (s.upd p o' t b g log).own p = 0 ∨ (∃ h, op.borrowsAt h p = true) ∨ rel = true)
    (hone : o.strong = 1 → (s.upd p o' t b g log).own p = 0 ∨
      b = none ∧ s.own p = 1 ∧ ∃ h, op.borrowsAt h p = true)
    (hgive : 0 < g → ∃ h, op.borrowsAt h p = true) :
    ArcMemInv (s.upd p o' t b g log)
      ((m.apply t j (.rmw .strong p v acq rel)).close t op s (s.upd p o' t b g log)) := by
  obtain ⟨x, hx, -⟩ := J.last p o .strong ho
  have hvx : m.viewAt .strong p (m.latest .strong p) = x.view := ArcMem.viewAt_latest hx
  have hvx' : (m.note t p .atomic).viewAt .strong p (m.latest .strong p) = x.view :=
    ArcMem.viewAt_latest hx
  have hpre := ((ArcPre.note t p .atomic m).acquire .strong p (m.latest .strong p) acq).post .strong
    (x := ⟨v, m.evts.length, if rel then m.viewAt .strong p (m.latest .strong p) ++
      ((m.note t p .atomic).acquire t .strong p (m.latest .strong p) acq).thr t
      else m.viewAt .strong p (m.latest .strong p)⟩) rfl
  refine J.work I hW ht ho (hpre.delta (upd_thread ht)) G.main G.use G.hold G.same G.end_ (by simp)
    (by simp) (by rw [hf]; exact id) ?_ ?_ ?_ ?_ ?_ ?_
  · intro q hq
    rcases hsens q hq with h | ⟨h1, h2, h3, h4⟩
    · exact Or.inl h
    · refine Or.inr ⟨h1, ?_⟩
      refine J.acquired ht h2 h3 (fun i hi => hpre.mono i hi) ?_
      intro y hy i hi
      rw [hx] at hy
      cases hy
      subst h4
      have : i ∈ ((m.note t p .atomic).acquire t .strong p (m.latest .strong p) true).thr t := by
        simp [ArcMem.acquire, ArcMem.learn, hvx', hi]
      exact this
  · intro c
    cases c with
    | strong => exact Or.inr ⟨_, by simp; rfl, by simp [ArcObj.count, hs]⟩
    | weak => exact Or.inl ⟨by simp, hw⟩
  · intro y z hy hz i hi
    rw [hx] at hy
    cases hy
    simp at hz
    subst hz
    simp only [hvx]
    split
    · exact List.mem_append_left _ hi
    · exact hi
  · intro hp
    rcases hstay with h | h | h
    · omega
    · exact Or.inr (Or.inl h)
    · subst h
      refine Or.inr (Or.inr (Or.inr ⟨_, by simp; rfl, ?_⟩))
      intro i hi
      simp only [if_true]
      exact List.mem_append_right _ hi
  · intro h1
    rcases hone h1 with h | h
    · exact Or.inr (Or.inl h)
    · exact Or.inr (Or.inr h)
  · intro hg
    exact Or.inr ⟨by simp, hgive hg⟩

end ArcMemInv

end Lokky
