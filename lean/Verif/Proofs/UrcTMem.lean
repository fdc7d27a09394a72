import Verif.Proofs.UrcTView2

/-! The memory accesses of the `Urc` system of threads. -/

namespace Lokky
variable {α : Type} {n n' mx : Nat} {s : UrcSys α}

/-- The whole invariant. -/
structure UrcTInv (n : Nat) (s : UrcSys α) : Prop where
  L : UrcLInv n s
  V : UrcVInv s

/-! ## No races -/

/-- The thread knows of the creation of master `p`. -/
def UrcSys.Made (s : UrcSys α) (t p : Nat) : Prop := ∀ i : Nat, s.mem.evts[i]? = some (p, .init) → i ∈ s.mem.thr t

/-- The thread knows of all accesses to the value of master `p`. -/
def UrcSys.Full (s : UrcSys α) (t p : Nat) : Prop :=
  ∀ (i : Nat) (k : ArcKind), s.mem.evts[i]? = some (p, k) → k ≠ .atomic → i ∈ s.mem.thr t

namespace UrcVInv

theorem calm (V : UrcVInv s) {t p : Nat} {k : ArcKind}
    (h : ∀ (i : Nat) (k' : ArcKind), s.mem.evts[i]? = some (p, k') → k' ≠ .free → k'.clash k = true →
      i ∈ s.mem.thr t) : s.mem.racy t p k = false := by
  unfold ArcMem.racy
  rw [List.any_eq_false]
  intro i _
  split
  · rename_i q k' he
    intro hc
    simp only [Bool.and_eq_true, beq_iff_eq, Bool.not_eq_true', List.contains_eq_mem, decide_eq_false_iff_not] at hc
    obtain ⟨⟨rfl, h1⟩, h2⟩ := hc
    exact h2 (h i k' he (V.place i q k' he).2 h1)
  · simp

theorem calm_atomic (V : UrcVInv s) {t p : Nat} (h : s.Made t p) : s.mem.racy t p .atomic = false :=
  V.calm fun i k' h1 h2 h3 => by
    cases k' <;> simp [ArcKind.clash] at h3 h2
    exact h i h1

theorem calm_all (V : UrcVInv s) {t p : Nat} {k : ArcKind} (hk : k = .read ∨ k = .write) (h : s.Full t p) :
    s.mem.racy t p k = false :=
  V.calm fun i k' h1 _ h3 => h i k' h1 (by rcases hk with rfl | rfl <;> rintro rfl <;> simp [ArcKind.clash] at h3)

theorem calm_new (V : UrcVInv s) {t : Nat} {k : ArcKind} : s.mem.racy t s.vals.length k = false :=
  V.calm fun i k' h1 _ _ => by
    have := (V.place i _ k' h1).1
    omega

theorem made (V : UrcVInv s) {t h p : Nat} {k : UrcHand} (e : s.hands[h]? = some (some (.own t k)))
    (hF : s.Fen k.fen p) : s.Made t p := fun i hi => V.known i p _ hi (Or.inl rfl) h _ e hF

theorem calm_read (V : UrcVInv s) {t h p : Nat} {k : UrcHand} (e : s.hands[h]? = some (some (.own t k)))
    (hF : s.Fen k.fen p) : s.mem.racy t p .read = false :=
  V.calm fun i k' h1 h2 h3 => by
    refine V.known i p k' h1 ?_ h _ e hF
    cases k' <;> simp [ArcKind.clash] at h3 h2 ⊢

end UrcVInv

/-! ## What the accesses do -/

namespace UrcT

theorem fence_ok {f : Nat} {F : UrcFence} (e : s.fences[f]? = some (some F)) :
    fence f s = .ok F s := by simp [fence, e]

theorem freeFence_ok {f : Nat} {F : UrcFence} (e : s.fences[f]? = some (some F)) :
    freeFence f s = .ok () { s with fences := s.fences.set f none } := by simp [freeFence, e]

theorem data_ok {p : Nat} {v : α} (e : s.vals[p]? = some (v, true)) : data p s = .ok v s := by
  simp [data, e]

theorem touch_ok {t p : Nat} {k : ArcKind} (h : s.mem.racy t p k = false) :
    touch t p k s = .ok () { s with mem := s.mem.apply t 0 (.touch p k) } := by simp [touch, h]

theorem pick_some (V : UrcVInv s) {t p j : Nat} {c : ArcCtr} (hp : p < s.vals.length) :
    ∃ x, (s.mem.msgs c p)[s.mem.pick t c p j]? = some x := by
  have hne := List.length_pos_iff.2 (V.some_ c p hp)
  have : s.mem.pick t c p j < (s.mem.msgs c p).length := by
    unfold ArcMem.pick
    split
    · rename_i h
      simp only [ArcMem.readable, Bool.and_eq_true, decide_eq_true_eq] at h
      exact h.1
    · unfold ArcMem.latest
      omega
  exact ⟨_, List.getElem?_eq_getElem this⟩

theorem load_pre (t p j : Nat) (c : ArcCtr) (acq : Bool) (m : ArcMem) :
    ArcPre t p m (m.apply t j (.load c p acq)) [(p, .atomic)] fun _ => [] :=
  (ArcPre.note t p .atomic m).acquire c p j acq

theorem rmw_pre (t p v j : Nat) (c : ArcCtr) (acq rel : Bool) (m : ArcMem) :
    ∃ w, ArcPre t p m (m.apply t j (.rmw c p v acq rel)) [(p, .atomic)]
        (fun c' => if c' = c then [⟨v, m.evts.length, w⟩] else []) ∧
      (∀ i ∈ m.viewAt c p (m.latest c p), i ∈ w) ∧
      (rel = true → ∀ i ∈ (m.apply t j (.rmw c p v acq rel)).thr t, i ∈ w) ∧
      (acq = true → ∀ i ∈ m.viewAt c p (m.latest c p), i ∈ (m.apply t j (.rmw c p v acq rel)).thr t) := by
  have hv : (m.note t p .atomic).viewAt c p (m.latest c p) = m.viewAt c p (m.latest c p) := rfl
  refine ⟨_, ((ArcPre.note t p .atomic m).acquire c p (m.latest c p) acq).post c rfl, ?_, ?_, ?_⟩
  · intro i hi
    cases rel
    · exact hi
    · exact List.mem_append_left _ hi
  · intro hr i hi
    subst hr
    exact List.mem_append_right _ hi
  · intro ha i hi
    subst ha
    simp only [ArcMem.apply, ArcMem.post, ArcMem.acquire, if_true, ArcMem.learn]
    exact List.mem_append_right _ hi

theorem store_pre (t p v j : Nat) (c : ArcCtr) (rel : Bool) (m : ArcMem) :
    ∃ w, ArcPre t p m (m.apply t j (.store c p v rel)) [(p, .atomic)]
        (fun c' => if c' = c then [⟨v, m.evts.length, w⟩] else []) :=
  ⟨_, (ArcPre.note t p .atomic m).post c rfl⟩

theorem touch_pre (t p j : Nat) (k : ArcKind) (m : ArcMem) :
    ArcPre t p m (m.apply t j (.touch p k)) [(p, k)] fun _ => [] := ArcPre.note t p k m

theorem pre_strong {t p : Nat} {m m' : ArcMem} {es : List (Nat × ArcKind)} {new : ArcCtr → List ArcMsg}
    (P : ArcPre t p m m' es new) (h : new .strong = []) (q : Nat) : m'.msgs .strong q = m.msgs .strong q := by
  by_cases e : q = p
  · subst e; rw [P.msgsAt, h, List.append_nil]
  · exact P.msgs _ _ e

/-- Accesses to the counters do not change who knows of accesses to the value. -/
theorem pre_made {t p t' q : Nat} {m' : ArcMem} {new : ArcCtr → List ArcMsg}
    (P : ArcPre t p s.mem m' [(p, .atomic)] new) (h : s.Made t' q) : ({ s with mem := m' } : UrcSys α).Made t' q := by
  intro i hi
  simp only [P.evts] at hi
  rcases getElem?_append_cases hi with hi | ⟨-, hi⟩
  · exact P.thr_mono t' i (h i hi)
  · simp at hi

theorem pre_full {t p t' q : Nat} {m' : ArcMem} {new : ArcCtr → List ArcMsg}
    (P : ArcPre t p s.mem m' [(p, .atomic)] new) (h : s.Full t' q) : ({ s with mem := m' } : UrcSys α).Full t' q := by
  intro i k hi hk
  simp only [P.evts] at hi
  rcases getElem?_append_cases hi with hi | ⟨-, hi⟩
  · exact P.thr_mono t' i (h i k hi hk)
  · simp at hi
    exact absurd hi.2 hk

end UrcT

namespace UrcTInv
open UrcT

theorem mono (G : UrcTInv n s) (h : n ≤ n') : UrcTInv n' s := ⟨G.L.mono h, G.V⟩

theorem log (G : UrcTInv n s) {l : List (Nat × Option (UrcOut α))} : UrcTInv n { s with log := l } :=
  ⟨G.L.memory fun _ => rfl,
    { some_ := G.V.some_, empty := G.V.empty, place := G.V.place, known := G.V.known, knownF := G.V.knownF
      spread := G.V.spread, alone := G.V.alone, one := G.V.one }⟩

/-- The thread is idle then. -/
theorem idle (G : UrcTInv n s) {t : Nat} {a : Option (UrcOp α)} (ht : s.threads[t]? = some a)
    (ha : ∀ op, a = some op → op.pinned = false) {l : List (Nat × Option (UrcOut α))} :
    UrcTInv n { s with threads := s.threads.set t none, log := l } :=
  UrcTInv.log (s := { s with threads := s.threads.set t none }) (l := l)
    ⟨G.L.rethread ht ha (fun _ h => by cases h), G.V.idle (l := s.log) ht⟩

/-- The thread goes on with something else. -/
theorem goes (G : UrcTInv n s) {t : Nat} {a : Option (UrcOp α)} {op : UrcOp α} (ht : s.threads[t]? = some a)
    (ha : ∀ op, a = some op → op.pinned = false) (ho : UrcOpOk s t op)
    (hl : ∀ q, op.left = some q → s.Made t q)
    (hs : ∀ h f q, op.hand = some (h, f, q) → op.sole = true → s.Full t q) :
    UrcTInv n { s with threads := s.threads.set t (some op) } :=
  ⟨G.L.rethread ht ha (fun _ h => by injection h with h; subst h; exact ho),
    G.V.rethread (l := s.log) ht (fun _ q h h' => by injection h with h; subst h; exact Or.inr (hl q h'))
      (fun _ h f q e h' h'' => by injection e with e; subst e; exact Or.inr (hs h f q h' h''))⟩

/-- Memory changes, but not `strong_fence`, and not by access to values. -/
theorem quiet (G : UrcTInv n s) {t p : Nat} {m' : ArcMem} {new : ArcCtr → List ArcMsg}
    (P : ArcPre t p s.mem m' [(p, .atomic)] new) (hp : p < s.vals.length) (hn : new .strong = []) :
    UrcTInv n { s with mem := m' } :=
  ⟨G.L.memory (l := s.log) (pre_strong P hn), G.V.memory (l := s.log) P hp (by simp) hn⟩

/-- A load. -/
theorem load (G : UrcTInv n s) (ch : UrcChoice α) {t p : Nat} {c : ArcCtr} (acq : Bool) (hp : p < s.vals.length)
    (hm : s.Made t p) :
    ∃ x, (s.mem.msgs c p)[s.mem.pick t c p ch.pos]? = some x ∧
      UrcT.load ch t c p acq s = .ok x.val { s with
        mem := s.mem.apply t (s.mem.pick t c p ch.pos) (.load c p acq) } ∧
      UrcTInv n { s with mem := s.mem.apply t (s.mem.pick t c p ch.pos) (.load c p acq) } := by
  obtain ⟨x, hx⟩ := pick_some G.V (t := t) (c := c) (j := ch.pos) hp
  refine ⟨x, hx, ?_, G.quiet (load_pre t p _ c acq s.mem) hp rfl⟩
  simp [UrcT.load, hx, G.V.calm_atomic hm]

/-- A store to `weak_fence`. -/
theorem store (G : UrcTInv n s) {t p v : Nat} {rel : Bool} (hp : p < s.vals.length) (hm : s.Made t p) :
    UrcT.store t .weak p v rel s = .ok () { s with mem := s.mem.apply t 0 (.store .weak p v rel) } ∧
      UrcTInv n { s with mem := s.mem.apply t 0 (.store .weak p v rel) } := by
  obtain ⟨x, hx⟩ := G.V.last_some (c := .weak) hp
  obtain ⟨w, P⟩ := store_pre t p v 0 .weak rel s.mem
  refine ⟨?_, G.quiet P hp rfl⟩
  simp [UrcT.store, hx, G.V.calm_atomic hm]

/-- `fetch_sub` on `weak_fence`. -/
theorem rmw (G : UrcTInv n s) {t p : Nat} {f : Nat → Nat} {acq : Nat → Bool} {rel : Bool}
    (hp : p < s.vals.length) (hm : s.Made t p) :
    ∃ v m', UrcT.rmw t .weak p f acq rel s = .ok v { s with mem := m' } ∧ UrcTInv n { s with mem := m' } ∧
      ({ s with mem := m' } : UrcSys α).Made t p := by
  obtain ⟨x, hx⟩ := G.V.last_some (c := .weak) hp
  obtain ⟨w, P, -⟩ := rmw_pre t p (f x.val) 0 .weak (acq x.val) rel s.mem
  refine ⟨x.val, _, ?_, G.quiet P hp rfl, pre_made P hm⟩
  simp [UrcT.rmw, hx, G.V.calm_atomic hm]

/-- A compare-and-exchange on `weak_fence`. -/
theorem cas (G : UrcTInv n s) (ch : UrcChoice α) (weak : Bool) {t p u v : Nat} {acq rel : Bool}
    (hp : p < s.vals.length) (hm : s.Made t p) :
    ∃ r m' new, UrcT.cas ch weak t .weak p u v acq rel s = .ok r { s with mem := m' } ∧
      ArcPre t p s.mem m' [(p, .atomic)] new ∧ new .strong = [] := by
  obtain ⟨y, hy⟩ := pick_some G.V (t := t) (c := .weak) (j := ch.pos) hp
  obtain ⟨x, hx⟩ := G.V.last_some (c := .weak) hp
  unfold UrcT.cas
  simp only [hy, hx, G.V.calm_atomic hm, Bool.false_eq_true, if_false]
  split
  · exact ⟨_, _, _, rfl, load_pre t p _ .weak false s.mem, rfl⟩
  · split
    · obtain ⟨w, P, -⟩ := rmw_pre t p v 0 .weak acq rel s.mem
      exact ⟨_, _, _, rfl, P, rfl⟩
    · exact ⟨_, _, _, rfl, load_pre t p _ .weak false s.mem, rfl⟩

/-- A load of `strong_fence` that reads 1 finds out that there is no other fence, and makes everything known. -/
theorem load_one (G : UrcTInv n s) {t h f p j : Nat} {x : ArcMsg}
    (e : s.hands[h]? = some (some (.own t (.urc f)))) (hF : s.Fen f p) (ha : s.Alive p)
    (hc : s.unf p ≤ s.sf p) (hx : (s.mem.msgs .strong p)[s.mem.pick t .strong p j]? = some x) (h1 : x.val = 1) :
    s.sf p = 1 ∧ (∀ g, s.Fen g p → g = f) ∧
      ({ s with mem := s.mem.apply t (s.mem.pick t .strong p j) (.load .strong p true) } : UrcSys α).Full t p := by
  have hl := G.V.latest_one e rfl rfl hF hx h1
  have hx' : (s.mem.msgs .strong p).getLast? = some x := by
    rw [List.getLast?_eq_getElem?, ← hx, hl]
    rfl
  have hsf : s.sf p = 1 := by rw [UrcVInv.sf_last hx', h1]
  refine ⟨hsf, fun g hg => UrcSys.unf_one (by omega) hF hg, ?_⟩
  intro i k hi hk
  simp only [(load_pre t p _ .strong true s.mem).evts] at hi
  rcases getElem?_append_cases hi with hi | ⟨-, hi⟩
  · rcases G.V.acquired G.L e hF ha hc hsf hx' i k hi hk with h3 | h3
    · exact (load_pre t p _ .strong true s.mem).mono i h3
    · rw [hl]
      simp only [ArcMem.apply, ArcMem.acquire, if_true, ArcMem.learn]
      refine List.mem_append_right _ ?_
      have : (s.mem.note t p .atomic).viewAt .strong p (s.mem.latest .strong p) = x.view :=
        ArcMem.viewAt_latest hx'
      rw [this]
      exact h3
  · simp at hi
    exact absurd hi hk

end UrcTInv

/-! ## Values -/

/-- Values change, but not whether they are there. -/
theorem UrcTInv.values (G : UrcTInv n s) {W : List (α × Bool)} (hl : W.length = s.vals.length)
    (ha : ∀ q, ({ s with vals := W } : UrcSys α).Alive q ↔ s.Alive q) : UrcTInv n { s with vals := W } := by
  refine ⟨?_, G.V.values hl fun q => (ha q).1⟩
  have I := G.L
  exact
    { hlen := I.hlen, bound := I.bound, fen := I.fen, mas := fun f p h => by simp only [hl]; exact I.mas f p h
      weakm := I.weakm, loc := I.loc, strong := I.strong, weak := I.weak, weak0 := I.weak0
      alive := fun h x p h1 h2 h3 => (I.alive h x p h1 h2 h3).imp_left (ha p).2
      count := fun p h => I.count p ((ha p).1 h)
      ops := fun t op h => (I.ops t op h).mono (fun h1 f1 p1 eo => ⟨rfl, rfl, rfl, (I.ops t op h).fen h1 f1 p1 eo⟩)
        (fun _ _ _ _ _ _ h => h) (fun _ _ _ _ h => h) (by simp [hl]) (fun _ _ p _ _ => (ha p).1) }

theorem UrcSys.alive_set {p q : Nat} {v x : α} {b : Bool} (e : s.vals[p]? = some (v, true)) :
    ({ s with vals := s.vals.set p (x, b) } : UrcSys α).Alive q ↔ if q = p then b = true else s.Alive q := by
  obtain ⟨hlt, -⟩ := List.getElem?_eq_some_iff.1 e
  unfold UrcSys.Alive
  by_cases h : q = p
  · subst h
    simp [List.getElem?_set_self hlt]
  · simp [h, List.getElem?_set_ne (Ne.symm h)]

end Lokky
