import Verif.Props.Sending

/-!
# Values shared between threads stay as long as a thread has a handle

Calls are single steps here and counts are exact, so this is about calls that do not race with each other; C130 says which
programs have no races. Interleaved steps of one kind of handle are the subject of C57, C73 and C132.
-/

namespace Lokky

variable {P P' : TSys} {t u : Nat} {T : Ty} {v : TVal}

/-- The value does not dangle: it is plain data, or its object was not given back. -/
def TSys.Points (P : TSys) (v : TVal) : Prop := ∀ a, v = .ptr a → (P.node a).isSome

/-- Nothing dangles: neither what threads hold nor what is inside objects. -/
def TSys.There (P : TSys) : Prop :=
  (∀ h, some h ∈ P.hands → P.Points h.val) ∧ ∀ f w, P.load f = some w → P.Points w

theorem TSys.Points.num (P : TSys) (n : Int) : P.Points (.num n) := by rintro a ⟨⟩

theorem TSys.There.hand (h : P.There) {i : Nat} (e : P.hand t i = some (T, v)) : P.Points v := h.1 _ (hand_mem e)

theorem TSys.There.take (h : P.There) (i : Nat) : (P.take i).There := by
  refine ⟨fun x hx => ?_, h.2⟩
  rcases List.mem_or_eq_of_mem_set hx with hx | hx
  · exact h.1 _ hx
  · cases hx

theorem TSys.There.give (h : P.There) (hv : P.Points v) : (P.give t T v).There := by
  refine ⟨fun x hx => ?_, h.2⟩
  simp only [TSys.give, List.mem_append, List.mem_singleton, Option.some.injEq] at hx
  rcases hx with hx | rfl
  · exact h.1 _ hx
  · exact hv

theorem node_make {x a : Nat} (ha : a < P.heap.length) : (P.make x v).node a = P.node a := by
  simp [TSys.make, TSys.node, List.getElem?_append_left ha]

theorem node_lt {a : Nat} (h : (P.node a).isSome) : a < P.heap.length := by
  by_contra hn
  simp [TSys.node, List.getElem?_eq_none (by omega : P.heap.length ≤ a)] at h

theorem TSys.Points.make {x : Nat} {w : TVal} (h : P.Points v) : (P.make x w).Points v := by
  intro a e
  rw [node_make (node_lt (h a e))]
  exact h a e

theorem TSys.There.make {x : Nat} (h : P.There) (hv : P.Points v) : (P.make x v).There := by
  refine ⟨fun y hy => (h.1 y hy).make, fun f w hw => ?_⟩
  by_cases hf : f < P.heap.length
  · rw [load_make hf] at hw
    exact (h.2 f w hw).make
  · by_cases hf' : f = P.heap.length
    · subst hf'
      rw [load_new] at hw
      cases hw
      exact hv.make
    · exfalso
      have hlt := node_lt (P := P.make x v) (a := f) (by
        simp only [TSys.load] at hw
        cases e : (P.make x v).node f with
        | none => simp [e] at hw
        | some _ => rfl)
      simp only [TSys.make, List.length_append, List.length_singleton] at hlt
      omega

theorem points_new {x : Nat} {w : TVal} : (P.make x w).Points (.ptr P.heap.length) := by
  rintro a ⟨⟩
  simp [TSys.make, TSys.node]

theorem load_mem {f : Nat} {w : TVal} (h : P.load f = some w) : ∃ n, some n ∈ P.heap ∧ n.content = w := by
  simp only [TSys.load, TSys.node] at h
  cases e : P.heap[f]? with
  | none => simp [e] at h
  | some o =>
    cases o with
    | none => simp [e] at h
    | some n =>
      simp only [e, Option.join_some, Option.map_some, Option.some.injEq] at h
      exact ⟨n, List.mem_of_getElem? e, h⟩

theorem hand_at {i : Nat} (h : P.hand t i = some (T, v)) : P.hands[i]? = some (some ⟨t, T, v⟩) := by
  unfold TSys.hand at h
  cases e : P.hands[i]? with
  | none => simp [e] at h
  | some o =>
    cases o with
    | none => simp [e] at h
    | some x =>
      simp only [e, Option.join_some] at h
      split at h
      · next ht =>
        obtain ⟨x1, x2, x3⟩ := x
        simp only [Option.some.injEq, Prod.mk.injEq] at h
        obtain ⟨rfl, rfl⟩ := h
        simp only at ht
        rw [ht]
      · cases h

/-- If a handle is the only reference to an object, nothing refers to the object without it. -/
theorem refs_one {i a : Nat} (e : P.hand t i = some (T, .ptr a)) (h1 : P.refs a = 1) :
    (∀ h, some h ∈ (P.take i).hands → h.val ≠ .ptr a) ∧ ∀ f, P.load f ≠ some (.ptr a) := by
  have hi := hand_at e
  obtain ⟨hlt, hg⟩ := List.getElem?_eq_some_iff.mp hi
  have hsplit : P.hands = P.hands.take i ++ some ⟨t, T, .ptr a⟩ :: P.hands.drop (i + 1) := by
    rw [← hg, List.getElem_cons_drop, List.take_append_drop]
  have hset : (P.take i).hands = P.hands.take i ++ none :: P.hands.drop (i + 1) := by
    simp only [TSys.take]
    rw [List.set_eq_take_append_cons_drop, if_pos hlt]
  have hc : (P.take i).hands.countP (fun h => h.any (·.val == .ptr a)) + 1
      = P.hands.countP (fun h => h.any (·.val == .ptr a)) := by
    rw [hset]
    conv_rhs => rw [hsplit]
    simp only [List.countP_append, List.countP_cons]
    simp
    omega
  unfold TSys.refs at h1
  constructor
  · intro h hm hv
    have : 0 < (P.take i).hands.countP (fun h => h.any (·.val == .ptr a)) :=
      List.countP_pos_iff.mpr ⟨_, hm, by simp [hv]⟩
    omega
  · intro f hf
    obtain ⟨n, hn, hc'⟩ := load_mem hf
    have : 0 < P.heap.countP (fun n => n.any (·.content == .ptr a)) :=
      List.countP_pos_iff.mpr ⟨_, hn, by simp [hc']⟩
    omega

theorem node_free {a b : Nat} (h : b ≠ a) : ({ P with heap := P.heap.set a none } : TSys).node b = P.node b := by
  simp [TSys.node, Ne.symm h]

/-- Giving back an object that only one handle refers to leaves nothing dangling. -/
theorem TSys.There.free (h : P.There) {i a : Nat} (e : P.hand t i = some (T, .ptr a)) (h1 : P.refs a = 1) :
    (({ P with heap := P.heap.set a none } : TSys).take i).There := by
  obtain ⟨r1, r2⟩ := refs_one e h1
  refine ⟨fun x hx b hb => ?_, fun f w hw b hb => ?_⟩
  · have hne : b ≠ a := fun hba => r1 x hx (by rw [hb, hba])
    change (({ P with heap := P.heap.set a none } : TSys).node b).isSome = true
    rw [node_free hne]
    exact (h.take i).1 x hx b hb
  · have hw' : P.load f = some w := load_free (a := a) hw
    have hne : b ≠ a := fun hba => r2 f (by rw [hw', hb, hba])
    change (({ P with heap := P.heap.set a none } : TSys).node b).isSome = true
    rw [node_free hne]
    exact h.2 f w hw' b hb

theorem node_set {a b : Nat} {nd nd' : TNode} (hn : P.node a = some nd) :
    ({ P with heap := P.heap.set a (some nd') } : TSys).node b = if b = a then some nd' else P.node b := by
  have hlt := node_lt (P := P) (a := a) (by simp [hn])
  simp only [TSys.node, List.getElem?_set]
  by_cases h : b = a
  · subst h; simp [hlt]
  · simp [h, Ne.symm h]

theorem There.step (h : P.There) {c : TCmd} (hs : P.step t c = some P') : P'.There := by
  cases c with
  | num n => cases hs; exact h.give (.num _ _)
  | cell n => cases hs; exact h.give (.num _ _)
  | newRc i =>
    simp only [TSys.step] at hs
    split at hs
    · next T v e =>
      cases hs
      exact ((h.take i).make (v := v) (h.hand e)).give points_new
    · cases hs
  | newArc i =>
    simp only [TSys.step] at hs
    split at hs
    · next T v e =>
      cases hs
      exact ((h.take i).make (v := v) (h.hand e)).give points_new
    · cases hs
  | newUrc i =>
    simp only [TSys.step] at hs
    split at hs
    · next T v e =>
      cases hs
      refine (((h.take i).make (v := v) (h.hand e)).make (points_new (P := P.take i))).give ?_
      have := points_new (P := (P.take i).make t v) (x := t) (w := .ptr P.heap.length)
      simpa [TSys.make, TSys.take] using this
    · cases hs
  | clone i =>
    simp only [TSys.step] at hs
    split at hs
    · next T a e => cases hs; exact h.give (h.hand e)
    · cases hs
  | inner i =>
    simp only [TSys.step] at hs
    split at hs
    · split at hs
      · split at hs
        · next b hb => cases hs; exact h.give (h.2 _ _ hb)
        · cases hs
      · cases hs
    · cases hs
  | get i =>
    simp only [TSys.step] at hs
    split at hs
    · split at hs
      · cases hs; exact h
      · cases hs
    · cases hs
  | set i n =>
    simp only [TSys.step] at hs
    split at hs
    · split at hs
      · split at hs
        · rename_i a _ _ nd hn
          cases hs
          have up : ∀ w : TVal, P.Points w →
              ({ P with heap := P.heap.set a (some { nd with content := .num n }) } : TSys).Points w := by
            intro w hw b hb
            rw [node_set hn]
            split
            · rfl
            · exact hw b hb
          refine ⟨fun x hx => up _ (h.1 x hx), fun f w hw => ?_⟩
          simp only [TSys.load] at hw
          rw [node_set hn] at hw
          split at hw
          · cases hw; exact .num _ _
          · exact up _ (h.2 f w hw)
        · cases hs
      · cases hs
    · cases hs
  | drop i =>
    simp only [TSys.step] at hs
    split at hs
    · next T a e =>
      split at hs
      · next h1 =>
        split at hs
        · next nd hn =>
          cases hs
          refine (h.free e h1).give fun b hb => ?_
          have hl : P.load a = some nd.content := by simp [TSys.load, hn]
          have hne : b ≠ a := fun hba => (refs_one e h1).2 a (by rw [hl, hb, hba])
          change (({ P with heap := P.heap.set a none } : TSys).node b).isSome = true
          rw [node_free hne]
          exact h.2 a _ hl b hb
        · cases hs
      · cases hs; exact h.take i
    · next T f e =>
      split at hs
      · next h1 => cases hs; exact h.free e h1
      · cases hs; exact h.take i
    · cases hs; exact h.take i
    · cases hs
  | send i u =>
    simp only [TSys.step] at hs
    split at hs
    · next T v e =>
      split at hs
      · cases hs; exact (h.take i).give (h.hand e)
      · cases hs
    · cases hs
  | envelop i u =>
    simp only [TSys.step] at hs
    split at hs
    · next T a e => cases hs; exact h.give (h.hand e)
    · next T f e =>
      split at hs
      · next a ha => cases hs; exact (h.make (h.2 _ _ ha)).give points_new
      · cases hs
    · cases hs

/-- C133: whatever threads do with values and handles, sending them or putting them into envelopes: the object of a handle that a thread holds, and of one inside another object, was
not given back. -/
theorem C133_there_partial {prog : List (Nat × TCmd)} (hr : TSys.init.run prog = some P) :
    (∀ t i T a, P.hand t i = some (T, .ptr a) → ∃ n, P.node a = some n) ∧
    ∀ f a, P.load f = some (.ptr a) → ∃ n, P.node a = some n := by
  have key : ∀ (prog : List (Nat × TCmd)) (Q : TSys), Q.There → Q.run prog = some P → P.There := by
    intro prog
    induction prog with
    | nil => intro Q h hr; cases hr; exact h
    | cons c cs ih =>
      intro Q h hr
      obtain ⟨t, c⟩ := c
      simp only [TSys.run] at hr
      split at hr
      · next Q' e => exact ih Q' (There.step h e) hr
      · cases hr
  have h := key prog _ ⟨by simp [TSys.init], by simp [TSys.init, TSys.load, TSys.node]⟩ hr
  exact ⟨fun t i T a e => Option.isSome_iff_exists.mp (h.hand e a rfl),
    fun f a e => Option.isSome_iff_exists.mp (h.2 f _ e a rfl)⟩

/-- C133: an object is given back by one call only: `drop` of an `Arc` or `Urc`, the last handle of it. -/
theorem C133_last_partial {c : TCmd} {a : Nat} {n : TNode} (hn : P.node a = some n) (hs : P.step t c = some P')
    (hg : P'.node a = none) :
    ∃ i T, c = .drop i ∧ (P.hand t i = some (.arc T, .ptr a) ∨ P.hand t i = some (.urc T, .ptr a)) ∧
      (∀ j ≠ i, ∀ u S, P.hand u j ≠ some (S, .ptr a)) ∧ ∀ f, P.load f ≠ some (.ptr a) := by
  have hlt := node_lt (P := P) (a := a) (by simp [hn])
  have keep : ∀ (Q : TSys) (e : Q.heap = P.heap), Q.node a ≠ none := by
    intro Q e
    simp only [TSys.node] at hn ⊢
    rw [e, hn]
    simp
  have keepm : ∀ (Q : TSys) (x : Nat) (w : TVal) (e : Q.heap = P.heap ++ [some ⟨w, x⟩]), Q.node a ≠ none := by
    intro Q x w e
    simp only [TSys.node] at hn ⊢
    rw [e, List.getElem?_append_left hlt, hn]
    simp
  have last : ∀ {i b : Nat} {T : Ty}, P.hand t i = some (T, .ptr b) → P.refs b = 1 →
      (∀ j ≠ i, ∀ u S, P.hand u j ≠ some (S, .ptr b)) ∧ ∀ f, P.load f ≠ some (.ptr b) := by
    intro i b T e h1
    obtain ⟨r1, r2⟩ := refs_one e h1
    refine ⟨fun j hj u S hu => ?_, r2⟩
    have := hand_at hu
    have hm : (P.take i).hands[j]? = some (some ⟨u, S, .ptr b⟩) := by
      simp [TSys.take, Ne.symm hj, this]
    exact r1 _ (List.mem_of_getElem? hm) rfl
  have freed : ∀ {b : Nat}, ({ P with heap := P.heap.set b none } : TSys).node a = none → b = a := by
    intro b hb
    by_contra hne
    rw [node_free (Ne.symm hne), hn] at hb
    cases hb
  cases c with
  | drop i =>
    simp only [TSys.step] at hs
    split at hs
    · next T b e =>
      split at hs
      · next h1 =>
        split at hs
        · next nd hnd =>
          cases hs
          obtain rfl := freed hg
          exact ⟨i, T, rfl, .inl e, last e h1⟩
        · cases hs
      · cases hs; exact absurd hg (keep _ rfl)
    · next T b e =>
      split at hs
      · next h1 =>
        cases hs
        obtain rfl := freed hg
        exact ⟨i, T, rfl, .inr e, last e h1⟩
      · cases hs; exact absurd hg (keep _ rfl)
    · cases hs; exact absurd hg (keep _ rfl)
    · cases hs
  | num n => cases hs; exact absurd hg (keep _ rfl)
  | cell n => cases hs; exact absurd hg (keep _ rfl)
  | newRc i =>
    simp only [TSys.step] at hs
    split at hs
    · cases hs; exact absurd hg (keepm _ _ _ rfl)
    · cases hs
  | newArc i =>
    simp only [TSys.step] at hs
    split at hs
    · cases hs; exact absurd hg (keepm _ _ _ rfl)
    · cases hs
  | newUrc i =>
    simp only [TSys.step] at hs
    split at hs
    · cases hs
      refine absurd hg ?_
      simp only [TSys.node, TSys.give, TSys.make, TSys.take] at hn ⊢
      rw [List.append_assoc, List.getElem?_append_left hlt, hn]
      simp
    · cases hs
  | clone i =>
    simp only [TSys.step] at hs
    split at hs
    · cases hs; exact absurd hg (keep _ rfl)
    · cases hs
  | inner i =>
    simp only [TSys.step] at hs
    split at hs
    · split at hs
      · split at hs
        · cases hs; exact absurd hg (keep _ rfl)
        · cases hs
      · cases hs
    · cases hs
  | get i =>
    simp only [TSys.step] at hs
    split at hs
    · split at hs
      · cases hs; exact absurd hg (keep _ rfl)
      · cases hs
    · cases hs
  | set i n =>
    simp only [TSys.step] at hs
    split at hs
    · split at hs
      · split at hs
        · next hnd =>
          cases hs
          rw [node_set hnd] at hg
          split at hg
          · cases hg
          · rw [hn] at hg; cases hg
        · cases hs
      · cases hs
    · cases hs
  | send i u =>
    simp only [TSys.step] at hs
    split at hs
    · split at hs
      · cases hs; exact absurd hg (keep _ rfl)
      · cases hs
    · cases hs
  | envelop i u =>
    simp only [TSys.step] at hs
    split at hs
    · cases hs; exact absurd hg (keep _ rfl)
    · split at hs
      · cases hs; exact absurd hg (keepm _ _ _ rfl)
      · cases hs
    · cases hs

/-- C133: the last `Arc` gives the object back and leaves the value to be dropped by the thread that drops the `Arc`. -/
theorem C133_value_partial {i a : Nat} {n : TNode} (e : P.hand t i = some (.arc T, .ptr a)) (hn : P.node a = some n)
    (hh : ∀ j ≠ i, ∀ u S, P.hand u j ≠ some (S, .ptr a)) (hl : ∀ f, P.load f ≠ some (.ptr a)) :
    ∃ P', P.step t (.drop i) = some P' ∧ P'.node a = none ∧ P'.hand t i = none ∧
      P'.hand t P.hands.length = some (T, n.content) := by
  have hi := hand_at e
  obtain ⟨hlt, hg⟩ := List.getElem?_eq_some_iff.mp hi
  have h1 : P.refs a = 1 := by
    have hz : P.heap.countP (fun n => n.any (·.content == .ptr a)) = 0 := by
      rw [List.countP_eq_zero]
      intro o ho hc
      cases o with
      | none => simp at hc
      | some m =>
        obtain ⟨f, hf, hf'⟩ := List.getElem_of_mem ho
        refine hl f ?_
        simp only [TSys.load, TSys.node, List.getElem?_eq_getElem hf, hf', Option.join_some, Option.map_some]
        simpa using hc
    have ho : ∀ l : List (Option THand), (∀ o ∈ l, o.any (·.val == .ptr a) = false) →
        l.countP (fun h => h.any (·.val == .ptr a)) = 0 := by
      intro l h
      rw [List.countP_eq_zero]
      intro o ho hc
      rw [h o ho] at hc
      cases hc
    have hsplit : P.hands = P.hands.take i ++ some ⟨t, .arc T, .ptr a⟩ :: P.hands.drop (i + 1) := by
      rw [← hg, List.getElem_cons_drop, List.take_append_drop]
    have other : ∀ j ≠ i, ∀ o, P.hands[j]? = some o → o.any (·.val == .ptr a) = false := by
      intro j hj o ho
      cases o with
      | none => rfl
      | some m =>
        by_contra hc
        simp only [Option.any_some, Bool.not_eq_false, beq_iff_eq] at hc
        refine hh j hj m.thread m.ty ?_
        simp [TSys.hand, ho, hc]
    unfold TSys.refs
    rw [hz, hsplit, List.countP_append, List.countP_cons, ho, ho]
    · simp
    · intro o ho'
      obtain ⟨j, hj, hj'⟩ := List.getElem_of_mem ho'
      refine other (i + 1 + j) (by omega) o ?_
      rw [← List.getElem?_drop, List.getElem?_eq_getElem hj, hj']
    · intro o ho'
      obtain ⟨j, hj, hj'⟩ := List.getElem_of_mem ho'
      simp only [List.length_take] at hj
      refine other j (by omega) o ?_
      rw [List.getElem_take] at hj'
      rw [List.getElem?_eq_getElem (by omega), hj']
  refine ⟨(({ P with heap := P.heap.set a none } : TSys).take i).give t T n.content,
    by simp only [TSys.step, e, h1, if_pos, hn], ?_, ?_, ?_⟩
  · have hlt' := node_lt (P := P) (a := a) (by simp [hn])
    simp [TSys.node, TSys.give, TSys.take, hlt']
  · simp only [TSys.hand, TSys.give, TSys.take]
    rw [List.getElem?_append_left (by simpa using hlt)]
    simp [hlt]
  · simp [TSys.hand, TSys.give, TSys.take]

/-- Two threads have an `Arc` of an `Arc`; the first drops its handle, the second drops its own, and then the value. -/
example : ∃ P, TSys.init.run [(0, .num 7), (0, .newArc 0), (0, .newArc 1), (0, .clone 2), (0, .send 3 1), (0, .drop 2)]
      = some P ∧ P.hand 1 4 = some (.arc (.arc .int), .ptr 1) ∧ P.node 1 = some ⟨.ptr 0, 0⟩ ∧ P.refs 1 = 1 ∧
    P.accs true 1 (.drop 4) = [⟨.count 1, true, true⟩, ⟨.content 1, true, false⟩, ⟨.alloc 0, true, true⟩] ∧
    ∃ P', P.step 1 (.drop 4) = some P' ∧ P'.node 1 = none ∧ P'.node 0 = some ⟨.num 7, 0⟩ ∧
      P'.hand 1 5 = some (.arc .int, .ptr 0) :=
  ⟨_, rfl, rfl, rfl, rfl, rfl, _, rfl, rfl, rfl, rfl⟩

/-- An `Urc` in an envelope: the fence is read and a new one is made; dropping the last `Urc` of a fence gives the fence back,
and leaves the value. -/
example : ∃ P, TSys.init.run [(0, .num 7), (0, .newUrc 0)] = some P ∧
    P.accs true 0 (.envelop 1 1) = [⟨.content 1, false, false⟩, ⟨.alloc 0, true, true⟩, ⟨.count 0, true, true⟩] ∧
    P.accs true 0 (.drop 1) =
      [⟨.count 1, true, false⟩, ⟨.content 1, true, false⟩, ⟨.alloc 0, true, true⟩, ⟨.count 0, true, true⟩] ∧
    ∃ P', P.step 0 (.envelop 1 1) = some P' ∧ P'.node 2 = some ⟨.ptr 0, 0⟩ ∧ P'.hand 1 2 = some (.urc .int, .ptr 2) ∧
    ∃ P'', P'.step 0 (.drop 1) = some P'' ∧ P''.node 1 = none ∧ P''.node 0 = some ⟨.num 7, 0⟩ ∧
      P''.node 2 = some ⟨.ptr 0, 0⟩ :=
  ⟨_, rfl, rfl, rfl, _, rfl, rfl, rfl, _, rfl, rfl, rfl, rfl⟩

/-- Which types the compiler lets threads send and share. -/
example : Ty.cell.send = true ∧ Ty.cell.sync = false ∧ (Ty.arc .cell).send = false ∧ (Ty.arc .cell).sync = false ∧
    (Ty.rc .int).send = false ∧ (Ty.rc .int).sync = false ∧ (Ty.urc .int).send = false ∧ (Ty.urc .int).sync = false ∧
    (Ty.arc .int).send = true ∧ (Ty.arc .int).sync = true :=
  ⟨rfl, rfl, rfl, rfl, rfl, rfl, rfl, rfl, rfl, rfl⟩

end Lokky
