import Verif.Proofs.ArcGraphRun

/-! C132: `Arc`s inside the values of other `Arc`s. -/

namespace Lokky

variable {mx n : Nat} {calm fixed : Prop} {s s' : GSys}

/-! ## Programs to run -/

/-- A thread begins a call (the allocator has memory or not), or makes a step (a destructor panics or not). -/
inductive GEv
  | call (t : Nat) (grant : Bool) (cmd : GCmd)
  | run (t : Nat) (boom : Bool)

instance instDecidableGLegal (s : GSys) (th : GThread) (cmd : GCmd) : Decidable (cmd.legal s th) := by
  cases cmd <;> simp only [GCmd.legal, GSys.access] <;> infer_instance

/-- Running events one after the other, as long as they are possible. -/
def GSys.play (mx : Nat) : GSys → List GEv → Option GSys
  | s, [] => some s
  | s, .call t grant cmd :: es =>
    match s.threads[t]? with
    | some th =>
      if th.client = true ∧ cmd.legal s th then
        match Graph.call mx t th.ops th.unwinding grant cmd s with
        | .ok _ s' => s'.play mx es
        | _ => none
      else none
    | none => none
  | s, .run t boom :: es =>
    match s.threads[t]? with
    | some ⟨op :: r, u⟩ =>
      match Graph.step mx t r u boom op s with
      | .ok _ s' => s'.play mx es
      | _ => none
    | _ => none

/-- Memory is there, and destructors do not panic. -/
def GEv.quiet : GEv → Bool
  | .call _ grant _ => grant
  | .run _ boom => !boom

/-- Nothing is put into a value that exists already. -/
def GEv.plain : GEv → Bool
  | .call _ _ cmd => !cmd.stores
  | .run _ _ => true

theorem GSys.play_reaches {es : List GEv} (h : GReaches mx calm fixed n s) (e : s.play mx es = some s')
    (hc : calm → es.all GEv.quiet = true) (hf : fixed → es.all GEv.plain = true) :
    GReaches mx calm fixed (n + es.length) s' := by
  induction es generalizing s n with
  | nil => simp only [GSys.play, Option.some.injEq] at e; subst e; exact h
  | cons ev es ih =>
    simp only [List.all_cons, Bool.and_eq_true] at hc hf
    rw [List.length_cons, ← Nat.add_assoc, Nat.add_right_comm]
    cases ev with
    | call t grant cmd =>
      simp only [GSys.play] at e
      split at e
      · rename_i th ht
        split at e
        · rename_i hl
          split at e
          · rename_i s1 e1
            exact ih (h.step (.call t grant cmd ht hl.1 hl.2 e1 (fun c => (hc c).1)
              (fun f => by simpa [GEv.plain] using (hf f).1))) e (fun c => (hc c).2) (fun f => (hf f).2)
          · simp at e
        · simp at e
      · simp at e
    | run t boom =>
      simp only [GSys.play] at e
      split at e
      · rename_i op r u ht
        split at e
        · rename_i s1 e1
          exact ih (h.step (.run t boom ht e1 (fun c => by simpa [GEv.quiet] using (hc c).1))) e
            (fun c => (hc c).2) (fun f => (hf f).2)
        · simp at e
      · simp at e

/-- Two objects hold handles of a third; the program drops all its handles, in two threads at a time. -/
def diamond : List GEv :=
  [.call 0 true (.new []), .call 0 true (.clone 0), .call 0 true (.new [0]), .call 1 true (.new [0]),
   .call 0 true (.drop 1), .call 1 true (.drop 2), .run 0 false, .run 1 false, .run 0 false, .run 1 false,
   .run 0 false, .run 1 false]

/-- … and the steps that remain. -/
def diamondEnd : List GEv :=
  diamond ++ [.run 1 false, .run 1 false, .run 1 false, .run 0 false, .run 0 false, .run 1 false, .run 1 false]

/-- Two objects that hold a handle of each other. -/
def ring : List GEv :=
  [.call 0 true (.new []), .call 0 true (.clone 0), .call 0 true (.new [0]), .call 0 true (.store 0 1),
   .call 0 true (.drop 0), .run 0 false]

/-! ## The theorems -/

/-- No call and no step of any program touches memory that was released or a value that is gone. The only other way
to end is that a destructor panics during a panic. -/
theorem C132_safe (h : GReaches mx calm fixed n s) (hn : n ≤ mx) (t : Nat) (th : GThread)
    (ht : s.threads[t]? = some th) :
    (∀ grant (cmd : GCmd), cmd.legal s th → ∃ s', Graph.call mx t th.ops th.unwinding grant cmd s = .ok () s') ∧
    (∀ op r boom, th.ops = op :: r → (∃ s', Graph.step mx t r th.unwinding boom op s = .ok () s') ∨
      Graph.step mx t r th.unwinding boom op s = .abort ∧ th.unwinding = true ∧ boom = true) := by
  have hi := (h.all (by omega)).1
  refine ⟨fun grant cmd hl => ?_, fun op r boom e => ?_⟩
  · obtain ⟨s1, e1, -⟩ := Graph.inv_call (mx := mx) (grant := grant) hi hn ht hl
    exact ⟨s1, e1⟩
  · exact Graph.step_fine hi (by rw [ht]; cases th; simp only at e; rw [e])

/-- Whatever the program can get at is there, also while other threads are in the middle of calls. -/
theorem C132_there (h : GReaches mx calm fixed n s) (hn : n ≤ mx) {p : Nat} (hp : s.Leads (s.hands ++ s.lost) p) :
    ∃ o, s.objs[p]? = some o ∧ o.alive = true ∧ o.freed = false ∧ o.outs = 0 := by
  have hi := (h.all (by omega)).1
  induction hp with
  | hand hp =>
    rename_i p
    have : 0 < s.hc (· == p) := by
      have : 0 < (s.hands ++ s.lost).countP (· == p) := List.countP_pos_iff.2 ⟨p, hp, by simp⟩
      rw [List.countP_append] at this
      simp only [GSys.hc]; omega
    obtain ⟨o, ho, ha, hf, hou, -⟩ := hi.hand this
    exact ⟨o, ho, ha, hf, hou⟩
  | ref _ hq ih =>
    obtain ⟨o, ho, ha, hf, -⟩ := ih
    rw [Graph.refs_eq ho] at hq
    obtain ⟨o', ho', ha', hf', hou', -⟩ := hi.hand (Graph.refs_hc ho ha hq)
    exact ⟨o', ho', ha', hf', hou'⟩

/-- A destructor has the value for itself: there are no handles of it. It can use what the value holds. -/
theorem C132_destructor (h : GReaches mx calm fixed n s) (hn : n ≤ mx) {t p : Nat} {th : GThread} {r : List GOp}
    (ht : s.threads[t]? = some th) (hf : th.ops = .fin p :: r) :
    ¬ s.Leads (s.hands ++ s.lost) p ∧ (∃ o, s.objs[p]? = some o ∧ o.alive = true ∧ o.freed = false) ∧
      (∀ q ∈ s.refs p, ∃ o, s.objs[q]? = some o ∧ o.alive = true ∧ o.freed = false) ∧
      (∀ t' th' r', s.threads[t']? = some th' → th'.ops = .fin p :: r' → t' = t) := by
  have hi := (h.all (by omega)).1
  have h2 := GSys.thread_ends ht p
  simp only [hf, List.flatMap_cons, GOp.ends, List.count_append, List.count_singleton_self] at h2
  obtain ⟨o, ho, ha, hfr, -, -, he, -, hc⟩ := hi.ending (p := p) (by omega)
  refine ⟨?_, ⟨o, ho, ha, hfr⟩, ?_, ?_⟩
  · intro hl
    have : 0 < s.hc (· == p) := by
      cases hl with
      | hand hp =>
        have : 0 < (s.hands ++ s.lost).countP (· == p) := List.countP_pos_iff.2 ⟨p, hp, by simp⟩
        rw [List.countP_append] at this
        simp only [GSys.hc]; omega
      | ref hq hp =>
        obtain ⟨o', ho', ha', -⟩ := C132_there h hn hq
        rw [Graph.refs_eq ho'] at hp
        exact Graph.refs_hc ho' ha' hp
    omega
  · intro q hq
    rw [Graph.refs_eq ho] at hq
    obtain ⟨o', ho', ha', hf', -⟩ := hi.hand (Graph.refs_hc ho ha hq)
    exact ⟨o', ho', ha', hf'⟩
  · intro t' th' r' ht' hf'
    by_contra hne
    have ht'' : (s.threads.set t ⟨[], false⟩)[t']? = some th' := by
      rw [List.getElem?_set_ne (fun e => hne e.symm)]; exact ht'
    have h3 := countP_flatMap_set (fun th : GThread => th.ops.flatMap GOp.ends) (· == p) ⟨[], false⟩ ht
    have h4 := countP_flatMap_set (fun th : GThread => th.ops.flatMap GOp.ends) (· == p) ⟨[], false⟩ ht''
    simp only [hf, hf', GSys.ends, List.count, List.flatMap_cons, GOp.ends, List.countP_append, List.countP_cons,
      beq_self_eq_true, if_true, List.flatMap_nil, List.countP_nil] at h3 h4 he
    omega

/-- No value is dropped or moved out twice, and one that is gone was. -/
theorem C132_once (h : GReaches mx calm fixed n s) (hn : n ≤ mx) {p : Nat} {o : GObj} (ho : s.objs[p]? = some o) :
    (o.alive = true → o.outs = 0 ∧ o.freed = false) ∧ (o.alive = false → o.outs = 1) := by
  have hi := (h.all (by omega)).1
  exact ⟨fun ha => ⟨(hi.live p o ho ha).2.1, (hi.live p o ho ha).1⟩, fun ha => (hi.dead p o ho ha).2.1⟩

theorem idle_hc (hidle : s.idle) (P : Nat → Bool) :
    s.hc P = s.hands.countP P + s.lost.countP P + (s.objs.flatMap GObj.held).countP P := by
  have : (s.threads.flatMap fun th => th.ops.flatMap GOp.subs) = [] := by
    rw [List.flatMap_eq_nil_iff]
    intro x hx
    rw [hidle x hx]; rfl
  simp only [GSys.hc, this, List.countP_nil, Nat.add_zero]

/-- When all calls are over, every value that is still there is held by the program, was forgotten, or is held by another value
that is still there. -/
theorem C132_held (h : GReaches mx calm fixed n s) (hn : n ≤ mx) (hidle : s.idle) {p : Nat} {o : GObj}
    (ho : s.objs[p]? = some o) (ha : o.alive = true) :
    p ∈ s.hands ∨ p ∈ s.lost ∨ ∃ q o', s.objs[q]? = some o' ∧ o'.alive = true ∧ p ∈ s.refs q := by
  have hi := (h.all (by omega)).1
  have he : s.ends.count p = 0 := by
    have : s.ends = [] := by
      rw [GSys.ends, List.flatMap_eq_nil_iff]
      intro x hx
      rw [hidle x hx]; rfl
    simp [this]
  have hs : 0 < o.strong := by
    by_contra hc
    have := (hi.live p o ho ha).2.2.2.1 (by omega)
    omega
  rw [hi.cnt p o ho, idle_hc hidle] at hs
  by_cases h1 : 0 < s.hands.countP (· == p)
  · obtain ⟨x, hx, e⟩ := List.countP_pos_iff.1 h1
    simp only [beq_iff_eq] at e; subst e; exact .inl hx
  by_cases h2 : 0 < s.lost.countP (· == p)
  · obtain ⟨x, hx, e⟩ := List.countP_pos_iff.1 h2
    simp only [beq_iff_eq] at e; subst e; exact .inr (.inl hx)
  obtain ⟨x, hx, e⟩ := List.countP_pos_iff.1 (show 0 < (s.objs.flatMap GObj.held).countP (· == p) by omega)
  simp only [beq_iff_eq] at e
  subst e
  obtain ⟨o', ho', hx⟩ := List.mem_flatMap.1 hx
  obtain ⟨q, hq⟩ := List.mem_iff_getElem?.1 ho'
  have ha' : o'.alive = true := by
    by_contra hc
    simp [GObj.held, hc] at hx
  simp only [GObj.held, ha', if_true] at hx
  exact .inr (.inr ⟨q, o', hq, ha', by rw [Graph.refs_eq hq]; exact hx⟩)

/-- When all calls are over and values do not hold each other in a circle, the values that are still there are
exactly those that the program can get at, or that were forgotten. -/
theorem C132_exact_partial (h : GReaches mx calm fixed n s) (hn : n ≤ mx) (hidle : s.idle) (hac : s.Acyclic) (p : Nat) :
    (∃ o, s.objs[p]? = some o ∧ o.alive = true) ↔ s.Leads (s.hands ++ s.lost) p := by
  constructor
  · obtain ⟨rank, hr⟩ := hac
    -- ranks grow towards the holders, and there are only finitely many objects
    have key : ∀ k p, (∃ o, s.objs[p]? = some o ∧ o.alive = true) →
        (∀ q o, s.objs[q]? = some o → o.alive = true → rank q ≤ rank p + k) → s.Leads (s.hands ++ s.lost) p := by
      intro k
      induction k with
      | zero =>
        rintro p ⟨o, ho, ha⟩ hk
        rcases C132_held h hn hidle ho ha with h1 | h1 | ⟨q, o', ho', ha', hq⟩
        · exact .hand (List.mem_append_left _ h1)
        · exact .hand (List.mem_append_right _ h1)
        · have := hr q o' ho' ha' p hq
          have := hk q o' ho' ha'
          omega
      | succ k ih =>
        rintro p ⟨o, ho, ha⟩ hk
        rcases C132_held h hn hidle ho ha with h1 | h1 | ⟨q, o', ho', ha', hq⟩
        · exact .hand (List.mem_append_left _ h1)
        · exact .hand (List.mem_append_right _ h1)
        · refine .ref (ih q ⟨o', ho', ha'⟩ ?_) hq
          intro x ox hx hax
          have := hr q o' ho' ha' p hq
          have := hk x ox hx hax
          omega
    intro hp
    have bd : ∃ b, ∀ q, q < s.objs.length → rank q ≤ b := by
      generalize s.objs.length = m
      induction m with
      | zero => exact ⟨0, by simp⟩
      | succ m ih =>
        obtain ⟨b, hb⟩ := ih
        refine ⟨max b (rank m), fun q hq => ?_⟩
        by_cases e : q = m
        · subst e; omega
        · have := hb q (by omega); omega
    obtain ⟨b, hb⟩ := bd
    exact key b p hp (fun q o hq _ => by
      have := hb q (List.getElem?_eq_some_iff.1 hq).1
      omega)
  · intro hp
    obtain ⟨o, ho, ha, -⟩ := C132_there h hn hp
    exact ⟨o, ho, ha⟩

/-- Without putting handles into values that exist already there are no circles. -/
theorem C132_acyclic (h : GReaches mx calm True n s) (hn : n ≤ mx) : s.Acyclic := by
  refine ⟨id, fun p o ho _ q hq => ?_⟩
  rw [Graph.refs_eq ho] at hq
  exact (h.all (by omega)).2.2 trivial p o ho q hq

/-- When all calls are over, the memory of every value that is gone and never had a `Weak` was released; if memory was never refused
and no destructor has panicked. -/
theorem C132_memory_partial (h : GReaches mx True fixed n s) (hn : n ≤ mx) (hidle : s.idle) {p : Nat} {o : GObj}
    (ho : s.objs[p]? = some o) (ha : o.alive = false) (hw : o.weak = 0) : o.freed = true := by
  have hi := (h.all (by omega)).1
  rcases hi.calm trivial p o ho ha hw with h1 | h1
  · exact h1
  · have : s.looks = [] := by
      rw [GSys.looks, List.flatMap_eq_nil_iff]
      intro x hx
      rw [hidle x hx]; rfl
    simp [this] at h1

/-- All calls end: threads that begin no calls make at most so many steps as this, for the values that are there, the handles that these
hold, and the calls that have begun. -/
theorem C132_ends (h : GReaches mx calm fixed n s) (hn : n ≤ mx) {k : Nat} (hr : GRuns mx s k s') :
    k ≤ 2 * (s.objs.filter GObj.alive).length + 2 * ((s.objs.filter GObj.alive).flatMap GObj.refs).length +
      2 * (s.threads.flatMap GThread.ops).length := by
  have hi : GraphInv False n s := by
    have := (h.all (by omega)).1
    exact ⟨this.cnt, this.ref, this.live, this.dead, this.size, fun c => c.elim⟩
  have key : k ≤ s.bound := by
    clear h hn
    induction hr generalizing n with
    | refl => omega
    | step t boom ht e _ ih =>
      rename_i s1 s2 s3 op r u _
      have h1 := Graph.step_bound hi ht e
      have h2 : GraphInv False (n + 1) s2 := by
        cases op with
        | sub p => exact Graph.inv_sub hi ht e
        | fin p => exact Graph.inv_fin hi ht (fun c => c.elim) e
        | glue p => exact Graph.inv_glue hi ht (fun c => c) e
        | look p => exact Graph.inv_look hi ht e
        | free p => exact Graph.inv_free hi ht e
        | unw p => exact Graph.inv_unw hi ht e
      have := ih h2
      omega
  have b1 : ∀ l : List GObj, (l.map GObj.pot).sum =
      2 * (l.filter GObj.alive).length + 2 * ((l.filter GObj.alive).flatMap GObj.refs).length := by
    intro l
    induction l with
    | nil => rfl
    | cons o l ih =>
      by_cases ha : o.alive = true
      · simp only [List.map_cons, List.sum_cons, ih, GObj.pot, ha, if_true, List.filter_cons_of_pos, List.length_cons,
          List.flatMap_cons, List.length_append]
        omega
      · simp only [List.map_cons, List.sum_cons, ih, GObj.pot, ha, Bool.false_eq_true, if_false, not_false_eq_true,
          List.filter_cons_of_neg]
        omega
  have b0 : ∀ l : List GOp, (l.map GOp.wt).sum ≤ 2 * l.length := by
    intro l
    induction l with
    | nil => simp
    | cons a l ih => cases a <;> simp only [List.map_cons, List.sum_cons, GOp.wt, List.length_cons] <;> omega
  have b2 : ∀ l : List GThread, (l.map fun th => (th.ops.map GOp.wt).sum).sum ≤ 2 * (l.flatMap GThread.ops).length := by
    intro l
    induction l with
    | nil => simp
    | cons a l ih =>
      have := b0 a.ops
      simp only [List.map_cons, List.sum_cons, List.flatMap_cons, List.length_append]; omega
  have := b1 s.objs
  have := b2 s.threads
  simp only [GSys.bound] at key
  omega

/-- When a program that puts nothing into existing values has let go of all its handles, all values were dropped or moved out, once, and all
memory was released. -/
theorem C132_gone_partial (h : GReaches mx True True n s) (hn : n ≤ mx) (hidle : s.idle) (hh : s.hands = [])
    (hl : s.lost = []) {p : Nat} {o : GObj} (ho : s.objs[p]? = some o) :
    o.outs = 1 ∧ (o.weak = 0 → o.freed = true) := by
  have ha : o.alive = false := by
    by_contra hc
    have := (C132_exact_partial h hn hidle (C132_acyclic h hn) p).1 ⟨o, ho, by simpa using hc⟩
    rw [hh, hl] at this
    have no : ∀ q, ¬ s.Leads ([] ++ []) q := by
      intro q hq
      induction hq with
      | hand h => simp at h
      | ref _ _ ih => exact ih
    exact no p this
  exact ⟨(C132_once h hn ho).2 ha, C132_memory_partial h hn hidle ho ha⟩

/-- The program has let go of its handles, in two threads. All three values are dropped once and released. -/
example : ∃ s, GReaches 100 True True 19 s ∧ s.idle ∧ s.hands = [] ∧ s.lost = [] ∧ s.objs.length = 3 ∧
    ∀ o ∈ s.objs, o.outs = 1 ∧ o.freed = true := by
  refine ⟨⟨[⟨0, 0, [], false, 1, true⟩, ⟨0, 0, [0], false, 1, true⟩, ⟨0, 0, [0], false, 1, true⟩], [], [],
    [⟨[], false⟩, ⟨[], false⟩]⟩,
    GSys.play_reaches (es := diamondEnd) (GReaches.start 2) (by decide) (by decide) (by decide), ?_⟩
  simp [GSys.idle]

/-- In the middle: both holders have been taken apart; the destructor of the third value runs in the second thread. -/
example : ∃ s th, GReaches 100 True True 12 s ∧ s.threads[1]? = some th ∧ th.ops = [.fin 0, .look 2] ∧ ¬ s.idle := by
  refine ⟨⟨[⟨0, 0, [], true, 0, false⟩, ⟨0, 0, [0], false, 1, false⟩, ⟨0, 0, [0], false, 1, false⟩], [], [],
    [⟨[.look 1], false⟩, ⟨[.fin 0, .look 2], false⟩]⟩, _,
    GSys.play_reaches (es := diamond) (GReaches.start 2) (by decide) (by decide) (by decide), rfl, rfl, ?_⟩
  intro h
  have := h ⟨[.fin 0, .look 2], false⟩ (by decide)
  simp at this

/-- Two objects that hold each other stay, although the program has no handle left. -/
example : ∃ s, GReaches 100 True False 6 s ∧ s.idle ∧ s.hands = [] ∧ s.lost = [] ∧ ¬ s.Acyclic := by
  refine ⟨⟨[⟨1, 0, [1], true, 0, false⟩, ⟨1, 0, [0], true, 0, false⟩], [], [], [⟨[], false⟩]⟩,
    GSys.play_reaches (es := ring) (GReaches.start 1) (by decide) (by decide) (fun h => h.elim), ?_⟩
  refine ⟨by simp [GSys.idle], rfl, rfl, ?_⟩
  rintro ⟨rank, hr⟩
  have h1 := hr 0 _ rfl rfl 1 (by decide)
  have h2 := hr 1 _ rfl rfl 0 (by decide)
  omega

/-! ## Where it is false -/

/-- Not so if memory is refused: the handles in the value that was to be stored are lost, and what they refer to is never dropped. -/
theorem C132_refuted_refused :
    ∃ s, (GSys.start 1).play 100 [.call 0 true (.new []), .call 0 false (.new [0])] = some s ∧
      s.idle ∧ s.hands = [] ∧ ∃ o, s.objs[0]? = some o ∧ o.alive = true ∧ o.outs = 0 := by
  refine ⟨⟨[⟨1, 0, [], true, 0, false⟩], [], [0], [⟨[], false⟩]⟩, by decide, by simp [GSys.idle], rfl, _, rfl, rfl, rfl⟩

/-- Not so if a destructor panics: the memory of the value is never released, nor is that of the values that hold it. -/
theorem C132_refuted_panic :
    ∃ s, (GSys.start 1).play 100 [.call 0 true (.new []), .call 0 true (.new [0]), .call 0 true (.drop 1),
      .run 0 false, .run 0 false, .run 0 false, .run 0 true] = some s ∧
      s.idle ∧ s.hands = [] ∧ s.lost = [] ∧ s.objs.length = 2 ∧
      ∀ o ∈ s.objs, o.outs = 1 ∧ o.weak = 0 ∧ o.freed = false := by
  refine ⟨⟨[⟨0, 0, [], false, 1, false⟩, ⟨0, 0, [0], false, 1, false⟩], [], [], [⟨[], false⟩]⟩, by decide,
    by simp [GSys.idle], rfl, rfl, rfl, by simp⟩

end Lokky
