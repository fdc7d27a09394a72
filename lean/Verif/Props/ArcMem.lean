import Verif.Proofs.ArcMemAct
import Verif.Props.Arc

/-!
# `Arc` with the memory orderings of the source

C107 and C108. The states are those that any number of threads can reach in `n` steps, where every access has
the ordering it has in the source and loads may read counts that are not the latest; `True` in `ArcWReaches`
says that no `make_mut` was refused memory after it had set the count to zero. `n ≤ mx`: fewer steps than
`isize::MAX`.
-/

namespace Lokky
variable {α : Type} {mx n : Nat} {s : ArcSys α} {m : ArcMem}

open ArcOp ArcSys

/-! ## Runs for the examples -/

/-- Where three threads get by the actions `l`. -/
def arcWEnd (calm : Bool) (l : List (ArcWAct Nat)) : ArcSys Nat × ArcMem :=
  (ArcWAct.acts arcMax calm (ArcSys.start 3, ArcMem.start) l).getD (ArcSys.start 0, ArcMem.start)

theorem arcWEnd_reaches {b : Bool} {l : List (ArcWAct Nat)}
    (h : (ArcWAct.acts arcMax b (ArcSys.start 3, ArcMem.start) l).isSome = true) :
    ArcWReaches arcMax (b = true) l.length (arcWEnd b l).1 (arcWEnd b l).2 := by
  refine ⟨3, ?_⟩
  unfold arcWEnd
  cases e : ArcWAct.acts arcMax b (ArcSys.start 3, ArcMem.start) l with
  | none => rw [e] at h; cases h
  | some z =>
    have := ArcWAct.acts_steps .refl e
    simpa using this

theorem arcWEnd_calm {l : List (ArcWAct Nat)}
    (h : (ArcWAct.acts arcMax true (ArcSys.start 3, ArcMem.start) l).isSome = true) :
    ArcWReaches arcMax True l.length (arcWEnd true l).1 (arcWEnd true l).2 :=
  (arcWEnd_reaches h).imp fun _ h => h.weaken fun _ => rfl

theorem arcWEnd_any {l : List (ArcWAct Nat)}
    (h : (ArcWAct.acts arcMax false (ArcSys.start 3, ArcMem.start) l).isSome = true) :
    ArcWReaches arcMax False l.length (arcWEnd false l).1 (arcWEnd false l).2 :=
  (arcWEnd_reaches h).imp fun _ h => h.weaken False.elim

/-- Thread 0 makes two handles of a value. Thread 1 reads it and drops one of them, thread 0 drops the other
and is about to drop the value. -/
def arcPassed : List (ArcAct Nat) :=
  [.new 0 7, .call 0 (.clone 0)] ++ arcRun 0 1 ++ [.call 1 (.read 1)] ++ arcRun 1 1 ++ [.call 1 (.drop 1)] ++
    arcRun 1 1 ++ [.call 0 (.drop 0)] ++ arcRun 0 1

/-- Thread 1 is about to count the handles of a value that thread 0 has just made another handle of. -/
def arcStale : List (ArcWAct Nat) :=
  ([.new 0 7, .call 1 (.count 0), .call 0 (.clone 0)] ++ arcRun 0 1 : List (ArcAct Nat)).map .of

/-- After `arcRefused`, thread 0 reads by one of two handles; thread 1 drops the other and is about to drop
the value. -/
def arcRacing : List (ArcAct Nat) :=
  arcRefused ++ [.call 0 (.clone 1)] ++ arcRun 0 1 ++ [.call 1 (.drop 2), .call 0 (.read 1)] ++ arcRun 0 1 ++
    arcRun 1 1

/-! ## C107 -/

/-- C107 where `make_mut` is not refused memory: whatever a thread accesses next, all accesses that it has to
come after happened before. -/
theorem C107_partial (h : ArcWReaches mx True n s m) (hn : n ≤ mx) {t : Nat} {op : ArcOp α}
    (ht : s.threads[t]? = some (some op)) (ch : ArcChoice α) {p : Nat} {k : ArcKind}
    (hk : (Arc.eff mx ch s op).access = some (p, k)) : ¬ m.Race t p k := by
  obtain ⟨I, hW, J⟩ := h.inv hn
  rintro ⟨i, k', h1, h2, h3⟩
  have hp := J.place i p k' h1
  by_cases hs : op.sens p = true
  · exact h3 (J.alone t op p ht hs i k' h1)
  have hu : op.uses p = true ∧ (k = .atomic ∨ k = .read) := by
    cases op <;> simp only [Arc.eff] at hk <;> (repeat' (split at hk)) <;>
      simp only [ArcEff.access, Option.some.injEq, Prod.mk.injEq, reduceCtorEq] at hk <;>
      (obtain ⟨rfl, rfl⟩ := hk; simp [uses, sens] at hs ⊢)
    omega
  by_cases hfree : k' = .free
  · subst hfree
    obtain ⟨o, ho, hf⟩ := J.freed i p h1
    have := (I.freed_left ho hf).1.2 t op ht
    rw [hu.1] at this
    cases this
  · refine h3 (J.knownT i p k' h1 ?_ t op ht hu.1)
    rcases hu.2 with rfl | rfl <;> cases k' <;> simp_all [ArcKind.clash]

/-- C107 for loads that read an old count. -/
theorem C107_load_partial (h : ArcWReaches mx True n s m) (hn : n ≤ mx) {t : Nat} {op : ArcOp α}
    (ht : s.threads[t]? = some (some op)) {c : ArcCtr} {p : Nat} {acq : Bool}
    (hl : Arc.loads op = some (c, p, acq)) : ¬ m.Race t p .atomic := by
  obtain ⟨I, hW, J⟩ := h.inv hn
  rintro ⟨i, k', h1, h2, h3⟩
  have hu : op.uses p = true := by
    cases op <;> simp only [Arc.loads, Option.some.injEq, Prod.mk.injEq, reduceCtorEq] at hl <;>
      (obtain ⟨-, rfl, -⟩ := hl; simp [uses])
  by_cases hfree : k' = .free
  · subst hfree
    obtain ⟨o, ho, hf⟩ := J.freed i p h1
    have := (I.freed_left ho hf).1.2 t op ht
    rw [hu] at this
    cases this
  · refine h3 (J.knownT i p k' h1 ?_ t op ht hu)
    cases k' <;> simp_all [ArcKind.clash]

/-- C107 for `Arc::new`. -/
theorem C107_new_partial (h : ArcWReaches mx True n s m) (hn : n ≤ mx) (t : Nat) :
    ¬ m.Race t s.objs.length .init := by
  rintro ⟨i, k', h1, -⟩
  have := (h.inv hn).2.2.place i _ k' h1
  omega

/-- C107 is false: one thread drops the value, and nothing orders that with the read of another. -/
theorem C107_refuted : ∃ (n : Nat) (s : ArcSys Nat) (m : ArcMem), ArcWReaches arcMax False n s m ∧
    n < arcMax ∧ s.hands[1]? = some (some 0) ∧ s.threads[1]? = some (some (.fin1 0 none)) ∧
    ∃ i : Nat, m.evts[i]? = some (0, .read) ∧ i ∉ m.thr 1 ∧ i ∈ m.thr 0 ∧
      ∀ ch : ArcChoice Nat, (Arc.eff arcMax ch s (.fin1 0 none)).access = some (0, .write) := by
  refine ⟨_, _, _, arcWEnd_any (l := arcRacing.map .of) (by decide +kernel), by decide +kernel,
    by decide +kernel, by decide +kernel, ?_⟩
  exact ⟨9, by decide +kernel, by decide +kernel, by decide +kernel, fun _ => rfl⟩

/-- Thread 0 makes two handles of a value and uses the `&T` of one of them; thread 1 is about to use the `&T` of
the other. -/
def arcShared : List (ArcAct Nat) :=
  [.new 0 7, .call 0 (.clone 0)] ++ arcRun 0 1 ++ [.call 1 (.read 1), .call 0 (.read 0)] ++ arcRun 0 1

/-- C107 is false for values with a `&T` that can be written through, such as `Cell`: `Envelop` for `Arc` has no
bound on `T` and an `Envelope` is `Send` whatever is in it (arc.rs 543-551, scope.rs 211), so that safe code can
take a handle to another thread although `Arc<T>` is not `Send` (arc.rs 30). The two threads use `&T`, nothing
orders the uses, and if they write, that is a race. -/
theorem C107_refuted_sync : ∃ (n : Nat) (s : ArcSys Nat) (m : ArcMem), ArcWReaches arcMax True n s m ∧
    n < arcMax ∧ s.threads[1]? = some (some (.read 1 0)) ∧
    ∃ i : Nat, m.evts[i]? = some (0, .read) ∧ i ∈ m.thr 0 ∧ i ∉ m.thr 1 ∧
      (∀ ch : ArcChoice Nat, (Arc.eff arcMax ch s (.read 1 0)).access = some (0, .read)) ∧
      ({ m with evts := m.evts.set i (0, .write) } : ArcMem).Race 1 0 .write := by
  refine ⟨_, _, _, arcWEnd_calm (l := arcShared.map .of) (by decide +kernel), by decide +kernel,
    by decide +kernel, 2, by decide +kernel, by decide +kernel, by decide +kernel, fun _ => rfl, ?_⟩
  exact ⟨2, .write, by decide +kernel, by decide +kernel, by decide +kernel⟩

example : ∃ (n : Nat) (s : ArcSys Nat) (m : ArcMem), ArcWReaches arcMax True n s m ∧ n < arcMax ∧
    s.threads[0]? = some (some (.fin1 0 none)) ∧ (∃ i : Nat, m.evts[i]? = some (0, .read) ∧ i ∈ m.thr 1) ∧
    ∀ ch : ArcChoice Nat, (Arc.eff arcMax ch s (.fin1 0 none)).access = some (0, .write) :=
  ⟨_, _, _, arcWEnd_calm (l := arcPassed.map .of) (by decide +kernel), by decide +kernel, by decide +kernel,
    ⟨2, by decide +kernel, by decide +kernel⟩, fun _ => rfl⟩

/-! ## C108 -/

/-- C108 where `make_mut` is not refused memory: no step of any thread does anything undefined. -/
theorem C108_safe_partial (h : ArcWReaches mx True n s m) (hn : n < mx) {t : Nat} {op : ArcOp α}
    (ht : s.threads[t]? = some (some op)) (ch : ArcChoice α) :
    ∃ s', Arc.step mx ch t op s = .ok () s' := by
  obtain ⟨I, hW, -⟩ := h.inv (Nat.le_of_lt hn)
  rcases I.run hn ch ht with ⟨s', h1, -⟩ | ⟨h1, -⟩
  · exact ⟨s', h1⟩
  · exact absurd h1 (hW.not_lost _)

/-- C108 for loads that read an old count. -/
theorem C108_load_partial (h : ArcWReaches mx True n s m) (hn : n ≤ mx) {t j : Nat} {op : ArcOp α}
    (ht : s.threads[t]? = some (some op)) {c : ArcCtr} {p : Nat} {acq : Bool} {x : ArcMsg}
    (hl : Arc.loads op = some (c, p, acq)) (_ : (m.msgs c p)[j]? = some x) {f : M (ArcSys α) Unit}
    (hf : Arc.loaded mx t x.val op = some f) :
    ∃ s', (do let _ ← Arc.obj p; f) s = .ok () s' := by
  obtain ⟨I, hW, -⟩ := h.inv hn
  have hu : op.uses p = true := by
    cases op <;> simp only [Arc.loads, Option.some.injEq, Prod.mk.injEq, reduceCtorEq] at hl <;>
      (obtain ⟨-, rfl, -⟩ := hl; simp [uses])
  obtain ⟨o, ho⟩ := I.exists_obj (I.uses_pos ht hu)
  have hfr : o.freed = false := by
    by_contra hc
    have := (I.freed_left ho (by simpa using hc)).1.2 t op ht
    rw [hu] at this
    cases this
  have ha : ∀ k, ∃ s', (Arc.after t k : M (ArcSys α) Unit) s = .ok () s' := by
    intro k
    rcases k with _ | ⟨r, v⟩ <;> exact ⟨_, rfl⟩
  simp only [M.bind_apply, ArcInv.obj_ok ho hfr]
  cases op <;> simp only [Arc.loaded, reduceCtorEq] at hf <;>
    (repeat' (split at hf)) <;> (try cases hf) <;> first
    | exact ⟨_, rfl⟩
    | exact ha _
    | (split <;> first | exact ⟨_, rfl⟩ | exact ha _ | (split <;> exact ⟨_, rfl⟩))

/-- C108: a read finds the value in its place and gives it. -/
theorem C108_read_partial (h : ArcWReaches mx True n s m) (hn : n ≤ mx) {t i p : Nat}
    (ht : s.threads[t]? = some (some (.read i p))) (ch : ArcChoice α) :
    ∃ o : ArcObj α, s.objs[p]? = some o ∧ o.alive = true ∧ o.freed = false ∧ o.outs = 0 ∧
      Arc.step mx ch t (.read i p) s =
        .ok () { s with threads := s.threads.set t none, log := (t, .val o.val) :: s.log } := by
  obtain ⟨I, hW, -⟩ := h.inv hn
  have hh := I.borrow_hand ht (h := i) (p := p) (by simp [borrowsAt])
  obtain ⟨o, ho, -, ha, hf, hu, -⟩ := I.live (ArcInv.own_pos_of_hand hh) (hW.not_lost p)
  exact ⟨o, ho, ha, hf, hu, by simp [Arc.step, M.bind_apply, ArcInv.data_ok ho hf ha, Arc.done]⟩

/-- C108: the value is moved out or dropped once, and has been where nothing is left that reaches it; at most
one `try_unwrap` got it. -/
theorem C108_once_partial (h : ArcWReaches mx True n s m) (hn : n ≤ mx) {p : Nat} {o : ArcObj α}
    (ho : s.objs[p]? = some o) :
    o.outs ≤ 1 ∧ o.won ≤ 1 ∧ (s.Left p → o.outs = 1) ∧ (o.alive = true ↔ o.outs = 0) := by
  obtain ⟨I, hW, -⟩ := h.inv hn
  have hl := hW o (List.mem_of_getElem? ho)
  obtain ⟨h1, h2⟩ := I.outs_le ho hl
  have h0 := (I.obj p o ho hl).wins
  refine ⟨h1, by omega, fun hL => ?_, h2⟩
  obtain ⟨h3, h4⟩ := (I.left_iff p).1 hL
  exact ((I.obj p o ho hl).gone h3 h4).2.1

/-- C108: where the memory is released, the value is gone, no handle and no thread reaches it and there
is no `Weak`. -/
theorem C108_not_early_partial (h : ArcWReaches mx True n s m) (hn : n ≤ mx) {p : Nat} {o : ArcObj α}
    (ho : s.objs[p]? = some o) (hf : o.freed = true) :
    o.alive = false ∧ o.outs = 1 ∧ o.wk = 0 ∧ s.Left p := by
  obtain ⟨I, -, -⟩ := h.inv hn
  obtain ⟨h1, h2, h3, h4, h5, h6, h7⟩ := I.freed_left ho hf
  exact ⟨h3, h4, h6, h1⟩

/-- C108: the memory is there when a thread is about to release it. -/
theorem C108_free_once_partial (h : ArcWReaches mx True n s m) (hn : n ≤ mx) {t p : Nat} {op : ArcOp α}
    (ht : s.threads[t]? = some (some op)) (hp : (∃ k, op = .fin3 p k) ∨ ∃ x, op = .unw3 p x) :
    ∃ o : ArcObj α, s.objs[p]? = some o ∧ o.freed = false := by
  obtain ⟨I, -, -⟩ := h.inv hn
  have hu : op.uses p = true := by
    rcases hp with ⟨k, rfl⟩ | ⟨x, rfl⟩
    · cases k <;> simp [ArcOp.uses]
    · simp [ArcOp.uses]
  obtain ⟨o, ho⟩ := I.exists_obj (I.uses_pos ht hu)
  refine ⟨o, ho, ?_⟩
  by_contra hc
  have := (I.freed_left ho (by simpa using hc)).1.2 t op ht
  rw [hu] at this
  cases this

/-- C108: where nothing is left that reaches it and there never was a `Weak`, the memory is released. -/
theorem C108_released_partial (h : ArcWReaches mx True n s m) (hn : n ≤ mx) {p : Nat} {o : ArcObj α}
    (ho : s.objs[p]? = some o) (hm : o.made = 0) (hL : s.Left p) : o.freed = true := by
  obtain ⟨I, hW, -⟩ := h.inv hn
  obtain ⟨h3, h4⟩ := (I.left_iff p).1 hL
  have hk := I.obj p o ho (hW o (List.mem_of_getElem? ho))
  have hlk : s.lockers p = 0 := by
    have := ArcSys.lockers_le s p
    omega
  by_contra hc
  exact (hk.gone h3 h4).2.2 (by simpa using hc) (hk.unmade hlk hm)

/-- C108: while a thread has the `&mut T` from `get_mut` or `make_mut`, there is no handle but the one it was
made from, no `Weak`, and no other thread is working on the object. -/
theorem C108_exclusive_partial (h : ArcWReaches mx True n s m) (hn : n ≤ mx) {t p : Nat}
    (ht : s.threads[t]? = some (some (.held p))) :
    ∃ o : ArcObj α, s.objs[p]? = some o ∧ o.alive = true ∧ o.freed = false ∧ o.wk = 0 ∧
      (∀ i : Nat, s.hands[i]? ≠ some (some p)) ∧
      ∀ (t' : Nat) (op' : ArcOp α), t' ≠ t → s.threads[t']? = some (some op') → op'.uses p = false := by
  obtain ⟨I, -, -⟩ := h.inv hn
  obtain ⟨o, ho, -, ha, hf, -, -, hw, h1, h2⟩ := I.held_alone ht
  exact ⟨o, ho, ha, hf, hw, h1, h2⟩

/-- C108 is false: a live handle whose value was dropped. -/
theorem C108_refuted : ∃ (n : Nat) (s : ArcSys Nat) (m : ArcMem), ArcWReaches arcMax False n s m ∧
    n < arcMax ∧ s.hands[1]? = some (some 0) ∧ s.threads[0]? = some (some (.read 1 0)) ∧
    ∀ ch, Arc.step arcMax ch 0 (.read 1 0) s = .ub .uninit := by
  obtain ⟨n, s, h, hn, h1, h2, h3⟩ := C58_refuted
  obtain ⟨m, hm⟩ := ArcWReaches.of_sc h
  exact ⟨n, s, m, hm, hn, h1, h2, h3⟩

/-- All that sequentially consistent memory allows is covered, … -/
theorem C108_covers {calm : Prop} (h : ArcReaches mx calm n s) : ∃ m, ArcWReaches mx calm n s m :=
  ArcWReaches.of_sc h

/-- … and more: a load can read an old count. Here thread 1 finds one handle where there are two. -/
example : ∃ (n : Nat) (s : ArcSys Nat) (m : ArcMem), ArcWReaches arcMax True n s m ∧ n < arcMax ∧
    (s.objs[0]?).map (·.strong) = some 2 ∧ s.hands = [some 0, some 0] ∧ s.threads = [none, none, none] ∧
    s.log.head? = some (1, .nat 1) :=
  ⟨_, _, _, arcWEnd_calm (l := arcStale ++ [.old 1 0]) (by decide +kernel), by decide +kernel,
    by decide +kernel, by decide +kernel, by decide +kernel, by decide +kernel⟩

example : ∃ (n : Nat) (s : ArcSys Nat) (m : ArcMem) (x : ArcMsg), ArcWReaches arcMax True n s m ∧ n < arcMax ∧
    s.threads[1]? = some (some (.count 0 0)) ∧ (m.msgs .strong 0)[0]? = some x ∧ x.val = 1 :=
  ⟨_, _, _, ⟨1, 0, []⟩, arcWEnd_calm (l := arcStale) (by decide +kernel), by decide +kernel,
    by decide +kernel, by decide +kernel, rfl⟩

example : ∃ (n : Nat) (s : ArcSys Nat) (m : ArcMem), ArcWReaches arcMax True n s m ∧ n < arcMax ∧
    s.threads[0]? = some (some (.read 0 0)) ∧ s.threads[1]? = some (some (.drop0 0)) :=
  ⟨_, _, _, arcWEnd_calm (l := arcRace.map .of) (by decide +kernel), by decide +kernel, by decide +kernel,
    by decide +kernel⟩

example : ∃ (n : Nat) (s : ArcSys Nat) (m : ArcMem) (o : ArcObj Nat), ArcWReaches arcMax True n s m ∧
    n < arcMax ∧ s.objs[0]? = some o ∧ s.Left 0 ∧ o.made = 0 ∧ o.freed = true :=
  ⟨_, _, _, ⟨0, 0, 7, false, 1, 0, true, 0, 0, false⟩, arcWEnd_calm (l := arcGone.map .of) (by decide +kernel),
    by decide +kernel, by decide +kernel, left_of_idle (by decide +kernel) (by decide +kernel), rfl, rfl⟩

example : ∃ (n : Nat) (s : ArcSys Nat) (m : ArcMem), ArcWReaches arcMax True n s m ∧ n < arcMax ∧
    s.threads[0]? = some (some (.held 0)) ∧ s.threads[1]? = some (some (.clone 1 1)) :=
  ⟨_, _, _, arcWEnd_calm (l := arcHeld.map .of) (by decide +kernel), by decide +kernel, by decide +kernel,
    by decide +kernel⟩

example : ∃ (n : Nat) (s : ArcSys Nat) (m : ArcMem), ArcWReaches arcMax True n s m ∧ n < arcMax ∧
    s.threads[0]? = some (some (.fin3 0 none)) :=
  ⟨_, _, _, arcWEnd_calm (l := (arcGone.take 9).map .of) (by decide +kernel), by decide +kernel,
    by decide +kernel⟩

end Lokky
