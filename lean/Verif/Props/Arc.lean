import Verif.Proofs.ArcUse

/-!
# C58–C66: `Arc`

`ArcReaches mx calm n s` says: some number of threads, using `Arc` in any way safe code can, their atomic
steps interleaved in any order, arrive at the state `s` after `n` steps. `mx` is `isize::MAX`; histories
are not longer than that, so that the counts cannot overflow. Where `calm` is `True`, the allocator does not
refuse `make_mut` memory at the point where it has set the count of handles to zero; refusing it there
breaks C58, C59, C62, C65 and C66, as shown below. Theorems that say nothing about `calm` hold for all runs.

`o.lost` marks an object to which that has happened. `s.Left p`: there is no handle of object `p` and no thread
is working on it.
-/

namespace Lokky
open ArcOp
variable {α : Type} {mx n : Nat} {calm : Prop} {s : ArcSys α}

theorem ArcReaches.inv (h : ArcReaches mx calm n s) (hn : n ≤ mx) : ArcInv mx n s := ArcInv.reaches h hn

/-! ## Runs for the examples -/

/-- `isize::MAX` on a 64-bit machine. -/
def arcMax : Nat := 2 ^ 63 - 1

/-- Where three threads get by the actions `l`. -/
def arcEnd (calm : Bool) (l : List (ArcAct Nat)) : ArcSys Nat :=
  ((ArcSys.start 3).acts arcMax calm l).getD (ArcSys.start 0)

theorem arcEnd_reaches {b : Bool} {l : List (ArcAct Nat)}
    (h : ((ArcSys.start 3 : ArcSys Nat).acts arcMax b l).isSome = true) :
    ArcReaches arcMax (b = true) l.length (arcEnd b l) := by
  refine ArcReaches.of_acts (k := 3) ?_
  unfold arcEnd
  cases e : (ArcSys.start 3 : ArcSys Nat).acts arcMax b l with
  | none => rw [e] at h; cases h
  | some s => rfl

theorem arcEnd_calm {l : List (ArcAct Nat)}
    (h : ((ArcSys.start 3 : ArcSys Nat).acts arcMax true l).isSome = true) :
    ArcReaches arcMax True l.length (arcEnd true l) :=
  (arcEnd_reaches h).imp fun _ h => h.weaken fun _ => rfl

theorem arcEnd_any {l : List (ArcAct Nat)}
    (h : ((ArcSys.start 3 : ArcSys Nat).acts arcMax false l).isSome = true) :
    ArcReaches arcMax False l.length (arcEnd false l) :=
  (arcEnd_reaches h).imp fun _ h => h.weaken False.elim

/-- Thread `t` makes `k` steps. -/
def arcRun (t k : Nat) : List (ArcAct Nat) := List.replicate k (.run t {})

/-- `let a = Arc::new(7); let w = Arc::downgrade(&a); Arc::make_mut(&mut a)`, where `make_mut` is refused
memory; the panic is caught. -/
def arcRefused : List (ArcAct Nat) :=
  [.new 0 7, .call 0 (.downgrade 0)] ++ arcRun 0 2 ++ [.call 0 (.makeMut 0)] ++ arcRun 0 5 ++
    [.run 0 { grant := false }]

/-- … then `drop(a.clone())`, which drops the value. -/
def arcSpent : List (ArcAct Nat) :=
  arcRefused ++ [.call 0 (.clone 1)] ++ arcRun 0 1 ++ [.call 0 (.drop 2)] ++ arcRun 0 3

/-- Two handles of one value. Thread 0 reads, thread 1 drops the other handle, and both have only begun. -/
def arcRace : List (ArcAct Nat) :=
  [.new 0 7, .call 0 (.clone 0)] ++ arcRun 0 1 ++ [.call 0 (.read 0), .call 1 (.drop 1)]

/-! ## C58 -/

/-- C58 where `make_mut` is not refused memory: a read finds the value in its place and gives it. -/
theorem C58_read_partial (h : ArcReaches mx True n s) (hn : n ≤ mx) {t i p : Nat}
    (ht : s.threads[t]? = some (some (.read i p))) (ch : ArcChoice α) :
    ∃ o : ArcObj α, s.objs[p]? = some o ∧ o.alive = true ∧ o.freed = false ∧ o.outs = 0 ∧
      Arc.step mx ch t (.read i p) s =
        .ok () { s with threads := s.threads.set t none, log := (t, .val o.val) :: s.log } := by
  have I := h.inv hn
  have hL := h.whole.not_lost p
  have hh := I.borrow_hand ht (h := i) (p := p) (by simp [borrowsAt])
  obtain ⟨o, ho, -, ha, hf, hu, -⟩ := I.live (ArcInv.own_pos_of_hand hh) hL
  exact ⟨o, ho, ha, hf, hu, by simp [Arc.step, M.bind_apply, ArcInv.data_ok ho hf ha, Arc.done]⟩

/-- C58 for handles: as long as `make_mut` was not refused memory at its object, the value is in its place. -/
theorem C58_handle_partial (h : ArcReaches mx calm n s) (hn : n ≤ mx) {i p : Nat}
    (hh : s.hands[i]? = some (some p)) :
    ∃ o : ArcObj α, s.objs[p]? = some o ∧ (o.lost = false → o.alive = true ∧ o.freed = false ∧ o.outs = 0) := by
  have I := h.inv hn
  have hp := ArcInv.own_pos_of_hand hh
  obtain ⟨o, ho⟩ := I.exists_obj (Or.inl hp)
  refine ⟨o, ho, fun hl => ?_⟩
  obtain ⟨a, b, c, -⟩ := (I.obj p o ho hl).live hp
  exact ⟨a, b, c⟩

/-- C58 for all steps: no step of any thread does anything undefined; where `make_mut` was refused memory,
that can only happen at objects where it was. -/
theorem C58_safe_partial (h : ArcReaches mx calm n s) (hn : n < mx) {t : Nat} {op : ArcOp α}
    (ht : s.threads[t]? = some (some op)) (ch : ArcChoice α) :
    (∃ s', Arc.step mx ch t op s = .ok () s') ∨ s.Lost op.main := by
  rcases (h.inv (by omega)).run hn ch ht with ⟨s', h1, -⟩ | ⟨h1, -⟩
  · exact Or.inl ⟨s', h1⟩
  · exact Or.inr h1

/-- C58 for all steps where `make_mut` is not refused memory. -/
theorem C58_calm_partial (h : ArcReaches mx True n s) (hn : n < mx) {t : Nat} {op : ArcOp α}
    (ht : s.threads[t]? = some (some op)) (ch : ArcChoice α) :
    ∃ s', Arc.step mx ch t op s = .ok () s' :=
  (C58_safe_partial h hn ht ch).resolve_right (h.whole.not_lost _)

/-- C58 is false: a live handle whose value was dropped. -/
theorem C58_refuted : ∃ (n : Nat) (s : ArcSys Nat), ArcReaches arcMax False n s ∧ n < arcMax ∧
    s.hands[1]? = some (some 0) ∧ s.threads[0]? = some (some (.read 1 0)) ∧
    ∀ ch, Arc.step arcMax ch 0 (.read 1 0) s = .ub .uninit :=
  ⟨_, arcEnd false (arcSpent ++ [.call 0 (.read 1)]), arcEnd_any (by decide +kernel),
    by decide +kernel, by decide +kernel, by decide +kernel, fun _ => rfl⟩

example : ∃ (n : Nat) (s : ArcSys Nat), ArcReaches arcMax True n s ∧ n < arcMax ∧
    s.threads[0]? = some (some (.read 0 0)) ∧ s.threads[1]? = some (some (.drop0 0)) ∧
    s.hands[0]? = some (some 0) ∧ (s.objs[0]?).map (·.val) = some 7 :=
  ⟨_, arcEnd true arcRace, arcEnd_calm (by decide +kernel), by decide +kernel, by decide +kernel,
    by decide +kernel, by decide +kernel, by decide +kernel⟩

/-! ## C59 -/

/-- C59 for objects at which `make_mut` was not refused memory. -/
theorem C59_partial (h : ArcReaches mx calm n s) (hn : n ≤ mx) {p : Nat} {o : ArcObj α}
    (ho : s.objs[p]? = some o) (hl : o.lost = false) :
    o.outs ≤ 1 ∧ (s.Left p → o.outs = 1) ∧ (o.alive = true ↔ o.outs = 0) := by
  have I := h.inv hn
  obtain ⟨h1, h2⟩ := I.outs_le ho hl
  refine ⟨h1, fun hL => ?_, h2⟩
  obtain ⟨h3, h4⟩ := (I.left_iff p).1 hL
  exact ((I.obj p o ho hl).gone h3 h4).2.1

/-- C59 where `make_mut` is not refused memory. -/
theorem C59_calm_partial (h : ArcReaches mx True n s) (hn : n ≤ mx) {p : Nat} {o : ArcObj α}
    (ho : s.objs[p]? = some o) : o.outs ≤ 1 ∧ (s.Left p → o.outs = 1) :=
  have := C59_partial h hn ho (h.whole o (List.mem_of_getElem? ho))
  ⟨this.1, this.2.1⟩

/-- C59 is false: a value that was dropped is about to be dropped again. -/
theorem C59_refuted : ∃ (n : Nat) (s : ArcSys Nat), ArcReaches arcMax False n s ∧ n < arcMax ∧
    s.threads[0]? = some (some (.fin1 0 none)) ∧ (s.objs[0]?).map (·.outs) = some 1 ∧
    ∀ ch, Arc.step arcMax ch 0 (.fin1 0 none) s = .ub .uninit :=
  ⟨_, arcEnd false (arcSpent ++ [.call 0 (.clone 1)] ++ arcRun 0 1 ++ [.call 0 (.drop 3)] ++ arcRun 0 1),
    arcEnd_any (by decide +kernel), by decide +kernel, by decide +kernel, by decide +kernel, fun _ => rfl⟩

/-- Both handles of a value are dropped at once, and that is over. -/
def arcGone : List (ArcAct Nat) :=
  [.new 0 7, .call 0 (.clone 0)] ++ arcRun 0 1 ++ [.call 0 (.drop 0), .call 1 (.drop 1)] ++ arcRun 1 1 ++
    arcRun 0 4

theorem left_of_idle {p : Nat} (h1 : ∀ x ∈ s.hands, x ≠ some p) (h2 : ∀ x ∈ s.threads, x = none) :
    s.Left p := by
  refine ⟨fun h hh => h1 _ (List.mem_of_getElem? hh) rfl, fun t op ht => ?_⟩
  have := h2 _ (List.mem_of_getElem? ht)
  cases this

example : ∃ (n : Nat) (s : ArcSys Nat) (o : ArcObj Nat), ArcReaches arcMax True n s ∧ n < arcMax ∧
    s.objs[0]? = some o ∧ o.lost = false ∧ s.Left 0 ∧ o.made = 0 ∧ o.freed = true :=
  ⟨_, arcEnd true arcGone, ⟨0, 0, 7, false, 1, 0, true, 0, 0, false⟩, arcEnd_calm (by decide +kernel),
    by decide +kernel, by decide +kernel, rfl,
    left_of_idle (by decide +kernel) (by decide +kernel), rfl, rfl⟩

/-! ## C60 -/

/-- C60, in all runs: where the memory is released, the value is gone, no handle and no thread reaches
it and there is no `Weak`; and nothing happens to it ever after. -/
theorem C60_not_early (h : ArcReaches mx calm n s) (hn : n ≤ mx) {p : Nat} {o : ArcObj α}
    (ho : s.objs[p]? = some o) (hf : o.freed = true) :
    (o.alive = false ∧ o.outs = 1 ∧ o.wk = 0 ∧ s.Left p) ∧
    ∀ k s', ArcSteps mx calm s k s' → n + k ≤ mx → s'.objs[p]? = some o ∧ s'.Left p := by
  have I := h.inv hn
  obtain ⟨h1, h2, h3, h4, h5, h6, h7⟩ := I.freed_left ho hf
  refine ⟨⟨h3, h4, h6, h1⟩, fun k s' hs hk => ?_⟩
  have ho' := I.stays_freed ho hf hs hk
  exact ⟨ho', ((I.steps hs hk).freed_left ho' hf).1⟩

/-- C60, in all runs: the memory is there when a thread is about to release it. -/
theorem C60_once (h : ArcReaches mx calm n s) (hn : n ≤ mx) {t p : Nat} {op : ArcOp α}
    (ht : s.threads[t]? = some (some op)) (hp : (∃ k, op = .fin3 p k) ∨ ∃ x, op = .unw3 p x) :
    ∃ o : ArcObj α, s.objs[p]? = some o ∧ o.freed = false := by
  have I := h.inv hn
  have hu : op.uses p = true := by
    rcases hp with ⟨k, rfl⟩ | ⟨x, rfl⟩
    · cases k <;> simp [ArcOp.uses]
    · simp [ArcOp.uses]
  obtain ⟨o, ho⟩ := I.exists_obj (I.uses_pos ht hu)
  refine ⟨o, ho, ?_⟩
  by_contra hc
  have := (I.freed_left ho (by simpa using hc)).1.2 t op ht
  rw [hu] at this
  cases this

/-- C60, in all runs: the memory of a value that never had a `Weak` is released once no handle is left. -/
theorem C60_released (h : ArcReaches mx calm n s) (hn : n ≤ mx) {p : Nat} {o : ArcObj α}
    (ho : s.objs[p]? = some o) (hm : o.made = 0) (hL : s.Left p) : o.freed = true := by
  have I := h.inv hn
  have hl : o.lost = false := by
    by_contra hc
    have := (I.lost p o ho (by simpa using hc)).pos
    omega
  obtain ⟨h3, h4⟩ := (I.left_iff p).1 hL
  have hk := I.obj p o ho hl
  have hlk : s.lockers p = 0 := by
    have := ArcSys.lockers_le s p
    omega
  by_contra hc
  exact (hk.gone h3 h4).2.2 (by simpa using hc) (hk.unmade hlk hm)

example : ∃ (n : Nat) (s : ArcSys Nat), ArcReaches arcMax True n s ∧ n < arcMax ∧
    s.threads[0]? = some (some (.fin3 0 none)) :=
  ⟨_, arcEnd true (arcGone.take 9), arcEnd_calm (by decide +kernel), by decide +kernel, by decide +kernel⟩

/-! ## C61 -/

/-- C61, in all runs: while a thread has the `&mut T` from `get_mut` or `make_mut`, there is no handle but the
one it was made from, no `Weak`, and no other thread is working on the object. -/
theorem C61_exclusive (h : ArcReaches mx calm n s) (hn : n ≤ mx) {t p : Nat}
    (ht : s.threads[t]? = some (some (.held p))) :
    ∃ o : ArcObj α, s.objs[p]? = some o ∧ o.alive = true ∧ o.freed = false ∧ o.wk = 0 ∧
      (∀ i : Nat, s.hands[i]? ≠ some (some p)) ∧
      ∀ (t' : Nat) (op' : ArcOp α), t' ≠ t → s.threads[t']? = some (some op') → op'.uses p = false := by
  obtain ⟨o, ho, -, ha, hf, -, -, hw, h1, h2⟩ := (h.inv hn).held_alone ht
  exact ⟨o, ho, ha, hf, hw, h1, h2⟩

/-- C61, in all runs: nothing that others do changes the object in the meantime. -/
theorem C61_undisturbed (h : ArcReaches mx calm n s) (hn : n ≤ mx) {t p : Nat}
    (ht : s.threads[t]? = some (some (.held p))) {s' : ArcSys α} (hs : ArcStep mx calm s s') :
    s'.threads[t]? = some (some (.held p)) ∧ s'.objs[p]? = s.objs[p]? ∨
      ∃ ch, Arc.step mx ch t (.held p) s = .ok () s' := by
  obtain ⟨o, ho, -, -, -, -, -, hw, h1, h2⟩ := (h.inv hn).held_alone ht
  obtain ⟨hlt, -⟩ := List.getElem?_eq_some_iff.1 ho
  cases hs with
  | new t' x ht' => exact Or.inl ⟨ht, List.getElem?_append_left hlt⟩
  | borrow t' cmd ht' hc hh =>
    have : t' ≠ t := by rintro rfl; rw [ht] at ht'; cases ht'
    exact Or.inl ⟨by simpa [List.getElem?_set_ne this] using ht, rfl⟩
  | take t' cmd ht' hc hh ho' hu =>
    have : t' ≠ t := by rintro rfl; rw [ht] at ht'; cases ht'
    exact Or.inl ⟨by simpa [List.getElem?_set_ne this] using ht, rfl⟩
  | dropWeak q ho' hw' =>
    refine Or.inl ⟨ht, ?_⟩
    by_cases e : q = p
    · subst e
      rw [ho] at ho'
      cases ho'
      omega
    · simp [List.getElem?_set_ne e]
  | run t' ch ht' hs' hl =>
    by_cases e : t' = t
    · subst e
      rw [ht] at ht'
      cases ht'
      exact Or.inr ⟨ch, hs'⟩
    · obtain ⟨o', h3, h4, -⟩ := step_objs hs' p o ho
      rw [h4 (h2 t' _ e ht')] at h3
      exact Or.inl ⟨by rw [step_threads hs' (Ne.symm e)]; exact ht, h3.trans ho.symm⟩

/-- C61, in all runs: the last step of `get_mut` gives access if it has seen `strong` at one, else it gives
the handle back. -/
theorem C61_get_mut (h : ArcReaches mx calm n s) (hn : n < mx) {t p : Nat} {u : Bool}
    (ht : s.threads[t]? = some (some (.get2 p u))) (ch : ArcChoice α) :
    ∃ s', Arc.step mx ch t (.get2 p u) s = .ok () s' ∧
      (u = true → s'.threads[t]? = some (some (.held p)) ∧ s'.hands = s.hands) ∧
      (u = false → s'.threads[t]? = some none ∧ s'.hands = s.hands ++ [some p] ∧
        s'.log = (t, .no) :: s.log) := by
  have I := h.inv (Nat.le_of_lt hn)
  obtain ⟨htl, -⟩ := List.getElem?_eq_some_iff.1 ht
  have hp : 1 ≤ s.own p := ArcInv.own_pos_of_holds ht (by simp [holds])
  have hL : ¬ s.Lost p := by
    rintro ⟨o, ho, hlo⟩
    have := (I.lost p o ho hlo).lockers
    have : 1 ≤ s.lockers p := countP_pos_of (on (locks p)) ht (by simp [locks])
    omega
  obtain ⟨o, ho, -, ha, hf, -⟩ := I.live hp hL
  cases u
  · exact ⟨⟨s.objs.set p { o with weak := 0 }, s.hands ++ [some p], s.threads.set t none, (t, .no) :: s.log⟩,
      by simp [Arc.step, M.bind_apply, ArcInv.obj_ok ho hf, Arc.put, Arc.give, Arc.done],
      by simp, fun _ => ⟨List.getElem?_set_self htl, rfl, rfl⟩⟩
  · exact ⟨⟨s.objs.set p { o with weak := 0 }, s.hands, s.threads.set t (some (.held p)), s.log⟩,
      by simp [Arc.step, M.bind_apply, ArcInv.obj_ok ho hf, Arc.put, Arc.goto],
      fun _ => ⟨List.getElem?_set_self htl, rfl⟩, by simp⟩

/-- Thread 0 has a `&mut T` from `get_mut`; thread 1 has another object and clones it. -/
def arcHeld : List (ArcAct Nat) :=
  [.new 0 7, .new 1 8, .call 0 (.getMut 0), .call 1 (.clone 1)] ++ arcRun 0 3

example : ∃ (n : Nat) (s : ArcSys Nat), ArcReaches arcMax True n s ∧ n < arcMax ∧
    s.threads[0]? = some (some (.held 0)) ∧ s.threads[1]? = some (some (.clone 1 1)) :=
  ⟨_, arcEnd true arcHeld, arcEnd_calm (by decide +kernel), by decide +kernel, by decide +kernel,
    by decide +kernel⟩

example : ∃ (n : Nat) (s : ArcSys Nat), ArcReaches arcMax True n s ∧ n < arcMax ∧
    s.threads[0]? = some (some (.get2 0 true)) :=
  ⟨_, arcEnd true (arcHeld.take 6), arcEnd_calm (by decide +kernel), by decide +kernel, by decide +kernel⟩

/-! ## C62 -/

/-- C62 for objects at which `make_mut` was not refused memory: at most one `try_unwrap` gets the value. -/
theorem C62_one_winner_partial (h : ArcReaches mx calm n s) (hn : n ≤ mx) {p : Nat} {o : ArcObj α}
    (ho : s.objs[p]? = some o) (hl : o.lost = false) : o.won ≤ 1 := by
  have I := h.inv hn
  have h1 := (I.outs_le ho hl).1
  have h2 := (I.obj p o ho hl).wins
  omega

/-- C62 for such objects: `try_unwrap` wins if there is no other handle; if it fails it gives the handle back,
and the value is in its place. -/
theorem C62_failed_partial (h : ArcReaches mx calm n s) (hn : n ≤ mx) {t p : Nat}
    (ht : s.threads[t]? = some (some (.unw0 p))) (hL : ¬ s.Lost p) (ch : ArcChoice α) :
    ∃ o : ArcObj α, s.objs[p]? = some o ∧ o.alive = true ∧ o.freed = false ∧
      ((∃ s', Arc.step mx ch t (.unw0 p) s = .ok () s' ∧ s'.threads[t]? = some (some (.unw1 p)) ∧
          (∀ i : Nat, s.hands[i]? ≠ some (some p)) ∧
          ∀ (t' : Nat) (op' : ArcOp α), t' ≠ t → s.threads[t']? = some (some op') →
            op'.uses p = false) ∨
        Arc.step mx ch t (.unw0 p) s = .ok () { s with
          hands := s.hands ++ [some p], threads := s.threads.set t none, log := (t, .err) :: s.log }) := by
  have I := h.inv hn
  obtain ⟨htl, -⟩ := List.getElem?_eq_some_iff.1 ht
  have hp : 1 ≤ s.own p := ArcInv.own_pos_of_holds ht (by simp [holds])
  obtain ⟨o, ho, -, ha, hf, -, hst, htails, hk⟩ := I.live hp hL
  refine ⟨o, ho, ha, hf, ?_⟩
  by_cases e : o.strong = 1
  · left
    have hq : 1 ≤ s.threads.countP (on (holds p)) := countP_pos_of _ ht (by simp [holds])
    have hown : s.hands.count (some p) + s.threads.countP (on (holds p)) = 1 := by
      have : s.own p = 1 := by omega
      exact this
    have hno : ∀ i : Nat, s.hands[i]? ≠ some (some p) := by
      intro i hi
      have : 1 ≤ s.hands.count (some p) := List.count_pos_iff.2 (List.mem_of_getElem? hi)
      omega
    refine ⟨⟨s.objs.set p { o with strong := 0 }, s.hands, s.threads.set t (some (.unw1 p)), s.log⟩,
      by simp [Arc.step, M.bind_apply, ArcInv.obj_ok ho hf, e, Arc.put, Arc.goto],
      List.getElem?_set_self htl, hno, fun t' op' ne ht' => ?_⟩
    by_contra hc
    rcases uses_busy (show op'.uses p = true by simpa using hc) with h1 | h1 | ⟨i, hb⟩
    · have : 2 ≤ s.threads.countP (on (holds p)) := countP_two _ rfl ht ht' ne (by simp [holds]) h1
      omega
    · have := ArcInv.tails_pos_of_ends ht' h1
      omega
    · exact hno i (I.borrow_hand ht' hb)
  · right
    simp [Arc.step, M.bind_apply, ArcInv.obj_ok ho hf, e, Arc.give, Arc.done]

/-- C62: the value `try_unwrap` moves out is the one in the object. -/
theorem C62_value_partial (h : ArcReaches mx calm n s) (hn : n ≤ mx) {t p : Nat}
    (ht : s.threads[t]? = some (some (.unw1 p))) (hL : ¬ s.Lost p) (ch : ArcChoice α) :
    ∃ (o : ArcObj α) (s' : ArcSys α), s.objs[p]? = some o ∧ o.won = 0 ∧
      Arc.step mx ch t (.unw1 p) s = .ok () s' ∧ s'.threads[t]? = some (some (.unw2 p o.val)) := by
  have I := h.inv hn
  obtain ⟨htl, -⟩ := List.getElem?_eq_some_iff.1 ht
  obtain ⟨o, ho, hlo, hal, hou⟩ := I.needs' ht hL
  have hf : o.freed = false := by
    by_contra hc
    have := (I.freed_left ho (by simpa using hc)).2.2.1
    rw [hal] at this
    cases this
  have := (I.obj p o ho hlo).wins
  exact ⟨o, ⟨s.objs.set p { o with alive := false, outs := o.outs + 1, won := o.won + 1 }, s.hands,
      s.threads.set t (some (.unw2 p o.val)), s.log⟩, ho, by omega, by
    simp [Arc.step, M.bind_apply, ArcInv.obj_ok ho hf, ArcInv.data_ok ho hf hal, Arc.put, Arc.goto],
    List.getElem?_set_self htl⟩

/-- … and that is what it returns. -/
theorem C62_returns_partial {t p : Nat} {x : α}
    (ht : s.threads[t]? = some (some (.unw2 p x)) ∨ s.threads[t]? = some (some (.unw3 p x)))
    {s' : ArcSys α} {ch : ArcChoice α}
    (hs : Arc.step mx ch t (.unw2 p x) s = .ok () s' ∨ Arc.step mx ch t (.unw3 p x) s = .ok () s') :
    s'.threads[t]? = some (some (.unw3 p x)) ∨
      s'.threads[t]? = some none ∧ s'.log = (t, .val x) :: s.log := by
  have htl : t < s.threads.length := by
    rcases ht with ht | ht <;> exact (List.getElem?_eq_some_iff.1 ht).1
  rcases hobj : s.objs[p]? with _ | o
  · rcases hs with hs | hs <;> simp [Arc.step, M.bind_apply, Arc.obj, hobj] at hs
  · cases hf : o.freed
    · rcases hs with hs | hs
      · by_cases hw : o.weak = 0
        · simp [Arc.step, M.bind_apply, ArcInv.obj_ok hobj hf, hw, Arc.goto] at hs
          subst hs
          exact Or.inl (List.getElem?_set_self htl)
        · simp [Arc.step, M.bind_apply, ArcInv.obj_ok hobj hf, hw, Arc.done] at hs
          subst hs
          exact Or.inr ⟨List.getElem?_set_self htl, rfl⟩
      · simp [Arc.step, M.bind_apply, ArcInv.obj_ok hobj hf, Arc.put, Arc.done] at hs
        subst hs
        exact Or.inr ⟨List.getElem?_set_self htl, rfl⟩
    · rcases hs with hs | hs <;> simp [Arc.step, M.bind_apply, Arc.obj, hobj, hf] at hs

/-- C62 is false: a second `try_unwrap` gets a value that was moved out before. -/
theorem C62_refuted : ∃ (n : Nat) (s : ArcSys Nat), ArcReaches arcMax False n s ∧ n < arcMax ∧
    (0, .val 7) ∈ s.log ∧ s.threads[0]? = some (some (.unw1 0)) ∧
    (s.objs[0]?).map (·.won) = some 1 ∧ ∀ ch, Arc.step arcMax ch 0 (.unw1 0) s = .ub .uninit :=
  ⟨_, arcEnd false (arcRefused ++ [.call 0 (.clone 1)] ++ arcRun 0 1 ++ [.call 0 (.tryUnwrap 2)] ++
      arcRun 0 3 ++ [.call 0 (.clone 1)] ++ arcRun 0 1 ++ [.call 0 (.tryUnwrap 3)] ++ arcRun 0 1),
    arcEnd_any (by decide +kernel), by decide +kernel, by decide +kernel, by decide +kernel,
    by decide +kernel, fun _ => rfl⟩

/-- Two threads call `try_unwrap` on the two handles of a value. -/
def arcTwo : List (ArcAct Nat) :=
  [.new 0 7, .call 0 (.clone 0)] ++ arcRun 0 1 ++ [.call 0 (.tryUnwrap 0), .call 1 (.tryUnwrap 1)]

example : ∃ (n : Nat) (s : ArcSys Nat), ArcReaches arcMax True n s ∧ n < arcMax ∧
    s.threads[0]? = some (some (.unw0 0)) ∧ s.threads[1]? = some (some (.unw0 0)) ∧ ¬ s.Lost 0 := by
  have h : ArcReaches arcMax True arcTwo.length (arcEnd true arcTwo) := arcEnd_calm (by decide +kernel)
  exact ⟨_, _, h, by decide +kernel, by decide +kernel, by decide +kernel, h.whole.not_lost 0⟩

example : ∃ (n : Nat) (s : ArcSys Nat), ArcReaches arcMax True n s ∧ n < arcMax ∧
    s.threads[0]? = some (some (.unw1 0)) ∧ ¬ s.Lost 0 := by
  have h : ArcReaches arcMax True _ (arcEnd true [.new 0 7, .call 0 (.tryUnwrap 0), .run 0 {}]) :=
    arcEnd_calm (by decide +kernel)
  exact ⟨_, _, h, by decide +kernel, by decide +kernel, h.whole.not_lost 0⟩

/-! ## C63 -/

/-- C63 is false: `let a = Arc::new(7); drop(Arc::downgrade(&a)); drop(a)` leaves no handle, and the memory
is not released. -/
theorem C63_refuted : ∃ (n : Nat) (s : ArcSys Nat) (o : ArcObj Nat), ArcReaches arcMax True n s ∧
    n < arcMax ∧ s.objs[0]? = some o ∧ s.Left 0 ∧ o.wk = 0 ∧ o.freed = false :=
  ⟨_, arcEnd true ([.new 0 7, .call 0 (.downgrade 0)] ++ arcRun 0 2 ++ [.dropWeak 0, .call 0 (.drop 0)] ++
      arcRun 0 3), ⟨0, 1, 7, false, 1, 0, false, 0, 1, false⟩, arcEnd_calm (by decide +kernel),
    by decide +kernel, by decide +kernel, left_of_idle (by decide +kernel) (by decide +kernel), rfl, rfl⟩

/-- C63 fails for every value that ever had a `Weak`: its memory is never released. -/
theorem C63_never_released (h : ArcReaches mx calm n s) (hn : n ≤ mx) {p : Nat} {o : ArcObj α}
    (ho : s.objs[p]? = some o) (hm : o.made ≠ 0) {k : Nat} {s' : ArcSys α} {o' : ArcObj α}
    (hs : ArcSteps mx calm s k s') (hk : n + k ≤ mx) (ho' : s'.objs[p]? = some o') :
    o'.freed = false := by
  have I := h.inv hn
  have hmono : ∀ {k s'}, ArcSteps mx calm s k s' → ∃ o' : ArcObj α, s'.objs[p]? = some o' ∧ o'.made ≠ 0 := by
    intro k s' hs
    induction hs with
    | refl => exact ⟨o, ho, hm⟩
    | tail _ hs ih =>
      obtain ⟨o1, h1, h2⟩ := ih
      obtain ⟨o2, h3, h4, -⟩ := hs.keeps h1
      exact ⟨o2, h3, by omega⟩
  obtain ⟨o2, h2, hm2⟩ := hmono hs
  obtain rfl : o2 = o' := Option.some.inj (h2.symm.trans ho')
  by_contra hc
  exact hm2 ((I.steps hs hk).freed_left h2 (by simpa using hc)).2.2.2.2.2.2

/-- C63 for values that never had a `Weak`. -/
theorem C63_partial (h : ArcReaches mx calm n s) (hn : n ≤ mx) {p : Nat} {o : ArcObj α}
    (ho : s.objs[p]? = some o) (hm : o.made = 0) (hL : s.Left p) : o.freed = true :=
  C60_released h hn ho hm hL

example : ∃ (n : Nat) (s : ArcSys Nat) (o : ArcObj Nat), ArcReaches arcMax True n s ∧
    n < arcMax ∧ s.objs[0]? = some o ∧ o.made ≠ 0 :=
  ⟨_, arcEnd true ([.new 0 7, .call 0 (.downgrade 0)] ++ arcRun 0 2), ⟨1, 1, 7, true, 0, 0, false, 1, 1, false⟩,
    arcEnd_calm (by decide +kernel), by decide +kernel, by decide +kernel, by decide⟩

/-! ## C64 -/

/-- C64 is false: thread 0 has loaded `weak` for `downgrade`, then thread 1 completes a `downgrade`. From then
on thread 0 is stuck, whatever anybody does. -/
theorem C64_refuted : ∃ (n : Nat) (s : ArcSys Nat), ArcReaches arcMax True n s ∧ n < arcMax ∧
    s.threads[0]? = some (some (.down1 0 0 0)) ∧
    ∀ k s', ArcSteps arcMax False s k s' → n + k ≤ arcMax → s'.threads[0]? = some (some (.down1 0 0 0)) := by
  have h : ArcReaches arcMax True _ (arcEnd true ([.new 0 7, .call 0 (.downgrade 0), .call 1 (.downgrade 0),
    .run 0 {}] ++ arcRun 1 2)) := arcEnd_calm (by decide +kernel)
  have hn : 6 < arcMax := by decide +kernel
  exact ⟨_, _, h, hn, by decide +kernel, fun k s' hs hk =>
    ((h.inv (by exact Nat.le_of_lt hn)).stuck (o := ⟨1, 1, 7, true, 0, 0, false, 1, 1, false⟩) (by decide +kernel)
      (by decide +kernel) (by decide) (by decide +kernel) hs hk).1⟩

/-- C64 where no other thread interferes from the load of `weak` on, and no `get_mut` is under way: two steps
complete `downgrade`. -/
theorem C64_partial (h : ArcReaches mx calm n s) (hn : n < mx) {t i p : Nat}
    (ht : s.threads[t]? = some (some (.down i p)))
    (hno : ∀ (t' : Nat) (op : ArcOp α), s.threads[t']? = some (some op) → op.locks p = false)
    {ch ch' : ArcChoice α} (hc : ch'.fail = false) :
    ∃ v s1 s2, Arc.step mx ch t (.down i p) s = .ok () s1 ∧ s1.threads[t]? = some (some (.down1 i p v)) ∧
      Arc.step mx ch' t (.down1 i p v) s1 = .ok () s2 ∧ s2.threads[t]? = some none ∧
      s2.log = (t, .unit) :: s.log := by
  have I := h.inv (Nat.le_of_lt hn)
  obtain ⟨htl, -⟩ := List.getElem?_eq_some_iff.1 ht
  have hh := I.borrow_hand ht (h := i) (p := p) (by simp [borrowsAt])
  obtain ⟨o, ho⟩ := I.exists_obj (Or.inl (ArcInv.own_pos_of_hand hh))
  have hf : o.freed = false := by
    by_contra hx
    exact (I.freed_left ho (by simpa using hx)).1.1 i hh
  have hlk : s.lockers p = 0 := by
    refine List.countP_eq_zero.2 fun x hm hx => ?_
    obtain ⟨t', ht'⟩ := List.getElem?_of_mem hm
    cases x with
    | none => simp at hx
    | some op =>
      rw [on_some, hno t' op ht'] at hx
      cases hx
  have hw : o.weak ≤ n := by
    cases hl : o.lost
    · exact ((I.obj p o ho hl).open_ hlk).1
    · exact (I.lost p o ho hl).weak
  have hw2 : o.weak ≠ Arc.lock mx := by
    unfold Arc.lock
    omega
  refine ⟨o.weak, { s with threads := s.threads.set t (some (.down1 i p o.weak)) },
    ⟨s.objs.set p { o with weak := o.weak + 1, wk := o.wk + 1, made := o.made + 1 }, s.hands,
      (s.threads.set t (some (.down1 i p o.weak))).set t none, (t, .unit) :: s.log⟩,
    by simp [Arc.step, M.bind_apply, ArcInv.obj_ok ho hf, Arc.goto], List.getElem?_set_self htl, ?_, ?_, rfl⟩
  · have ho' : ({ s with threads := s.threads.set t (some (.down1 i p o.weak)) } : ArcSys α).objs[p]? =
        some o := ho
    simp only [Arc.step, M.bind_apply, ArcInv.obj_ok ho' hf, if_neg hw2, hc, and_self, if_true]
    rfl
  · simp [htl]

/-- C64: `downgrade` that has seen the lock looks again. -/
theorem C64_locked_partial (h : ArcReaches mx calm n s) (hn : n ≤ mx) {t i p : Nat}
    (ht : s.threads[t]? = some (some (.down1 i p (Arc.lock mx)))) (ch : ArcChoice α) :
    ∃ (o : ArcObj α) (s' : ArcSys α), s.objs[p]? = some o ∧
      Arc.step mx ch t (.down1 i p (Arc.lock mx)) s = .ok () s' ∧
      s'.threads[t]? = some (some (.down1 i p o.weak)) ∧ s'.objs = s.objs := by
  have I := h.inv hn
  obtain ⟨htl, -⟩ := List.getElem?_eq_some_iff.1 ht
  have hh := I.borrow_hand ht (h := i) (p := p) (by simp [borrowsAt])
  obtain ⟨o, ho⟩ := I.exists_obj (Or.inl (ArcInv.own_pos_of_hand hh))
  have hf : o.freed = false := by
    by_contra hx
    exact (I.freed_left ho (by simpa using hx)).1.1 i hh
  exact ⟨o, { s with threads := s.threads.set t (some (.down1 i p o.weak)) }, ho,
    by simp [Arc.step, M.bind_apply, ArcInv.obj_ok ho hf, Arc.goto],
    List.getElem?_set_self htl, rfl⟩

example : ∃ (n : Nat) (s : ArcSys Nat), ArcReaches arcMax True n s ∧ n < arcMax ∧
    s.threads[0]? = some (some (.down 0 0)) ∧
    ∀ (t' : Nat) (op : ArcOp Nat), s.threads[t']? = some (some op) → op.locks 0 = false := by
  refine ⟨_, arcEnd true [.new 0 7, .call 0 (.downgrade 0), .call 1 (.read 0)],
    arcEnd_calm (by decide +kernel), by decide +kernel, by decide +kernel, fun t' op ht => ?_⟩
  have : ∀ x ∈ (arcEnd true [.new 0 7, .call 0 (.downgrade 0), .call 1 (.read 0)]).threads,
      on (locks 0) x = false := by decide +kernel
  exact this _ (List.mem_of_getElem? ht)

example : ∃ (n : Nat) (s : ArcSys Nat), ArcReaches arcMax True n s ∧ n < arcMax ∧
    s.threads[0]? = some (some (.down1 0 0 (Arc.lock arcMax))) :=
  ⟨_, arcEnd true [.new 0 7, .call 0 (.clone 0), .run 0 {}, .call 0 (.downgrade 0), .call 1 (.getMut 1),
      .run 1 {}, .run 0 {}], arcEnd_calm (by decide +kernel), by decide +kernel, by decide +kernel⟩

/-! ## C65 -/

/-- C65 for objects at which `make_mut` was not refused memory: every step of `make_mut` either goes on, for
the same value, or gives access to a value equal to that from the beginning in an object that has no other
handle, no `Weak`, and no other thread working on it; or it panics and gives the handle back. -/
theorem C65_partial (h : ArcReaches mx calm n s) (hn : n < mx) {t : Nat} {op : ArcOp α} {v : α}
    (ht : s.threads[t]? = some (some op)) (hg : op.goal = some v) (hL : ¬ s.Lost op.main)
    (ch : ArcChoice α) :
    ∃ s', Arc.step mx ch t op s = .ok () s' ∧
    ((∃ op', s'.threads[t]? = some (some op') ∧ op'.goal = some v) ∨
      (∃ q o, s'.threads[t]? = some (some (.held q)) ∧ s'.objs[q]? = some o ∧ o.val = v ∧
        o.alive = true ∧ o.freed = false ∧ o.wk = 0 ∧ (∀ i : Nat, s'.hands[i]? ≠ some (some q)) ∧
        ∀ (t' : Nat) (op' : ArcOp α), t' ≠ t → s'.threads[t']? = some (some op') → op'.uses q = false) ∨
      (s'.threads[t]? = some none ∧ s'.log = (t, .panic) :: s.log ∧
        s'.hands = s.hands ++ [some op.main])) := by
  have I := h.inv (Nat.le_of_lt hn)
  obtain ⟨s', hs, I'⟩ := I.step_good hn ch ht hL
  refine ⟨s', hs, ?_⟩
  rcases I.goal_step ht hg hL hs with h1 | ⟨q, o, h1, h2, h3⟩ | h1
  · exact Or.inl h1
  · obtain ⟨o2, ho, -, ha, hf, -, -, hw, h4, h5⟩ := I'.held_alone h1
    obtain rfl : o2 = o := Option.some.inj (ho.symm.trans h2)
    exact Or.inr (Or.inl ⟨q, _, h1, h2, h3, ha, hf, hw, h4, h5⟩)
  · exact Or.inr (Or.inr h1)

/-- C65: `make_mut` begins with the value its handle reads. -/
theorem C65_begins {i p : Nat} {f : Nat → α → ArcOp α} (hc : (ArcCmd.makeMut i : ArcCmd α).takes = some (i, f))
    (x : α) : (f p x).goal = some x := by
  simp [ArcCmd.takes] at hc
  subst hc
  rfl

/-- C65, in all runs: no step changes the value of any object, but a write through a `&mut T` to it. -/
theorem C65_others_keep {ch : ArcChoice α} {t : Nat} {op : ArcOp α} {s' : ArcSys α}
    (hs : Arc.step mx ch t op s = .ok () s') {q : Nat} {o : ArcObj α} (ho : s.objs[q]? = some o)
    (hh : ∀ p, op = .held p → p ≠ q) : ∃ o' : ArcObj α, s'.objs[q]? = some o' ∧ o'.val = o.val := by
  obtain ⟨o', h1, h2, h3, -⟩ := step_objs hs q o ho
  refine ⟨o', h1, ?_⟩
  by_cases e : ∃ p, op = .held p
  · obtain ⟨p, rfl⟩ := e
    rw [h2 (by simpa [ArcOp.uses] using hh p rfl)]
  · exact h3 fun p hp => e ⟨p, hp⟩

/-- C65 is false: after `make_mut` was refused memory once, `make_mut` on a clone takes the value away from
the other handle. -/
theorem C65_refuted : ∃ (n : Nat) (s : ArcSys Nat), ArcReaches arcMax False n s ∧ n < arcMax ∧
    s.threads[0]? = some (some (.held 1)) ∧ s.hands[1]? = some (some 0) ∧
    s.threads[1]? = some (some (.read 1 0)) ∧
    ∀ ch, Arc.step arcMax ch 1 (.read 1 0) s = .ub .uninit :=
  ⟨_, arcEnd false (arcRefused ++ [.call 0 (.clone 1)] ++ arcRun 0 1 ++ [.call 0 (.makeMut 2)] ++
      arcRun 0 7 ++ [.call 1 (.read 1)]),
    arcEnd_any (by decide +kernel), by decide +kernel, by decide +kernel, by decide +kernel,
    by decide +kernel, fun _ => rfl⟩

/-- `make_mut` on one of two handles: the value was cloned, and the new object is there. -/
example : ∃ (n : Nat) (s : ArcSys Nat), ArcReaches arcMax True n s ∧ n < arcMax ∧
    s.threads[0]? = some (some (.mm5 0 7 1 false)) ∧ (ArcOp.mm5 0 7 1 false).goal = some 7 ∧ ¬ s.Lost 0 := by
  have h : ArcReaches arcMax True _ (arcEnd true ([.new 0 7, .call 0 (.clone 0)] ++ arcRun 0 1 ++
    [.call 0 (.makeMut 0)] ++ arcRun 0 4)) := arcEnd_calm (by decide +kernel)
  exact ⟨_, _, h, by decide +kernel, by decide +kernel, rfl, h.whole.not_lost 0⟩

/-! ## C66 -/

/-- C66 for objects at which `make_mut` was not refused memory: where no other thread is in the middle of
something, `strong_count` returns the number of handles. -/
theorem C66_partial (h : ArcReaches mx calm n s) (hn : n ≤ mx) {t i p : Nat}
    (ht : s.threads[t]? = some (some (.count i p)))
    (hidle : ∀ (t' : Nat) (x : Option (ArcOp α)), t' ≠ t → s.threads[t']? = some x → x = none)
    (hL : ¬ s.Lost p) (ch : ArcChoice α) :
    Arc.step mx ch t (.count i p) s = .ok () { s with
      threads := s.threads.set t none, log := (t, .nat (s.hands.count (some p))) :: s.log } := by
  have I := h.inv hn
  have hh := I.borrow_hand ht (h := i) (p := p) (by simp [borrowsAt])
  obtain ⟨o, ho, -, ha, hf, -, hst, -⟩ := I.live (ArcInv.own_pos_of_hand hh) hL
  have h0 : s.threads.countP (on (holds p)) = 0 := by
    refine List.countP_eq_zero.2 fun x hm hx => ?_
    obtain ⟨t', ht'⟩ := List.getElem?_of_mem hm
    by_cases e : t' = t
    · subst e
      rw [ht] at ht'
      cases ht'
      simp [holds] at hx
    · rw [hidle t' x e ht'] at hx
      simp at hx
  have : o.strong = s.hands.count (some p) := by
    rw [hst]
    unfold ArcSys.own
    omega
  simp [Arc.step, M.bind_apply, ArcInv.obj_ok ho hf, Arc.done, this]

/-- C66 is false: one handle, nothing pending, and `strong_count` is zero. -/
theorem C66_refuted : ∃ (n : Nat) (s : ArcSys Nat), ArcReaches arcMax False n s ∧ n < arcMax ∧
    s.hands = [none, some 0] ∧ s.threads = [none, none, none] ∧ s.log.head? = some (0, .nat 0) :=
  ⟨_, arcEnd false (arcRefused ++ [.call 0 (.count 1)] ++ arcRun 0 1), arcEnd_any (by decide +kernel),
    by decide +kernel, by decide +kernel, by decide +kernel, by decide +kernel⟩

example : ∃ (n : Nat) (s : ArcSys Nat), ArcReaches arcMax True n s ∧ n < arcMax ∧
    s.threads = [some (.count 0 0), none, none] ∧ s.hands.count (some 0) = 2 ∧ ¬ s.Lost 0 := by
  have h : ArcReaches arcMax True _ (arcEnd true ([.new 0 7, .call 1 (.clone 0)] ++ arcRun 1 1 ++
    [.call 0 (.count 0)])) := arcEnd_calm (by decide +kernel)
  exact ⟨_, _, h, by decide +kernel, by decide +kernel, by decide +kernel, h.whole.not_lost 0⟩

end Lokky
