import Verif.Proofs.ArcSole
import Verif.Props.Arc

/-!
# C91–C97: what `Arc` gives where it can

C58–C66 say that `Arc` does nothing wrong. These say that it does what it is called for: `clone` gives a
handle, `get_mut`, `make_mut` and `try_unwrap` on the only handle give access to the value, writes are seen by
reads, and all calls but `downgrade` end after a bounded number of steps of their thread, whatever the others
do. `s.Alone t p`: there is no handle of object `p` but the one thread `t` has taken, and no other thread is
working on the object (Verif/Proofs/ArcSole.lean).
-/

namespace Lokky
open ArcOp
variable {α : Type} {mx n : Nat} {calm : Prop} {s : ArcSys α}

/-! ## C91 -/

/-- C91 for objects at which `make_mut` was not refused memory: `clone` does not panic, and gives a handle of
the same object. -/
theorem C91_partial (h : ArcReaches mx calm n s) (hn : n ≤ mx) {t i p : Nat}
    (ht : s.threads[t]? = some (some (.clone i p))) (hL : ¬ s.Lost p) (ch : ArcChoice α) :
    ∃ s', Arc.step mx ch t (.clone i p) s = .ok () s' ∧ s'.hands = s.hands ++ [some p] ∧
      s'.threads[t]? = some none ∧ s'.log = (t, .unit) :: s.log ∧
      s'.objs.map (·.val) = s.objs.map (·.val) := by
  have I := h.inv hn
  obtain ⟨htl, -⟩ := List.getElem?_eq_some_iff.1 ht
  have hh := I.borrow_hand ht (h := i) (p := p) (by simp [borrowsAt])
  obtain ⟨o, ho, hlo, ha, hf, -, hst, -, hk⟩ := I.live (ArcInv.own_pos_of_hand hh) hL
  have hfew := hk.few
  have hle : ¬ o.strong > mx := by omega
  refine ⟨{ s with objs := s.objs.set p { o with strong := Arc.incr mx o.strong }
                   hands := s.hands ++ [some p], threads := s.threads.set t none
                   log := (t, .unit) :: s.log },
    by simp [Arc.step, M.bind_apply, ArcInv.obj_ok ho hf, Arc.put, hle, Arc.give, Arc.done], rfl,
    List.getElem?_set_self htl, rfl, ?_⟩
  rw [List.map_set]
  exact ArcInv.set_same (by simp [ho])

/-- C91 is false: after `make_mut` was refused memory once, and made use of a clone, `clone` panics. -/
theorem C91_refuted : ∃ (n : Nat) (s : ArcSys Nat), ArcReaches arcMax False n s ∧ n < arcMax ∧
    s.hands[1]? = some (some 0) ∧ s.threads[1]? = some (some (.clone 1 0)) ∧
    ∀ ch, ∃ s', Arc.step arcMax ch 1 (.clone 1 0) s = .ok () s' ∧ s'.log.head? = some (1, .panic) ∧
      s'.hands = s.hands :=
  ⟨_, arcEnd false (arcRefused ++ [.call 0 (.clone 1)] ++ arcRun 0 1 ++ [.call 0 (.makeMut 2)] ++
      arcRun 0 7 ++ [.call 1 (.clone 1)]), arcEnd_any (by decide +kernel), by decide +kernel,
    by decide +kernel, by decide +kernel, fun ch => by
      have e : ∀ s : ArcSys Nat, s.objs[0]? = some ⟨2 ^ 64 - 1, 3, 7, false, 1, 0, false, 1, 1, true⟩ →
          ∃ s', Arc.step arcMax ch 1 (.clone 1 0) s = .ok () s' ∧ s'.log.head? = some (1, .panic) ∧
            s'.hands = s.hands := fun s h =>
        ⟨{ s with objs := s.objs.set 0 ⟨0, 3, 7, false, 1, 0, false, 1, 1, true⟩
                  threads := s.threads.set 1 none, log := (1, .panic) :: s.log },
          by simp [Arc.step, M.bind_apply, Arc.obj, h, Arc.put, Arc.done, Arc.incr, Arc.lock, arcMax], rfl, rfl⟩
      exact e _ (by decide +kernel)⟩

example : ∃ (n : Nat) (s : ArcSys Nat), ArcReaches arcMax True n s ∧ n ≤ arcMax ∧
    s.threads[0]? = some (some (.clone 0 0)) ∧ s.threads[1]? = some (some (.drop0 0)) ∧ ¬ s.Lost 0 := by
  have h : ArcReaches arcMax True _ (arcEnd true ([.new 0 7, .call 0 (.clone 0)] ++ arcRun 0 1 ++
    [.call 0 (.clone 0), .call 1 (.drop 1)])) := arcEnd_calm (by decide +kernel)
  exact ⟨_, _, h, by decide +kernel, by decide +kernel, by decide +kernel, h.whole.not_lost 0⟩

/-! ## C92 -/

/-- `get_mut` is on its way, and has not seen another handle. -/
def ArcSys.Getting (s : ArcSys α) (t p : Nat) : Prop :=
  s.threads[t]? = some (some (.get0 p)) ∨ s.threads[t]? = some (some (.get1 p)) ∨
    s.threads[t]? = some (some (.get2 p true))

/-- C92 for values that never had a `Weak`. If `get_mut` is called on the only handle, then whatever happens
next, in any thread, `get_mut` has given access or is still on its way to do so. (It gets there by C96.) -/
theorem C92_partial (h : ArcReaches mx calm n s) (hn : n < mx) {t p : Nat} (hg : s.Getting t p)
    (ha : s.Alone t p) {o : ArcObj α} (ho : s.objs[p]? = some o) (hm : o.made = 0) {s' : ArcSys α}
    (hs : ArcStep mx calm s s') :
    s'.threads[t]? = some (some (.held p)) ∨
    (s'.Getting t p ∧ s'.Alone t p ∧ ∃ o' : ArcObj α, s'.objs[p]? = some o' ∧ o'.made = 0) := by
  have I := h.inv (Nat.le_of_lt hn)
  have hL := I.unmade_not_lost ho hm
  obtain ⟨op, ht, he, hop⟩ : ∃ op, s.threads[t]? = some (some op) ∧ op.holds p = true ∧
      (op = .get0 p ∨ op = .get1 p ∨ op = .get2 p true) := by
    rcases hg with e | e | e
    · exact ⟨_, e, by simp [holds], Or.inl rfl⟩
    · exact ⟨_, e, by simp [holds], Or.inr (Or.inl rfl)⟩
    · exact ⟨_, e, by simp [holds], Or.inr (Or.inr rfl)⟩
  obtain ⟨htl, -⟩ := List.getElem?_eq_some_iff.1 ht
  obtain ⟨hpl, -⟩ := List.getElem?_eq_some_iff.1 ho
  have h1 := (I.alone_iff hL ht he).1 ha
  have hlo := ArcInv.not_lost hL ho
  have hk := I.obj p o ho hlo
  obtain ⟨_, hf, -, hst, -⟩ := hk.live (by omega)
  rcases I.alone_step hn hs hL ht he ha ho with ⟨ch, hs'⟩ | ⟨g1, g2, -, w, g3⟩
  · rcases hop with rfl | rfl | rfl
    · have hlk := ArcInv.no_lockers ht (by simp [holds]) (by simp [locks]) h1
      have hw := hk.unmade hlk hm
      simp [Arc.step, M.bind_apply, ArcInv.obj_ok ho hf, Arc.put, Arc.goto, hw] at hs'
      have e1 : s'.threads[t]? = some (some (.get1 p)) := by
        subst hs'; exact List.getElem?_set_self htl
      have e2 : s'.objs[p]? = some { o with weak := Arc.lock mx } := by
        subst hs'; exact List.getElem?_set_self hpl
      exact Or.inr ⟨Or.inr (Or.inl e1), I.alone_own hn hs hL ht he ha ho e1 (by simp [holds]) e2 rfl hlo,
        _, e2, hm⟩
    · have hs1 : o.strong = 1 := by omega
      simp [Arc.step, M.bind_apply, ArcInv.obj_ok ho hf, Arc.goto, hs1] at hs'
      have e1 : s'.threads[t]? = some (some (.get2 p true)) := by
        subst hs'; exact List.getElem?_set_self htl
      have e2 : s'.objs[p]? = some o := by subst hs'; exact ho
      exact Or.inr ⟨Or.inr (Or.inr e1), I.alone_own hn hs hL ht he ha ho e1 (by simp [holds]) e2 rfl hlo,
        _, e2, hm⟩
    · simp [Arc.step, M.bind_apply, ArcInv.obj_ok ho hf, Arc.put, Arc.goto] at hs'
      exact Or.inl (by subst hs'; exact List.getElem?_set_self htl)
  · refine Or.inr ⟨?_, g2, _, g3, hm⟩
    rcases hop with rfl | rfl | rfl
    · exact Or.inl g1
    · exact Or.inr (Or.inl g1)
    · exact Or.inr (Or.inr g1)

/-- C92 is false: there was a `Weak`, which is gone, and `get_mut` on the only handle gives `None`. -/
theorem C92_refuted : ∃ (n : Nat) (s : ArcSys Nat), ArcReaches arcMax True n s ∧ n < arcMax ∧
    s.hands = [none, some 0] ∧ s.threads = [none, none, none] ∧ (s.objs[0]?).map (·.wk) = some 0 ∧
    s.log.head? = some (0, .no) :=
  ⟨_, arcEnd true ([.new 0 7, .call 0 (.downgrade 0)] ++ arcRun 0 2 ++ [.dropWeak 0, .call 0 (.getMut 0)] ++
      arcRun 0 1), arcEnd_calm (by decide +kernel), by decide +kernel, by decide +kernel, by decide +kernel,
    by decide +kernel, by decide +kernel⟩

/-- Another handle was there and is gone; another thread works on another object. -/
def arcSole (cmd : ArcCmd Nat) : List (ArcAct Nat) :=
  [.new 0 7, .new 1 8, .call 0 (.clone 0)] ++ arcRun 0 1 ++ [.call 0 (.drop 2)] ++ arcRun 0 1 ++
    [.call 1 (.read 1), .call 0 cmd]

theorem alone_example {s : ArcSys Nat} {x : Option (ArcOp Nat)} (h1 : s.hands = [none, some 1, none])
    (h2 : s.threads = [x, some (.read 1 1), none]) : s.Alone 0 0 := by
  refine ⟨fun i hi => ?_, fun t' op ne ht => ?_⟩
  · rw [h1] at hi
    rcases i with _ | _ | _ | i <;> simp at hi
  · rw [h2] at ht
    rcases t' with _ | _ | _ | t'
    · exact absurd rfl ne
    · simp at ht
      subst ht
      rfl
    · simp at ht
    · simp at ht

example : ∃ (n : Nat) (s : ArcSys Nat) (o : ArcObj Nat), ArcReaches arcMax True n s ∧ n < arcMax ∧
    s.Getting 0 0 ∧ s.Alone 0 0 ∧ s.objs[0]? = some o ∧ o.made = 0 :=
  ⟨_, arcEnd true (arcSole (.getMut 0)), ⟨1, 0, 7, true, 0, 0, false, 0, 0, false⟩,
    arcEnd_calm (by decide +kernel), by decide +kernel, Or.inl (by decide +kernel),
    alone_example (by decide +kernel) (by decide +kernel : _ = [some (.get0 0), _, _]), by decide +kernel, rfl⟩

/-! ## C93 -/

/-- C93 for objects at which `make_mut` was not refused memory: `try_unwrap` on the only handle wins. (It then
returns the value, by C62 and C96.) -/
theorem C93_partial (h : ArcReaches mx calm n s) (hn : n ≤ mx) {t p : Nat}
    (ht : s.threads[t]? = some (some (.unw0 p))) (hL : ¬ s.Lost p) (ha : s.Alone t p) (ch : ArcChoice α) :
    ∃ s', Arc.step mx ch t (.unw0 p) s = .ok () s' ∧ s'.threads[t]? = some (some (.unw1 p)) := by
  have I := h.inv hn
  obtain ⟨htl, -⟩ := List.getElem?_eq_some_iff.1 ht
  have h1 := (I.alone_iff hL ht (by simp [holds])).1 ha
  obtain ⟨o, ho, -, -, hf, -, hst, -, -⟩ := I.live (by omega) hL
  have hs1 : o.strong = 1 := by omega
  exact ⟨{ s with objs := s.objs.set p { o with strong := 0 }, threads := s.threads.set t (some (.unw1 p)) },
    by simp [Arc.step, M.bind_apply, ArcInv.obj_ok ho hf, hs1, Arc.put, Arc.goto], List.getElem?_set_self htl⟩

/-- C93 is false: after `make_mut` was refused memory, `try_unwrap` on the only handle fails. -/
theorem C93_refuted : ∃ (n : Nat) (s : ArcSys Nat), ArcReaches arcMax False n s ∧ n < arcMax ∧
    s.hands = [none, none, some 0] ∧ s.threads = [none, none, none] ∧ s.log.head? = some (0, .err) :=
  ⟨_, arcEnd false (arcRefused ++ [.call 0 (.tryUnwrap 1)] ++ arcRun 0 1), arcEnd_any (by decide +kernel),
    by decide +kernel, by decide +kernel, by decide +kernel, by decide +kernel⟩

example : ∃ (n : Nat) (s : ArcSys Nat), ArcReaches arcMax True n s ∧ n ≤ arcMax ∧
    s.threads[0]? = some (some (.unw0 0)) ∧ ¬ s.Lost 0 ∧ s.Alone 0 0 := by
  have h : ArcReaches arcMax True _ (arcEnd true (arcSole (.tryUnwrap 0))) := arcEnd_calm (by decide +kernel)
  exact ⟨_, _, h, by decide +kernel, by decide +kernel, h.whole.not_lost 0,
    alone_example (by decide +kernel) (by decide +kernel : _ = [some (.unw0 0), _, _])⟩

/-! ## C94 -/

/-- C94, in all runs: what a client writes through the `&mut T` from `get_mut` or `make_mut` is the value of the
object then. -/
theorem C94_write (h : ArcReaches mx calm n s) (hn : n ≤ mx) {t p : Nat}
    (ht : s.threads[t]? = some (some (.held p))) {ch : ArcChoice α} {x : α} (hx : ch.write = some x) :
    ∃ (o : ArcObj α) (s' : ArcSys α), s.objs[p]? = some o ∧ Arc.step mx ch t (.held p) s = .ok () s' ∧
      s'.objs[p]? = some { o with val := x } ∧ s'.threads = s.threads ∧ s'.hands = s.hands := by
  obtain ⟨o, ho, -, ha, hf, -⟩ := (h.inv hn).held_alone ht
  obtain ⟨hpl, -⟩ := List.getElem?_eq_some_iff.1 ho
  exact ⟨o, { s with objs := s.objs.set p { o with val := x } }, ho,
    by simp [Arc.step, M.bind_apply, ArcInv.obj_ok ho hf, ArcInv.data_ok ho hf ha, Arc.put, hx],
    List.getElem?_set_self hpl, rfl, rfl⟩

/-- C94, in all runs: when the client lets go of the `&mut T`, it has its handle back. -/
theorem C94_return (h : ArcReaches mx calm n s) (hn : n ≤ mx) {t p : Nat}
    (ht : s.threads[t]? = some (some (.held p))) {ch : ArcChoice α} (hx : ch.write = none) :
    Arc.step mx ch t (.held p) s = .ok () { s with
      hands := s.hands ++ [some p], threads := s.threads.set t none, log := (t, .unit) :: s.log } := by
  obtain ⟨o, ho, -, ha, hf, -⟩ := (h.inv hn).held_alone ht
  simp [Arc.step, M.bind_apply, ArcInv.obj_ok ho hf, ArcInv.data_ok ho hf ha, Arc.give, Arc.done, hx]

/-- C94, in all runs: nothing else changes the value of an object. What a read returns then is said by C58. -/
theorem C94_only {s' : ArcSys α} (hs : ArcStep mx calm s s') {p : Nat} {o : ArcObj α}
    (ho : s.objs[p]? = some o) :
    ∃ o' : ArcObj α, s'.objs[p]? = some o' ∧ (o'.val = o.val ∨
      ∃ t ch x, s.threads[t]? = some (some (.held p)) ∧ ch.write = some x ∧
        Arc.step mx ch t (.held p) s = .ok () s' ∧ o'.val = x) := by
  obtain ⟨hpl, -⟩ := List.getElem?_eq_some_iff.1 ho
  cases hs with
  | new t x ht => exact ⟨o, by simpa [List.getElem?_append_left hpl] using ho, Or.inl rfl⟩
  | borrow t cmd ht hc hh => exact ⟨o, ho, Or.inl rfl⟩
  | take t cmd ht hc hh ho' hu => exact ⟨o, ho, Or.inl rfl⟩
  | dropWeak q ho' hw =>
    by_cases e : q = p
    · subst e
      rw [ho] at ho'
      cases ho'
      exact ⟨{ o with wk := o.wk - 1 }, by simp [List.getElem?_set_self hpl], Or.inl rfl⟩
    · exact ⟨o, by simpa [List.getElem?_set_ne e] using ho, Or.inl rfl⟩
  | @run t ch _ _ op ht hs hl =>
    obtain ⟨o', h1, h2, h3, -⟩ := step_objs hs p o ho
    refine ⟨o', h1, ?_⟩
    by_cases e : op = .held p
    · subst e
      cases hf : o.freed
      · cases ha : o.alive
        · simp [Arc.step, M.bind_apply, Arc.obj, Arc.data, ho, hf, ha] at hs
        · cases hw : ch.write with
          | none =>
            have hs2 := hs
            simp [Arc.step, M.bind_apply, Arc.obj, Arc.data, ho, hf, ha, hw, Arc.give, Arc.done] at hs2
            subst hs2
            rw [ho] at h1
            cases h1
            exact Or.inl rfl
          | some x =>
            refine Or.inr ⟨t, ch, x, ht, hw, hs, ?_⟩
            simp [Arc.step, M.bind_apply, Arc.obj, Arc.data, ho, hf, ha, hw, Arc.put] at hs
            subst hs
            rw [List.getElem?_set_self hpl] at h1
            cases h1
            rfl
      · simp [Arc.step, M.bind_apply, Arc.obj, ho, hf] at hs
    · left
      by_cases e2 : ∃ q, op = .held q
      · obtain ⟨q, rfl⟩ := e2
        rw [h2 (by simpa [uses] using fun hq : q = p => e (by rw [hq]))]
      · exact h3 fun q hq => e2 ⟨q, hq⟩

/-- `get_mut`, write 9, let go, read. -/
example : (arcEnd true ([.new 0 7, .call 0 (.getMut 0)] ++ arcRun 0 3 ++ [.run 0 { write := some 9 }] ++
    arcRun 0 1 ++ [.call 1 (.read 1)] ++ arcRun 1 1)).log = [(1, .val 9), (0, .unit)] := by decide +kernel

example : ∃ (n : Nat) (s : ArcSys Nat), ArcReaches arcMax True n s ∧ n ≤ arcMax ∧
    s.threads[0]? = some (some (.held 0)) ∧ (s.objs[0]?).map (·.val) = some 7 :=
  ⟨_, arcEnd true ([.new 0 7, .call 0 (.getMut 0)] ++ arcRun 0 3), arcEnd_calm (by decide +kernel),
    by decide +kernel, by decide +kernel, by decide +kernel⟩

/-! ## C95 -/

/-- C95, as far as it is true, in all runs: `weak_count` is never less than the number of `Weak` handles, and is
zero if there never was one. -/
theorem C95_partial (h : ArcReaches mx calm n s) (hn : n ≤ mx) {t i p : Nat}
    (ht : s.threads[t]? = some (some (.wcount i p))) (ch : ArcChoice α) :
    ∃ (o : ArcObj α) (k : Nat), s.objs[p]? = some o ∧ Arc.step mx ch t (.wcount i p) s = .ok () { s with
      threads := s.threads.set t none, log := (t, .nat k) :: s.log } ∧ o.wk ≤ k ∧ (o.made = 0 → k = 0) := by
  have I := h.inv hn
  have hh := I.borrow_hand ht (h := i) (p := p) (by simp [borrowsAt])
  have hp := ArcInv.own_pos_of_hand hh
  obtain ⟨o, ho⟩ := I.exists_obj (Or.inl hp)
  have hf : o.freed = false := by
    by_contra hc
    have := ((I.freed_left ho (by simpa using hc)).1).1 i
    exact this hh
  refine ⟨o, if o.weak = Arc.lock mx then 0 else o.weak, ho,
    by simp [Arc.step, M.bind_apply, ArcInv.obj_ok ho hf, Arc.done], ?_⟩
  have hlock : Arc.lock mx = 2 * mx + 1 := rfl
  cases hl : o.lost
  · have hk := I.obj p o ho hl
    by_cases hz : s.lockers p = 0
    · obtain ⟨k1, k2, k3⟩ := hk.open_ hz
      rw [if_neg (by omega)]
      exact ⟨by omega, fun hm => hk.unmade hz hm⟩
    · obtain ⟨k1, k2, k3⟩ := hk.locked (by have := hk.oneLock; omega)
      rw [if_pos k1]
      exact ⟨by omega, fun _ => rfl⟩
  · obtain ⟨-, k1, k2, k3, k4, -⟩ := I.lost p o ho hl
    rw [if_neg (by omega)]
    exact ⟨by omega, fun hm => by omega⟩

/-- C95 is false: the only `Weak` is gone, and `weak_count` is one. -/
theorem C95_refuted : ∃ (n : Nat) (s : ArcSys Nat), ArcReaches arcMax True n s ∧ n < arcMax ∧
    s.threads = [none, none, none] ∧ (s.objs[0]?).map (·.wk) = some 0 ∧ s.log.head? = some (0, .nat 1) :=
  ⟨_, arcEnd true ([.new 0 7, .call 0 (.downgrade 0)] ++ arcRun 0 2 ++ [.dropWeak 0, .call 0 (.wcount 0)] ++
      arcRun 0 1), arcEnd_calm (by decide +kernel), by decide +kernel, by decide +kernel, by decide +kernel,
    by decide +kernel⟩

example : ∃ (n : Nat) (s : ArcSys Nat), ArcReaches arcMax True n s ∧ n ≤ arcMax ∧
    s.threads[1]? = some (some (.wcount 0 0)) ∧ (s.objs[0]?).map (·.wk) = some 2 :=
  ⟨_, arcEnd true ([.new 0 7, .call 0 (.downgrade 0)] ++ arcRun 0 2 ++ [.call 0 (.downgrade 0)] ++ arcRun 0 2 ++
      [.call 1 (.wcount 0)]), arcEnd_calm (by decide +kernel), by decide +kernel, by decide +kernel,
    by decide +kernel⟩

/-! ## C96 -/

/-- C96, in all runs where `make_mut` is not refused memory: unless a `compare_exchange_weak` fails without
reason, every step of a thread that is in a call other than `downgrade`, and does not have its `&mut T` yet,
ends the call or leaves fewer steps to go. `ArcOp.left` is the number of steps to go, at most 10. -/
theorem C96_partial (h : ArcReaches mx True n s) (hn : n < mx) {t : Nat} {op : ArcOp α}
    (ht : s.threads[t]? = some (some op)) (hd : ∀ i p, op ≠ .down i p) (hd1 : ∀ i p v, op ≠ .down1 i p v)
    (hh : ∀ p, op ≠ .held p) {ch : ArcChoice α} (hc : ch.fail = false) :
    ∃ s', Arc.step mx ch t op s = .ok () s' ∧
      (s'.threads[t]? = some none ∨ ∃ op', s'.threads[t]? = some (some op') ∧ op'.left < op.left) := by
  obtain ⟨s', hs⟩ := C58_calm_partial h hn ht ch
  refine ⟨s', hs, ?_⟩
  by_cases hm : ∃ p v w, op = .mm2 p v w
  · obtain ⟨p, v, w, rfl⟩ := hm
    obtain ⟨htl, -⟩ := List.getElem?_eq_some_iff.1 ht
    obtain ⟨o, ho, hw⟩ := h.mm2_weak (Nat.le_of_lt hn) ht
    cases hf : o.freed
    · simp [Arc.step, M.bind_apply, ArcInv.obj_ok ho hf, Arc.put, Arc.goto, hw, hc] at hs
      subst hs
      exact Or.inr ⟨_, List.getElem?_set_self htl, by simp [ArcOp.left]⟩
    · simp [Arc.step, M.bind_apply, Arc.obj, ho, hf] at hs
  · exact step_left ht hs hd hd1 hh fun p v w e => hm ⟨p, v, w, e⟩

/-- C96: steps of other threads do not put a call back. -/
theorem C96_others {s' : ArcSys α} (hs : ArcStep mx calm s s') {t : Nat} {op : ArcOp α}
    (ht : s.threads[t]? = some (some op)) :
    s'.threads[t]? = some (some op) ∨ ∃ ch, Arc.step mx ch t op s = .ok () s' := hs.thread ht

/-- C96: no call has more than ten steps to go. -/
theorem C96_bound (op : ArcOp α) : op.left ≤ 10 := by cases op <;> simp [ArcOp.left]

/-- C96 is false for `downgrade`: see C64. -/
theorem C96_refuted : ∃ (n : Nat) (s : ArcSys Nat), ArcReaches arcMax True n s ∧ n < arcMax ∧
    s.threads[0]? = some (some (.down1 0 0 0)) ∧
    ∀ k s', ArcSteps arcMax False s k s' → n + k ≤ arcMax → s'.threads[0]? = some (some (.down1 0 0 0)) :=
  C64_refuted

example : ∃ (n : Nat) (s : ArcSys Nat), ArcReaches arcMax True n s ∧ n < arcMax ∧
    s.threads[0]? = some (some (.mm2 0 7 1)) :=
  ⟨_, arcEnd true ([.new 0 7, .call 0 (.downgrade 0)] ++ arcRun 0 2 ++ [.call 0 (.makeMut 0)] ++ arcRun 0 2),
    arcEnd_calm (by decide +kernel), by decide +kernel, by decide +kernel⟩

/-! ## C97 -/

/-- `make_mut` is on its way, and has not seen another handle. -/
def ArcSys.Making (s : ArcSys α) (t p : Nat) (v : α) : Prop :=
  s.threads[t]? = some (some (.mm0 p v)) ∨ s.threads[t]? = some (some (.mm1 p v 1))

/-- C97 for values that never had a `Weak`. If `make_mut` is called on the only handle, then whatever happens
next, in any thread, `make_mut` has given access to the same object, or is still on its way to do so: it neither
clones nor allocates nor panics. (It gets there by C96, and the value is the same by C65.) -/
theorem C97_partial (h : ArcReaches mx calm n s) (hn : n < mx) {t p : Nat} {v : α} (hg : s.Making t p v)
    (ha : s.Alone t p) {o : ArcObj α} (ho : s.objs[p]? = some o) (hm : o.made = 0) {s' : ArcSys α}
    (hs : ArcStep mx calm s s') :
    s'.threads[t]? = some (some (.held p)) ∨
    (s'.Making t p v ∧ s'.Alone t p ∧ ∃ o' : ArcObj α, s'.objs[p]? = some o' ∧ o'.made = 0) := by
  have I := h.inv (Nat.le_of_lt hn)
  have hL := I.unmade_not_lost ho hm
  obtain ⟨op, ht, he, hop⟩ : ∃ op, s.threads[t]? = some (some op) ∧ op.holds p = true ∧
      (op = .mm0 p v ∨ op = .mm1 p v 1) := by
    rcases hg with e | e
    · exact ⟨_, e, by simp [holds], Or.inl rfl⟩
    · exact ⟨_, e, by simp [holds], Or.inr rfl⟩
  obtain ⟨htl, -⟩ := List.getElem?_eq_some_iff.1 ht
  have h1 := (I.alone_iff hL ht he).1 ha
  have hlo := ArcInv.not_lost hL ho
  have hk := I.obj p o ho hlo
  obtain ⟨_, hf, -, hst, -⟩ := hk.live (by omega)
  rcases I.alone_step hn hs hL ht he ha ho with ⟨ch, hs'⟩ | ⟨g1, g2, -, w, g3⟩
  · rcases hop with rfl | rfl
    · have hs1 : o.strong = 1 := by omega
      simp [Arc.step, M.bind_apply, ArcInv.obj_ok ho hf, Arc.goto, hs1] at hs'
      have e1 : s'.threads[t]? = some (some (.mm1 p v 1)) := by
        subst hs'; exact List.getElem?_set_self htl
      have e2 : s'.objs[p]? = some o := by subst hs'; exact ho
      exact Or.inr ⟨Or.inr e1, I.alone_own hn hs hL ht he ha ho e1 (by simp [holds]) e2 rfl hlo, _, e2, hm⟩
    · have hlk := ArcInv.no_lockers ht (by simp [holds]) (by simp [locks]) h1
      have hw := hk.unmade hlk hm
      simp [Arc.step, M.bind_apply, ArcInv.obj_ok ho hf, Arc.goto, hw] at hs'
      exact Or.inl (by subst hs'; exact List.getElem?_set_self htl)
  · refine Or.inr ⟨?_, g2, _, g3, hm⟩
    rcases hop with rfl | rfl
    · exact Or.inl g1
    · exact Or.inr g1

/-- C97 is false: there was a `Weak`, which is gone, and `make_mut` on the only handle allocates; refused memory,
it panics. -/
theorem C97_refuted : ∃ (n : Nat) (s : ArcSys Nat), ArcReaches arcMax False n s ∧ n < arcMax ∧
    s.hands = [none, some 0] ∧ s.threads = [none, none, none] ∧ (s.objs[0]?).map (·.wk) = some 0 ∧
    s.log.head? = some (0, .panic) :=
  ⟨_, arcEnd false ([.new 0 7, .call 0 (.downgrade 0)] ++ arcRun 0 2 ++ [.dropWeak 0, .call 0 (.makeMut 0)] ++
      arcRun 0 5 ++ [.run 0 { grant := false }]), arcEnd_any (by decide +kernel), by decide +kernel,
    by decide +kernel, by decide +kernel, by decide +kernel, by decide +kernel⟩

example : ∃ (n : Nat) (s : ArcSys Nat) (o : ArcObj Nat), ArcReaches arcMax True n s ∧ n < arcMax ∧
    s.Making 0 0 7 ∧ s.Alone 0 0 ∧ s.objs[0]? = some o ∧ o.made = 0 :=
  ⟨_, arcEnd true (arcSole (.makeMut 0)), ⟨1, 0, 7, true, 0, 0, false, 0, 0, false⟩,
    arcEnd_calm (by decide +kernel), by decide +kernel, Or.inl (by decide +kernel),
    alone_example (by decide +kernel) (by decide +kernel : _ = [some (.mm0 0 7), _, _]), by decide +kernel, rfl⟩

end Lokky
