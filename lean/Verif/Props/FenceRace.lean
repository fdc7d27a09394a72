import Verif.Model.FenceRace
import Verif.Props.Sending

/-!
# C133: a fence that several threads use
-/

namespace Lokky

/-- Two threads have the same `Urc` in an `Arc`. -/
def sharedFence : List (Nat × TCmd) := [(0, .num 1), (0, .newUrc 0), (0, .newArc 1), (0, .envelop 2 1)]

/-- Both threads clone the `Urc` at the same time, and drop what they have got. -/
def lostClone : List FSys.Act :=
  [.clone 0, .clone 1, .step 0, .step 1, .step 0, .step 1, .drop 0, .step 0, .step 0, .step 0, .drop 1, .step 1]

/-- C133 is false when two threads use one fence, as they can, since an `Arc<Urc<T>>` can be put into an envelope: both
clone the `Urc` in the `Arc`, and one of the clones is not counted. When both have dropped their clones the fence has been
released; the `Urc` in the `Arc` is still there. -/
theorem C133_race_refuted : ∃ prog P f, TSys.init.run prog = some P ∧ P.refs f = 1 ∧
    P.hand 0 2 = some (.arc (.urc .int), .ptr 2) ∧ P.hand 1 3 = some (.arc (.urc .int), .ptr 2) ∧ P.load 2 = some (.ptr f) ∧
    ⟨.count f, true, false⟩ ∈ P.accs true 0 (.inner 2) ∧ ⟨.count f, true, false⟩ ∈ P.accs true 1 (.inner 3) ∧
    ∃ as s, FSys.acts ⟨P.refs f, false, 1, [0, 0], [.idle, .idle]⟩ as = some s ∧ s.released = true ∧ s.handles = 1 ∧
      ∃ s', s.act (.clone 0) = some s' ∧ s'.step 0 = none :=
  ⟨sharedFence, _, 1, rfl, rfl, rfl, rfl, rfl, by decide, by decide, lostClone, _, rfl, rfl, rfl, _, rfl, rfl⟩

/-- No call is under way. -/
def FSys.quiet (s : FSys) : Prop := ∀ pc ∈ s.pcs, pc = .idle

/-- Runs in which a call begins only when no other is under way. -/
inductive FSerial : FSys → Prop
  | start {n : Nat} {hands : List Nat} {pcs : List FPc} : (∀ pc ∈ pcs, pc = .idle) → hands.length = pcs.length →
    FSerial ⟨n + hands.sum, false, n, hands, pcs⟩
  | step {s s' : FSys} (t : Nat) : FSerial s → s.step t = some s' → FSerial s'
  | clone {s s' : FSys} (t : Nat) : FSerial s → s.quiet → s.act (.clone t) = some s' → FSerial s'
  | drop {s s' : FSys} (t : Nat) : FSerial s → s.quiet → s.act (.drop t) = some s' → FSerial s'

/-- The count is exact between calls, and what a thread has read in a call is still so. -/
structure FExact (s : FSys) : Prop where
  len : s.hands.length = s.pcs.length
  exact : (s.quiet ∧ if s.released then s.handles = 0 else s.strong = s.handles) ∨
    (s.released = false ∧ s.strong = s.handles ∧ ∃ t pc, s.pcs[t]? = some pc ∧ (s.next t .idle).quiet ∧
      (match pc with
      | .idle => False
      | .clone => True
      | .cloned v => v = s.strong
      | .drop | .dropRead => s.hands[t]?.any (0 < ·)
      | .dropped v => v = s.strong ∧ s.hands[t]?.any (0 < ·)))

theorem sum_more (l : List Nat) (t : Nat) (h : t < l.length) : (l.modify t (· + 1)).sum = l.sum + 1 := by
  induction l generalizing t with
  | nil => simp at h
  | cons x l ih =>
    cases t with
    | zero => simp; omega
    | succ t =>
      simp only [List.modify_succ_cons, List.sum_cons, ih t (by simpa using h)]
      omega

theorem sum_less (l : List Nat) (t : Nat) (h : l[t]?.any (0 < ·)) : (l.modify t (· - 1)).sum + 1 = l.sum := by
  induction l generalizing t with
  | nil => simp at h
  | cons x l ih =>
    cases t with
    | zero =>
      simp only [List.getElem?_cons_zero, Option.any_some, decide_eq_true_eq] at h
      simp
      omega
    | succ t =>
      simp only [List.getElem?_cons_succ] at h
      simp only [List.modify_succ_cons, List.sum_cons, Nat.add_assoc, ih t h]

/-- The only thread that is in a call does the step. -/
theorem FSys.only {s : FSys} {t u : Nat} {pc pc' : FPc} (ht : s.pcs[t]? = some pc) (hq : (s.next t .idle).quiet)
    (hu : s.pcs[u]? = some pc') (hi : pc' ≠ .idle) : u = t := by
  by_contra hne
  refine hi (hq pc' ?_)
  simp only [FSys.next]
  refine List.mem_of_getElem? (i := u) ?_
  rw [List.getElem?_set_ne (Ne.symm hne)]
  exact hu

theorem FSys.quiet_next {s : FSys} {t : Nat} {pc : FPc} (hq : (s.next t .idle).quiet) :
    ((s.next t pc).next t .idle).quiet := by
  simpa [FSys.next, FSys.quiet, List.set_set] using hq

theorem FSys.pcs_next {s : FSys} {t : Nat} {pc pc' : FPc} (ht : s.pcs[t]? = some pc') : (s.next t pc).pcs[t]? = some pc :=
  List.getElem?_set_self (List.getElem?_eq_some_iff.mp ht).1

theorem FExact.step {s s' : FSys} {u : Nat} (h : FExact s) (hs : s.step u = some s') : FExact s' := by
  unfold FSys.step at hs
  rcases h.exact with ⟨hq, -⟩ | ⟨hr, hst, t, pc, ht, hq, hpc⟩
  · split at hs
    · cases hs
    · split at hs
      all_goals first
        | (next hu => cases hq _ (List.mem_of_getElem? hu))
        | cases hs
  · rw [hr] at hs
    simp only [Bool.false_eq_true, if_false] at hs
    split at hs
    · next hu =>
      obtain rfl := FSys.only ht hq hu (by simp)
      rw [hu] at ht; cases ht
      cases hs
      exact ⟨by simpa [FSys.next] using h.len, .inr ⟨hr, hst, u, _, FSys.pcs_next hu, FSys.quiet_next hq, rfl⟩⟩
    · next v hu =>
      obtain rfl := FSys.only ht hq hu (by simp)
      rw [hu] at ht; cases ht
      cases hs
      have hl : u < s.hands.length := h.len ▸ (List.getElem?_eq_some_iff.mp hu).1
      refine ⟨by simpa [FSys.next, FSys.more] using h.len, .inl ⟨hq, ?_⟩⟩
      simp only [FSys.more, FSys.next, hr, Bool.false_eq_true, if_false, FSys.handles, sum_more _ _ hl]
      simp only [FSys.handles] at hst
      simp only at hpc
      omega
    · next hu =>
      obtain rfl := FSys.only ht hq hu (by simp)
      rw [hu] at ht; cases ht
      split at hs
      · next h1 =>
        cases hs
        refine ⟨by simpa [FSys.next, FSys.less] using h.len, .inl ⟨hq, ?_⟩⟩
        have := sum_less _ _ hpc
        simp only [FSys.less, FSys.next, if_true, FSys.handles]
        simp only [FSys.handles] at hst
        omega
      · cases hs
        exact ⟨by simpa [FSys.next] using h.len, .inr ⟨hr, hst, u, _, FSys.pcs_next hu, FSys.quiet_next hq, hpc⟩⟩
    · next hu =>
      obtain rfl := FSys.only ht hq hu (by simp)
      rw [hu] at ht; cases ht
      cases hs
      exact ⟨by simpa [FSys.next] using h.len, .inr ⟨hr, hst, u, _, FSys.pcs_next hu, FSys.quiet_next hq, rfl, hpc⟩⟩
    · next v hu =>
      obtain rfl := FSys.only ht hq hu (by simp)
      rw [hu] at ht; cases ht
      cases hs
      refine ⟨by simpa [FSys.next, FSys.less] using h.len, .inl ⟨hq, ?_⟩⟩
      have := sum_less _ _ hpc.2
      simp only [FSys.less, FSys.next, hr, Bool.false_eq_true, if_false, FSys.handles]
      simp only [FSys.handles] at hst
      have := hpc.1
      omega
    · cases hs

theorem FSys.quiet_idle {s : FSys} (hq : s.quiet) (t : Nat) : (s.next t .idle).quiet := by
  intro pc hpc
  rcases List.mem_or_eq_of_mem_set hpc with h | h
  · exact hq pc h
  · exact h

theorem FSerial.exact {s : FSys} (h : FSerial s) : FExact s := by
  induction h with
  | start hq hl => exact ⟨hl, .inl ⟨hq, rfl⟩⟩
  | step t _ hs ih => exact ih.step hs
  | @clone s s' t _ hq hs ih =>
    simp only [FSys.act] at hs
    split at hs
    · next hc =>
      cases hs
      simp only [Bool.and_eq_true, FSys.free, beq_iff_eq, Bool.or_eq_true, decide_eq_true_eq] at hc
      obtain ⟨hf, hc⟩ := hc
      rcases ih.exact with ⟨-, he⟩ | ⟨-, -, t', pc, ht', -, hpc⟩
      · split at he
        · simp only [FSys.handles] at he
          rcases hc with hc | hc
          · omega
          · have := sum_less _ _ hc
            omega
        · next hr =>
          simp only [Bool.not_eq_true] at hr
          exact ⟨by simpa [FSys.next] using ih.len, .inr ⟨hr, he, t, _, FSys.pcs_next hf,
            FSys.quiet_next (FSys.quiet_idle hq t), trivial⟩⟩
      · rw [hq pc (List.mem_of_getElem? ht')] at hpc
        exact hpc.elim
    · cases hs
  | @drop s s' t _ hq hs ih =>
    simp only [FSys.act] at hs
    split at hs
    · next hc =>
      cases hs
      simp only [Bool.and_eq_true, FSys.free, beq_iff_eq] at hc
      obtain ⟨hf, hc⟩ := hc
      rcases ih.exact with ⟨-, he⟩ | ⟨-, -, t', pc, ht', -, hpc⟩
      · split at he
        · simp only [FSys.handles] at he
          have := sum_less _ _ hc
          omega
        · next hr =>
          simp only [Bool.not_eq_true] at hr
          exact ⟨by simpa [FSys.next] using ih.len, .inr ⟨hr, he, t, _, FSys.pcs_next hf,
            FSys.quiet_next (FSys.quiet_idle hq t), hc⟩⟩
      · rw [hq pc (List.mem_of_getElem? ht')] at hpc
        exact hpc.elim
    · cases hs

/-- C133 for a fence, in any number of threads, if calls do not overlap: between calls the count is the number of handles;
the fence is released when there is none, and not used afterwards. -/
theorem C133_serial_partial {s : FSys} (h : FSerial s) :
    (s.quiet → if s.released then s.handles = 0 else s.strong = s.handles) ∧
    (s.released = true → s.quiet ∧ s.handles = 0) ∧
    ∀ t pc, s.pcs[t]? = some pc → pc ≠ .idle → ∃ s', s.step t = some s' := by
  rcases h.exact.exact with ⟨hq, he⟩ | ⟨hr, hst, t, pc, ht, hq, hpc⟩
  · refine ⟨fun _ => he, fun hr => ⟨hq, by rwa [if_pos hr] at he⟩, ?_⟩
    intro t pc ht hi
    exact absurd (hq pc (List.mem_of_getElem? ht)) hi
  · refine ⟨fun hq' => ?_, fun hr' => (by rw [hr] at hr'; cases hr'), ?_⟩
    · rw [hq' pc (List.mem_of_getElem? ht)] at hpc
      exact hpc.elim
    · intro u pc' hu hi
      simp only [FSys.step, hr, Bool.false_eq_true, if_false, hu]
      cases pc' with
      | idle => exact absurd rfl hi
      | drop =>
        simp only
        split <;> exact ⟨_, rfl⟩
      | _ => exact ⟨_, rfl⟩

/-- Two threads that take turns. -/
example : ∃ s, FSys.acts ⟨1, false, 0, [1, 0], [.idle, .idle]⟩
      [.clone 0, .step 0, .step 0, .drop 0, .step 0, .step 0, .step 0, .drop 0, .step 0] = some s ∧
    s.released = true ∧ s.handles = 0 := ⟨_, rfl, rfl, rfl⟩

example : FSerial ⟨2, false, 1, [1, 0], [.idle, .idle]⟩ := FSerial.start (n := 1) (hands := [1, 0]) (pcs := [.idle, .idle]) (by simp) rfl

end Lokky
