import Verif.Proofs.ArcRun

/-! What the invariant of the `Arc` system says about handles, pending operations and released objects. -/

namespace Lokky
variable {α : Type} {mx n : Nat} {s : ArcSys α}

open ArcOp ArcSys

/-- There is no handle of object `p`, and no thread is working on it. -/
def ArcSys.Left (s : ArcSys α) (p : Nat) : Prop :=
  (∀ h : Nat, s.hands[h]? ≠ some (some p)) ∧
    ∀ (t : Nat) (op : ArcOp α), s.threads[t]? = some (some op) → op.uses p = false

theorem ArcOp.uses_busy {op : ArcOp α} {q : Nat} (e : op.uses q = true) :
    op.holds q = true ∨ op.ends q = true ∨ ∃ h, op.borrowsAt h q = true := by
  cases op with
  | fin1 p k =>
    rcases k with _ | ⟨r, v⟩
    · simp_all [uses, holds, ends]
    · simp [uses, holds, ends] at e ⊢; tauto
  | fin2 p k =>
    rcases k with _ | ⟨r, v⟩
    · simp_all [uses, holds, ends]
    · simp [uses, holds, ends] at e ⊢; tauto
  | fin3 p k =>
    rcases k with _ | ⟨r, v⟩
    · simp_all [uses, holds, ends]
    · simp [uses, holds, ends] at e ⊢; tauto
  | mmA p v x z => cases z <;> simp_all [uses, holds, ends]
  | mm5 p v r z => cases z <;> simp [uses, holds, ends] at e ⊢ <;> tauto
  | _ => simp_all [uses, holds, ends, borrowsAt]

theorem ArcOp.busy_uses {op : ArcOp α} {q : Nat} (e : op.holds q = true ∨ op.ends q = true) :
    op.uses q = true := by
  cases op with
  | fin1 p k =>
    rcases k with _ | ⟨r, v⟩
    · simp_all [uses, holds, ends]
    · simp [uses, holds, ends] at e ⊢; tauto
  | fin2 p k =>
    rcases k with _ | ⟨r, v⟩
    · simp_all [uses, holds, ends]
    · simp [uses, holds, ends] at e ⊢; tauto
  | fin3 p k =>
    rcases k with _ | ⟨r, v⟩
    · simp_all [uses, holds, ends]
    · simp [uses, holds, ends] at e ⊢; tauto
  | mmA p v x z => cases z <;> simp_all [uses, holds, ends]
  | mm5 p v r z => cases z <;> simp [uses, holds, ends] at e ⊢ <;> tauto
  | _ => simp_all [uses, holds, ends]

namespace ArcInv

theorem borrow_hand (I : ArcInv mx n s) {t : Nat} {op : ArcOp α}
    (ht : s.threads[t]? = some (some op)) {h p : Nat} (e : op.borrowsAt h p = true) :
    s.hands[h]? = some (some p) := by
  have := I.op t op ht
  cases op <;> simp [borrowsAt] at e <;> obtain ⟨rfl, rfl⟩ := e <;>
    simpa [ArcFacts, ArcNeeds, ArcLoose] using this

/-- Whoever works on an object owns a handle of it, borrows one, or brings it to an end. -/
theorem uses_pos (I : ArcInv mx n s) {t : Nat} {op : ArcOp α} (ht : s.threads[t]? = some (some op))
    {p : Nat} (e : op.uses p = true) : 1 ≤ s.own p ∨ 1 ≤ s.tails p := by
  rcases uses_busy e with h | h | ⟨h, hb⟩
  · exact Or.inl (own_pos_of_holds ht h)
  · exact Or.inr (tails_pos_of_ends ht h)
  · exact Or.inl (own_pos_of_hand (I.borrow_hand ht hb))

theorem left_iff (I : ArcInv mx n s) (p : Nat) : s.Left p ↔ s.own p = 0 ∧ s.tails p = 0 := by
  constructor
  · rintro ⟨h1, h2⟩
    have e1 : s.hands.count (some p) = 0 := by
      refine List.count_eq_zero.2 fun hm => ?_
      obtain ⟨h, hh⟩ := List.getElem?_of_mem hm
      exact h1 h hh
    have e : ∀ f : ArcOp α → Bool, (∀ op, f op = true → op.uses p = true) →
        s.threads.countP (on f) = 0 := by
      intro f hf
      refine List.countP_eq_zero.2 fun x hm hx => ?_
      obtain ⟨t, ht⟩ := List.getElem?_of_mem hm
      cases x with
      | none => simp at hx
      | some op =>
        rw [on_some] at hx
        have := h2 t op ht
        rw [hf op hx] at this
        cases this
    refine ⟨?_, e _ fun op h => busy_uses (Or.inr h)⟩
    unfold own
    rw [e1, e _ fun op h => busy_uses (Or.inl h)]
  · rintro ⟨h1, h2⟩
    refine ⟨fun h hh => ?_, fun t op ht => ?_⟩
    · have := own_pos_of_hand hh
      omega
    · by_contra hc
      rcases I.uses_pos ht (p := p) (by simpa using hc) with h | h <;> omega

/-- A released object is out of reach. -/
theorem freed_left (I : ArcInv mx n s) {p : Nat} {o : ArcObj α} (ho : s.objs[p]? = some o)
    (hf : o.freed = true) :
    s.Left p ∧ o.lost = false ∧ o.alive = false ∧ o.outs = 1 ∧ o.weak = 0 ∧ o.wk = 0 ∧ o.made = 0 := by
  have hl : o.lost = false := by
    by_contra hc
    have := (I.lost p o ho (by simpa using hc)).freed
    rw [hf] at this
    cases this
  have hk := I.obj p o ho hl
  have h1 : s.own p = 0 := by
    by_contra hc
    have := (hk.live (by omega)).2.1
    rw [hf] at this
    cases this
  have h2 : s.tails p = 0 := by
    by_contra hc
    have := hk.single
    have := hk.ending (by omega)
    rw [hf] at this
    cases this
  have hlk : s.lockers p = 0 := by
    have := lockers_le s p
    omega
  have hw := hk.freed hf
  have ho := hk.open_ hlk
  have hg := hk.gone h1 h2
  exact ⟨(I.left_iff p).2 ⟨h1, h2⟩, hl, hg.1, hg.2.1, hw.1, hw.2, by omega⟩

/-- A value that was not lost is dropped or moved out at most once. -/
theorem outs_le (I : ArcInv mx n s) {p : Nat} {o : ArcObj α} (ho : s.objs[p]? = some o)
    (hl : o.lost = false) : o.outs ≤ 1 ∧ (o.alive = true ↔ o.outs = 0) := by
  have hk := I.obj p o ho hl
  have hL : ¬ s.Lost p := by
    rintro ⟨o2, h2, h3⟩
    rw [ho] at h2
    cases h2
    rw [hl] at h3
    cases h3
  by_cases h1 : 1 ≤ s.own p
  · obtain ⟨ha, -, h, -⟩ := hk.live h1
    simp [ha, h]
  · by_cases h2 : s.tails p = 0
    · obtain ⟨ha, h, -⟩ := hk.gone (by omega) h2
      simp [ha, h]
    · obtain ⟨x, hm, hx⟩ := List.countP_pos_iff.1 (show 0 < s.threads.countP (on (ends p)) by
        unfold ArcSys.tails at h2; omega)
      obtain ⟨t, ht⟩ := List.getElem?_of_mem hm
      cases x with
      | none => simp at hx
      | some op =>
        rw [on_some] at hx
        have hmain : op.main = p := by
          cases op <;> simp [ends] at hx <;> simp_all [ArcOp.main]
        have hf := I.needs' ht (by rw [hmain]; exact hL)
        have key : ∀ P : ArcObj α → Prop, s.At p P → P o := by
          rintro P ⟨o2, h2, h3⟩
          rw [ho] at h2
          cases h2
          exact h3
        cases op with
        | fin1 r k => obtain rfl : r = p := hmain; obtain ⟨-, a, b⟩ := key _ hf.1; simp [a, b]
        | fin2 r k => obtain rfl : r = p := hmain; obtain ⟨-, a, b⟩ := key _ hf.1; simp [a, b]
        | fin3 r k => obtain rfl : r = p := hmain; obtain ⟨-, a, b, -⟩ := key _ hf.1; simp [a, b]
        | unw1 r => obtain rfl : r = p := hmain; obtain ⟨-, a, b⟩ := key _ hf; simp [a, b]
        | unw2 r x => obtain rfl : r = p := hmain; obtain ⟨-, a, b⟩ := key _ hf; simp [a, b]
        | unw3 r x => obtain rfl : r = p := hmain; obtain ⟨-, a, b, -⟩ := key _ hf; simp [a, b]
        | mm4 r v =>
          obtain rfl : r = p := hmain
          obtain ⟨-, -, -, a, b, -⟩ := key _ hf
          simp [a, b]
        | mmA r v x z =>
          obtain rfl : r = p := hmain
          simp [ends] at hx
          obtain ⟨-, -, a, b, -⟩ := key _ (hf.2.1 hx)
          simp [a, b]
        | mm5 r v q z =>
          obtain rfl : r = p := hmain
          simp [ends] at hx
          obtain ⟨-, -, a, b, -⟩ := key _ (hf.2.2.1 hx)
          simp [a, b]
        | _ => simp [ends] at hx

/-- Nobody else is near an object that a thread has a `&mut T` to. -/
theorem held_alone (I : ArcInv mx n s) {t p : Nat} (ht : s.threads[t]? = some (some (.held p))) :
    ∃ o : ArcObj α, s.objs[p]? = some o ∧ o.lost = false ∧ o.alive = true ∧ o.freed = false ∧
      o.strong = 1 ∧ o.weak = 0 ∧ o.wk = 0 ∧ (∀ h : Nat, s.hands[h]? ≠ some (some p)) ∧
      ∀ (t' : Nat) (op' : ArcOp α), t' ≠ t → s.threads[t']? = some (some op') → op'.uses p = false := by
  have hf : s.Sole p := by
    simpa [ArcFacts, ArcNeeds, ArcLoose] using I.op t _ ht
  have hL : ¬ s.Lost p := by
    rintro ⟨o, ho, hl⟩
    obtain ⟨-, o2, h2, h3⟩ := hf
    rw [ho] at h2
    cases h2
    have := (I.lost p o ho hl).pos
    have := (I.lost p o ho hl).made
    omega
  obtain ⟨h1, o2, h2, hw⟩ := hf
  obtain ⟨o, ho, hlo, ha, hfr, -, hst, htl, hk⟩ := I.live (by omega) hL
  obtain rfl : o = o2 := Option.some.inj (ho.symm.trans h2)
  have hnl := no_lockers ht (by simp [holds]) (by simp [locks]) h1
  have hop := hk.open_ hnl
  have hp : 1 ≤ s.threads.countP (on (holds p)) := countP_pos_of _ ht (by simp [holds])
  have hno : ∀ h : Nat, s.hands[h]? ≠ some (some p) := by
    intro h hh
    have : 1 ≤ s.hands.count (some p) := List.count_pos_iff.2 (List.mem_of_getElem? hh)
    unfold own at h1
    omega
  refine ⟨o, ho, hlo, ha, hfr, by omega, hw, by omega, hno, ?_⟩
  intro t' op' ne ht'
  by_contra hc
  rcases uses_busy (show op'.uses p = true by simpa using hc) with h | h | ⟨h, hb⟩
  · have : 2 ≤ s.threads.countP (on (holds p)) := countP_two _ rfl ht ht' ne (by simp [holds]) h
    unfold own at h1
    omega
  · have := tails_pos_of_ends ht' h
    omega
  · exact hno h (I.borrow_hand ht' hb)

end ArcInv

/-! ## Along a run -/

/-- A step leaves an object alone that no thread is working on, and never takes back a `downgrade`. -/
theorem ArcStep.keeps {calm : Prop} {s' : ArcSys α} (h : ArcStep mx calm s s') {q : Nat} {o : ArcObj α}
    (ho : s.objs[q]? = some o) :
    ∃ o' : ArcObj α, s'.objs[q]? = some o' ∧ o.made ≤ o'.made ∧
      ((∀ (t : Nat) (op : ArcOp α), s.threads[t]? = some (some op) → op.uses q = false) → o.wk = 0 →
        o' = o) := by
  obtain ⟨hlt, -⟩ := List.getElem?_eq_some_iff.1 ho
  cases h with
  | new t x ht =>
    exact ⟨o, by simpa [List.getElem?_append_left hlt] using ho, Nat.le_refl _, fun _ _ => rfl⟩
  | borrow t cmd ht hc hh => exact ⟨o, ho, Nat.le_refl _, fun _ _ => rfl⟩
  | take t cmd ht hc hh ho' hu => exact ⟨o, ho, Nat.le_refl _, fun _ _ => rfl⟩
  | dropWeak p ho' hw =>
    by_cases e : p = q
    · subst e
      rw [ho] at ho'
      cases ho'
      exact ⟨{ o with wk := o.wk - 1 }, by simp [List.getElem?_set_self hlt], Nat.le_refl _,
        fun _ h => absurd hw (by omega)⟩
    · exact ⟨o, by simpa [List.getElem?_set_ne e] using ho, Nat.le_refl _, fun _ _ => rfl⟩
  | run t ch ht hs hl =>
    obtain ⟨o', h1, h2, -, h3⟩ := step_objs hs q o ho
    exact ⟨o', h1, h3, fun h _ => h2 (h t _ ht)⟩

set_option hygiene false in
local macro "arc_thr" p:ident : tactic => `(tactic| (
  rcases hobj : s.objs[$p]? with _ | o1
  · simp [Arc.step, M.bind_apply, Arc.obj, Arc.data, hobj] at hstep
  · cases hfr : o1.freed
    · cases hal : o1.alive <;>
        simp [Arc.step, M.bind_apply, Arc.obj, Arc.data, Arc.put, Arc.goto, Arc.done, Arc.give,
          Arc.after, hobj, hfr, hal] at hstep <;>
        (repeat' (split at hstep)) <;>
        (try simp [M.bind_apply] at hstep) <;>
        (try subst hstep) <;>
        simp [List.getElem?_set_ne (Ne.symm ne)]
    · simp [Arc.step, M.bind_apply, Arc.obj, Arc.data, hobj, hfr] at hstep))

/-- A step of a thread leaves the others where they are. -/
theorem step_threads {ch : ArcChoice α} {t : Nat} {op : ArcOp α} {s' : ArcSys α}
    (hstep : Arc.step mx ch t op s = .ok () s') {t' : Nat} (ne : t' ≠ t) :
    s'.threads[t']? = s.threads[t']? := by
  cases op with
  | clone h p => arc_thr p
  | down h p => arc_thr p
  | down1 h p v => arc_thr p
  | read h p => arc_thr p
  | count h p => arc_thr p
  | wcount h p => arc_thr p
  | get0 p => arc_thr p
  | get1 p => arc_thr p
  | get2 p u => arc_thr p
  | held p => cases hw : ch.write <;> simp only [Arc.step, hw] at hstep <;> arc_thr p
  | drop0 p => arc_thr p
  | fin1 p k => rcases k with _ | ⟨r, v⟩ <;> arc_thr p
  | fin2 p k => rcases k with _ | ⟨r, v⟩ <;> arc_thr p
  | fin3 p k => rcases k with _ | ⟨r, v⟩ <;> arc_thr p
  | unw0 p => arc_thr p
  | unw1 p => arc_thr p
  | unw2 p x => arc_thr p
  | unw3 p x => arc_thr p
  | mm0 p v => arc_thr p
  | mm1 p v k => arc_thr p
  | mm2 p v w => arc_thr p
  | mm3 p v => arc_thr p
  | mm4 p v => arc_thr p
  | mmC p v => arc_thr p
  | mm5 p v r z => arc_thr p
  | mmA p v x z =>
    simp [Arc.step, M.bind_apply, Arc.goto, Arc.done, Arc.give] at hstep
    split at hstep
    · injection hstep with _ e
      subst e
      simp [List.getElem?_set_ne (Ne.symm ne)]
    · cases z <;> simp [M.bind_apply, Arc.lose] at hstep <;> subst hstep <;>
        simp [List.getElem?_set_ne (Ne.symm ne)]

/-- A step that is not the thread's own leaves it where it is. -/
theorem ArcStep.thread {calm : Prop} {s' : ArcSys α} (h : ArcStep mx calm s s') {t : Nat} {op : ArcOp α}
    (ht : s.threads[t]? = some (some op)) :
    s'.threads[t]? = some (some op) ∨ ∃ ch, Arc.step mx ch t op s = .ok () s' := by
  cases h with
  | new t' x ht' => exact Or.inl ht
  | borrow t' cmd ht' hc hh =>
    have : t' ≠ t := by rintro rfl; rw [ht] at ht'; cases ht'
    exact Or.inl (by simpa [List.getElem?_set_ne this] using ht)
  | take t' cmd ht' hc hh ho' hu =>
    have : t' ≠ t := by rintro rfl; rw [ht] at ht'; cases ht'
    exact Or.inl (by simpa [List.getElem?_set_ne this] using ht)
  | dropWeak p ho' hw => exact Or.inl ht
  | run t' ch ht' hs hl =>
    by_cases e : t = t'
    · subst e
      rw [ht] at ht'
      cases ht'
      exact Or.inr ⟨ch, hs⟩
    · exact Or.inl (by rw [step_threads hs e]; exact ht)

/-- `downgrade` that has seen a count the object has grown past does not move. -/
theorem ArcInv.down1_stays (I : ArcInv mx n s) {t h p v : Nat} {ch : ArcChoice α} {o : ArcObj α}
    {s' : ArcSys α} (ho : s.objs[p]? = some o) (hv : v < o.made) (hl : v ≠ Arc.lock mx)
    (hs : Arc.step mx ch t (.down1 h p v) s = .ok () s') : s' = s := by
  have hw : o.weak ≠ v := by
    cases hlo : o.lost
    · have hk := I.obj p o ho hlo
      have h1 := hk.oneLock
      have h2 := hk.open_
      have h3 := hk.locked
      intro e
      by_cases hc : s.lockers p = 0
      · have := (h2 hc).2.2
        omega
      · have := (h3 (by omega)).2.2
        omega
    · have := (I.lost p o ho hlo).made
      omega
  cases hf : o.freed
  · simp [Arc.step, M.bind_apply, Arc.obj, ho, hf, hl] at hs
    rw [if_neg (fun hc => hw hc.1)] at hs
    injection hs with _ e
    exact e.symm
  · simp [Arc.step, M.bind_apply, Arc.obj, ho, hf] at hs

theorem ArcInv.stuck (I : ArcInv mx n s) {t h p v : Nat} {o : ArcObj α}
    (ht : s.threads[t]? = some (some (.down1 h p v))) (ho : s.objs[p]? = some o) (hv : v < o.made)
    (hl : v ≠ Arc.lock mx) {calm : Prop} {k : Nat} {s' : ArcSys α} (hr : ArcSteps mx calm s k s')
    (hn : n + k ≤ mx) : s'.threads[t]? = some (some (.down1 h p v)) ∧
      ∃ o' : ArcObj α, s'.objs[p]? = some o' ∧ v < o'.made := by
  induction hr with
  | refl => exact ⟨ht, o, ho, hv⟩
  | tail hr hs ih =>
    obtain ⟨h1, o1, ho1, hv1⟩ := ih (by omega)
    obtain ⟨o2, ho2, hm, -⟩ := hs.keeps ho1
    refine ⟨?_, o2, ho2, by omega⟩
    rcases hs.thread h1 with h2 | ⟨ch, h2⟩
    · exact h2
    · rw [(I.steps hr (by omega)).down1_stays ho1 hv1 hl h2]
      exact h1

/-- A released object stays as it is. -/
theorem ArcInv.stays_freed (I : ArcInv mx n s) {p : Nat} {o : ArcObj α} (ho : s.objs[p]? = some o)
    (hf : o.freed = true) {calm : Prop} {k : Nat} {s' : ArcSys α} (hr : ArcSteps mx calm s k s')
    (hn : n + k ≤ mx) : s'.objs[p]? = some o := by
  induction hr with
  | refl => exact ho
  | tail hr hs ih =>
    have h1 := ih (by omega)
    have hL := (I.steps hr (by omega)).freed_left h1 hf
    obtain ⟨o2, ho2, -, h2⟩ := hs.keeps h1
    rw [ho2, h2 hL.1.2 hL.2.2.2.2.2.1]

/-! ## `make_mut` -/

/-- What `make_mut` is to give access to. -/
def ArcOp.goal : ArcOp α → Option α
  | .mm0 _ v | .mm1 _ v _ | .mm2 _ v _ | .mm3 _ v | .mm4 _ v | .mmC _ v | .mmA _ v _ _
  | .mm5 _ v _ _ => some v
  | .fin1 _ k | .fin2 _ k | .fin3 _ k => k.map (·.2)
  | _ => none

set_option hygiene false in
local macro "arc_goal" p:ident : tactic => `(tactic| (
  rcases hobj : s.objs[$p]? with _ | o1
  · simp [Arc.step, M.bind_apply, Arc.obj, Arc.data, hobj] at hs
  · cases hfr : o1.freed
    · cases hal : o1.alive <;>
        simp [Arc.step, M.bind_apply, Arc.obj, Arc.data, Arc.put, Arc.goto, Arc.done, Arc.give,
          Arc.after, hobj, hfr, hal] at hs <;>
        (repeat' (split at hs)) <;>
        (try simp [M.bind_apply] at hs) <;>
        (try subst hs) <;>
        first
        | exact Or.inl ⟨_, List.getElem?_set_self htl, rfl⟩
        | exact Or.inr (Or.inl ⟨_, _, List.getElem?_set_self htl, h1, h2⟩)
        | exact Or.inr (Or.inr ⟨List.getElem?_set_self htl, rfl, rfl⟩)
    · simp [Arc.step, M.bind_apply, Arc.obj, Arc.data, hobj, hfr] at hs))

/-- A step of `make_mut` at an object that was not lost goes on with the same goal, or gives access to a
value equal to it, or ends in a panic and gives the handle back. -/
theorem ArcInv.goal_step (I : ArcInv mx n s) {t : Nat} {op : ArcOp α} {v : α}
    (ht : s.threads[t]? = some (some op)) (hg : op.goal = some v) (hL : ¬ s.Lost op.main)
    {ch : ArcChoice α} {s' : ArcSys α} (hs : Arc.step mx ch t op s = .ok () s') :
    (∃ op', s'.threads[t]? = some (some op') ∧ op'.goal = some v) ∨
    (∃ q o, s'.threads[t]? = some (some (.held q)) ∧ s'.objs[q]? = some o ∧ o.val = v) ∨
    (s'.threads[t]? = some none ∧ s'.log = (t, .panic) :: s.log ∧ s'.hands = s.hands ++ [some op.main]) := by
  obtain ⟨htl, -⟩ := List.getElem?_eq_some_iff.1 ht
  have hN := I.needs' ht hL
  have hval : (∀ p, op ≠ .held p) → ∀ q, s.At q (fun o => o.val = v) →
      ∃ o' : ArcObj α, s'.objs[q]? = some o' ∧ o'.val = v := by
    rintro hh q ⟨o, ho, hv⟩
    obtain ⟨o', h1, -, h2, -⟩ := step_objs hs q o ho
    exact ⟨o', h1, (h2 hh).trans hv⟩
  have hnx : ∀ q, s.Next (some (q, v)) → s.At q (fun o => o.val = v) :=
    fun q h => h.2.imp fun o h => ⟨h.1, h.2.2⟩
  cases op with
  | clone => simp [ArcOp.goal] at hg
  | down => simp [ArcOp.goal] at hg
  | down1 => simp [ArcOp.goal] at hg
  | read => simp [ArcOp.goal] at hg
  | count => simp [ArcOp.goal] at hg
  | wcount => simp [ArcOp.goal] at hg
  | get0 => simp [ArcOp.goal] at hg
  | get1 => simp [ArcOp.goal] at hg
  | get2 => simp [ArcOp.goal] at hg
  | held => simp [ArcOp.goal] at hg
  | drop0 => simp [ArcOp.goal] at hg
  | unw0 => simp [ArcOp.goal] at hg
  | unw1 => simp [ArcOp.goal] at hg
  | unw2 => simp [ArcOp.goal] at hg
  | unw3 => simp [ArcOp.goal] at hg
  | fin1 p k =>
    rcases k with _ | ⟨q, w⟩
    · simp [ArcOp.goal] at hg
    · simp [ArcOp.goal] at hg
      subst hg
      arc_goal p
  | fin2 p k =>
    rcases k with _ | ⟨q, w⟩
    · simp [ArcOp.goal] at hg
    · simp [ArcOp.goal] at hg
      subst hg
      obtain ⟨o', h1, h2⟩ := hval (by simp) q (hnx q hN.2)
      arc_goal p
  | fin3 p k =>
    rcases k with _ | ⟨q, w⟩
    · simp [ArcOp.goal] at hg
    · simp [ArcOp.goal] at hg
      subst hg
      obtain ⟨o', h1, h2⟩ := hval (by simp) q (hnx q hN.2)
      arc_goal p
  | mm0 p w => cases hg; arc_goal p
  | mm1 p w k =>
    cases hg
    obtain ⟨o', h1, h2⟩ := hval (by simp) p (by
      obtain ⟨o, h1, h2⟩ := Option.map_eq_some_iff.1 hN.1
      exact ⟨o, h1, h2⟩)
    arc_goal p
  | mm2 p w k => cases hg; arc_goal p
  | mm3 p w => cases hg; arc_goal p
  | mm4 p w => cases hg; arc_goal p
  | mmC p w => cases hg; arc_goal p
  | mmA p w x z =>
    cases hg
    simp [Arc.step, M.bind_apply, Arc.goto, Arc.done, Arc.give] at hs
    split at hs
    · injection hs with _ e
      subst e
      exact Or.inl ⟨_, List.getElem?_set_self htl, rfl⟩
    · cases z <;> simp [M.bind_apply, Arc.lose] at hs <;> subst hs <;>
        exact Or.inr (Or.inr ⟨List.getElem?_set_self htl, rfl, rfl⟩)
  | mm5 p w q z =>
    cases hg
    obtain ⟨o', h1, h2⟩ := hval (by simp) q (hnx q hN.2.1)
    arc_goal p

end Lokky
