import Verif.Proofs.ArcUse

/-!
# Threads that are alone at an object, and how far they have to go
-/

namespace Lokky
open ArcOp ArcInv
variable {α : Type} {mx n : Nat} {s : ArcSys α}

/-- There is no handle of object `p` but the one thread `t` has taken, and no other thread is working on the
object. -/
def ArcSys.Alone (s : ArcSys α) (t p : Nat) : Prop :=
  (∀ i : Nat, s.hands[i]? ≠ some (some p)) ∧
  ∀ (t' : Nat) (op : ArcOp α), t' ≠ t → s.threads[t']? = some (some op) → op.uses p = false

namespace ArcInv

theorem alone_iff (I : ArcInv mx n s) {t p : Nat} {op : ArcOp α} (hL : ¬ s.Lost p)
    (ht : s.threads[t]? = some (some op)) (he : op.holds p = true) : s.Alone t p ↔ s.own p = 1 := by
  have hq : 1 ≤ s.threads.countP (on (holds p)) := countP_pos_of _ ht he
  constructor
  · rintro ⟨h1, h2⟩
    have e1 : s.hands.count (some p) = 0 := by
      refine List.count_eq_zero.2 fun hm => ?_
      obtain ⟨h, hh⟩ := List.getElem?_of_mem hm
      exact h1 h hh
    have e2 : (s.threads.set t none).countP (on (holds p)) = 0 := by
      refine List.countP_eq_zero.2 fun x hm hx => ?_
      obtain ⟨t', ht'⟩ := List.getElem?_of_mem hm
      cases x with
      | none => simp at hx
      | some op' =>
        have ne : t' ≠ t := by
          rintro rfl
          obtain ⟨hl, -⟩ := List.getElem?_eq_some_iff.1 ht
          rw [List.getElem?_set_self hl] at ht'
          cases ht'
        rw [List.getElem?_set_ne (Ne.symm ne)] at ht'
        rw [on_some] at hx
        have := h2 t' op' ne ht'
        rw [busy_uses (Or.inl hx)] at this
        cases this
    have e3 := countP_set_add (on (holds p)) ht none
    rw [e2] at e3
    simp [he] at e3
    unfold ArcSys.own
    omega
  · intro hown
    obtain ⟨o, -, -, -, -, -, -, htl, -⟩ := I.live (by omega) hL
    have hown : s.hands.count (some p) + s.threads.countP (on (holds p)) = 1 := hown
    have hno : ∀ i : Nat, s.hands[i]? ≠ some (some p) := by
      intro i hi
      have : 1 ≤ s.hands.count (some p) := List.count_pos_iff.2 (List.mem_of_getElem? hi)
      omega
    refine ⟨hno, fun t' op' ne ht' => ?_⟩
    by_contra hc
    rcases uses_busy (show op'.uses p = true by simpa using hc) with h1 | h1 | ⟨i, hb⟩
    · have : 2 ≤ s.threads.countP (on (holds p)) := countP_two _ rfl ht ht' ne he h1
      omega
    · have := tails_pos_of_ends ht' h1
      omega
    · exact hno i (I.borrow_hand ht' hb)

/-- What others do while a thread is alone at an object does not concern the object, and it stays alone. -/
theorem alone_step (I : ArcInv mx n s) (hn : n < mx) {calm : Prop} {s' : ArcSys α}
    (hs : ArcStep mx calm s s') {t p : Nat} {op : ArcOp α} (hL : ¬ s.Lost p)
    (ht : s.threads[t]? = some (some op)) (he : op.holds p = true) (ha : s.Alone t p) {o : ArcObj α}
    (ho : s.objs[p]? = some o) :
    (∃ ch, Arc.step mx ch t op s = .ok () s') ∨
    (s'.threads[t]? = some (some op) ∧ s'.Alone t p ∧ ¬ s'.Lost p ∧
      ∃ w, s'.objs[p]? = some { o with wk := w }) := by
  have I' : ArcInv mx (n + 1) s' := I.step hn hs
  obtain ⟨hlt, -⟩ := List.getElem?_eq_some_iff.1 ho
  have hlo : o.lost = false := not_lost hL ho
  have key : s'.threads[t]? = some (some op) → (∃ w, s'.objs[p]? = some { o with wk := w }) →
      (s'.threads[t]? = some (some op) ∧ s'.Alone t p ∧ ¬ s'.Lost p ∧
        ∃ w, s'.objs[p]? = some { o with wk := w }) := by
    rintro h1 ⟨w, h2⟩
    have hL' : ¬ s'.Lost p := by
      rintro ⟨o', ho', hl'⟩
      rw [h2] at ho'
      cases ho'
      rw [hlo] at hl'
      cases hl'
    refine ⟨h1, (I'.alone_iff hL' h1 he).2 ?_, hL', w, h2⟩
    have e1 : o.strong = s.own p := ((I.obj p o ho hlo).live (own_pos_of_holds ht he)).2.2.2.1
    have e2 := ((I'.obj p _ h2 hlo).live (own_pos_of_holds h1 he)).2.2.2.1
    have e3 := (I.alone_iff hL ht he).1 ha
    simp at e2
    omega
  cases hs with
  | new t' x ht' => exact Or.inr (key ht ⟨o.wk, by simpa [List.getElem?_append_left hlt] using ho⟩)
  | borrow t' cmd ht' hc hh =>
    have ne : t' ≠ t := by rintro rfl; rw [ht] at ht'; cases ht'
    exact Or.inr (key (by simpa [List.getElem?_set_ne ne] using ht) ⟨o.wk, ho⟩)
  | take t' cmd ht' hc hh ho' hu =>
    have ne : t' ≠ t := by rintro rfl; rw [ht] at ht'; cases ht'
    exact Or.inr (key (by simpa [List.getElem?_set_ne ne] using ht) ⟨o.wk, ho⟩)
  | dropWeak q ho' hw =>
    refine Or.inr (key ht ?_)
    by_cases e : q = p
    · subst e
      rw [ho] at ho'
      cases ho'
      exact ⟨o.wk - 1, by simp [List.getElem?_set_self hlt]⟩
    · exact ⟨o.wk, by simpa [List.getElem?_set_ne e] using ho⟩
  | run t' ch ht' hs' hl =>
    by_cases e : t' = t
    · subst e
      rw [ht] at ht'
      cases ht'
      exact Or.inl ⟨ch, hs'⟩
    · refine Or.inr (key (by rw [step_threads hs' (Ne.symm e)]; exact ht) ⟨o.wk, ?_⟩)
      obtain ⟨o', h1, h2, -⟩ := step_objs hs' p o ho
      rw [h1, h2 (ha.2 t' _ e ht')]

/-- A thread stays alone at an object where it keeps its handle and leaves the count. -/
theorem alone_own (I : ArcInv mx n s) (hn : n < mx) {calm : Prop} {s' : ArcSys α}
    (hs : ArcStep mx calm s s') {t p : Nat} {op op' : ArcOp α} (hL : ¬ s.Lost p)
    (ht : s.threads[t]? = some (some op)) (he : op.holds p = true) (ha : s.Alone t p) {o o' : ArcObj α}
    (ho : s.objs[p]? = some o) (ht' : s'.threads[t]? = some (some op')) (he' : op'.holds p = true)
    (ho' : s'.objs[p]? = some o') (hst : o'.strong = o.strong) (hl : o'.lost = false) : s'.Alone t p := by
  have I' : ArcInv mx (n + 1) s' := I.step hn hs
  have hL' : ¬ s'.Lost p := by
    rintro ⟨o2, h2, hl'⟩
    rw [ho'] at h2
    cases h2
    rw [hl] at hl'
    cases hl'
  refine (I'.alone_iff hL' ht' he').2 ?_
  have e1 : o.strong = s.own p := ((I.obj p o ho (not_lost hL ho)).live (own_pos_of_holds ht he)).2.2.2.1
  have e2 := ((I'.obj p _ ho' hl).live (own_pos_of_holds ht' he')).2.2.2.1
  have e3 := (I.alone_iff hL ht he).1 ha
  omega

/-- An object that never had a `Weak` is not lost. -/
theorem unmade_not_lost (I : ArcInv mx n s) {p : Nat} {o : ArcObj α} (ho : s.objs[p]? = some o)
    (hm : o.made = 0) : ¬ s.Lost p := by
  rintro ⟨o2, h2, hl⟩
  rw [ho] at h2
  cases h2
  have := (I.lost p o ho hl).pos
  omega

end ArcInv

/-- How many steps, at most, a call has to go until it is over, or the client has its `&mut T`. -/
def ArcOp.left : ArcOp α → Nat
  | .clone _ _ | .read _ _ | .count _ _ | .wcount _ _ => 1
  | .get0 _ => 3
  | .get1 _ => 2
  | .get2 _ _ => 1
  | .drop0 _ => 4
  | .fin1 _ _ => 3
  | .fin2 _ _ => 2
  | .fin3 _ _ => 1
  | .unw0 _ => 4
  | .unw1 _ => 3
  | .unw2 _ _ => 2
  | .unw3 _ _ => 1
  | .mm0 _ _ => 10
  | .mm1 _ _ _ => 9
  | .mm2 _ _ _ => 8
  | .mm3 _ _ => 7
  | .mm4 _ _ | .mmC _ _ => 6
  | .mmA _ _ _ _ => 5
  | .mm5 _ _ _ _ => 4
  | .down _ _ | .down1 _ _ _ | .held _ => 0

set_option hygiene false in
local macro "arc_left" p:ident : tactic => `(tactic| (
  rcases hobj : s.objs[$p]? with _ | o1
  · simp [Arc.step, M.bind_apply, Arc.obj, Arc.data, hobj] at hs
  · cases hfr : o1.freed
    · cases hal : o1.alive <;>
        simp [Arc.step, M.bind_apply, Arc.obj, Arc.data, Arc.put, Arc.goto, Arc.done, Arc.give,
          Arc.after, hobj, hfr, hal] at hs <;>
        (repeat' (split at hs)) <;>
        (try simp [M.bind_apply] at hs) <;>
        (try subst hs) <;>
        first
        | exact Or.inl (List.getElem?_set_self htl)
        | exact Or.inr ⟨_, List.getElem?_set_self htl, by simp [ArcOp.left]⟩
    · simp [Arc.step, M.bind_apply, Arc.obj, Arc.data, hobj, hfr] at hs))

theorem step_left {ch : ArcChoice α} {t : Nat} {op : ArcOp α} {s' : ArcSys α}
    (ht : s.threads[t]? = some (some op)) (hs : Arc.step mx ch t op s = .ok () s')
    (hd : ∀ h p, op ≠ .down h p) (hd1 : ∀ h p v, op ≠ .down1 h p v) (hh : ∀ p, op ≠ .held p)
    (hm : ∀ p v w, op ≠ .mm2 p v w) :
    s'.threads[t]? = some none ∨ ∃ op', s'.threads[t]? = some (some op') ∧ op'.left < op.left := by
  obtain ⟨htl, -⟩ := List.getElem?_eq_some_iff.1 ht
  cases op with
  | clone h p => arc_left p
  | down h p => exact absurd rfl (hd h p)
  | down1 h p v => exact absurd rfl (hd1 h p v)
  | read h p => arc_left p
  | count h p => arc_left p
  | wcount h p => arc_left p
  | get0 p => arc_left p
  | get1 p => arc_left p
  | get2 p u => arc_left p
  | held p => exact absurd rfl (hh p)
  | drop0 p => arc_left p
  | fin1 p k => rcases k with _ | ⟨r, v⟩ <;> arc_left p
  | fin2 p k => rcases k with _ | ⟨r, v⟩ <;> arc_left p
  | fin3 p k => rcases k with _ | ⟨r, v⟩ <;> arc_left p
  | unw0 p => arc_left p
  | unw1 p => arc_left p
  | unw2 p x => arc_left p
  | unw3 p x => arc_left p
  | mm0 p v => arc_left p
  | mm1 p v k => arc_left p
  | mm2 p v w => exact absurd rfl (hm p v w)
  | mm3 p v => arc_left p
  | mm4 p v => arc_left p
  | mmC p v => arc_left p
  | mm5 p v r z => arc_left p
  | mmA p v x z =>
    simp [Arc.step, Arc.goto, Arc.done, Arc.give] at hs
    split at hs
    · injection hs with _ e
      subst e
      exact Or.inr ⟨_, List.getElem?_set_self htl, by simp [ArcOp.left]⟩
    · cases z <;> simp [M.bind_apply, Arc.lose] at hs <;> subst hs <;>
        exact Or.inl (List.getElem?_set_self htl)

/-! ## The count `make_mut` increments -/

set_option hygiene false in
local macro "arc_mm2" p:ident : tactic => `(tactic| (
  rcases hobj : s.objs[$p]? with _ | o1
  · simp [Arc.step, M.bind_apply, Arc.obj, Arc.data, hobj] at hs
  · cases hfr : o1.freed
    · cases hal : o1.alive <;>
        simp [Arc.step, M.bind_apply, Arc.obj, Arc.data, Arc.put, Arc.goto, Arc.done, Arc.give,
          Arc.after, hobj, hfr, hal] at hs <;>
        (repeat' (split at hs)) <;>
        (try simp [M.bind_apply] at hs) <;>
        (try subst hs) <;>
        (try simp [List.getElem?_set_self htl] at h') <;>
        (try (rw [ht] at h'; cases h'; done)) <;>
        (try (obtain ⟨rfl, rfl, rfl⟩ := h'; exact ⟨o1, hobj, rfl⟩))
    · simp [Arc.step, M.bind_apply, Arc.obj, Arc.data, hobj, hfr] at hs))

theorem step_to_mm2 {ch : ArcChoice α} {t : Nat} {op : ArcOp α} {s' : ArcSys α} {q w : Nat} {v : α}
    (ht : s.threads[t]? = some (some op)) (hs : Arc.step mx ch t op s = .ok () s')
    (h' : s'.threads[t]? = some (some (.mm2 q v w))) : ∃ o : ArcObj α, s'.objs[q]? = some o ∧ o.weak = w := by
  obtain ⟨htl, -⟩ := List.getElem?_eq_some_iff.1 ht
  cases op with
  | clone h p => arc_mm2 p
  | down h p => arc_mm2 p
  | down1 h p v => arc_mm2 p
  | read h p => arc_mm2 p
  | count h p => arc_mm2 p
  | wcount h p => arc_mm2 p
  | get0 p => arc_mm2 p
  | get1 p => arc_mm2 p
  | get2 p u => arc_mm2 p
  | held p => cases hw : ch.write <;> simp only [Arc.step, hw] at hs <;> arc_mm2 p
  | drop0 p => arc_mm2 p
  | fin1 p k => rcases k with _ | ⟨r, v⟩ <;> arc_mm2 p
  | fin2 p k => rcases k with _ | ⟨r, v⟩ <;> arc_mm2 p
  | fin3 p k => rcases k with _ | ⟨r, v⟩ <;> arc_mm2 p
  | unw0 p => arc_mm2 p
  | unw1 p => arc_mm2 p
  | unw2 p x => arc_mm2 p
  | unw3 p x => arc_mm2 p
  | mm0 p v => arc_mm2 p
  | mm1 p v k => arc_mm2 p
  | mm2 p v w => arc_mm2 p
  | mm3 p v => arc_mm2 p
  | mm4 p v => arc_mm2 p
  | mmC p v => arc_mm2 p
  | mm5 p v r z => arc_mm2 p
  | mmA p v x z =>
    simp [Arc.step, Arc.goto, Arc.done, Arc.give] at hs
    split at hs
    · injection hs with _ e
      subst e
      simp [List.getElem?_set_self htl] at h'
    · cases z <;> simp [M.bind_apply, Arc.lose] at hs <;> subst hs <;>
        simp [List.getElem?_set_self htl] at h'

/-- `make_mut`, about to increment the weak count, has seen what it is. -/
theorem ArcReaches.mm2_weak (h : ArcReaches mx True n s) (hn : n ≤ mx) {t p w : Nat} {v : α}
    (ht : s.threads[t]? = some (some (.mm2 p v w))) :
    ∃ o : ArcObj α, s.objs[p]? = some o ∧ o.weak = w := by
  obtain ⟨k, hk⟩ := h
  induction hk with
  | refl => simp [ArcSys.start, List.getElem?_replicate] at ht
  | @tail n s0 s1 hs0 hs ih =>
    have hr : ArcReaches mx True n s0 := ⟨k, hs0⟩
    have I := ArcInv.reaches hr (by omega)
    have hL : ¬ s0.Lost p := hr.whole.not_lost p
    have same : s0.threads[t]? = some (some (.mm2 p v w)) →
        (∃ o : ArcObj α, s1.objs[p]? = some o ∧ o.weak = w) := by
      intro ht0
      obtain ⟨o, ho, hw⟩ := ih (by omega) ht0
      have hown : s0.own p = 1 := (I.needs' ht0 hL).2
      have ha := (I.alone_iff hL ht0 (by simp [holds])).2 hown
      rcases I.alone_step (by omega) hs hL ht0 (by simp [holds]) ha ho with ⟨ch, hs'⟩ | ⟨-, -, -, w', h1⟩
      · exact step_to_mm2 ht0 hs' ht
      · exact ⟨_, h1, hw⟩
    cases hs with
    | new t' x ht' => exact same ht
    | borrow t' cmd ht' hc hh =>
      by_cases e : t' = t
      · subst e
        obtain ⟨htl, -⟩ := List.getElem?_eq_some_iff.1 ht'
        rw [List.getElem?_set_self htl] at ht
        cases cmd <;> simp [ArcCmd.borrows] at hc <;> obtain ⟨-, rfl⟩ := hc <;> cases ht
      · exact same (by simpa [List.getElem?_set_ne e] using ht)
    | take t' cmd ht' hc hh ho' hu =>
      by_cases e : t' = t
      · subst e
        obtain ⟨htl, -⟩ := List.getElem?_eq_some_iff.1 ht'
        rw [List.getElem?_set_self htl] at ht
        cases cmd <;> simp [ArcCmd.takes] at hc <;> obtain ⟨-, rfl⟩ := hc <;> cases ht
      · exact same (by simpa [List.getElem?_set_ne e] using ht)
    | dropWeak q ho' hw => exact same ht
    | run t' ch ht' hs' hl =>
      by_cases e : t' = t
      · subst e
        exact step_to_mm2 ht' hs' ht
      · exact same (by rw [← step_threads hs' (Ne.symm e)]; exact ht)

end Lokky
