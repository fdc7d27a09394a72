import Verif.Proofs.ArcLost

/-! The invariant of the `Arc` system holds in all states that can be reached; and running the system on
a list of actions, for examples. -/

namespace Lokky
variable {α : Type} {mx n : Nat} {s : ArcSys α}

open ArcOp ArcSys

namespace ArcInv

theorem start (k : Nat) : ArcInv mx 0 (ArcSys.start k : ArcSys α) := by
  refine ⟨?_, ?_, ?_, ?_⟩
  · intro p o h
    simp [ArcSys.start] at h
  · intro p o h
    simp [ArcSys.start] at h
  · intro t op h
    simp [ArcSys.start, List.getElem?_replicate] at h
  · intro p _
    simp [own, tails, ArcSys.start, List.countP_replicate]

theorem beyond_lockers (I : ArcInv mx n s) {p : Nat} (h : s.objs.length ≤ p) : s.lockers p = 0 := by
  have := lockers_le s p
  have := (I.beyond p h).1
  omega

theorem beyond_sens (I : ArcInv mx n s) {p : Nat} (h : s.objs.length ≤ p) (t : Nat) (op : ArcOp α)
    (ht : s.threads[t]? = some (some op)) : op.sens p = false := by
  by_contra hc
  have hc : op.sens p = true := by simpa using hc
  have hb := I.beyond p h
  rcases sens_busy hc with h | h
  · have := own_pos_of_holds ht h
    omega
  · have := tails_pos_of_ends ht h
    omega

theorem beyond_vals (I : ArcInv mx n s) {p : Nat} (h : s.objs.length ≤ p) (t : Nat) (op : ArcOp α)
    (ht : s.threads[t]? = some (some op)) : op.vals p = false := by
  by_contra hc
  have := own_pos_of_holds ht (vals_holds (show op.vals p = true by simpa using hc))
  have hb := I.beyond p h
  omega

theorem new (I : ArcInv mx n s) {t : Nat} (ht : s.threads[t]? = some none) (x : α) :
    ArcInv mx (n + 1) { s with
      objs := s.objs ++ [⟨1, 0, x, true, 0, 0, false, 0, 0, false⟩]
      hands := s.hands ++ [some s.objs.length] } := by
  have hb := I.beyond s.objs.length (Nat.le_refl _)
  have hlk := I.beyond_lockers (Nat.le_refl s.objs.length)
  refine I.next ht (b := none) (p := s.objs.length) (o' := ⟨1, 0, x, true, 0, 0, false, 0, 0, false⟩)
    (set_same ht).symm ?_ (by simp) (by simp) ?_ ?_ (fun _ _ => ⟨rfl, rfl, rfl⟩) ?_ (by simp) ?_
    (by simp) (Or.inr fun t' op' _ ht' => I.beyond_sens (Nat.le_refl _) t' op' ht')
    (Or.inr fun t' op' _ ht' => I.beyond_vals (Nat.le_refl _) t' op' ht')
  · intro q hq
    by_cases hlt : q < s.objs.length
    · simp [List.getElem?_append_left hlt]
    · rw [List.getElem?_eq_none_iff.2 (by simp only [List.length_append, List.length_singleton]; omega),
        List.getElem?_eq_none_iff.2 (by omega)]
  · intro q hq
    simp [List.count_append, Ne.symm hq]
  · intro h y hy _
    obtain ⟨hl, -⟩ := List.getElem?_eq_some_iff.1 hy
    simpa [List.getElem?_append_left hl] using hy
  · intro _
    have e1 : own { s with
        objs := s.objs ++ [⟨1, 0, x, true, 0, 0, false, 0, 0, false⟩]
        hands := s.hands ++ [some s.objs.length] } s.objs.length = 1 := by
      have := hb.1
      simp only [own, List.count_append] at this ⊢
      simp
      omega
    unfold ArcSys.Ok
    rw [e1]
    have e2 := hb.2
    simp only [ArcSys.tails, lockers] at e2 hlk ⊢
    rw [e2, hlk]
    constructor <;> simp
  · intro o ho
    rw [List.getElem?_eq_none_iff.2 (Nat.le_refl _)] at ho
    cases ho

theorem borrow (I : ArcInv mx n s) {t h p : Nat} {cmd : ArcCmd α} {f : Nat → ArcOp α}
    (ht : s.threads[t]? = some none) (hc : cmd.borrows = some (h, f))
    (hh : s.hands[h]? = some (some p)) :
    ArcInv mx (n + 1) { s with threads := s.threads.set t (some (f p)) } := by
  obtain ⟨o, ho⟩ := I.exists_obj (Or.inl (own_pos_of_hand hh))
  have hop : (∀ q, (f p).holds q = false ∧ (f p).ends q = false ∧ (f p).locks q = false) ∧
      ∀ s' : ArcSys α, s'.hands = s.hands → ArcNeeds s' (f p) := by
    cases cmd <;> simp [ArcCmd.borrows] at hc <;> obtain ⟨rfl, rfl⟩ := hc <;>
      exact ⟨fun q => ⟨rfl, rfl, rfl⟩, fun s' e => by show s'.hands[_]? = _; rw [e]; exact hh⟩
  have c1 := countP_set_add (on (holds p)) ht (some (f p))
  have c2 := countP_set_add (on (ends p)) ht (some (f p))
  have c3 := countP_set_add (on (locks p)) ht (some (f p))
  simp [hop.1 p] at c1 c2 c3
  refine I.next ht (b := some (f p)) (p := p) (o' := o) rfl (fun _ _ => rfl) ho (Nat.le_refl _)
    (fun _ _ => rfl) (fun _ _ hx _ => hx) ?_ ?_ ?_ ?_ ?_ ?_ (Or.inl (by simp [ho]))
  · intro q _
    simp [hop.1 q]
  · intro hlo
    have := (I.obj p o ho hlo).later
    unfold ArcSys.Ok
    simp only [own, ArcSys.tails, ArcSys.lockers] at this ⊢
    rw [c1, c2, c3]
    exact this
  · intro hlo
    have := (I.lost p o ho hlo).later
    simp only [ArcSys.lockers] at this ⊢
    rw [c3]
    exact this
  · intro o2 h2
    rw [ho] at h2
    cases h2
    exact Or.inl rfl
  · intro op' e
    cases e
    exact Or.inl (hop.2 _ rfl)
  · by_cases hL : s.Lost p
    · exact Or.inl hL
    · exact Or.inr fun t' op' _ ht' => I.alone_hand hL hh t' op' ht'

theorem take (I : ArcInv mx n s) {t h p : Nat} {cmd : ArcCmd α} {o : ArcObj α}
    {f : Nat → α → ArcOp α} (ht : s.threads[t]? = some none) (hc : cmd.takes = some (h, f))
    (hh : s.hands[h]? = some (some p)) (ho : s.objs[p]? = some o) (hu : s.Unborrowed h) :
    ArcInv mx (n + 1) { s with
      hands := s.hands.set h none
      threads := s.threads.set t (some (f p o.val)) } := by
  have hop : (∀ q, (f p o.val).holds q = (p == q) ∧ (f p o.val).ends q = false ∧
      (f p o.val).locks q = false) ∧
      ∀ s' : ArcSys α, s'.objs = s.objs → ArcNeeds s' (f p o.val) := by
    cases cmd <;> simp [ArcCmd.takes] at hc <;> obtain ⟨rfl, rfl⟩ := hc
    · exact ⟨fun q => ⟨rfl, rfl, rfl⟩, fun s' e => trivial⟩
    · exact ⟨fun q => ⟨rfl, rfl, rfl⟩, fun s' e => by
        show _ = _
        rw [e, ho]
        rfl⟩
    · exact ⟨fun q => ⟨rfl, rfl, rfl⟩, fun s' e => trivial⟩
    · exact ⟨fun q => ⟨rfl, rfl, rfl⟩, fun s' e => trivial⟩
  have c0 : ∀ q, (s.hands.set h none).count (some q) + (p == q).toNat = s.hands.count (some q) := by
    intro q
    have := countP_set_add (fun x => x == some q) hh none
    simp only [List.count]
    simpa [Bool.beq_eq_decide_eq] using this
  have c1 := countP_set_add (on (holds p)) ht (some (f p o.val))
  have c2 := countP_set_add (on (ends p)) ht (some (f p o.val))
  have c3 := countP_set_add (on (locks p)) ht (some (f p o.val))
  simp [hop.1 p] at c1 c2 c3
  refine I.next ht (b := some (f p o.val)) (p := p) (o' := o) rfl (fun _ _ => rfl) ho (Nat.le_refl _)
    ?_ ?_ ?_ ?_ ?_ ?_ ?_ ?_ (Or.inl (by simp [ho]))
  · intro q hq
    have := c0 q
    have e : (p == q) = false := by simpa using Ne.symm hq
    rw [e] at this
    simpa using this
  · rintro h' x hx ⟨t', op', -, ht', hb⟩
    have hne : h ≠ h' := by
      rintro rfl
      have := hu t' op' ht'
      rw [borrowsAt_borrows hb] at this
      cases this
    simpa [List.getElem?_set_ne hne] using hx
  · intro q hq
    have e : (p == q) = false := by simpa using Ne.symm hq
    simp [hop.1 q, e]
  · intro hlo
    have := (I.obj p o ho hlo).later
    have c := c0 p
    simp at c
    unfold ArcSys.Ok
    simp only [own, ArcSys.tails, ArcSys.lockers] at this ⊢
    rw [c1, c2, c3, show (s.hands.set h none).count (some p) + (s.threads.countP (on (holds p)) + 1) =
      s.hands.count (some p) + s.threads.countP (on (holds p)) by omega]
    exact this
  · intro hlo
    have := (I.lost p o ho hlo).later
    simp only [ArcSys.lockers] at this ⊢
    rw [c3]
    exact this
  · intro o2 h2
    rw [ho] at h2
    cases h2
    exact Or.inl rfl
  · intro op' e
    cases e
    exact Or.inl (hop.2 _ rfl)
  · by_cases hL : s.Lost p
    · exact Or.inl hL
    · exact Or.inr fun t' op' _ ht' => I.alone_hand hL hh t' op' ht'

theorem At.wk {p q : Nat} {o : ArcObj α} {w : Nat} {P : ArcObj α → Prop}
    (ho : s.objs[p]? = some o) (h : s.At q P) (hP : ∀ x, P x → P { x with wk := w }) :
    ArcSys.At { s with objs := s.objs.set p { o with wk := w } } q P := by
  obtain ⟨x, hx, hp⟩ := h
  by_cases e : q = p
  · subst e
    rw [ho] at hx
    cases hx
    obtain ⟨hl, -⟩ := List.getElem?_eq_some_iff.1 ho
    exact ⟨_, by simp [List.getElem?_set_self hl], hP _ hp⟩
  · exact ⟨x, by simpa [List.getElem?_set_ne (Ne.symm e)] using hx, hp⟩

theorem lost_wk {p w q : Nat} {o : ArcObj α} (ho : s.objs[p]? = some o) :
    ArcSys.Lost { s with objs := s.objs.set p { o with wk := w } } q ↔ s.Lost q := by
  constructor
  · rintro ⟨x, hx, hl⟩
    by_cases e : q = p
    · subst e
      obtain ⟨hlt, -⟩ := List.getElem?_eq_some_iff.1 ho
      simp [List.getElem?_set_self hlt] at hx
      subst hx
      exact ⟨o, ho, hl⟩
    · exact ⟨x, by simpa [List.getElem?_set_ne (Ne.symm e)] using hx, hl⟩
  · exact fun h => At.wk ho h fun _ h => h

theorem needs_wk {p w : Nat} {o : ArcObj α} (ho : s.objs[p]? = some o) {op : ArcOp α}
    (hf : ArcNeeds s op) : ArcNeeds { s with objs := s.objs.set p { o with wk := w } } op := by
  have hn : ∀ k : Option (Nat × α), s.Next k →
      ArcSys.Next { s with objs := s.objs.set p { o with wk := w } } k := by
    intro k hk
    rcases k with _ | ⟨q, v⟩
    · trivial
    · exact ⟨hk.1, At.wk ho hk.2 fun _ h => h⟩
  have hv : ∀ (q : Nat) (v : α), (s.objs[q]?).map (·.val) = some v →
      ((s.objs.set p { o with wk := w })[q]?).map (·.val) = some v := by
    intro q v h
    by_cases e : q = p
    · subst e
      obtain ⟨hl, -⟩ := List.getElem?_eq_some_iff.1 ho
      rw [ho] at h
      simpa [List.getElem?_set_self hl] using h
    · simpa [List.getElem?_set_ne (Ne.symm e)] using h
  cases op with
  | fin1 p k => exact ⟨At.wk ho hf.1 fun _ h => h, hn k hf.2⟩
  | fin2 p k => exact ⟨At.wk ho hf.1 fun _ h => h, hn k hf.2⟩
  | fin3 p k => exact ⟨At.wk ho hf.1 fun _ h => h, hn k hf.2⟩
  | held p => exact ⟨hf.1, At.wk ho hf.2 fun _ h => h⟩
  | unw1 p => exact At.wk ho hf fun _ h => h
  | unw2 p x => exact At.wk ho hf fun _ h => h
  | unw3 p x => exact At.wk ho hf fun _ h => h
  | mm0 p v => exact hv _ _ hf
  | mm1 p v k => exact ⟨hv _ _ hf.1, hf.2⟩
  | mm2 p v k => exact ⟨At.wk ho hf.1 fun _ h => h, hf.2⟩
  | mm3 p v => exact ⟨At.wk ho hf.1 fun _ h => h, hf.2⟩
  | mm4 p v => exact At.wk ho hf fun _ h => h
  | mmC p v => exact hv _ _ hf
  | mmA p v x z => exact ⟨hf.1, fun hz => At.wk ho (hf.2.1 hz) fun _ h => h,
      fun hz h => hf.2.2 hz ((lost_wk ho).1 h)⟩
  | mm5 p v q z => exact ⟨hf.1, hn _ hf.2.1, fun hz => At.wk ho (hf.2.2.1 hz) fun _ h => h,
      fun hz h => hf.2.2.2 hz ((lost_wk ho).1 h)⟩
  | _ => exact hf

theorem dropWeak (I : ArcInv mx n s) {p : Nat} {o : ArcObj α} (ho : s.objs[p]? = some o) :
    ArcInv mx (n + 1) { s with objs := s.objs.set p { o with wk := o.wk - 1 } } := by
  obtain ⟨hl, -⟩ := List.getElem?_eq_some_iff.1 ho
  refine ⟨?_, ?_, ?_, fun q hq => I.beyond q (by simpa using hq)⟩
  · intro q x hx hlo
    by_cases e : q = p
    · subst e
      rw [show (s.objs.set q { o with wk := o.wk - 1 })[q]? = some { o with wk := o.wk - 1 } by
        simp [List.getElem?_set_self hl]] at hx
      cases hx
      obtain ⟨k1, k2, k3, k4, k5, k6, k7, k8, k9, k10, k11⟩ := (I.obj q o ho hlo).later
      exact ⟨k1, k2, k3, k4, fun h => ⟨(k5 h).1, by have := (k5 h).2; simp [this]⟩, k6,
        fun h => ⟨(k7 h).1, by have := (k7 h).2.1; simp; omega, (k7 h).2.2⟩,
        fun h => ⟨(k8 h).1, by have := (k8 h).2.1; simp [this], (k8 h).2.2⟩, k9, k10, k11⟩
    · rw [show (s.objs.set p { o with wk := o.wk - 1 })[q]? = s.objs[q]? by
        simp [List.getElem?_set_ne (Ne.symm e)]] at hx
      exact (I.obj q x hx hlo).later
  · intro q x hx hlo
    by_cases e : q = p
    · subst e
      rw [show (s.objs.set q { o with wk := o.wk - 1 })[q]? = some { o with wk := o.wk - 1 } by
        simp [List.getElem?_set_self hl]] at hx
      cases hx
      obtain ⟨k1, k2, k3, k4, k5, k6⟩ := (I.lost q o ho hlo).later
      exact ⟨k1, k2, k3, k4, by simp; omega, k6⟩
    · rw [show (s.objs.set p { o with wk := o.wk - 1 })[q]? = s.objs[q]? by
        simp [List.getElem?_set_ne (Ne.symm e)]] at hx
      exact (I.lost q x hx hlo).later
  · intro t op ht
    refine (I.op t op ht).imp (needs_wk ho) fun h => ⟨(lost_wk ho).2 h.1, ?_⟩
    have hF : ∀ k : Option (Nat × α), s.Fresh k →
        ArcSys.Fresh { s with objs := s.objs.set p { o with wk := o.wk - 1 } } k := by
      intro k hk
      rcases k with _ | ⟨q, v⟩
      · trivial
      · exact ⟨hk.1, At.wk ho hk.2 fun _ h => h⟩
    have h := h.2
    cases op with
    | fin1 r k => exact hF k h
    | fin2 r k => exact hF k h
    | mm5 r v q z => exact hF (some (q, v)) h
    | _ => exact h

/-- Whatever happens. -/
theorem step (I : ArcInv mx n s) (hn : n < mx) {calm : Prop} {s' : ArcSys α}
    (h : ArcStep mx calm s s') : ArcInv mx (n + 1) s' := by
  cases h with
  | new t x ht => exact I.new ht x
  | borrow t cmd ht hc hh => exact I.borrow ht hc hh
  | take t cmd ht hc hh ho hu => exact I.take ht hc hh ho hu
  | dropWeak p ho _ => exact I.dropWeak ho
  | run t ch ht hs hl =>
    rcases I.run hn ch ht with ⟨s2, h2, I2⟩ | ⟨-, u, h2⟩
    · rw [h2] at hs
      injection hs with _ e
      exact e ▸ I2
    · rw [h2] at hs
      cases hs

theorem steps (I : ArcInv mx n s) {k : Nat} {calm : Prop} {s' : ArcSys α}
    (h : ArcSteps mx calm s k s') (hn : n + k ≤ mx) : ArcInv mx (n + k) s' := by
  induction h with
  | refl => exact I
  | tail h hs ih => exact (ih (by omega)).step (by omega) hs

theorem reaches {calm : Prop} (h : ArcReaches mx calm n s) (hn : n ≤ mx) : ArcInv mx n s := by
  obtain ⟨k, h⟩ := h
  have := (start (α := α) (mx := mx) k).steps h (by omega)
  simpa using this

end ArcInv

/-! ## What a step leaves alone -/

/-- The object a thread works on, or `make_mut`'s new one. -/
def ArcOp.uses (q : Nat) : ArcOp α → Bool
  | .clone _ p | .down _ p | .down1 _ p _ | .read _ p | .count _ p | .wcount _ p => p == q
  | .get0 p | .get1 p | .get2 p _ | .held p | .drop0 p | .unw0 p | .unw1 p | .unw2 p _ | .unw3 p _
  | .mm0 p _ | .mm1 p _ _ | .mm2 p _ _ | .mm3 p _ | .mm4 p _ | .mmC p _ | .mmA p _ _ _ => p == q
  | .fin1 p k | .fin2 p k | .fin3 p k =>
    p == q || (match k with | some (r, _) => r == q | none => false)
  | .mm5 p _ r _ => p == q || r == q

theorem set_obj {l : List (ArcObj α)} {p q : Nat} {o o1 o2 : ArcObj α} (h1 : l[p]? = some o1)
    (ho : l[q]? = some o) (P : Prop) (hv : P → o2.val = o1.val) (u : Prop) (hu : u → p ≠ q)
    (hm : o1.made ≤ o2.made) :
    ∃ o', (l.set p o2)[q]? = some o' ∧ (u → o' = o) ∧ (P → o'.val = o.val) ∧ o.made ≤ o'.made := by
  by_cases e : p = q
  · subst e
    rw [h1] at ho
    cases ho
    obtain ⟨hl, -⟩ := List.getElem?_eq_some_iff.1 h1
    exact ⟨o2, by simp [List.getElem?_set_self hl], fun h => absurd rfl (hu h), hv, hm⟩
  · exact ⟨o, by simpa [List.getElem?_set_ne e] using ho, fun _ => rfl, fun _ => rfl, Nat.le_refl _⟩

set_option hygiene false in
local macro "arc_go" p:ident : tactic => `(tactic| (
  rcases hobj : s.objs[$p]? with _ | o1
  · simp [Arc.step, M.bind_apply, Arc.obj, Arc.data, hobj] at hstep
  · cases hfr : o1.freed
    · cases hal : o1.alive <;>
        simp [Arc.step, M.bind_apply, Arc.obj, Arc.data, Arc.put, Arc.goto, Arc.done, Arc.give,
          Arc.after, hobj, hfr, hal] at hstep <;>
        (repeat' (split at hstep)) <;>
        (try simp [M.bind_apply] at hstep) <;>
        (try subst hstep) <;>
        first
        | exact hsame _ _
        | exact set_obj hobj ho _ (by simp) _ (by simp +contextual [ArcOp.uses]) (by simp)
    · simp [Arc.step, M.bind_apply, Arc.obj, Arc.data, hobj, hfr] at hstep))

theorem step_objs {ch : ArcChoice α} {t : Nat} {op : ArcOp α} {s' : ArcSys α}
    (hstep : Arc.step mx ch t op s = .ok () s') (q : Nat) (o : ArcObj α) (ho : s.objs[q]? = some o) :
    ∃ o', s'.objs[q]? = some o' ∧ (op.uses q = false → o' = o) ∧
      ((∀ p, op ≠ .held p) → o'.val = o.val) ∧ o.made ≤ o'.made := by
  have hsame : ∀ P Q : Prop, ∃ o', s.objs[q]? = some o' ∧ (P → o' = o) ∧ (Q → o'.val = o.val) ∧
      o.made ≤ o'.made := fun _ _ => ⟨o, ho, fun _ => rfl, fun _ => rfl, Nat.le_refl _⟩
  cases op with
  | clone h p => arc_go p
  | down h p => arc_go p
  | down1 h p v => arc_go p
  | read h p => arc_go p
  | count h p => arc_go p
  | wcount h p => arc_go p
  | get0 p => arc_go p
  | get1 p => arc_go p
  | get2 p u => arc_go p
  | held p =>
    rcases hobj : s.objs[p]? with _ | o1
    · simp [Arc.step, M.bind_apply, Arc.obj, hobj] at hstep
    · cases hfr : o1.freed
      · cases hal : o1.alive
        · simp [Arc.step, M.bind_apply, Arc.obj, Arc.data, hobj, hfr, hal] at hstep
        · cases hw : ch.write with
          | none =>
            simp [Arc.step, M.bind_apply, Arc.obj, Arc.data, Arc.put, Arc.done, Arc.give, hobj, hfr, hal,
              hw] at hstep
            subst hstep
            exact hsame _ _
          | some x =>
            simp [Arc.step, M.bind_apply, Arc.obj, Arc.data, Arc.put, Arc.done, Arc.give, hobj, hfr, hal,
              hw] at hstep
            subst hstep
            exact set_obj hobj ho _ (fun h => absurd rfl (h p)) _ (by simp [ArcOp.uses]) (Nat.le_refl _)
      · simp [Arc.step, M.bind_apply, Arc.obj, hobj, hfr] at hstep
  | drop0 p => arc_go p
  | fin1 p k => rcases k with _ | ⟨r, v⟩ <;> arc_go p
  | fin2 p k => rcases k with _ | ⟨r, v⟩ <;> arc_go p
  | fin3 p k => rcases k with _ | ⟨r, v⟩ <;> arc_go p
  | unw0 p => arc_go p
  | unw1 p => arc_go p
  | unw2 p x => arc_go p
  | unw3 p x => arc_go p
  | mm0 p v => arc_go p
  | mm1 p v k => arc_go p
  | mm2 p v w => arc_go p
  | mm3 p v => arc_go p
  | mm4 p v => arc_go p
  | mmC p v => arc_go p
  | mm5 p v r z => arc_go p
  | mmA p v x z =>
    simp [Arc.step, M.bind_apply, Arc.goto, Arc.done, Arc.give] at hstep
    split at hstep
    · injection hstep with _ e
      subst e
      obtain ⟨hl, -⟩ := List.getElem?_eq_some_iff.1 ho
      exact ⟨o, by simpa [List.getElem?_append_left hl] using ho, fun _ => rfl, fun _ => rfl,
        Nat.le_refl _⟩
    · cases z with
      | false =>
        simp [M.bind_apply, Arc.lose] at hstep
        subst hstep
        exact hsame _ _
      | true =>
        simp [M.bind_apply, Arc.lose] at hstep
        subst hstep
        by_cases e : p = q
        · subst e
          exact ⟨{ o with alive := true, outs := o.outs - 1, lost := true },
            by simp [List.getElem?_modify, ho], by simp [ArcOp.uses],
            fun _ => rfl, Nat.le_refl _⟩
        · exact ⟨o, by simpa [List.getElem?_modify, e] using ho, fun _ => rfl, fun _ => rfl,
            Nat.le_refl _⟩

/-! ## Where `make_mut` never loses a value -/

/-- No object has lost its value. -/
def ArcSys.Whole (s : ArcSys α) : Prop := ∀ o ∈ s.objs, o.lost = false

theorem ArcSys.Whole.not_lost (h : s.Whole) (p : Nat) : ¬ s.Lost p := by
  rintro ⟨o, ho, hl⟩
  rw [h o (List.mem_of_getElem? ho)] at hl
  cases hl

theorem ArcSys.Whole.set (h : s.Whole) {p : Nat} {o1 o2 : ArcObj α} (h1 : s.objs[p]? = some o1)
    (e : o2.lost = o1.lost) : ∀ o ∈ s.objs.set p o2, o.lost = false := by
  intro o ho
  rcases List.mem_or_eq_of_mem_set ho with ho | rfl
  · exact h o ho
  · rw [e]
    exact h o1 (List.mem_of_getElem? h1)

set_option hygiene false in
local macro "arc_whole" p:ident : tactic => `(tactic| (
  rcases hobj : s.objs[$p]? with _ | o1
  · simp [Arc.step, M.bind_apply, Arc.obj, Arc.data, hobj] at hstep
  · cases hfr : o1.freed
    · cases hal : o1.alive <;>
        simp [Arc.step, M.bind_apply, Arc.obj, Arc.data, Arc.put, Arc.goto, Arc.done, Arc.give,
          Arc.after, hobj, hfr, hal] at hstep <;>
        (repeat' (split at hstep)) <;>
        (try simp [M.bind_apply] at hstep) <;>
        (try subst hstep) <;>
        first
        | exact hW
        | exact hW.set hobj rfl
    · simp [Arc.step, M.bind_apply, Arc.obj, Arc.data, hobj, hfr] at hstep))

theorem ArcSys.Whole.run (hW : s.Whole) {ch : ArcChoice α} {t : Nat} {op : ArcOp α} {s' : ArcSys α}
    (hstep : Arc.step mx ch t op s = .ok () s') (hl : ¬ ArcLoses ch op) : s'.Whole := by
  cases op with
  | clone h p => arc_whole p
  | down h p => arc_whole p
  | down1 h p v => arc_whole p
  | read h p => arc_whole p
  | count h p => arc_whole p
  | wcount h p => arc_whole p
  | get0 p => arc_whole p
  | get1 p => arc_whole p
  | get2 p u => arc_whole p
  | held p =>
    rcases hobj : s.objs[p]? with _ | o1
    · simp [Arc.step, M.bind_apply, Arc.obj, hobj] at hstep
    · cases hfr : o1.freed
      · cases hal : o1.alive
        · simp [Arc.step, M.bind_apply, Arc.obj, Arc.data, hobj, hfr, hal] at hstep
        · cases hw : ch.write with
          | none =>
            simp [Arc.step, M.bind_apply, Arc.obj, Arc.data, Arc.done, Arc.give, hobj, hfr, hal,
              hw] at hstep
            subst hstep
            exact hW
          | some x =>
            simp [Arc.step, M.bind_apply, Arc.obj, Arc.data, Arc.put, hobj, hfr, hal, hw] at hstep
            subst hstep
            exact hW.set hobj rfl
      · simp [Arc.step, M.bind_apply, Arc.obj, hobj, hfr] at hstep
  | drop0 p => arc_whole p
  | fin1 p k => rcases k with _ | ⟨r, v⟩ <;> arc_whole p
  | fin2 p k => rcases k with _ | ⟨r, v⟩ <;> arc_whole p
  | fin3 p k => rcases k with _ | ⟨r, v⟩ <;> arc_whole p
  | unw0 p => arc_whole p
  | unw1 p => arc_whole p
  | unw2 p x => arc_whole p
  | unw3 p x => arc_whole p
  | mm0 p v => arc_whole p
  | mm1 p v k => arc_whole p
  | mm2 p v w => arc_whole p
  | mm3 p v => arc_whole p
  | mm4 p v => arc_whole p
  | mmC p v => arc_whole p
  | mm5 p v r z => arc_whole p
  | mmA p v x z =>
    cases hg : ch.grant with
    | true =>
      simp [Arc.step, M.bind_apply, Arc.goto, hg] at hstep
      subst hstep
      intro o ho
      rcases List.mem_append.1 ho with ho | ho
      · exact hW o ho
      · simp at ho
        rw [ho]
    | false =>
      cases z with
      | true => exact absurd ⟨rfl, hg⟩ hl
      | false =>
        simp [Arc.step, M.bind_apply, Arc.give, Arc.done, Arc.lose, hg] at hstep
        subst hstep
        exact hW

theorem ArcSys.Whole.step (h : s.Whole) {s' : ArcSys α} (hs : ArcStep mx True s s') : s'.Whole := by
  cases hs with
  | new t x ht =>
    intro o ho
    rcases List.mem_append.1 ho with ho | ho
    · exact h o ho
    · simp at ho
      rw [ho]
  | borrow t cmd ht hc hh => exact h
  | take t cmd ht hc hh ho hu => exact h
  | dropWeak p ho _ => exact h.set ho rfl
  | run t ch ht hs hl => exact h.run hs (hl trivial)

theorem ArcReaches.whole (h : ArcReaches mx True n s) : s.Whole := by
  obtain ⟨k, h⟩ := h
  induction h with
  | refl =>
    intro o ho
    simp [ArcSys.start] at ho
  | tail h hs ih => exact ih.step hs

/-! ## Running the system -/

/-- Something to do. -/
inductive ArcAct (α : Type)
  | new (t : Nat) (x : α)
  | call (t : Nat) (cmd : ArcCmd α)
  | dropWeak (p : Nat)
  | run (t : Nat) (ch : ArcChoice α)

/-- `ArcLoses`, computed. -/
def ArcOp.loses (ch : ArcChoice α) : ArcOp α → Bool
  | .mmA _ _ _ z => z && !ch.grant
  | _ => false

/-- Doing it; `none` if that is not possible (or, where `calm`, if `make_mut` loses a value). -/
def ArcSys.act (mx : Nat) (calm : Bool) (s : ArcSys α) : ArcAct α → Option (ArcSys α)
  | .new t x =>
    match s.threads[t]? with
    | some none => some { s with
        objs := s.objs ++ [⟨1, 0, x, true, 0, 0, false, 0, 0, false⟩]
        hands := s.hands ++ [some s.objs.length] }
    | _ => none
  | .call t cmd =>
    match s.threads[t]?, cmd.borrows, cmd.takes with
    | some none, some (h, f), _ =>
      match s.hands[h]? with
      | some (some p) => some { s with threads := s.threads.set t (some (f p)) }
      | _ => none
    | some none, _, some (h, f) =>
      match s.hands[h]? with
      | some (some p) =>
        match s.objs[p]? with
        | some o =>
          if s.threads.all (fun x => !(on (ArcOp.borrows h) x)) then
            some { s with
              hands := s.hands.set h none
              threads := s.threads.set t (some (f p o.val)) }
          else none
        | none => none
      | _ => none
    | _, _, _ => none
  | .dropWeak p =>
    match s.objs[p]? with
    | some o =>
      if 0 < o.wk then some { s with objs := s.objs.set p { o with wk := o.wk - 1 } } else none
    | none => none
  | .run t ch =>
    match s.threads[t]? with
    | some (some op) =>
      if calm && op.loses ch then none
      else
        match Arc.step mx ch t op s with
        | .ok _ s' => some s'
        | _ => none
    | _ => none

/-- Doing one thing after the other. -/
def ArcSys.acts (mx : Nat) (calm : Bool) (s : ArcSys α) : List (ArcAct α) → Option (ArcSys α)
  | [] => some s
  | a :: l => (s.act mx calm a).bind fun s' => s'.acts mx calm l

theorem loses_iff (ch : ArcChoice α) (op : ArcOp α) : op.loses ch = true ↔ ArcLoses ch op := by
  cases op <;> simp [ArcOp.loses, ArcLoses]

theorem ArcSys.act_step {calm : Bool} {a : ArcAct α} {s' : ArcSys α}
    (h : s.act mx calm a = some s') : ArcStep mx (calm = true) s s' := by
  cases a with
  | new t x =>
    simp only [ArcSys.act] at h
    split at h
    · cases h
      exact .new t x ‹_›
    · cases h
  | call t cmd =>
    simp only [ArcSys.act] at h
    split at h
    · split at h
      · cases h
        exact .borrow t cmd ‹_› ‹_› ‹_›
      · cases h
    · split at h
      · split at h
        · split at h
          · cases h
            refine .take t cmd ‹_› ‹_› ‹_› ‹_› ?_
            rename_i hall
            intro t' op ht'
            have := List.all_eq_true.1 hall _ (List.mem_of_getElem? ht')
            simpa using this
          · cases h
        · cases h
      · cases h
    · cases h
  | dropWeak p =>
    simp only [ArcSys.act] at h
    split at h
    · split at h
      · cases h
        exact .dropWeak p ‹_› ‹_›
      · cases h
    · cases h
  | run t ch =>
    simp only [ArcSys.act] at h
    split at h
    · split at h
      · cases h
      · split at h
        · cases h
          refine .run t ch ‹_› ‹_› ?_
          intro hc hl
          rename_i hb _ _ _
          rw [hc, (loses_iff _ _).2 hl] at hb
          exact hb rfl
        · cases h
    · cases h

theorem ArcSys.acts_steps {calm : Bool} {l : List (ArcAct α)} {s0 s s' : ArcSys α} {k : Nat}
    (h0 : ArcSteps mx (calm = true) s0 k s) (h : s.acts mx calm l = some s') :
    ArcSteps mx (calm = true) s0 (k + l.length) s' := by
  induction l generalizing s k with
  | nil =>
    cases h
    exact h0
  | cons a l ih =>
    simp only [ArcSys.acts] at h
    cases hs : s.act mx calm a with
    | none => rw [hs] at h; cases h
    | some s2 =>
      rw [hs] at h
      have := ih (h0.tail (ArcSys.act_step hs)) h
      rw [List.length_cons, show k + (l.length + 1) = k + 1 + l.length by omega]
      exact this

theorem ArcSteps.weaken {calm calm' : Prop} (hc : calm' → calm) {s0 s' : ArcSys α} {k : Nat}
    (h : ArcSteps mx calm s0 k s') : ArcSteps mx calm' s0 k s' := by
  induction h with
  | refl => exact .refl
  | tail h hs ih =>
    refine ih.tail ?_
    cases hs with
    | new t x ht => exact .new t x ht
    | borrow t cmd ht hc hh => exact .borrow t cmd ht hc hh
    | take t cmd ht hc hh ho hu => exact .take t cmd ht hc hh ho hu
    | dropWeak p ho h => exact .dropWeak p ho h
    | run t ch ht hs hl => exact .run t ch ht hs fun h => hl (hc h)

/-- What a list of actions leads to is reached. -/
theorem ArcReaches.of_acts {calm : Bool} {l : List (ArcAct α)} {k : Nat} {s' : ArcSys α}
    (h : (ArcSys.start k).acts mx calm l = some s') :
    ArcReaches mx (calm = true) l.length s' := by
  have := ArcSys.acts_steps .refl h
  exact ⟨k, by simpa using this⟩

end Lokky
