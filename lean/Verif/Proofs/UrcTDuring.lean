import Verif.Proofs.UrcTFrame

/-! A call of `make_mut` or `try_unwrap` while other threads go on. -/

namespace Lokky
variable {α : Type} {n n' mx : Nat} {s s1 s' : UrcSys α} {dbg : Bool}

theorem UrcTDuring.reaches {t m : Nat} (h : UrcTReaches dbg mx true true n s) (d : UrcTDuring dbg mx t s m s') :
    UrcTReaches dbg mx true true (n + m) s' := by
  induction d with
  | refl => exact h
  | step a _ _ he hf hs ih => exact .step a ih he (fun _ => hf) hs

/-- If the step is over, then `Q` holds. -/
def UrcEnds (Q : UrcSys α → Prop) (r : Res (UrcSys α) Unit) : Prop := ∀ s', r = .ok () s' → Q s'

namespace UrcEnds
open UrcT
variable {Q : UrcSys α → Prop}

theorem bind {β : Type} {m : M (UrcSys α) β} {f : β → M (UrcSys α) Unit} (h : ∀ b s1, UrcEnds Q (f b s1)) :
    UrcEnds Q ((m >>= f) s) := by
  intro s' e
  rw [M.bind_apply] at e
  cases e1 : m s with
  | ok b s1 => rw [e1] at e; exact h b s1 s' e
  | panic s1 => rw [e1] at e; cases e
  | abort => rw [e1] at e; cases e
  | ub u => rw [e1] at e; cases e

theorem boom : UrcEnds Q ((M.boom : M (UrcSys α) Unit) s) := fun _ h => by cases h

theorem ite {c : Prop} [Decidable c] {m m' : M (UrcSys α) Unit} (h1 : UrcEnds Q (m s))
    (h2 : UrcEnds Q (m' s)) : UrcEnds Q ((if c then m else m') s) := by
  split <;> assumption

theorem goto {t : Nat} {op : UrcOp α} {R : UrcOp α → Prop} (h : R op) :
    UrcEnds (fun s' => ∀ op', s'.At t op' → R op') (UrcT.goto t op s) := by
  intro s' e op' ha
  cases e
  unfold UrcSys.At at ha
  simp only at ha
  have hlt := (List.getElem?_eq_some_iff.1 ha).1
  rw [List.getElem?_set_self (by simpa using hlt)] at ha
  cases ha
  exact h

theorem done {t : Nat} {out : UrcOut α} {R : UrcOp α → Prop} :
    UrcEnds (fun s' => ∀ op', s'.At t op' → R op') (UrcT.done t out s) := by
  intro s' e op' ha
  cases e
  unfold UrcSys.At at ha
  simp only at ha
  have hlt := (List.getElem?_eq_some_iff.1 ha).1
  rw [List.getElem?_set_self (by simpa using hlt)] at ha
  cases ha

end UrcEnds

theorem UrcSys.Frame.gone {t h : Nat} {w : Option Nat} (A : s.Frame t w s') (e : s.hands[h]? = some none) :
    s'.hands[h]? = some none := by
  have hlt := (List.getElem?_eq_some_iff.1 e).1
  cases e' : s'.hands[h]? with
  | none =>
    rw [List.getElem?_eq_none_iff] at e'
    have := A.hlen
    omega
  | some a =>
    cases a with
    | none => rfl
    | some x' =>
      obtain ⟨x, hx, -⟩ := A.hand h x' hlt e'
      rw [e] at hx
      cases hx

/-- Thread `t` is in the middle of a call of `make_mut` or `try_unwrap` on handle `h`, which read `v`; or it has got
a new handle that reads `v`. -/
def UrcMid (s : UrcSys α) (h : Nat) (v : α) : UrcOp α → Prop
  | .mm1 i _ _ | .mm2 i _ _ _ | .mv0 i _ _ | .mmC i _ _ | .unw1 i _ _ => i = h ∧ s.reads h = some v
  | .mmA i _ _ x => i = h ∧ x = v ∧ s.reads h = some v
  | .mv1 i _ _ x => i = h ∧ x = v
  | .held i _ _ | .fin _ (some (i, _, _)) => s.reads i = some v ∧ s.hands[h]? = some none
  | _ => False

/-- What `make_mut` does after it has made the new `Urc`. -/
theorem UrcT.tail_ends {t h g q : Nat} {x : α} {w : Option Nat} {m : Nat → M (UrcSys α) Unit}
    (hm : ∀ h' s, UrcFrames t w s (m h' s)) {R : UrcOp α → Prop}
    (hr : ∀ h' s, UrcEnds (fun s' => ∀ op', s'.At t op' → R op') (m h' s)) (hw : w ≠ some q)
    (hq : s.vals[q]? = some (x, true)) (hh : h < s.hands.length) :
    UrcEnds (fun s' => s'.vals[q]? = some (x, true) ∧ s'.hands[h]? = some none ∧ ∀ op', s'.At t op' → R op')
      ((do let h' ← UrcT.name; UrcT.give t (.urc g); UrcT.setHand h none; m h' : M (UrcSys α) Unit) s) := by
  intro s' e
  have e0 : (do let h' ← UrcT.name; UrcT.give t (.urc g); UrcT.setHand h none; m h' : M (UrcSys α) Unit) s =
    m s.hands.length { s with hands := (s.hands ++ [some (UrcHold.own t (.urc g))]).set h none } := rfl
  rw [e0] at e
  have A := hm s.hands.length { s with hands := (s.hands ++ [some (UrcHold.own t (.urc g))]).set h none }
  rw [e] at A
  refine ⟨?_, A.gone ?_, hr _ _ s' e⟩
  · exact (A.vals q (List.getElem?_eq_some_iff.1 hq).1 hw).trans hq
  · exact List.getElem?_set_self (by simp; omega)

theorem UrcT.mmA_ends (ch : UrcChoice α) {t h f p : Nat} {x : α} (hh : h < s.hands.length) :
    UrcEnds (fun s' => s'.vals[s.vals.length]? = some (x, true) ∧ s'.hands[h]? = some none ∧
        ∀ op', s'.At t op' → ∃ h' g, op' = .held h' g s.vals.length ∨ ∃ p', op' = .fin p' (some (h', g, s.vals.length)))
      (UrcT.step dbg mx ch t (.mmA h f p x) s) := by
  intro s' e
  simp only [UrcT.step] at e
  by_cases hg : ch.grant = true
  · rw [if_pos hg] at e
    cases hr : s.mem.racy t s.vals.length .init with
    | true =>
      have : UrcT.alloc t x s = .ub .race := by simp [UrcT.alloc, hr]
      rw [M.bind_apply, this] at e
      cases e
    | false =>
      have ha : UrcT.alloc t x s = .ok (s.fences.length, s.vals.length) { s with
          vals := s.vals ++ [(x, true)]
          fences := s.fences ++ [some ⟨1, 0, s.vals.length⟩]
          mem := s.mem.apply t 0 (.init s.vals.length) } := by
        simp only [UrcT.alloc, hr, Bool.false_eq_true, if_false]
      rw [M.bind_ok ha] at e
      refine UrcT.tail_ends (w := none) (fun h' s => ?_) (fun h' s => ?_) (by simp) (by simp) (by simpa using hh) s' e
      · refine UrcFrames.dropUrc.bind fun r s => ?_
        cases r
        · exact UrcFrames.goto
        · exact UrcFrames.goto
      · refine UrcEnds.bind fun r s => ?_
        cases r
        · exact UrcEnds.goto ⟨_, _, Or.inl rfl⟩
        · exact UrcEnds.goto ⟨_, _, Or.inr ⟨_, rfl⟩⟩
  · rw [if_neg hg] at e
    cases e

theorem UrcT.mv1_ends (ch : UrcChoice α) {t h f p : Nat} {x : α} (hh : h < s.hands.length) :
    UrcEnds (fun s' => s'.vals[s.vals.length]? = some (x, true) ∧ s'.hands[h]? = some none ∧
        ∀ op', s'.At t op' → ∃ h' g, op' = .held h' g s.vals.length)
      (UrcT.step dbg mx ch t (.mv1 h f p x) s) := by
  intro s' e
  simp only [UrcT.step] at e
  cases eF : s.fences[f]? with
  | none => rw [M.bind_apply] at e; simp only [UrcT.fence, eF] at e; cases e
  | some a =>
    cases a with
    | none => rw [M.bind_apply] at e; simp only [UrcT.fence, eF] at e; cases e
    | some F =>
      have hput : (UrcT.putFence f { F with strong := 0 } : M (UrcSys α) Unit) s =
          .ok () { s with fences := s.fences.set f (some { F with strong := 0 }) } := rfl
      rw [M.bind_ok (UrcT.fence_ok eF), M.bind_ok hput, M.bind_apply] at e
      cases hs : UrcT.store t .strong p 0 true
          ({ s with fences := s.fences.set f (some { F with strong := 0 }) } : UrcSys α) with
      | panic s1 => rw [hs] at e; cases e
      | abort => rw [hs] at e; cases e
      | ub u => rw [hs] at e; cases e
      | ok b s1 =>
        have h1 : s1.vals = s.vals ∧ s1.hands = s.hands := by
          unfold UrcT.store at hs
          split at hs
          · split at hs
            · cases hs
            · cases hs
              exact ⟨rfl, rfl⟩
          · cases hs
        rw [hs] at e
        simp only at e
        by_cases hg : ch.grant = true
        · rw [if_pos hg] at e
          cases hr : s1.mem.racy t s1.vals.length .init with
          | true =>
            have : UrcT.alloc t x s1 = .ub .race := by simp [UrcT.alloc, hr]
            rw [M.bind_apply, this] at e
            cases e
          | false =>
            have ha : UrcT.alloc t x s1 = .ok (s1.fences.length, s1.vals.length) { s1 with
                vals := s1.vals ++ [(x, true)]
                fences := s1.fences ++ [some ⟨1, 0, s1.vals.length⟩]
                mem := s1.mem.apply t 0 (.init s1.vals.length) } := by
              simp only [UrcT.alloc, hr, Bool.false_eq_true, if_false]
            rw [M.bind_ok ha] at e
            rw [← h1.1]
            refine UrcT.tail_ends (w := none) (fun h' s => ?_) (fun h' s => ?_) (by simp) (by simp)
              (by simpa [h1.2] using hh) s' e
            · exact UrcFrames.dropUrc.bind fun r s => UrcFrames.goto
            · exact UrcEnds.bind fun r s => UrcEnds.goto ⟨_, _, rfl⟩
        · rw [if_neg hg] at e
          have hput' : (UrcT.put p x true : M (UrcSys α) Unit) s1 = .ok () { s1 with vals := s1.vals.set p (x, true) } :=
            rfl
          rw [M.bind_ok hput'] at e
          cases e

/-- Reading the value and going on with it. -/
theorem UrcT.data_ends {t p : Nat} {k : ArcKind} {m : α → M (UrcSys α) Unit} {R : α → UrcOp α → Prop}
    (hr : ∀ v s, UrcEnds (fun s' => ∀ op', s'.At t op' → R v op') (m v s)) :
    UrcEnds (fun s' => ∀ op', s'.At t op' → ∃ v, s.vals[p]? = some (v, true) ∧ R v op')
      ((do UrcT.touch t p k; let v ← UrcT.data p; m v : M (UrcSys α) Unit) s) := by
  intro s' e
  rw [M.bind_apply] at e
  cases ht : UrcT.touch t p k s with
  | panic s1 => rw [ht] at e; cases e
  | abort => rw [ht] at e; cases e
  | ub u => rw [ht] at e; cases e
  | ok b s1 =>
    have h1 : s1.vals = s.vals := by
      unfold UrcT.touch at ht
      split at ht
      · cases ht
      · cases ht
        rfl
    rw [ht] at e
    simp only at e
    rw [M.bind_apply] at e
    cases hd : UrcT.data p s1 with
    | panic s2 => rw [hd] at e; cases e
    | abort => rw [hd] at e; cases e
    | ub u => rw [hd] at e; cases e
    | ok v s2 =>
      rw [hd] at e
      have h2 : s.vals[p]? = some (v, true) := by
        unfold UrcT.data at hd
        rw [h1] at hd
        split at hd
        · cases hd
          assumption
        · cases hd
        · cases hd
      intro op' ha
      exact ⟨v, h2, hr v s2 s' e op' ha⟩

namespace UrcTInv
open UrcT

/-- Handles of threads that do not act. -/
theorem reads_other (G : UrcTInv n s) (G' : UrcTInv n' s') {a : UrcAct α} (he : a.enabled true s = true)
    (hf : a.faulty s = false) (ha : a.act dbg mx s = .ok () s') {t : Nat} {op : UrcOp α} (ht : s.At t op)
    (hne : t ≠ a.thread) : s'.At t op ∧ ∀ h f p, op.hand = some (h, f, p) → s'.reads h = s.reads h := by
  have A := a.frame he ha
  have ht' : s'.At t op := by
    unfold UrcSys.At
    rw [A.thr t hne]
    exact ht
  refine ⟨ht', fun h f p ho => ?_⟩
  have e := (G.L.ops t op ht).own h f p ho
  refine G.reads_kept G' he hf ha e rfl ((G'.L.ops t op ht').own h f p ho) ?_
  intro op' f' p' h1 h2
  have e' := (G.L.ops _ op' h1).own h f' p' h2
  rw [e] at e'
  cases e'
  exact absurd rfl hne

theorem hand_reads (G : UrcTInv n s) {t h f p : Nat} {op : UrcOp α} (ht : s.At t op)
    (ho : op.hand = some (h, f, p)) : s.master h = some p := by
  have o := G.L.ops t op ht
  exact UrcSys.master_eq.2 ⟨_, o.own h f p ho, o.fen h f p ho⟩

theorem mid_step (G : UrcTInv n s) (G' : UrcTInv n' s') {a : UrcAct α} (he : a.enabled true s = true)
    (hf : a.faulty s = false) (ha : a.act dbg mx s = .ok () s') {t h : Nat} {op op' : UrcOp α} {v : α}
    (ht : s.At t op) (hheld : ∀ h f p, op ≠ .held h f p) (hm : UrcMid s h v op) (ht' : s'.At t op') :
    UrcMid s' h v op' := by
  have A := a.frame he ha
  by_cases hne : t = a.thread
  · cases a with
    | new t0 x =>
      simp only [UrcAct.thread] at hne
      subst hne
      unfold UrcSys.At at ht
      simp [UrcAct.enabled, ht] at he
    | recv t0 i =>
      simp only [UrcAct.thread] at hne
      subst hne
      unfold UrcSys.At at ht
      simp [UrcAct.enabled, ht] at he
    | call t0 i cmd ch =>
      simp only [UrcAct.thread] at hne
      subst hne
      unfold UrcSys.At at ht
      simp [UrcAct.enabled, ht] at he
    | run t0 ch =>
      simp only [UrcAct.thread] at hne
      subst hne
      -- the step is not a panic, as the thread goes on
      have hs : step dbg mx ch t op s = .ok () s' := by
        have h1 := ht
        unfold UrcSys.At at h1
        simp only [UrcAct.act, h1, UrcT.caught] at ha
        split at ha
        · rename_i s2 e2
          exfalso
          cases ha
          unfold UrcSys.At at ht'
          simp only at ht'
          have hlt := (List.getElem?_eq_some_iff.1 ht').1
          rw [List.getElem?_set_self (by simpa using hlt)] at ht'
          cases ht'
        · exact ha
      -- a handle the thread has before and after, with a step that does not write
      have hkept : ∀ i f p f' p', op.hand = some (i, f, p) → op'.hand = some (i, f', p') → op.writes = none →
          s'.reads i = s.reads i := by
        intro i f p f' p' h1 h2 h3
        refine G.reads_kept G' he hf ha ((G.L.ops t op ht).own i f p h1) rfl ((G'.L.ops t op' ht').own i f' p' h2) ?_
        intro op2 f2 p2 h4 _
        rw [at_inj ht h4]
        exact h3
      have hval : ∀ i f p x, op.hand = some (i, f, p) → s.reads i = some v → s.vals[p]? = some (x, true) → x = v := by
        intro i f p x h1 h2 h3
        have := (UrcSys.reads_eq (G.hand_reads ht h1)).1 h2
        rw [h3] at this
        cases this
        rfl
      cases op with
      | mm1 i f p =>
        obtain ⟨rfl, h2⟩ := hm
        have : UrcEnds (fun s' => ∀ op', s'.At t op' → (∃ w, op' = .mm2 i f p w) ∨ op' = .mmC i f p ∨ op' = .mv0 i f p)
            (step dbg mx ch t (.mm1 i f p) s) :=
          .bind fun _ _ => .bind fun _ _ => .ite (.goto (Or.inl ⟨_, rfl⟩))
            (.ite (.goto (Or.inr (Or.inl rfl))) (.goto (Or.inr (Or.inr rfl))))
        rcases this s' hs op' ht' with ⟨w, rfl⟩ | rfl | rfl
        all_goals exact ⟨rfl, (hkept i f p f p rfl rfl rfl).trans h2⟩
      | mm2 i f p w =>
        obtain ⟨rfl, h2⟩ := hm
        have : UrcEnds (fun s' => ∀ op', s'.At t op' → (∃ w, op' = .mm2 i f p w) ∨ op' = .mv0 i f p)
            (step dbg mx ch t (.mm2 i f p w) s) := by
          refine .ite .boom (.bind fun r s => ?_)
          cases r
          · exact .bind fun _ _ => .goto (Or.inr rfl)
          · exact .goto (Or.inl ⟨_, rfl⟩)
        rcases this s' hs op' ht' with ⟨w, rfl⟩ | rfl
        all_goals exact ⟨rfl, (hkept i f p f p rfl rfl rfl).trans h2⟩
      | mmC i f p =>
        obtain ⟨rfl, h2⟩ := hm
        have : UrcEnds (fun s' => ∀ op', s'.At t op' → ∃ x, s.vals[p]? = some (x, true) ∧ op' = .mmA i f p x)
            (step dbg mx ch t (.mmC i f p) s) :=
          data_ends fun _ _ => .ite .boom (.goto rfl)
        obtain ⟨x, h3, rfl⟩ := this s' hs op' ht'
        exact ⟨rfl, hval i f p x rfl h2 h3, (hkept i f p f p rfl rfl rfl).trans h2⟩
      | mv0 i f p =>
        obtain ⟨rfl, h2⟩ := hm
        have : UrcEnds (fun s' => ∀ op', s'.At t op' → ∃ x, s.vals[p]? = some (x, true) ∧ op' = .mv1 i f p x)
            (step dbg mx ch t (.mv0 i f p) s) :=
          data_ends fun _ _ => .bind fun _ _ => .goto rfl
        obtain ⟨x, h3, rfl⟩ := this s' hs op' ht'
        exact ⟨rfl, hval i f p x rfl h2 h3⟩
      | mmA i f p x =>
        obtain ⟨rfl, rfl, -⟩ := hm
        have e := (G.L.ops t _ ht).own i f p rfl
        obtain ⟨h3, h4, h5⟩ := mmA_ends ch (List.getElem?_eq_some_iff.1 e).1 s' hs
        obtain ⟨h', g, rfl | ⟨p', rfl⟩⟩ := h5 op' ht'
        all_goals exact ⟨(UrcSys.reads_eq (G'.hand_reads ht' rfl)).2 h3, h4⟩
      | mv1 i f p x =>
        obtain ⟨rfl, rfl⟩ := hm
        have e := (G.L.ops t _ ht).own i f p rfl
        obtain ⟨h3, h4, h5⟩ := mv1_ends ch (List.getElem?_eq_some_iff.1 e).1 s' hs
        obtain ⟨h', g, rfl⟩ := h5 op' ht'
        exact ⟨(UrcSys.reads_eq (G'.hand_reads ht' rfl)).2 h3, h4⟩
      | unw1 i f p =>
        exfalso
        have : UrcEnds (fun s' => ∀ op', s'.At t op' → False) (step dbg mx ch t (.unw1 i f p) s) :=
          .bind fun _ _ => .bind fun _ _ => .bind fun _ _ => .bind fun _ _ => .bind fun _ _ => .bind fun _ _ => .done
        exact this s' hs op' ht'
      | fin p k =>
        cases k with
        | none => exact hm.elim
        | some k =>
          obtain ⟨i, f, q⟩ := k
          obtain ⟨h1, h2⟩ := hm
          have : UrcEnds (fun s' => ∀ op', s'.At t op' → op' = .held i f q)
              (step dbg mx ch t (.fin p (some (i, f, q))) s) := .bind fun _ _ => .goto rfl
          have := this s' hs op' ht'
          subst this
          exact ⟨(hkept i f q f q rfl rfl rfl).trans h1, A.gone h2⟩
      | held i f p => exact absurd rfl (hheld i f p)
      | get1 i f p => exact hm.elim
      | get2 i f p => exact hm.elim
      | wfin p => exact hm.elim
  · obtain ⟨h1, h2⟩ := G.reads_other G' he hf ha ht hne
    have := at_inj h1 ht'
    subst this
    cases op' with
    | mm1 i f p => exact ⟨hm.1, by rw [← hm.1, h2 i f p rfl, hm.1]; exact hm.2⟩
    | mm2 i f p w => exact ⟨hm.1, by rw [← hm.1, h2 i f p rfl, hm.1]; exact hm.2⟩
    | mv0 i f p => exact ⟨hm.1, by rw [← hm.1, h2 i f p rfl, hm.1]; exact hm.2⟩
    | mmC i f p => exact ⟨hm.1, by rw [← hm.1, h2 i f p rfl, hm.1]; exact hm.2⟩
    | unw1 i f p => exact ⟨hm.1, by rw [← hm.1, h2 i f p rfl, hm.1]; exact hm.2⟩
    | mmA i f p x => exact ⟨hm.1, hm.2.1, by rw [← hm.1, h2 i f p rfl, hm.1]; exact hm.2.2⟩
    | mv1 i f p x => exact hm
    | held i f p => exact ⟨(h2 i f p rfl).trans hm.1, A.gone hm.2⟩
    | fin p k =>
      cases k with
      | none => exact hm.elim
      | some k =>
        obtain ⟨i, f, q⟩ := k
        exact ⟨(h2 i f q rfl).trans hm.1, A.gone hm.2⟩
    | get1 i f p => exact hm.elim
    | get2 i f p => exact hm.elim
    | wfin p => exact hm.elim

/-- Until the thread is done. -/
theorem mid_during (hr : UrcTReaches dbg mx true true n s) {t h m : Nat} {v : α} {s2 : UrcSys α}
    (h0 : ∀ op, s.At t op → UrcMid s h v op) (d : UrcTDuring dbg mx t s m s2) (hn : n + m ≤ mx) {op : UrcOp α}
    (ht : s2.At t op) : UrcMid s2 h v op := by
  induction d generalizing op with
  | refl => exact h0 op ht
  | step a d hb he hf hs ih =>
    obtain ⟨op0, h1, h2⟩ := hb
    have R := d.reaches hr
    exact (reaches R (by omega)).mid_step (reaches (.step a R he (fun _ => hf) hs) (by omega)) he hf hs h1 h2
      (ih (by omega) h1) ht

end UrcTInv
end Lokky
