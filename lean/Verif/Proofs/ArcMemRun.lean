import Verif.Proofs.ArcMemLoad

/-! All that can happen keeps the invariants of `Arc` with its memory orderings. -/

namespace Lokky
variable {α : Type} {mx n : Nat} {s : ArcSys α} {m : ArcMem}

open ArcOp ArcSys

set_option linter.unusedSimpArgs false

theorem count_eq {p : Nat} {o : ArcObj α} (ho : s.objs[p]? = some o) (c : ArcCtr) :
    s.count c p = o.count c := by
  simp [ArcSys.count, ho]

/-- A step that loads does what is to be done with the latest message. -/
theorem step_loaded {ch : ArcChoice α} {t p : Nat} {op : ArcOp α} {c : ArcCtr} {acq : Bool} {o : ArcObj α}
    (h : Arc.eff mx ch s op = .load c p acq) (ho : s.objs[p]? = some o) :
    ∃ f, Arc.loads op = some (c, p, acq) ∧ Arc.loaded mx t (o.count c) op = some f ∧
      Arc.step mx ch t op s = (do let _ ← Arc.obj p; f) s := by
  cases op with
  | down1 h' q v =>
    simp only [Arc.eff] at h
    by_cases hv : v = Arc.lock mx
    · rw [if_pos hv] at h
      cases h
      refine ⟨_, rfl, rfl, ?_⟩
      cases hfr : o.freed <;> simp [Arc.step, M.bind_apply, Arc.obj, ho, hv, hfr, ArcObj.count]
    · rw [if_neg hv] at h
      split at h
      · cases h
      · cases h
        refine ⟨_, rfl, rfl, ?_⟩
        rename_i hc
        rw [count_eq ho] at hc
        cases hfr : o.freed
        · simp only [Arc.step, M.bind_apply, Arc.obj, ho, hv, hfr, if_false]
          simp only [ArcObj.count] at hc
          simp [hc]
        · simp [Arc.step, M.bind_apply, Arc.obj, ho, hv, hfr]
  | get0 q =>
    simp only [Arc.eff] at h
    split at h
    · cases h
    · cases h
      rename_i hc
      rw [count_eq ho] at hc
      refine ⟨_, rfl, by simp [Arc.loaded, hc]; rfl, ?_⟩
      simp only [ArcObj.count] at hc
      cases hfr : o.freed <;> simp [Arc.step, M.bind_apply, Arc.obj, ho, hfr, hc]
  | unw0 q =>
    simp only [Arc.eff] at h
    split at h
    · cases h
    · cases h
      rename_i hc
      rw [count_eq ho] at hc
      refine ⟨_, rfl, by simp [Arc.loaded, hc]; rfl, ?_⟩
      simp only [ArcObj.count] at hc
      cases hfr : o.freed <;> simp [Arc.step, M.bind_apply, Arc.obj, ho, hfr, hc]
  | mm2 q d w =>
    simp only [Arc.eff] at h
    split at h
    · cases h
    · cases h
      rename_i hc
      rw [count_eq ho] at hc
      refine ⟨_, rfl, rfl, ?_⟩
      simp only [ArcObj.count] at hc
      cases hfr : o.freed <;> simp [Arc.step, M.bind_apply, Arc.obj, ho, hfr, hc, ArcObj.count]
  | mm3 q d =>
    simp only [Arc.eff] at h
    split at h
    · cases h
    · cases h
      rename_i hc
      rw [count_eq ho] at hc
      refine ⟨_, rfl, rfl, ?_⟩
      simp only [ArcObj.count] at hc
      cases hfr : o.freed <;> simp [Arc.step, M.bind_apply, Arc.obj, ho, hfr, hc]
  | held q =>
    simp only [Arc.eff] at h
    split at h <;> cases h
  | mmA q d x z =>
    simp only [Arc.eff] at h
    split at h <;> cases h
  | _ =>
    simp only [Arc.eff] at h
    first
    | cases h
      done
    | cases h
      refine ⟨_, rfl, rfl, ?_⟩
      cases hfr : o.freed <;> simp [Arc.step, M.bind_apply, Arc.obj, ho, hfr, ArcObj.count] <;> rfl

theorem eff_load_loads {ch : ArcChoice α} {p : Nat} {op : ArcOp α} {c : ArcCtr} {acq : Bool}
    (h : Arc.eff mx ch s op = .load c p acq) : op.main = p := by
  cases op <;> simp only [Arc.eff] at h <;> (repeat' (split at h)) <;> cases h <;> rfl

namespace ArcMemInv
variable {t p j : Nat} {op : ArcOp α} {s' : ArcSys α}

/-- Thread `t` makes a new object. -/
theorem fresh (J : ArcMemInv s m) (I : ArcInv mx n s) {a b : Option (ArcOp α)} {s' : ArcSys α} {m' : ArcMem}
    {x : α} (ht : s.threads[t]? = some a)
    (hobj : s'.objs = s.objs ++ [⟨1, 0, x, true, 0, 0, false, 0, 0, false⟩])
    (hthr : s'.threads = s.threads.set t b)
    (hh : ∀ h q : Nat, s.hands[h]? = some (some q) → s'.hands[h]? = some (some q) ∧ m'.hnd h = m.hnd h)
    (hh' : ∀ h q : Nat, s'.hands[h]? = some (some q) → s.hands[h]? = some (some q) ∨
      q = s.objs.length ∧ m'.hnd h = m'.thr t)
    (huse : ∀ q, on (uses q) b = true → q = s.objs.length ∨ on (uses q) a = true)
    (hhold : ∀ q, q ≠ s.objs.length → on (holds q) b = on (holds q) a)
    (hsens : ∀ q, on (sens q) b = true → q = s.objs.length ∨ on (sens q) a = true)
    (hbor : ∀ h q, on (borrowsAt h q) a = false)
    (hkept : (∃ h : Nat, s'.hands[h]? = some (some s.objs.length)) ∨ on (holds s.objs.length) b = true)
    (hown : ∀ q, q ≠ s.objs.length → 1 ≤ s'.own q → 1 ≤ s.own q)
    (e1 : m'.evts = (m.apply t j (.init s.objs.length)).evts)
    (e2 : m'.thr = (m.apply t j (.init s.objs.length)).thr)
    (e3 : m'.msgs = (m.apply t j (.init s.objs.length)).msgs)
    (e4 : ∀ h i, i ∈ m.ret h → i ∈ m'.ret h) : ArcMemInv s' m' := by
  have hev : m'.evts = m.evts ++ [(s.objs.length, .init)] := by
    rw [e1]; simp [ArcMem.apply, ArcMem.post, ArcMem.note, ArcMem.learn]
  have hself : ∀ i, i ∈ m'.thr t ↔ i ∈ m.thr t ∨ i = m.evts.length := by
    intro i; rw [e2]; simp [ArcMem.apply, ArcMem.post, ArcMem.note, ArcMem.learn]
  have hother : ∀ t', t' ≠ t → m'.thr t' = m.thr t' := by
    intro t' ne; rw [e2]; simp [ArcMem.apply, ArcMem.post, ArcMem.note, ArcMem.learn, ne]
  have hmono : ∀ t' i, i ∈ m.thr t' → i ∈ m'.thr t' := by
    intro t' i hi
    by_cases e : t' = t
    · subst e; exact (hself i).2 (Or.inl hi)
    · rw [hother t' e]; exact hi
  have hnone : ∀ c, m.msgs c s.objs.length = [] := by
    intro c
    rw [List.eq_nil_iff_forall_not_mem]
    intro y hy
    obtain ⟨k, hk⟩ := J.msg c _ y hy
    have := J.place _ _ _ hk
    omega
  have hmsg : ∀ c q, q ≠ s.objs.length → m'.msgs c q = m.msgs c q := by
    intro c q hq; rw [e3]; simp [ArcMem.apply, ArcMem.post, ArcMem.note, ArcMem.learn, hq]
  have hmsgN : ∀ c, ∃ v, m'.msgs c s.objs.length = [⟨v, m.evts.length, []⟩] ∧
      v = ArcObj.count (⟨1, 0, x, true, 0, 0, false, 0, 0, false⟩ : ArcObj α) c := by
    intro c
    cases c
    · exact ⟨1, by rw [e3]; simp [ArcMem.apply, ArcMem.post, ArcMem.note, ArcMem.learn, hnone], rfl⟩
    · exact ⟨0, by rw [e3]; simp [ArcMem.apply, ArcMem.post, ArcMem.note, ArcMem.learn, hnone], rfl⟩
  have hevt : ∀ (i q : Nat) (k : ArcKind), m'.evts[i]? = some (q, k) →
      m.evts[i]? = some (q, k) ∧ q ≠ s.objs.length ∨
      i = m.evts.length ∧ q = s.objs.length ∧ k = .init := by
    intro i q k h
    have hlt := (List.getElem?_eq_some_iff.1 h).1
    rw [hev] at h hlt
    rcases getElem?_append_cases h with h | ⟨h1, h2⟩
    · have := J.place i q k h
      exact Or.inl ⟨h, by omega⟩
    · simp at h2 hlt
      exact Or.inr ⟨by omega, h2.1, h2.2⟩
  have hevN : m'.evts[m.evts.length]? = some (s.objs.length, .init) := by
    rw [hev]; simp
  have hb := I.beyond s.objs.length (Nat.le_refl _)
  have hnoH : ∀ h : Nat, s.hands[h]? ≠ some (some s.objs.length) := by
    intro h hc
    have := ArcInv.own_pos_of_hand hc
    omega
  have hnoT : ∀ (t' : Nat) (op' : ArcOp α), s.threads[t']? = some (some op') →
      op'.uses s.objs.length = false := by
    intro t' op' ht'
    by_contra hc
    have := I.uses_pos ht' (show op'.uses s.objs.length = true by simpa using hc)
    omega
  have hlt : t < s.threads.length := (List.getElem?_eq_some_iff.1 ht).1
  have hst : s'.threads[t]? = some b := by rw [hthr]; simp [List.getElem?_set_self hlt]
  have hot : ∀ t', t' ≠ t → s'.threads[t']? = s.threads[t']? := by
    intro t' ne; rw [hthr]; simp [List.getElem?_set_ne (Ne.symm ne)]
  have hknow : ∀ h q i, s.hands[h]? = some (some q) → m.Knows s h q i → m'.Knows s' h q i := by
    rintro h q i h0 (h1 | h1 | ⟨t', op', h1, h2, h3⟩)
    · exact Or.inl (by rw [(hh h q h0).2]; exact h1)
    · exact Or.inr (Or.inl (e4 h i h1))
    · by_cases e : t' = t
      · subst e
        rw [ht] at h1
        cases h1
        have := hbor h q
        simp [h2] at this
      · exact Or.inr (Or.inr ⟨t', op', by rw [hot t' e]; exact h1, h2, hmono t' i h3⟩)
  have hmsg' : ∀ (q j : Nat) (y : ArcMsg), (m'.msgs .strong q)[j]? = some y →
      j + 1 < (m'.msgs .strong q).length → q ≠ s.objs.length := by
    rintro q j y h1 h2 rfl
    obtain ⟨v, h3, -⟩ := hmsgN .strong
    rw [h3] at h2
    simp at h2
  refine ⟨?_, ?_, ?_, ?_, ?_, ?_, ?_, ?_, ?_, ?_⟩
  · intro i q k h
    rw [hobj, List.length_append, List.length_singleton]
    rcases hevt i q k h with ⟨h, -⟩ | ⟨-, rfl, -⟩
    · have := J.place i q k h
      omega
    · omega
  · intro i q h
    rcases hevt i q _ h with ⟨h, -⟩ | ⟨-, -, h⟩
    · obtain ⟨o, h1, h2⟩ := J.freed i q h
      exact ⟨o, by rw [hobj]; exact getElem?_append_some h1, h2⟩
    · cases h
  · intro i q k h hk h' hq
    rcases hevt i q k h with ⟨h1, hne⟩ | ⟨rfl, rfl, rfl⟩
    · rcases hh' h' q hq with h2 | ⟨h2, -⟩
      · rw [(hh h' q h2).2]
        exact J.knownH i q k h1 hk h' h2
      · exact absurd h2 hne
    · rcases hh' h' _ hq with h2 | ⟨-, h2⟩
      · exact absurd h2 (hnoH h')
      · rw [h2]
        exact (hself _).2 (Or.inr rfl)
  · intro i q k h hk t' op' ht' hu
    by_cases e : t' = t
    · subst e
      rw [hst] at ht'
      cases ht'
      rcases hevt i q k h with ⟨h1, hne⟩ | ⟨rfl, rfl, rfl⟩
      · rcases huse q hu with h2 | h2
        · exact absurd h2 hne
        · cases a with
          | none => simp at h2
          | some op => exact hmono t' i (J.knownT i q k h1 hk t' op ht h2)
      · exact (hself _).2 (Or.inr rfl)
    · rw [hot t' e] at ht'
      rcases hevt i q k h with ⟨h1, hne⟩ | ⟨rfl, rfl, rfl⟩
      · exact hmono t' i (J.knownT i q k h1 hk t' op' ht' hu)
      · rw [hnoT t' op' ht'] at hu
        cases hu
  · intro i q k h hq
    rcases hevt i q k h with ⟨h1, hne⟩ | ⟨rfl, rfl, rfl⟩
    · rcases J.spread i q k h1 (hown q hne hq) with ⟨y, h2, h3⟩ | ⟨h', h2, h3⟩ | ⟨t', op', h2, h3, h4⟩
      · exact Or.inl ⟨y, by rw [hmsg _ q hne]; exact h2, h3⟩
      · exact Or.inr (Or.inl ⟨h', (hh h' q h2).1, hknow h' q i h2 h3⟩)
      · by_cases e : t' = t
        · subst e
          rw [ht] at h2
          cases h2
          have := hhold q hne
          simp only [on_some, h3] at this
          cases b with
          | none => simp at this
          | some op2 => exact Or.inr (Or.inr ⟨t', op2, hst, this, hmono t' i h4⟩)
        · exact Or.inr (Or.inr ⟨t', op', by rw [hot t' e]; exact h2, h3, hmono t' i h4⟩)
    · rcases hkept with ⟨h', h2⟩ | h2
      · refine Or.inr (Or.inl ⟨h', h2, Or.inl ?_⟩)
        rcases hh' h' _ h2 with h3 | ⟨-, h3⟩
        · exact absurd h3 (hnoH h')
        · rw [h3]
          exact (hself _).2 (Or.inr rfl)
      · cases b with
        | none => simp at h2
        | some op2 => exact Or.inr (Or.inr ⟨t, op2, hst, h2, (hself _).2 (Or.inr rfl)⟩)
  · intro t' op' q ht' hs i k h
    by_cases e : t' = t
    · subst e
      rw [hst] at ht'
      cases ht'
      rcases hevt i q k h with ⟨h1, hne⟩ | ⟨rfl, rfl, rfl⟩
      · rcases hsens q hs with h2 | h2
        · exact absurd h2 hne
        · cases a with
          | none => simp at h2
          | some op => exact hmono t' i (J.alone t' op q ht h2 i k h1)
      · exact (hself _).2 (Or.inr rfl)
    · rw [hot t' e] at ht'
      rcases hevt i q k h with ⟨h1, hne⟩ | ⟨rfl, rfl, rfl⟩
      · exact hmono t' i (J.alone t' op' q ht' hs i k h1)
      · rw [I.beyond_sens (Nat.le_refl _) t' op' ht'] at hs
        cases hs
  · intro c q y hy
    by_cases e : q = s.objs.length
    · subst e
      obtain ⟨v, h1, -⟩ := hmsgN c
      rw [h1] at hy
      simp at hy
      subst hy
      exact ⟨_, hevN⟩
    · rw [hmsg c q e] at hy
      obtain ⟨k, hk⟩ := J.msg c q y hy
      exact ⟨k, by rw [hev]; exact getElem?_append_some hk⟩
  · intro q o c h
    rw [hobj] at h
    rcases getElem?_append_cases h with h1 | ⟨h1, h2⟩
    · have := (List.getElem?_eq_some_iff.1 h1).1
      rw [hmsg c q (by omega)]
      exact J.last q o c h1
    · have := (List.getElem?_eq_some_iff.1 h).1
      simp at h2 this
      have e : q = s.objs.length := by omega
      subst e
      subst h2
      obtain ⟨v, h3, h4⟩ := hmsgN c
      exact ⟨_, by rw [h3]; rfl, h4⟩
  · intro q j y h1 h2 h3 h hq
    have hne := hmsg' q j y h1 h3
    rw [hmsg _ q hne] at h1 h3
    rcases hh' h q hq with h4 | ⟨h4, -⟩
    · obtain ⟨i, z, h5, h6, h7⟩ := J.oneH q j y h1 h2 h3 h h4
      exact ⟨i, z, h5, by rw [hmsg _ q hne]; exact h6, hknow h q _ h4 h7⟩
    · exact absurd h4 hne
  · intro q j y h1 h2 h3 t' op' ht' hp
    have hne := hmsg' q j y h1 h3
    rw [hmsg _ q hne] at h1 h3
    by_cases e : t' = t
    · subst e
      rw [hst] at ht'
      cases ht'
      have := hhold q hne
      rw [on_some, hp] at this
      cases a with
      | none => simp at this
      | some op =>
        obtain ⟨i, z, h5, h6, h7⟩ := J.oneT q j y h1 h2 h3 t' op ht this.symm
        exact ⟨i, z, h5, by rw [hmsg _ q hne]; exact h6, hmono t' _ h7⟩
    · rw [hot t' e] at ht'
      obtain ⟨i, z, h5, h6, h7⟩ := J.oneT q j y h1 h2 h3 t' op' ht' hp
      exact ⟨i, z, h5, by rw [hmsg _ q hne]; exact h6, hmono t' _ h7⟩

theorem run (J : ArcMemInv s m) (I : ArcInv mx n s) (hW : s.Whole) (hn : n < mx) {ch : ArcChoice α}
    (ht : s.threads[t]? = some (some op)) (hs : Arc.step mx ch t op s = .ok () s')
    (hl : ¬ ArcLoses ch op) :
    ArcMemInv s' ((m.apply t (m.latest ((Arc.loads op).elim .strong (·.1))
      ((Arc.loads op).elim 0 (·.2.1))) (Arc.eff mx ch s op)).close t op s s') := by
  by_cases hload : ∃ c p acq, Arc.eff mx ch s op = .load c p acq
  · obtain ⟨c, p, acq, he⟩ := hload
    have hm : op.uses p = true := by
      rw [← eff_load_loads he]
      cases op <;> simp [uses, ArcOp.main]
    obtain ⟨o, ho⟩ := I.exists_obj (I.uses_pos ht hm)
    obtain ⟨f, h1, h2, h3⟩ := step_loaded (t := t) he ho
    rw [h3] at hs
    obtain ⟨x, h4, h5⟩ := J.last p o c ho
    rw [List.getLast?_eq_getElem?] at h4
    have hlt := (List.getElem?_eq_some_iff.1 h4).1
    rw [← h5] at h2
    have := (J.load I hW hn ht h1 h4 (by
      intro i y hi hy
      have := (List.getElem?_eq_some_iff.1 hy).1
      omega) h2 hs).2.2
    rw [he, h1]
    exact this
  have hmain : op.uses op.main = true := by
    cases op <;> simp [uses, ArcOp.main]
  obtain ⟨o, ho⟩ := I.exists_obj (I.uses_pos ht hmain)
  have hlo := hW o (List.mem_of_getElem? ho)
  have hL : ¬ s.Lost op.main := hW.not_lost _
  have hneed := I.needs' ht hL
  have hk := I.obj _ o ho hlo
  have hfr : o.freed = false := by
    rcases I.uses_pos ht hmain with h | h
    · exact (hk.live h).2.1
    · have := hk.single
      exact hk.ending (by omega)
  have hnf : ¬ (o.freed = true) := by simp [hfr]
  cases op with
  | clone h p =>
    simp only [ArcOp.main] at ho hk
    have hf : s.hands[h]? = some (some p) := hneed
    obtain ⟨ha, -, hou, hst, htl⟩ := hk.live (ArcInv.own_pos_of_hand hf)
    have hfew := hk.few
    have hle : ¬ o.strong > mx := by omega
    have e : s' = s.upd p { o with strong := Arc.incr mx o.strong } t none 1 ((t, .unit) :: s.log) := by
      simpa [Arc.step, M.bind_apply, ArcInv.obj_ok ho hfr, Arc.put, hle, Arc.give, Arc.done,
        ArcSys.upd, eq_comm] using hs
    subst e
    simp only [Arc.eff, count_eq ho, ArcObj.count]
    refine J.work_strong I hW ht ho ⟨by simp [uses], by simp [uses], by simp [holds], by simp [holds],
      by simp⟩ rfl rfl rfl (by simp) (Or.inr (Or.inl ⟨h, by simp [borrowsAt]⟩)) ?_
      (fun _ => ⟨h, by simp [borrowsAt]⟩)
    intro h1
    exact Or.inr ⟨rfl, by omega, h, by simp [borrowsAt]⟩
  | down h p => exact absurd ⟨_, _, _, rfl⟩ hload
  | down1 h p v =>
    simp only [ArcOp.main] at ho hk
    by_cases hv : v = Arc.lock mx
    · exact absurd ⟨.weak, p, false, by simp [Arc.eff, hv]⟩ hload
    by_cases hc : o.weak = v ∧ ch.fail = false
    · have e : s' = s.upd p { o with weak := v + 1, wk := o.wk + 1, made := o.made + 1 } t none 0
          ((t, .unit) :: s.log) := by
        simpa [Arc.step, M.bind_apply, ArcInv.obj_ok ho hfr, Arc.put, hv, hc, Arc.done, ArcSys.upd,
          eq_comm] using hs
      subst e
      simp only [Arc.eff, count_eq ho, ArcObj.count, if_neg hv, if_pos hc]
      exact J.work_weak I hW ht ho ⟨by simp [uses], by simp [uses], by simp [holds], by simp [holds],
        by simp⟩ rfl rfl rfl (by simp) (Or.inr (Or.inl ⟨h, by simp [borrowsAt]⟩)) (by simp)
    · refine absurd ⟨.weak, p, false, ?_⟩ hload
      simp only [Arc.eff, count_eq ho, ArcObj.count, if_neg hv, if_neg hc]
  | read h p =>
    simp only [ArcOp.main] at ho hk
    have hf : s.hands[h]? = some (some p) := hneed
    obtain ⟨ha, -, -⟩ := hk.live (ArcInv.own_pos_of_hand hf)
    have e : s' = s.upd p o t none 0 ((t, .val o.val) :: s.log) := by
      rw [upd_same ho]
      simpa [Arc.step, M.bind_apply, ArcInv.data_ok ho hfr ha, Arc.done, eq_comm] using hs
    subst e
    exact J.work_touch I hW ht ho ⟨by simp [uses], by simp [uses], by simp [holds], by simp [holds],
      by simp⟩ (fun _ => rfl) (by simp) (by simp) id (by simp) (Or.inr (Or.inl ⟨h, by simp [borrowsAt]⟩)) (by simp)
  | count h p => exact absurd ⟨_, _, _, rfl⟩ hload
  | wcount h p => exact absurd ⟨_, _, _, rfl⟩ hload
  | get0 p =>
    simp only [ArcOp.main] at ho hk
    by_cases hc : o.weak = 0
    · have e : s' = s.upd p { o with weak := Arc.lock mx } t (some (.get1 p)) 0 s.log := by
        simpa [Arc.step, M.bind_apply, ArcInv.obj_ok ho hfr, Arc.put, hc, Arc.goto, ArcSys.upd,
          eq_comm] using hs
      subst e
      simp only [Arc.eff, count_eq ho, ArcObj.count, if_pos hc]
      exact J.work_weak I hW ht ho ⟨by simp [uses], by simp [uses], by simp [holds], by simp [holds],
        by simp [borrowsAt]⟩ rfl rfl rfl (by simp [sens]) (by simp [holds]) (by simp)
    · refine absurd ⟨.weak, p, false, ?_⟩ hload
      simp only [Arc.eff, count_eq ho, ArcObj.count, if_neg hc]
  | get1 p => exact absurd ⟨_, _, _, rfl⟩ hload
  | get2 p u =>
    simp only [ArcOp.main] at ho hk
    cases u with
    | true =>
      have e : s' = s.upd p { o with weak := 0 } t (some (.held p)) 0 s.log := by
        simpa [Arc.step, M.bind_apply, ArcInv.obj_ok ho hfr, Arc.put, Arc.goto, ArcSys.upd,
          eq_comm] using hs
      subst e
      exact J.work_store I hW ht ho ⟨by simp [uses], by simp [uses], by simp [holds], by simp [holds],
        by simp [borrowsAt]⟩ rfl rfl rfl (by simp [sens]) (by simp [holds]) (by simp)
    | false =>
      have e : s' = s.upd p { o with weak := 0 } t none 1 ((t, .no) :: s.log) := by
        simpa [Arc.step, M.bind_apply, ArcInv.obj_ok ho hfr, Arc.put, Arc.done, Arc.give, ArcSys.upd,
          eq_comm] using hs
      subst e
      exact J.work_store I hW ht ho ⟨by simp [uses], by simp [uses], by simp [holds],
        by intro r hr; simp [holds, Ne.symm hr], by simp [borrowsAt]⟩ rfl rfl rfl (by simp) (by simp) (by simp [holds])
  | held p =>
    simp only [ArcOp.main] at ho hk
    obtain ⟨ha, -, -⟩ := hk.live (ArcInv.own_pos_of_holds ht (by simp [holds]))
    cases hw : ch.write with
    | some x =>
      have e : s' = s.upd p { o with val := x } t (some (.held p)) 0 s.log := by
        have e0 : s.threads.set t (some (.held p)) = s.threads := ArcInv.set_same ht
        simpa [Arc.step, M.bind_apply, ArcInv.obj_ok ho hfr, Arc.put, hw, ArcInv.data_ok ho hfr ha,
          ArcSys.upd, eq_comm, e0] using hs
      subst e
      simp only [Arc.eff, hw]
      exact J.work_touch I hW ht ho ⟨by simp [uses], by simp [uses], by simp [holds], by simp [holds],
        by simp [borrowsAt]⟩ (fun c => by cases c <;> rfl) (by simp [sens]) (by simp) id (by simp [sens]) (by simp [holds]) (by simp)
    | none =>
      have e : s' = s.upd p o t none 1 ((t, .unit) :: s.log) := by
        rw [upd_same ho]
        simpa [Arc.step, M.bind_apply, ArcInv.obj_ok ho hfr, hw, ArcInv.data_ok ho hfr ha, Arc.give,
          Arc.done, eq_comm] using hs
      subst e
      simp only [Arc.eff, hw]
      exact J.work_none I hW ht ho ⟨by simp [uses], by simp [uses], by simp [holds],
        by intro r hr; simp [holds, Ne.symm hr], by simp [borrowsAt]⟩ (by simp) (by simp) (by simp [holds])
  | drop0 p =>
    simp only [ArcOp.main] at ho hk
    obtain ⟨ha, -, hou, hst, htl⟩ := hk.live (ArcInv.own_pos_of_holds ht (by simp [holds]))
    by_cases h1 : o.strong = 1
    · have e : s' = s.upd p { o with strong := Arc.decr mx o.strong } t (some (.fin1 p none)) 0 s.log := by
        simpa [Arc.step, M.bind_apply, ArcInv.obj_ok ho hfr, Arc.put, h1, Arc.goto,
          ArcSys.upd, eq_comm] using hs
      subst e
      have hz := ArcInv.upd_own s (p := p) ht { o with strong := Arc.decr mx o.strong }
        (some (.fin1 p none)) 0 s.log
      simp [holds] at hz
      simp only [Arc.eff, count_eq ho, ArcObj.count]
      refine J.work_strong I hW ht ho ⟨by simp [uses], by simp [uses], by simp [holds], 
        by intro r hr; simp [holds, Ne.symm hr], by simp [borrowsAt]⟩ rfl rfl rfl ?_ (by simp) (fun _ => Or.inl (by omega)) (by simp)
      intro q hq
      simp [sens] at hq
      exact Or.inr ⟨hq.symm, by simp [holds], by omega, by simp [h1]⟩
    · have e : s' = s.upd p { o with strong := Arc.decr mx o.strong } t none 0 ((t, .unit) :: s.log) := by
        simpa [Arc.step, M.bind_apply, ArcInv.obj_ok ho hfr, Arc.put, h1, Arc.done,
          ArcSys.upd, eq_comm] using hs
      subst e
      simp only [Arc.eff, count_eq ho, ArcObj.count]
      exact J.work_strong I hW ht ho ⟨by simp [uses], by simp [uses], by simp [holds], 
        by intro r hr; simp [holds, Ne.symm hr], by simp [borrowsAt]⟩ rfl rfl rfl (by simp) (by simp)
        (fun h => absurd h h1) (by simp)
  | fin1 p k =>
    simp only [ArcOp.main] at ho hk
    obtain ⟨⟨o2, h2, -, ha, -⟩, -⟩ := hneed
    rw [ho] at h2
    cases h2
    obtain ⟨o2, -, -, -, -, how, -⟩ :=
      I.ending (ArcInv.tails_pos_of_ends ht (p := p) (by simp [ends])) hL
    have hne : ∀ r v, k = some (r, v) → r ≠ p := by
      rintro r v rfl rfl
      have := ArcInv.own_pos_of_holds ht (p := r) (by simp [holds])
      omega
    have hh : ArcOp.holds p (.fin1 p k) = false := by
      rcases k with _ | ⟨r, v⟩
      · rfl
      · simpa [holds] using hne r v rfl
    have e : s' = s.upd p { o with alive := false, outs := o.outs + 1 } t (some (.fin2 p k)) 0 s.log := by
      simpa [Arc.step, M.bind_apply, ArcInv.obj_ok ho hfr, Arc.put, ArcInv.data_ok ho hfr ha, Arc.goto,
        ArcSys.upd, eq_comm] using hs
    subst e
    refine J.work_touch I hW ht ho ⟨by simp [uses], by simp [uses], ?_, ?_,
      by simp [borrowsAt]⟩ (fun c => by cases c <;> rfl) (by simp [sens]) (by simp) id (by simp [sens])
      (Or.inr (Or.inr (Or.inr ⟨hh, how⟩))) (by simp)
    · intro r; rcases k with _ | ⟨r', v⟩ <;> simp [holds]
    · intro r hr; rcases k with _ | ⟨r', v⟩ <;> simp [holds]
  | fin2 p k => exact absurd ⟨_, _, _, rfl⟩ hload
  | fin3 p k =>
    simp only [ArcOp.main] at ho hk
    obtain ⟨o2, -, -, -, -, how, -⟩ :=
      I.ending (ArcInv.tails_pos_of_ends ht (p := p) (by simp [ends])) hL
    rcases k with _ | ⟨r, v⟩
    · have e : s' = s.upd p { o with freed := true } t none 0 ((t, .unit) :: s.log) := by
        simpa [Arc.step, M.bind_apply, ArcInv.obj_ok ho hfr, Arc.put, Arc.after, Arc.done,
          ArcSys.upd, eq_comm] using hs
      subst e
      exact J.work_touch I hW ht ho ⟨by simp [uses], by simp [uses], by simp [holds], by simp [holds],
        by simp [borrowsAt]⟩ (fun c => by cases c <;> rfl) (by simp [sens]) (by simp) (by simp) (by simp [sens])
        (Or.inr (Or.inr (Or.inr ⟨rfl, how⟩))) (by simp)
    · have hh : ArcOp.holds p (.fin3 p (some (r, v))) = false := by
        by_contra hc
        have := ArcInv.own_pos_of_holds ht (p := p) (by simpa using hc)
        omega
      have e : s' = s.upd p { o with freed := true } t (some (.held r)) 0 s.log := by
        simpa [Arc.step, M.bind_apply, ArcInv.obj_ok ho hfr, Arc.put, Arc.after, Arc.goto,
          ArcSys.upd, eq_comm] using hs
      subst e
      refine J.work_touch I hW ht ho ⟨by simp [uses], ?_, by simp [holds], by simp [holds],
        by simp [borrowsAt]⟩ (fun c => by cases c <;> rfl) (by simp [sens]) (by simp) (by simp) ?_
        (Or.inr (Or.inr (Or.inr ⟨hh, how⟩))) (by simp)
      · intro r' h; simp [uses] at h ⊢; exact Or.inr h
      · intro r' h; simp [sens] at h ⊢; exact Or.inr h
  | unw0 p =>
    simp only [ArcOp.main] at ho hk
    obtain ⟨ha, -, hou, hst, htl⟩ := hk.live (ArcInv.own_pos_of_holds ht (by simp [holds]))
    by_cases h1 : o.strong = 1
    · have e : s' = s.upd p { o with strong := 0 } t (some (.unw1 p)) 0 s.log := by
        simpa [Arc.step, M.bind_apply, ArcInv.obj_ok ho hfr, Arc.put, h1, Arc.goto,
          ArcSys.upd, eq_comm] using hs
      subst e
      have hz := ArcInv.upd_own s (p := p) ht { o with strong := 0 } (some (.unw1 p)) 0 s.log
      simp [holds] at hz
      simp only [Arc.eff, count_eq ho, ArcObj.count, if_pos h1]
      refine J.work_strong I hW ht ho ⟨by simp [uses], by simp [uses], by simp [holds], 
        by intro r hr; simp [holds, Ne.symm hr], by simp [borrowsAt]⟩ rfl rfl rfl ?_ (Or.inl (by omega))
        (fun _ => Or.inl (by omega)) (by simp)
      intro q hq
      simp [sens] at hq
      exact Or.inr ⟨hq.symm, by simp [holds], by omega, rfl⟩
    · refine absurd ⟨.strong, p, false, ?_⟩ hload
      simp only [Arc.eff, count_eq ho, ArcObj.count, if_neg h1]
  | unw1 p =>
    simp only [ArcOp.main] at ho hk
    obtain ⟨o2, h2, -, ha, -⟩ := hneed
    rw [ho] at h2
    cases h2
    obtain ⟨o2, -, -, -, -, how, -⟩ :=
      I.ending (ArcInv.tails_pos_of_ends ht (p := p) (by simp [ends])) hL
    have e : s' = s.upd p { o with alive := false, outs := o.outs + 1, won := o.won + 1 } t
        (some (.unw2 p o.val)) 0 s.log := by
      simpa [Arc.step, M.bind_apply, ArcInv.obj_ok ho hfr, Arc.put, ArcInv.data_ok ho hfr ha, Arc.goto,
        ArcSys.upd, eq_comm] using hs
    subst e
    exact J.work_touch I hW ht ho ⟨by simp [uses], by simp [uses], by simp [holds], by simp [holds],
      by simp [borrowsAt]⟩ (fun c => by cases c <;> rfl) (by simp [sens]) (by simp) id (by simp [sens])
      (Or.inr (Or.inr (Or.inr ⟨rfl, how⟩))) (by simp)
  | unw2 p x => exact absurd ⟨_, _, _, rfl⟩ hload
  | unw3 p x =>
    simp only [ArcOp.main] at ho hk
    obtain ⟨o2, -, -, -, -, how, -⟩ :=
      I.ending (ArcInv.tails_pos_of_ends ht (p := p) (by simp [ends])) hL
    have e : s' = s.upd p { o with freed := true } t none 0 ((t, .val x) :: s.log) := by
      simpa [Arc.step, M.bind_apply, ArcInv.obj_ok ho hfr, Arc.put, Arc.done,
        ArcSys.upd, eq_comm] using hs
    subst e
    exact J.work_touch I hW ht ho ⟨by simp [uses], by simp [uses], by simp [holds], by simp [holds],
      by simp [borrowsAt]⟩ (fun c => by cases c <;> rfl) (by simp [sens]) (by simp) (by simp) (by simp [sens])
      (Or.inr (Or.inr (Or.inr ⟨rfl, how⟩))) (by simp)
  | mm0 p v => exact absurd ⟨_, _, _, rfl⟩ hload
  | mm1 p v k => exact absurd ⟨_, _, _, rfl⟩ hload
  | mm2 p v w =>
    simp only [ArcOp.main] at ho hk
    by_cases hc : o.weak = w ∧ ch.fail = false
    · have e : s' = s.upd p { o with weak := Arc.incr mx w } t (some (.mm3 p v)) 0 s.log := by
        simpa [Arc.step, M.bind_apply, ArcInv.obj_ok ho hfr, Arc.put, hc, Arc.goto,
          ArcSys.upd, eq_comm] using hs
      subst e
      simp only [Arc.eff, count_eq ho, ArcObj.count, if_pos hc]
      exact J.work_weak I hW ht ho ⟨by simp [uses], by simp [uses], by simp [holds], by simp [holds],
        by simp [borrowsAt]⟩ rfl rfl rfl (by simp [sens]) (by simp [holds]) (by simp)
    · refine absurd ⟨.weak, p, false, ?_⟩ hload
      simp only [Arc.eff, count_eq ho, ArcObj.count, if_neg hc]
  | mm3 p v =>
    simp only [ArcOp.main] at ho hk
    obtain ⟨ha, -, hou, hst, htl⟩ := hk.live (ArcInv.own_pos_of_holds ht (by simp [holds]))
    by_cases hc : o.strong = 1 ∧ ch.fail = false
    · have e : s' = s.upd p { o with strong := 0 } t (some (.mm4 p v)) 0 s.log := by
        simpa [Arc.step, M.bind_apply, ArcInv.obj_ok ho hfr, Arc.put, hc, Arc.goto,
          ArcSys.upd, eq_comm] using hs
      subst e
      have hz := ArcInv.upd_own s (p := p) ht { o with strong := 0 } (some (.mm4 p v)) 0 s.log
      simp [holds] at hz
      have h1 := hc.1
      simp only [Arc.eff, count_eq ho, ArcObj.count, if_pos hc]
      exact J.work_strong I hW ht ho ⟨by simp [uses], by simp [uses], by simp [holds], 
        by intro r hr; simp [holds, Ne.symm hr], by simp [borrowsAt]⟩ rfl rfl rfl (by simp [sens])
        (Or.inl (by omega)) (fun _ => Or.inl (by omega)) (by simp)
    · refine absurd ⟨.strong, p, false, ?_⟩ hload
      simp only [Arc.eff, count_eq ho, ArcObj.count, if_neg hc]
  | mm4 p v =>
    simp only [ArcOp.main] at ho hk
    obtain ⟨o2, h2, -, -, -, ha, -⟩ := hneed
    rw [ho] at h2
    cases h2
    obtain ⟨o2, -, -, -, -, how, -⟩ :=
      I.ending (ArcInv.tails_pos_of_ends ht (p := p) (by simp [ends])) hL
    have e : s' = s.upd p { o with alive := false, outs := o.outs + 1 } t
        (some (.mmA p v o.val true)) 0 s.log := by
      simpa [Arc.step, M.bind_apply, ArcInv.obj_ok ho hfr, Arc.put, ArcInv.data_ok ho hfr ha, Arc.goto,
        ArcSys.upd, eq_comm] using hs
    subst e
    exact J.work_touch I hW ht ho ⟨by simp [uses], by simp [uses], by simp [holds], by simp [holds],
      by simp [borrowsAt]⟩ (fun c => by cases c <;> rfl) (by simp [sens]) (by simp) id (by simp [sens])
      (Or.inr (Or.inr (Or.inr ⟨rfl, how⟩))) (by simp)
  | mmC p v =>
    simp only [ArcOp.main] at ho hk
    obtain ⟨ha, -, -⟩ := hk.live (ArcInv.own_pos_of_holds ht (by simp [holds]))
    cases hb : ch.boom with
    | true =>
      have e : s' = s.upd p o t none 1 ((t, .panic) :: s.log) := by
        rw [upd_same ho]
        simpa [Arc.step, M.bind_apply, ArcInv.data_ok ho hfr ha, hb, Arc.give, Arc.done, eq_comm] using hs
      subst e
      exact J.work_touch I hW ht ho ⟨by simp [uses], by simp [uses], by simp [holds],
        by intro r hr; simp [holds, Ne.symm hr], by simp [borrowsAt]⟩ (fun _ => rfl) (by simp) (by simp) id (by simp)
        (by simp) (by simp [holds])
    | false =>
      have e : s' = s.upd p o t (some (.mmA p v o.val false)) 0 s.log := by
        rw [upd_same ho]
        simpa [Arc.step, M.bind_apply, ArcInv.data_ok ho hfr ha, hb, Arc.goto, eq_comm] using hs
      subst e
      exact J.work_touch I hW ht ho ⟨by simp [uses], by simp [uses], by simp [holds],
        by simp [holds], by simp [borrowsAt]⟩ (fun _ => rfl) (by simp) (by simp) id (by simp [sens])
        (by simp [holds]) (by simp)
  | mmA p v x z =>
    simp only [ArcOp.main] at ho hk
    have hlt := (List.getElem?_eq_some_iff.1 ho).1
    have hne : p ≠ s.objs.length := by omega
    cases hg : ch.grant with
    | true =>
      have e : s' = ⟨s.objs ++ [⟨1, 0, x, true, 0, 0, false, 0, 0, false⟩], s.hands,
          s.threads.set t (some (.mm5 p v s.objs.length z)), s.log⟩ := by
        simpa [Arc.step, hg, M.bind_apply, Arc.goto, eq_comm] using hs
      subst e
      have hltT := (List.getElem?_eq_some_iff.1 ht).1
      simp only [Arc.eff, hg, if_true]
      refine J.fresh I (j := 0) (a := some (.mmA p v x z)) (b := some (.mm5 p v s.objs.length z)) ht rfl rfl
        ?_ ?_ ?_ ?_ ?_ ?_ ?_ ?_ rfl rfl rfl ?_
      · intro h q hh
        refine ⟨hh, ?_⟩
        have hlt := (List.getElem?_eq_some_iff.1 hh).1
        simp [ArcMem.close, ArcMem.apply, ArcMem.post, ArcMem.note, ArcMem.learn]
        omega
      · exact fun h q hh => Or.inl hh
      · intro q hq
        simp [uses] at hq ⊢
        tauto
      · intro q hq
        simp [holds, Ne.symm hq]
      · intro q hq
        simp [sens] at hq ⊢
        tauto
      · simp [borrowsAt]
      · exact Or.inr (by simp [holds])
      · intro q hq
        have hqb : (s.objs.length == q) = false := by simpa using Ne.symm hq
        have := countP_set_add (on (holds q)) ht (some (.mm5 p v s.objs.length z))
        simp only [on_some, holds, hqb, Bool.or_false] at this
        simp only [own]
        omega
      · intro h i hi
        simp [ArcMem.close, List.getElem?_set_self hltT, ArcMem.apply, ArcMem.post, ArcMem.note,
          ArcMem.learn, hi]
    | false =>
      have hz : z = false := by
        by_contra hc
        exact hl ⟨by simpa using hc, hg⟩
      subst hz
      have e : s' = s.upd p o t none 1 ((t, .panic) :: s.log) := by
        simpa [Arc.step, M.bind_apply, Arc.give, Arc.done, Arc.lose, ArcSys.upd, ArcInv.set_same ho, hg,
          eq_comm] using hs
      subst e
      simp only [Arc.eff, hg]
      exact J.work_none I hW ht ho ⟨by simp [uses], by simp [uses], by simp [holds],
        by intro r hr; simp [holds, Ne.symm hr], by simp [borrowsAt]⟩ (by simp) (by simp) (by simp [holds])
  | mm5 p v q z =>
    simp only [ArcOp.main] at ho hk
    have hpq : p ≠ q := hneed.1
    by_cases h1 : o.strong = 1
    · have e : s' = s.upd p { o with strong := Arc.decr mx o.strong } t (some (.fin1 p (some (q, v)))) 0
          s.log := by
        simpa [Arc.step, M.bind_apply, ArcInv.obj_ok ho hfr, Arc.put, h1, Arc.goto,
          ArcSys.upd, eq_comm] using hs
      subst e
      cases z with
      | true =>
        obtain ⟨o2, h2, -, -, -, -, h3⟩ := hneed.2.2.1 rfl
        rw [ho] at h2
        cases h2
        omega
      | false =>
        obtain ⟨-, -, -, hst, -⟩ := hk.live (ArcInv.own_pos_of_holds ht (by simp [holds]))
        have hz := ArcInv.upd_own s (p := p) ht { o with strong := Arc.decr mx o.strong }
          (some (.fin1 p (some (q, v)))) 0 s.log
        have hqp : (q == p) = false := by simpa using Ne.symm hpq
        simp [holds, hqp] at hz
        simp only [Arc.eff, count_eq ho, ArcObj.count]
        refine J.work_strong I hW ht ho ⟨by simp [uses], by simp [uses], ?_, ?_, by simp [borrowsAt]⟩
          rfl rfl rfl ?_ (by simp) (fun _ => Or.inl (by omega)) (by simp)
        · intro r hr; simp [holds] at hr ⊢; exact Or.inr hr
        · intro r hr; simp [holds, Ne.symm hr]
        · intro r hr
          simp [sens] at hr
          rcases hr with rfl | rfl
          · exact Or.inr ⟨rfl, by simp [holds], by omega, by simp [h1]⟩
          · exact Or.inl (by simp [sens])
    · have e : s' = s.upd p { o with strong := Arc.decr mx o.strong } t (some (.held q)) 0 s.log := by
        simpa [Arc.step, M.bind_apply, ArcInv.obj_ok ho hfr, Arc.put, h1, Arc.goto,
          ArcSys.upd, eq_comm] using hs
      subst e
      simp only [Arc.eff, count_eq ho, ArcObj.count]
      refine J.work_strong I hW ht ho ⟨by simp [uses], ?_, ?_, ?_, by simp [borrowsAt]⟩
        rfl rfl rfl ?_ (by simp) (fun h => absurd h h1) (by simp)
      · intro r hr; simp [uses] at hr ⊢; exact Or.inr hr
      · intro r hr; simp [holds] at hr ⊢; exact Or.inr hr
      · intro r hr; simp [holds, Ne.symm hr]
      · intro r hr; simp [sens] at hr; left; simp [sens, hr]

theorem start (k : Nat) : ArcMemInv (ArcSys.start k : ArcSys α) .start := by
  refine ⟨?_, ?_, ?_, ?_, ?_, ?_, ?_, ?_, ?_, ?_⟩ <;> intro a b <;>
    simp [ArcMem.start, ArcSys.start, List.getElem?_replicate]

theorem new (J : ArcMemInv s m) (I : ArcInv mx n s) (ht : s.threads[t]? = some none) (x : α) :
    ArcMemInv { s with
        objs := s.objs ++ [⟨1, 0, x, true, 0, 0, false, 0, 0, false⟩]
        hands := s.hands ++ [some s.objs.length] }
      (let m' := m.apply t 0 (.init s.objs.length)
       { m' with hnd := fun h => if h = s.hands.length then m'.thr t else m'.hnd h }) := by
  refine J.fresh I (j := 0) (a := none) (b := none) ht rfl (ArcInv.set_same ht).symm ?_ ?_ (by simp)
    (fun _ _ => rfl) (by simp) (fun _ _ => rfl) (Or.inl ⟨s.hands.length, by simp⟩) ?_ rfl rfl rfl
    (fun _ _ h => h)
  · intro h q hh
    have hlt := (List.getElem?_eq_some_iff.1 hh).1
    exact ⟨getElem?_append_some hh, by
      simp [show h ≠ s.hands.length by omega, ArcMem.apply, ArcMem.post, ArcMem.note, ArcMem.learn]⟩
  · intro h q hh
    have hlt := (List.getElem?_eq_some_iff.1 hh).1
    rcases getElem?_append_cases hh with h1 | ⟨h1, h2⟩
    · exact Or.inl h1
    · simp at h2 hlt
      have e : h = s.hands.length := by omega
      exact Or.inr ⟨h2, by simp [e]⟩
  · intro q hq
    simp only [own, List.count_append]
    simp [Ne.symm hq]

theorem dropWeak (J : ArcMemInv s m) {o : ArcObj α} (ho : s.objs[p]? = some o) {w : Nat} :
    ArcMemInv { s with objs := s.objs.set p { o with wk := w } } m := by
  refine ⟨?_, ?_, J.knownH, J.knownT, J.spread, J.alone, J.msg, ?_, J.oneH, J.oneT⟩
  · intro i q k h
    simpa using J.place i q k h
  · intro i q h
    exact ArcInv.At.wk ho (J.freed i q h) fun _ h => h
  · intro q o2 c h2
    by_cases e : q = p
    · subst e
      have hlt := (List.getElem?_eq_some_iff.1 ho).1
      simp [List.getElem?_set_self hlt] at h2
      subst h2
      obtain ⟨y, h3, h4⟩ := J.last q o c ho
      exact ⟨y, h3, by rw [h4]; cases c <;> rfl⟩
    · exact J.last q o2 c (by simpa [List.getElem?_set_ne (Ne.symm e)] using h2)

/-- Thread `t`, idle so far, starts to do `op` with handle `h`; it takes the handle if `take`. -/
theorem begin_ (J : ArcMemInv s m) {h : Nat} {take : Bool} {v : List Nat}
    (ht : s.threads[t]? = some none) (hh : s.hands[h]? = some (some p))
    (huse : ∀ q, op.uses q = true → q = p) (hhold : ∀ q, op.holds q = true → q = p)
    (htake : op.holds p = take) (hsens : ∀ q, op.sens q = false)
    (hu : take = true → s.Unborrowed h) (hv : v = m.hnd h ++ if take then m.ret h else []) :
    ArcMemInv { s with
        hands := if take then s.hands.set h none else s.hands
        threads := s.threads.set t (some op) } (m.learn t v) := by
  have hlt : t < s.threads.length := (List.getElem?_eq_some_iff.1 ht).1
  have hst : (s.threads.set t (some op))[t]? = some (some op) := by simp [List.getElem?_set_self hlt]
  have hot : ∀ t', t' ≠ t → (s.threads.set t (some op))[t']? = s.threads[t']? := by
    intro t' ne; simp [List.getElem?_set_ne (Ne.symm ne)]
  have hth : ∀ i, i ∈ (m.learn t v).thr t ↔ i ∈ m.thr t ∨ i ∈ v := by
    intro i; simp [ArcMem.learn]
  have hmono : ∀ t' i, i ∈ m.thr t' → i ∈ (m.learn t v).thr t' := by
    intro t' i hi
    by_cases e : t' = t
    · subst e; exact (hth i).2 (Or.inl hi)
    · simpa [ArcMem.learn, e] using hi
  have hhs : ∀ h' q : Nat, (if take = true then s.hands.set h none else s.hands)[h']? = some (some q) →
      s.hands[h']? = some (some q) := by
    intro h' q hq
    cases take with
    | false => simpa using hq
    | true =>
      by_cases e : h = h'
      · subst e
        have hl := (List.getElem?_eq_some_iff.1 hh).1
        simp [List.getElem?_set_self hl] at hq
      · simpa [List.getElem?_set_ne e] using hq
  have hknow : ∀ h' q i, m.Knows s h' q i → (m.learn t v).Knows { s with
        hands := if take then s.hands.set h none else s.hands
        threads := s.threads.set t (some op) } h' q i := by
    rintro h' q i (h1 | h1 | ⟨t', op', h1, h2, h3⟩)
    · exact Or.inl h1
    · exact Or.inr (Or.inl h1)
    · have e : t' ≠ t := by
        rintro rfl
        rw [ht] at h1
        cases h1
      exact Or.inr (Or.inr ⟨t', op', by rw [hot t' e]; exact h1, h2, hmono t' i h3⟩)
  have hgot : take = true → ∀ q i, m.Knows s h q i → i ∈ (m.learn t v).thr t := by
    rintro e q i (h1 | h1 | ⟨t', op', h1, h2, h3⟩)
    · exact (hth i).2 (Or.inr (by rw [hv]; simp [h1]))
    · exact (hth i).2 (Or.inr (by rw [hv]; simp [h1, e]))
    · have := hu e t' op' h1
      rw [borrowsAt_borrows h2] at this
      cases this
  refine ⟨J.place, J.freed, ?_, ?_, ?_, ?_, J.msg, J.last, ?_, ?_⟩
  · intro i q k h1 hk h' hq
    exact J.knownH i q k h1 hk h' (hhs h' q hq)
  · intro i q k h1 hk t' op' ht' hu
    by_cases e : t' = t
    · subst e
      rw [hst] at ht'
      cases ht'
      obtain rfl := huse q hu
      exact (hth i).2 (Or.inr (by rw [hv]; simp [J.knownH i q k h1 hk h hh]))
    · rw [hot t' e] at ht'
      exact hmono t' i (J.knownT i q k h1 hk t' op' ht' hu)
  · intro i q k h1 hq
    have hown : 1 ≤ s.own q := by
      by_cases e : q = p
      · subst e; exact ArcInv.own_pos_of_hand hh
      · have c1 := countP_set_add (on (holds q)) ht (some op)
        have : op.holds q = false := by
          by_contra hc
          exact e (hhold q (by simpa using hc))
        simp [this] at c1
        simp only [own] at hq ⊢
        rw [c1] at hq
        have c0 : (if take = true then s.hands.set h none else s.hands).count (some q) ≤
            s.hands.count (some q) := by
          cases take with
          | false => simp
          | true =>
            have := countP_set_add (fun x => x == some q) hh none
            simp only [if_true, List.count]
            simp at this
            omega
        omega
    rcases J.spread i q k h1 hown with ⟨y, h2, h3⟩ | ⟨h', h2, h3⟩ | ⟨t', op', h2, h3, h4⟩
    · exact Or.inl ⟨y, h2, h3⟩
    · by_cases e : take = true ∧ h' = h
      · obtain ⟨e, rfl⟩ := e
        rw [hh] at h2
        cases h2
        exact Or.inr (Or.inr ⟨t, op, hst, by rw [htake, e], hgot e _ i h3⟩)
      · refine Or.inr (Or.inl ⟨h', ?_, hknow h' q i h3⟩)
        cases take with
        | false => exact h2
        | true =>
          have e : h ≠ h' := fun e' => e ⟨rfl, e'.symm⟩
          show (s.hands.set h none)[h']? = _
          rw [List.getElem?_set_ne e]
          exact h2
    · have e : t' ≠ t := by
        rintro rfl
        rw [ht] at h2
        cases h2
      exact Or.inr (Or.inr ⟨t', op', by rw [hot t' e]; exact h2, h3, hmono t' i h4⟩)
  · intro t' op' q ht' hs i k h1
    by_cases e : t' = t
    · subst e
      rw [hst] at ht'
      cases ht'
      rw [hsens] at hs
      cases hs
    · rw [hot t' e] at ht'
      exact hmono t' i (J.alone t' op' q ht' hs i k h1)
  · intro q j y h1 h2 h3 h' hq
    obtain ⟨i, z, h5, h6, h7⟩ := J.oneH q j y h1 h2 h3 h' (hhs h' q hq)
    exact ⟨i, z, h5, h6, hknow h' q _ h7⟩
  · intro q j y h1 h2 h3 t' op' ht' hp
    by_cases e : t' = t
    · subst e
      rw [hst] at ht'
      cases ht'
      obtain rfl := hhold q hp
      obtain ⟨i, z, h5, h6, h7⟩ := J.oneH q j y h1 h2 h3 h hh
      exact ⟨i, z, h5, h6, hgot (by rw [← htake, hp]) _ _ h7⟩
    · rw [hot t' e] at ht'
      obtain ⟨i, z, h5, h6, h7⟩ := J.oneT q j y h1 h2 h3 t' op' ht' hp
      exact ⟨i, z, h5, h6, hmono t' _ h7⟩

end ArcMemInv

/-- What holds in all states that can be reached. -/
theorem ArcWReaches.inv {n : Nat} (hr : ArcWReaches mx True n s m) (hn : n ≤ mx) :
    ArcInv mx n s ∧ s.Whole ∧ ArcMemInv s m := by
  obtain ⟨k, hr⟩ := hr
  have : ∀ (n : Nat) (y : ArcSys α × ArcMem), ArcWSteps mx True (ArcSys.start k, ArcMem.start) n y →
      n ≤ mx → ArcInv mx n y.1 ∧ y.1.Whole ∧ ArcMemInv y.1 y.2 := by
    intro n y hr
    induction hr with
    | refl =>
      intro _
      exact ⟨ArcInv.start k, by intro o ho; simp [ArcSys.start] at ho, ArcMemInv.start k⟩
    | @tail n y z _ hs ih =>
      intro hn
      obtain ⟨I, hW, J⟩ := ih (by omega)
      cases hs with
      | new t x ht =>
        exact ⟨I.new ht x, ArcSys.Whole.step hW (ArcStep.new (mx := mx) (calm := True) t x ht), J.new I ht x⟩
      | @borrow t s m cmd h p f ht hc hh =>
        have hst : ArcStep mx True s { s with threads := s.threads.set t (some (f p)) } :=
          ArcStep.borrow t cmd ht hc hh
        refine ⟨I.borrow ht hc hh, hW.step hst, ?_⟩
        refine J.begin_ (take := false) (op := f p) ht hh ?_ ?_ ?_ ?_ (by simp) (by simp) <;>
          (cases cmd <;> simp [ArcCmd.borrows] at hc <;> obtain ⟨rfl, rfl⟩ := hc <;>
            simp [uses, holds, sens] <;> intro q hq <;> exact hq.symm)
      | @take t s m cmd h p o f ht hc hh ho hu =>
        have hst : ArcStep mx True s { s with
            hands := s.hands.set h none
            threads := s.threads.set t (some (f p o.val)) } :=
          ArcStep.take t cmd ht hc hh ho hu
        refine ⟨I.take ht hc hh ho hu, hW.step hst, ?_⟩
        refine J.begin_ (take := true) (op := f p o.val) ht hh ?_ ?_ ?_ ?_ (fun _ => hu) (by simp) <;>
          (cases cmd <;> simp [ArcCmd.takes] at hc <;> obtain ⟨rfl, rfl⟩ := hc <;>
            simp [uses, holds, sens] <;> intro q hq <;> exact hq.symm)
      | @dropWeak p s m o ho hw =>
        have hst : ArcStep mx True s { s with objs := s.objs.set p { o with wk := o.wk - 1 } } :=
          ArcStep.dropWeak p ho hw
        exact ⟨I.dropWeak ho, hW.step hst, J.dropWeak ho⟩
      | @run t ch s s' m op ht hs hl =>
        have hst : ArcStep mx True s s' := ArcStep.run t ch ht hs hl
        exact ⟨I.step (by omega) hst, hW.step hst, J.run I hW (by omega) ht hs (hl trivial)⟩
      | @load t j s s' m op c p acq x f ht h1 h2 h3 h4 hs =>
        exact J.load I hW (by omega) ht h1 h2 h3 h4 hs
  exact this n _ hr hn

end Lokky
