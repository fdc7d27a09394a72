import Verif.Proofs.ArcMemStep

/-! Loads of any message that may be read keep the invariants of `Arc`. -/

namespace Lokky
variable {α : Type} {mx n : Nat} {s : ArcSys α} {m : ArcMem}

open ArcOp ArcSys

set_option linter.unusedSimpArgs false

theorem upd_same {t p : Nat} {o : ArcObj α} (ho : s.objs[p]? = some o) {b : Option (ArcOp α)} {g : Nat}
    {log : List (Nat × ArcOut α)} :
    s.upd p o t b g log = { s with
      hands := s.hands ++ List.replicate g (some p)
      threads := s.threads.set t b
      log := log } := by
  simp [ArcSys.upd, ArcInv.set_same ho]

theorem Whole.upd (hW : s.Whole) {t p : Nat} {o o' : ArcObj α} (ho : s.objs[p]? = some o)
    (hl : o'.lost = o.lost) {b : Option (ArcOp α)} {g : Nat} {log : List (Nat × ArcOut α)} :
    (s.upd p o' t b g log).Whole := hW.set ho hl

namespace ArcMemInv
variable {t p g j : Nat} {op : ArcOp α} {b : Option (ArcOp α)} {o o' : ArcObj α}
  {log : List (Nat × ArcOut α)}

/-- A thread that is alone at an object reads the latest messages. -/
theorem latest_of_sens (J : ArcMemInv s m) (ht : s.threads[t]? = some (some op)) (hs : op.sens p = true)
    (ho : s.objs[p]? = some o) {c : ArcCtr} {x : ArcMsg} (hx : (m.msgs c p)[j]? = some x)
    (hr : m.Readable t c p j) : j = m.latest c p ∧ x.val = o.count c := by
  have hl := (List.getElem?_eq_some_iff.1 hx).1
  have hj : j = m.latest c p := by
    by_contra hc
    unfold ArcMem.latest at hc
    have h1 : (m.msgs c p)[j + 1]? = some ((m.msgs c p)[j + 1]'(by omega)) :=
      List.getElem?_eq_getElem (by omega)
    obtain ⟨k, hk⟩ := J.msg c p _ (List.mem_of_getElem? h1)
    exact hr (j + 1) _ (by omega) h1 (J.alone t op p ht hs _ k hk)
  refine ⟨hj, ?_⟩
  obtain ⟨y, h1, h2⟩ := J.last p o c ho
  rw [List.getLast?_eq_getElem?] at h1
  unfold ArcMem.latest at hj
  rw [← hj, hx] at h1
  cases h1
  exact h2

/-- A thread that holds a handle and reads that there is one handle reads the latest message. -/
theorem latest_of_one (J : ArcMemInv s m) (ht : s.threads[t]? = some (some op)) (hs : op.holds p = true)
    (ho : s.objs[p]? = some o) {x : ArcMsg} (hx : (m.msgs .strong p)[j]? = some x)
    (hr : m.Readable t .strong p j) (h1 : x.val = 1) :
    j = m.latest .strong p ∧ o.strong = 1 := by
  have hl := (List.getElem?_eq_some_iff.1 hx).1
  have hj : j = m.latest .strong p := by
    by_contra hc
    unfold ArcMem.latest at hc
    obtain ⟨i, y, h2, h3, h4⟩ := J.oneT p j x hx h1 (by omega) t op ht hs
    exact hr i y h2 h3 h4
  refine ⟨hj, ?_⟩
  obtain ⟨y, h2, h3⟩ := J.last p o .strong ho
  rw [List.getLast?_eq_getElem?] at h2
  unfold ArcMem.latest at hj
  rw [← hj, hx] at h2
  cases h2
  exact h3.symm.trans h1

theorem load_fin (J : ArcMemInv s m) (I : ArcInv mx n s) (hW : s.Whole) {c : ArcCtr} {acq : Bool}
    (ht : s.threads[t]? = some (some op)) (ho : s.objs[p]? = some o) (G : ArcGoes p op b)
    (hsens : ∀ q, on (sens q) b = true → op.sens q = true ∨ q = p ∧ op.holds p = true ∧ s.own p = 1 ∧
      acq = true ∧ c = .strong ∧ j = m.latest .strong p)
    (hstay : on (holds p) b = true ∨ (∃ h, op.borrowsAt h p = true) ∨ 0 < g ∨ op.holds p = false ∧ s.own p = 0)
    (hgive : 0 < g → op.holds p = true) (I' : ArcInv mx (n + 1) (s.upd p o t b g log)) :
    ArcInv mx (n + 1) (s.upd p o t b g log) ∧ (s.upd p o t b g log).Whole ∧
    ArcMemInv (s.upd p o t b g log)
      ((m.apply t j (.load c p acq)).close t op s (s.upd p o t b g log)) :=
  ⟨I', Whole.upd hW ho rfl, J.work_load I hW ht ho G hsens hstay hgive⟩

end ArcMemInv

/-- A step after which nothing has changed but for the thread. -/
theorem ArcInv.stays (I : ArcInv mx n s) {t p g : Nat} {op : ArcOp α} {b : Option (ArcOp α)} {o : ArcObj α}
    {log : List (Nat × ArcOut α)} (ht : s.threads[t]? = some (some op)) (ho : s.objs[p]? = some o)
    (hlo : o.lost = false)
    (hat : op.holds p = true ∨ op.ends p = true ∨ ∃ h, op.borrowsAt h p = true)
    (hab : ∀ q, q ≠ p → op.holds q = on (holds q) b ∧ op.ends q = on (ends q) b ∧
      op.locks q = on (locks q) b)
    (h1 : (op.holds p).toNat = (on (holds p) b).toNat + g) (h2 : op.ends p = on (ends p) b)
    (h3 : op.locks p = on (locks p) b)
    (hfact : ∀ op', b = some op' → ArcNeeds (s.upd p o t b g log) op') :
    ArcInv mx (n + 1) (s.upd p o t b g log) := by
  refine I.work ht ho hlo _ _ _ _ hat hab hlo ?_ hfact (Or.inl rfl)
  intro x y z hx hy hz _
  rw [h2] at hy
  rw [h3] at hz
  have e1 : x = s.own p := by omega
  have e2 : y = s.tails p := by omega
  have e3 : z = s.lockers p := by omega
  rw [e1, e2, e3]
  exact (I.obj p o ho hlo).later

theorem ArcInv.run' (I : ArcInv mx n s) (hn : n < mx) (hW : s.Whole) (ch : ArcChoice α) {t : Nat}
    {op : ArcOp α} (ht : s.threads[t]? = some (some op)) {s' : ArcSys α}
    (h : Arc.step mx ch t op s = .ok () s') : ArcInv mx (n + 1) s' := by
  rcases I.run hn ch ht with ⟨s2, h2, I2⟩ | ⟨h2, -⟩
  · rw [h2] at h
    injection h with _ e
    exact e ▸ I2
  · exact absurd h2 (hW.not_lost _)

namespace ArcMemInv
variable {t p j : Nat} {op : ArcOp α} {s' : ArcSys α}

/-- A load of any message that may be read. -/
theorem load (J : ArcMemInv s m) (I : ArcInv mx n s) (hW : s.Whole) (hn : n < mx) {c : ArcCtr} {acq : Bool}
    {x : ArcMsg} {f : M (ArcSys α) Unit} (ht : s.threads[t]? = some (some op))
    (hl : Arc.loads op = some (c, p, acq)) (hx : (m.msgs c p)[j]? = some x) (hr : m.Readable t c p j)
    (hf : Arc.loaded mx t x.val op = some f) (hs : (do let _ ← Arc.obj p; f) s = .ok () s') :
    ArcInv mx (n + 1) s' ∧ s'.Whole ∧
      ArcMemInv s' ((m.apply t j (.load c p acq)).close t op s s') := by
  have hobj : ∃ o : ArcObj α, s.objs[p]? = some o ∧ o.freed = false ∧ f s = .ok () s' := by
    rcases h : s.objs[p]? with _ | o
    · simp [M.bind_apply, Arc.obj, h] at hs
    · cases hfr : o.freed
      · exact ⟨o, rfl, hfr, by simpa [M.bind_apply, Arc.obj, h, hfr] using hs⟩
      · simp [M.bind_apply, Arc.obj, h, hfr] at hs
  obtain ⟨o, ho, hfr, hs'⟩ := hobj
  have hlo := hW o (List.mem_of_getElem? ho)
  have hL : ¬ s.Lost op.main := hW.not_lost _
  have hneed := I.needs' ht hL
  cases op with
  | down h q =>
    simp [Arc.loads] at hl
    obtain ⟨rfl, rfl, rfl⟩ := hl
    simp [Arc.loaded] at hf
    subst hf
    have e : s' = s.upd q o t (some (.down1 h q x.val)) 0 s.log := by
      rw [upd_same ho]
      simpa [Arc.goto, eq_comm] using hs'
    subst e
    refine J.load_fin I hW ht ho ⟨by simp [uses], by simp [uses], by simp [holds], by simp [holds],
      by simp [borrowsAt]⟩ (by simp [sens]) (by simp [borrowsAt]) (by simp) ?_
    exact I.stays ht ho hlo (by simp [borrowsAt]) (by simp [holds, ends, locks]) rfl rfl rfl
      (by intro op' e; cases e; simpa [ArcNeeds, ArcSys.upd] using hneed)
  | down1 h q v =>
    simp [Arc.loads] at hl
    obtain ⟨rfl, rfl, rfl⟩ := hl
    simp [Arc.loaded] at hf
    subst hf
    have e : ∃ u, s' = s.upd q o t (some (.down1 h q u)) 0 s.log := by
      by_cases hv : v = Arc.lock mx
      · refine ⟨x.val, ?_⟩
        rw [upd_same ho]
        simpa [Arc.goto, eq_comm, hv] using hs'
      · refine ⟨v, ?_⟩
        have e : s = s' := by simpa [hv] using hs'
        rw [upd_same ho, ArcInv.set_same ht, ← e]
        simp
    obtain ⟨u, e⟩ := e
    subst e
    refine J.load_fin I hW ht ho ⟨by simp [uses], by simp [uses], by simp [holds], by simp [holds],
      by simp [borrowsAt]⟩ (by simp [sens]) (by simp [borrowsAt]) (by simp) ?_
    exact I.stays ht ho hlo (by simp [borrowsAt]) (by simp [holds, ends, locks]) rfl rfl rfl
      (by intro op' e; cases e; simpa [ArcNeeds, ArcSys.upd] using hneed)
  | count h q =>
    simp [Arc.loads] at hl
    obtain ⟨rfl, rfl, rfl⟩ := hl
    simp [Arc.loaded] at hf
    subst hf
    have e : s' = s.upd q o t none 0 ((t, .nat x.val) :: s.log) := by
      rw [upd_same ho]
      simpa [Arc.done, eq_comm] using hs'
    subst e
    refine J.load_fin I hW ht ho ⟨by simp [uses], by simp [uses], by simp [holds], by simp [holds],
      by simp [borrowsAt]⟩ (by simp [sens]) (by simp [borrowsAt]) (by simp) ?_
    exact I.stays ht ho hlo (by simp [borrowsAt]) (by simp [holds, ends, locks]) rfl rfl rfl (by simp)
  | wcount h q =>
    simp [Arc.loads] at hl
    obtain ⟨rfl, rfl, rfl⟩ := hl
    simp [Arc.loaded] at hf
    subst hf
    have e : s' = s.upd q o t none 0 ((t, .nat (if x.val = Arc.lock mx then 0 else x.val)) :: s.log) := by
      rw [upd_same ho]
      simpa [Arc.done, eq_comm] using hs'
    subst e
    refine J.load_fin I hW ht ho ⟨by simp [uses], by simp [uses], by simp [holds], by simp [holds],
      by simp [borrowsAt]⟩ (by simp [sens]) (by simp [borrowsAt]) (by simp) ?_
    exact I.stays ht ho hlo (by simp [borrowsAt]) (by simp [holds, ends, locks]) rfl rfl rfl (by simp)
  | get0 q =>
    simp [Arc.loads] at hl
    obtain ⟨rfl, rfl, rfl⟩ := hl
    simp [Arc.loaded] at hf
    obtain ⟨-, rfl⟩ := hf
    have e : s' = s.upd q o t none 1 ((t, .no) :: s.log) := by
      rw [upd_same ho]
      simpa [Arc.done, Arc.give, M.bind_apply, eq_comm] using hs'
    subst e
    refine J.load_fin I hW ht ho ⟨by simp [uses], by simp [uses], by simp [holds],
      by intro r hr; simp [holds, Ne.symm hr], by simp [borrowsAt]⟩ (by simp [sens]) (by simp) (by simp [holds]) ?_
    exact I.stays ht ho hlo (by simp [holds])
      (by intro r hr; simp [holds, ends, locks, Ne.symm hr]) (by simp [holds]) rfl rfl (by simp)
  | get1 q =>
    simp [Arc.loads] at hl
    obtain ⟨rfl, rfl, rfl⟩ := hl
    simp [Arc.loaded] at hf
    subst hf
    have e : s' = s.upd q o t (some (.get2 q (x.val == 1))) 0 s.log := by
      rw [upd_same ho]
      simpa [Arc.goto, eq_comm] using hs'
    subst e
    have how : x.val = 1 → j = m.latest .strong q ∧ s.own q = 1 := by
      intro h1
      obtain ⟨h2, h3⟩ := J.latest_of_one ht (by simp [holds]) ho hx hr h1
      have h4 := ((I.obj q o ho hlo).live (ArcInv.own_pos_of_holds ht (by simp [holds]))).2.2.2.1
      exact ⟨h2, by omega⟩
    refine J.load_fin I hW ht ho ⟨by simp [uses], by simp [uses], by simp [holds],
      by intro r hr; simp [holds, Ne.symm hr], by simp [borrowsAt]⟩ ?_ (by simp [holds]) (by simp) ?_
    · intro r hr
      simp [sens] at hr
      exact Or.inr ⟨hr.2.symm, by simp [holds], (how hr.1).2, rfl, rfl, (how hr.1).1⟩
    · refine I.stays ht ho hlo (by simp [holds])
        (by intro r hr; simp [holds, ends, locks, Ne.symm hr]) (by simp [holds]) rfl rfl ?_
      intro op' e
      cases e
      intro hu
      exact ArcInv.upd_own_eq ht (how (by simpa using hu)).2 (by simp [holds])
  | fin2 q k =>
    simp [Arc.loads] at hl
    obtain ⟨rfl, rfl, rfl⟩ := hl
    obtain ⟨hj, hv⟩ := J.latest_of_sens ht (by simp [sens]) ho hx hr
    have hst : Arc.step mx {} t (.fin2 q k) s = .ok () s' := by
      simp [Arc.loaded] at hf
      subst hf
      simpa [Arc.step, M.bind_apply, ArcInv.obj_ok ho hfr, ← show x.val = o.weak from hv] using hs'
    have I' := I.run' hn hW {} ht hst
    have how : s.own q = 0 := by
      obtain ⟨o2, -, -, -, -, h, -⟩ := I.ending (ArcInv.tails_pos_of_ends ht (p := q) (by simp [ends])) hL
      exact h
    have hne : ∀ r v, k = some (r, v) → r ≠ q := by
      rintro r v rfl rfl
      have := ArcInv.own_pos_of_holds ht (p := r) (by simp [holds])
      omega
    have hh : ArcOp.holds q (.fin2 q k) = false := by
      rcases k with _ | ⟨r, v⟩
      · rfl
      · simpa [holds] using hne r v rfl
    by_cases hw : x.val = 0
    · have e : s' = s.upd q o t (some (.fin3 q k)) 0 s.log := by
        simp [Arc.loaded, hw] at hf
        subst hf
        rw [upd_same ho]
        simpa [Arc.goto, eq_comm] using hs'
      subst e
      refine J.load_fin I hW ht ho ⟨by simp [uses], by simp [uses], ?_, ?_, by simp [borrowsAt]⟩
        (by simp [sens]) (Or.inr (Or.inr (Or.inr ⟨hh, how⟩))) (by simp) I'
      · intro r; rcases k with _ | ⟨r', v⟩ <;> simp [holds]
      · intro r hr; rcases k with _ | ⟨r', v⟩ <;> simp [holds]
    · rcases k with _ | ⟨r, v⟩
      · have e : s' = s.upd q o t none 0 ((t, .unit) :: s.log) := by
          simp [Arc.loaded, hw] at hf
          subst hf
          rw [upd_same ho]
          simpa [Arc.after, Arc.done, eq_comm] using hs'
        subst e
        exact J.load_fin I hW ht ho ⟨by simp [uses], by simp [uses], by simp [holds], by simp [holds],
          by simp [borrowsAt]⟩ (by simp [sens]) (Or.inr (Or.inr (Or.inr ⟨hh, how⟩))) (by simp) I'
      · have e : s' = s.upd q o t (some (.held r)) 0 s.log := by
          simp [Arc.loaded, hw] at hf
          subst hf
          rw [upd_same ho]
          simpa [Arc.after, Arc.goto, eq_comm] using hs'
        subst e
        refine J.load_fin I hW ht ho ⟨by simp [uses], ?_, by simp [holds], by simp [holds],
          by simp [borrowsAt]⟩ ?_ (Or.inr (Or.inr (Or.inr ⟨hh, how⟩))) (by simp) I'
        · intro r' h; simp [uses] at h ⊢; exact Or.inr h
        · intro r' h; left; simp [sens] at h ⊢; exact Or.inr h
  | unw0 q =>
    simp [Arc.loads] at hl
    obtain ⟨rfl, rfl, rfl⟩ := hl
    simp [Arc.loaded] at hf
    obtain ⟨-, rfl⟩ := hf
    have e : s' = s.upd q o t none 1 ((t, .err) :: s.log) := by
      rw [upd_same ho]
      simpa [Arc.done, Arc.give, M.bind_apply, eq_comm] using hs'
    subst e
    refine J.load_fin I hW ht ho ⟨by simp [uses], by simp [uses], by simp [holds],
      by intro r hr; simp [holds, Ne.symm hr], by simp [borrowsAt]⟩ (by simp [sens]) (by simp) (by simp [holds]) ?_
    exact I.stays ht ho hlo (by simp [holds])
      (by intro r hr; simp [holds, ends, locks, Ne.symm hr]) (by simp [holds]) rfl rfl (by simp)
  | unw2 q y =>
    simp [Arc.loads] at hl
    obtain ⟨rfl, rfl, rfl⟩ := hl
    obtain ⟨hj, hv⟩ := J.latest_of_sens ht (by simp [sens]) ho hx hr
    have hst : Arc.step mx {} t (.unw2 q y) s = .ok () s' := by
      simp [Arc.loaded] at hf
      subst hf
      simpa [Arc.step, M.bind_apply, ArcInv.obj_ok ho hfr, ← show x.val = o.weak from hv] using hs'
    have I' := I.run' hn hW {} ht hst
    have how : s.own q = 0 := by
      obtain ⟨o2, -, -, -, -, h, -⟩ := I.ending (ArcInv.tails_pos_of_ends ht (p := q) (by simp [ends])) hL
      exact h
    by_cases hw : x.val = 0
    · have e : s' = s.upd q o t (some (.unw3 q y)) 0 s.log := by
        simp [Arc.loaded, hw] at hf
        subst hf
        rw [upd_same ho]
        simpa [Arc.goto, eq_comm] using hs'
      subst e
      exact J.load_fin I hW ht ho ⟨by simp [uses], by simp [uses], by simp [holds], by simp [holds], by simp [borrowsAt]⟩
        (by simp [sens]) (Or.inr (Or.inr (Or.inr ⟨rfl, how⟩))) (by simp) I'
    · have e : s' = s.upd q o t none 0 ((t, .val y) :: s.log) := by
        simp [Arc.loaded, hw] at hf
        subst hf
        rw [upd_same ho]
        simpa [Arc.done, eq_comm] using hs'
      subst e
      exact J.load_fin I hW ht ho ⟨by simp [uses], by simp [uses], by simp [holds], by simp [holds], by simp [borrowsAt]⟩
        (by simp [sens]) (Or.inr (Or.inr (Or.inr ⟨rfl, how⟩))) (by simp) I'
  | mm0 q d =>
    simp [Arc.loads] at hl
    obtain ⟨rfl, rfl, rfl⟩ := hl
    simp [Arc.loaded] at hf
    subst hf
    have e : s' = s.upd q o t (some (.mm1 q d x.val)) 0 s.log := by
      rw [upd_same ho]
      simpa [Arc.goto, eq_comm] using hs'
    subst e
    have how : x.val = 1 → j = m.latest .strong q ∧ s.own q = 1 := by
      intro h1
      obtain ⟨h2, h3⟩ := J.latest_of_one ht (by simp [holds]) ho hx hr h1
      have h4 := ((I.obj q o ho hlo).live (ArcInv.own_pos_of_holds ht (by simp [holds]))).2.2.2.1
      exact ⟨h2, by omega⟩
    refine J.load_fin I hW ht ho ⟨by simp [uses], by simp [uses], by simp [holds],
      by intro r hr; simp [holds, Ne.symm hr], by simp [borrowsAt]⟩ ?_ (by simp [holds]) (by simp) ?_
    · intro r hr
      simp [sens] at hr
      exact Or.inr ⟨hr.2.symm, by simp [holds], (how hr.1).2, rfl, rfl, (how hr.1).1⟩
    · refine I.stays ht ho hlo (by simp [holds])
        (by intro r hr; simp [holds, ends, locks, Ne.symm hr]) (by simp [holds]) rfl rfl ?_
      intro op' e
      cases e
      refine ⟨?_, fun hu => ArcInv.upd_own_eq ht (how hu).2 (by simp [holds])⟩
      have : (s.objs[q]?).map (·.val) = some d := hneed
      rw [ArcInv.upd_at s ho]
      rw [ho] at this
      exact this
  | mm1 q d k =>
    simp [Arc.loads] at hl
    obtain ⟨rfl, rfl, rfl⟩ := hl
    by_cases hk : k = 1
    · obtain ⟨hj, hv⟩ := J.latest_of_sens ht (by simp [sens, hk]) ho hx hr
      have hst : Arc.step mx {} t (.mm1 q d k) s = .ok () s' := by
        simp [Arc.loaded] at hf
        subst hf
        simpa [Arc.step, M.bind_apply, ArcInv.obj_ok ho hfr, ← show x.val = o.weak from hv] using hs'
      have I' := I.run' hn hW {} ht hst
      by_cases hw : x.val = 0
      · have e : s' = s.upd q o t (some (.held q)) 0 s.log := by
          simp [Arc.loaded, hw, hk] at hf
          subst hf
          rw [upd_same ho]
          simpa [Arc.goto, eq_comm] using hs'
        subst e
        exact J.load_fin I hW ht ho ⟨by simp [uses], by simp [uses], by simp [holds], by simp [holds], by simp [borrowsAt]⟩
          (by simp [sens, hk]) (by simp [holds]) (by simp) I'
      · have e : s' = s.upd q o t (some (.mm2 q d x.val)) 0 s.log := by
          simp [Arc.loaded, hw, hk] at hf
          subst hf
          rw [upd_same ho]
          simpa [Arc.goto, eq_comm] using hs'
        subst e
        exact J.load_fin I hW ht ho ⟨by simp [uses], by simp [uses], by simp [holds], by simp [holds], by simp [borrowsAt]⟩
          (by simp [sens, hk]) (by simp [holds]) (by simp) I'
    · have hst : Arc.step mx {} t (.mm1 q d k) s = .ok () s' := by
        simp [Arc.loaded, hk] at hf
        subst hf
        simpa [Arc.step, M.bind_apply, ArcInv.obj_ok ho hfr, hk] using hs'
      have I' := I.run' hn hW {} ht hst
      have e : s' = s.upd q o t (some (.mmC q d)) 0 s.log := by
        simp [Arc.loaded, hk] at hf
        subst hf
        rw [upd_same ho]
        simpa [Arc.goto, eq_comm] using hs'
      subst e
      exact J.load_fin I hW ht ho ⟨by simp [uses], by simp [uses], by simp [holds], by simp [holds], by simp [borrowsAt]⟩
        (by simp [sens]) (by simp [holds]) (by simp) I'
  | mm2 q d w =>
    simp [Arc.loads] at hl
    obtain ⟨rfl, rfl, rfl⟩ := hl
    obtain ⟨hj, hv⟩ := J.latest_of_sens ht (by simp [sens]) ho hx hr
    have hst : Arc.step mx { fail := true } t (.mm2 q d w) s = .ok () s' := by
      simp [Arc.loaded] at hf
      subst hf
      simpa [Arc.step, M.bind_apply, ArcInv.obj_ok ho hfr, ← show x.val = o.weak from hv] using hs'
    have I' := I.run' hn hW { fail := true } ht hst
    have e : s' = s.upd q o t (some (.mm2 q d x.val)) 0 s.log := by
      simp [Arc.loaded] at hf
      subst hf
      rw [upd_same ho]
      simpa [Arc.goto, eq_comm] using hs'
    subst e
    exact J.load_fin I hW ht ho ⟨by simp [uses], by simp [uses], by simp [holds], by simp [holds], by simp [borrowsAt]⟩
      (by simp [sens]) (by simp [holds]) (by simp) I'
  | mm3 q d =>
    simp [Arc.loads] at hl
    obtain ⟨rfl, rfl, rfl⟩ := hl
    have hst : Arc.step mx { fail := true } t (.mm3 q d) s = .ok () s' := by
      simp [Arc.loaded] at hf
      subst hf
      simpa [Arc.step, M.bind_apply, ArcInv.obj_ok ho hfr] using hs'
    have I' := I.run' hn hW { fail := true } ht hst
    have e : s' = s.upd q o t (some (.mmC q d)) 0 s.log := by
      simp [Arc.loaded] at hf
      subst hf
      rw [upd_same ho]
      simpa [Arc.goto, eq_comm] using hs'
    subst e
    exact J.load_fin I hW ht ho ⟨by simp [uses], by simp [uses], by simp [holds], by simp [holds], by simp [borrowsAt]⟩
      (by simp [sens]) (by simp [holds]) (by simp) I'
  | _ => simp [Arc.loads] at hl

end ArcMemInv

end Lokky
