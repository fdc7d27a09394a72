import Verif.Proofs.Arc

/-! Every step of a thread keeps the invariant of the `Arc` system, and is free of undefined behaviour. -/

namespace Lokky
variable {α : Type} {mx n : Nat} {s : ArcSys α}

open ArcOp ArcSys

set_option linter.unusedSimpArgs false

namespace ArcInv

theorem obj_ok {p : Nat} {o : ArcObj α} (ho : s.objs[p]? = some o) (hf : o.freed = false) :
    Arc.obj p s = .ok o s := by
  simp [Arc.obj, ho, hf]

theorem data_ok {p : Nat} {o : ArcObj α} (ho : s.objs[p]? = some o) (hf : o.freed = false)
    (ha : o.alive = true) : Arc.data p s = .ok o.val s := by
  simp [Arc.data, M.bind_apply, obj_ok ho hf, ha]

theorem later (I : ArcInv mx n s) : ArcInv mx (n + 1) s :=
  ⟨fun p o ho h => (I.obj p o ho h).later, fun p o ho h => (I.lost p o ho h).later, I.op, I.beyond⟩

/-- What a thread relies on, where it works on an object that is not lost. -/
theorem needs' (I : ArcInv mx n s) {t : Nat} {op : ArcOp α} (ht : s.threads[t]? = some (some op))
    (hn : ¬ s.Lost op.main) : ArcNeeds s op :=
  (I.op t op ht).resolve_right fun h => hn h.1

/-- A step that changes no counts. -/
theorem same_ok {p x y z : Nat} {o : ArcObj α} {f g h : Bool} (hk : s.Ok mx n p o)
    (hx : x + f.toNat = s.own p + f.toNat) (hy : y + g.toNat = s.tails p + g.toNat)
    (hz : z + h.toNat = s.lockers p + h.toNat) : ArcObjOk mx (n + 1) x y z o := by
  have e1 : x = s.own p := by omega
  have e2 : y = s.tails p := by omega
  have e3 : z = s.lockers p := by omega
  rw [e1, e2, e3]
  exact hk.later

/-- Counting in the state after a step, to be used with `simp`. -/
theorem upd_own_eq {p t : Nat} {a : Option (ArcOp α)} (ht : s.threads[t]? = some a) {o' : ArcObj α}
    {b : Option (ArcOp α)} {log : List (Nat × ArcOut α)} {k : Nat} (h : s.own p = k)
    (e : on (holds p) a = on (holds p) b) : (s.upd p o' t b 0 log).own p = k := by
  have := upd_own s (p := p) ht o' b 0 log
  rw [e] at this
  omega

theorem next_upd {p t : Nat} {a : Option (ArcOp α)} (ht : s.threads[t]? = some a) {o' : ArcObj α}
    {b : Option (ArcOp α)} {g : Nat} {log : List (Nat × ArcOut α)} {k : Option (Nat × α)}
    (h : s.Next k) (hp : ∀ q v, k = some (q, v) → q ≠ p ∧ on (holds q) a = on (holds q) b) :
    (s.upd p o' t b g log).Next k := by
  rcases k with _ | ⟨q, v⟩
  · trivial
  · obtain ⟨h1, h2⟩ := hp q v rfl
    refine ⟨?_, At.congr h.2 (upd_at_ne s o' b g log h1)⟩
    have := upd_own_ne s ht o' b g log h1
    rw [h2] at this
    have := h.1
    omega

theorem upd_own_ne' {p q t : Nat} {a : Option (ArcOp α)} (ht : s.threads[t]? = some a)
    {o' : ArcObj α} {b : Option (ArcOp α)} {g : Nat} {log : List (Nat × ArcOut α)} {k : Nat}
    (h : s.own q = k) (hq : q ≠ p) (e : on (holds q) a = on (holds q) b) :
    (s.upd p o' t b g log).own q = k := by
  have := upd_own_ne s ht o' b g log hq
  rw [e] at this
  omega

/-- A thread that holds the only handle has nobody else locking the object. -/
theorem no_lockers {t p : Nat} {op : ArcOp α} (ht : s.threads[t]? = some (some op))
    (hh : op.holds p = true) (hl : op.locks p = false) (how : s.own p = 1) : s.lockers p = 0 := by
  by_contra hc
  obtain ⟨x, hx, hlx⟩ := List.countP_pos_iff.1 (show 0 < s.threads.countP (on (locks p)) by
    unfold ArcSys.lockers at hc; omega)
  obtain ⟨t', ht'⟩ := List.getElem?_of_mem hx
  cases x with
  | none => simp at hlx
  | some op' =>
    have hne : t' ≠ t := by
      rintro rfl
      rw [ht] at ht'
      cases ht'
      rw [on_some, hl] at hlx
      cases hlx
    have := countP_two (on (holds p)) rfl ht ht' hne hh (locks_holds hlx)
    unfold own at how
    omega

theorem step_clone (I : ArcInv mx n s) (hn : n < mx) (ch : ArcChoice α) {t h p : Nat}
    (ht : s.threads[t]? = some (some (.clone h p))) (hL : ¬ s.Lost p) :
    ∃ s', Arc.step mx ch t (.clone h p) s = .ok () s' ∧ ArcInv mx (n + 1) s' := by
  have hf : s.hands[h]? = some (some p) := I.needs' ht hL
  obtain ⟨o, ho, hlo, ha, hfr, hou, hst, htl, hk⟩ := I.live (own_pos_of_hand hf) hL
  have hfew := hk.few
  have hle : ¬ o.strong > mx := by omega
  have hlk : o.strong ≠ Arc.lock mx := by unfold Arc.lock; omega
  refine ⟨s.upd p { o with strong := o.strong + 1 } t none 1 ((t, .unit) :: s.log), ?_, ?_⟩
  · simp [Arc.step, M.bind_apply, obj_ok ho hfr, Arc.put, hle, Arc.give, Arc.done, Arc.incr, hlk,
      ArcSys.upd]
  · refine I.work ht ho hlo _ _ _ _ (by simp [borrowsAt]) (by simp [holds, ends, locks]) hlo ?_ (by simp)
      (Or.inl rfl)
    intro x y z hx hy hz hle
    simp [holds, ends, locks] at hx hy hz
    obtain ⟨k1, k2, k3, k4, k5, k6, k7, k8, k9, k10, k11⟩ := hk
    constructor <;> grind

theorem step_down (I : ArcInv mx n s) (ch : ArcChoice α) {t : Nat} {h p : Nat}
    (ht : s.threads[t]? = some (some (.down h p))) (hL : ¬ s.Lost p) :
    ∃ s', Arc.step mx ch t (.down h p) s = .ok () s' ∧ ArcInv mx (n + 1) s' := by
  have hf : s.hands[h]? = some (some p) := I.needs' ht hL
  obtain ⟨o, ho, hlo, ha, hfr, hou, hst, htl, hk⟩ := I.live (own_pos_of_hand hf) hL
  refine ⟨s.upd p o t (some (.down1 h p o.weak)) 0 s.log, ?_, ?_⟩
  · simp [Arc.step, M.bind_apply, obj_ok ho hfr, Arc.put, Arc.goto, Arc.give, Arc.done, ArcSys.upd, set_same ho]
  · refine I.work ht ho hlo _ _ _ _ (by simp [borrowsAt]) (by intro q hq; simp [holds, ends, locks, Ne.symm hq]) hlo ?_ ?_ (Or.inl rfl)
    · intro x y z hx hy hz hle
      simp [holds, ends, locks] at hx hy hz
      have e1 : x = s.own p := by omega
      have e2 : y = s.tails p := by omega
      have e3 : z = s.lockers p := by omega
      rw [e1, e2, e3]
      exact hk.later
    · intro op' e
      cases e
      simpa [ArcNeeds, ArcSys.upd] using hf

theorem step_down1 (I : ArcInv mx n s) (hn : n < mx) (ch : ArcChoice α) {t : Nat} {h p v : Nat}
    (ht : s.threads[t]? = some (some (.down1 h p v))) (hL : ¬ s.Lost p) :
    ∃ s', Arc.step mx ch t (.down1 h p v) s = .ok () s' ∧ ArcInv mx (n + 1) s' := by
  have hf : s.hands[h]? = some (some p) := I.needs' ht hL
  obtain ⟨o, ho, hlo, ha, hfr, hou, hst, htl, hk⟩ := I.live (own_pos_of_hand hf) hL
  by_cases hv : v = Arc.lock mx
  · refine ⟨s.upd p o t (some (.down1 h p o.weak)) 0 s.log, ?_, ?_⟩
    · simp [Arc.step, M.bind_apply, obj_ok ho hfr, Arc.put, Arc.goto, Arc.give, Arc.done, ArcSys.upd, set_same ho, hv]
    · refine I.work ht ho hlo _ _ _ _ (by simp [borrowsAt]) (by intro q hq; simp [holds, ends, locks, Ne.symm hq]) hlo ?_ ?_ (Or.inl rfl)
      · intro x y z hx hy hz hle
        simp [holds, ends, locks] at hx hy hz
        have e1 : x = s.own p := by omega
        have e2 : y = s.tails p := by omega
        have e3 : z = s.lockers p := by omega
        rw [e1, e2, e3]
        exact hk.later
      · intro op' e
        cases e
        simpa [ArcNeeds, ArcSys.upd] using hf
  by_cases hc : o.weak = v ∧ ch.fail = false
  · refine ⟨s.upd p { o with weak := v + 1, wk := o.wk + 1, made := o.made + 1 } t none 0 ((t, .unit) :: s.log), ?_, ?_⟩
    · simp [Arc.step, M.bind_apply, obj_ok ho hfr, Arc.put, Arc.goto, Arc.give, Arc.done, ArcSys.upd, hv, hc]
    · refine I.work ht ho hlo _ _ _ _ (by simp [borrowsAt]) (by intro q hq; simp [holds, ends, locks, Ne.symm hq]) hlo ?_ ?_ (Or.inl rfl)
      · intro x y z hx hy hz hle
        simp [holds, ends, locks] at hx hy hz
        obtain ⟨k1, k2, k3, k4, k5, k6, k7, k8, k9, k10, k11⟩ := hk
        constructor <;> grind
      · intro op' e; cases e
  · refine ⟨s, ?_, I.later⟩
    simp [Arc.step, M.bind_apply, obj_ok ho hfr, hv]
    rw [if_neg hc]
    rfl

theorem step_read (I : ArcInv mx n s) (ch : ArcChoice α) {t : Nat} {h p : Nat}
    (ht : s.threads[t]? = some (some (.read h p))) (hL : ¬ s.Lost p) :
    ∃ s', Arc.step mx ch t (.read h p) s = .ok () s' ∧ ArcInv mx (n + 1) s' := by
  have hf : s.hands[h]? = some (some p) := I.needs' ht hL
  obtain ⟨o, ho, hlo, ha, hfr, hou, hst, htl, hk⟩ := I.live (own_pos_of_hand hf) hL
  refine ⟨s.upd p o t none 0 ((t, .val o.val) :: s.log), ?_, ?_⟩
  · simp [Arc.step, M.bind_apply, obj_ok ho hfr, Arc.put, Arc.goto, Arc.give, Arc.done, ArcSys.upd, set_same ho, data_ok ho hfr ha]
  · refine I.work ht ho hlo _ _ _ _ (by simp [borrowsAt]) (by intro q hq; simp [holds, ends, locks, Ne.symm hq]) hlo ?_ ?_ (Or.inl rfl)
    · intro x y z hx hy hz hle
      simp [holds, ends, locks] at hx hy hz
      have e1 : x = s.own p := by omega
      have e2 : y = s.tails p := by omega
      have e3 : z = s.lockers p := by omega
      rw [e1, e2, e3]
      exact hk.later
    · intro op' e; cases e

theorem step_count (I : ArcInv mx n s) (ch : ArcChoice α) {t : Nat} {h p : Nat}
    (ht : s.threads[t]? = some (some (.count h p))) (hL : ¬ s.Lost p) :
    ∃ s', Arc.step mx ch t (.count h p) s = .ok () s' ∧ ArcInv mx (n + 1) s' := by
  have hf : s.hands[h]? = some (some p) := I.needs' ht hL
  obtain ⟨o, ho, hlo, ha, hfr, hou, hst, htl, hk⟩ := I.live (own_pos_of_hand hf) hL
  refine ⟨s.upd p o t none 0 ((t, .nat o.strong) :: s.log), ?_, ?_⟩
  · simp [Arc.step, M.bind_apply, obj_ok ho hfr, Arc.put, Arc.goto, Arc.give, Arc.done, ArcSys.upd, set_same ho]
  · refine I.work ht ho hlo _ _ _ _ (by simp [borrowsAt]) (by intro q hq; simp [holds, ends, locks, Ne.symm hq]) hlo ?_ ?_ (Or.inl rfl)
    · intro x y z hx hy hz hle
      simp [holds, ends, locks] at hx hy hz
      have e1 : x = s.own p := by omega
      have e2 : y = s.tails p := by omega
      have e3 : z = s.lockers p := by omega
      rw [e1, e2, e3]
      exact hk.later
    · intro op' e; cases e

theorem step_wcount (I : ArcInv mx n s) (ch : ArcChoice α) {t : Nat} {h p : Nat}
    (ht : s.threads[t]? = some (some (.wcount h p))) (hL : ¬ s.Lost p) :
    ∃ s', Arc.step mx ch t (.wcount h p) s = .ok () s' ∧ ArcInv mx (n + 1) s' := by
  have hf : s.hands[h]? = some (some p) := I.needs' ht hL
  obtain ⟨o, ho, hlo, ha, hfr, hou, hst, htl, hk⟩ := I.live (own_pos_of_hand hf) hL
  refine ⟨s.upd p o t none 0 ((t, .nat (if o.weak = Arc.lock mx then 0 else o.weak)) :: s.log), ?_, ?_⟩
  · simp [Arc.step, M.bind_apply, obj_ok ho hfr, Arc.put, Arc.goto, Arc.give, Arc.done, ArcSys.upd, set_same ho]
  · refine I.work ht ho hlo _ _ _ _ (by simp [borrowsAt]) (by intro q hq; simp [holds, ends, locks, Ne.symm hq]) hlo ?_ ?_ (Or.inl rfl)
    · intro x y z hx hy hz hle
      simp [holds, ends, locks] at hx hy hz
      have e1 : x = s.own p := by omega
      have e2 : y = s.tails p := by omega
      have e3 : z = s.lockers p := by omega
      rw [e1, e2, e3]
      exact hk.later
    · intro op' e; cases e

theorem step_get0 (I : ArcInv mx n s) (hn : n < mx) (ch : ArcChoice α) {t : Nat} {p : Nat}
    (ht : s.threads[t]? = some (some (.get0 p))) (hL : ¬ s.Lost p) :
    ∃ s', Arc.step mx ch t (.get0 p) s = .ok () s' ∧ ArcInv mx (n + 1) s' := by
  have hf := I.needs' ht hL
  have hpos : 1 ≤ s.own p := own_pos_of_holds ht (by simp [holds])
  obtain ⟨o, ho, hlo, ha, hfr, hou, hst, htl, hk⟩ := I.live hpos hL
  have hl : Arc.lock mx = 2 * mx + 1 := rfl
  by_cases hw : o.weak = 0
  · refine ⟨s.upd p { o with weak := Arc.lock mx } t (some (.get1 p)) 0 s.log, ?_, ?_⟩
    · simp [Arc.step, M.bind_apply, obj_ok ho hfr, Arc.put, Arc.goto, Arc.give, Arc.done, ArcSys.upd, hw]
    · refine I.work ht ho hlo _ _ _ _ (by simp [holds]) (by intro q hq; simp [holds, ends, locks, Ne.symm hq]) hlo ?_ ?_ (Or.inl rfl)
      · intro x y z hx hy hz hle
        simp [holds, ends, locks] at hx hy hz
        obtain ⟨k1, k2, k3, k4, k5, k6, k7, k8, k9, k10, k11⟩ := hk
        constructor <;> grind
      · intro op' e
        cases e
        trivial
  · refine ⟨s.upd p o t none 1 ((t, .no) :: s.log), ?_, ?_⟩
    · simp [Arc.step, M.bind_apply, obj_ok ho hfr, Arc.put, Arc.goto, Arc.give, Arc.done, ArcSys.upd, hw, set_same ho]
    · refine I.work ht ho hlo _ _ _ _ (by simp [holds]) (by intro q hq; simp [holds, ends, locks, Ne.symm hq]) hlo ?_ ?_ (Or.inl rfl)
      · intro x y z hx hy hz hle
        simp [holds, ends, locks] at hx hy hz
        have e1 : x = s.own p := by omega
        have e2 : y = s.tails p := by omega
        have e3 : z = s.lockers p := by omega
        rw [e1, e2, e3]
        exact hk.later
      · intro op' e; cases e

theorem step_get1 (I : ArcInv mx n s) (ch : ArcChoice α) {t : Nat} {p : Nat}
    (ht : s.threads[t]? = some (some (.get1 p))) (hL : ¬ s.Lost p) :
    ∃ s', Arc.step mx ch t (.get1 p) s = .ok () s' ∧ ArcInv mx (n + 1) s' := by
  have hf := I.needs' ht hL
  have hpos : 1 ≤ s.own p := own_pos_of_holds ht (by simp [holds])
  obtain ⟨o, ho, hlo, ha, hfr, hou, hst, htl, hk⟩ := I.live hpos hL
  refine ⟨s.upd p o t (some (.get2 p (o.strong == 1))) 0 s.log, ?_, ?_⟩
  · simp [Arc.step, M.bind_apply, obj_ok ho hfr, Arc.put, Arc.goto, Arc.give, Arc.done, ArcSys.upd, set_same ho]
  · refine I.work ht ho hlo _ _ _ _ (by simp [holds]) (by intro q hq; simp [holds, ends, locks, Ne.symm hq]) hlo ?_ ?_ (Or.inl rfl)
    · intro x y z hx hy hz hle
      simp [holds, ends, locks] at hx hy hz
      have e1 : x = s.own p := by omega
      have e2 : y = s.tails p := by omega
      have e3 : z = s.lockers p := by omega
      rw [e1, e2, e3]
      exact hk.later
    · intro op' e
      cases e
      intro hu
      exact upd_own_eq ht (by rw [← hst]; simpa using hu) (by simp [holds])

theorem step_get2 (I : ArcInv mx n s) (ch : ArcChoice α) {t : Nat} {p : Nat} {u : Bool}
    (ht : s.threads[t]? = some (some (.get2 p u))) (hL : ¬ s.Lost p) :
    ∃ s', Arc.step mx ch t (.get2 p u) s = .ok () s' ∧ ArcInv mx (n + 1) s' := by
  have hf := I.needs' ht hL
  have hpos : 1 ≤ s.own p := own_pos_of_holds ht (by simp [holds])
  obtain ⟨o, ho, hlo, ha, hfr, hou, hst, htl, hk⟩ := I.live hpos hL
  have hlk : s.lockers p = 1 := by
    have h1 := hk.oneLock
    have h2 : 1 ≤ s.lockers p := countP_pos_of (on (locks p)) ht (by simp [locks])
    omega
  cases u with
  | true =>
    have h1 : s.own p = 1 := hf rfl
    refine ⟨s.upd p { o with weak := 0 } t (some (.held p)) 0 s.log, ?_, ?_⟩
    · simp [Arc.step, M.bind_apply, obj_ok ho hfr, Arc.put, Arc.goto, Arc.give, Arc.done, ArcSys.upd]
    · refine I.work ht ho hlo _ _ _ _ (by simp [holds]) (by intro q hq; simp [holds, ends, locks, Ne.symm hq]) hlo ?_ ?_ (Or.inl rfl)
      · intro x y z hx hy hz hle
        simp [holds, ends, locks] at hx hy hz
        obtain ⟨k1, k2, k3, k4, k5, k6, k7, k8, k9, k10, k11⟩ := hk
        constructor <;> grind
      · intro op' e
        cases e
        exact ⟨upd_own_eq ht h1 (by simp [holds]), _, upd_at s ho _ _ _ _, rfl⟩
  | false =>
    refine ⟨s.upd p { o with weak := 0 } t none 1 ((t, .no) :: s.log), ?_, ?_⟩
    · simp [Arc.step, M.bind_apply, obj_ok ho hfr, Arc.put, Arc.goto, Arc.give, Arc.done, ArcSys.upd]
    · refine I.work ht ho hlo _ _ _ _ (by simp [holds]) (by intro q hq; simp [holds, ends, locks, Ne.symm hq]) hlo ?_ ?_ (Or.inl rfl)
      · intro x y z hx hy hz hle
        simp [holds, ends, locks] at hx hy hz
        obtain ⟨k1, k2, k3, k4, k5, k6, k7, k8, k9, k10, k11⟩ := hk
        constructor <;> grind
      · intro op' e; cases e

theorem step_held (I : ArcInv mx n s) (ch : ArcChoice α) {t : Nat} {p : Nat}
    (ht : s.threads[t]? = some (some (.held p))) (hL : ¬ s.Lost p) :
    ∃ s', Arc.step mx ch t (.held p) s = .ok () s' ∧ ArcInv mx (n + 1) s' := by
  have hf := I.needs' ht hL
  have hpos : 1 ≤ s.own p := own_pos_of_holds ht (by simp [holds])
  obtain ⟨o, ho, hlo, ha, hfr, hou, hst, htl, hk⟩ := I.live hpos hL
  cases hw : ch.write with
  | some x =>
    have hthr : s.threads.set t (some (.held p)) = s.threads := set_same ht
    refine ⟨s.upd p { o with val := x } t (some (.held p)) 0 s.log, ?_, ?_⟩
    · simp [Arc.step, M.bind_apply, obj_ok ho hfr, Arc.put, Arc.goto, Arc.give, Arc.done, ArcSys.upd, hw, hthr, data_ok ho hfr ha]
    · refine I.work ht ho hlo _ _ _ _ (by simp [holds]) (by intro q hq; simp [holds, ends, locks, Ne.symm hq]) hlo ?_ ?_ (Or.inr (by simp [sens, holds]))
      · intro x y z hx hy hz hle
        simp [holds, ends, locks] at hx hy hz
        have e1 : x = s.own p := by omega
        have e2 : y = s.tails p := by omega
        have e3 : z = s.lockers p := by omega
        rw [e1, e2, e3]
        exact ⟨hk.later.live, hk.later.ending, hk.later.gone, hk.later.single, hk.later.freed,
          hk.later.oneLock, hk.later.open_, hk.later.locked, hk.later.few,
        hk.later.unmade, hk.later.wins⟩
      · intro op' e
        cases e
        obtain ⟨h1, o2, h2, h3⟩ := hf
        rw [ho] at h2
        cases h2
        exact ⟨upd_own_eq ht h1 (by simp [holds]), _, upd_at s ho _ _ _ _, h3⟩
  | none =>
    refine ⟨s.upd p o t none 1 ((t, .unit) :: s.log), ?_, ?_⟩
    · simp [Arc.step, M.bind_apply, obj_ok ho hfr, Arc.put, Arc.goto, Arc.give, Arc.done, ArcSys.upd, hw, set_same ho, data_ok ho hfr ha]
    · refine I.work ht ho hlo _ _ _ _ (by simp [holds]) (by intro q hq; simp [holds, ends, locks, Ne.symm hq]) hlo ?_ ?_ (Or.inl rfl)
      · intro x y z hx hy hz hle
        simp [holds, ends, locks] at hx hy hz
        have e1 : x = s.own p := by omega
        have e2 : y = s.tails p := by omega
        have e3 : z = s.lockers p := by omega
        rw [e1, e2, e3]
        exact hk.later
      · intro op' e; cases e

theorem step_drop0 (I : ArcInv mx n s) (ch : ArcChoice α) {t : Nat} {p : Nat}
    (ht : s.threads[t]? = some (some (.drop0 p))) (hL : ¬ s.Lost p) :
    ∃ s', Arc.step mx ch t (.drop0 p) s = .ok () s' ∧ ArcInv mx (n + 1) s' := by
  have hf := I.needs' ht hL
  have hpos : 1 ≤ s.own p := own_pos_of_holds ht (by simp [holds])
  obtain ⟨o, ho, hlo, ha, hfr, hou, hst, htl, hk⟩ := I.live hpos hL
  have hnz : o.strong ≠ 0 := by omega
  by_cases h1 : o.strong = 1
  · refine ⟨s.upd p { o with strong := o.strong - 1 } t (some (.fin1 p none)) 0 s.log, ?_, ?_⟩
    · simp [Arc.step, M.bind_apply, obj_ok ho hfr, Arc.put, Arc.goto, Arc.give, Arc.done, ArcSys.upd, h1, Arc.decr]
    · refine I.work ht ho hlo _ _ _ _ (by simp [holds]) (by intro q hq; simp [holds, ends, locks, Ne.symm hq]) hlo ?_ ?_ (Or.inl rfl)
      · intro x y z hx hy hz hle
        simp [holds, ends, locks] at hx hy hz
        obtain ⟨k1, k2, k3, k4, k5, k6, k7, k8, k9, k10, k11⟩ := hk
        constructor <;> grind
      · intro op' e
        cases e
        exact ⟨⟨_, upd_at s ho _ _ _ _, hlo, ha, hou⟩, trivial⟩
  · refine ⟨s.upd p { o with strong := o.strong - 1 } t none 0 ((t, .unit) :: s.log), ?_, ?_⟩
    · simp [Arc.step, M.bind_apply, obj_ok ho hfr, Arc.put, Arc.goto, Arc.give, Arc.done, ArcSys.upd, h1, Arc.decr, hnz]
    · refine I.work ht ho hlo _ _ _ _ (by simp [holds]) (by intro q hq; simp [holds, ends, locks, Ne.symm hq]) hlo ?_ ?_ (Or.inl rfl)
      · intro x y z hx hy hz hle
        simp [holds, ends, locks] at hx hy hz
        obtain ⟨k1, k2, k3, k4, k5, k6, k7, k8, k9, k10, k11⟩ := hk
        constructor <;> grind
      · intro op' e; cases e

theorem step_fin1 (I : ArcInv mx n s) (ch : ArcChoice α) {t : Nat} {p : Nat} {k : Option (Nat × α)}
    (ht : s.threads[t]? = some (some (.fin1 p k))) (hL : ¬ s.Lost p) :
    ∃ s', Arc.step mx ch t (.fin1 p k) s = .ok () s' ∧ ArcInv mx (n + 1) s' := by
  have hf := I.needs' ht hL
  obtain ⟨o, ho, hlo, hfr, htl, how, hk⟩ := I.ending (tails_pos_of_ends ht (p := p) (by simp [ends])) hL
  have hne : ∀ q v, k = some (q, v) → q ≠ p := by
    rintro q v rfl rfl
    have := hf.2.1
    omega
  obtain ⟨o2, h2, -, ha, hou⟩ := hf.1
  rw [ho] at h2
  cases h2
  refine ⟨s.upd p { o with alive := false, outs := o.outs + 1 } t (some (.fin2 p k)) 0 s.log, ?_, ?_⟩
  · simp [Arc.step, M.bind_apply, obj_ok ho hfr, Arc.put, Arc.goto, Arc.give, Arc.done, ArcSys.upd, data_ok ho hfr ha]
  · refine I.work ht ho hlo _ _ _ _ (by simp [ends]) (by intro q hq; rcases k with _ | ⟨q', v'⟩ <;> simp [holds, ends, locks, Ne.symm hq]) hlo ?_ ?_ (Or.inl rfl)
    · intro x y z hx hy hz hle
      have hh : holds p (ArcOp.fin1 p k) = false := by
        rcases k with _ | ⟨q', v'⟩
        · rfl
        · simpa [holds] using hne q' v' rfl
      have hh' : on (holds p) (some (ArcOp.fin2 p k)) = false := by
        rcases k with _ | ⟨q', v'⟩
        · rfl
        · simpa [holds] using hne q' v' rfl
      rw [hh, hh'] at hx
      simp [ends, locks] at hx hy hz
      obtain ⟨k1, k2, k3, k4, k5, k6, k7, k8, k9, k10, k11⟩ := hk
      constructor <;> grind
    · intro op' e
      cases e
      exact ⟨⟨_, upd_at s ho _ _ _ _, hlo, rfl, by simp [hou]⟩, (next_upd ht hf.2 (fun q v e => ⟨hne q v e, by subst e; simp [holds]⟩))⟩

theorem step_fin2 (I : ArcInv mx n s) (ch : ArcChoice α) {t : Nat} {p : Nat} {k : Option (Nat × α)}
    (ht : s.threads[t]? = some (some (.fin2 p k))) (hL : ¬ s.Lost p) :
    ∃ s', Arc.step mx ch t (.fin2 p k) s = .ok () s' ∧ ArcInv mx (n + 1) s' := by
  have hf := I.needs' ht hL
  obtain ⟨o, ho, hlo, hfr, htl, how, hk⟩ := I.ending (tails_pos_of_ends ht (p := p) (by simp [ends])) hL
  have hne : ∀ q v, k = some (q, v) → q ≠ p := by
    rintro q v rfl rfl
    have := hf.2.1
    omega
  obtain ⟨o2, h2, -, ha, hou⟩ := hf.1
  rw [ho] at h2
  cases h2
  by_cases hw : o.weak = 0
  · refine ⟨s.upd p o t (some (.fin3 p k)) 0 s.log, ?_, ?_⟩
    · simp [Arc.step, M.bind_apply, obj_ok ho hfr, Arc.put, Arc.goto, Arc.give, Arc.done, ArcSys.upd, set_same ho, hw]
    · refine I.work ht ho hlo _ _ _ _ (by simp [ends]) (by intro q hq; rcases k with _ | ⟨q', v'⟩ <;> simp [holds, ends, locks, Ne.symm hq]) hlo ?_ ?_ (Or.inl rfl)
      · intro x y z hx hy hz hle
        have hh : holds p (ArcOp.fin2 p k) = false := by
          rcases k with _ | ⟨q', v'⟩
          · rfl
          · simpa [holds] using hne q' v' rfl
        have hh' : on (holds p) (some (ArcOp.fin3 p k)) = false := by
          rcases k with _ | ⟨q', v'⟩
          · rfl
          · simpa [holds] using hne q' v' rfl
        rw [hh, hh'] at hx
        simp [ends, locks] at hx hy hz
        obtain ⟨k1, k2, k3, k4, k5, k6, k7, k8, k9, k10, k11⟩ := hk
        constructor <;> grind
      · intro op' e
        cases e
        exact ⟨⟨_, upd_at s ho _ _ _ _, hlo, ha, hou, hw⟩, (next_upd ht hf.2 (fun q v e => ⟨hne q v e, by subst e; simp [holds]⟩))⟩
  · rcases k with _ | ⟨q, v⟩
    · refine ⟨s.upd p o t none 0 ((t, .unit) :: s.log), ?_, ?_⟩
      · simp [Arc.step, M.bind_apply, obj_ok ho hfr, Arc.put, Arc.goto, Arc.give, Arc.done, ArcSys.upd, Arc.after, set_same ho, hw]
      · refine I.work ht ho hlo _ _ _ _ (by simp [ends]) (by intro q hq; simp [holds, ends, locks, Ne.symm hq]) hlo ?_ ?_ (Or.inl rfl)
        · intro x y z hx hy hz hle
          simp [holds, ends, locks, *] at hx hy hz
          obtain ⟨k1, k2, k3, k4, k5, k6, k7, k8, k9, k10, k11⟩ := hk
          constructor <;> grind
        · intro op' e; cases e
    · have hqp := hne q v rfl
      refine ⟨s.upd p o t (some (.held q)) 0 s.log, ?_, ?_⟩
      · simp [Arc.step, M.bind_apply, obj_ok ho hfr, Arc.put, Arc.goto, Arc.give, Arc.done, ArcSys.upd, Arc.after, set_same ho, hw]
      · refine I.work ht ho hlo _ _ _ _ (by simp [ends]) (by intro q hq; simp [holds, ends, locks, Ne.symm hq]) hlo ?_ ?_ (Or.inl rfl)
        · intro x y z hx hy hz hle
          simp [holds, ends, locks, *] at hx hy hz
          obtain ⟨k1, k2, k3, k4, k5, k6, k7, k8, k9, k10, k11⟩ := hk
          constructor <;> grind
        · intro op' e
          cases e
          exact ⟨upd_own_ne' ht hf.2.1 (hne q v rfl) (by simp [holds]), hf.2.2.imp fun o h => ⟨(upd_at_ne s _ _ _ _ (hne q v rfl)).trans h.1, h.2.1⟩⟩

theorem step_fin3 (I : ArcInv mx n s) (ch : ArcChoice α) {t : Nat} {p : Nat} {k : Option (Nat × α)}
    (ht : s.threads[t]? = some (some (.fin3 p k))) (hL : ¬ s.Lost p) :
    ∃ s', Arc.step mx ch t (.fin3 p k) s = .ok () s' ∧ ArcInv mx (n + 1) s' := by
  have hf := I.needs' ht hL
  obtain ⟨o, ho, hlo, hfr, htl, how, hk⟩ := I.ending (tails_pos_of_ends ht (p := p) (by simp [ends])) hL
  have hne : ∀ q v, k = some (q, v) → q ≠ p := by
    rintro q v rfl rfl
    have := hf.2.1
    omega
  obtain ⟨o2, h2, -, ha, hou, hw⟩ := hf.1
  rw [ho] at h2
  cases h2
  rcases k with _ | ⟨q, v⟩
  · refine ⟨s.upd p { o with freed := true } t none 0 ((t, .unit) :: s.log), ?_, ?_⟩
    · simp [Arc.step, M.bind_apply, obj_ok ho hfr, Arc.put, Arc.goto, Arc.give, Arc.done, ArcSys.upd, Arc.after]
    · refine I.work ht ho hlo _ _ _ _ (by simp [ends]) (by intro q hq; simp [holds, ends, locks, Ne.symm hq]) hlo ?_ ?_ (Or.inl rfl)
      · intro x y z hx hy hz hle
        simp [holds, ends, locks, *] at hx hy hz
        obtain ⟨k1, k2, k3, k4, k5, k6, k7, k8, k9, k10, k11⟩ := hk
        constructor <;> grind
      · intro op' e; cases e
  · have hqp := hne q v rfl
    refine ⟨s.upd p { o with freed := true } t (some (.held q)) 0 s.log, ?_, ?_⟩
    · simp [Arc.step, M.bind_apply, obj_ok ho hfr, Arc.put, Arc.goto, Arc.give, Arc.done, ArcSys.upd, Arc.after]
    · refine I.work ht ho hlo _ _ _ _ (by simp [ends]) (by intro q hq; simp [holds, ends, locks, Ne.symm hq]) hlo ?_ ?_ (Or.inl rfl)
      · intro x y z hx hy hz hle
        simp [holds, ends, locks, *] at hx hy hz
        obtain ⟨k1, k2, k3, k4, k5, k6, k7, k8, k9, k10, k11⟩ := hk
        constructor <;> grind
      · intro op' e
        cases e
        exact ⟨upd_own_ne' ht hf.2.1 (hne q v rfl) (by simp [holds]), hf.2.2.imp fun o h => ⟨(upd_at_ne s _ _ _ _ (hne q v rfl)).trans h.1, h.2.1⟩⟩

theorem step_unw0 (I : ArcInv mx n s) (ch : ArcChoice α) {t : Nat} {p : Nat}
    (ht : s.threads[t]? = some (some (.unw0 p))) (hL : ¬ s.Lost p) :
    ∃ s', Arc.step mx ch t (.unw0 p) s = .ok () s' ∧ ArcInv mx (n + 1) s' := by
  have hf := I.needs' ht hL
  have hpos : 1 ≤ s.own p := own_pos_of_holds ht (by simp [holds])
  obtain ⟨o, ho, hlo, ha, hfr, hou, hst, htl, hk⟩ := I.live hpos hL
  by_cases h1 : o.strong = 1
  · refine ⟨s.upd p { o with strong := 0 } t (some (.unw1 p)) 0 s.log, ?_, ?_⟩
    · simp [Arc.step, M.bind_apply, obj_ok ho hfr, Arc.put, Arc.goto, Arc.give, Arc.done, ArcSys.upd, h1]
    · refine I.work ht ho hlo _ _ _ _ (by simp [holds]) (by intro q hq; simp [holds, ends, locks, Ne.symm hq]) hlo ?_ ?_ (Or.inl rfl)
      · intro x y z hx hy hz hle
        simp [holds, ends, locks] at hx hy hz
        obtain ⟨k1, k2, k3, k4, k5, k6, k7, k8, k9, k10, k11⟩ := hk
        constructor <;> grind
      · intro op' e
        cases e
        exact ⟨_, upd_at s ho _ _ _ _, hlo, ha, hou⟩
  · refine ⟨s.upd p o t none 1 ((t, .err) :: s.log), ?_, ?_⟩
    · simp [Arc.step, M.bind_apply, obj_ok ho hfr, Arc.put, Arc.goto, Arc.give, Arc.done, ArcSys.upd, h1, set_same ho]
    · refine I.work ht ho hlo _ _ _ _ (by simp [holds]) (by intro q hq; simp [holds, ends, locks, Ne.symm hq]) hlo ?_ ?_ (Or.inl rfl)
      · intro x y z hx hy hz hle
        simp [holds, ends, locks] at hx hy hz
        have e1 : x = s.own p := by omega
        have e2 : y = s.tails p := by omega
        have e3 : z = s.lockers p := by omega
        rw [e1, e2, e3]
        exact hk.later
      · intro op' e; cases e

theorem step_unw1 (I : ArcInv mx n s) (ch : ArcChoice α) {t : Nat} {p : Nat}
    (ht : s.threads[t]? = some (some (.unw1 p))) (hL : ¬ s.Lost p) :
    ∃ s', Arc.step mx ch t (.unw1 p) s = .ok () s' ∧ ArcInv mx (n + 1) s' := by
  have hf := I.needs' ht hL
  obtain ⟨o, ho, hlo, hfr, htl, how, hk⟩ := I.ending (tails_pos_of_ends ht (p := p) (by simp [ends])) hL
  obtain ⟨o2, h2, -, ha, hou⟩ := hf
  rw [ho] at h2
  cases h2
  refine ⟨s.upd p { o with alive := false, outs := o.outs + 1, won := o.won + 1 } t (some (.unw2 p o.val)) 0 s.log, ?_, ?_⟩
  · simp [Arc.step, M.bind_apply, obj_ok ho hfr, Arc.put, Arc.goto, Arc.give, Arc.done, ArcSys.upd, data_ok ho hfr ha]
  · refine I.work ht ho hlo _ _ _ _ (by simp [ends]) (by intro q hq; simp [holds, ends, locks, Ne.symm hq]) hlo ?_ ?_ (Or.inl rfl)
    · intro x y z hx hy hz hle
      simp [holds, ends, locks] at hx hy hz
      obtain ⟨k1, k2, k3, k4, k5, k6, k7, k8, k9, k10, k11⟩ := hk
      constructor <;> grind
    · intro op' e
      cases e
      exact ⟨_, upd_at s ho _ _ _ _, hlo, rfl, by simp [hou]⟩

theorem step_unw2 (I : ArcInv mx n s) (ch : ArcChoice α) {t : Nat} {p : Nat} {x : α}
    (ht : s.threads[t]? = some (some (.unw2 p x))) (hL : ¬ s.Lost p) :
    ∃ s', Arc.step mx ch t (.unw2 p x) s = .ok () s' ∧ ArcInv mx (n + 1) s' := by
  have hf := I.needs' ht hL
  obtain ⟨o, ho, hlo, hfr, htl, how, hk⟩ := I.ending (tails_pos_of_ends ht (p := p) (by simp [ends])) hL
  obtain ⟨o2, h2, -, ha, hou⟩ := hf
  rw [ho] at h2
  cases h2
  by_cases hw : o.weak = 0
  · refine ⟨s.upd p o t (some (.unw3 p x)) 0 s.log, ?_, ?_⟩
    · simp [Arc.step, M.bind_apply, obj_ok ho hfr, Arc.put, Arc.goto, Arc.give, Arc.done, ArcSys.upd, hw, set_same ho]
    · refine I.work ht ho hlo _ _ _ _ (by simp [ends]) (by intro q hq; simp [holds, ends, locks, Ne.symm hq]) hlo ?_ ?_ (Or.inl rfl)
      · intro x y z hx hy hz hle
        simp [holds, ends, locks] at hx hy hz
        obtain ⟨k1, k2, k3, k4, k5, k6, k7, k8, k9, k10, k11⟩ := hk
        constructor <;> grind
      · intro op' e
        cases e
        exact ⟨_, upd_at s ho _ _ _ _, hlo, ha, hou, hw⟩
  · refine ⟨s.upd p o t none 0 ((t, .val x) :: s.log), ?_, ?_⟩
    · simp [Arc.step, M.bind_apply, obj_ok ho hfr, Arc.put, Arc.goto, Arc.give, Arc.done, ArcSys.upd, hw, set_same ho]
    · refine I.work ht ho hlo _ _ _ _ (by simp [ends]) (by intro q hq; simp [holds, ends, locks, Ne.symm hq]) hlo ?_ ?_ (Or.inl rfl)
      · intro x y z hx hy hz hle
        simp [holds, ends, locks] at hx hy hz
        obtain ⟨k1, k2, k3, k4, k5, k6, k7, k8, k9, k10, k11⟩ := hk
        constructor <;> grind
      · intro op' e; cases e

theorem step_unw3 (I : ArcInv mx n s) (ch : ArcChoice α) {t : Nat} {p : Nat} {x : α}
    (ht : s.threads[t]? = some (some (.unw3 p x))) (hL : ¬ s.Lost p) :
    ∃ s', Arc.step mx ch t (.unw3 p x) s = .ok () s' ∧ ArcInv mx (n + 1) s' := by
  have hf := I.needs' ht hL
  obtain ⟨o, ho, hlo, hfr, htl, how, hk⟩ := I.ending (tails_pos_of_ends ht (p := p) (by simp [ends])) hL
  obtain ⟨o2, h2, -, ha, hou, hw⟩ := hf
  rw [ho] at h2
  cases h2
  refine ⟨s.upd p { o with freed := true } t none 0 ((t, .val x) :: s.log), ?_, ?_⟩
  · simp [Arc.step, M.bind_apply, obj_ok ho hfr, Arc.put, Arc.goto, Arc.give, Arc.done, ArcSys.upd]
  · refine I.work ht ho hlo _ _ _ _ (by simp [ends]) (by intro q hq; simp [holds, ends, locks, Ne.symm hq]) hlo ?_ ?_ (Or.inl rfl)
    · intro x y z hx hy hz hle
      simp [holds, ends, locks] at hx hy hz
      obtain ⟨k1, k2, k3, k4, k5, k6, k7, k8, k9, k10, k11⟩ := hk
      constructor <;> grind
    · intro op' e; cases e

theorem step_mm0 (I : ArcInv mx n s) (ch : ArcChoice α) {t : Nat} {p : Nat} {v : α}
    (ht : s.threads[t]? = some (some (.mm0 p v))) (hL : ¬ s.Lost p) :
    ∃ s', Arc.step mx ch t (.mm0 p v) s = .ok () s' ∧ ArcInv mx (n + 1) s' := by
  have hf := I.needs' ht hL
  have hpos : 1 ≤ s.own p := own_pos_of_holds ht (by simp [holds])
  obtain ⟨o, ho, hlo, ha, hfr, hou, hst, htl, hk⟩ := I.live hpos hL
  refine ⟨s.upd p o t (some (.mm1 p v o.strong)) 0 s.log, ?_, ?_⟩
  · simp [Arc.step, M.bind_apply, obj_ok ho hfr, Arc.put, Arc.goto, Arc.give, Arc.done, ArcSys.upd, set_same ho]
  · refine I.work ht ho hlo _ _ _ _ (by simp [holds]) (by intro q hq; simp [holds, ends, locks, Ne.symm hq]) hlo ?_ ?_ (Or.inl rfl)
    · intro x y z hx hy hz hle
      simp [holds, ends, locks] at hx hy hz
      have e1 : x = s.own p := by omega
      have e2 : y = s.tails p := by omega
      have e3 : z = s.lockers p := by omega
      rw [e1, e2, e3]
      exact hk.later
    · intro op' e
      cases e
      refine ⟨by rw [upd_at s ho]; simpa [ho, ArcNeeds] using hf, fun h1 => ?_⟩
      exact upd_own_eq ht (by rw [← hst, h1]) (by simp [holds])

theorem step_mm1 (I : ArcInv mx n s) (ch : ArcChoice α) {t : Nat} {p : Nat} {v : α} {k : Nat}
    (ht : s.threads[t]? = some (some (.mm1 p v k))) (hL : ¬ s.Lost p) :
    ∃ s', Arc.step mx ch t (.mm1 p v k) s = .ok () s' ∧ ArcInv mx (n + 1) s' := by
  have hf := I.needs' ht hL
  have hpos : 1 ≤ s.own p := own_pos_of_holds ht (by simp [holds])
  obtain ⟨o, ho, hlo, ha, hfr, hou, hst, htl, hk⟩ := I.live hpos hL
  by_cases h1 : k = 1
  · have how := hf.2 h1
    have hnl := no_lockers ht (by simp [holds]) (by simp [locks]) how
    by_cases hw : o.weak = 0
    · refine ⟨s.upd p o t (some (.held p)) 0 s.log, ?_, ?_⟩
      · simp [Arc.step, M.bind_apply, obj_ok ho hfr, Arc.put, Arc.goto, Arc.give, Arc.done, ArcSys.upd, hw, h1, set_same ho]
      · refine I.work ht ho hlo _ _ _ _ (by simp [holds]) (by intro q hq; simp [holds, ends, locks, Ne.symm hq]) hlo ?_ ?_ (Or.inl rfl)
        · intro x y z hx hy hz hle
          simp [holds, ends, locks] at hx hy hz
          have e1 : x = s.own p := by omega
          have e2 : y = s.tails p := by omega
          have e3 : z = s.lockers p := by omega
          rw [e1, e2, e3]
          exact hk.later
        · intro op' e
          cases e
          exact ⟨upd_own_eq ht how (by simp [holds]), _, upd_at s ho _ _ _ _, hw⟩
    · refine ⟨s.upd p o t (some (.mm2 p v o.weak)) 0 s.log, ?_, ?_⟩
      · simp [Arc.step, M.bind_apply, obj_ok ho hfr, Arc.put, Arc.goto, Arc.give, Arc.done, ArcSys.upd, hw, h1, set_same ho]
      · refine I.work ht ho hlo _ _ _ _ (by simp [holds]) (by intro q hq; simp [holds, ends, locks, Ne.symm hq]) hlo ?_ ?_ (Or.inl rfl)
        · intro x y z hx hy hz hle
          simp [holds, ends, locks] at hx hy hz
          have e1 : x = s.own p := by omega
          have e2 : y = s.tails p := by omega
          have e3 : z = s.lockers p := by omega
          rw [e1, e2, e3]
          exact hk.later
        · intro op' e
          cases e
          exact ⟨⟨_, upd_at s ho _ _ _ _, by simpa [ho] using hf.1,
            fun e => hw (hk.unmade hnl e)⟩, upd_own_eq ht how (by simp [holds])⟩
  · refine ⟨s.upd p o t (some (.mmC p v)) 0 s.log, ?_, ?_⟩
    · simp [Arc.step, M.bind_apply, obj_ok ho hfr, Arc.put, Arc.goto, Arc.give, Arc.done, ArcSys.upd, h1, set_same ho]
    · refine I.work ht ho hlo _ _ _ _ (by simp [holds]) (by intro q hq; simp [holds, ends, locks, Ne.symm hq]) hlo ?_ ?_ (Or.inl rfl)
      · intro x y z hx hy hz hle
        simp [holds, ends, locks] at hx hy hz
        have e1 : x = s.own p := by omega
        have e2 : y = s.tails p := by omega
        have e3 : z = s.lockers p := by omega
        rw [e1, e2, e3]
        exact hk.later
      · intro op' e
        cases e
        show _ = _
        rw [upd_at s ho]; simpa [ho] using hf.1

theorem step_mm2 (I : ArcInv mx n s) (hn : n < mx) (ch : ArcChoice α) {t : Nat} {p : Nat} {v : α} {w : Nat}
    (ht : s.threads[t]? = some (some (.mm2 p v w))) (hL : ¬ s.Lost p) :
    ∃ s', Arc.step mx ch t (.mm2 p v w) s = .ok () s' ∧ ArcInv mx (n + 1) s' := by
  have hf := I.needs' ht hL
  have hpos : 1 ≤ s.own p := own_pos_of_holds ht (by simp [holds])
  obtain ⟨o, ho, hlo, ha, hfr, hou, hst, htl, hk⟩ := I.live hpos hL
  obtain ⟨⟨o2, h2, hv, hmd⟩, how⟩ := hf
  rw [ho] at h2
  cases h2
  have hnl := no_lockers ht (by simp [holds]) (by simp [locks]) how
  have hwn := (hk.open_ hnl).1
  have hl : o.weak ≠ Arc.lock mx := by unfold Arc.lock; omega
  by_cases hc : o.weak = w ∧ ch.fail = false
  · obtain ⟨rfl, hfail⟩ := hc
    refine ⟨s.upd p { o with weak := o.weak + 1 } t (some (.mm3 p v)) 0 s.log, ?_, ?_⟩
    · simp [Arc.step, M.bind_apply, obj_ok ho hfr, Arc.put, Arc.goto, Arc.give, Arc.done, ArcSys.upd, hfail, Arc.incr, hl]
    · refine I.work ht ho hlo _ _ _ _ (by simp [holds]) (by intro q hq; simp [holds, ends, locks, Ne.symm hq]) hlo ?_ ?_ (Or.inl rfl)
      · intro x y z hx hy hz hle
        simp [holds, ends, locks] at hx hy hz
        obtain ⟨k1, k2, k3, k4, k5, k6, k7, k8, k9, k10, k11⟩ := hk
        constructor <;> grind
      · intro op' e
        cases e
        exact ⟨⟨_, upd_at s ho _ _ _ _, hv, by simp⟩, upd_own_eq ht how (by simp [holds])⟩
  · refine ⟨s.upd p o t (some (.mm2 p v o.weak)) 0 s.log, ?_, ?_⟩
    · simp [Arc.step, M.bind_apply, obj_ok ho hfr, Arc.put, Arc.goto, Arc.give, Arc.done, ArcSys.upd, set_same ho]
      rw [if_neg hc]
      rfl
    · refine I.work ht ho hlo _ _ _ _ (by simp [holds]) (by intro q hq; simp [holds, ends, locks, Ne.symm hq]) hlo ?_ ?_ (Or.inl rfl)
      · intro x y z hx hy hz hle
        simp [holds, ends, locks] at hx hy hz
        have e1 : x = s.own p := by omega
        have e2 : y = s.tails p := by omega
        have e3 : z = s.lockers p := by omega
        rw [e1, e2, e3]
        exact hk.later
      · intro op' e
        cases e
        exact ⟨⟨_, upd_at s ho _ _ _ _, hv, hmd⟩, upd_own_eq ht how (by simp [holds])⟩

theorem step_mm3 (I : ArcInv mx n s) (ch : ArcChoice α) {t : Nat} {p : Nat} {v : α}
    (ht : s.threads[t]? = some (some (.mm3 p v))) (hL : ¬ s.Lost p) :
    ∃ s', Arc.step mx ch t (.mm3 p v) s = .ok () s' ∧ ArcInv mx (n + 1) s' := by
  have hf := I.needs' ht hL
  have hpos : 1 ≤ s.own p := own_pos_of_holds ht (by simp [holds])
  obtain ⟨o, ho, hlo, ha, hfr, hou, hst, htl, hk⟩ := I.live hpos hL
  obtain ⟨⟨o2, h2, hv, hw⟩, how⟩ := hf
  rw [ho] at h2
  cases h2
  by_cases hc : o.strong = 1 ∧ ch.fail = false
  · refine ⟨s.upd p { o with strong := 0 } t (some (.mm4 p v)) 0 s.log, ?_, ?_⟩
    · simp [Arc.step, M.bind_apply, obj_ok ho hfr, Arc.put, Arc.goto, Arc.give, Arc.done, ArcSys.upd, hc]
    · refine I.work ht ho hlo _ _ _ _ (by simp [holds]) (by intro q hq; simp [holds, ends, locks, Ne.symm hq]) hlo ?_ ?_ (Or.inl rfl)
      · intro x y z hx hy hz hle
        simp [holds, ends, locks] at hx hy hz
        obtain ⟨k1, k2, k3, k4, k5, k6, k7, k8, k9, k10, k11⟩ := hk
        constructor <;> grind
      · intro op' e
        cases e
        exact ⟨_, upd_at s ho _ _ _ _, hlo, hv, hw, ha, hou, rfl, by have := hk.wins; simp; omega⟩
  · refine ⟨s.upd p o t (some (.mmC p v)) 0 s.log, ?_, ?_⟩
    · simp [Arc.step, M.bind_apply, obj_ok ho hfr, Arc.put, Arc.goto, Arc.give, Arc.done, ArcSys.upd, set_same ho]
      rw [if_neg hc]
      rfl
    · refine I.work ht ho hlo _ _ _ _ (by simp [holds]) (by intro q hq; simp [holds, ends, locks, Ne.symm hq]) hlo ?_ ?_ (Or.inl rfl)
      · intro x y z hx hy hz hle
        simp [holds, ends, locks] at hx hy hz
        have e1 : x = s.own p := by omega
        have e2 : y = s.tails p := by omega
        have e3 : z = s.lockers p := by omega
        rw [e1, e2, e3]
        exact hk.later
      · intro op' e
        cases e
        show _ = _
        rw [upd_at s ho]; simp [hv]

theorem step_mm4 (I : ArcInv mx n s) (ch : ArcChoice α) {t : Nat} {p : Nat} {v : α}
    (ht : s.threads[t]? = some (some (.mm4 p v))) (hL : ¬ s.Lost p) :
    ∃ s', Arc.step mx ch t (.mm4 p v) s = .ok () s' ∧ ArcInv mx (n + 1) s' := by
  have hf := I.needs' ht hL
  obtain ⟨o, ho, hlo, hfr, htl, how, hk⟩ := I.ending (tails_pos_of_ends ht (p := p) (by simp [ends])) hL
  obtain ⟨o2, h2, -, hv, hw, ha, hou, hst, hwn⟩ := hf
  rw [ho] at h2
  cases h2
  refine ⟨s.upd p { o with alive := false, outs := o.outs + 1 } t (some (.mmA p v o.val true)) 0 s.log, ?_, ?_⟩
  · simp [Arc.step, M.bind_apply, obj_ok ho hfr, Arc.put, Arc.goto, Arc.give, Arc.done, ArcSys.upd, data_ok ho hfr ha]
  · refine I.work ht ho hlo _ _ _ _ (by simp [ends]) (by intro q hq; simp [holds, ends, locks, Ne.symm hq]) hlo ?_ ?_ (Or.inl rfl)
    · intro x y z hx hy hz hle
      simp [holds, ends, locks] at hx hy hz
      obtain ⟨k1, k2, k3, k4, k5, k6, k7, k8, k9, k10, k11⟩ := hk
      constructor <;> grind
    · intro op' e
      cases e
      exact ⟨hv, fun _ => ⟨_, upd_at s ho _ _ _ _, hlo, hw, rfl, by simp [hou], hst, hwn⟩, by simp⟩

theorem step_mmC (I : ArcInv mx n s) (ch : ArcChoice α) {t : Nat} {p : Nat} {v : α}
    (ht : s.threads[t]? = some (some (.mmC p v))) (hL : ¬ s.Lost p) :
    ∃ s', Arc.step mx ch t (.mmC p v) s = .ok () s' ∧ ArcInv mx (n + 1) s' := by
  have hf := I.needs' ht hL
  have hpos : 1 ≤ s.own p := own_pos_of_holds ht (by simp [holds])
  obtain ⟨o, ho, hlo, ha, hfr, hou, hst, htl, hk⟩ := I.live hpos hL
  have hv : o.val = v := by
    have : (s.objs[p]?).map (·.val) = some v := hf
    simpa [ho] using this
  by_cases hb : ch.boom = true
  · refine ⟨s.upd p o t none 1 ((t, .panic) :: s.log), ?_, ?_⟩
    · simp [Arc.step, M.bind_apply, obj_ok ho hfr, Arc.put, Arc.goto, Arc.give, Arc.done, ArcSys.upd, hb, set_same ho, data_ok ho hfr ha]
    · refine I.work ht ho hlo _ _ _ _ (by simp [holds]) (by intro q hq; simp [holds, ends, locks, Ne.symm hq]) hlo ?_ ?_ (Or.inl rfl)
      · intro x y z hx hy hz hle
        simp [holds, ends, locks] at hx hy hz
        have e1 : x = s.own p := by omega
        have e2 : y = s.tails p := by omega
        have e3 : z = s.lockers p := by omega
        rw [e1, e2, e3]
        exact hk.later
      · intro op' e; cases e
  · refine ⟨s.upd p o t (some (.mmA p v o.val false)) 0 s.log, ?_, ?_⟩
    · simp [Arc.step, M.bind_apply, obj_ok ho hfr, Arc.put, Arc.goto, Arc.give, Arc.done, ArcSys.upd, hb, set_same ho, data_ok ho hfr ha]
    · refine I.work ht ho hlo _ _ _ _ (by simp [holds]) (by intro q hq; simp [holds, ends, locks, Ne.symm hq]) hlo ?_ ?_ (Or.inl rfl)
      · intro x y z hx hy hz hle
        simp [holds, ends, locks] at hx hy hz
        have e1 : x = s.own p := by omega
        have e2 : y = s.tails p := by omega
        have e3 : z = s.lockers p := by omega
        rw [e1, e2, e3]
        exact hk.later
      · intro op' e
        cases e
        refine ⟨hv, by simp, fun _ => ?_⟩
        rintro ⟨o2, h2, h3⟩
        rw [upd_at s ho] at h2
        cases h2
        rw [hlo] at h3
        cases h3

/-- `lose` computed. -/
theorem lose_objs {p : Nat} {o : ArcObj α} (ho : s.objs[p]? = some o) :
    s.objs.modify p (fun o => { o with alive := true, outs := o.outs - 1, lost := true }) =
      s.objs.set p { o with alive := true, outs := o.outs - 1, lost := true } := by
  apply List.ext_getElem?
  intro i
  rw [List.getElem?_modify, List.getElem?_set]
  by_cases hi : p = i
  · subst hi
    obtain ⟨hl, -⟩ := List.getElem?_eq_some_iff.1 ho
    rw [if_pos rfl, if_pos hl, ho]
    simp
  · simp [hi]

/-- `make_mut` gets memory for the new object. -/
theorem step_mmA_grant (I : ArcInv mx n s) (ch : ArcChoice α) {t : Nat} {p : Nat} {v x : α} {z : Bool}
    (ht : s.threads[t]? = some (some (.mmA p v x z))) (hg : ch.grant = true) :
    ∃ s', Arc.step mx ch t (.mmA p v x z) s = .ok () s' ∧ ArcInv mx (n + 1) s' := by
  have hb := I.beyond s.objs.length (Nat.le_refl _)
  have hlk := lockers_le s s.objs.length
  have hp : p ≠ s.objs.length := by
    rintro rfl
    cases z with
    | true =>
      have := tails_pos_of_ends ht (p := s.objs.length) (by simp [ends])
      omega
    | false =>
      have := own_pos_of_holds ht (p := s.objs.length) (by simp [holds])
      omega
  have hown := countP_set_add (on (holds s.objs.length)) ht
    (some (.mm5 p v s.objs.length z))
  have htls := countP_set_add (on (ends s.objs.length)) ht
    (some (.mm5 p v s.objs.length z))
  have hlks := countP_set_add (on (locks s.objs.length)) ht
    (some (.mm5 p v s.objs.length z))
  have hpb : (p == s.objs.length) = false := by simpa using hp
  simp [holds, ends, locks, hpb] at hown htls hlks
  have h1 : s.hands.count (some s.objs.length) = 0 ∧
      s.threads.countP (on (holds s.objs.length)) = 0 := by
    have := hb.1
    unfold own at this
    omega
  have h2 : s.threads.countP (on (ends s.objs.length)) = 0 := hb.2
  have h3 : s.threads.countP (on (locks s.objs.length)) = 0 := by
    have := hb.1
    unfold lockers at hlk
    omega
  refine ⟨⟨s.objs ++ [⟨1, 0, x, true, 0, 0, false, 0, 0, false⟩], s.hands,
    s.threads.set t (some (.mm5 p v s.objs.length z)), s.log⟩, ?_, ?_⟩
  · simp [Arc.step, hg, M.bind_apply, Arc.goto]
  · have howS : own (⟨s.objs ++ [⟨1, 0, x, true, 0, 0, false, 0, 0, false⟩], s.hands,
        s.threads.set t (some (.mm5 p v s.objs.length z)), s.log⟩ : ArcSys α) s.objs.length = 1 := by
      simp only [own]
      omega
    refine I.next ht (p := s.objs.length) (o' := ⟨1, 0, x, true, 0, 0, false, 0, 0, false⟩) rfl ?_ (by simp)
      (by simp) (fun _ _ => rfl) (fun h y hy _ => hy) ?_ ?_ (by simp) ?_ ?_ (Or.inr ?_) ?_
    · intro q hq
      by_cases hlt : q < s.objs.length
      · simp [List.getElem?_append_left hlt]
      · rw [List.getElem?_eq_none_iff.2 (by simp only [List.length_append, List.length_singleton]; omega),
          List.getElem?_eq_none_iff.2 (by omega)]
    · intro q hq
      simp [holds, ends, locks, Ne.symm hq]
    · intro _
      unfold ArcSys.Ok
      rw [howS]
      simp only [ArcSys.tails, lockers]
      rw [htls, hlks, h2, h3]
      constructor <;> simp
    · intro o ho
      rw [List.getElem?_eq_none_iff.2 (Nat.le_refl _)] at ho
      cases ho
    · intro op' e
      cases e
      rcases I.op t _ ht with ⟨rfl, hz, hnz⟩ | ⟨⟨o, ho, hlo⟩, -⟩
      · refine Or.inl ⟨hp, ⟨howS, _, by simp; rfl, rfl, rfl⟩, fun e => ?_, fun e => ?_⟩
        · obtain ⟨o, ho, h1, h2, h3, h4, h5, -⟩ := hz e
          obtain ⟨hl, -⟩ := List.getElem?_eq_some_iff.1 ho
          exact ⟨o, by simpa [List.getElem?_append_left hl] using ho, h1, h2, h3, h4, h5⟩
        · rintro ⟨o, ho, h⟩
          refine hnz e ⟨o, ?_, h⟩
          subst e
          obtain ⟨o2, h2⟩ := I.exists_obj (Or.inl (own_pos_of_holds ht (p := p) (by simp [holds])))
          obtain ⟨hl, -⟩ := List.getElem?_eq_some_iff.1 h2
          simpa [List.getElem?_append_left hl] using ho
      · refine Or.inr ⟨⟨o, ?_, hlo⟩, howS, _, by simp; rfl, rfl⟩
        have ho : s.objs[p]? = some o := ho
        obtain ⟨hl, -⟩ := List.getElem?_eq_some_iff.1 ho
        simpa [ArcOp.main, List.getElem?_append_left hl] using ho
    · intro t' op' _ ht'
      by_contra hc
      have hc : op'.sens s.objs.length = true := by simpa using hc
      rcases sens_busy hc with h | h
      · have := own_pos_of_holds ht' h
        omega
      · have := tails_pos_of_ends ht' h
        omega
    · right
      intro t' op' _ ht'
      by_contra hc
      have := own_pos_of_holds ht' (vals_holds (show op'.vals s.objs.length = true by simpa using hc))
      omega
/-- `make_mut` is refused memory for the new object. -/
theorem step_mmA_refuse (I : ArcInv mx n s) (ch : ArcChoice α) {t : Nat} {p : Nat} {v x : α} {z : Bool}
    (ht : s.threads[t]? = some (some (.mmA p v x z))) (hn : ¬ s.Lost p) (hg : ch.grant = false) :
    ∃ s', Arc.step mx ch t (.mmA p v x z) s = .ok () s' ∧ ArcInv mx (n + 1) s' := by
  obtain ⟨rfl, hz, hnz⟩ := I.needs' ht hn
  by_cases hz' : z = true
  · subst hz'
    obtain ⟨o, ho, hlo, hw, ha, hou, hst, hwn⟩ := hz rfl
    have hL : ¬ s.Lost p := by
      rintro ⟨o3, h3, h4⟩
      rw [ho] at h3
      cases h3
      rw [hlo] at h4
      cases h4
    obtain ⟨o2, h2, -, hfr, htl, how, hk⟩ :=
      I.ending (tails_pos_of_ends ht (p := p) (by simp [ends])) hL
    rw [ho] at h2
    cases h2
    have hlk := lockers_le s p
    have hlk0 : s.lockers p = 0 := by omega
    have hop := hk.open_ hlk0
    have hum := hk.unmade hlk0
    refine ⟨s.upd p { o with alive := true, outs := o.outs - 1, lost := true } t none 1 ((t, .panic) :: s.log), ?_, ?_⟩
    · simp [Arc.step, M.bind_apply, Arc.give, Arc.done, ArcSys.upd, hg, Arc.lose, lose_objs ho]
    · refine I.next ht (p := p) (b := none) (o' := { o with alive := true, outs := o.outs - 1, lost := true }) rfl
        (fun q hq => upd_at_ne s _ _ _ _ hq) (upd_at s ho _ _ _ _) (by simp [ArcSys.upd]) ?_ ?_
        (by intro q hq; simp [holds, ends, locks, Ne.symm hq]) (by simp) ?_ ?_ (by simp)
        (Or.inr (I.alone_ends hL ht (by simp [ends]))) (Or.inl (by rw [ho]; rfl))
      · intro q hq
        simp [ArcSys.upd, List.count_append, Ne.symm hq]
      · intro h y hy _
        obtain ⟨hl, -⟩ := List.getElem?_eq_some_iff.1 hy
        simp only [ArcSys.upd]
        rw [List.getElem?_append_left hl]
        exact hy
      · intro _
        have h1 := upd_lockers s (p := p) (q := p) ht { o with alive := true, outs := o.outs - 1, lost := true } none 1
          ((t, .panic) :: s.log)
        simp [locks] at h1
        rw [h1, hlk0]
        exact ⟨hfr, by simp; omega, hop.2.2, by simp; omega, hop.2.1, rfl⟩
      · intro o2 _
        exact Or.inr ⟨how, rfl⟩
  have hz' : z = false := by simpa using hz'
  subst hz'
  have hL := hnz rfl
  have hpos : 1 ≤ s.own p := own_pos_of_holds ht (by simp [holds])
  obtain ⟨o, ho, hlo, ha, hfr, hou, hst, htl, hk⟩ := I.live hpos hL
  refine ⟨s.upd p o t none 1 ((t, .panic) :: s.log), ?_, ?_⟩
  · simp [Arc.step, M.bind_apply, Arc.give, Arc.done, Arc.lose, ArcSys.upd, set_same ho, hg]
  · refine I.work ht ho hlo _ _ _ _ (by simp [holds])
      (by intro q hq; simp [holds, ends, locks, Ne.symm hq]) hlo ?_ ?_ (Or.inl rfl)
    · intro x y z hx hy hz hle
      simp [holds, ends, locks] at hx hy hz
      have e1 : x = s.own p := by omega
      have e2 : y = s.tails p := by omega
      have e3 : z = s.lockers p := by omega
      rw [e1, e2, e3]
      exact hk.later
    · intro op' e; cases e

theorem step_mmA (I : ArcInv mx n s) (ch : ArcChoice α) {t : Nat} {p : Nat} {v x : α} {z : Bool}
    (ht : s.threads[t]? = some (some (.mmA p v x z))) (hL : ¬ s.Lost p) :
    ∃ s', Arc.step mx ch t (.mmA p v x z) s = .ok () s' ∧ ArcInv mx (n + 1) s' := by
  cases hg : ch.grant with
  | true => exact step_mmA_grant I ch ht hg
  | false => exact step_mmA_refuse I ch ht hL hg

theorem step_mm5 (I : ArcInv mx n s) (ch : ArcChoice α) {t : Nat} {p : Nat} {v : α} {q : Nat} {z : Bool}
    (ht : s.threads[t]? = some (some (.mm5 p v q z))) (hL : ¬ s.Lost p) :
    ∃ s', Arc.step mx ch t (.mm5 p v q z) s = .ok () s' ∧ ArcInv mx (n + 1) s' := by
  have hf := I.needs' ht hL
  obtain ⟨hpq, hnx, hz, hnz⟩ := hf
  cases z with
  | true =>
    have hL : ¬ s.Lost p := by
      obtain ⟨o2, h2, h3, -⟩ := hz rfl
      rintro ⟨o4, h4, h5⟩
      rw [h2] at h4
      cases h4
      rw [h3] at h5
      cases h5
    obtain ⟨o, ho, hlo, hfr, htl, how, hk⟩ := I.ending (tails_pos_of_ends ht (p := p) (by simp [ends])) hL
    obtain ⟨o2, h2, -, hw, ha, hou, hst⟩ := hz rfl
    rw [ho] at h2
    cases h2
    refine ⟨s.upd p { o with strong := Arc.lock mx } t (some (.held q)) 0 s.log, ?_, ?_⟩
    · simp [Arc.step, M.bind_apply, obj_ok ho hfr, Arc.put, Arc.goto, ArcSys.upd, hst, Arc.decr]
    · refine I.work ht ho hlo _ _ _ _ (by simp [ends])
        (by intro q' hq; simp [holds, ends, locks, Ne.symm hq]) hlo ?_ ?_ (Or.inl rfl)
      · intro x y z hx hy hz hle
        simp [holds, ends, locks, Ne.symm hpq] at hx hy hz
        obtain ⟨k1, k2, k3, k4, k5, k6, k7, k8, k9, k10, k11⟩ := hk
        constructor <;> grind
      · intro op' e
        cases e
        exact ⟨upd_own_ne' ht hnx.1 (Ne.symm hpq) (by simp [holds]), hnx.2.imp fun o h =>
          ⟨(upd_at_ne s _ _ _ _ (Ne.symm hpq)).trans h.1, h.2.1⟩⟩
  | false =>
    have hL := hnz rfl
    have hpos : 1 ≤ s.own p := own_pos_of_holds ht (by simp [holds])
    obtain ⟨o, ho, hlo, ha, hfr, hou, hst, htl, hk⟩ := I.live hpos hL
    have hnz : o.strong ≠ 0 := by omega
    by_cases h1 : o.strong = 1
    · refine ⟨s.upd p { o with strong := o.strong - 1 } t (some (.fin1 p (some (q, v)))) 0 s.log,
        ?_, ?_⟩
      · simp [Arc.step, M.bind_apply, obj_ok ho hfr, Arc.put, Arc.goto, ArcSys.upd, h1, Arc.decr]
      · refine I.work ht ho hlo _ _ _ _ (by simp [holds])
          (by intro q' hq; simp [holds, ends, locks, Ne.symm hq]) hlo ?_ ?_ (Or.inl rfl)
        · intro x y z hx hy hz hle
          simp [holds, ends, locks, Ne.symm hpq] at hx hy hz
          obtain ⟨k1, k2, k3, k4, k5, k6, k7, k8, k9, k10, k11⟩ := hk
          constructor <;> grind
        · intro op' e
          cases e
          exact ⟨⟨_, upd_at s ho _ _ _ _, hlo, ha, hou⟩, next_upd ht hnx (fun q' v' e =>
            ⟨by simp at e; rw [← e.1]; exact Ne.symm hpq, by
              simp at e; rw [← e.1]; simp [holds]⟩)⟩
    · refine ⟨s.upd p { o with strong := o.strong - 1 } t (some (.held q)) 0 s.log, ?_, ?_⟩
      · simp [Arc.step, M.bind_apply, obj_ok ho hfr, Arc.put, Arc.goto, ArcSys.upd, h1, Arc.decr, hnz]
      · refine I.work ht ho hlo _ _ _ _ (by simp [holds])
          (by intro q' hq; simp [holds, ends, locks, Ne.symm hq]) hlo ?_ ?_ (Or.inl rfl)
        · intro x y z hx hy hz hle
          simp [holds, ends, locks, Ne.symm hpq] at hx hy hz
          obtain ⟨k1, k2, k3, k4, k5, k6, k7, k8, k9, k10, k11⟩ := hk
          constructor <;> grind
        · intro op' e
          cases e
          exact ⟨upd_own_ne' ht hnx.1 (Ne.symm hpq) (by simp [holds]), hnx.2.imp fun o h =>
            ⟨(upd_at_ne s _ _ _ _ (Ne.symm hpq)).trans h.1, h.2.1⟩⟩

end ArcInv
end Lokky
