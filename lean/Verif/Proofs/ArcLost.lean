import Verif.Proofs.ArcStep

/-! Steps of threads at an object that `make_mut` has left with a handle that is not counted; and all steps
together. -/

namespace Lokky
variable {α : Type} {mx n : Nat} {s : ArcSys α}

open ArcOp ArcSys

set_option linter.unusedSimpArgs false

namespace ArcInv

theorem fresh_upd {p t : Nat} {a : Option (ArcOp α)} (ht : s.threads[t]? = some a) {o' : ArcObj α}
    {b : Option (ArcOp α)} {g : Nat} {log : List (Nat × ArcOut α)} {k : Option (Nat × α)}
    (h : s.Fresh k) (hp : ∀ q v, k = some (q, v) → q ≠ p ∧ on (holds q) a = on (holds q) b) :
    (s.upd p o' t b g log).Fresh k := by
  rcases k with _ | ⟨q, v⟩
  · trivial
  · obtain ⟨h1, h2⟩ := hp q v rfl
    exact ⟨upd_own_ne' ht h.1 h1 h2, At.congr h.2 (upd_at_ne s o' b g log h1)⟩

set_option hygiene false in
/-- The rest of a step: what the step is, then the invariant. -/
local macro "arc_lost" : tactic => `(tactic| (
  constructor
  · simp [Arc.step, M.bind_apply, obj_ok ho hk.freed, Arc.put, Arc.goto, Arc.give, Arc.done, ArcSys.upd,
      Arc.after, Arc.lose, set_same ho, *]
  · refine I.work_lost ht ho hlo _ _ _ _ (by intro q hq; simp [holds, ends, locks, Ne.symm hq])
      (by first | exact hlo | rfl) (by simp [locks]) ?_ ?_ rfl
    · intro hk
      obtain ⟨k1, k2, k3, k4, k5, k6⟩ := hk
      constructor <;> first | assumption | (simp; omega) | omega | (simp; done)
    · intro op' e
      cases e <;> first
        | exact Or.inr ⟨rfl, trivial⟩
        | exact Or.inr ⟨rfl, fresh_upd ht hF fun q v e => ⟨hne q v (e ▸ hF), by
            cases e; simp [holds]⟩⟩
        | exact Or.inl ⟨upd_own_ne' ht hF.1 (hne _ _ hF) (by simp [holds]),
            At.congr hF.2 (upd_at_ne s _ _ _ _ (hne _ _ hF))⟩
        | (left; simpa [ArcNeeds, ArcSys.upd] using hf)))

/-- A step at an object that is lost: it is as harmless as the others, or it is an access to
the value that is not there. -/
theorem step_lost (I : ArcInv mx n s) (hn : n < mx) (ch : ArcChoice α) {t : Nat} {op : ArcOp α}
    (ht : s.threads[t]? = some (some op)) (hL : s.Lost op.main) :
    (∃ s', Arc.step mx ch t op s = .ok () s' ∧ ArcInv mx (n + 1) s') ∨
      ∃ u, Arc.step mx ch t op s = .ub u := by
  obtain ⟨o, ho, hlo⟩ := id hL
  have hk := I.lost _ o ho hlo
  have hw : o.weak ≠ 0 := by
    have := hk.pos
    have := hk.made
    omega
  have hll : o.weak ≠ Arc.lock mx := by
    have := hk.weak
    unfold Arc.lock
    omega
  have hdata : o.alive = true ∧ Arc.data op.main s = .ok o.val s ∨
      Arc.data op.main s = .ub .uninit := by
    cases ha : o.alive
    · exact Or.inr (by simp [Arc.data, M.bind_apply, obj_ok ho hk.freed, ha])
    · exact Or.inl ⟨rfl, by simp [Arc.data, M.bind_apply, obj_ok ho hk.freed, ha]⟩
  have hloose : op.sens op.main = true → ArcLoose s op := fun h =>
    (I.lost_loose ht hL (Or.inl h)).2
  have hlk : op.locks op.main = false := by
    by_contra hc
    have : 1 ≤ s.lockers op.main := countP_pos_of (on (locks op.main)) ht (by simpa using hc)
    have := hk.lockers
    omega
  have hne : ∀ q (v : α), s.Fresh (some (q, v)) → q ≠ op.main := by
    rintro q v ⟨-, o2, h2, h3⟩ rfl
    rw [ho] at h2
    cases h2
    exact hw h3
  cases op with
  | clone h p =>
    left
    simp only [ArcOp.main] at ho hk hdata hloose hlk hL hne
    have hf : s.hands[h]? = some (some p) := by
      simpa [ArcFacts, ArcNeeds, ArcLoose] using I.op t _ ht
    by_cases hst : o.strong > mx
    · refine ⟨s.upd p { o with strong := Arc.incr mx o.strong } t none 0 ((t, .panic) :: s.log), ?_⟩
      arc_lost
    · refine ⟨s.upd p { o with strong := Arc.incr mx o.strong } t none 1 ((t, .unit) :: s.log), ?_⟩
      arc_lost
  | down h p =>
    left
    simp only [ArcOp.main] at ho hk hdata hloose hlk hL hne
    have hf : s.hands[h]? = some (some p) := by
      simpa [ArcFacts, ArcNeeds, ArcLoose] using I.op t _ ht
    refine ⟨s.upd p o t (some (.down1 h p o.weak)) 0 s.log, ?_⟩
    arc_lost
  | down1 h p v =>
    left
    simp only [ArcOp.main] at ho hk hdata hloose hlk hL hne
    have hf : s.hands[h]? = some (some p) := by
      simpa [ArcFacts, ArcNeeds, ArcLoose] using I.op t _ ht
    by_cases hv : v = Arc.lock mx
    · refine ⟨s.upd p o t (some (.down1 h p o.weak)) 0 s.log, ?_⟩
      arc_lost
    · by_cases hc : o.weak = v ∧ ch.fail = false
      · obtain ⟨rfl, hfl⟩ := hc
        refine ⟨s.upd p { o with weak := o.weak + 1, wk := o.wk + 1, made := o.made + 1 } t none 0
          ((t, .unit) :: s.log), ?_⟩
        arc_lost
      · refine ⟨s, ?_, I.later⟩
        simp [Arc.step, M.bind_apply, obj_ok ho hk.freed, hv]
        rw [if_neg hc]
        rfl
  | read h p =>
    simp only [ArcOp.main] at ho hk hdata hloose hlk hL hne
    rcases hdata with ⟨-, hd⟩ | hd
    · left
      refine ⟨s.upd p o t none 0 ((t, .val o.val) :: s.log), ?_⟩
      arc_lost
    · exact Or.inr ⟨.uninit, by simp [Arc.step, M.bind_apply, hd]⟩
  | count h p =>
    left
    simp only [ArcOp.main] at ho hk hdata hloose hlk hL hne
    refine ⟨s.upd p o t none 0 ((t, .nat o.strong) :: s.log), ?_⟩
    arc_lost
  | wcount h p =>
    left
    simp only [ArcOp.main] at ho hk hdata hloose hlk hL hne
    refine ⟨s.upd p o t none 0 ((t, .nat o.weak) :: s.log), ?_⟩
    arc_lost
  | get0 p =>
    left
    simp only [ArcOp.main] at ho hk hdata hloose hlk hL hne
    refine ⟨s.upd p o t none 1 ((t, .no) :: s.log), ?_⟩
    arc_lost
  | get1 p => simp [locks, ArcOp.main] at hlk
  | get2 p u => simp [locks, ArcOp.main] at hlk
  | held p => exact absurd (hloose (by simp [sens, ArcOp.main])) id
  | drop0 p =>
    left
    simp only [ArcOp.main] at ho hk hdata hloose hlk hL hne
    by_cases hst : o.strong = 1
    · refine ⟨s.upd p { o with strong := Arc.decr mx o.strong } t (some (.fin1 p none)) 0 s.log, ?_⟩
      arc_lost
    · refine ⟨s.upd p { o with strong := Arc.decr mx o.strong } t none 0 ((t, .unit) :: s.log), ?_⟩
      arc_lost
  | fin1 p k =>
    simp only [ArcOp.main] at ho hk hdata hloose hlk hL hne
    have hF : s.Fresh k := hloose (by simp [sens])
    rcases hdata with ⟨-, hd⟩ | hd
    · left
      refine ⟨s.upd p { o with alive := false, outs := o.outs + 1 } t (some (.fin2 p k)) 0 s.log, ?_⟩
      rcases k with _ | ⟨q, v⟩ <;> arc_lost
    · exact Or.inr ⟨.uninit, by simp [Arc.step, M.bind_apply, hd, obj_ok ho hk.freed]⟩
  | fin2 p k =>
    left
    simp only [ArcOp.main] at ho hk hdata hloose hlk hL hne
    have hF : s.Fresh k := hloose (by simp [sens])
    rcases k with _ | ⟨q, v⟩
    · refine ⟨s.upd p o t none 0 ((t, .unit) :: s.log), ?_⟩
      arc_lost
    · refine ⟨s.upd p o t (some (.held q)) 0 s.log, ?_⟩
      arc_lost
  | fin3 p k => exact absurd (hloose (by simp [sens, ArcOp.main])) id
  | unw0 p =>
    left
    simp only [ArcOp.main] at ho hk hdata hloose hlk hL hne
    by_cases hst : o.strong = 1
    · refine ⟨s.upd p { o with strong := 0 } t (some (.unw1 p)) 0 s.log, ?_⟩
      arc_lost
    · refine ⟨s.upd p o t none 1 ((t, .err) :: s.log), ?_⟩
      arc_lost
  | unw1 p =>
    simp only [ArcOp.main] at ho hk hdata hloose hlk hL hne
    rcases hdata with ⟨-, hd⟩ | hd
    · left
      refine ⟨s.upd p { o with alive := false, outs := o.outs + 1, won := o.won + 1 } t
        (some (.unw2 p o.val)) 0 s.log, ?_⟩
      arc_lost
    · exact Or.inr ⟨.uninit, by simp [Arc.step, M.bind_apply, hd, obj_ok ho hk.freed]⟩
  | unw2 p x =>
    left
    simp only [ArcOp.main] at ho hk hdata hloose hlk hL hne
    refine ⟨s.upd p o t none 0 ((t, .val x) :: s.log), ?_⟩
    arc_lost
  | unw3 p x => exact absurd (hloose (by simp [sens, ArcOp.main])) id
  | mm0 p v =>
    left
    simp only [ArcOp.main] at ho hk hdata hloose hlk hL hne
    refine ⟨s.upd p o t (some (.mm1 p v o.strong)) 0 s.log, ?_⟩
    arc_lost
  | mm1 p v k =>
    left
    simp only [ArcOp.main] at ho hk hdata hloose hlk hL hne
    by_cases h1 : k = 1
    · refine ⟨s.upd p o t (some (.mm2 p v o.weak)) 0 s.log, ?_⟩
      arc_lost
    · refine ⟨s.upd p o t (some (.mmC p v)) 0 s.log, ?_⟩
      arc_lost
  | mm2 p v w =>
    left
    simp only [ArcOp.main] at ho hk hdata hloose hlk hL hne
    by_cases hc : o.weak = w ∧ ch.fail = false
    · obtain ⟨rfl, hfl⟩ := hc
      have hi : Arc.incr mx o.weak = o.weak + 1 := by simp [Arc.incr, hll]
      refine ⟨s.upd p { o with weak := o.weak + 1 } t (some (.mm3 p v)) 0 s.log, ?_⟩
      arc_lost
    · refine ⟨s.upd p o t (some (.mm2 p v o.weak)) 0 s.log, ?_⟩
      arc_lost
  | mm3 p v =>
    left
    simp only [ArcOp.main] at ho hk hdata hloose hlk hL hne
    by_cases hc : o.strong = 1 ∧ ch.fail = false
    · refine ⟨s.upd p { o with strong := 0 } t (some (.mm4 p v)) 0 s.log, ?_⟩
      arc_lost
    · refine ⟨s.upd p o t (some (.mmC p v)) 0 s.log, ?_⟩
      arc_lost
  | mm4 p v =>
    simp only [ArcOp.main] at ho hk hdata hloose hlk hL hne
    rcases hdata with ⟨-, hd⟩ | hd
    · left
      refine ⟨s.upd p { o with alive := false, outs := o.outs + 1 } t (some (.mmA p v o.val true)) 0 s.log,
        ?_⟩
      arc_lost
    · exact Or.inr ⟨.uninit, by simp [Arc.step, M.bind_apply, hd, obj_ok ho hk.freed]⟩
  | mmC p v =>
    simp only [ArcOp.main] at ho hk hdata hloose hlk hL hne
    rcases hdata with ⟨-, hd⟩ | hd
    · left
      cases hb : ch.boom with
      | true =>
        refine ⟨s.upd p o t none 1 ((t, .panic) :: s.log), ?_⟩
        arc_lost
      | false =>
        refine ⟨s.upd p o t (some (.mmA p v o.val false)) 0 s.log, ?_⟩
        arc_lost
    · exact Or.inr ⟨.uninit, by simp [Arc.step, M.bind_apply, hd, obj_ok ho hk.freed]⟩
  | mmA p v x z =>
    left
    cases hg : ch.grant with
    | true => exact step_mmA_grant I ch ht hg
    | false =>
      simp only [ArcOp.main] at ho hk hdata hloose hlk hL hne
      cases z with
      | true =>
        refine ⟨s.upd p { o with alive := true, outs := o.outs - 1, lost := true } t none 1
          ((t, .panic) :: s.log), ?_⟩
        have hlose := lose_objs ho
        simp only [Arc.step, Arc.lose, hg]
        arc_lost
      | false =>
        refine ⟨s.upd p o t none 1 ((t, .panic) :: s.log), ?_⟩
        arc_lost
  | mm5 p v q z =>
    left
    have hF : s.Fresh (some (q, v)) := by
      rcases I.op t _ ht with h | h
      · exact ⟨h.2.1.1, h.2.1.2.imp fun o h => ⟨h.1, h.2.1⟩⟩
      · exact h.2
    simp only [ArcOp.main] at ho hk hdata hloose hlk hL hne
    by_cases hst : o.strong = 1
    · refine ⟨s.upd p { o with strong := Arc.decr mx o.strong } t (some (.fin1 p (some (q, v)))) 0 s.log,
        ?_⟩
      arc_lost
    · refine ⟨s.upd p { o with strong := Arc.decr mx o.strong } t (some (.held q)) 0 s.log, ?_⟩
      arc_lost

/-- Every step of a thread at an object that is not lost. -/
theorem step_good (I : ArcInv mx n s) (hn : n < mx) (ch : ArcChoice α) {t : Nat} {op : ArcOp α}
    (ht : s.threads[t]? = some (some op)) (hL : ¬ s.Lost op.main) :
    ∃ s', Arc.step mx ch t op s = .ok () s' ∧ ArcInv mx (n + 1) s' := by
  cases op with
  | clone => exact step_clone I hn ch ht hL
  | down => exact step_down I ch ht hL
  | down1 => exact step_down1 I hn ch ht hL
  | read => exact step_read I ch ht hL
  | count => exact step_count I ch ht hL
  | wcount => exact step_wcount I ch ht hL
  | get0 => exact step_get0 I hn ch ht hL
  | get1 => exact step_get1 I ch ht hL
  | get2 => exact step_get2 I ch ht hL
  | held => exact step_held I ch ht hL
  | drop0 => exact step_drop0 I ch ht hL
  | fin1 => exact step_fin1 I ch ht hL
  | fin2 => exact step_fin2 I ch ht hL
  | fin3 => exact step_fin3 I ch ht hL
  | unw0 => exact step_unw0 I ch ht hL
  | unw1 => exact step_unw1 I ch ht hL
  | unw2 => exact step_unw2 I ch ht hL
  | unw3 => exact step_unw3 I ch ht hL
  | mm0 => exact step_mm0 I ch ht hL
  | mm1 => exact step_mm1 I ch ht hL
  | mm2 => exact step_mm2 I hn ch ht hL
  | mm3 => exact step_mm3 I ch ht hL
  | mm4 => exact step_mm4 I ch ht hL
  | mmC => exact step_mmC I ch ht hL
  | mmA => exact step_mmA I ch ht hL
  | mm5 => exact step_mm5 I ch ht hL

/-- Every step of a thread. -/
theorem run (I : ArcInv mx n s) (hn : n < mx) (ch : ArcChoice α) {t : Nat} {op : ArcOp α}
    (ht : s.threads[t]? = some (some op)) :
    (∃ s', Arc.step mx ch t op s = .ok () s' ∧ ArcInv mx (n + 1) s') ∨
      s.Lost op.main ∧ ∃ u, Arc.step mx ch t op s = .ub u := by
  by_cases hL : s.Lost op.main
  · exact (step_lost I hn ch ht hL).imp id fun h => ⟨hL, h⟩
  · exact Or.inl (step_good I hn ch ht hL)

end ArcInv
end Lokky
