import Verif.Model.Arc
import Mathlib.Tactic.Tauto
import Mathlib.Tactic.ByContra

/-! The invariant of the `Arc` system. -/

namespace Lokky
variable {α : Type}

/-! ## Which objects a thread is busy with -/

namespace ArcOp

/-- The thread owns a handle of object `q`, counted in `strong`. -/
def holds (q : Nat) : ArcOp α → Bool
  | .get0 p | .get1 p | .get2 p _ | .held p | .drop0 p | .unw0 p | .mm0 p _ | .mm1 p _ _
  | .mm2 p _ _ | .mm3 p _ | .mmC p _ => p == q
  | .fin1 _ (some (r, _)) | .fin2 _ (some (r, _)) | .fin3 _ (some (r, _)) => r == q
  | .mmA p _ _ z => !z && p == q
  | .mm5 p _ r z => (!z && p == q) || r == q
  | _ => false

/-- The thread has taken the last handle of object `q` out of the count. -/
def ends (q : Nat) : ArcOp α → Bool
  | .fin1 p _ | .fin2 p _ | .fin3 p _ | .unw1 p | .unw2 p _ | .unw3 p _ | .mm4 p _ => p == q
  | .mmA p _ _ z => z && p == q
  | .mm5 p _ _ z => z && p == q
  | _ => false

/-- The thread has locked the weak count of object `q`. -/
def locks (q : Nat) : ArcOp α → Bool
  | .get1 p | .get2 p _ => p == q
  | _ => false

/-- The thread relies on no other thread coming near object `q`. -/
def sens (q : Nat) : ArcOp α → Bool
  | .get2 p u => u && p == q
  | .held p | .mm2 p _ _ | .mm3 p _ => p == q
  | .mm1 p _ s => s == 1 && p == q
  | .fin1 p k | .fin2 p k | .fin3 p k => p == q || (match k with | some (r, _) => r == q | none => false)
  | .unw1 p | .unw2 p _ | .unw3 p _ | .mm4 p _ => p == q
  | .mmA p _ _ z => z && p == q
  | .mm5 p _ r z => (z && p == q) || r == q
  | _ => false

/-- The thread relies on the value of object `q`. -/
def vals (q : Nat) : ArcOp α → Bool
  | .mm0 p _ | .mm1 p _ _ | .mmC p _ => p == q
  | _ => false

/-- The thread borrows handle `h` of object `q`. -/
def borrowsAt (h q : Nat) : ArcOp α → Bool
  | .clone h' p | .down h' p | .down1 h' p _ | .read h' p | .count h' p | .wcount h' p =>
    h' == h && p == q
  | _ => false

theorem borrowsAt_borrows {op : ArcOp α} {h q : Nat} (e : op.borrowsAt h q = true) :
    op.borrows h = true := by
  cases op <;> simp [borrowsAt, borrows] at e ⊢ <;> exact e.1

theorem sens_busy {op : ArcOp α} {q : Nat} (e : op.sens q = true) :
    op.holds q = true ∨ op.ends q = true := by
  cases op with
  | fin1 p k => cases k with
    | none => simp_all [sens, holds, ends]
    | some r => simp [sens, holds, ends] at e ⊢; exact e.symm
  | fin2 p k => cases k with
    | none => simp_all [sens, holds, ends]
    | some r => simp [sens, holds, ends] at e ⊢; exact e.symm
  | fin3 p k => cases k with
    | none => simp_all [sens, holds, ends]
    | some r => simp [sens, holds, ends] at e ⊢; exact e.symm
  | mm5 p v r z => simp [sens, holds, ends] at e ⊢; tauto
  | _ => simp_all [sens, holds, ends]

theorem vals_holds {op : ArcOp α} {q : Nat} (e : op.vals q = true) : op.holds q = true := by
  cases op <;> simp_all [vals, holds]

theorem locks_holds {op : ArcOp α} {q : Nat} (e : op.locks q = true) : op.holds q = true := by
  cases op <;> simp_all [locks, holds]

/-- A test on what a thread does; an idle thread fails it. -/
def on (f : ArcOp α → Bool) : Option (ArcOp α) → Bool
  | some op => f op
  | none => false

@[simp] theorem on_some (f : ArcOp α → Bool) (op : ArcOp α) : on f (some op) = f op := rfl
@[simp] theorem on_none (f : ArcOp α → Bool) : on f none = false := rfl

end ArcOp

open ArcOp

/-! ## Counting -/

theorem countP_set_add {β : Type} (f : β → Bool) {l : List β} {t : Nat} {a : β}
    (h : l[t]? = some a) (b : β) :
    (l.set t b).countP f + (f a).toNat = l.countP f + (f b).toNat := by
  induction l generalizing t with
  | nil => simp at h
  | cons x l ih =>
    cases t with
    | zero =>
      simp at h
      subst h
      simp [List.countP_cons]
      cases f x <;> cases f b <;> simp
    | succ t =>
      simp at h
      have := ih h
      simp [List.countP_cons]
      omega

theorem countP_pos_of {β : Type} (f : β → Bool) {l : List β} {t : Nat} {a : β}
    (h : l[t]? = some a) (e : f a = true) : 1 ≤ l.countP f :=
  List.countP_pos_iff.2 ⟨a, List.mem_of_getElem? h, e⟩

theorem countP_two {β : Type} (f : Option β → Bool) (hn : f none = false) {l : List (Option β)}
    {t t' : Nat} {a b : Option β} (h : l[t]? = some a) (h' : l[t']? = some b) (ne : t' ≠ t)
    (e : f a = true) (e' : f b = true) : 2 ≤ l.countP f := by
  have h1 := countP_set_add f h none
  have h2 : 1 ≤ (l.set t none).countP f :=
    countP_pos_of f (t := t') (by rw [List.getElem?_set_ne (Ne.symm ne)]; exact h') e'
  simp [e, hn] at h1
  omega

namespace ArcSys
variable (s : ArcSys α)

/-- The handles of object `p`: those of the client, and those that threads are working on. -/
def own (p : Nat) : Nat := s.hands.count (some p) + s.threads.countP (on (holds p))

/-- The threads that are bringing object `p` to an end. -/
def tails (p : Nat) : Nat := s.threads.countP (on (ends p))

/-- The threads that have the weak count of object `p` locked. -/
def lockers (p : Nat) : Nat := s.threads.countP (on (locks p))

/-- Object `p` exists and is like this. -/
def At (p : Nat) (P : ArcObj α → Prop) : Prop := ∃ o : ArcObj α, s.objs[p]? = some o ∧ P o

/-- There is one handle of `p` and no `Weak`. -/
def Sole (p : Nat) : Prop := s.own p = 1 ∧ s.At p fun o => o.weak = 0

theorem lockers_le (p : Nat) : s.lockers p ≤ s.own p := by
  have : s.threads.countP (on (locks p)) ≤ s.threads.countP (on (holds p)) := by
    apply List.countP_mono_left
    intro x _ h
    cases x with
    | none => simp at h
    | some op => exact locks_holds h
  unfold lockers own; omega

end ArcSys

open ArcSys

/-- The new object `make_mut` has ready, with the old value. -/
def ArcSys.Next (s : ArcSys α) : Option (Nat × α) → Prop
  | some (q, v) => s.own q = 1 ∧ s.At q fun o => o.weak = 0 ∧ o.val = v
  | none => True

/-- Object `p` was left with a handle that is not counted. -/
def ArcSys.Lost (s : ArcSys α) (p : Nat) : Prop := s.At p fun o => o.lost = true

/-- What a thread relies on. -/
def ArcNeeds (s : ArcSys α) : ArcOp α → Prop
  | .clone h p | .down h p | .down1 h p _ | .read h p | .count h p | .wcount h p =>
    s.hands[h]? = some (some p)
  | .get2 p u => u = true → s.own p = 1
  | .held p => s.Sole p
  | .fin1 p k => s.At p (fun o => o.lost = false ∧ o.alive = true ∧ o.outs = 0) ∧ s.Next k
  | .fin2 p k => s.At p (fun o => o.lost = false ∧ o.alive = false ∧ o.outs = 1) ∧ s.Next k
  | .fin3 p k => s.At p (fun o => o.lost = false ∧ o.alive = false ∧ o.outs = 1 ∧ o.weak = 0) ∧
    s.Next k
  | .unw1 p => s.At p (fun o => o.lost = false ∧ o.alive = true ∧ o.outs = 0)
  | .unw2 p _ => s.At p (fun o => o.lost = false ∧ o.alive = false ∧ o.outs = 1)
  | .unw3 p _ => s.At p (fun o => o.lost = false ∧ o.alive = false ∧ o.outs = 1 ∧ o.weak = 0)
  | .mm0 p v => (s.objs[p]?).map (·.val) = some v
  | .mm1 p v k => (s.objs[p]?).map (·.val) = some v ∧ (k = 1 → s.own p = 1)
  | .mm2 p v _ => s.At p (fun o => o.val = v ∧ o.made ≠ 0) ∧ s.own p = 1
  | .mm3 p v => s.At p (fun o => o.val = v ∧ o.weak ≠ 0) ∧ s.own p = 1
  | .mm4 p v => s.At p (fun o => o.lost = false ∧ o.val = v ∧ o.weak ≠ 0 ∧ o.alive = true ∧
    o.outs = 0 ∧ o.strong = 0 ∧ o.won = 0)
  | .mmC p v => (s.objs[p]?).map (·.val) = some v
  | .mmA p v x z => x = v ∧ (z = true → s.At p (fun o => o.lost = false ∧ o.weak ≠ 0 ∧
    o.alive = false ∧ o.outs = 1 ∧ o.strong = 0 ∧ o.won = 0)) ∧ (z = false → ¬ s.Lost p)
  | .mm5 p v q z => p ≠ q ∧ s.Next (some (q, v)) ∧ (z = true → s.At p (fun o => o.lost = false ∧
    o.weak ≠ 0 ∧ o.alive = false ∧ o.outs = 1 ∧ o.strong = 0)) ∧ (z = false → ¬ s.Lost p)
  | .get0 _ | .get1 _ | .drop0 _ | .unw0 _ => True

/-- The object a thread works on. -/
def ArcOp.main : ArcOp α → Nat
  | .clone _ p | .down _ p | .down1 _ p _ | .read _ p | .count _ p | .wcount _ p => p
  | .get0 p | .get1 p | .get2 p _ | .held p | .drop0 p | .unw0 p | .unw1 p | .unw2 p _ | .unw3 p _
  | .mm0 p _ | .mm1 p _ _ | .mm2 p _ _ | .mm3 p _ | .mm4 p _ | .mmC p _ | .mmA p _ _ _ => p
  | .fin1 p _ | .fin2 p _ | .fin3 p _ => p
  | .mm5 p _ _ _ => p

/-- There is one handle of `q`, the new object of `make_mut`. -/
def ArcSys.Fresh (s : ArcSys α) : Option (Nat × α) → Prop
  | some (q, _) => s.Sole q
  | none => True

/-- What a thread relies on at an object that is lost. -/
def ArcLoose (s : ArcSys α) : ArcOp α → Prop
  | .get0 _ | .drop0 _ | .unw0 _ | .unw1 _ | .unw2 _ _ | .mm0 _ _ | .mm1 _ _ _ | .mm2 _ _ _
  | .mm3 _ _ | .mm4 _ _ | .mmC _ _ | .mmA _ _ _ _ => True
  | .fin1 _ k | .fin2 _ k => s.Fresh k
  | .mm5 _ v q _ => s.Fresh (some (q, v))
  | _ => False

/-- What a thread relies on, and what if the object is lost. -/
def ArcFacts (s : ArcSys α) (op : ArcOp α) : Prop :=
  ArcNeeds s op ∨ s.Lost op.main ∧ ArcLoose s op

/-- What holds of an object after `n` steps if it is lost. -/
structure ArcLostOk (n lockers : Nat) (o : ArcObj α) : Prop where
  freed : o.freed = false
  weak : o.weak ≤ n
  made : o.made ≤ o.weak
  pos : 1 ≤ o.made
  wk : o.wk ≤ o.made
  lockers : lockers = 0

/-- What holds of an object after `n` steps, where `own` handles, `tails` threads bringing it to an end,
and `lockers` threads locking it. -/
structure ArcObjOk (mx n own tails lockers : Nat) (o : ArcObj α) : Prop where
  live : 1 ≤ own → o.alive = true ∧ o.freed = false ∧ o.outs = 0 ∧ o.strong = own ∧ tails = 0
  ending : tails = 1 → o.freed = false
  gone : own = 0 → tails = 0 → o.alive = false ∧ o.outs = 1 ∧ (o.freed = false → o.weak ≠ 0)
  single : tails ≤ 1
  freed : o.freed = true → o.weak = 0 ∧ o.wk = 0
  oneLock : lockers ≤ 1
  open_ : lockers = 0 → o.weak ≤ n ∧ o.wk ≤ o.made ∧ o.made ≤ o.weak
  locked : lockers = 1 → o.weak = Arc.lock mx ∧ o.wk = 0 ∧ o.made = 0
  few : own ≤ n
  unmade : lockers = 0 → o.made = 0 → o.weak = 0
  wins : o.won ≤ o.outs

/-- What holds of object `p` after `n` steps. -/
abbrev ArcSys.Ok (s : ArcSys α) (mx n : Nat) (p : Nat) (o : ArcObj α) : Prop :=
  ArcObjOk mx n (s.own p) (s.tails p) (s.lockers p) o

/-- The invariant. -/
structure ArcInv (mx n : Nat) (s : ArcSys α) : Prop where
  obj : ∀ (p : Nat) (o : ArcObj α), s.objs[p]? = some o → o.lost = false → s.Ok mx n p o
  lost : ∀ (p : Nat) (o : ArcObj α), s.objs[p]? = some o → o.lost = true → ArcLostOk n (s.lockers p) o
  op : ∀ (t : Nat) (op : ArcOp α), s.threads[t]? = some (some op) → ArcFacts s op
  beyond : ∀ p : Nat, s.objs.length ≤ p → s.own p = 0 ∧ s.tails p = 0

namespace ArcInv
variable {mx n : Nat} {s : ArcSys α}

theorem own_pos_of_holds {t : Nat} {op : ArcOp α} {p : Nat} (ht : s.threads[t]? = some (some op))
    (e : op.holds p = true) : 1 ≤ s.own p := by
  have := countP_pos_of (on (holds p)) ht e
  unfold own; omega

theorem own_pos_of_hand {h p : Nat} (hh : s.hands[h]? = some (some p)) : 1 ≤ s.own p := by
  have : 1 ≤ s.hands.count (some p) := List.count_pos_iff.2 (List.mem_of_getElem? hh)
  unfold own; omega

theorem tails_pos_of_ends {t : Nat} {op : ArcOp α} {p : Nat} (ht : s.threads[t]? = some (some op))
    (e : op.ends p = true) : 1 ≤ s.tails p := countP_pos_of (on (ends p)) ht e

theorem exists_obj (I : ArcInv mx n s) {p : Nat} (h : 1 ≤ s.own p ∨ 1 ≤ s.tails p) :
    ∃ o : ArcObj α, s.objs[p]? = some o := by
  have hl : p < s.objs.length := by
    by_contra hc
    have := I.beyond p (by omega)
    omega
  exact ⟨s.objs[p], List.getElem?_eq_getElem hl⟩

theorem not_lost {p : Nat} {o : ArcObj α} (h : ¬ s.Lost p) (ho : s.objs[p]? = some o) :
    o.lost = false := by
  by_contra hc
  exact h ⟨o, ho, by simpa using hc⟩

/-- A living object. -/
theorem live (I : ArcInv mx n s) {p : Nat} (h : 1 ≤ s.own p) (hn : ¬ s.Lost p) :
    ∃ o : ArcObj α, s.objs[p]? = some o ∧ o.lost = false ∧ o.alive = true ∧ o.freed = false ∧
      o.outs = 0 ∧ o.strong = s.own p ∧ s.tails p = 0 ∧ s.Ok mx n p o := by
  obtain ⟨o, ho⟩ := I.exists_obj (Or.inl h)
  have hk := I.obj p o ho (not_lost hn ho)
  obtain ⟨h1, h2, h3, h4, h5⟩ := hk.live h
  exact ⟨o, ho, not_lost hn ho, h1, h2, h3, h4, h5, hk⟩

/-- An object that comes to its end. -/
theorem ending (I : ArcInv mx n s) {p : Nat} (h : 1 ≤ s.tails p) (hn : ¬ s.Lost p) :
    ∃ o : ArcObj α, s.objs[p]? = some o ∧ o.lost = false ∧ o.freed = false ∧ s.tails p = 1 ∧
      s.own p = 0 ∧ s.Ok mx n p o := by
  obtain ⟨o, ho⟩ := I.exists_obj (Or.inr h)
  have hk := I.obj p o ho (not_lost hn ho)
  have h1 := hk.single
  refine ⟨o, ho, not_lost hn ho, hk.ending (by omega), by omega, ?_, hk⟩
  by_contra hc
  have := (hk.live (by omega)).2.2.2.2
  omega

/-- What is relied on by whoever relies on something at an object that is lost. -/
theorem lost_loose (I : ArcInv mx n s) {t : Nat} {op : ArcOp α} {p : Nat}
    (ht : s.threads[t]? = some (some op)) (hl : s.Lost p) (h : op.sens p = true ∨ op.vals p = true) :
    op.main = p ∧ ArcLoose s op := by
  obtain ⟨o, ho, hlo⟩ := hl
  have hk := I.lost p o ho hlo
  have hw : ¬ s.At p fun o => o.weak = 0 := by
    rintro ⟨o2, h2, h3⟩
    rw [ho] at h2
    cases h2
    have := hk.pos
    have := hk.made
    omega
  have hnx : ∀ k v, k = some (p, v) → ¬ s.Next k := by
    rintro k v rfl ⟨-, o2, h2, h3, -⟩
    exact hw ⟨o2, h2, h3⟩
  have hnl : ∀ P : ArcObj α → Prop, ¬ s.At p fun o => o.lost = false ∧ P o := by
    rintro P ⟨o2, h2, h3, -⟩
    rw [ho] at h2
    cases h2
    rw [hlo] at h3
    cases h3
  rcases I.op t op ht with hf | ⟨hm, hp⟩
  · cases op with
    | get2 r u =>
      simp [sens, vals] at h
      obtain ⟨-, rfl⟩ := h
      have : 1 ≤ s.lockers r := countP_pos_of (on (locks r)) ht (by simp [locks])
      have := hk.lockers
      omega
    | held r =>
      simp [sens, vals] at h
      subst h
      exact absurd hf.2 hw
    | fin1 r k =>
      rcases k with _ | ⟨q, v⟩
      · simp [sens, vals] at h
        subst h
        exact absurd hf.1 (hnl _)
      · simp [sens, vals] at h
        rcases h with rfl | rfl
        · exact absurd hf.1 (hnl _)
        · exact absurd hf.2 (hnx _ _ rfl)
    | fin2 r k =>
      rcases k with _ | ⟨q, v⟩
      · simp [sens, vals] at h
        subst h
        exact absurd hf.1 (hnl _)
      · simp [sens, vals] at h
        rcases h with rfl | rfl
        · exact absurd hf.1 (hnl _)
        · exact absurd hf.2 (hnx _ _ rfl)
    | fin3 r k =>
      rcases k with _ | ⟨q, v⟩
      · simp [sens, vals] at h
        subst h
        exact absurd hf.1 (hnl _)
      · simp [sens, vals] at h
        rcases h with rfl | rfl
        · exact absurd hf.1 (hnl _)
        · exact absurd hf.2 (hnx _ _ rfl)
    | unw2 r x =>
      simp [sens, vals] at h
      subst h
      exact absurd hf (hnl _)
    | unw3 r x =>
      simp [sens, vals] at h
      subst h
      exact absurd hf (hnl _)
    | mmA r v x z =>
      simp [sens, vals] at h
      obtain ⟨rfl, rfl⟩ := h
      exact absurd (hf.2.1 rfl) (hnl _)
    | mm5 r v q z =>
      simp [sens, vals] at h
      rcases h with ⟨rfl, rfl⟩ | rfl
      · exact absurd (hf.2.2.1 rfl) (hnl _)
      · exact absurd hf.2.1 (hnx _ _ rfl)
    | mm1 r v k =>
      simp [sens, vals] at h
      exact ⟨h.elim And.right id, trivial⟩
    | _ => simp_all [sens, vals, ArcOp.main, ArcLoose]
  · refine ⟨?_, hp⟩
    have hfr : ∀ k v, k = some (p, v) → ¬ s.Fresh k := by
      rintro k v rfl ⟨-, h⟩
      exact hw h
    cases op with
    | fin1 r k =>
      rcases k with _ | ⟨q, v⟩
      · simpa [sens, vals, ArcOp.main] using h
      · simp [sens, vals] at h
        rcases h with rfl | rfl
        · rfl
        · exact absurd hp (hfr _ v rfl)
    | fin2 r k =>
      rcases k with _ | ⟨q, v⟩
      · simpa [sens, vals, ArcOp.main] using h
      · simp [sens, vals] at h
        rcases h with rfl | rfl
        · rfl
        · exact absurd hp (hfr _ v rfl)
    | fin3 r k => exact absurd hp id
    | mm5 r v q z =>
      simp [sens, vals] at h
      rcases h with ⟨-, rfl⟩ | rfl
      · rfl
      · exact absurd hp (hfr _ v rfl)
    | mm1 r v k =>
      simp [sens, vals] at h
      exact h.elim And.right id
    | _ => simp_all [sens, vals, ArcOp.main, ArcLoose]

theorem sens_own {op : ArcOp α} {p : Nat} (hf : ArcNeeds s op) (e : op.sens p = true)
    (e' : op.holds p = true) (e'' : op.ends p = false) : s.own p = 1 := by
  cases op with
  | fin1 r k =>
    rcases k with _ | ⟨x, y⟩ <;> simp_all [sens, holds, ends, ArcNeeds, ArcSys.Next]
  | fin2 r k =>
    rcases k with _ | ⟨x, y⟩ <;> simp_all [sens, holds, ends, ArcNeeds, ArcSys.Next]
  | fin3 r k =>
    rcases k with _ | ⟨x, y⟩ <;> simp_all [sens, holds, ends, ArcNeeds, ArcSys.Next]
  | mm5 r v x z =>
    simp [sens, holds, ends, ArcNeeds, ArcSys.Next] at *
    rcases e with ⟨a, b⟩ | b
    · exact absurd b (e'' a)
    · rw [← b]; exact hf.2.1.1
  | _ => simp_all [sens, holds, ends, ArcNeeds, ArcSys.Sole]

/-- Whoever relies on being alone at an object that is not lost is. -/
theorem sens_one (I : ArcInv mx n s) {t p : Nat} {op : ArcOp α}
    (ht : s.threads[t]? = some (some op)) (hn : ¬ s.Lost p) (e : op.sens p = true)
    (e' : op.holds p = true) (e'' : op.ends p = false) : s.own p = 1 := by
  rcases I.op t op ht with h | ⟨h, hp⟩
  · exact sens_own h e e' e''
  · by_cases hm : op.main = p
    · rw [hm] at h
      exact absurd h hn
    · cases op with
      | fin1 r k =>
        rcases k with _ | ⟨q, v⟩
        · simp [sens] at e
          exact absurd e hm
        · simp [holds] at e'
          subst e'
          exact hp.1
      | fin2 r k =>
        rcases k with _ | ⟨q, v⟩
        · simp [sens] at e
          exact absurd e hm
        · simp [holds] at e'
          subst e'
          exact hp.1
      | mm5 r v q z =>
        simp [sens] at e
        rcases e with ⟨-, rfl⟩ | rfl
        · exact absurd rfl hm
        · exact hp.1
      | _ => simp_all [sens, ArcOp.main, ArcLoose]

/-- Nobody else relies on being alone at an object that somebody is at. -/
theorem alone_holds (I : ArcInv mx n s) {t p : Nat} {op : ArcOp α} (hn : ¬ s.Lost p)
    (ht : s.threads[t]? = some (some op)) (e : op.holds p = true) (t' : Nat) (op' : ArcOp α)
    (ne : t' ≠ t) (ht' : s.threads[t']? = some (some op')) : op'.sens p = false := by
  by_contra hc
  have hc : op'.sens p = true := by simpa using hc
  have h1 := own_pos_of_holds ht e
  obtain ⟨o, -, -, -, -, -, -, h2, -⟩ := I.live h1 hn
  have h3 : op'.ends p = false := by
    by_contra hd
    have := tails_pos_of_ends ht' (by simpa using hd)
    omega
  rcases sens_busy hc with h | h
  · have h4 := I.sens_one ht' hn hc h h3
    have h5 : 2 ≤ s.threads.countP (on (holds p)) := countP_two _ rfl ht ht' ne e h
    unfold own at h4
    omega
  · rw [h] at h3; cases h3

theorem alone_hand (I : ArcInv mx n s) {h p : Nat} (hn : ¬ s.Lost p)
    (hh : s.hands[h]? = some (some p)) (t' : Nat)
    (op' : ArcOp α) (ht' : s.threads[t']? = some (some op')) : op'.sens p = false := by
  by_contra hc
  have hc : op'.sens p = true := by simpa using hc
  have h1 := own_pos_of_hand hh
  obtain ⟨o, -, -, -, -, -, -, h2, -⟩ := I.live h1 hn
  have h3 : op'.ends p = false := by
    by_contra hd
    have := tails_pos_of_ends ht' (by simpa using hd)
    omega
  rcases sens_busy hc with h | h
  · have h4 := I.sens_one ht' hn hc h h3
    have h5 : 1 ≤ s.threads.countP (on (holds p)) := countP_pos_of _ ht' h
    have : 1 ≤ s.hands.count (some p) := List.count_pos_iff.2 (List.mem_of_getElem? hh)
    unfold own at h4
    omega
  · rw [h] at h3; cases h3

theorem alone_ends (I : ArcInv mx n s) {t p : Nat} {op : ArcOp α} (hn : ¬ s.Lost p)
    (ht : s.threads[t]? = some (some op)) (e : op.ends p = true) (t' : Nat) (op' : ArcOp α)
    (ne : t' ≠ t) (ht' : s.threads[t']? = some (some op')) : op'.sens p = false := by
  by_contra hc
  have hc : op'.sens p = true := by simpa using hc
  obtain ⟨o, -, -, -, h1, h2, -⟩ := I.ending (tails_pos_of_ends ht e) hn
  rcases sens_busy hc with h | h
  · have := own_pos_of_holds ht' h
    omega
  · have h5 : 2 ≤ s.threads.countP (on (ends p)) := countP_two _ rfl ht ht' ne e h
    unfold ArcSys.tails at h1
    omega

theorem At.congr {s' : ArcSys α} {p : Nat} {P : ArcObj α → Prop} (h : s.At p P)
    (e : s'.objs[p]? = s.objs[p]?) : s'.At p P := by
  obtain ⟨o, ho, hP⟩ := h
  exact ⟨o, by rw [e]; exact ho, hP⟩

/-- What a thread relies on stays so if the objects it is sensitive about are left alone. -/
theorem needs_frame {s' : ArcSys α} {op : ArcOp α} (hf : ArcNeeds s op)
    (hs : ∀ q, op.sens q = true → s'.own q = s.own q ∧ s'.objs[q]? = s.objs[q]?)
    (hv : ∀ q, op.vals q = true → (s'.objs[q]?).map (·.val) = (s.objs[q]?).map (·.val))
    (hh : ∀ h q, op.borrowsAt h q = true → s.hands[h]? = some (some q) →
      s'.hands[h]? = some (some q))
    (hl : ∀ q, op.holds q = true → ¬ s.Lost q → ¬ s'.Lost q) : ArcNeeds s' op := by
  have hn : ∀ k : Option (Nat × α), s.Next k →
      (∀ q v, k = some (q, v) → s'.own q = s.own q ∧ s'.objs[q]? = s.objs[q]?) → s'.Next k := by
    intro k hk hq
    rcases k with _ | ⟨q, v⟩
    · trivial
    · have := hq q v rfl
      exact ⟨this.1.trans hk.1, At.congr hk.2 this.2⟩
  cases op with
  | clone h p => exact hh h p (by simp [borrowsAt]) hf
  | down h p => exact hh h p (by simp [borrowsAt]) hf
  | down1 h p v => exact hh h p (by simp [borrowsAt]) hf
  | read h p => exact hh h p (by simp [borrowsAt]) hf
  | count h p => exact hh h p (by simp [borrowsAt]) hf
  | wcount h p => exact hh h p (by simp [borrowsAt]) hf
  | get0 p => trivial
  | get1 p => trivial
  | get2 p u =>
    intro hu
    have := hs p (by simp [sens, hu])
    exact this.1.trans (hf hu)
  | held p =>
    have := hs p (by simp [sens])
    exact ⟨this.1.trans hf.1, At.congr hf.2 this.2⟩
  | drop0 p => trivial
  | fin1 p k =>
    exact ⟨At.congr hf.1 (hs p (by simp [sens])).2, hn k hf.2 (fun q v e => hs q (by simp [sens, e]))⟩
  | fin2 p k =>
    exact ⟨At.congr hf.1 (hs p (by simp [sens])).2, hn k hf.2 (fun q v e => hs q (by simp [sens, e]))⟩
  | fin3 p k =>
    exact ⟨At.congr hf.1 (hs p (by simp [sens])).2, hn k hf.2 (fun q v e => hs q (by simp [sens, e]))⟩
  | unw0 p => trivial
  | unw1 p => exact At.congr hf (hs p (by simp [sens])).2
  | unw2 p x => exact At.congr hf (hs p (by simp [sens])).2
  | unw3 p x => exact At.congr hf (hs p (by simp [sens])).2
  | mm0 p v => exact (hv p (by simp [vals])).trans hf
  | mm1 p v k =>
    refine ⟨(hv p (by simp [vals])).trans hf.1, fun hk => ?_⟩
    exact (hs p (by simp [sens, hk])).1.trans (hf.2 hk)
  | mm2 p v w =>
    have := hs p (by simp [sens])
    exact ⟨At.congr hf.1 this.2, this.1.trans hf.2⟩
  | mm3 p v =>
    have := hs p (by simp [sens])
    exact ⟨At.congr hf.1 this.2, this.1.trans hf.2⟩
  | mm4 p v => exact At.congr hf (hs p (by simp [sens])).2
  | mmC p v => exact (hv p (by simp [vals])).trans hf
  | mmA p v x z =>
    exact ⟨hf.1, fun hz => At.congr (hf.2.1 hz) (hs p (by simp [sens, hz])).2,
      fun hz => hl p (by simp [holds, hz]) (hf.2.2 hz)⟩
  | mm5 p v q z =>
    refine ⟨hf.1, hn _ hf.2.1 ?_, fun hz => At.congr (hf.2.2.1 hz) (hs p (by simp [sens, hz])).2,
      fun hz => hl p (by simp [holds, hz]) (hf.2.2.2 hz)⟩
    intro q' v' e
    simp at e
    exact hs q' (by simp [sens, e.1])

theorem _root_.Lokky.ArcLostOk.later {z : Nat} {o : ArcObj α} (h : ArcLostOk n z o) :
    ArcLostOk (n + 1) z o :=
  ⟨h.freed, by have := h.weak; omega, h.made, h.pos, h.wk, h.lockers⟩

theorem _root_.Lokky.ArcObjOk.later {x y z : Nat} {o : ArcObj α} (h : ArcObjOk mx n x y z o) :
    ArcObjOk mx (n + 1) x y z o where
  live := h.live
  ending := h.ending
  gone := h.gone
  single := h.single
  freed := h.freed
  oneLock := h.oneLock
  open_ hl := by have := h.open_ hl; omega
  locked := h.locked
  few := by have := h.few; omega
  unmade := h.unmade
  wins := h.wins

/-- The invariant after a step of thread `t` at object `p`. -/
theorem next (I : ArcInv mx n s) {s' : ArcSys α} {t p : Nat} {a b : Option (ArcOp α)}
    {o' : ArcObj α} (ht : s.threads[t]? = some a) (hthr : s'.threads = s.threads.set t b)
    (hobj : ∀ q, q ≠ p → s'.objs[q]? = s.objs[q]?) (hp : s'.objs[p]? = some o')
    (hlen : s.objs.length ≤ s'.objs.length)
    (hhand : ∀ q, q ≠ p → s'.hands.count (some q) = s.hands.count (some q))
    (hh : ∀ h x, s.hands[h]? = some (some x) →
      (∃ t' op', t' ≠ t ∧ s.threads[t']? = some (some op') ∧ op'.borrowsAt h x = true) →
      s'.hands[h]? = some (some x))
    (hab : ∀ q, q ≠ p → on (holds q) a = on (holds q) b ∧ on (ends q) a = on (ends q) b ∧
      on (locks q) a = on (locks q) b)
    (hok : o'.lost = false → s'.Ok mx (n + 1) p o')
    (hlok : o'.lost = true → ArcLostOk (n + 1) (s'.lockers p) o')
    (hkeep : ∀ o : ArcObj α, s.objs[p]? = some o →
      o'.lost = o.lost ∨ s.own p = 0 ∧ o'.lost = true)
    (hfact : ∀ op, b = some op → ArcFacts s' op)
    (hsens : s.Lost p ∨
      ∀ t' op', t' ≠ t → s.threads[t']? = some (some op') → op'.sens p = false)
    (hval : (s.objs[p]?).map (·.val) = some o'.val ∨
      ∀ t' op', t' ≠ t → s.threads[t']? = some (some op') → op'.vals p = false) :
    ArcInv mx (n + 1) s' := by
  have hown : ∀ q, q ≠ p → s'.own q = s.own q := by
    intro q hq
    have := countP_set_add (on (holds q)) ht b
    rw [(hab q hq).1] at this
    have e := hhand q hq
    unfold own
    rw [hthr]
    omega
  have htl : ∀ q, q ≠ p → s'.tails q = s.tails q := by
    intro q hq
    have := countP_set_add (on (ends q)) ht b
    rw [(hab q hq).2.1] at this
    unfold ArcSys.tails
    rw [hthr]
    omega
  have hlk : ∀ q, q ≠ p → s'.lockers q = s.lockers q := by
    intro q hq
    have := countP_set_add (on (locks q)) ht b
    rw [(hab q hq).2.2] at this
    unfold ArcSys.lockers
    rw [hthr]
    omega
  have hlost : ∀ q, s.Lost q → s'.Lost q := by
    rintro q ⟨o, ho, h⟩
    by_cases e : q = p
    · subst e
      refine ⟨o', hp, ?_⟩
      rcases hkeep o ho with hk | hk
      · rw [hk, h]
      · exact hk.2
    · exact ⟨o, by rw [hobj q e]; exact ho, h⟩
  have hloose : ∀ t' op', t' ≠ t → s.threads[t']? = some (some op') → ArcLoose s op' →
      ArcLoose s' op' := by
    intro t' op' ne ht' hlo
    have hF : ∀ q v, op'.sens q = true → s.Fresh (some (q, v)) → s'.Fresh (some (q, v)) := by
      intro q v hs hfr
      have hqp : q ≠ p := by
        rintro rfl
        rcases hsens with ⟨o, ho, hl⟩ | h
        · obtain ⟨-, o2, h2, h3⟩ := hfr
          rw [ho] at h2
          cases h2
          have := (I.lost q o ho hl).pos
          have := (I.lost q o ho hl).made
          omega
        · rw [h t' op' ne ht'] at hs
          cases hs
      exact ⟨(hown q hqp).trans hfr.1, At.congr hfr.2 (hobj q hqp)⟩
    cases op' with
    | fin1 r k =>
      rcases k with _ | ⟨q, v⟩
      · trivial
      · exact hF q v (by simp [sens]) hlo
    | fin2 r k =>
      rcases k with _ | ⟨q, v⟩
      · trivial
      · exact hF q v (by simp [sens]) hlo
    | mm5 r v q z => exact hF q v (by simp [sens]) hlo
    | _ => exact hlo
  refine ⟨?_, ?_, ?_, ?_⟩
  · intro q o ho hlf
    by_cases hq : q = p
    · subst hq
      rw [hp] at ho
      cases ho
      exact hok hlf
    · rw [hobj q hq] at ho
      have := (I.obj q o ho hlf).later
      unfold ArcSys.Ok at this ⊢
      rw [hown q hq, htl q hq, hlk q hq]
      exact this
  · intro q o ho hlf
    by_cases hq : q = p
    · subst hq
      rw [hp] at ho
      cases ho
      exact hlok hlf
    · rw [hobj q hq] at ho
      have := (I.lost q o ho hlf).later
      rw [hlk q hq]
      exact this
  · intro t' op' ht'
    rw [hthr] at ht'
    by_cases hq : t' = t
    · subst hq
      have hl : t' < s.threads.length := by
        rcases List.getElem?_eq_some_iff.1 ht with ⟨h, -⟩
        exact h
      rw [List.getElem?_set_self hl] at ht'
      injection ht' with e
      exact hfact op' e
    · rw [List.getElem?_set_ne (Ne.symm hq)] at ht'
      by_cases hpl : s.Lost p ∧ (op'.sens p = true ∨ op'.vals p = true)
      · obtain ⟨h1, h2⟩ := I.lost_loose ht' hpl.1 hpl.2
        exact Or.inr ⟨by rw [h1]; exact hlost p hpl.1, hloose t' op' hq ht' h2⟩
      · rcases I.op t' op' ht' with hf | ⟨h1, h2⟩
        · left
          refine needs_frame hf ?_ ?_ ?_ ?_
          · intro q hs
            have : q ≠ p := by
              rintro rfl
              rcases hsens with h | h
              · exact hpl ⟨h, Or.inl hs⟩
              · rw [h t' op' hq ht'] at hs
                cases hs
            exact ⟨hown q this, hobj q this⟩
          · intro q hs
            by_cases e : q = p
            · subst e
              rcases hval with hv | hv
              · rw [hv, hp]; rfl
              · rw [hv t' op' hq ht'] at hs
                cases hs
            · rw [hobj q e]
          · intro h q hb hx
            exact hh h q hx ⟨t', op', hq, ht', hb⟩
          · rintro q hhd hnl ⟨o, ho, hlo⟩
            by_cases e : q = p
            · subst e
              rw [hp] at ho
              cases ho
              obtain ⟨o, ho⟩ := I.exists_obj (Or.inl (own_pos_of_holds ht' hhd))
              rcases hkeep o ho with hk | hk
              · exact hnl ⟨o, ho, hk.symm.trans hlo⟩
              · have := own_pos_of_holds ht' hhd
                omega
            · rw [hobj q e] at ho
              exact hnl ⟨o, ho, hlo⟩
        · exact Or.inr ⟨hlost _ h1, hloose t' op' hq ht' h2⟩
  · intro q hq
    have hne : q ≠ p := by
      rintro rfl
      rw [List.getElem?_eq_none_iff.2 hq] at hp
      cases hp
    have := I.beyond q (by omega)
    rw [hown q hne, htl q hne]
    exact this

/-- The state after a step of thread `t` at object `p`, which gives the client `g` handles. -/
def _root_.Lokky.ArcSys.upd (s : ArcSys α) (p : Nat) (o' : ArcObj α) (t : Nat) (b : Option (ArcOp α))
    (g : Nat) (log : List (Nat × ArcOut α)) : ArcSys α :=
  ⟨s.objs.set p o', s.hands ++ List.replicate g (some p), s.threads.set t b, log⟩

theorem upd_own (s : ArcSys α) {p t : Nat} {a : Option (ArcOp α)} (ht : s.threads[t]? = some a)
    (o' : ArcObj α) (b : Option (ArcOp α)) (g : Nat) (log : List (Nat × ArcOut α)) :
    (s.upd p o' t b g log).own p + (on (holds p) a).toNat =
      s.own p + (on (holds p) b).toNat + g := by
  have := countP_set_add (on (holds p)) ht b
  simp only [ArcSys.upd, own, List.count_append, List.count_replicate_self]
  omega

theorem upd_own_ne (s : ArcSys α) {p q t : Nat} {a : Option (ArcOp α)} (ht : s.threads[t]? = some a)
    (o' : ArcObj α) (b : Option (ArcOp α)) (g : Nat) (log : List (Nat × ArcOut α)) (hq : q ≠ p) :
    (s.upd p o' t b g log).own q + (on (holds q) a).toNat =
      s.own q + (on (holds q) b).toNat := by
  have := countP_set_add (on (holds q)) ht b
  have h0 : (List.replicate g (some p)).count (some q) = 0 := by
    rw [List.count_replicate]
    simp [Ne.symm hq]
  simp only [ArcSys.upd, own, List.count_append, h0]
  omega

theorem upd_tails (s : ArcSys α) {p q t : Nat} {a : Option (ArcOp α)} (ht : s.threads[t]? = some a)
    (o' : ArcObj α) (b : Option (ArcOp α)) (g : Nat) (log : List (Nat × ArcOut α)) :
    (s.upd p o' t b g log).tails q + (on (ends q) a).toNat =
      s.tails q + (on (ends q) b).toNat := countP_set_add (on (ends q)) ht b

theorem upd_lockers (s : ArcSys α) {p q t : Nat} {a : Option (ArcOp α)} (ht : s.threads[t]? = some a)
    (o' : ArcObj α) (b : Option (ArcOp α)) (g : Nat) (log : List (Nat × ArcOut α)) :
    (s.upd p o' t b g log).lockers q + (on (locks q) a).toNat =
      s.lockers q + (on (locks q) b).toNat := countP_set_add (on (locks q)) ht b

theorem upd_at (s : ArcSys α) {p t : Nat} {o : ArcObj α} (ho : s.objs[p]? = some o)
    (o' : ArcObj α) (b : Option (ArcOp α)) (g : Nat) (log : List (Nat × ArcOut α)) :
    (s.upd p o' t b g log).objs[p]? = some o' := by
  obtain ⟨hl, -⟩ := List.getElem?_eq_some_iff.1 ho
  simp [ArcSys.upd, List.getElem?_set_self hl]

theorem upd_at_ne (s : ArcSys α) {p q t : Nat} 
    (o' : ArcObj α) (b : Option (ArcOp α)) (g : Nat) (log : List (Nat × ArcOut α)) (hq : q ≠ p) :
    (s.upd p o' t b g log).objs[q]? = s.objs[q]? := by
  simp [ArcSys.upd, List.getElem?_set_ne (Ne.symm hq)]

/-- The invariant after such a step at an object that is not lost. -/
theorem work (I : ArcInv mx n s) {t p : Nat} {op : ArcOp α} {o : ArcObj α}
    (ht : s.threads[t]? = some (some op)) (ho : s.objs[p]? = some o) (hlo : o.lost = false)
    (o' : ArcObj α) (b : Option (ArcOp α)) (g : Nat) (log : List (Nat × ArcOut α))
    (hat : op.holds p = true ∨ op.ends p = true ∨ ∃ h, op.borrowsAt h p = true)
    (hab : ∀ q, q ≠ p → op.holds q = on (holds q) b ∧ op.ends q = on (ends q) b ∧
      op.locks q = on (locks q) b)
    (hlo' : o'.lost = false)
    (hok : ∀ x y z, x + (op.holds p).toNat = s.own p + (on (holds p) b).toNat + g →
      y + (op.ends p).toNat = s.tails p + (on (ends p) b).toNat →
      z + (op.locks p).toNat = s.lockers p + (on (locks p) b).toNat → z ≤ x →
      ArcObjOk mx (n + 1) x y z o')
    (hfact : ∀ op', b = some op' → ArcNeeds (s.upd p o' t b g log) op')
    (hval : o'.val = o.val ∨ op.sens p = true ∧ op.holds p = true) :
    ArcInv mx (n + 1) (s.upd p o' t b g log) := by
  have hn : ¬ s.Lost p := by
    rintro ⟨o2, h2, h3⟩
    rw [ho] at h2
    cases h2
    rw [hlo] at h3
    cases h3
  have hsens : ∀ t' op', t' ≠ t → s.threads[t']? = some (some op') → op'.sens p = false := by
    rcases hat with h | h | ⟨h, hb⟩
    · exact I.alone_holds hn ht h
    · exact I.alone_ends hn ht h
    · intro t' op' _
      refine I.alone_hand hn (h := h) ?_ t' op'
      have := I.op t op ht
      cases op <;> simp [borrowsAt] at hb <;> obtain ⟨rfl, rfl⟩ := hb <;>
        simpa [ArcFacts, ArcNeeds, ArcLoose] using this
  refine I.next ht (p := p) (b := b) (o' := o') rfl (fun q hq => upd_at_ne s o' b g log hq)
    (upd_at s ho o' b g log) (by simp [ArcSys.upd]) ?_ ?_ hab ?_ ?_ ?_
    (fun op' e => Or.inl (hfact op' e)) (Or.inr hsens) ?_
  · intro q hq
    have h0 : (List.replicate g (some p)).count (some q) = 0 := by
      rw [List.count_replicate]
      simp [Ne.symm hq]
    simp [ArcSys.upd, List.count_append, h0]
  · intro h x hx _
    obtain ⟨hl, -⟩ := List.getElem?_eq_some_iff.1 hx
    simp only [ArcSys.upd]
    rw [List.getElem?_append_left hl]
    exact hx
  · intro _
    exact hok _ _ _ (upd_own s ht o' b g log) (upd_tails s ht o' b g log)
      (upd_lockers s ht o' b g log) (lockers_le _ p)
  · intro h
    rw [hlo'] at h
    cases h
  · intro o2 h2
    rw [ho] at h2
    cases h2
    exact Or.inl (hlo'.trans hlo.symm)
  · rcases hval with h | ⟨h, h'⟩
    · left
      rw [ho, h]
      rfl
    · right
      intro t' op' ne ht'
      by_contra hc
      have hc : op'.vals p = true := by simpa using hc
      have h1 := I.alone_holds hn ht' (vals_holds hc) t op (Ne.symm ne) ht
      rw [h] at h1
      cases h1

/-- The invariant after a step at an object that has lost its value. -/
theorem work_lost (I : ArcInv mx n s) {t p : Nat} {op : ArcOp α} {o : ArcObj α}
    (ht : s.threads[t]? = some (some op)) (ho : s.objs[p]? = some o) (hlo : o.lost = true)
    (o' : ArcObj α) (b : Option (ArcOp α)) (g : Nat) (log : List (Nat × ArcOut α))
    (hab : ∀ q, q ≠ p → op.holds q = on (holds q) b ∧ op.ends q = on (ends q) b ∧
      op.locks q = on (locks q) b)
    (hlo' : o'.lost = true)
    (hlk : op.locks p = on (locks p) b)
    (hok : ArcLostOk n 0 o → ArcLostOk (n + 1) 0 o')
    (hfact : ∀ op', b = some op' → ArcNeeds (s.upd p o' t b g log) op' ∨
      op'.main = p ∧ ArcLoose (s.upd p o' t b g log) op')
    (hval : o'.val = o.val) :
    ArcInv mx (n + 1) (s.upd p o' t b g log) := by
  have hL : s.Lost p := ⟨o, ho, hlo⟩
  have hk := I.lost p o ho hlo
  refine I.next ht (p := p) (b := b) (o' := o') rfl (fun q hq => upd_at_ne s o' b g log hq)
    (upd_at s ho o' b g log) (by simp [ArcSys.upd]) ?_ ?_ hab ?_ ?_ ?_
    ?_ (Or.inl hL) ?_
  · intro q hq
    have h0 : (List.replicate g (some p)).count (some q) = 0 := by
      rw [List.count_replicate]
      simp [Ne.symm hq]
    simp [ArcSys.upd, List.count_append, h0]
  · intro h x hx _
    obtain ⟨hl, -⟩ := List.getElem?_eq_some_iff.1 hx
    simp only [ArcSys.upd]
    rw [List.getElem?_append_left hl]
    exact hx
  · intro h
    rw [hlo'] at h
    cases h
  · intro _
    have h1 := upd_lockers s (p := p) (q := p) ht o' b g log
    rw [on_some, hlk] at h1
    have h2 := hk.lockers
    have h3 : (s.upd p o' t b g log).lockers p = 0 := by omega
    rw [h2] at hk
    rw [h3]
    exact hok hk
  · intro o2 h2
    rw [ho] at h2
    cases h2
    exact Or.inl (hlo'.trans hlo.symm)
  · intro op' e
    rcases hfact op' e with h | ⟨h, h'⟩
    · exact Or.inl h
    · exact Or.inr ⟨⟨o', by rw [h]; exact upd_at s ho o' b g log, hlo'⟩, h'⟩
  · left
    rw [ho, hval]
    rfl

theorem set_same {β : Type} {l : List β} {p : Nat} {o : β} (h : l[p]? = some o) : l.set p o = l := by
  obtain ⟨hl, rfl⟩ := List.getElem?_eq_some_iff.1 h
  simp

end ArcInv
end Lokky
