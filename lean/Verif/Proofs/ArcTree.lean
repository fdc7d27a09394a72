import Verif.Model.ArcTree
import Verif.Proofs.ArcGraph
import Mathlib.Data.List.Forall2
import Mathlib.Data.List.InsertIdx

/-! The invariant of trees of `Arc`s that are changed through `make_mut`. -/

namespace Lokky
variable {α : Type}

/-! ## Where the handles are -/

/-- Handles that a thread has. -/
def CowOp.refs : CowOp α → List Nat
  | .sub p z => if z then [] else [p]
  | .get0 _ p | .get1 _ p | .get2 _ p _ | .mm0 _ p | .mm1 _ p _ | .mm2 _ p _ | .mm3 _ p | .mmV _ p | .held _ p => [p]
  | .mmC _ p _ got => p :: got
  | .mmA _ p _ ks z => if z then ks else p :: ks
  | _ => []

/-- Objects without handles whose node is about to go. -/
def CowOp.ends : CowOp α → List Nat
  | .fin p | .unw _ p | .mm4 _ p => [p]
  | _ => []

/-- Objects without node whose memory is still used. -/
def CowOp.looks : CowOp α → List Nat
  | .look p | .free p => [p]
  | .sub p z => if z then [p] else []
  | .mmA _ p _ _ z => if z then [p] else []
  | _ => []

/-- The name of the handle that a call has taken. -/
def CowOp.names : CowOp α → List Nat
  | .get0 h _ | .get1 h _ | .get2 h _ _ | .mm0 h _ | .mm1 h _ _ | .mm2 h _ _ | .mm3 h _ | .mm4 h _ | .mmV h _ | .held h _
  | .mmC h _ _ _ | .mmA h _ _ _ _ | .unw h _ => [h]
  | _ => []

/-- Objects with a single handle. -/
def CowOp.sole : CowOp α → Option Nat
  | .get2 _ p u => if u then some p else none
  | .mm1 _ p k => if k = 1 then some p else none
  | .mm2 _ p _ | .held _ p => some p
  | _ => none

theorem CowOp.sole_refs {op : CowOp α} {p : Nat} (h : op.sole = some p) : p ∈ op.refs := by
  cases op <;> simp only [sole, refs, reduceCtorEq] at h ⊢
  case get2 => split at h <;> simp_all
  case mm1 => split at h <;> simp_all
  all_goals simp_all

/-- The handles in the node, while it is there. -/
def CowObj.held (o : CowObj α) : List Nat := if o.alive then o.kids else []
/-- The number of handles of the object. -/
def CowObj.str (o : CowObj α) : Nat := if o.alive then o.strong else 0
/-- The object has a node, but no handles. -/
def CowObj.zero (o : CowObj α) : Nat := if o.alive ∧ o.strong = 0 then 1 else 0

/-- … of the object at `q`. -/
def strOf (objs : List (CowObj α)) (q : Nat) : Nat := (objs[q]?.map CowObj.str).getD 0
def zeroOf (objs : List (CowObj α)) (q : Nat) : Nat := (objs[q]?.map CowObj.zero).getD 0

/-- There is an entry at `h`. -/
def has {β : Type} (l : List (Option β)) (h : Nat) : Nat := if (l[h]?).join.isSome then 1 else 0

/-- All handles. -/
def allRefs (objs : List (CowObj α)) (hands : List (Option Nat)) (lost : List Nat) (ops : List (CowOp α)) : List Nat :=
  hands.flatMap Option.toList ++ (lost ++ (objs.flatMap CowObj.held ++ ops.flatMap CowOp.refs))

/-! ## The tree that an object is -/

/-- The object at `p` is the tree `t`, of depth at most `n`. -/
def Den (objs : List (CowObj α)) : Nat → Nat → Spec.Tree α → Prop
  | 0, _, _ => False
  | n + 1, p, t => ∃ o, objs[p]? = some o ∧ o.alive = true ∧ o.val = t.val ∧ List.Forall₂ (Den objs n) o.kids t.kids

/-- What a thread has of a tree. -/
def CowOp.Means (objs : List (CowObj α)) (t : Spec.Tree α) : CowOp α → Prop
  | .get0 _ p | .get1 _ p | .get2 _ p _ | .mm0 _ p | .mm1 _ p _ | .mm2 _ p _ | .mm3 _ p | .mmV _ p | .held _ p
  | .mm4 _ p | .unw _ p => ∃ n, Den objs n p t
  | .mmC _ p x got => (∃ n, Den objs n p t) ∧ x = t.val ∧ ∃ o, objs[p]? = some o ∧ got <+: o.kids
  | .mmA _ p x ks z => x = t.val ∧ (∃ n, List.Forall₂ (Den objs n) ks t.kids) ∧ (z = false → ∃ n, Den objs n p t)
  | _ => True

/-- Objects, handles, and the tree that every handle should be. -/
structure CowInv (n : Nat) (objs : List (CowObj α)) (hands : List (Option Nat)) (lost : List Nat) (ops : List (CowOp α))
    (f : List (Option (Spec.Tree α))) : Prop where
  cnt : ∀ q, (allRefs objs hands lost ops).count q = strOf objs q
  size : (allRefs objs hands lost ops).length ≤ n
  ends : ∀ q, (ops.flatMap CowOp.ends).count q = zeroOf objs q
  looks : ∀ q, 0 < (ops.flatMap CowOp.looks).count q → (ops.flatMap CowOp.looks).count q = 1 ∧
    ∃ o, objs[q]? = some o ∧ o.alive = false ∧ o.freed = false ∧ o.strong = 0
  freed : ∀ (q : Nat) (o : CowObj α), objs[q]? = some o → o.freed = true → o.alive = false
  sole : ∀ op ∈ ops, ∀ q, op.sole = some q → strOf objs q = 1
  len : f.length = hands.length
  names : ∀ h, (ops.flatMap CowOp.names).count h + has hands h = has f h
  hval : ∀ (h p : Nat) (t : Spec.Tree α), hands[h]? = some (some p) → f[h]? = some (some t) → ∃ m, Den objs m p t
  oval : ∀ op ∈ ops, ∀ h ∈ op.names, ∀ t : Spec.Tree α, f[h]? = some (some t) → op.Means objs t
  all : ∀ (q : Nat) (o : CowObj α), objs[q]? = some o → o.alive = true → ∃ m t, Den objs m q t

theorem CowInv.perm {n : Nat} {objs : List (CowObj α)} {hands lost} {ops ops' : List (CowOp α)} {f}
    (h : CowInv n objs hands lost ops f) (e : ops.Perm ops') : CowInv n objs hands lost ops' f := by
  have e1 : (allRefs objs hands lost ops).Perm (allRefs objs hands lost ops') :=
    (((e.flatMap_right _).append_left _).append_left _).append_left _
  have e2 := e.flatMap_right CowOp.ends
  have e3 := e.flatMap_right CowOp.looks
  have e4 := e.flatMap_right CowOp.names
  refine ⟨fun q => ?_, ?_, fun q => ?_, fun q => ?_, h.freed, fun op ho => h.sole op (e.mem_iff.2 ho), h.len, fun k => ?_, h.hval,
    fun op ho => h.oval op (e.mem_iff.2 ho), h.all⟩
  · rw [← e1.count_eq]; exact h.cnt q
  · rw [← e1.length_eq]; exact h.size
  · rw [← e2.count_eq]; exact h.ends q
  · rw [← e3.count_eq]; exact h.looks q
  · rw [← e4.count_eq]; exact h.names k

theorem flatten_set {β : Type} {l : List (List β)} {t : Nat} {x : List β} (h : l[t]? = some x) :
    ∃ rest, l.flatten.Perm (x ++ rest) ∧ ∀ y, (l.set t y).flatten.Perm (y ++ rest) := by
  induction l generalizing t with
  | nil => simp at h
  | cons a l ih =>
    cases t with
    | zero =>
      simp only [List.getElem?_cons_zero, Option.some.injEq] at h
      subst h
      exact ⟨l.flatten, by simp, fun y => by simp⟩
    | succ t =>
      simp only [List.getElem?_cons_succ] at h
      obtain ⟨rest, h1, h2⟩ := ih h
      refine ⟨a ++ rest, ?_, fun y => ?_⟩
      · simp only [List.flatten_cons]
        exact (h1.append_left a).trans (by simpa using List.perm_append_comm_assoc a x rest)
      · simp only [List.set_cons_succ, List.flatten_cons]
        exact ((h2 y).append_left a).trans (by simpa using List.perm_append_comm_assoc a y rest)

/-! ## Trees -/

theorem Den.mono {objs : List (CowObj α)} {n m p : Nat} {t : Spec.Tree α} (h : Den objs n p t) (hm : n ≤ m) : Den objs m p t := by
  induction n generalizing m p t with
  | zero => exact h.elim
  | succ n ih =>
    obtain ⟨m, rfl⟩ : ∃ k, m = k + 1 := ⟨m - 1, by omega⟩
    obtain ⟨o, h1, h2, h3, h4⟩ := h
    exact ⟨o, h1, h2, h3, h4.imp fun _ _ h => ih h (by omega)⟩

theorem forall₂_mem {β γ : Type} {R S : β → γ → Prop} {l : List β} {l' : List γ} (h : List.Forall₂ R l l')
    (hs : ∀ a ∈ l, ∀ b, R a b → S a b) : List.Forall₂ S l l' := by
  induction h with
  | nil => exact .nil
  | cons a _ ih => exact .cons (hs _ (by simp) _ a) (ih fun k hk => hs k (by simp [hk]))

/-- Other objects, and `p` is not part of any other tree. -/
theorem Den.frame {objs objs' : List (CowObj α)} {P : Nat → Prop}
    (keep : ∀ q o, P q → objs[q]? = some o → o.alive = true →
      (∃ o', objs'[q]? = some o' ∧ o'.alive = true ∧ o'.val = o.val ∧ o'.kids = o.kids) ∧ ∀ k ∈ o.kids, P k)
    {n p : Nat} {t : Spec.Tree α} (hp : P p) (h : Den objs n p t) : Den objs' n p t := by
  induction n generalizing p t with
  | zero => exact h.elim
  | succ n ih =>
    obtain ⟨o, h1, h2, h3, h4⟩ := h
    obtain ⟨⟨o', k1, k2, k3, k4⟩, k5⟩ := keep p o hp h1 h2
    refine ⟨o', k1, k2, by rw [k3, h3], ?_⟩
    rw [k4]
    exact forall₂_mem h4 fun k hk t ht => ih (k5 k hk) ht

theorem Den.kids_frame {objs objs' : List (CowObj α)} {P : Nat → Prop}
    (keep : ∀ q o, P q → objs[q]? = some o → o.alive = true →
      (∃ o', objs'[q]? = some o' ∧ o'.alive = true ∧ o'.val = o.val ∧ o'.kids = o.kids) ∧ ∀ k ∈ o.kids, P k)
    {n : Nat} {ks : List Nat} {ts : List (Spec.Tree α)} (hp : ∀ k ∈ ks, P k) (h : List.Forall₂ (Den objs n) ks ts) :
    List.Forall₂ (Den objs' n) ks ts :=
  forall₂_mem h fun k hk _ ht => ht.frame keep (hp k hk)

theorem CowOp.Means.frame {objs objs' : List (CowObj α)} {P : Nat → Prop}
    (keep : ∀ q o, P q → objs[q]? = some o → o.alive = true →
      (∃ o', objs'[q]? = some o' ∧ o'.alive = true ∧ o'.val = o.val ∧ o'.kids = o.kids) ∧ ∀ k ∈ o.kids, P k)
    {op : CowOp α} {t : Spec.Tree α} (hp : ∀ q, q ∈ op.refs ∨ q ∈ op.ends → P q) (h : op.Means objs t) : op.Means objs' t := by
  have one : ∀ {p}, P p → (∃ n, Den objs n p t) → ∃ n, Den objs' n p t := fun hp ⟨n, h⟩ => ⟨n, h.frame keep hp⟩
  cases op <;> simp only [Means] at h ⊢
  case mmC =>
    have hp' := hp _ (.inl (by simp [refs]; exact .inl rfl))
    refine ⟨one hp' h.1, h.2.1, ?_⟩
    obtain ⟨o, h1, h2⟩ := h.2.2
    obtain ⟨n, h3⟩ := h.1
    cases n with
    | zero => exact h3.elim
    | succ n =>
      obtain ⟨o2, k1, k2, _⟩ := h3
      rw [h1] at k1; cases k1
      obtain ⟨⟨o', k1, k2, k3, k4⟩, _⟩ := keep _ o hp' h1 k2
      exact ⟨o', k1, by rw [k4]; exact h2⟩
  case mmA p x ks z =>
    obtain ⟨h1, ⟨n, h2⟩, h3⟩ := h
    refine ⟨h1, ⟨n, Den.kids_frame keep (fun k hk => hp k (.inl ?_)) h2⟩, fun hz => one (hp _ (.inl ?_)) (h3 hz)⟩
    · simp only [refs]; split <;> simp [hk]
    · simp [refs, hz]
  all_goals exact one (hp _ (by simp [refs, ends])) h

/-! ## Small facts -/

section
variable {objs : List (CowObj α)} {p q : Nat} {o o' : CowObj α}

theorem strOf_set (ho : objs[p]? = some o) : strOf (objs.set p o') q = if q = p then o'.str else strOf objs q := by
  obtain ⟨hp, _⟩ := List.getElem?_eq_some_iff.1 ho
  simp only [strOf, List.getElem?_set]
  by_cases e : q = p
  · subst e; simp [hp]
  · simp [e, show ¬ p = q from fun h => e h.symm]

theorem zeroOf_set (ho : objs[p]? = some o) : zeroOf (objs.set p o') q = if q = p then o'.zero else zeroOf objs q := by
  obtain ⟨hp, _⟩ := List.getElem?_eq_some_iff.1 ho
  simp only [zeroOf, List.getElem?_set]
  by_cases e : q = p
  · subst e; simp [hp]
  · simp [e, show ¬ p = q from fun h => e h.symm]

theorem strOf_eq (ho : objs[p]? = some o) : strOf objs p = o.str := by simp [strOf, ho]
theorem zeroOf_eq (ho : objs[p]? = some o) : zeroOf objs p = o.zero := by simp [zeroOf, ho]

theorem strOf_pos (h : 0 < strOf objs p) : ∃ o, objs[p]? = some o ∧ o.alive = true ∧ o.strong = strOf objs p := by
  unfold strOf at h ⊢
  cases e : objs[p]? with
  | none => simp [e] at h
  | some o =>
    simp only [e, Option.map_some, Option.getD_some, CowObj.str] at h ⊢
    by_cases ha : o.alive = true
    · exact ⟨o, rfl, ha, by simp [ha]⟩
    · simp [ha] at h

theorem zeroOf_pos (h : 0 < zeroOf objs p) : ∃ o, objs[p]? = some o ∧ o.alive = true ∧ o.strong = 0 := by
  unfold zeroOf at h
  cases e : objs[p]? with
  | none => simp [e] at h
  | some o =>
    simp only [e, Option.map_some, Option.getD_some, CowObj.zero] at h
    split at h
    · rename_i h'; exact ⟨o, rfl, h'⟩
    · simp at h

theorem count_flatMap_set {β : Type} (g : β → List Nat) {l : List β} {i : Nat} {a : β} (b : β) (h : l[i]? = some a) (q : Nat) :
    ((l.set i b).flatMap g).count q + (g a).count q = (l.flatMap g).count q + (g b).count q :=
  countP_flatMap_set g (· == q) b h

theorem length_flatMap_set {β : Type} (g : β → List Nat) {l : List β} {i : Nat} {a : β} (b : β) (h : l[i]? = some a) :
    ((l.set i b).flatMap g).length + (g a).length = (l.flatMap g).length + (g b).length := by
  have := countP_flatMap_set g (fun _ => true) b h
  simpa [List.countP_eq_length] using this

end

section
variable {β : Type} {l : List (Option β)}

theorem hasAt_set {h k : Nat} {x : Option β} (hh : h < l.length) :
    has (l.set h x) k = if k = h then (if x.isSome then 1 else 0) else has l k := by
  simp only [has, List.getElem?_set]
  by_cases e : k = h
  · subst e; simp [hh]
  · simp [e, show ¬ h = k from fun h => e h.symm]

theorem hasAt_one {h : Nat} {x : β} (hx : l[h]? = some (some x)) : has l h = 1 := by simp [has, hx]

theorem hasAt_pos {h : Nat} (hx : 0 < has l h) : ∃ x, l[h]? = some (some x) := by
  unfold has at hx
  cases e : l[h]? with
  | none => simp [e] at hx
  | some x =>
    cases x with
    | none => simp [e] at hx
    | some x => exact ⟨x, rfl⟩

theorem hasAt_le {h : Nat} : has l h ≤ 1 := by unfold has; split <;> omega

theorem hasAt_append {l' : List (Option β)} {k : Nat} : has (l ++ l') k = if k < l.length then has l k else has l' (k - l.length) := by
  simp only [has, List.getElem?_append]
  split <;> rfl

theorem hasAt_out {h : Nat} (hx : l.length ≤ h) : has l h = 0 := by simp [has, hx]

end

end Lokky
