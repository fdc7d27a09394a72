import Verif.Proofs.ArcTreeRun
import Mathlib.Data.List.Perm.Basic

/-!
# Trees of `Arc`s: calls
-/

namespace Lokky
variable {α : Type}

/-! ## Lists of handles -/

section
variable {β : Type}

theorem clear_nil (l : List (Option β)) : Spec.clear l [] = l := rfl

theorem clear_cons (l : List (Option β)) (h : Nat) (hs : List Nat) : Spec.clear l (h :: hs) = Spec.clear (l.set h none) hs := rfl

theorem clear_length (l : List (Option β)) (hs : List Nat) : (Spec.clear l hs).length = l.length := by
  induction hs generalizing l with
  | nil => rfl
  | cons h hs ih => rw [clear_cons, ih, List.length_set]

theorem clear_out {l : List (Option β)} {hs : List Nat} {k : Nat} (hk : k ∉ hs) : (Spec.clear l hs)[k]? = l[k]? := by
  induction hs generalizing l with
  | nil => rfl
  | cons h hs ih =>
    simp only [List.mem_cons, not_or] at hk
    rw [clear_cons, ih hk.2, List.getElem?_set, if_neg (fun e => hk.1 e.symm)]

theorem clear_in {l : List (Option β)} {hs : List Nat} {k : Nat} (hk : k ∈ hs) : ((Spec.clear l hs)[k]?).join = none := by
  induction hs generalizing l with
  | nil => simp at hk
  | cons h hs ih =>
    rw [clear_cons]
    by_cases e : k ∈ hs
    · exact ih e
    · simp only [List.mem_cons, e, or_false] at hk
      subst hk
      rw [clear_out e, List.getElem?_set]
      simp only [if_true]
      split <;> rfl

theorem hasAt_clear {l : List (Option β)} {hs : List Nat} {k : Nat} :
    has (Spec.clear l hs) k = if k ∈ hs then 0 else has l k := by
  split
  · rename_i e; simp [has, clear_in e]
  · rename_i e; simp [has, clear_out e]

theorem pull_set {l : List (Option β)} {hs : List Nat} {h : Nat} (hh : h ∉ hs) (x : Option β) :
    Spec.pull (l.set h x) hs = Spec.pull l hs := by
  unfold Spec.pull
  refine List.filterMap_congr fun k hk => ?_
  rw [List.getElem?_set, if_neg (by rintro rfl; exact hh hk)]

theorem pull_cons {l : List (Option β)} {hs : List Nat} {h : Nat} {x : β} (hx : l[h]? = some (some x)) :
    Spec.pull l (h :: hs) = x :: Spec.pull l hs := by
  simp [Spec.pull, hx]

theorem pull_length {l : List (Option β)} {hs : List Nat} (hp : ∀ h ∈ hs, ∃ p, l[h]? = some (some p)) :
    (Spec.pull l hs).length = hs.length := by
  induction hs with
  | nil => rfl
  | cons h hs ih =>
    obtain ⟨x, hx⟩ := hp h (by simp)
    rw [pull_cons hx, List.length_cons, List.length_cons, ih fun k hk => hp k (by simp [hk])]

theorem pull_count {l : List (Option Nat)} {hs : List Nat} (hn : hs.Nodup) (hp : ∀ h ∈ hs, ∃ p, l[h]? = some (some p)) (q : Nat) :
    ((Spec.clear l hs).flatMap Option.toList).count q + (Spec.pull l hs).count q = (l.flatMap Option.toList).count q := by
  induction hs generalizing l with
  | nil => simp [Spec.clear, Spec.pull]
  | cons h hs ih =>
    obtain ⟨x, hx⟩ := hp h (by simp)
    obtain ⟨h1, h2⟩ := List.nodup_cons.1 hn
    have := ih (l := l.set h none) h2 fun k hk => by
      rw [List.getElem?_set, if_neg (by rintro rfl; exact h1 hk)]
      exact hp k (by simp [hk])
    have c := count_flatMap_set Option.toList none hx q
    rw [pull_set h1] at this
    rw [clear_cons, pull_cons hx, count_cons']
    simp only [Option.toList, count_cons', List.count_nil] at c
    omega

theorem pull_size {l : List (Option Nat)} {hs : List Nat} (hn : hs.Nodup) (hp : ∀ h ∈ hs, ∃ p, l[h]? = some (some p)) :
    ((Spec.clear l hs).flatMap Option.toList).length + (Spec.pull l hs).length = (l.flatMap Option.toList).length := by
  induction hs generalizing l with
  | nil => simp [Spec.clear, Spec.pull]
  | cons h hs ih =>
    obtain ⟨x, hx⟩ := hp h (by simp)
    obtain ⟨h1, h2⟩ := List.nodup_cons.1 hn
    have := ih (l := l.set h none) h2 fun k hk => by
      rw [List.getElem?_set, if_neg (by rintro rfl; exact h1 hk)]
      exact hp k (by simp [hk])
    have c := length_flatMap_set Option.toList none hx
    rw [pull_set h1] at this
    rw [clear_cons, pull_cons hx, List.length_cons]
    simp only [Option.toList, List.length_singleton, List.length_nil] at c
    omega

theorem forall₂_insertIdx {γ : Type} {R : β → γ → Prop} {l : List β} {l' : List γ} (h : List.Forall₂ R l l') {a : β} {b : γ} (hab : R a b)
    (i : Nat) : List.Forall₂ R (l.insertIdx i a) (l'.insertIdx i b) := by
  induction h generalizing i with
  | nil => cases i <;> simp [hab]
  | cons x y ih =>
    cases i with
    | zero => exact .cons hab (.cons x y)
    | succ i => simp only [List.insertIdx_succ_cons]; exact .cons x (ih i)

theorem forall₂_eraseIdx {γ : Type} {R : β → γ → Prop} {l : List β} {l' : List γ} (h : List.Forall₂ R l l')
    (i : Nat) : List.Forall₂ R (l.eraseIdx i) (l'.eraseIdx i) := by
  induction h generalizing i with
  | nil => simp
  | cons x y ih =>
    cases i with
    | zero => exact y
    | succ i => exact .cons x (ih i)

theorem forall₂_get {γ : Type} {R : β → γ → Prop} {l : List β} {l' : List γ} (h : List.Forall₂ R l l') {i : Nat} {a : β}
    (ha : l[i]? = some a) : ∃ b, l'[i]? = some b ∧ R a b := by
  induction h generalizing i with
  | nil => simp at ha
  | cons x y ih =>
    cases i with
    | zero => simp at ha; subst ha; exact ⟨_, rfl, x⟩
    | succ i => exact ih (by simpa using ha)

end

namespace CowInv
variable {n : Nat} {objs : List (CowObj α)} {hands hands' : List (Option Nat)} {lost lost' : List Nat}
  {ops rest new : List (CowOp α)} {f f' : List (Option (Spec.Tree α))} {p q h : Nat} {op : CowOp α} {o : CowObj α}

/-- What is known of a handle. -/
theorem hand (I : CowInv n objs hands lost ops f) (hh : hands[h]? = some (some p)) :
    ∃ o, objs[p]? = some o ∧ o.alive = true ∧ o.freed = false ∧ o.strong = (allRefs objs hands lost ops).count p ∧
      0 < o.strong ∧ o.strong ≤ n ∧ 0 < (hands.flatMap Option.toList).count p ∧
      (ops.flatMap CowOp.names).count h = 0 ∧ has hands h = 1 ∧ has f h = 1 ∧
      ∃ t, f[h]? = some (some t) ∧ ∃ m, Den objs m p t := by
  have hm : p ∈ hands.flatMap Option.toList := List.mem_flatMap.2 ⟨some p, List.mem_of_getElem? hh, by simp⟩
  have hc := List.count_pos_iff.2 hm
  obtain ⟨o, h1, h2, h3, h4⟩ := I.there (q := p) (by rw [allRefs_count]; omega)
  have hsz := I.size
  have hle := List.count_le_length (a := p) (l := allRefs objs hands lost ops)
  have e1 := hasAt_one hh
  have e2 := hasAt_le (l := f) (h := h)
  have e3 := I.names h
  obtain ⟨t, ht⟩ := hasAt_pos (l := f) (h := h) (by omega)
  refine ⟨o, h1, h2, h3, h4, by rw [h4, allRefs_count]; omega, by omega, hc, by omega, e1, by omega, t, ht, I.hval h p t hh ht⟩

theorem named (I : CowInv n objs hands lost (new ++ rest) f) (hx : op ∈ rest) {k : Nat} (hk : k ∈ op.names) :
    0 < (rest.flatMap CowOp.names).count k ∧ (new.flatMap CowOp.names).count k = 0 ∧ has hands k = 0 ∧ k < f.length := by
  have : (rest.flatMap CowOp.names).count k > 0 := List.count_pos_iff.2 (List.mem_flatMap.2 ⟨op, hx, hk⟩)
  have h1 := I.names k
  have h2 := hasAt_le (l := f) (h := k)
  simp only [List.flatMap_append, List.count_append] at h1
  obtain ⟨u, hu⟩ := hasAt_pos (l := f) (h := k) (by omega)
  exact ⟨this, by omega, by omega, (List.getElem?_eq_some_iff.1 hu).1⟩

/-- A handle goes. -/
theorem off (I : CowInv n objs hands lost ([] ++ rest) f) (hh : hands[h]? = some (some p))
    (er : ∀ q, (new.flatMap CowOp.refs).count q + lost'.count q = [p].count q)
    (el : (new.flatMap CowOp.refs).length + lost'.length = 1) (ee : new.flatMap CowOp.ends = [])
    (ek : new.flatMap CowOp.looks = []) (en : new.flatMap CowOp.names = []) (es : ∀ op ∈ new, op.sole = none) :
    CowInv (n + 1) objs (hands.set h none) (lost ++ lost') (new ++ rest) (f.set h none) := by
  obtain ⟨o, h1, h2, h3, h4, h5, h6, h7, h8, h9, h10, t, ht, hd⟩ := I.hand hh
  obtain ⟨hl, _⟩ := List.getElem?_eq_some_iff.1 hh
  have cf := fun q => count_flatMap_set Option.toList none hh q
  have lf := length_flatMap_set Option.toList none hh
  simp only [Option.toList, List.count_nil, List.length_nil, List.length_singleton] at cf lf
  refine I.same (fun q => ?_) ?_ (fun q => ?_) (fun q => ?_) ?_ (by simp [I.len]) (fun k => ?_) ?_ ?_ ?_
  · have := cf q
    have := er q
    simp only [List.count_append, List.flatMap_nil, List.count_nil] at *
    omega
  · simp only [List.length_append, List.flatMap_nil, List.length_nil] at *
    omega
  · simp [ee]
  · simp [ek]
  · intro x hx q hq
    rw [es x hx] at hq; cases hq
  · rw [hasAt_set hl, hasAt_set (by rw [I.len]; exact hl), en]
    by_cases e : k = h
    · subst e; simp [h9, h10]
    · simp [e]
  · intro x hx k hk
    obtain ⟨a, b, c, d⟩ := I.named hx hk
    rw [List.getElem?_set, if_neg (by rintro rfl; omega)]
  · intro k q u a b
    rw [List.getElem?_set] at a b
    split at a
    · simp [hl] at a
    · rename_i e
      rw [if_neg e] at b
      exact I.hval k q u a b
  · intro x hx k hk
    have : k ∈ new.flatMap CowOp.names := List.mem_flatMap.2 ⟨x, hx, hk⟩
    rw [en] at this; simp at this

/-- A call takes a handle. -/
theorem take (I : CowInv n objs hands lost ([] ++ rest) f) (hh : hands[h]? = some (some p)) (er : op.refs = [p]) (ee : op.ends = [])
    (ek : op.looks = []) (en : op.names = [h]) (es : op.sole = none) (hm : ∀ t, (∃ m, Den objs m p t) → op.Means objs t) :
    CowInv (n + 1) objs (hands.set h none) lost ([op] ++ rest) f := by
  obtain ⟨o, h1, h2, h3, h4, h5, h6, h7, h8, h9, h10, t, ht, hd⟩ := I.hand hh
  obtain ⟨hl, _⟩ := List.getElem?_eq_some_iff.1 hh
  have cf := fun q => count_flatMap_set Option.toList none hh q
  have lf := length_flatMap_set Option.toList none hh
  simp only [Option.toList, List.count_nil, List.length_nil, List.length_singleton] at cf lf
  refine I.same (fun q => ?_) ?_ (fun q => ?_) (fun q => ?_) ?_ (by simp [I.len]) (fun k => ?_) (fun _ _ _ _ => rfl) ?_ ?_
  · have := cf q
    simp only [List.flatMap_cons, List.flatMap_nil, List.append_nil, er, List.count_nil] at *
    omega
  · simp only [List.flatMap_cons, List.flatMap_nil, List.append_nil, er, List.length_singleton, List.length_nil] at *
    omega
  · simp [ee]
  · simp [ek]
  · simp [es]
  · rw [hasAt_set hl]
    simp only [List.flatMap_cons, List.flatMap_nil, List.append_nil, en, count_cons', List.count_nil]
    by_cases e : k = h
    · subst e; simp [h9, h10]
    · simp [e]
  · intro k q u a b
    rw [List.getElem?_set] at a
    split at a
    · simp [hl] at a
    · exact I.hval k q u a b
  · intro x hx k hk u hu
    simp only [List.mem_singleton] at hx; subst hx
    rw [en, List.mem_singleton] at hk; subst hk
    rw [ht] at hu; cases hu
    exact hm _ hd

/-- Nobody is alone with an object that there is a handle of. -/
theorem shared (I : CowInv n objs hands lost ([] ++ rest) f)
    (hc : 0 < (hands.flatMap Option.toList).count q + (objs.flatMap CowObj.held).count q) : ∀ op ∈ rest, op.sole ≠ some q := by
  intro y hy hs'
  have h1 := I.sole y (by simp [hy]) q hs'
  rw [← I.cnt] at h1
  have h2 := List.count_pos_iff.2 (List.mem_flatMap.2 ⟨y, hy, CowOp.sole_refs hs'⟩)
  simp only [allRefs_count, List.flatMap_append, List.count_append] at h1
  omega

/-- `try_unwrap` is the only one. -/
theorem last (I : CowInv n objs hands lost ([] ++ rest) f) (hh : hands[h]? = some (some p)) (ho : objs[p]? = some o)
    (h1 : o.strong = 1) :
    CowInv (n + 1) (objs.set p { o with strong := 0 }) (hands.set h none) lost ([CowOp.unw h p] ++ rest) f := by
  obtain ⟨o', k1, h2, h3, h4, h5, h6, h7, h8, h9, h10, t, ht, hd⟩ := I.hand hh
  rw [ho] at k1; cases k1
  obtain ⟨hl, _⟩ := List.getElem?_eq_some_iff.1 hh
  have cf := fun q => count_flatMap_set Option.toList none hh q
  have lf := length_flatMap_set Option.toList none hh
  simp only [Option.toList, List.count_nil, List.length_nil, List.length_singleton] at cf lf
  refine I.quiet ho rfl rfl rfl (fun q => ?_) ?_ (fun q => ?_) (fun q hq => ?_) ?_ ?_ ?_ (.inr (I.shared (by omega)))
    (by simp [I.len]) (fun k => ?_) (fun _ _ _ _ => rfl) ?_ ?_
  · have := cf q
    simp only [List.flatMap_cons, List.flatMap_nil, List.append_nil, CowOp.refs, List.count_nil, CowObj.str, h1, h2, if_true,
      count_cons'] at *
    split at this <;> split <;> omega
  · simp only [List.flatMap_cons, List.flatMap_nil, List.append_nil, CowOp.refs, List.length_nil] at *
    omega
  · simp only [List.flatMap_cons, List.flatMap_nil, List.append_nil, CowOp.ends, List.count_nil, count_cons', CowObj.zero, h1, h2]
    split <;> simp
  · simp [CowOp.looks]
  · simp only [List.flatMap_cons, List.flatMap_nil, List.append_nil, CowOp.looks, List.count_nil, h2]
    intro R h1 h2
    exact absurd (h1 h2).2.1 (by simp)
  · simp [h3]
  · simp [CowOp.sole]
  · rw [hasAt_set hl]
    simp only [List.flatMap_cons, List.flatMap_nil, List.append_nil, CowOp.names, count_cons', List.count_nil]
    by_cases e : k = h
    · subst e; simp [h9, h10]
    · simp [e]
  · intro k q u a b
    rw [List.getElem?_set] at a
    split at a
    · simp [hl] at a
    · exact I.hval k q u a b
  · intro x hx k hk u hu
    simp only [List.mem_singleton] at hx; subst hx
    simp only [CowOp.names, List.mem_singleton] at hk; subst hk
    rw [ht] at hu; cases hu
    exact hd

/-- One more handle. -/
theorem grown {u : Spec.Tree α} {m : Nat} (I : CowInv n objs hands lost ([] ++ rest) f) (ho : objs[q]? = some o) (ha : o.alive = true)
    (hf : o.freed = false) (h0 : 0 < o.strong)
    (hc : 0 < (hands.flatMap Option.toList).count q + (objs.flatMap CowObj.held).count q) (hd : Den objs m q u) :
    CowInv (n + 1) (objs.set q { o with strong := o.strong + 1 }) (hands ++ [some q]) lost ([] ++ rest) (f ++ [some u]) := by
  refine I.quiet ho rfl rfl rfl (fun q' => ?_) ?_ (fun q => ?_) (fun q hq => ?_) ?_ ?_ ?_ (.inr (I.shared hc))
    (by simp [I.len]) (fun k => ?_) ?_ ?_ ?_
  · simp only [List.flatMap_append, List.flatMap_cons, List.flatMap_nil, List.append_nil, CowObj.str, ha, if_true, Option.toList,
      List.count_append, count_cons', List.count_nil]
    split <;> omega
  · simp only [List.flatMap_append, List.flatMap_cons, List.flatMap_nil, List.append_nil, Option.toList, List.length_append,
      List.length_singleton, List.length_nil]
    omega
  · simp [CowObj.zero, show o.strong ≠ 0 by omega]
  · simp
  · simp only [List.flatMap_nil, List.count_nil, ha]
    intro R h1 h2
    exact absurd (h1 h2).2.1 (by simp)
  · simp [hf]
  · simp
  · rw [hasAt_append, hasAt_append, I.len]
    split
    · simp
    · rename_i e
      have e1 : has hands k = 0 := hasAt_out (by omega)
      have e2 : has f k = 0 := hasAt_out (by rw [I.len]; omega)
      rw [e1, e2]
      cases k - hands.length <;> simp [has]
  · intro x hx k hk
    obtain ⟨a, b, c, d⟩ := I.named hx hk
    rw [List.getElem?_append_left d]
  · intro k q' u' a b
    rw [List.getElem?_append] at a b
    rw [I.len] at b
    split at a
    · rename_i e
      rw [if_pos e] at b
      exact I.hval k q' u' a b
    · rename_i e
      rw [if_neg e] at b
      obtain ⟨j, hj⟩ : ∃ j, j = k - hands.length := ⟨_, rfl⟩
      rw [← hj] at a b
      cases j with
      | zero => simp at a b; subst a; subst b; exact ⟨m, hd⟩
      | succ j => simp at a
  · simp

/-- The number of `Weak`s changes. -/
theorem weak (I : CowInv n objs hands lost ([] ++ rest) f) (ho : objs[q]? = some o) (w : Nat) (ha : o.alive = true)
    (hf : o.freed = false) : CowInv (n + 1) (objs.set q { o with weak := w }) hands lost ([] ++ rest) f := by
  refine I.quiet ho rfl rfl rfl (fun q' => ?_) ?_ (fun q => ?_) (fun q hq => ?_) ?_ ?_ ?_ (.inl rfl)
    I.len (fun k => rfl) (fun _ _ _ _ => rfl) I.hval ?_
  · simp [CowObj.str]
  · simp
  · simp [CowObj.zero]
  · simp
  · exact fun R h1 h2 => h1 h2
  · simp [hf]
  · simp
  · simp

/-! ## New nodes -/

theorem forest {hs : List Nat} (I : CowInv n objs hands lost ops f) (hp : ∀ h ∈ hs, ∃ p, hands[h]? = some (some p)) :
    (∀ h ∈ hs, ∃ t, f[h]? = some (some t)) ∧ ∃ m, List.Forall₂ (Den objs m) (Spec.pull hands hs) (Spec.pull f hs) := by
  induction hs with
  | nil => exact ⟨by simp, 0, .nil⟩
  | cons h hs ih =>
    obtain ⟨k1, m, k2⟩ := ih fun k hk => hp k (by simp [hk])
    obtain ⟨p, hh⟩ := hp h (by simp)
    obtain ⟨o, h1, h2, h3, h4, h5, h6, h7, h8, h9, h10, t, ht, m', hd⟩ := I.hand hh
    refine ⟨?_, max m m', ?_⟩
    · intro k hk
      simp only [List.mem_cons] at hk
      rcases hk with rfl | hk
      · exact ⟨t, ht⟩
      · exact k1 k hk
    · rw [pull_cons hh, pull_cons ht]
      exact .cons (hd.mono (by omega)) (k2.imp fun _ _ h => h.mono (by omega))

theorem pulled {hs : List Nat} (I : CowInv n objs hands lost ([] ++ rest) f) (hn : hs.Nodup) (hp : ∀ h ∈ hs, ∃ p, hands[h]? = some (some p)) :
    (∀ k, has (Spec.clear hands hs) k + has f k = has hands k + has (Spec.clear f hs) k) ∧
    (∀ op ∈ rest, ∀ h ∈ op.names, (Spec.clear f hs)[h]? = f[h]?) ∧
    (∀ (h q : Nat) (t : Spec.Tree α), (Spec.clear hands hs)[h]? = some (some q) → (Spec.clear f hs)[h]? = some (some t) →
      ∃ m, Den objs m q t) := by
  obtain ⟨h1, m, h2⟩ := I.forest hp
  refine ⟨fun k => ?_, fun x hx k hk => ?_, fun k q t a b => ?_⟩
  · rw [hasAt_clear, hasAt_clear]
    split
    · rename_i e
      obtain ⟨_, a⟩ := h1 k e
      obtain ⟨_, b⟩ := hp k e
      rw [hasAt_one a, hasAt_one b]
    · omega
  · obtain ⟨a, b, c, d⟩ := I.named hx hk
    refine clear_out fun e => ?_
    obtain ⟨_, b⟩ := hp k e
    rw [hasAt_one b] at c; omega
  · by_cases e : k ∈ hs
    · have := clear_in (l := hands) e
      rw [a] at this; simp at this
    · rw [clear_out e] at a b
      exact I.hval k q t a b

theorem new_ok {hs : List Nat} (x : α) (I : CowInv n objs hands lost ([] ++ rest) f) (hn : hs.Nodup)
    (hp : ∀ h ∈ hs, ∃ p, hands[h]? = some (some p)) :
    CowInv (n + 1) (objs ++ [⟨1, 0, x, Spec.pull hands hs, true, false⟩]) (Spec.clear hands hs ++ [some objs.length]) lost ([] ++ rest)
      (Spec.clear f hs ++ [some (.node x (Spec.pull f hs))]) := by
  obtain ⟨h1, m, h2⟩ := I.forest hp
  obtain ⟨g1, g2, g3⟩ := I.pulled hn hp
  refine I.app ⟨rfl, rfl, rfl⟩ (fun q => ?_) ?_ (fun q => rfl) (fun q => rfl) (by simp) (by simp [clear_length, I.len]) (fun k => ?_)
    ?_ ?_ (by simp) fun keep =>
      ⟨m + 1, .node x (Spec.pull f hs), ⟨1, 0, x, Spec.pull hands hs, true, false⟩, by simp, rfl, rfl, h2.imp fun a b h => keep a m b h⟩
  · have := pull_count hn hp q
    simp only [List.flatMap_append, List.flatMap_cons, List.flatMap_nil, List.append_nil, Option.toList, CowObj.held, if_true,
      List.count_append, count_cons', List.count_nil]
    split <;> omega
  · have := pull_size hn hp
    simp only [List.flatMap_append, List.flatMap_cons, List.flatMap_nil, List.append_nil, Option.toList, CowObj.held, if_true,
      List.length_append, List.length_singleton, List.length_nil]
    omega
  · rw [hasAt_append, hasAt_append, clear_length, clear_length, I.len]
    have := g1 k
    split
    · simp; omega
    · rename_i e
      have e1 : has hands k = 0 := hasAt_out (by omega)
      have e2 : has f k = 0 := hasAt_out (by rw [I.len]; omega)
      rw [e1, e2]
      cases k - hands.length <;> simp [has]
  · intro y hy k hk
    obtain ⟨a, b, c, d⟩ := I.named hy hk
    rw [List.getElem?_append_left (by rw [clear_length]; exact d)]
    exact g2 y hy k hk
  · intro keep k q' u' a b
    rw [List.getElem?_append, clear_length] at a b
    rw [I.len] at b
    split at a
    · rename_i e
      rw [if_pos e] at b
      obtain ⟨m, hm⟩ := g3 k q' u' a b
      exact ⟨m, keep _ _ _ hm⟩
    · rename_i e
      rw [if_neg e] at b
      obtain ⟨j, hj⟩ : ∃ j, j = k - hands.length := ⟨_, rfl⟩
      rw [← hj] at a b
      cases j with
      | zero =>
        simp at a b; subst a; subst b
        exact ⟨m + 1, ⟨1, 0, x, Spec.pull hands hs, true, false⟩, by simp, rfl, rfl, h2.imp fun a b h => keep a m b h⟩
      | succ j => simp at a

theorem new_refused {hs : List Nat} (I : CowInv n objs hands lost ([] ++ rest) f) (hn : hs.Nodup)
    (hp : ∀ h ∈ hs, ∃ p, hands[h]? = some (some p)) :
    CowInv (n + 1) objs (Spec.clear hands hs) (lost ++ Spec.pull hands hs) ([] ++ rest) (Spec.clear f hs) := by
  obtain ⟨g1, g2, g3⟩ := I.pulled hn hp
  refine I.same (fun q => ?_) ?_ (fun q => rfl) (fun q => by simp) (by simp) (by simp [clear_length, I.len]) (fun k => ?_) g2 g3 (by simp)
  · have := pull_count hn hp q
    simp only [List.flatMap_nil, List.count_append, List.count_nil]
    omega
  · have := pull_size hn hp
    simp only [List.flatMap_nil, List.length_append, List.length_nil]
    omega
  · have := g1 k
    simp; omega

/-! ## Changing a node -/

/-- What is known of a `&mut T`. -/
theorem mine (I : CowInv n objs hands lost ([CowOp.held h p] ++ rest) f) :
    ∃ o, objs[p]? = some o ∧ o.alive = true ∧ o.freed = false ∧ o.strong = 1 ∧
      (hands.flatMap Option.toList).count p = 0 ∧ (objs.flatMap CowObj.held).count p = 0 ∧
      (rest.flatMap CowOp.refs).count p = 0 ∧ (rest.flatMap CowOp.ends).count p = 0 ∧ (∀ k ∈ o.kids, k ≠ p) ∧
      hands[h]? = some none ∧ (rest.flatMap CowOp.names).count h = 0 ∧ has f h = 1 ∧
      ∃ t m, f[h]? = some (some t) ∧ o.val = t.val ∧ List.Forall₂ (Den objs m) o.kids t.kids := by
  obtain ⟨n1, n2, n3, n4, t, n5, m, hm⟩ := I.name (op := .held h p) (h := h) rfl
  obtain ⟨o, h1, h2, h3, h4, h5, h6⟩ := I.ref (p := p) (by simp [CowOp.refs])
  have hs := I.sole (.held h p) (by simp) p rfl
  have he := I.ends p
  rw [strOf_eq h1] at hs
  rw [zeroOf_eq h1] at he
  simp only [CowObj.str, h2, if_true] at hs
  simp only [CowObj.zero, h2, hs] at he
  simp only [List.flatMap_append, List.flatMap_cons, List.flatMap_nil, List.append_nil, CowOp.ends, List.count_append, List.count_nil] at he
  rw [hs, allRefs_count] at h4
  simp only [List.flatMap_append, List.flatMap_cons, List.flatMap_nil, List.append_nil, CowOp.refs, List.count_append,
    List.count_singleton_self] at h4
  have e0 : (objs.flatMap CowObj.held).count p = 0 := by omega
  obtain ⟨m, rfl⟩ : ∃ k, m = k + 1 := by
    cases m with
    | zero => exact hm.elim
    | succ m => exact ⟨m, rfl⟩
  obtain ⟨o2, k1, _, k3, k4⟩ := hm
  rw [h1] at k1; cases k1
  refine ⟨o, h1, h2, h3, hs, by omega, e0, by omega, by simpa using he, ?_, n1, n4, n3, t, m, n5, k3, k4⟩
  rintro k hk rfl
  have : k ∈ objs.flatMap CowObj.held :=
    List.mem_flatMap.2 ⟨o, List.mem_of_getElem? h1, by simpa [CowObj.held, h2] using hk⟩
  exact absurd (List.count_pos_iff.2 this) (by omega)

theorem edited {x : α} {ks : List Nat} {t' : Spec.Tree α} {m : Nat} (I : CowInv n objs hands lost ([CowOp.held h p] ++ rest) f)
    (ho : objs[p]? = some o)
    (bal : ∀ q, (hands'.flatMap Option.toList).count q + ks.count q = (hands.flatMap Option.toList).count q + o.kids.count q)
    (size : (hands'.flatMap Option.toList).length + ks.length ≤ (hands.flatMap Option.toList).length + o.kids.length + 1)
    (len : f'.length = hands'.length)
    (names : ∀ k, has hands' k + has f k = has hands k + has f' k)
    (fr : ∀ op ∈ rest, ∀ k ∈ op.names, f'[k]? = f[k]?)
    (hval : ∀ (k q : Nat) (t : Spec.Tree α), hands'[k]? = some (some q) → f'[k]? = some (some t) → q ≠ p ∧ ∃ m, Den objs m q t)
    (ht : f'[h]? = some (some t')) (hx : x = t'.val) (hks : ∀ k ∈ ks, k ≠ p) (hd : List.Forall₂ (Den objs m) ks t'.kids) :
    CowInv (n + 1) (objs.set p { o with val := x, kids := ks }) hands' lost ([CowOp.held h p] ++ rest) f' := by
  obtain ⟨o2, h1, h2, h3, h4, h5, h6, h7, h8, h9, h10, h11, h12, t, m2, h13, h14, h15⟩ := I.mine
  rw [ho] at h1; cases h1
  have new : (∀ k m t, k ≠ p → Den objs m k t → Den (objs.set p { o with val := x, kids := ks }) m k t) →
      Den (objs.set p { o with val := x, kids := ks }) (m + 1) p t' := by
    intro keep
    refine ⟨{ o with val := x, kids := ks }, ?_, h2, hx, ?_⟩
    · rw [List.getElem?_set]
      simp [(List.getElem?_eq_some_iff.1 ho).1]
    · exact forall₂_mem hd fun k hk t ht => keep k m t (hks k hk) ht
  refine I.excl ho h5 h6 h7 h8 (fun q => ?_) ?_ (fun q => ?_) (fun q hq => ?_) ?_ ?_ ?_ len (fun k => ?_) fr hval ?_
    fun keep _ => ⟨_, _, new keep⟩
  · have := bal q
    simp only [CowObj.held, CowObj.str, h2, if_true]
    omega
  · simp only [CowObj.held, h2, if_true]
    omega
  · simp [CowObj.zero]
  · simp
  · simp only [List.flatMap_cons, List.flatMap_nil, List.append_nil, CowOp.looks, List.count_nil, h2]
    intro R h1 h2
    exact absurd (h1 h2).2.1 (by simp)
  · simp [h3]
  · intro y hy q hq
    simp only [List.mem_singleton] at hy; subst hy
    simp only [CowOp.sole, Option.some.injEq] at hq; subst hq
    rw [strOf_set ho]; simp [CowObj.str, h2, h4]
  · have := names k
    omega
  · intro keep y hy k hk u hu
    simp only [List.mem_singleton] at hy; subst hy
    simp only [CowOp.names, List.mem_singleton] at hk; subst hk
    rw [ht] at hu; cases hu
    exact ⟨_, new keep⟩

theorem not_mine (I : CowInv n objs hands lost ([CowOp.held h p] ++ rest) f) {k q : Nat} (hk : hands[k]? = some (some q)) :
    q ≠ p ∧ k ≠ h := by
  obtain ⟨o, h1, h2, h3, h4, h5, h6, h7, h8, h9, h10, _⟩ := I.mine
  refine ⟨?_, ?_⟩
  · rintro rfl
    have : q ∈ hands.flatMap Option.toList := List.mem_flatMap.2 ⟨some q, List.mem_of_getElem? hk, by simp⟩
    exact absurd (List.count_pos_iff.2 this) (by omega)
  · rintro rfl
    rw [h10] at hk; cases hk

theorem write_ok (x : α) (I : CowInv n objs hands lost ([CowOp.held h p] ++ rest) f) :
    ∃ o t, objs[p]? = some o ∧ o.alive = true ∧ o.freed = false ∧ f[h]? = some (some t) ∧
      CowInv (n + 1) (objs.set p { o with val := x }) hands lost ([CowOp.held h p] ++ rest) (f.set h (some (.node x t.kids))) := by
  obtain ⟨o, h1, h2, h3, h4, h5, h6, h7, h8, h9, h10, h11, h12, t, m, h13, h14, h15⟩ := I.mine
  obtain ⟨hl, _⟩ := List.getElem?_eq_some_iff.1 h13
  refine ⟨o, t, h1, h2, h3, h13, ?_⟩
  refine I.edited (t' := .node x t.kids) (m := m) (x := x) (ks := o.kids) h1 (fun q => rfl) (by omega) (by simp [I.len]) (fun k => ?_) ?_ ?_
    (by simp [hl]) rfl h9 h15
  · rw [hasAt_set hl]
    by_cases e : k = h
    · subst e; simp [h12]
    · simp [e]
  · intro y hy k hk
    obtain ⟨a, b, c, d⟩ := I.named hy hk
    rw [List.getElem?_set, if_neg (by rintro rfl; omega)]
  · intro k q u a b
    obtain ⟨e1, e2⟩ := I.not_mine a
    rw [List.getElem?_set, if_neg (fun e => e2 e.symm)] at b
    exact ⟨e1, I.hval k q u a b⟩

theorem put_ok {i k q : Nat} (I : CowInv n objs hands lost ([CowOp.held h p] ++ rest) f) (hk : hands[k]? = some (some q)) :
    ∃ o t t', objs[p]? = some o ∧ o.alive = true ∧ o.freed = false ∧ f[h]? = some (some t) ∧ f[k]? = some (some t') ∧ k ≠ h ∧
      o.kids.length = t.kids.length ∧ o.val = t.val ∧ (i ≤ o.kids.length →
      CowInv (n + 1) (objs.set p { o with kids := o.kids.insertIdx i q }) (hands.set k none) lost ([CowOp.held h p] ++ rest)
        ((f.set k none).set h (some (.node t.val (t.kids.insertIdx i t'))))) := by
  obtain ⟨o, h1, h2, h3, h4, h5, h6, h7, h8, h9, h10, h11, h12, t, m, h13, h14, h15⟩ := I.mine
  obtain ⟨o2, k1, k2, k3, k4, k5, k6, k7, k8, k9, k10, t', ht', m', hd⟩ := I.hand hk
  obtain ⟨e1, e2⟩ := I.not_mine hk
  obtain ⟨hl, _⟩ := List.getElem?_eq_some_iff.1 h13
  obtain ⟨kl, _⟩ := List.getElem?_eq_some_iff.1 ht'
  obtain ⟨kl', _⟩ := List.getElem?_eq_some_iff.1 hk
  refine ⟨o, t, t', h1, h2, h3, h13, ht', e2, h15.length_eq, h14, fun hi => ?_⟩
  have pm := List.perm_insertIdx q o.kids hi
  have cf := fun q => count_flatMap_set Option.toList none hk q
  have lf := length_flatMap_set Option.toList none hk
  simp only [Option.toList, List.count_nil, List.length_nil, List.length_singleton] at cf lf
  refine I.edited (t' := .node t.val (t.kids.insertIdx i t')) (m := max m m') (x := o.val) (ks := o.kids.insertIdx i q) h1 (fun q' => ?_) ?_
    (by simp [I.len]) (fun j => ?_) ?_ ?_ (by simp [hl]) h14 ?_ ?_
  · have := cf q'
    rw [pm.count_eq, count_cons']
    simp only [count_cons', List.count_nil] at this
    omega
  · rw [pm.length_eq, List.length_cons]; omega
  · rw [hasAt_set kl', hasAt_set (by simpa using hl), hasAt_set kl]
    by_cases a : j = h
    · subst a; simp [h12, e2.symm]
    · by_cases b : j = k
      · subst b; simp [k9, k10, a]
      · simp [a, b]
  · intro y hy j hj
    obtain ⟨a, b, c, d⟩ := I.named hy hj
    rw [List.getElem?_set, if_neg (by rintro rfl; omega), List.getElem?_set, if_neg (by rintro rfl; omega)]
  · intro j q' u a b
    rw [List.getElem?_set] at a
    split at a
    · simp [kl'] at a
    · rename_i e
      obtain ⟨c1, c2⟩ := I.not_mine a
      rw [List.getElem?_set, if_neg (fun e => c2 e.symm), List.getElem?_set, if_neg e] at b
      exact ⟨c1, I.hval j q' u a b⟩
  · intro j hj
    rw [pm.mem_iff, List.mem_cons] at hj
    rcases hj with rfl | hj
    · exact e1
    · exact h9 j hj
  · exact forall₂_insertIdx (h15.imp fun _ _ h => h.mono (by omega)) (hd.mono (by omega)) i

theorem take_ok {i : Nat} (I : CowInv n objs hands lost ([CowOp.held h p] ++ rest) f) :
    ∃ o t, objs[p]? = some o ∧ o.alive = true ∧ o.freed = false ∧ f[h]? = some (some t) ∧ ∀ q, o.kids[i]? = some q →
      ∃ u, t.kids[i]? = some u ∧
      CowInv (n + 1) (objs.set p { o with kids := o.kids.eraseIdx i }) (hands ++ [some q]) lost ([CowOp.held h p] ++ rest)
        (f.set h (some (.node t.val (t.kids.eraseIdx i))) ++ [some u]) := by
  obtain ⟨o, h1, h2, h3, h4, h5, h6, h7, h8, h9, h10, h11, h12, t, m, h13, h14, h15⟩ := I.mine
  obtain ⟨hl, _⟩ := List.getElem?_eq_some_iff.1 h13
  refine ⟨o, t, h1, h2, h3, h13, fun q hq => ?_⟩
  obtain ⟨u, hu, hd⟩ := forall₂_get h15 hq
  obtain ⟨il, iq⟩ := List.getElem?_eq_some_iff.1 hq
  have pm : (q :: o.kids.eraseIdx i).Perm o.kids := by
    rw [← iq]; exact List.getElem_cons_eraseIdx_perm il
  refine ⟨u, hu, ?_⟩
  refine I.edited (t' := .node t.val (t.kids.eraseIdx i)) (m := m) (x := o.val) (ks := o.kids.eraseIdx i) h1 (fun q' => ?_) ?_
    (by simp [I.len]) (fun j => ?_) ?_ ?_ (by rw [List.getElem?_append_left (by simpa using hl)]; simp [hl]) h14 ?_ (forall₂_eraseIdx h15 i)
  · have := pm.count_eq q'
    rw [count_cons'] at this
    simp only [List.flatMap_append, List.flatMap_cons, List.flatMap_nil, List.append_nil, Option.toList, List.count_append, count_cons',
      List.count_nil]
    omega
  · have := pm.length_eq
    rw [List.length_cons] at this
    simp only [List.flatMap_append, List.flatMap_cons, List.flatMap_nil, List.append_nil, Option.toList,
      List.length_append, List.length_singleton]
    omega
  · rw [hasAt_append, hasAt_append, List.length_set, I.len, hasAt_set hl]
    split
    · by_cases e : j = h
      · subst e; simp [h12]
      · simp [e]
    · rename_i e
      have e1 : has hands j = 0 := hasAt_out (by omega)
      have e2 : has f j = 0 := hasAt_out (by rw [I.len]; omega)
      rw [e1, e2]
      cases j - hands.length <;> simp [has]
  · intro y hy k hk
    obtain ⟨a, b, c, d⟩ := I.named hy hk
    rw [List.getElem?_append_left (by simpa using d), List.getElem?_set, if_neg (by rintro rfl; omega)]
  · intro k q' u' a b
    rw [List.getElem?_append] at a b
    rw [List.length_set, I.len] at b
    split at a
    · rename_i e
      obtain ⟨c1, c2⟩ := I.not_mine a
      rw [if_pos e, List.getElem?_set, if_neg (fun e => c2 e.symm)] at b
      exact ⟨c1, I.hval k q' u' a b⟩
    · rename_i e
      rw [if_neg e] at b
      obtain ⟨j, hj⟩ : ∃ j, j = k - hands.length := ⟨_, rfl⟩
      rw [← hj] at a b
      cases j with
      | zero => simp at a b; subst a; subst b; exact ⟨h9 _ (List.mem_of_getElem? hq), m, hd⟩
      | succ j => simp at a
  · exact fun k hk => h9 k (List.mem_of_mem_eraseIdx hk)

/-- What is known of a place that can be looked at. -/
theorem seen {s : CowSys α} {r : List (CowOp α)} (I : CowInv n s.objs s.hands s.lost (ops ++ r) f) (hp : s.place ops h = some p) :
    ∃ o, s.objs[p]? = some o ∧ o.alive = true ∧ o.freed = false ∧ ∃ t, f[h]? = some (some t) ∧ ∃ m, Den s.objs m p t := by
  have key : (s.hands[h]?).join = some p → ∃ o, s.objs[p]? = some o ∧ o.alive = true ∧ o.freed = false ∧
      ∃ t, f[h]? = some (some t) ∧ ∃ m, Den s.objs m p t := fun hh => by
    obtain ⟨o, h1, h2, h3, h4, h5, h6, h7, h8, h9, h10, t, ht, hd⟩ := I.hand (Option.join_eq_some_iff.1 hh)
    exact ⟨o, h1, h2, h3, t, ht, hd⟩
  unfold CowSys.place at hp
  split at hp
  · split at hp
    · rename_i e
      cases hp; subst e
      obtain ⟨o, h1, h2, h3, h4, h5, h6, h7, h8, h9, h10, h11, h12, t, m, h13, h14, h15⟩ := I.mine
      exact ⟨o, h1, h2, h3, t, h13, m + 1, o, h1, h2, h14, h15⟩
    · exact key hp
  · exact key hp

end CowInv

namespace Cow
variable [DecidableEq α] {mx n t h p : Nat} {s : CowSys α} {ops r : List (CowOp α)}

theorem walk_ok (hf : ∀ (q : Nat) (o : CowObj α), s.objs[q]? = some o → o.freed = true → o.alive = false) {m : Nat} {u : Spec.Tree α} {path : List Nat}
    (hd : Den s.objs m p u) : walk p path s = .ok (u.look path) s := by
  induction path generalizing p u m with
  | nil =>
    cases m with
    | zero => exact hd.elim
    | succ m =>
      obtain ⟨o, h1, h2, h3, h4⟩ := hd
      have : o.freed = false := by
        by_contra e
        have := hf p o h1 (by simpa using e)
        simp [h2] at this
      simp [walk, M.bind_apply, data_ok h1 this h2, Spec.Tree.look, h3, h4.length_eq]
  | cons i path ih =>
    cases m with
    | zero => exact hd.elim
    | succ m =>
      obtain ⟨o, h1, h2, h3, h4⟩ := hd
      have : o.freed = false := by
        by_contra e
        have := hf p o h1 (by simpa using e)
        simp [h2] at this
      cases e : o.kids[i]? with
      | none =>
        have : u.kids[i]? = none := by
          rw [List.getElem?_eq_none_iff] at e ⊢
          rw [← h4.length_eq]; exact e
        simp [walk, M.bind_apply, data_ok h1 ‹_› h2, Spec.Tree.look, e, this]
      | some q =>
        obtain ⟨v, k1, k2⟩ := forall₂_get h4 e
        simp [walk, M.bind_apply, data_ok h1 this h2, Spec.Tree.look, e, k1, ih k2]

theorem play_one {log : List (Spec.TreeEv α)} {f f' : List (Option (Spec.Tree α))} {e : Spec.TreeEv α} (h1 : Spec.playTrees log = some f)
    (h2 : e.play f = some f') : Spec.playTrees (log ++ [e]) = some f' := by
  simp only [Spec.playTrees] at h1 ⊢
  simp [List.foldlM_append, h1, h2]

theorem getTop (G : s.Good n) (ht : s.threads[t]? = some ops) :
    ∃ rest f, Spec.playTrees s.log = some f ∧ CowInv n s.objs s.hands s.lost (ops ++ rest) f := by
  obtain ⟨f, h1, I⟩ := G
  obtain ⟨rest, h2, _⟩ := flatten_set ht
  exact ⟨rest, f, h1, I.perm h2⟩

theorem good_mono (G : s.Good n) : s.Good (n + 1) := by
  obtain ⟨f, h1, I⟩ := G
  exact ⟨f, h1, I.mono⟩

theorem same_thread (ht : s.threads[t]? = some ops) : s.threads = s.threads.set t ops := by
  obtain ⟨h1, h2⟩ := List.getElem?_eq_some_iff.1 ht
  rw [← h2]; exact (List.set_getElem_self h1).symm

/-- The program does something with its handles only. -/
theorem good_nil {s' : CowSys α} (G : s.Good n) (ht : s.threads[t]? = some ops) (es : s'.threads = s.threads)
    (H : ∀ rest f, Spec.playTrees s.log = some f → CowInv n s.objs s.hands s.lost ([] ++ rest) f →
      ∃ f', Spec.playTrees s'.log = some f' ∧ CowInv (n + 1) s'.objs s'.hands s'.lost ([] ++ rest) f') : s'.Good (n + 1) := by
  refine good_of (old := []) (new := []) (r := ops) G ht ?_ H
  rw [es]; exact same_thread ht

theorem grow_good {q : Nat} {o : CowObj α} {e : Spec.TreeEv α} (G : s.Good n) (hn : n ≤ mx) (ht : s.threads[t]? = some ops) (ho : s.objs[q]? = some o)
    (ha : o.alive = true) (hf : o.freed = false) (h0 : 0 < o.strong) (hle : o.strong ≤ n)
    (hc : 0 < (s.hands.flatMap Option.toList).count q + (s.objs.flatMap CowObj.held).count q)
    (he : ∀ rest f, CowInv n s.objs s.hands s.lost ([] ++ rest) f → Spec.playTrees s.log = some f → ∃ u m, Den s.objs m q u ∧ e.play f = some (f ++ [some u])) :
    ∃ s', grow mx q e s = .ok () s' ∧ s'.Good (n + 1) := by
  have d : Arc.incr mx o.strong = o.strong + 1 := by
    simp only [Arc.incr, Arc.lock, show o.strong ≠ 2 * mx + 1 by omega, if_false]
  refine ⟨_, by simp only [grow, M.bind_apply, obj_ok ho hf, put, M.modify_apply, if_neg (show ¬ o.strong > mx by omega), more, tell, d]; rfl, ?_⟩
  refine good_nil G ht rfl fun rest f hl I => ?_
  obtain ⟨u, m, h1, h2⟩ := he rest f I hl
  exact ⟨_, play_one hl h2, I.grown ho ha hf h0 hc h1⟩

theorem place_hand (G : s.Good n) (ht : s.threads[t]? = some ops) (hh : s.hands[h]? = some (some p)) : s.place ops h = some p := by
  obtain ⟨rest, f, _, I⟩ := getTop G ht
  unfold CowSys.place
  split
  · rename_i h' p' r'
    split
    · rename_i e
      subst e
      exact absurd rfl (CowInv.not_mine (rest := r' ++ rest) I hh).2
    · simp [hh]
  · simp [hh]

theorem new_good (x : α) (hs : List Nat) (grant : Bool) (G : s.Good n) (hn : n ≤ mx) (ht : s.threads[t]? = some ops) (hl : CowCmd.legal s ops (.new x hs)) :
    ∃ s', call mx t ops grant (.new x hs) s = .ok () s' ∧ s'.Good (n + 1) := by
  obtain ⟨rest0, f0, hp0, I0⟩ := getTop G ht
  obtain ⟨h1, h2⟩ := hl
  cases grant with
  | true =>
    refine ⟨_, by simp only [call, new, if_true, M.modify_apply]; rfl, ?_⟩
    refine good_nil G ht rfl fun rest f hl I => ⟨_, play_one hl ?_, I.new_ok x h1 h2⟩
    simp [Spec.TreeEv.play, h1, pull_length (I.forest h2).1]
  | false =>
    refine ⟨_, by simp only [call, new, M.modify_apply, Bool.false_eq_true, if_false]; rfl, ?_⟩
    exact good_nil G ht rfl fun rest f hl I => ⟨_, play_one hl rfl, I.new_refused h1 h2⟩

theorem clone_good (h : Nat) (grant : Bool) (G : s.Good n) (hn : n ≤ mx) (ht : s.threads[t]? = some ops) (hl : CowCmd.legal s ops (.clone h)) :
    ∃ s', call mx t ops grant (.clone h) s = .ok () s' ∧ s'.Good (n + 1) := by
  obtain ⟨rest0, f0, hp0, I0⟩ := getTop G ht
  obtain ⟨p, hh⟩ := hl
  obtain ⟨o, h1, h2, h3, h4, h5, h6, h7, h8, h9, h10, _⟩ := I0.hand hh
  simp only [call, through, place_hand G ht hh]
  refine grow_good G hn ht h1 h2 h3 h5 h6 (by omega) fun rest f I _ => ?_
  obtain ⟨_, _, _, _, _, _, _, _, _, _, _, u, hu, m, hd⟩ := I.hand hh
  exact ⟨u, m, hd, by simp [Spec.TreeEv.play, hu]⟩

theorem cloneKid_good (h : Nat) (i : Nat) (grant : Bool) (G : s.Good n) (hn : n ≤ mx) (ht : s.threads[t]? = some ops) (hl : CowCmd.legal s ops (.cloneKid h i)) :
    ∃ s', call mx t ops grant (.cloneKid h i) s = .ok () s' ∧ s'.Good (n + 1) := by
  obtain ⟨rest0, f0, hp0, I0⟩ := getTop G ht
  obtain ⟨p, hh⟩ := hl
  obtain ⟨o, h1, h2, h3, _⟩ := I0.seen hh
  simp only [call, through, growKid, hh, M.bind_apply, data_ok h1 h3 h2]
  cases e : o.kids[i]? with
  | none => exact ⟨s, rfl, good_mono G⟩
  | some q =>
    have hm : q ∈ s.objs.flatMap CowObj.held :=
      List.mem_flatMap.2 ⟨o, List.mem_of_getElem? h1, by simpa [CowObj.held, h2] using List.mem_of_getElem? e⟩
    have hc := List.count_pos_iff.2 hm
    obtain ⟨k, k1, k2, k3, k4⟩ := I0.there (q := q) (by rw [allRefs_count]; omega)
    have hsz := I0.size
    have hle := List.count_le_length (a := q) (l := allRefs s.objs s.hands s.lost (ops ++ rest0))
    refine grow_good G hn ht k1 k2 k3 (by rw [k4, allRefs_count]; omega) (by omega) (by omega) fun rest f I hf => ?_
    rw [hp0] at hf; cases hf
    obtain ⟨_, _, _, _, u, hu, m, hd⟩ := I0.seen hh
    cases m with
    | zero => exact hd.elim
    | succ m =>
      obtain ⟨o', j1, j2, j3, j4⟩ := hd
      rw [h1] at j1; cases j1
      obtain ⟨v, l1, l2⟩ := forall₂_get j4 e
      exact ⟨v, m, l2, by simp [Spec.TreeEv.play, hu, l1]⟩

theorem read_good (h : Nat) (path : List Nat) (grant : Bool) (G : s.Good n) (hn : n ≤ mx) (ht : s.threads[t]? = some ops) (hl : CowCmd.legal s ops (.read h path)) :
    ∃ s', call mx t ops grant (.read h path) s = .ok () s' ∧ s'.Good (n + 1) := by
  obtain ⟨rest0, f0, hp0, I0⟩ := getTop G ht
  obtain ⟨p, hh⟩ := hl
  obtain ⟨o, h1, h2, h3, u, hu, m, hd⟩ := I0.seen hh
  refine ⟨_, by simp only [call, through, hh, M.bind_apply, walk_ok I0.freed hd, tell, M.modify_apply]; rfl, ?_⟩
  refine good_nil G ht rfl fun rest f hf I => ⟨f, play_one hf ?_, I.mono⟩
  rw [hp0] at hf; cases hf
  simp [Spec.TreeEv.play, hu]

theorem downgrade_good (h : Nat) (grant : Bool) (G : s.Good n) (hn : n ≤ mx) (ht : s.threads[t]? = some ops) (hl : CowCmd.legal s ops (.downgrade h)) :
    ∃ s', call mx t ops grant (.downgrade h) s = .ok () s' ∧ s'.Good (n + 1) := by
  obtain ⟨rest0, f0, hp0, I0⟩ := getTop G ht
  obtain ⟨p, hh⟩ := hl
  obtain ⟨o, h1, h2, h3, h4, h5, h6, h7, h8, h9, h10, _⟩ := I0.hand hh
  simp only [call, through, downgrade, place_hand G ht hh, M.bind_apply, obj_ok h1 h3]
  split
  · exact ⟨s, rfl, good_mono G⟩
  · refine ⟨_, rfl, ?_⟩
    exact good_nil G ht rfl fun rest f hf I => ⟨f, hf, I.weak h1 _ h2 h3⟩

theorem drop_good (h : Nat) (grant : Bool) (G : s.Good n) (hn : n ≤ mx) (ht : s.threads[t]? = some ops) (hl : CowCmd.legal s ops (.drop h)) :
    ∃ s', call mx t ops grant (.drop h) s = .ok () s' ∧ s'.Good (n + 1) := by
  obtain ⟨rest0, f0, hp0, I0⟩ := getTop G ht
  obtain ⟨p, hh⟩ := hl
  refine ⟨_, by simp only [call, through, place_hand G ht hh, give, tell, go, M.bind_apply, M.modify_apply]; rfl, ?_⟩
  refine good_of (old := []) (new := [.sub p false]) (r := ops) G ht rfl fun rest f hf I => ⟨_, play_one hf rfl, ?_⟩
  have := I.off (new := [.sub p false]) (lost' := []) hh (by simp [CowOp.refs]) (by simp [CowOp.refs]) rfl rfl rfl (by simp [CowOp.sole])
  simpa [Spec.clear] using this

theorem forget_good (h : Nat) (grant : Bool) (G : s.Good n) (hn : n ≤ mx) (ht : s.threads[t]? = some ops) (hl : CowCmd.legal s ops (.forget h)) :
    ∃ s', call mx t ops grant (.forget h) s = .ok () s' ∧ s'.Good (n + 1) := by
  obtain ⟨rest0, f0, hp0, I0⟩ := getTop G ht
  obtain ⟨p, hh⟩ := hl
  refine ⟨_, by simp only [call, through, place_hand G ht hh, give, tell, M.bind_apply, M.modify_apply]; rfl, ?_⟩
  refine good_nil G ht rfl fun rest f hf I => ⟨_, play_one hf rfl, ?_⟩
  have := I.off (new := []) (lost' := [p]) hh (by simp) (by simp) rfl rfl rfl (by simp)
  simpa [Spec.clear] using this

theorem unwrap_good (h : Nat) (grant : Bool) (G : s.Good n) (hn : n ≤ mx) (ht : s.threads[t]? = some ops) (hl : CowCmd.legal s ops (.unwrap h)) :
    ∃ s', call mx t ops grant (.unwrap h) s = .ok () s' ∧ s'.Good (n + 1) := by
  obtain ⟨rest0, f0, hp0, I0⟩ := getTop G ht
  obtain ⟨p, hh⟩ := hl
  obtain ⟨o, h1, h2, h3, h4, h5, h6, h7, h8, h9, h10, _⟩ := I0.hand hh
  simp only [call, through, unwrap, place_hand G ht hh, M.bind_apply, obj_ok h1 h3]
  split
  · refine ⟨_, rfl, ?_⟩
    exact good_run (old := []) (new := [.unw h p]) (r := ops) G ht rfl rfl fun rest f I => I.last hh h1 ‹_›
  · exact ⟨s, rfl, good_mono G⟩

theorem getMut_good (h : Nat) (grant : Bool) (G : s.Good n) (hn : n ≤ mx) (ht : s.threads[t]? = some ops) (hl : CowCmd.legal s ops (.getMut h)) :
    ∃ s', call mx t ops grant (.getMut h) s = .ok () s' ∧ s'.Good (n + 1) := by
  obtain ⟨rest0, f0, hp0, I0⟩ := getTop G ht
  obtain ⟨p, hh⟩ := hl
  refine ⟨_, by simp only [call, through, place_hand G ht hh, give, go, M.bind_apply, M.modify_apply]; rfl, ?_⟩
  exact good_run (old := []) (new := [.get0 h p]) (r := ops) G ht rfl rfl fun rest f I => I.take hh rfl rfl rfl rfl rfl fun _ h => h

theorem makeMut_good (h : Nat) (grant : Bool) (G : s.Good n) (hn : n ≤ mx) (ht : s.threads[t]? = some ops) (hl : CowCmd.legal s ops (.makeMut h)) :
    ∃ s', call mx t ops grant (.makeMut h) s = .ok () s' ∧ s'.Good (n + 1) := by
  obtain ⟨rest0, f0, hp0, I0⟩ := getTop G ht
  obtain ⟨p, hh⟩ := hl
  refine ⟨_, by simp only [call, through, place_hand G ht hh, give, go, M.bind_apply, M.modify_apply]; rfl, ?_⟩
  exact good_run (old := []) (new := [.mm0 h p]) (r := ops) G ht rfl rfl fun rest f I => I.take hh rfl rfl rfl rfl rfl fun _ h => h

theorem write_good (x : α) (grant : Bool) (G : s.Good n) (hn : n ≤ mx) (ht : s.threads[t]? = some ops) (hl : CowCmd.legal s ops (.write x)) :
    ∃ s', call mx t ops grant (.write x) s = .ok () s' ∧ s'.Good (n + 1) := by
  obtain ⟨rest0, f0, hp0, I0⟩ := getTop G ht
  obtain ⟨h, p, r, rfl⟩ := hl
  have I0' : CowInv n s.objs s.hands s.lost ([.held h p] ++ (r ++ rest0)) f0 := I0
  obtain ⟨o, u, h1, h2, h3, h4, _⟩ := I0'.write_ok x
  refine ⟨_, by simp only [call, within, unwrap, downgrade, growKid, M.bind_apply, data_ok h1 h3 h2, put, tell, M.modify_apply]; rfl, ?_⟩
  refine good_of (old := [.held h p]) (new := [.held h p]) (r := r) G ht (same_thread ht) fun rest f hf I => ?_
  obtain ⟨o', u', k1, k2, k3, k4, k5⟩ := I.write_ok x
  rw [h1] at k1; cases k1
  exact ⟨_, play_one hf (by simp [Spec.TreeEv.play, k4]), k5⟩

theorem put_good (i : Nat) (h' : Nat) (grant : Bool) (G : s.Good n) (hn : n ≤ mx) (ht : s.threads[t]? = some ops) (hl : CowCmd.legal s ops (.put i h')) :
    ∃ s', call mx t ops grant (.put i h') s = .ok () s' ∧ s'.Good (n + 1) := by
  obtain ⟨rest0, f0, hp0, I0⟩ := getTop G ht
  obtain ⟨⟨h, p, r, rfl⟩, q, hq⟩ := hl
  have I0' : CowInv n s.objs s.hands s.lost ([.held h p] ++ (r ++ rest0)) f0 := I0
  obtain ⟨o, u, u', h1, h2, h3, h4, _⟩ := I0'.put_ok (i := i) hq
  simp only [call, within, putKid, M.bind_apply, data_ok h1 h3 h2, M.get_apply, hq, Option.join_some]
  split
  · refine ⟨_, rfl, ?_⟩
    refine good_of (old := [.held h p]) (new := [.held h p]) (r := r) G ht (same_thread ht) fun rest f hf I => ?_
    obtain ⟨o', u, u', k1, k2, k3, k4, k5, k6, k7, k8, k9⟩ := I.put_ok (i := i) hq
    rw [h1] at k1; cases k1
    exact ⟨_, play_one hf (by simp [Spec.TreeEv.play, k4, k5, k6, ← k7, ‹i ≤ _›]), k9 ‹_›⟩
  · exact ⟨s, rfl, good_mono G⟩

theorem take_good (i : Nat) (grant : Bool) (G : s.Good n) (hn : n ≤ mx) (ht : s.threads[t]? = some ops) (hl : CowCmd.legal s ops (.take i)) :
    ∃ s', call mx t ops grant (.take i) s = .ok () s' ∧ s'.Good (n + 1) := by
  obtain ⟨rest0, f0, hp0, I0⟩ := getTop G ht
  obtain ⟨h, p, r, rfl⟩ := hl
  have I0' : CowInv n s.objs s.hands s.lost ([.held h p] ++ (r ++ rest0)) f0 := I0
  obtain ⟨o, u, h1, h2, h3, h4, _⟩ := I0'.take_ok (i := i)
  simp only [call, within, takeKid, M.bind_apply, data_ok h1 h3 h2]
  cases e : o.kids[i]? with
  | none => exact ⟨s, rfl, good_mono G⟩
  | some q =>
    refine ⟨_, rfl, ?_⟩
    refine good_of (old := [.held h p]) (new := [.held h p]) (r := r) G ht (same_thread ht) fun rest f hf I => ?_
    obtain ⟨o', u, k1, k2, k3, k4, k5⟩ := I.take_ok (i := i)
    rw [h1] at k1; cases k1
    obtain ⟨v, l1, l2⟩ := k5 q e
    exact ⟨_, play_one hf (by simp [Spec.TreeEv.play, k4, l1]), l2⟩

theorem letGo_good  (grant : Bool) (G : s.Good n) (hn : n ≤ mx) (ht : s.threads[t]? = some ops) (hl : CowCmd.legal s ops (.letGo)) :
    ∃ s', call mx t ops grant (.letGo) s = .ok () s' ∧ s'.Good (n + 1) := by
  obtain ⟨rest0, f0, hp0, I0⟩ := getTop G ht
  obtain ⟨h, p, r, rfl⟩ := hl
  have I0' : CowInv n s.objs s.hands s.lost ([.held h p] ++ (r ++ rest0)) f0 := I0
  obtain ⟨o, h1, h2, h3, _⟩ := I0'.mine
  refine ⟨_, by simp only [call, within, give, go, M.bind_apply, M.modify_apply]; rfl, ?_⟩
  refine good_run (old := [.held h p]) (new := []) (r := r) G ht rfl rfl fun rest f I => ?_
  have := I.back (h := h) (lost' := []) h1 o.weak h2 h3 (fun _ => rfl) rfl rfl rfl rfl fun _ h => h
  simpa using this.same_obj h1

/-- Every call that the compiler allows can be made, and keeps to the trees. -/
theorem call_good {grant : Bool} {cmd : CowCmd α} (G : s.Good n) (hn : n ≤ mx) (ht : s.threads[t]? = some ops) (hl : cmd.legal s ops) :
    ∃ s', call mx t ops grant cmd s = .ok () s' ∧ s'.Good (n + 1) := by
  cases cmd with
  | new x hs => exact new_good x hs grant G hn ht hl
  | clone h => exact clone_good h grant G hn ht hl
  | cloneKid h i => exact cloneKid_good h i grant G hn ht hl
  | read h path => exact read_good h path grant G hn ht hl
  | downgrade h => exact downgrade_good h grant G hn ht hl
  | drop h => exact drop_good h grant G hn ht hl
  | forget h => exact forget_good h grant G hn ht hl
  | unwrap h => exact unwrap_good h grant G hn ht hl
  | getMut h => exact getMut_good h grant G hn ht hl
  | makeMut h => exact makeMut_good h grant G hn ht hl
  | write x => exact write_good x grant G hn ht hl
  | put i h' => exact put_good i h' grant G hn ht hl
  | take i => exact take_good i grant G hn ht hl
  | letGo => exact letGo_good  grant G hn ht hl

end Cow

theorem CowSys.start_good [DecidableEq α] (k : Nat) : (CowSys.start k : CowSys α).Good 0 := by
  refine ⟨[], rfl, ?_⟩
  have e : (List.replicate k ([] : List (CowOp α))).flatten = [] := by simp
  constructor <;> simp [CowSys.start, allRefs, strOf, zeroOf, has]

theorem CowReaches.good [DecidableEq α] {mx n : Nat} {calm : Prop} {s : CowSys α} (hc : calm) (h : CowReaches mx calm n s) (hn : n ≤ mx) : s.Good n := by
  induction h with
  | start k => exact CowSys.start_good k
  | @step n _ _ _ hs ih =>
    have G := ih (by omega)
    have hn' : n ≤ mx := by omega
    cases hs with
    | call t grant cmd ht _ hl e =>
      obtain ⟨s', h1, h2⟩ := Cow.call_good (mx := mx) (grant := grant) G hn' ht hl
      rw [h1] at e; cases e; exact h2
    | run t ch ht e hl =>
      obtain ⟨s', h1, h2⟩ := Cow.step_good (mx := mx) G hn' ht (hl hc)
      rw [h1] at e; cases e; exact h2

end Lokky
