import Verif.Proofs.ArcTreeStep

/-! Every step of a thread keeps to the trees. -/

namespace Lokky
variable {α : Type}

/-- The objects are the trees that the program should see. -/
def CowSys.Good [DecidableEq α] (n : Nat) (s : CowSys α) : Prop :=
  ∃ f, Spec.playTrees s.log = some f ∧ CowInv n s.objs s.hands s.lost s.threads.flatten f

theorem count_cons' {a q : Nat} {l : List Nat} : (a :: l).count q = l.count q + if q = a then 1 else 0 := by
  rw [List.count_cons]
  by_cases e : q = a
  · simp [e]
  · simp [e, show ¬ a = q from fun h => e h.symm]

theorem good_of [DecidableEq α] {n t : Nat} {s s' : CowSys α} {old new r : List (CowOp α)} (G : s.Good n)
    (ht : s.threads[t]? = some (old ++ r)) (es : s'.threads = s.threads.set t (new ++ r))
    (H : ∀ rest f, Spec.playTrees s.log = some f → CowInv n s.objs s.hands s.lost (old ++ rest) f →
      ∃ f', Spec.playTrees s'.log = some f' ∧ CowInv (n + 1) s'.objs s'.hands s'.lost (new ++ rest) f') : s'.Good (n + 1) := by
  obtain ⟨f, h1, I⟩ := G
  obtain ⟨rest, h2, h3⟩ := flatten_set ht
  obtain ⟨f', k1, k2⟩ := H (r ++ rest) f h1 (I.perm (by rw [← List.append_assoc]; exact h2))
  refine ⟨f', k1, k2.perm ?_⟩
  rw [es, ← List.append_assoc]
  exact (h3 (new ++ r)).symm

/-- … where the log does not change. -/
theorem good_run [DecidableEq α] {n t : Nat} {s s' : CowSys α} {old new r : List (CowOp α)} (G : s.Good n)
    (ht : s.threads[t]? = some (old ++ r)) (es : s'.threads = s.threads.set t (new ++ r)) (el : s'.log = s.log)
    (H : ∀ rest f, CowInv n s.objs s.hands s.lost (old ++ rest) f →
      CowInv (n + 1) s'.objs s'.hands s'.lost (new ++ rest) f) : s'.Good (n + 1) :=
  good_of G ht es fun rest f h1 I => ⟨f, by rw [el]; exact h1, H rest f I⟩

section
variable {n : Nat} {objs : List (CowObj α)} {hands : List (Option Nat)} {lost : List Nat}
  {ops rest : List (CowOp α)} {f : List (Option (Spec.Tree α))} {p q h : Nat} {op : CowOp α}

/-- What is known of the handle that a call has taken. -/
theorem CowInv.name (I : CowInv n objs hands lost ([op] ++ rest) f) (hh : op.names = [h]) :
    hands[h]? = some none ∧ has hands h = 0 ∧ has f h = 1 ∧ (rest.flatMap CowOp.names).count h = 0 ∧
      ∃ t, f[h]? = some (some t) ∧ op.Means objs t := by
  have h1 := I.names h
  have h2 := hasAt_le (l := f) (h := h)
  simp only [List.flatMap_append, List.flatMap_cons, List.flatMap_nil, List.append_nil, hh, List.count_append,
    List.count_singleton_self] at h1
  obtain ⟨t, ht⟩ := hasAt_pos (l := f) (h := h) (by omega)
  have hl : h < hands.length := by rw [← I.len]; exact (List.getElem?_eq_some_iff.1 ht).1
  refine ⟨?_, by omega, by omega, by omega, t, ht, I.oval op (by simp) h (by simp [hh]) t ht⟩
  rw [List.getElem?_eq_getElem hl]
  cases e : hands[h] with
  | none => rfl
  | some x =>
    have := hasAt_one (l := hands) (h := h) (x := x) (by rw [List.getElem?_eq_getElem hl, e])
    omega

theorem CowInv.ref (I : CowInv n objs hands lost ([op] ++ rest) f) (hp : p ∈ op.refs) :
    ∃ o, objs[p]? = some o ∧ o.alive = true ∧ o.freed = false ∧
      o.strong = (allRefs objs hands lost ([op] ++ rest)).count p ∧ 0 < o.strong ∧ o.strong ≤ n := by
  have h0 : 0 < (allRefs objs hands lost ([op] ++ rest)).count p := by
    have := List.count_pos_iff.2 hp
    simp only [allRefs_count, List.flatMap_append, List.flatMap_cons, List.flatMap_nil, List.append_nil, List.count_append]
    omega
  obtain ⟨o, h1, h2, h3, h4⟩ := I.there h0
  have := I.size
  have := List.count_le_length (a := p) (l := allRefs objs hands lost ([op] ++ rest))
  exact ⟨o, h1, h2, h3, h4, by omega, by omega⟩

end

namespace Cow
variable {s : CowSys α} {p : Nat} {o : CowObj α}

theorem obj_ok (ho : s.objs[p]? = some o) (hf : o.freed = false) : obj p s = .ok o s := by
  simp [obj, ho, hf]

theorem data_ok (ho : s.objs[p]? = some o) (hf : o.freed = false) (ha : o.alive = true) : data p s = .ok o s := by
  simp [data, M.bind_apply, obj_ok ho hf, ha]

end Cow

namespace CowInv
variable {n : Nat} {objs : List (CowObj α)} {hands : List (Option Nat)} {lost lost' : List Nat}
  {ops rest new : List (CowOp α)} {f : List (Option (Spec.Tree α))} {p q h : Nat} {op : CowOp α} {o : CowObj α}

/-- A call goes on, or has changed `weak` only. -/
theorem again (I : CowInv n objs hands lost ([op] ++ rest) f) (ho : objs[p]? = some o) (w : Nat) {op' : CowOp α}
    (ea : o.alive = true) (ef : o.freed = false)
    (er : ∀ q, op'.refs.count q = op.refs.count q) (el : op'.refs.length = op.refs.length) (ee : op'.ends = op.ends)
    (ek : op'.looks = op.looks) (en : op'.names = op.names)
    (hs : ∀ q, op'.sole = some q → strOf objs q = 1)
    (hm : ∀ t, op.Means objs t → op'.Means objs t) :
    CowInv (n + 1) (objs.set p { o with weak := w }) hands lost ([op'] ++ rest) f := by
  refine I.quiet ho rfl rfl rfl (fun q => ?_) ?_ (fun q => ?_) (fun q _ => ?_) ?_ ?_ ?_ (.inl rfl) I.len (fun k => ?_)
    (fun _ _ _ _ => rfl) I.hval ?_
  · simp only [List.flatMap_cons, List.flatMap_nil, List.append_nil, er, CowObj.str]
  · simp only [List.flatMap_cons, List.flatMap_nil, List.append_nil, el]; omega
  · simp only [List.flatMap_cons, List.flatMap_nil, List.append_nil, ee, CowObj.zero]
  · simp only [List.flatMap_cons, List.flatMap_nil, List.append_nil, ek]; omega
  · simp only [List.flatMap_cons, List.flatMap_nil, List.append_nil, ek, ea, ef]
    intro R h1 h2
    exact absurd (h1 h2).2.1 (by simp)
  · simp [ef]
  · intro x hx q hq
    simp only [List.mem_singleton] at hx; subst hx
    have := hs q hq
    rw [strOf_set ho]
    split
    · rename_i e; subst e; rw [strOf_eq ho] at this; exact this
    · exact this
  · simp only [List.flatMap_cons, List.flatMap_nil, List.append_nil, en]
  · intro x hx k hk t ht
    simp only [List.mem_singleton] at hx; subst hx
    rw [en] at hk
    exact hm t (I.oval op (by simp) k hk t ht)

/-- A call ends, or is left by a panic, and gives the handle back. -/
theorem back (I : CowInv n objs hands lost ([op] ++ rest) f) (ho : objs[p]? = some o) (w : Nat)
    (ea : o.alive = true) (ef : o.freed = false) (er : ∀ q, (p :: lost').count q = op.refs.count q)
    (el : op.refs.length = lost'.length + 1) (ee : op.ends = []) (ek : op.looks = []) (en : op.names = [h])
    (hm : ∀ t, op.Means objs t → ∃ m, Den objs m p t) :
    CowInv (n + 1) (objs.set p { o with weak := w }) (hands.set h (some p)) (lost ++ lost') ([] ++ rest) f := by
  obtain ⟨h1, h2, h3, h4, t, h5, h6⟩ := I.name en
  obtain ⟨hl, _⟩ := List.getElem?_eq_some_iff.1 h1
  have cf := fun q => count_flatMap_set Option.toList (some p) h1 q
  have lf := length_flatMap_set Option.toList (some p) h1
  simp only [Option.toList, List.count_nil, List.length_nil, List.length_singleton] at cf lf
  refine I.quiet ho rfl rfl rfl (fun q => ?_) ?_ (fun q => ?_) (fun q _ => ?_) ?_ ?_ ?_ (.inl rfl) (by simp [I.len]) (fun k => ?_)
    (fun _ _ _ _ => rfl) ?_ ?_
  · have := cf q
    have := er q
    simp only [List.flatMap_cons, List.flatMap_nil, List.append_nil, List.count_append, List.count_nil, count_cons'] at *
    simp only [CowObj.str]
    omega
  · simp only [List.flatMap_cons, List.flatMap_nil, List.append_nil, List.length_append, List.length_nil]; omega
  · simp only [List.flatMap_cons, List.flatMap_nil, List.append_nil, ee, CowObj.zero]
  · simp only [List.flatMap_cons, List.flatMap_nil, List.append_nil, ek]; omega
  · simp only [List.flatMap_cons, List.flatMap_nil, List.append_nil, ek, ea, ef]
    intro R h1 h2
    exact absurd (h1 h2).2.1 (by simp)
  · simp [ef]
  · simp
  · rw [hasAt_set hl]
    simp only [List.flatMap_cons, List.flatMap_nil, List.append_nil, en, count_cons', List.count_nil]
    split
    · rename_i e; subst e; simp [h2]
    · simp
  · intro k q u h7 h8
    rw [List.getElem?_set] at h7
    split at h7
    · rename_i e; subst e
      simp only [hl, if_true, Option.some.injEq] at h7; subst h7
      rw [h5] at h8; cases h8
      exact hm _ h6
    · exact I.hval k q u h7 h8
  · simp

theorem set_same (ho : objs[p]? = some o) : objs.set p o = objs := by
  obtain ⟨h1, h2⟩ := List.getElem?_eq_some_iff.1 ho
  rw [← h2]; exact List.set_getElem_self h1

theorem same_obj (ho : objs[p]? = some o) (I : CowInv n (objs.set p { o with weak := o.weak }) hands lost ops f) :
    CowInv n objs hands lost ops f := by
  have e : objs.set p { o with weak := o.weak } = objs := set_same ho
  rwa [e] at I

/-- As `again`, and no object changes. -/
theorem on (I : CowInv n objs hands lost ([op] ++ rest) f) (ho : objs[p]? = some o) {op' : CowOp α}
    (ea : o.alive = true) (ef : o.freed = false)
    (er : ∀ q, op'.refs.count q = op.refs.count q) (el : op'.refs.length = op.refs.length) (ee : op'.ends = op.ends)
    (ek : op'.looks = op.looks) (en : op'.names = op.names)
    (hs : ∀ q, op'.sole = some q → strOf objs q = 1)
    (hm : ∀ t, op.Means objs t → op'.Means objs t) :
    CowInv (n + 1) objs hands lost ([op'] ++ rest) f :=
  (I.again ho o.weak ea ef er el ee ek en hs hm).same_obj ho

theorem sub_false {mx : Nat} (I : CowInv n objs hands lost ([CowOp.sub p false] ++ rest) f) (ho : objs[p]? = some o)
    (ha : o.alive = true) (hf : o.freed = false) (hs : o.strong = (allRefs objs hands lost ([CowOp.sub p false] ++ rest)).count p)
    (h0 : 0 < o.strong) :
    CowInv (n + 1) (objs.set p { o with strong := Arc.decr mx o.strong }) hands lost
      ((if o.strong = 1 then [CowOp.fin p] else []) ++ rest) f := by
  have d : Arc.decr mx o.strong = o.strong - 1 := by simp only [Arc.decr, show o.strong ≠ 0 by omega, if_false]
  rw [d]
  have e1 : ∀ q, ((if o.strong = 1 then [(CowOp.fin p : CowOp α)] else []).flatMap CowOp.refs).count q = 0 := by
    intro q; split <;> simp [CowOp.refs]
  have e2 : ((if o.strong = 1 then [(CowOp.fin p : CowOp α)] else []).flatMap CowOp.refs).length = 0 := by
    split <;> simp [CowOp.refs]
  have e3 : ∀ q, ((if o.strong = 1 then [(CowOp.fin p : CowOp α)] else []).flatMap CowOp.looks).count q = 0 := by
    intro q; split <;> simp [CowOp.looks]
  have e4 : ∀ q, ((if o.strong = 1 then [(CowOp.fin p : CowOp α)] else []).flatMap CowOp.names).count q = 0 := by
    intro q; split <;> simp [CowOp.names]
  have e5 : ∀ q, ((if o.strong = 1 then [(CowOp.fin p : CowOp α)] else []).flatMap CowOp.ends).count q =
      if o.strong = 1 ∧ q = p then 1 else 0 := by
    intro q; split <;> rename_i h <;> simp [CowOp.ends, h, count_cons']
  refine I.quiet ho rfl rfl rfl (fun q => ?_) ?_ (fun q => ?_) (fun q _ => ?_) ?_ ?_ ?_ (.inr ?_) I.len (fun k => ?_)
    (fun _ _ _ _ => rfl) I.hval ?_
  · rw [e1]
    simp only [List.flatMap_cons, List.flatMap_nil, List.append_nil, CowOp.refs, Bool.false_eq_true, if_false, count_cons',
      List.count_nil, CowObj.str, ha, if_true]
    split <;> omega
  · rw [e2]
    simp only [List.flatMap_cons, List.flatMap_nil, List.append_nil, CowOp.refs, Bool.false_eq_true, if_false, List.length_singleton]
    omega
  · rw [e5]
    simp only [List.flatMap_cons, List.flatMap_nil, List.append_nil, CowOp.ends, List.count_nil, CowObj.zero, ha, true_and]
    by_cases e : q = p
    · by_cases e' : o.strong = 1
      · simp [e, e']
      · simp [e, e', show ¬ o.strong = 0 by omega, show ¬ o.strong - 1 = 0 by omega]
    · simp [e]
  · rw [e3]; omega
  · rw [e3]
    simp only [List.flatMap_cons, List.flatMap_nil, List.append_nil, CowOp.looks, Bool.false_eq_true, if_false, List.count_nil, ha]
    intro R h1 h2
    exact absurd (h1 h2).2.1 (by simp)
  · simp [hf]
  · intro x hx q hq
    split at hx
    · simp only [List.mem_singleton] at hx; subst hx; simp [CowOp.sole] at hq
    · simp at hx
  · intro x hx hs'
    have h1 := I.sole x (by simp [hx]) p hs'
    rw [strOf_eq ho] at h1
    simp only [CowObj.str, ha, if_true] at h1
    have h2 := List.count_pos_iff.2 (List.mem_flatMap.2 ⟨x, hx, CowOp.sole_refs hs'⟩)
    simp only [allRefs_count, List.flatMap_append, List.flatMap_cons, List.flatMap_nil, List.append_nil, CowOp.refs,
      Bool.false_eq_true, if_false, List.count_append, List.count_singleton_self] at hs
    omega
  · rw [e4]
    simp [CowOp.names]
  · intro x hx
    split at hx
    · simp only [List.mem_singleton] at hx; subst hx; simp [CowOp.names]
    · simp at hx

theorem sub_true {k : Nat} (I : CowInv n objs hands lost ([CowOp.sub p true] ++ rest) f) (ho : objs[p]? = some o)
    (ha : o.alive = false) (hf : o.freed = false) :
    CowInv (n + 1) (objs.set p { o with strong := k }) hands lost ([] ++ rest) f := by
  refine I.quiet ho rfl rfl rfl (fun q => ?_) ?_ (fun q => ?_) (fun q _ => ?_) ?_ ?_ ?_ (.inl ?_) I.len (fun k => ?_)
    (fun _ _ _ _ => rfl) I.hval ?_
  · simp [CowOp.refs, CowObj.str, ha]
  · simp [CowOp.refs]
  · simp [CowOp.ends, CowObj.zero, ha]
  · simp
  · simp only [List.flatMap_cons, List.flatMap_nil, List.append_nil, CowOp.looks, if_true, List.count_singleton_self, List.count_nil]
    intro R h1 h2
    have := (h1 (by omega)).1
    omega
  · simp [hf]
  · simp
  · simp [CowObj.str, ha]
  · simp [CowOp.names]
  · simp

theorem fin_ok (I : CowInv n objs hands lost ([CowOp.fin p] ++ rest) f) (ho : objs[p]? = some o) (ha : o.alive = true)
    (hf : o.freed = false) (hs : o.strong = 0) (he : (([CowOp.fin p] ++ rest).flatMap CowOp.ends).count p = 1)
    (hr : (allRefs objs hands lost ([CowOp.fin p] ++ rest)).count p = 0) :
    CowInv (n + 1) (objs.set p { o with alive := false }) hands lost ((o.kids.map (CowOp.sub · false) ++ [.look p]) ++ rest) f := by
  simp only [allRefs_count, List.flatMap_append, List.flatMap_cons, List.flatMap_nil, List.append_nil, CowOp.refs, CowOp.ends,
    List.count_append, List.count_singleton_self] at hr he
  have e1 : (o.kids.map (CowOp.sub · false : Nat → CowOp α)).flatMap CowOp.refs = o.kids := by
    simp [List.flatMap_map, CowOp.refs]
  have e2 : (o.kids.map (CowOp.sub · false : Nat → CowOp α)).flatMap CowOp.ends = [] := by
    simp [List.flatMap_map, CowOp.ends]
  have e3 : (o.kids.map (CowOp.sub · false : Nat → CowOp α)).flatMap CowOp.looks = [] := by
    simp [List.flatMap_map, CowOp.looks]
  have e4 : (o.kids.map (CowOp.sub · false : Nat → CowOp α)).flatMap CowOp.names = [] := by
    simp [List.flatMap_map, CowOp.names]
  refine I.excl ho (by omega) (by omega) (by omega) (by omega) (fun q => ?_) ?_ (fun q => ?_) (fun q hq => ?_) ?_ ?_ ?_ I.len
    (fun k => ?_) (fun _ _ _ _ => rfl) ?_ ?_ (by simp)
  · simp [e1, CowOp.refs, CowObj.held, CowObj.str, ha, hs]
  · simp [e1, CowOp.refs, CowObj.held, ha]
  · simp only [List.flatMap_append, e2, List.flatMap_cons, List.flatMap_nil, List.append_nil, CowOp.ends, List.nil_append,
      List.count_nil, count_cons', CowObj.zero, ha, hs]
    split <;> simp
  · simp [e3, CowOp.looks, count_cons', hq]
  · simp only [List.flatMap_append, e3, List.flatMap_cons, List.flatMap_nil, List.append_nil, CowOp.looks, List.nil_append,
      List.count_nil, List.count_singleton_self]
    intro R h1 h2
    have : R = 0 := by
      by_contra h
      have := (h1 (by omega)).2.1
      simp [ha] at this
    exact ⟨by omega, trivial, hf, hs⟩
  · simp
  · intro x hx q hq
    simp only [List.mem_append, List.mem_map, List.mem_singleton] at hx
    rcases hx with ⟨_, _, rfl⟩ | rfl <;> simp [CowOp.sole] at hq
  · simp [e4, CowOp.names]
  · intro k q u h1 h2
    refine ⟨?_, I.hval k q u h1 h2⟩
    rintro rfl
    have : q ∈ hands.flatMap Option.toList := List.mem_flatMap.2 ⟨some q, List.mem_of_getElem? h1, by simp⟩
    exact absurd (List.count_pos_iff.2 this) (by omega)
  · intro _ x hx k hk
    simp only [List.mem_append, List.mem_map, List.mem_singleton] at hx
    rcases hx with ⟨_, _, rfl⟩ | rfl <;> simp [CowOp.names] at hk

theorem look_ok {ops' : List (CowOp α)} (I : CowInv n objs hands lost ([CowOp.look p] ++ rest) f)
    (h : ops' = [] ∨ ops' = [.free p]) : CowInv (n + 1) objs hands lost (ops' ++ rest) f := by
  refine I.same (fun q => ?_) ?_ (fun q => ?_) (fun q => ?_) ?_ I.len (fun k => ?_) (fun _ _ _ _ => rfl) I.hval ?_ <;>
    rcases h with rfl | rfl <;> simp [CowOp.refs, CowOp.ends, CowOp.looks, CowOp.names, CowOp.sole]

theorem free_ok (I : CowInv n objs hands lost ([CowOp.free p] ++ rest) f) (ho : objs[p]? = some o) (ha : o.alive = false) :
    CowInv (n + 1) (objs.set p { o with freed := true }) hands lost ([] ++ rest) f := by
  refine I.quiet ho rfl rfl rfl (fun q => ?_) ?_ (fun q => ?_) (fun q _ => ?_) ?_ ?_ ?_ (.inl rfl) I.len (fun k => ?_)
    (fun _ _ _ _ => rfl) I.hval ?_
  · simp [CowOp.refs, CowObj.str]
  · simp [CowOp.refs]
  · simp [CowOp.ends, CowObj.zero]
  · simp
  · simp only [List.flatMap_cons, List.flatMap_nil, List.append_nil, CowOp.looks, List.count_singleton_self, List.count_nil]
    intro R h1 h2
    have := (h1 (by omega)).1
    omega
  · simp [ha]
  · simp
  · simp [CowOp.names]
  · simp

theorem mm3_ok (I : CowInv n objs hands lost ([CowOp.mm3 h p] ++ rest) f) (ho : objs[p]? = some o) (ha : o.alive = true)
    (hf : o.freed = false) (hs : o.strong = 1)
    (hr : o.strong = (allRefs objs hands lost ([CowOp.mm3 h p] ++ rest)).count p) :
    CowInv (n + 1) (objs.set p { o with strong := 0 }) hands lost ([CowOp.mm4 h p] ++ rest) f := by
  refine I.quiet ho rfl rfl rfl (fun q => ?_) ?_ (fun q => ?_) (fun q _ => ?_) ?_ ?_ ?_ (.inr ?_) I.len (fun k => ?_)
    (fun _ _ _ _ => rfl) I.hval ?_
  · simp only [List.flatMap_cons, List.flatMap_nil, List.append_nil, CowOp.refs, count_cons', List.count_nil, CowObj.str, ha, if_true, hs]
    split <;> omega
  · simp only [List.flatMap_cons, List.flatMap_nil, List.append_nil, CowOp.refs, List.length_nil, List.length_singleton]; omega
  · simp only [List.flatMap_cons, List.flatMap_nil, List.append_nil, CowOp.ends, count_cons', List.count_nil, CowObj.zero, ha, hs]
    split <;> simp
  · simp [CowOp.looks]
  · simp only [List.flatMap_cons, List.flatMap_nil, List.append_nil, CowOp.looks, List.count_nil, ha]
    intro R h1 h2
    exact absurd (h1 h2).2.1 (by simp)
  · simp [hf]
  · simp [CowOp.sole]
  · intro x hx hs'
    have h2 := List.count_pos_iff.2 (List.mem_flatMap.2 ⟨x, hx, CowOp.sole_refs hs'⟩)
    simp only [allRefs_count, List.flatMap_append, List.flatMap_cons, List.flatMap_nil, List.append_nil, CowOp.refs,
      List.count_append, List.count_singleton_self] at hr
    omega
  · simp [CowOp.names]
  · intro x hx k hk t ht
    simp only [List.mem_singleton] at hx; subst hx
    exact I.oval (.mm3 h p) (by simp) k hk t ht

theorem mm4_ok (I : CowInv n objs hands lost ([CowOp.mm4 h p] ++ rest) f) (ho : objs[p]? = some o) (ha : o.alive = true)
    (hf : o.freed = false) (hs : o.strong = 0) (he : (([CowOp.mm4 h p] ++ rest).flatMap CowOp.ends).count p = 1)
    (hr : (allRefs objs hands lost ([CowOp.mm4 h p] ++ rest)).count p = 0) :
    CowInv (n + 1) (objs.set p { o with alive := false }) hands lost ([CowOp.mmA h p o.val o.kids true] ++ rest) f := by
  simp only [allRefs_count, List.flatMap_append, List.flatMap_cons, List.flatMap_nil, List.append_nil, CowOp.refs, CowOp.ends,
    List.count_append, List.count_singleton_self] at hr he
  have hk0 : ∀ k ∈ o.kids, k ≠ p := by
    rintro k hk rfl
    have : k ∈ objs.flatMap CowObj.held :=
      List.mem_flatMap.2 ⟨o, List.mem_of_getElem? ho, by simpa [CowObj.held, ha] using hk⟩
    exact absurd (List.count_pos_iff.2 this) (by omega)
  refine I.excl ho (by omega) (by omega) (by omega) (by omega) (fun q => ?_) ?_ (fun q => ?_) (fun q hq => ?_) ?_ ?_ ?_ I.len
    (fun k => ?_) (fun _ _ _ _ => rfl) ?_ ?_ (by simp)
  · simp [CowOp.refs, CowObj.held, CowObj.str, ha, hs]
  · simp [CowOp.refs, CowObj.held, ha]
  · simp only [List.flatMap_cons, List.flatMap_nil, List.append_nil, CowOp.ends, List.count_nil, count_cons', CowObj.zero, ha, hs]
    split <;> simp
  · simp [CowOp.looks, count_cons', hq]
  · simp only [List.flatMap_cons, List.flatMap_nil, List.append_nil, CowOp.looks, if_true,
      List.count_nil, List.count_singleton_self]
    intro R h1 h2
    have : R = 0 := by
      by_contra h
      have := (h1 (by omega)).2.1
      simp [ha] at this
    exact ⟨by omega, trivial, hf, hs⟩
  · simp
  · simp [CowOp.sole]
  · simp [CowOp.names]
  · intro k q u h1 h2
    refine ⟨?_, I.hval k q u h1 h2⟩
    rintro rfl
    have : q ∈ hands.flatMap Option.toList := List.mem_flatMap.2 ⟨some q, List.mem_of_getElem? h1, by simp⟩
    exact absurd (List.count_pos_iff.2 this) (by omega)
  · intro keep x hx k hk t ht
    simp only [List.mem_singleton] at hx; subst hx
    obtain ⟨m, hm⟩ := I.oval (.mm4 h p) (by simp) k hk t ht
    cases m with
    | zero => exact hm.elim
    | succ m =>
      obtain ⟨o2, k1, _, k3, k4⟩ := hm
      rw [ho] at k1; cases k1
      exact ⟨k3, ⟨m, forall₂_mem k4 fun k hk t ht => keep k m t (hk0 k hk) ht⟩, by simp⟩

theorem unw_ok (I : CowInv n objs hands lost ([CowOp.unw h p] ++ rest) f) (ho : objs[p]? = some o) (ha : o.alive = true)
    (hf : o.freed = false) (hs : o.strong = 0) (he : (([CowOp.unw h p] ++ rest).flatMap CowOp.ends).count p = 1)
    (hr : (allRefs objs hands lost ([CowOp.unw h p] ++ rest)).count p = 0) :
    ∃ t, f[h]? = some (some t) ∧ t.val = o.val ∧
    CowInv (n + 1) (objs.set p { o with alive := false }) (hands ++ o.kids.map some) lost ([CowOp.look p] ++ rest)
      (f.set h none ++ t.kids.map some) := by
  obtain ⟨n1, n2, n3, n4, t, n5, m, hm⟩ := I.name (op := .unw h p) (h := h) rfl
  refine ⟨t, n5, ?_⟩
  simp only [allRefs_count, List.flatMap_append, List.flatMap_cons, List.flatMap_nil, List.append_nil, CowOp.refs, CowOp.ends,
    List.count_append, List.count_singleton_self] at hr he
  have hk0 : ∀ k ∈ o.kids, k ≠ p := by
    rintro k hk rfl
    have : k ∈ objs.flatMap CowObj.held :=
      List.mem_flatMap.2 ⟨o, List.mem_of_getElem? ho, by simpa [CowObj.held, ha] using hk⟩
    exact absurd (List.count_pos_iff.2 this) (by omega)
  obtain ⟨m, rfl⟩ : ∃ k, m = k + 1 := by
    cases m with
    | zero => exact hm.elim
    | succ m => exact ⟨m, rfl⟩
  obtain ⟨o2, k1, _, k3, k4⟩ := hm
  rw [ho] at k1; cases k1
  refine ⟨k3.symm, ?_⟩
  obtain ⟨hl, _⟩ := List.getElem?_eq_some_iff.1 n5
  have hln : ∀ (x : Option (Spec.Tree α)), (f.set h x).length = hands.length := fun x => by simp [I.len]
  have efl : (o.kids.map some).flatMap Option.toList = o.kids := by simp [List.flatMap_map]
  refine I.excl ho (by omega) (by omega) (by omega) (by omega) (fun q => ?_) ?_ (fun q => ?_) (fun q hq => ?_) ?_ ?_ ?_ ?_
    (fun k => ?_) ?_ ?_ ?_ (by simp)
  · simp only [List.flatMap_append, efl, List.count_append, List.flatMap_cons, List.flatMap_nil, List.append_nil, CowOp.refs,
      List.count_nil, CowObj.held, CowObj.str, ha, hs, if_true, Bool.false_eq_true, if_false]
    omega
  · simp only [List.flatMap_append, efl, List.length_append, List.flatMap_cons, List.flatMap_nil, List.append_nil, CowOp.refs,
      List.length_nil, CowObj.held, ha, if_true, Bool.false_eq_true, if_false]
    omega
  · simp only [List.flatMap_cons, List.flatMap_nil, List.append_nil, CowOp.ends, List.count_nil, count_cons', CowObj.zero, ha, hs]
    split <;> simp
  · simp [CowOp.looks, count_cons', hq]
  · simp only [List.flatMap_cons, List.flatMap_nil, List.append_nil, CowOp.looks,
      List.count_nil, List.count_singleton_self]
    intro R h1 h2
    have : R = 0 := by
      by_contra h
      have := (h1 (by omega)).2.1
      simp [ha] at this
    exact ⟨by omega, trivial, hf, hs⟩
  · simp
  · simp [CowOp.sole]
  · simp [I.len, k4.length_eq]
  · rw [hasAt_append, hasAt_append, hln, hasAt_set hl]
    simp only [List.flatMap_cons, List.flatMap_nil, List.append_nil, CowOp.names, count_cons', List.count_nil]
    have hk := fun j => show has (o.kids.map some) j = has (t.kids.map some) j by
      have := k4.length_eq
      by_cases hj : j < o.kids.length
      · rw [hasAt_one (x := o.kids[j]) (by simp [hj]), hasAt_one (x := t.kids[j]) (by simp [this ▸ hj])]
      · rw [hasAt_out (by simpa using hj), hasAt_out (by simpa [← this] using hj)]
    split
    · by_cases e : k = h
      · subst e; simp [n3, n2]
      · simp [e]
    · rename_i e
      have e1 : has hands k = 0 := hasAt_out (by omega)
      have e2 : has f k = 0 := hasAt_out (by rw [I.len]; omega)
      rw [hk, e1, e2, if_neg (by rintro rfl; rw [I.len] at hl; omega)]
      omega
  · intro x hx k hk
    have : (rest.flatMap CowOp.names).count k > 0 := List.count_pos_iff.2 (List.mem_flatMap.2 ⟨x, hx, hk⟩)
    have hkh : k ≠ h := by rintro rfl; omega
    have hkl : k < f.length := by
      have h1 := I.names k
      simp only [List.flatMap_append, List.count_append] at h1
      obtain ⟨u, hu⟩ := hasAt_pos (l := f) (h := k) (by omega)
      exact (List.getElem?_eq_some_iff.1 hu).1
    rw [List.getElem?_append_left (by simpa using hkl), List.getElem?_set, if_neg (fun e => hkh e.symm)]
  · intro k q u h1 h2
    rw [List.getElem?_append] at h1 h2
    rw [hln] at h2
    split at h1
    · rename_i hk
      rw [if_pos hk, List.getElem?_set] at h2
      split at h2
      · simp [hl] at h2
      · refine ⟨?_, I.hval k q u h1 h2⟩
        rintro rfl
        have : q ∈ hands.flatMap Option.toList := List.mem_flatMap.2 ⟨some q, List.mem_of_getElem? h1, by simp⟩
        exact absurd (List.count_pos_iff.2 this) (by omega)
    · rename_i hk
      rw [if_neg hk] at h2
      rw [List.getElem?_map, Option.map_eq_some_iff] at h1 h2
      obtain ⟨q', h1, e1⟩ := h1
      obtain ⟨u', h2, e2⟩ := h2
      cases e1; cases e2
      refine ⟨hk0 q (List.mem_of_getElem? h1), m, ?_⟩
      obtain ⟨i1, i2⟩ := List.getElem?_eq_some_iff.1 h1
      obtain ⟨j1, j2⟩ := List.getElem?_eq_some_iff.1 h2
      have := (List.forall₂_iff_get.1 k4).2 _ i1 j1
      simpa [i2, j2] using this
  · simp [CowOp.names]

theorem mono (I : CowInv n objs hands lost ops f) : CowInv (n + 1) objs hands lost ops f :=
  { I with size := by have := I.size; omega }

theorem kid_ok {x : α} {got : List Nat} (I : CowInv n objs hands lost ([CowOp.mmC h p x got] ++ rest) f) (ho : objs[p]? = some o)
    (ha : o.alive = true) (hq : o.kids[got.length]? = some q) :
    ∃ k, objs[q]? = some k ∧ k.alive = true ∧ k.freed = false ∧ k.strong ≤ n ∧
      CowInv (n + 1) (objs.set q { k with strong := k.strong + 1 }) hands lost ([CowOp.mmC h p x (got ++ [q])] ++ rest) f := by
  have hm : q ∈ objs.flatMap CowObj.held :=
    List.mem_flatMap.2 ⟨o, List.mem_of_getElem? ho, by simpa [CowObj.held, ha] using List.mem_of_getElem? hq⟩
  have hc := List.count_pos_iff.2 hm
  obtain ⟨k, k1, k2, k3, k4⟩ := I.there (q := q) (by rw [allRefs_count]; omega)
  have hsz := I.size
  have hle := List.count_le_length (a := q) (l := allRefs objs hands lost ([CowOp.mmC h p x got] ++ rest))
  refine ⟨k, k1, k2, k3, by omega, ?_⟩
  refine I.quiet k1 rfl rfl rfl (fun q' => ?_) ?_ (fun q' => ?_) (fun q' _ => ?_) ?_ ?_ ?_ (.inr ?_) I.len (fun j => ?_)
    (fun _ _ _ _ => rfl) I.hval ?_
  · simp only [List.flatMap_cons, List.flatMap_nil, List.append_nil, CowOp.refs, count_cons', List.count_append, List.count_nil,
      CowObj.str, k2, if_true]
    split <;> split <;> omega
  · simp only [List.flatMap_cons, List.flatMap_nil, List.append_nil, CowOp.refs, List.length_cons, List.length_append,
      List.length_nil]
    omega
  · have : k.strong ≠ 0 := by rw [k4, allRefs_count]; omega
    simp [CowOp.ends, CowObj.zero, this]
  · simp [CowOp.looks]
  · simp only [List.flatMap_cons, List.flatMap_nil, List.append_nil, CowOp.looks, List.count_nil, k2]
    intro R h1 h2
    exact absurd (h1 h2).2.1 (by simp)
  · simp [k3]
  · simp [CowOp.sole]
  · intro y hy hs'
    have h1 := I.sole y (by simp [hy]) q hs'
    rw [← I.cnt] at h1
    have h2 := List.count_pos_iff.2 (List.mem_flatMap.2 ⟨y, hy, CowOp.sole_refs hs'⟩)
    simp only [allRefs_count, List.flatMap_append, List.count_append] at h1
    omega
  · simp [CowOp.names]
  · intro y hy j hj t ht
    simp only [List.mem_singleton] at hy; subst hy
    obtain ⟨m1, m2, o2, m3, m4⟩ := I.oval (.mmC h p x got) (by simp) j hj t ht
    rw [ho] at m3; cases m3
    refine ⟨m1, m2, o, ho, ?_⟩
    obtain ⟨tail, e⟩ := m4
    rw [← e] at hq ⊢
    rw [List.getElem?_append_right (by simp)] at hq
    cases tail with
    | nil => simp at hq
    | cons a tail => simp at hq; subst hq; exact ⟨tail, by simp⟩

theorem made_ok {x : α} {ks : List Nat} {z : Bool} (I : CowInv n objs hands lost ([CowOp.mmA h p x ks z] ++ rest) f) :
    CowInv (n + 1) (objs ++ [⟨1, 0, x, ks, true, false⟩]) hands lost ([CowOp.sub p z, .held h objs.length] ++ rest) f := by
  refine I.app ⟨rfl, rfl, rfl⟩ (fun q => ?_) ?_ (fun q => ?_) (fun q => ?_) ?_ I.len (fun k => ?_) (fun _ _ _ _ => rfl) ?_ ?_ ?_
  · cases z <;> simp only [List.flatMap_cons, List.flatMap_nil, List.append_nil, CowOp.refs, count_cons', List.count_append,
      List.count_nil, CowObj.held, if_true, Bool.false_eq_true, if_false] <;> omega
  · cases z <;> simp only [List.flatMap_cons, List.flatMap_nil, List.append_nil, CowOp.refs, List.length_cons, List.length_append,
      List.length_nil, CowObj.held, if_true, Bool.false_eq_true, if_false] <;> omega
  · simp [CowOp.ends]
  · simp [CowOp.looks]
  · intro y hy q hq
    simp only [List.mem_cons, List.not_mem_nil, or_false] at hy
    rcases hy with rfl | rfl
    · simp [CowOp.sole] at hq
    · simp only [CowOp.sole, Option.some.injEq] at hq
      subst hq
      simp [strOf, CowObj.str]
  · simp [CowOp.names]
  · intro keep k q t h1 h2
    obtain ⟨m, hm⟩ := I.hval k q t h1 h2
    exact ⟨m, keep q m t hm⟩
  · intro keep y hy k hk t ht
    simp only [List.mem_cons, List.not_mem_nil, or_false] at hy
    rcases hy with rfl | rfl
    · simp [CowOp.names] at hk
    · obtain ⟨m1, ⟨m, m2⟩, _⟩ := I.oval (.mmA h p x ks z) (by simp) k hk t ht
      refine ⟨m + 1, ⟨1, 0, x, ks, true, false⟩, by simp, rfl, m1, m2.imp fun a b h => keep a m b h⟩
  · intro keep
    obtain ⟨_, _, _, _, t, _, m1, ⟨m, m2⟩, _⟩ := I.name (op := .mmA h p x ks z) (h := h) rfl
    exact ⟨m + 1, t, ⟨1, 0, x, ks, true, false⟩, by simp, rfl, m1, m2.imp fun a b h => keep a m b h⟩

theorem refused {x : α} {ks : List Nat} (I : CowInv n objs hands lost ([CowOp.mmA h p x ks false] ++ rest) f)
    (ho : objs[p]? = some o) (ha : o.alive = true) (hf : o.freed = false) :
    CowInv (n + 1) objs (hands.set h (some p)) (lost ++ ks) ([] ++ rest) f := by
  refine (I.back (h := h) (lost' := ks) ho o.weak ha hf (fun _ => rfl) rfl rfl rfl rfl ?_).same_obj ho
  exact fun t h => h.2.2 rfl

end CowInv

namespace Cow
variable [DecidableEq α] {mx n t : Nat} {s : CowSys α} {op : CowOp α} {r : List (CowOp α)} {ch : CowChoice}

theorem inst (G : s.Good n) (ht : s.threads[t]? = some (op :: r)) :
    ∃ rest f, CowInv n s.objs s.hands s.lost ([op] ++ rest) f := by
  obtain ⟨f, _, I⟩ := G
  obtain ⟨rest, h2, _⟩ := flatten_set ht
  exact ⟨r ++ rest, f, I.perm h2⟩

/-- Every step can be made, and keeps to the trees. -/
theorem step_good (G : s.Good n) (hn : n ≤ mx) (ht : s.threads[t]? = some (op :: r)) (hc : ¬ op.loses ch) :
    ∃ s', step mx ch t r op s = .ok () s' ∧ s'.Good (n + 1) := by
  obtain ⟨rest0, f0, I0⟩ := inst G ht
  have ht' : s.threads[t]? = some ([op] ++ r) := ht
  cases op with
  | sub p z =>
    cases z with
    | false =>
      obtain ⟨o, h1, h2, h3, h4, h5, h6⟩ := I0.ref (p := p) (by simp [CowOp.refs])
      refine ⟨_, by simp only [step, M.bind_apply, obj_ok h1 h3, put, go, M.modify_apply]; rfl, ?_⟩
      refine good_run (new := if o.strong = 1 then [.fin p] else []) G ht' ?_ rfl fun rest f I => ?_
      · dsimp only; split <;> rfl
      · obtain ⟨o', k1, k2, k3, k4, k5, k6⟩ := I.ref (p := p) (by simp [CowOp.refs])
        rw [h1] at k1; cases k1
        exact I.sub_false h1 h2 h3 k4 k5
    | true =>
      obtain ⟨_, o, h1, h2, h3, h4⟩ := I0.looks p (by simp [CowOp.looks])
      refine ⟨_, by simp only [step, M.bind_apply, obj_ok h1 h3, put, go, M.modify_apply]; rfl, ?_⟩
      refine good_run (new := []) G ht' ?_ rfl fun rest f I => I.sub_true h1 h2 h3
      dsimp only; rw [if_neg (by omega)]; rfl
  | fin p =>
    obtain ⟨o, h1, h2, h3, h4, _⟩ := I0.ending (q := p) (by simp [CowOp.ends])
    refine ⟨_, by simp only [step, M.bind_apply, data_ok h1 h3 h2, put, go, M.modify_apply]; rfl, ?_⟩
    refine good_run (new := o.kids.map (CowOp.sub · false) ++ [.look p]) G ht' (by simp) rfl fun rest f I => ?_
    obtain ⟨o', k1, k2, k3, k4, k5, k6⟩ := I.ending (q := p) (by simp [CowOp.ends])
    rw [h1] at k1; cases k1
    exact I.fin_ok h1 h2 h3 h4 k5 k6
  | look p =>
    obtain ⟨_, o, h1, h2, h3, h4⟩ := I0.looks p (by simp [CowOp.looks])
    refine ⟨_, by simp only [step, M.bind_apply, obj_ok h1 h3, go, M.modify_apply]; rfl, ?_⟩
    refine good_run (new := if o.weak = 0 then [.free p] else []) G ht' ?_ rfl fun rest f I => I.look_ok ?_
    · dsimp only; split <;> rfl
    · split <;> simp
  | free p =>
    obtain ⟨_, o, h1, h2, h3, h4⟩ := I0.looks p (by simp [CowOp.looks])
    refine ⟨_, by simp only [step, M.bind_apply, obj_ok h1 h3, put, go, M.modify_apply]; rfl, ?_⟩
    exact good_run (new := []) G ht' rfl rfl fun rest f I => I.free_ok h1 h2
  | unw h p =>
    obtain ⟨o, h1, h2, h3, h4, _⟩ := I0.ending (q := p) (by simp [CowOp.ends])
    refine ⟨_, by simp only [step, M.bind_apply, data_ok h1 h3 h2, put, go, more, tell, M.modify_apply]; rfl, ?_⟩
    refine good_of (new := [.look p]) G ht' rfl fun rest f hl I => ?_
    obtain ⟨o', k1, k2, k3, k4, k5, k6⟩ := I.ending (q := p) (by simp [CowOp.ends])
    rw [h1] at k1; cases k1
    obtain ⟨u, u1, u2, u3⟩ := I.unw_ok h1 h2 h3 h4 k5 k6
    refine ⟨_, ?_, u3⟩
    simp only [Spec.playTrees] at hl ⊢
    simp [List.foldlM_append, hl, Spec.TreeEv.play, u1, u2]
  | get0 h p =>
    obtain ⟨o, h1, h2, h3, h4, h5, h6⟩ := I0.ref (p := p) (by simp [CowOp.refs])
    by_cases hw : o.weak = 0
    · refine ⟨_, by simp only [step, M.bind_apply, obj_ok h1 h3, if_pos hw, put, go, M.modify_apply]; rfl, ?_⟩
      exact good_run (new := [.get1 h p]) G ht' rfl rfl fun rest f I =>
        I.again h1 (Arc.lock mx) h2 h3 (fun _ => rfl) rfl rfl rfl rfl (by simp [CowOp.sole]) fun _ h => h
    · refine ⟨_, by simp only [step, M.bind_apply, obj_ok h1 h3, if_neg hw, give, go, M.modify_apply]; rfl, ?_⟩
      refine good_run (new := []) G ht' rfl rfl fun rest f I => ?_
      have := I.back (h := h) (lost' := []) h1 o.weak h2 h3 (fun _ => rfl) rfl rfl rfl rfl fun _ h => h
      simpa using this.same_obj h1
  | get1 h p =>
    obtain ⟨o, h1, h2, h3, h4, h5, h6⟩ := I0.ref (p := p) (by simp [CowOp.refs])
    refine ⟨_, by simp only [step, M.bind_apply, obj_ok h1 h3, go, M.modify_apply]; rfl, ?_⟩
    refine good_run (new := [.get2 h p (o.strong == 1)]) G ht' rfl rfl fun rest f I => ?_
    refine I.on h1 h2 h3 (fun _ => rfl) rfl rfl rfl rfl ?_ fun _ h => h
    intro q hq
    simp only [CowOp.sole] at hq
    split at hq
    · cases hq
      rename_i hs
      rw [strOf_eq h1]; simpa [CowObj.str, h2] using hs
    · cases hq
  | get2 h p u =>
    obtain ⟨o, h1, h2, h3, h4, h5, h6⟩ := I0.ref (p := p) (by simp [CowOp.refs])
    cases u with
    | true =>
      refine ⟨_, by simp only [step, M.bind_apply, obj_ok h1 h3, put, go, M.modify_apply, if_true]; rfl, ?_⟩
      refine good_run (new := [.held h p]) G ht' rfl rfl fun rest f I =>
        I.again h1 0 h2 h3 (fun _ => rfl) rfl rfl rfl rfl ?_ fun _ h => h
      intro q hq
      exact I.sole (.get2 h p true) (by simp) q hq
    | false =>
      refine ⟨_, by simp only [step, M.bind_apply, obj_ok h1 h3, put, go, give, M.modify_apply, Bool.false_eq_true, if_false]; rfl, ?_⟩
      refine good_run (new := []) G ht' rfl rfl fun rest f I => ?_
      have := I.back (h := h) (lost' := []) h1 0 h2 h3 (fun _ => rfl) rfl rfl rfl rfl fun _ h => h
      simpa using this
  | mm0 h p =>
    obtain ⟨o, h1, h2, h3, h4, h5, h6⟩ := I0.ref (p := p) (by simp [CowOp.refs])
    refine ⟨_, by simp only [step, M.bind_apply, obj_ok h1 h3, go, M.modify_apply]; rfl, ?_⟩
    refine good_run (new := [.mm1 h p o.strong]) G ht' rfl rfl fun rest f I => ?_
    refine I.on h1 h2 h3 (fun _ => rfl) rfl rfl rfl rfl ?_ fun _ h => h
    intro q hq
    simp only [CowOp.sole] at hq
    split at hq
    · cases hq
      rename_i hs
      rw [strOf_eq h1]; simpa [CowObj.str, h2] using hs
    · cases hq
  | mm1 h p k =>
    obtain ⟨o, h1, h2, h3, h4, h5, h6⟩ := I0.ref (p := p) (by simp [CowOp.refs])
    by_cases hk : k = 1
    · subst hk
      by_cases hw : o.weak = 0
      · refine ⟨_, by simp only [step, M.bind_apply, obj_ok h1 h3, if_true, if_pos hw, go, M.modify_apply]; rfl, ?_⟩
        refine good_run (new := [.held h p]) G ht' rfl rfl fun rest f I => ?_
        refine I.on h1 h2 h3 (fun _ => rfl) rfl rfl rfl rfl ?_ fun _ h => h
        intro q hq
        exact I.sole (.mm1 h p 1) (by simp) q (by simpa [CowOp.sole] using hq)
      · refine ⟨_, by simp only [step, M.bind_apply, obj_ok h1 h3, if_true, if_neg hw, go, M.modify_apply]; rfl, ?_⟩
        refine good_run (new := [.mm2 h p o.weak]) G ht' rfl rfl fun rest f I => ?_
        refine I.on h1 h2 h3 (fun _ => rfl) rfl rfl rfl rfl ?_ fun _ h => h
        intro q hq
        exact I.sole (.mm1 h p 1) (by simp) q (by simpa [CowOp.sole] using hq)
    · refine ⟨_, by simp only [step, M.bind_apply, obj_ok h1 h3, if_neg hk, go, M.modify_apply]; rfl, ?_⟩
      refine good_run (new := [.mmV h p]) G ht' rfl rfl fun rest f I => ?_
      exact I.on h1 h2 h3 (fun _ => rfl) rfl rfl rfl rfl (by simp [CowOp.sole]) fun _ h => h
  | mm2 h p w =>
    obtain ⟨o, h1, h2, h3, h4, h5, h6⟩ := I0.ref (p := p) (by simp [CowOp.refs])
    by_cases hw : o.weak = w ∧ ch.fail = false
    · refine ⟨_, by simp only [step, M.bind_apply, obj_ok h1 h3, if_pos hw, put, go, M.modify_apply]; rfl, ?_⟩
      exact good_run (new := [.mm3 h p]) G ht' rfl rfl fun rest f I =>
        I.again h1 (Arc.incr mx w) h2 h3 (fun _ => rfl) rfl rfl rfl rfl (by simp [CowOp.sole]) fun _ h => h
    · refine ⟨_, by simp only [step, M.bind_apply, obj_ok h1 h3, if_neg hw, go, M.modify_apply]; rfl, ?_⟩
      refine good_run (new := [.mm2 h p o.weak]) G ht' rfl rfl fun rest f I => ?_
      refine I.on h1 h2 h3 (fun _ => rfl) rfl rfl rfl rfl ?_ fun _ h => h
      intro q hq
      exact I.sole (.mm2 h p w) (by simp) q (by simpa [CowOp.sole] using hq)
  | mm3 h p =>
    obtain ⟨o, h1, h2, h3, h4, h5, h6⟩ := I0.ref (p := p) (by simp [CowOp.refs])
    by_cases hw : o.strong = 1 ∧ ch.fail = false
    · refine ⟨_, by simp only [step, M.bind_apply, obj_ok h1 h3, if_pos hw, put, go, M.modify_apply]; rfl, ?_⟩
      refine good_run (new := [.mm4 h p]) G ht' rfl rfl fun rest f I => ?_
      obtain ⟨o', k1, k2, k3, k4, k5, k6⟩ := I.ref (p := p) (by simp [CowOp.refs])
      rw [h1] at k1; cases k1
      exact I.mm3_ok h1 h2 h3 hw.1 k4
    · refine ⟨_, by simp only [step, M.bind_apply, obj_ok h1 h3, if_neg hw, go, M.modify_apply]; rfl, ?_⟩
      refine good_run (new := [.mmV h p]) G ht' rfl rfl fun rest f I => ?_
      exact I.on h1 h2 h3 (fun _ => rfl) rfl rfl rfl rfl (by simp [CowOp.sole]) fun _ h => h
  | mm4 h p =>
    obtain ⟨o, h1, h2, h3, h4, _⟩ := I0.ending (q := p) (by simp [CowOp.ends])
    refine ⟨_, by simp only [step, M.bind_apply, data_ok h1 h3 h2, put, go, M.modify_apply]; rfl, ?_⟩
    refine good_run (new := [.mmA h p o.val o.kids true]) G ht' rfl rfl fun rest f I => ?_
    obtain ⟨o', k1, k2, k3, k4, k5, k6⟩ := I.ending (q := p) (by simp [CowOp.ends])
    rw [h1] at k1; cases k1
    exact I.mm4_ok h1 h2 h3 h4 k5 k6
  | mmV h p =>
    obtain ⟨o, h1, h2, h3, h4, h5, h6⟩ := I0.ref (p := p) (by simp [CowOp.refs])
    cases hb : ch.boom with
    | true =>
      refine ⟨_, by simp only [step, M.bind_apply, data_ok h1 h3 h2, hb, if_true, give, go, M.modify_apply]; rfl, ?_⟩
      refine good_run (new := []) G ht' rfl rfl fun rest f I => ?_
      have := I.back (h := h) (lost' := []) h1 o.weak h2 h3 (fun _ => rfl) rfl rfl rfl rfl fun _ h => h
      simpa using this.same_obj h1
    | false =>
      refine ⟨_, by simp only [step, M.bind_apply, data_ok h1 h3 h2, hb, Bool.false_eq_true, if_false, go, M.modify_apply]; rfl, ?_⟩
      refine good_run (new := [.mmC h p o.val []]) G ht' rfl rfl fun rest f I => ?_
      refine I.on h1 h2 h3 (fun _ => rfl) rfl rfl rfl rfl (by simp [CowOp.sole]) ?_
      rintro t ⟨m, hm⟩
      refine ⟨⟨m, hm⟩, ?_, o, h1, by simp⟩
      cases m with
      | zero => exact hm.elim
      | succ m =>
        obtain ⟨o2, k1, _, k3, _⟩ := hm
        rw [h1] at k1; cases k1
        exact k3
  | mmC h p x got =>
    obtain ⟨o, h1, h2, h3, h4, h5, h6⟩ := I0.ref (p := p) (by simp [CowOp.refs])
    cases hq : o.kids[got.length]? with
    | some q =>
      obtain ⟨k, k1, k2, k3, k4, _⟩ := I0.kid_ok h1 h2 hq
      have d : Arc.incr mx k.strong = k.strong + 1 := by
        simp only [Arc.incr, Arc.lock, show k.strong ≠ 2 * mx + 1 by omega, if_false]
      refine ⟨_, by simp only [step, M.bind_apply, data_ok h1 h3 h2, hq, obj_ok k1 k3, put, M.modify_apply,
        if_neg (show ¬ k.strong > mx by omega), go, d]; rfl, ?_⟩
      refine good_run (new := [.mmC h p x (got ++ [q])]) G ht' rfl rfl fun rest f I => ?_
      obtain ⟨k', j1, j2, j3, j4, j5⟩ := I.kid_ok h1 h2 hq
      rw [k1] at j1; cases j1
      exact j5
    | none =>
      refine ⟨_, by simp only [step, M.bind_apply, data_ok h1 h3 h2, hq, go, M.modify_apply]; rfl, ?_⟩
      refine good_run (new := [.mmA h p x got false]) G ht' rfl rfl fun rest f I => ?_
      refine I.on h1 h2 h3 (fun _ => rfl) rfl rfl rfl rfl (by simp [CowOp.sole]) ?_
      rintro t ⟨⟨m, hm⟩, m1, o2, m2, m3⟩
      rw [h1] at m2; cases m2
      refine ⟨m1, ?_⟩
      obtain ⟨tail, e⟩ := m3
      have : tail = [] := by
        rw [← e] at hq
        rw [List.getElem?_append_right (by simp)] at hq
        cases tail with
        | nil => rfl
        | cons a l => simp at hq
      subst this
      simp only [List.append_nil] at e
      cases m with
      | zero => exact hm.elim
      | succ m =>
        have hm0 := hm
        obtain ⟨o2, k1, _, _, k4⟩ := hm
        rw [h1] at k1; cases k1
        exact ⟨⟨m, by rw [e]; exact k4⟩, fun _ => ⟨m + 1, hm0⟩⟩
  | mmA h p x ks z =>
    cases hg : ch.grant with
    | true =>
      refine ⟨_, by simp only [step, hg, if_true, M.bind_apply, M.get_apply, go, M.modify_apply]; rfl, ?_⟩
      exact good_run (new := [.sub p z, .held h s.objs.length]) G ht' rfl rfl fun rest f I => I.made_ok
    | false =>
      cases z with
      | true => exact absurd ⟨rfl, hg⟩ hc
      | false =>
        obtain ⟨o, h1, h2, h3, h4, h5, h6⟩ := I0.ref (p := p) (by simp [CowOp.refs])
        refine ⟨_, by simp only [step, hg, Bool.false_eq_true, if_false, M.bind_apply, go, give, M.modify_apply]; rfl, ?_⟩
        refine good_run (new := []) G ht' rfl rfl fun rest f I => ?_
        exact I.refused h1 h2 h3
  | held h p =>
    refine ⟨s, rfl, ?_⟩
    obtain ⟨f, h1, I⟩ := G
    exact ⟨f, h1, I.mono⟩

end Cow

end Lokky
