import Verif.Model.VecPool
import Verif.Proofs.VecBulk

/-!
# Every call on a pool of vectors follows the list specification
-/

namespace Lokky
open Spec (Event Edit Op Cmd Out)
variable {α : Type} {c : Cfg α}

/-- What the element type's `clone` can do. -/
def Cfg.cloneRel (c : Cfg α) : Spec.CloneRel α := fun a r => ∃ k, c.clone k a = r

theorem Cloned.spec {xs ys : List α} (h : Cloned c xs ys) : Spec.Clones c.cloneRel xs ys := by
  induction h with
  | nil => exact .nil
  | cons k h _ ih => exact .cons ⟨k, h⟩ ih

/-- A call on a vector with contents `l` is allowed by the specification. -/
def OpOk (c : Cfg α) (o : Op α) (l : List α) (s : VSt α) (out : Option (Out α)) (s' : VSt α) :
    Prop :=
  ∃ l' made dropped, Edit c.cloneRel o ⟨out, s'.w.refusals != s.w.refusals⟩ l l' made dropped ∧
    Trans c l' dropped s s'

theorem OpOk.same {o : Op α} {l l' made dropped : List α} {s s' : VSt α} {out : Option (Out α)}
    (hr : s'.w.refusals = s.w.refusals)
    (he : Edit c.cloneRel o ⟨out, false⟩ l l' made dropped) (ht : Trans c l' dropped s s') :
    OpOk c o l s out s' := by
  refine ⟨l', made, dropped, ?_, ht⟩
  have : (s'.w.refusals != s.w.refusals) = false := by simp [hr]
  rw [this]; exact he

theorem OpOk.refused {o : Op α} {l l' made dropped : List α} {s s' : VSt α} {out : Option (Out α)}
    (hr : s'.w.refusals = s.w.refusals + 1)
    (he : Edit c.cloneRel o ⟨out, true⟩ l l' made dropped) (ht : Trans c l' dropped s s') :
    OpOk c o l s out s' := by
  refine ⟨l', made, dropped, ?_, ht⟩
  have : (s'.w.refusals != s.w.refusals) = true := by simp [hr]
  rw [this]; exact he

theorem quiet_sat {σ : Type} {m : M σ Unit} {s : σ} {Q : Option (Out α) → σ → Prop}
    (h : Sat c (m s) (fun _ s' => Q (some .unit) s') (fun s' => Q none s')) :
    Sat c (quiet m s) (fun o s' => Q (some o) s') (fun s' => Q none s') :=
  Sat.bind h (fun _ _ h => h)

theorem map_sat {σ β : Type} {m : M σ β} {f : β → Out α} {s : σ} {Q : Option (Out α) → σ → Prop}
    (h : Sat c (m s) (fun a s' => Q (some (f a)) s') (fun s' => Q none s')) :
    Sat c ((do pure (f (← m)) : M σ (Out α)) s) (fun o s' => Q (some o) s') (fun s' => Q none s') :=
  Sat.bind h (fun _ _ h => h)

theorem insertIdx_split {l : List α} {i : Nat} {a : α} (h : i ≤ l.length) :
    l.insertIdx i a = l.take i ++ a :: l.drop i := by
  induction l generalizing i with
  | nil =>
    have : i = 0 := by simpa using h
    subst this; rfl
  | cons b l ih =>
    cases i with
    | zero => rfl
    | succ i => simp [ih (by simpa using h)]

theorem runOp_spec {s : VSt α} {l : List α} (hs : c.size ≠ 0) (hd : ∀ a, c.dropPanics a = false)
    (h : Rep c s.self s.w l) (hw : s.w.WF) (o : Op α) (ho : o.Legal c s.self.len s.self.cap) :
    Sat c (runOp c o s) (fun out s' => OpOk c o l s (some out) s')
      (fun s' => OpOk c o l s none s') := by
  rw [h.len] at ho
  have nodrop : ∀ {xs : List α}, (∃ a ∈ xs, c.dropPanics a = true) → False := by
    rintro xs ⟨a, _, ha⟩; rw [hd a] at ha; cases ha
  have hrefl := Trans.refl h hw
  have href := Trans.refuse h hw
  cases o with
  | push a =>
    refine quiet_sat ((push_spec hs h hw ho a).mono ?_ ?_)
    · rintro _ s' ⟨h1, _, _⟩
      exact .same h1.refusals (.push a l) h1.trans
    · rintro s' ⟨h1, rfl, _, _⟩
      exact .refused rfl (.pushRefused a l) h1
  | pop =>
    obtain ⟨s', e1, e2, _, _⟩ := pop_spec hs h hw
    refine map_sat ?_
    rw [e1]
    exact .same e2.refusals (.pop l) e2.trans
  | insert i a =>
    refine quiet_sat ((insert_spec hs h hw ho a).mono ?_ ?_)
    · rintro _ s' ⟨h0, h1, _⟩
      refine .same h1.refusals (.insert i a l h0) ?_
      rw [← insertIdx_split h0]
      exact h1.trans
    · rintro s' ⟨h1, (⟨h2, rfl⟩ | ⟨h2, rfl, _, _⟩)⟩
      · exact .same rfl (.insertBad i a l h2) h1
      · exact .refused rfl (.insertRefused i a l h2) h1
  | remove i =>
    refine map_sat ?_
    by_cases hi : i < l.length
    · obtain ⟨s', e1, e2, _, _⟩ := remove_spec hs h hw hi
      rw [e1]
      refine .same e2.refusals (.remove i l hi) ?_
      have := e2.trans
      rwa [List.eraseIdx_eq_take_drop_succ] at this
    · rw [remove_panic hs h hi]
      exact .same rfl (.removeBad i l (by omega)) hrefl
  | swapRemove i =>
    refine map_sat ?_
    by_cases hi : i < l.length
    · obtain ⟨s', e1, e2, _, _⟩ := swapRemove_spec hs h hw hi ho
      rw [e1]
      refine .same e2.refusals (.swapRemove i l hi) ?_
      have := e2.trans
      unfold swapRemoved at this
      rw [List.getLast?_eq_some_getLast (List.ne_nil_of_length_pos (Nat.zero_lt_of_lt hi))] at this
      exact this
    · rw [swapRemove_panic h hi]
      exact .same rfl (.swapRemoveBad i l (by omega)) hrefl
  | truncate k =>
    refine quiet_sat ((truncate_spec hs h hw k).mono ?_ ?_)
    · rintro _ s' ⟨h1, _, h2, _⟩
      exact .same h2 (.truncate k l) h1
    · rintro s' ⟨_, _, _, _, h5⟩
      exact (nodrop h5).elim
  | clear =>
    refine quiet_sat ((clear_spec hs h hw).mono ?_ ?_)
    · rintro _ s' ⟨h1, _, h2, _⟩
      exact .same h2 (.clear l) h1
    · rintro s' ⟨ys, a, zs, _, h5, _⟩
      rw [hd a] at h5; cases h5
  | extendFromSlice xs =>
    refine quiet_sat ((extendFromSlice_spec hs h hw xs ho).mono ?_ ?_)
    · rintro _ s' ⟨ys, h1, h2, h3, _⟩
      exact .same h3 (.extendFromSlice xs ys l h1.spec) h2
    · rintro s' (⟨rfl, _, _⟩ | ⟨pre, a, post, ys, rfl, h2, ⟨k, h3⟩, h4, h5⟩)
      · exact .refused rfl (.extendFromSliceRefused xs l) href
      · exact .same h5 (.extendFromSlicePanic pre a post ys l h2.spec ⟨k, h3⟩) h4
  | extendFromIter it =>
    refine quiet_sat ((extendFromIter_spec hs h hw it.iter ho.1 ho.2).mono ?_ ?_)
    · rintro _ s' ⟨h1, h2, h3⟩
      exact .same h3 (.extendFromIter it l h1) h2
    · rintro s' (⟨h1, h2, h3⟩ | ⟨pre, post, h1, h2, h3⟩)
      · exact .same h3 (.extendFromIterPanic it l h1) h2
      · exact .refused h3 (.extendFromIterRefused it pre post l h1) h2
  | resize k a =>
    refine quiet_sat ((resize_spec hs h hw k a ho).mono ?_ ?_)
    · rintro _ s' ⟨h1, (⟨h2, h3⟩ | ⟨h2, ys, h3, h4⟩)⟩
      · exact .same h1 (.resizeDown k a l h2) h3
      · exact .same h1 (.resizeUp k a ys l h2 h3.spec) h4
    · rintro s' (⟨_, _, _, h5⟩ | ⟨h1, h2, h3⟩ | ⟨h1, h2, m, ys, h3, h4, ⟨j, h5⟩, h6⟩)
      · exact (nodrop h5).elim
      · exact .refused h2 (.resizeRefused k a l h1) h3
      · exact .same h2 (.resizePanic k a m ys l h3 h4.spec ⟨j, h5⟩) h6
  | resizeWith k f =>
    refine quiet_sat ((resizeWith_spec hs h hw f k ho).mono ?_ ?_)
    · rintro _ s' ⟨h1, (⟨h2, h3⟩ | ⟨h2, ys, h3, h4⟩)⟩
      · exact .same h1 (.resizeWithDown k f l h2) h3
      · exact .same h1 (.resizeWithUp k f ys l h2 h3) h4
    · rintro s' (⟨_, _, _, h5⟩ | ⟨h1, rfl⟩ | ⟨h1, h2, m, ys, h3, h4, h5, h6⟩)
      · exact (nodrop h5).elim
      · exact .refused rfl (.resizeWithRefused k f l h1) href
      · exact .same h2 (.resizeWithPanic k f m ys l h3 h4 h5) h6
  | reserve k =>
    refine quiet_sat ((reserve_spec hs h hw ho).mono ?_ ?_)
    · rintro _ s' ⟨h1, _, _⟩
      exact .same h1.refusals (.reserve k l) h1.trans
    · rintro s' ⟨rfl, _, _⟩
      exact .refused rfl (.reserveRefused k l) href
  | reserveExact k =>
    refine quiet_sat ((reserveExact_spec hs h hw ho).mono ?_ ?_)
    · rintro _ s' ⟨h1, _, _⟩
      exact .same h1.refusals (.reserveExact k l) h1.trans
    · rintro s' ⟨rfl, _, _⟩
      exact .refused rfl (.reserveExactRefused k l) href
  | tryReserve k =>
    refine map_sat ?_
    by_cases hk : s.self.cap < l.length + k
    · refine (tryReserve_spec hs h hw (ho hk) hk).mono ?_ (fun _ h => h.elim)
      rintro r s' (⟨rfl, h1, h2, h3, h4, h5, h6, h7⟩ | ⟨rfl, h1, rfl⟩)
      · exact .same h4 (.tryReserve k l) h1
      · exact .refused rfl (.tryReserveRefused k l) href
    · have hu : s.self.len + k ≤ c.usizeMax := by
        have := Fits.le_usize hs h.fits
        have := h.len
        omega
      rw [tryReserve_noop hs hu (by have := h.len; omega)]
      exact .same rfl (.tryReserve k l) hrefl
  | tryReserveExact k =>
    refine map_sat ?_
    by_cases hk : s.self.cap < l.length + k
    · refine (tryReserveExact_spec hs h hw ho hk).mono ?_ (fun _ h => h.elim)
      rintro r s' (⟨rfl, h1, h2, h3, h4, h5, h6, h7⟩ | ⟨rfl, h1, rfl⟩)
      · exact .same h4 (.tryReserveExact k l) h1
      · exact .refused rfl (.tryReserveExactRefused k l) href
    · have hu : s.self.len + k ≤ c.usizeMax := by
        have := Fits.le_usize hs h.fits
        have := h.len
        omega
      rw [tryReserveExact_noop hs hu (by have := h.len; omega)]
      exact .same rfl (.tryReserveExact k l) hrefl
  | shrinkTo k =>
    refine quiet_sat ((shrinkTo_spec hs h hw ho).mono ?_ ?_)
    · rintro _ s' ⟨h1, _⟩
      exact .same h1.refusals (.shrinkTo k l) h1.trans
    · rintro s' ⟨rfl, _, _⟩
      exact .refused rfl (.shrinkToRefused k l) href
  | shrinkToFit =>
    have hz : l ≠ [] ∨ s.self.cap = 0 := by
      rcases ho with ho | ho
      · exact Or.inl (List.ne_nil_of_length_pos ho)
      · exact Or.inr ho
    refine quiet_sat ((shrinkToFit_spec hs h hw hz).mono ?_ ?_)
    · rintro _ s' ⟨h1, _⟩
      exact .same h1.refusals (.shrinkToFit l) h1.trans
    · rintro s' ⟨rfl, _, _⟩
      exact .refused rfl (.shrinkToFitRefused l) href
  | get i =>
    refine map_sat ?_
    rw [index_spec hs h i]
    split
    · rename_i hi
      exact .same rfl (.get i l hi) hrefl
    · exact .same rfl (.getBad i l (by omega)) hrefl
  | set i a =>
    refine quiet_sat ((indexSet_spec hs h hw i a).mono ?_ ?_)
    · rintro _ s' ⟨hi, h1, _, h2, _⟩
      exact .same h2 (.set i a l hi) h1
    · rintro s' (⟨h1, h2, h3⟩ | ⟨hi, _, h2, _⟩)
      · exact .same h3 (.setBad i a l h1) h2
      · rw [hd] at h2; cases h2
  | read =>
    refine map_sat ?_
    rw [asSlice_spec hs h]
    exact .same rfl (.read l) hrefl
  | len =>
    refine map_sat ?_
    unfold Vec.len
    rw [M.gets_apply, h.len]
    exact .same rfl (.len l) hrefl

/-! ## The pool invariant -/

/-- The pool holds the lists `L`; buffers are unshared, and there are no other blocks. -/
structure PInv (c : Cfg α) (P : Pool α) (L : Spec.Lists α) : Prop where
  len : P.vecs.length = L.length
  rep : ∀ (x : Nat) (v : VecH), P.vecs[x]? = some (some v) → ∃ l, L[x]? = some (some l) ∧ Rep c v P.w l
  live : ∀ (x : Nat) (l : List α), L[x]? = some (some l) → ∃ v, P.vecs[x]? = some (some v)
  inj : ∀ (x y : Nat) (v v' : VecH) (p : Nat), P.vecs[x]? = some (some v) → P.vecs[y]? = some (some v') →
    v.ptr = some p → v'.ptr = some p → x = y
  owned : ∀ p b, P.w.heap p = some b → ∃ (x : Nat) (v : VecH), P.vecs[x]? = some (some v) ∧ v.ptr = some p
  wf : P.w.WF

theorem set_get {β : Type} {l : List β} {x y : Nat} {a b : β} (h : (l.set x a)[y]? = some b) :
    (x = y ∧ b = a ∧ x < l.length) ∨ (x ≠ y ∧ l[y]? = some b) := by
  rw [List.getElem?_set] at h
  split at h
  · rename_i hxy
    subst hxy
    split at h
    · rename_i hl
      cases h
      exact Or.inl ⟨rfl, rfl, hl⟩
    · cases h
  · rename_i hxy
    exact Or.inr ⟨hxy, h⟩

theorem PInv.update {P : Pool α} {L : Spec.Lists α} (h : PInv c P L) {x : Nat} {v : VecH}
    (hx : P.vecs[x]? = some (some v)) {l' d : List α} {s' : VSt α}
    (ht : Trans c l' d ⟨v, P.w⟩ s') :
    PInv c ⟨P.vecs.set x (some s'.self), s'.w⟩ (L.set x (some l')) := by
  have hxl : x < P.vecs.length := by
    rcases List.getElem?_eq_some_iff.mp hx with ⟨h, _⟩; exact h
  -- blocks of other vectors are untouched
  have other : ∀ (y : Nat) (v' : VecH) (p : Nat), x ≠ y → P.vecs[y]? = some (some v') → v'.ptr = some p →
      v.ptr ≠ some p ∧ s'.self.ptr ≠ some p ∧ s'.w.heap p = P.w.heap p := by
    intro y v' p hxy hy hp
    have h1 : v.ptr ≠ some p := fun e => hxy (h.inj x y v v' p hx hy e hp)
    have h2 : s'.self.ptr ≠ some p := by
      intro e
      have h3 := ht.own.fresh p e h1
      obtain ⟨l, _, hl⟩ := h.rep y v' hy
      have := hl.ptr_lt h.wf hp
      simp only at h3
      omega
    exact ⟨h1, h2, ht.own.frame p (fun e => h1 e.symm) (fun e => h2 e.symm)⟩
  refine ⟨by simp [h.len], ?_, ?_, ?_, ?_, ht.wf⟩
  · intro y v' hy
    rcases set_get hy with ⟨rfl, e, _⟩ | ⟨hxy, hy⟩
    · cases e
      exact ⟨l', by rw [List.getElem?_set_self (by rw [← h.len]; exact hxl)], ht.rep⟩
    · obtain ⟨l, h1, h2⟩ := h.rep y v' hy
      refine ⟨l, by rw [List.getElem?_set_ne hxy]; exact h1, h2.congr fun p hp => ?_⟩
      exact (other y v' p hxy hy hp).2.2
  · intro y l hy
    rcases set_get hy with ⟨rfl, e, _⟩ | ⟨hxy, hy⟩
    · exact ⟨s'.self, by simp [hxl]⟩
    · obtain ⟨v', h1⟩ := h.live y l hy
      exact ⟨v', by simp [List.getElem?_set_ne hxy, h1]⟩
  · intro y z v1 v2 p hy hz hp hp'
    rcases set_get hy with ⟨rfl, e, _⟩ | ⟨hxy, hy⟩ <;>
      rcases set_get hz with ⟨rfl, e', _⟩ | ⟨hxz, hz⟩
    · rfl
    · cases e
      exact absurd hp (other z v2 p hxz hz hp').2.1
    · cases e'
      exact absurd hp' (other y v1 p hxy hy hp).2.1
    · exact h.inj y z v1 v2 p hy hz hp hp'
  · intro p b hb
    by_cases h1 : s'.self.ptr = some p
    · exact ⟨x, s'.self, by simp [hxl], h1⟩
    · by_cases h2 : v.ptr = some p
      · have := ht.own.freed p h2 h1
        rw [hb] at this; cases this
      · have e := ht.own.frame p (fun e => h2 e.symm) (fun e => h1 e.symm)
        rw [hb] at e
        obtain ⟨y, v', hy, hp⟩ := h.owned p b e.symm
        have hxy : x ≠ y := by
          rintro rfl
          rw [hx] at hy; cases hy
          exact h2 hp
        exact ⟨y, v', by simp [List.getElem?_set_ne hxy, hy], hp⟩

theorem getElem?_snoc {β : Type} {l : List β} {a b : β} {x : Nat} (h : (l ++ [a])[x]? = some b) :
    l[x]? = some b ∨ (x = l.length ∧ b = a) := by
  rcases Nat.lt_trichotomy x l.length with h1 | h1 | h1
  · left; rwa [List.getElem?_append_left h1] at h
  · right; subst h1; simp at h; exact ⟨rfl, h.symm⟩
  · rw [List.getElem?_append_right (by omega)] at h
    have : x - l.length ≠ 0 := by omega
    rw [List.getElem?_eq_none (by simp; omega)] at h; cases h

theorem PInv.add {P : Pool α} {L : Spec.Lists α} (h : PInv c P L) {v : VecH} {l d : List α}
    {w' : World α} (hm : Made c l d P.w v w') :
    PInv c ⟨P.vecs ++ [some v], w'⟩ (L ++ [some l]) := by
  have other : ∀ (y : Nat) (v' : VecH) (p : Nat), P.vecs[y]? = some (some v') → v'.ptr = some p →
      v.ptr ≠ some p ∧ w'.heap p = P.w.heap p := by
    intro y v' p hy hp
    have h1 : v.ptr ≠ some p := by
      intro e
      have h3 := hm.fresh p e
      obtain ⟨l, _, hl⟩ := h.rep y v' hy
      have := hl.ptr_lt h.wf hp
      omega
    exact ⟨h1, hm.frame p (fun e => h1 e.symm)⟩
  refine ⟨by simp [h.len], ?_, ?_, ?_, ?_, hm.wf⟩
  · intro y v' hy
    rcases getElem?_snoc hy with hy | ⟨rfl, e⟩
    · obtain ⟨l, h1, h2⟩ := h.rep y v' hy
      refine ⟨l, ?_, h2.congr fun p hp => (other y v' p hy hp).2⟩
      rw [List.getElem?_append_left (List.getElem?_eq_some_iff.mp h1).1, h1]
    · cases e
      exact ⟨l, by rw [h.len]; simp, hm.rep⟩
  · intro y l' hy
    rcases getElem?_snoc hy with hy | ⟨rfl, e⟩
    · obtain ⟨v', h1⟩ := h.live y l' hy
      exact ⟨v', by rw [List.getElem?_append_left (List.getElem?_eq_some_iff.mp h1).1, h1]⟩
    · exact ⟨v, by rw [← h.len]; simp⟩
  · intro y z v1 v2 p hy hz hp hp'
    rcases getElem?_snoc hy with hy | ⟨rfl, e⟩ <;> rcases getElem?_snoc hz with hz | ⟨rfl, e'⟩
    · exact h.inj y z v1 v2 p hy hz hp hp'
    · cases e'
      exact absurd hp' (other y v1 p hy hp).1
    · cases e
      exact absurd hp (other z v2 p hz hp').1
    · rfl
  · intro p b hb
    by_cases h1 : v.ptr = some p
    · exact ⟨P.vecs.length, v, by simp, h1⟩
    · have e := hm.frame p (fun e => h1 e.symm)
      rw [hb] at e
      obtain ⟨y, v', hy, hp⟩ := h.owned p b e.symm
      exact ⟨y, v', by
        rw [List.getElem?_append_left (List.getElem?_eq_some_iff.mp hy).1, hy], hp⟩

theorem PInv.clean {P : Pool α} {L : Spec.Lists α} (h : PInv c P L) {d : List α} {w' : World α}
    (hm : Clean d P.w w') : PInv c ⟨P.vecs, w'⟩ L := by
  refine ⟨h.len, ?_, h.live, h.inj, ?_, hm.wf⟩
  · intro y v hy
    obtain ⟨l, h1, h2⟩ := h.rep y v hy
    exact ⟨l, h1, h2.congr fun p _ => hm.heap p⟩
  · intro p b hb
    exact h.owned p b ((hm.heap p).symm.trans hb)

theorem PInv.remove {P : Pool α} {L : Spec.Lists α} (h : PInv c P L) {x : Nat} {v : VecH}
    (hx : P.vecs[x]? = some (some v)) (d : List α) :
    PInv c ⟨P.vecs.set x none, (P.w.free v.ptr).addDrops d⟩ (L.set x none) := by
  refine ⟨by simp [h.len], ?_, ?_, ?_, ?_, ?_⟩
  · intro y v' hy
    rcases set_get hy with ⟨rfl, e, _⟩ | ⟨hxy, hy⟩
    · cases e
    · obtain ⟨l, h1, h2⟩ := h.rep y v' hy
      refine ⟨l, by rw [List.getElem?_set_ne hxy]; exact h1, h2.congr fun p hp => ?_⟩
      have : some p ≠ v.ptr := fun e => hxy (h.inj x y v v' p hx hy e.symm hp)
      simp [World.addDrops, World.free, this]
  · intro y l hy
    rcases set_get hy with ⟨rfl, e, _⟩ | ⟨hxy, hy⟩
    · cases e
    · obtain ⟨v', h1⟩ := h.live y l hy
      exact ⟨v', by simp [List.getElem?_set_ne hxy, h1]⟩
  · intro y z v1 v2 p hy hz hp hp'
    rcases set_get hy with ⟨rfl, e, _⟩ | ⟨hxy, hy⟩
    · cases e
    · rcases set_get hz with ⟨rfl, e', _⟩ | ⟨hxz, hz⟩
      · cases e'
      · exact h.inj y z v1 v2 p hy hz hp hp'
  · intro p b hb
    simp only [World.addDrops, World.free] at hb
    split at hb
    · cases hb
    · rename_i hne
      obtain ⟨y, v', hy, hp⟩ := h.owned p b hb
      have hxy : x ≠ y := by
        rintro rfl
        rw [hx] at hy; cases hy
        exact hne hp.symm
      exact ⟨y, v', by simp [List.getElem?_set_ne hxy, hy], hp⟩
  · intro p hp
    simp only [World.addDrops, World.free] at hp ⊢
    split
    · rfl
    · exact h.wf p hp

/-- Emptying vector `y` without touching memory. -/
theorem PInv.setEmpty {P : Pool α} {L : Spec.Lists α} (h : PInv c P L) {y : Nat} {v v' : VecH}
    (hy : P.vecs[y]? = some (some v)) (hv : v'.ptr = v.ptr) (hr : Rep c v' P.w []) :
    PInv c ⟨P.vecs.set y (some v'), P.w⟩ (L.set y (some [])) := by
  have hyl : y < P.vecs.length := (List.getElem?_eq_some_iff.mp hy).1
  refine ⟨by simp [h.len], ?_, ?_, ?_, ?_, h.wf⟩
  · intro z v1 hz
    rcases set_get hz with ⟨rfl, e, _⟩ | ⟨hne, hz⟩
    · cases e
      exact ⟨[], by rw [List.getElem?_set_self (by rw [← h.len]; exact hyl)], hr⟩
    · obtain ⟨l, h1, h2⟩ := h.rep z v1 hz
      exact ⟨l, by rw [List.getElem?_set_ne hne]; exact h1, h2⟩
  · intro z l hz
    rcases set_get hz with ⟨rfl, e, _⟩ | ⟨hne, hz⟩
    · exact ⟨v', by simp [hyl]⟩
    · obtain ⟨v1, h1⟩ := h.live z l hz
      exact ⟨v1, by simp [List.getElem?_set_ne hne, h1]⟩
  · intro a b v1 v2 p ha hb hp hp'
    rcases set_get ha with ⟨rfl, e, _⟩ | ⟨hne, ha⟩ <;>
      rcases set_get hb with ⟨rfl, e', _⟩ | ⟨hne', hb⟩
    · rfl
    · cases e
      exact h.inj _ _ v v2 p hy hb (hv ▸ hp) hp'
    · cases e'
      exact h.inj _ _ v1 v p ha hy hp (hv ▸ hp')
    · exact h.inj _ _ v1 v2 p ha hb hp hp'
  · intro p b hb
    obtain ⟨x, v1, hx, hp⟩ := h.owned p b hb
    by_cases hxy : y = x
    · subst hxy
      rw [hy] at hx; cases hx
      exact ⟨y, v', by simp [hyl], by rw [hv]; exact hp⟩
    · exact ⟨x, v1, by simp [List.getElem?_set_ne hxy, hx], hp⟩

/-! ## One call of a client program -/

/-- A call in a pool with contents `L` is allowed by the specification. -/
def CmdOk (c : Cfg α) (cmd : Cmd α) (L : Spec.Lists α) (P : Pool α) (out : Option (Out α))
    (P' : Pool α) : Prop :=
  ∃ L' made dropped,
    Spec.Step c.cloneRel cmd ⟨out, P'.w.refusals != P.w.refusals⟩ L L' made dropped ∧
    PInv c P' L' ∧ P'.w.log.drops = P.w.log.drops ++ dropped

theorem CmdOk.same {cmd : Cmd α} {L L' : Spec.Lists α} {made dropped : List α} {P P' : Pool α}
    {out : Option (Out α)} (hr : P'.w.refusals = P.w.refusals)
    (he : Spec.Step c.cloneRel cmd ⟨out, false⟩ L L' made dropped) (hi : PInv c P' L')
    (hd : P'.w.log.drops = P.w.log.drops ++ dropped) : CmdOk c cmd L P out P' := by
  refine ⟨L', made, dropped, ?_, hi, hd⟩
  have : (P'.w.refusals != P.w.refusals) = false := by simp [hr]
  rw [this]; exact he

theorem CmdOk.refused {cmd : Cmd α} {L L' : Spec.Lists α} {made dropped : List α} {P P' : Pool α}
    {out : Option (Out α)} (hr : P'.w.refusals = P.w.refusals + 1)
    (he : Spec.Step c.cloneRel cmd ⟨out, true⟩ L L' made dropped) (hi : PInv c P' L')
    (hd : P'.w.log.drops = P.w.log.drops ++ dropped) : CmdOk c cmd L P out P' := by
  refine ⟨L', made, dropped, ?_, hi, hd⟩
  have : (P'.w.refusals != P.w.refusals) = true := by simp [hr]
  rw [this]; exact he

theorem creating_sat {m : M (World α) VecH} {P : Pool α} {Q : Option (Out α) → Pool α → Prop}
    (h : Sat c (m P.w) (fun v w' => Q (some .unit) ⟨P.vecs ++ [some v], w'⟩)
      (fun w' => Q none ⟨P.vecs, w'⟩)) :
    Sat c (creating m P) (fun o P' => Q (some o) P') (fun P' => Q none P') := by
  unfold creating
  cases hr : m P.w <;> rw [hr] at h <;> exact h

theorem onVecs_sat {β : Type} {m : M (VSt α) β} {P : Pool α} {x : Nat} {v : VecH} {dflt : β}
    (hx : P.vecs[x]? = some (some v)) {Q : β → Pool α → Prop} {E : Pool α → Prop}
    (h : Sat c (m ⟨v, P.w⟩) (fun a s' => Q a ⟨P.vecs.set x (some s'.self), s'.w⟩)
      (fun s' => E ⟨P.vecs.set x (some s'.self), s'.w⟩)) :
    Sat c (onVecs x m dflt P) Q E := by
  unfold onVecs
  rw [hx]
  cases hr : m ⟨v, P.w⟩ <;> rw [hr] at h <;> simp only [hr] <;> exact h

theorem set_self {β : Type} {l : List β} {x : Nat} {a : β} (h : l[x]? = some a) :
    l.set x a = l := by
  apply List.ext_getElem?
  intro i
  rw [List.getElem?_set]
  split
  · rename_i e; subst e
    rw [if_pos (List.getElem?_eq_some_iff.mp h).1, h]
  · rfl

theorem Clean.refuse {w : World α} (hw : w.WF) : Clean [] w w.refuse :=
  ⟨fun _ => rfl, hw, Nat.le_refl _, by simp [World.refuse], rfl⟩

theorem runCmd_spec {P : Pool α} {L : Spec.Lists α} (hs : c.size ≠ 0)
    (hd : ∀ a, c.dropPanics a = false) (h : PInv c P L) (cmd : Cmd α) (hl : cmd.Legal c P) :
    Sat c (runCmd c cmd P) (fun out P' => CmdOk c cmd L P (some out) P')
      (fun P' => CmdOk c cmd L P none P') := by
  cases cmd with
  | new =>
    show Sat c (creating Vec.new P) _ _
    refine creating_sat (Q := CmdOk c .new L P) ?_
    rw [new_eq]
    exact .same rfl (.new L) (h.add (Trans.made (Trans.refl (emptyVec_rep P.w) h.wf)))
      (by simp)
  | withCapacity n =>
    refine creating_sat ((withCapacity_spec hs h.wf hl).mono ?_ ?_)
    · rintro v w' ⟨h1, _, h2, h3⟩
      exact .same h2 (.withCapacity n L) (h.add h1.made) (by simp [h3])
    · rintro w' ⟨rfl, _, _⟩
      exact .refused rfl (.withCapacityRefused n L) (h.clean (.refuse h.wf)) (by simp [World.refuse])
  | fromArray l =>
    refine creating_sat ((fromArray_spec hs h.wf l hl).mono ?_ ?_)
    · rintro v w' ⟨h1, h2⟩
      exact .same h2 (.fromArray l L) (h.add h1) h1.drops
    · rintro w' ⟨h1, h2⟩
      exact .refused h2 (.fromArrayRefused l L) (h.clean h1) h1.drops
  | fromIter it =>
    refine creating_sat ((fromIter_spec hs h.wf it.iter hl.1 hl.2).mono ?_ ?_)
    · rintro v w' ⟨h0, h1, h2⟩
      exact .same h2 (.fromIter it L h0) (h.add h1) h1.drops
    · rintro w' ⟨d, h0, h1, (⟨h2, h3⟩ | h3)⟩
      · exact .same h3 (.fromIterPanic it d L h2 h0) (h.clean h1) h1.drops
      · exact .refused h3 (.fromIterRefused it d L h0) (h.clean h1) h1.drops
  | clone x =>
    obtain ⟨v, hx⟩ := hl
    obtain ⟨l, hL, hv⟩ := h.rep x v hx
    have e : onVecs x (Vec.asSlice c) [] P = .ok l P := by
      simp only [onVecs, hx, asSlice_spec (s := ⟨v, P.w⟩) hs hv, set_self hx]
    show Sat c ((onVecs x (Vec.asSlice c) [] >>= fun l => creating (Vec.cloneFrom c l)) P) _ _
    rw [M.bind_ok e]
    have hfit : c.Fits l.length := by
      have h1 := hv.fits
      have h2 := hv.le_cap
      unfold Cfg.Fits at h1 ⊢
      exact Nat.le_trans (Nat.mul_le_mul_right _ h2) h1
    refine creating_sat ((cloneFrom_spec hs h.wf l hfit).mono ?_ ?_)
    · rintro v' w' ⟨ys, h1, h2, h3⟩
      exact .same h3 (.clone x l ys L hL h1.spec) (h.add h2) h2.drops
    · rintro w' (⟨h1, h2⟩ | ⟨pre, a, post, ys, rfl, h2, ⟨k, h3⟩, h4, h5⟩)
      · exact .refused h2 (.cloneRefused x L) (h.clean h1) h1.drops
      · exact .same h5 (.clonePanic x pre a post ys L hL h2.spec ⟨k, h3⟩) (h.clean h4) h4.drops
  | on x o =>
    obtain ⟨v, hx, ho⟩ := hl
    obtain ⟨l, hL, hv⟩ := h.rep x v hx
    refine onVecs_sat hx ((runOp_spec (s := ⟨v, P.w⟩) hs hd hv h.wf o ho).mono ?_ ?_)
    · rintro out s' ⟨l', made, dropped, h1, h2⟩
      exact ⟨_, made, dropped, .on x o _ l l' made dropped L hL h1, h.update hx h2, h2.drops⟩
    · rintro s' ⟨l', made, dropped, h1, h2⟩
      exact ⟨_, made, dropped, .on x o _ l l' made dropped L hL h1, h.update hx h2, h2.drops⟩
  | append x y =>
    obtain ⟨hxy, v, v', hx, hy, hf⟩ := hl
    obtain ⟨l, hL, hv⟩ := h.rep x v hx
    obtain ⟨l', hL', hv'⟩ := h.rep y v' hy
    have hne : v.ptr ≠ v'.ptr ∨ v'.ptr = none := by
      cases hp : v'.ptr with
      | none => exact Or.inr rfl
      | some p => exact Or.inl fun e => hxy (h.inj x y v v' p hx hy e hp)
    have key := append_spec hs hv hv' h.wf hne (by rw [← hv.len, ← hv'.len]; exact hf)
    unfold runCmd
    simp only [hx, hy]
    cases hr : Vec.append c ⟨(v, v'), P.w⟩ with
    | ok u s =>
      rw [hr] at key
      obtain ⟨v1, h1, h2, h3, _⟩ := key
      have i1 := h.update hx h2.trans
      have hy' : (P.vecs.set x (some v1))[y]? = some (some v') := by
        rw [List.getElem?_set_ne hxy, hy]
      have i2 := i1.setEmpty (v' := { v' with len := 0 }) hy' rfl h3
      simp only [h1]
      exact .same h2.refusals (.append x y l l' L hxy hL hL') i2 (by simpa using congrArg Log.drops h2.log)
    | panic s =>
      rw [hr] at key
      obtain ⟨rfl, _, _⟩ := key
      simp only [St.refuse, set_self hx, set_self hy]
      exact .refused rfl (.appendRefused x y L) (h.clean (.refuse h.wf)) (by simp [World.refuse])
    | abort => rw [hr] at key; exact key
    | ub u => rw [hr] at key; exact key
  | drop x =>
    obtain ⟨v, hx⟩ := hl
    obtain ⟨l, hL, hv⟩ := h.rep x v hx
    unfold runCmd
    simp only [hx]
    obtain ⟨v', e, _⟩ := drop_spec_ok (s := ⟨v, P.w⟩) hs hv (fun a _ => hd a)
    rw [e]
    exact .same rfl (.drop x l L hL) (h.remove hx l) rfl

/-! ## Whole histories -/

theorem PInv.initial {P : Pool α} (h : P.Initial) : PInv c P [] := by
  obtain ⟨h1, h2, _⟩ := h
  refine ⟨by simp [h1], ?_, ?_, ?_, ?_, fun p _ => h2 p⟩
  · intro x v hx; simp [h1] at hx
  · intro x l hx; simp at hx
  · intro x y v v' p hx; simp [h1] at hx
  · intro p b hb; rw [h2 p] at hb; cases hb

theorem Reaches.inv {P0 P : Pool α} {hist : Spec.History α} (hs : c.size ≠ 0)
    (hd : ∀ a, c.dropPanics a = false) (h0 : P0.Initial) (h : Reaches c P0 hist P) :
    ∃ L made, Spec.Runs c.cloneRel hist L made P.w.log.drops ∧ PInv c P L := by
  induction h with
  | start => exact ⟨[], [], by rw [h0.2.2]; exact .start, .initial h0⟩
  | @step hist P cmd ev P' _ hl he ih =>
    obtain ⟨L, made, h1, h2⟩ := ih
    have key := runCmd_spec hs hd h2 cmd hl
    cases he with
    | ret hr =>
      rw [hr] at key
      obtain ⟨L', made', dropped', h3, h4, h5⟩ := key
      exact ⟨L', made ++ made', by rw [h5]; exact .step h1 h3, h4⟩
    | panic hr =>
      rw [hr] at key
      obtain ⟨L', made', dropped', h3, h4, h5⟩ := key
      exact ⟨L', made ++ made', by rw [h5]; exact .step h1 h3, h4⟩

end Lokky
