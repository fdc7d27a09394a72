import Verif.Model.SmallPool
import Verif.Proofs.SmallMake
import Verif.Proofs.VecPool

/-!
# Every call on a pool of small vectors follows the list specification
-/

namespace Lokky
open Spec (Event Edit Late Op SCmd Out)
variable {α : Type} {c : Cfg α}

/-- A call on a small vector with contents `l` is allowed by the specification. -/
def SOpOk (c : Cfg α) (o : Op α) (l : List α) (s : SSt α) (out : Option (Out α)) (s' : SSt α) :
    Prop :=
  ∃ l' made dropped, (Edit c.cloneRel o ⟨out, s'.w.refusals != s.w.refusals⟩ l l' made dropped ∨
      ((⟨out, s'.w.refusals != s.w.refusals⟩ : Event α) = .refuse ∧
        Late c.cloneRel o l l' made dropped)) ∧
    STrans c l' dropped s s'

theorem SOpOk.same {o : Op α} {l l' made dropped : List α} {s s' : SSt α} {out : Option (Out α)}
    (hr : s'.w.refusals = s.w.refusals)
    (he : Edit c.cloneRel o ⟨out, false⟩ l l' made dropped) (ht : STrans c l' dropped s s') :
    SOpOk c o l s out s' := by
  refine ⟨l', made, dropped, Or.inl ?_, ht⟩
  have : (s'.w.refusals != s.w.refusals) = false := by simp [hr]
  rw [this]; exact he

theorem SOpOk.refused {o : Op α} {l l' made dropped : List α} {s s' : SSt α} {out : Option (Out α)}
    (hr : s'.w.refusals = s.w.refusals + 1)
    (he : Edit c.cloneRel o ⟨out, true⟩ l l' made dropped) (ht : STrans c l' dropped s s') :
    SOpOk c o l s out s' := by
  refine ⟨l', made, dropped, Or.inl ?_, ht⟩
  have : (s'.w.refusals != s.w.refusals) = true := by simp [hr]
  rw [this]; exact he

theorem SOpOk.late {o : Op α} {l l' made dropped : List α} {s s' : SSt α}
    (hr : s'.w.refusals = s.w.refusals + 1)
    (he : Late c.cloneRel o l l' made dropped) (ht : STrans c l' dropped s s') :
    SOpOk c o l s none s' := by
  refine ⟨l', made, dropped, Or.inr ⟨?_, he⟩, ht⟩
  have : (s'.w.refusals != s.w.refusals) = true := by simp [hr]
  rw [this]

theorem sshrinkTo_spec {s : SSt α} {l : List α} (hs : c.size ≠ 0) (h : SRep c s.self s.w l)
    (hw : s.w.WF) {k : Nat}
    (hz : Small.isHeap s.self = true → 0 < max l.length k ∨ Small.capacity c s.self = 0) :
    Sat c (Small.shrinkTo c k s) (fun _ s' => SReserved c l s s') (fun s' => s' = s.refuse) := by
  unfold Small.shrinkTo
  cases hst : s.self.store with
  | stack slots len =>
    rw [onStore_look_stack hst (M.pure_apply () _)]
    exact .refl h hw
  | heap v =>
    refine heap_sat hst (shrinkTo_spec hs (h.heap v hst) hw ?_) ?_ ?_
    · simpa [Small.capacity, hst, capacity_eq hs] using hz (by simp [Small.isHeap, hst])
    · rintro _ t ⟨h1, _⟩
      exact putHeap_reserved h hst h1
    · rintro t ⟨rfl, _⟩
      exact putHeap_refuse hst

theorem sshrinkToFit_spec {s : SSt α} {l : List α} (hs : c.size ≠ 0) (h : SRep c s.self s.w l)
    (hw : s.w.WF)
    (hz : Small.isHeap s.self = true → 0 < l.length ∨ Small.capacity c s.self = 0) :
    Sat c (Small.shrinkToFit c s) (fun _ s' => SReserved c l s s') (fun s' => s' = s.refuse) := by
  unfold Small.shrinkToFit
  cases hst : s.self.store with
  | stack slots len =>
    rw [onStore_look_stack hst (M.pure_apply () _)]
    exact .refl h hw
  | heap v =>
    refine heap_sat hst (shrinkToFit_spec hs (h.heap v hst) hw ?_) ?_ ?_
    · have := hz (by simp [Small.isHeap, hst])
      simp only [Small.capacity, hst, capacity_eq hs] at this
      rcases this with h1 | h1
      · exact Or.inl (List.ne_nil_of_length_pos h1)
      · exact Or.inr h1
    · rintro _ t ⟨h1, _⟩
      exact putHeap_reserved h hst h1
    · rintro t ⟨rfl, _⟩
      exact putHeap_refuse hst

theorem extra_stack {v : SmallH α} (h : Small.isHeap v = false) (k : Nat) :
    extra c v k = max (Vec.minNonZeroCap c) (v.n + k) - v.n := by
  cases hst : v.store with
  | stack _ _ => simp [extra, Small.capacity, hst]
  | heap _ => simp [Small.isHeap, hst] at h

/-- The call may run the destructors of elements of the vector. -/
def Spec.Op.destroys : Spec.Op α → Bool
  | .truncate _ | .clear | .resize _ _ | .resizeWith _ _ | .set _ _ => true
  | _ => false

theorem runSOp_spec {s : SSt α} {l : List α} (hs : c.size ≠ 0) (o : Op α)
    (hd : o.destroys = true → ∀ a, c.dropPanics a = false)
    (h : SRep c s.self s.w l) (hw : s.w.WF) (ho : o.SLegal c s.self) :
    Sat c (runSOp c o s) (fun out s' => SOpOk c o l s (some out) s')
      (fun s' => SOpOk c o l s none s') := by
  have hlen := h.lenOf
  have nodrop : o.destroys = true → ∀ {xs : List α}, (∃ a ∈ xs, c.dropPanics a = true) → False := by
    rintro e xs ⟨a, _, ha⟩; rw [hd e a] at ha; cases ha
  have hrefl := STrans.refl h hw
  have href := STrans.refuse h hw
  cases o with
  | push a =>
    unfold Op.SLegal at ho
    rw [hlen] at ho
    refine quiet_sat ((spush_spec hs h hw ho a).mono ?_ ?_)
    · rintro _ s' ⟨h1, _⟩
      exact .same h1.refusals (.push a l) h1.trans
    · rintro s' ⟨h1, h2, _⟩
      exact .refused h2 (.pushRefused a l) h1
  | pop =>
    obtain ⟨s', e1, e2, _, _⟩ := spop_spec hs h hw
    refine map_sat ?_
    rw [e1]
    exact .same e2.refusals (.pop l) e2.trans
  | insert i a =>
    unfold Op.SLegal at ho
    rw [hlen] at ho
    refine quiet_sat ((sinsert_spec (i := i) hs h hw ho.1 a ?_).mono ?_ ?_)
    · intro hst hle
      rw [extra_stack hst] at hle
      exact ho.2 hst hle
    · rintro _ s' ⟨h0, h1⟩
      refine .same h1.refusals (.insert i a l h0) ?_
      rw [← insertIdx_split h0]
      exact h1.trans
    · rintro s' ⟨h1, (⟨h2, h3⟩ | h2)⟩
      · exact .same h2 (.insertBad i a l h3) h1
      · by_cases hi : i ≤ l.length
        · exact .refused h2 (.insertRefused i a l hi) h1
        · exact .late h2 (.insertBad i a l (by omega)) h1
  | remove i =>
    unfold Op.SLegal at ho
    rw [hlen] at ho
    refine map_sat ?_
    by_cases hi : i < l.length
    · obtain ⟨s', e1, e2, _, _⟩ := sremove_spec hs h hw hi (fun e => ho e hi)
      rw [e1]
      refine .same e2.refusals (.remove i l hi) ?_
      have := e2.trans
      rwa [List.eraseIdx_eq_take_drop_succ] at this
    · rw [sremove_panic hs h hi]
      exact .same rfl (.removeBad i l (by omega)) hrefl
  | swapRemove i =>
    unfold Op.SLegal at ho
    rw [hlen] at ho
    refine map_sat ?_
    by_cases hi : i < l.length
    · obtain ⟨s', e1, e2, _, _⟩ := sswapRemove_spec hs h hw hi ho
      rw [e1]
      refine .same e2.refusals (.swapRemove i l hi) ?_
      have := e2.trans
      unfold swapRemoved at this
      rw [List.getLast?_eq_some_getLast (List.ne_nil_of_length_pos (Nat.zero_lt_of_lt hi))] at this
      exact this
    · rw [sswapRemove_panic h hi]
      exact .same rfl (.swapRemoveBad i l (by omega)) hrefl
  | truncate k =>
    unfold Op.SLegal at ho
    rw [hlen] at ho
    refine quiet_sat ((struncate_spec hs h hw k ho).mono ?_ ?_)
    · rintro _ s' ⟨h1, h2⟩
      exact .same h2 (.truncate k l) h1
    · rintro s' ⟨_, _, h5⟩
      exact (nodrop rfl h5).elim
  | clear =>
    refine quiet_sat ((sclear_spec hs h hw).mono ?_ ?_)
    · rintro _ s' ⟨h1, h2⟩
      exact .same h2 (.clear l) h1
    · rintro s' ⟨ys, a, zs, _, h5, _⟩
      rw [hd rfl a] at h5; cases h5
  | extendFromSlice xs =>
    unfold Op.SLegal at ho
    rw [hlen] at ho
    refine quiet_sat ((sextendFromSlice_spec hs h hw xs ho).mono ?_ ?_)
    · rintro _ s' ⟨ys, h1, h2, h3⟩
      exact .same h3 (.extendFromSlice xs ys l h1.spec) h2
    · rintro s' (rfl | ⟨pre, a, post, ys, rfl, h2, (⟨⟨k, h3⟩, h4, h5⟩ | ⟨b, ⟨k, h3⟩, h4, h5⟩)⟩)
      · exact .refused rfl (.extendFromSliceRefused xs l) href
      · exact .same h5 (.extendFromSlicePanic pre a post ys l h2.spec ⟨k, h3⟩) h4
      · exact .late h5 (.extendFromSlice pre a post ys b l h2.spec ⟨k, h3⟩) h4
  | extendFromIter it =>
    unfold Op.SLegal at ho
    rw [hlen] at ho
    refine quiet_sat ((sextendFromIter_spec hs h hw it.iter ho.1 ho.2).mono ?_ ?_)
    · rintro _ s' ⟨h1, h2, h3⟩
      exact .same h3 (.extendFromIter it l h1) h2
    · rintro s' (⟨h1, h2, h3⟩ | ⟨pre, post, h1, h2, h3⟩)
      · exact .same h3 (.extendFromIterPanic it l h1) h2
      · exact .refused h3 (.extendFromIterRefused it pre post l h1) h2
  | resize k a =>
    unfold Op.SLegal at ho
    rw [hlen] at ho
    refine quiet_sat ((sresize_spec hs h hw k a ?_ ho.2).mono ?_ ?_)
    · intro hst
      obtain ⟨h1, h2⟩ := ho.1 hst
      refine ⟨h1, fun hk => ?_⟩
      rw [extra_stack hst, show s.self.n + (k - s.self.n) = k by omega]
      exact h2 hk
    · rintro _ s' ⟨h1, (⟨h2, h3⟩ | ⟨h2, ys, h3, h4⟩)⟩
      · exact .same h1 (.resizeDown k a l h2) h3
      · exact .same h1 (.resizeUp k a ys l h2 h3.spec) h4
    · rintro s' (⟨_, _, _, h5⟩ | ⟨h2, h3⟩ | ⟨h1, h2, m, ys, h3, h4, ⟨j, h5⟩, h6⟩)
      · exact (nodrop rfl h5).elim
      · by_cases hk : l.length < k
        · exact .refused h2 (.resizeRefused k a l hk) h3
        · exact .late h2 (.resizeDown k a l (by omega)) h3
      · exact .same h2 (.resizePanic k a m ys l h3 h4.spec ⟨j, h5⟩) h6
  | resizeWith k f =>
    unfold Op.SLegal at ho
    rw [hlen] at ho
    refine quiet_sat ((sresizeWith_spec hs h hw f k ho.1 ho.2).mono ?_ ?_)
    · rintro _ s' ⟨h1, (⟨h2, h3⟩ | ⟨h2, ys, h3, h4⟩)⟩
      · exact .same h1 (.resizeWithDown k f l h2) h3
      · exact .same h1 (.resizeWithUp k f ys l h2 h3) h4
    · rintro s' (⟨_, _, _, h5⟩ | ⟨h1, rfl⟩ | ⟨h1, h2, m, ys, h3, h4, h5, h6⟩)
      · exact (nodrop rfl h5).elim
      · exact .refused rfl (.resizeWithRefused k f l h1) href
      · exact .same h2 (.resizeWithPanic k f m ys l h3 h4 h5) h6
  | reserve k =>
    unfold Op.SLegal at ho
    rw [hlen] at ho
    refine quiet_sat ((sreserve_spec hs h hw ho).mono ?_ ?_)
    · rintro _ s' ⟨h1, _⟩
      exact .same h1.refusals (.reserve k l) h1.trans
    · rintro s' ⟨rfl, _, _⟩
      exact .refused rfl (.reserveRefused k l) href
  | reserveExact k =>
    unfold Op.SLegal at ho
    rw [hlen] at ho
    refine quiet_sat ((sreserveExact_unit hs h hw ho).mono ?_ ?_)
    · rintro _ s' ⟨h1, _⟩
      exact .same h1.refusals (.reserveExact k l) h1.trans
    · rintro s' ⟨rfl, _, _⟩
      exact .refused rfl (.reserveExactRefused k l) href
  | tryReserve k =>
    unfold Op.SLegal at ho
    rw [hlen] at ho
    refine map_sat ((stryReserve_spec hs h hw ho).mono ?_ (fun _ h => h.elim))
    rintro r s' (⟨_, (⟨rfl, h1, _⟩ | ⟨rfl, _, rfl⟩)⟩ | ⟨_, rfl, rfl⟩)
    · exact .same h1.refusals (.tryReserve k l) h1.trans
    · exact .refused rfl (.tryReserveRefused k l) href
    · exact .same rfl (.tryReserve k l) hrefl
  | tryReserveExact k =>
    unfold Op.SLegal at ho
    rw [hlen] at ho
    refine map_sat ((sreserveExact_spec hs h hw ho).mono ?_ (fun _ h => h.elim))
    rintro r s' (⟨_, (⟨rfl, h1, _⟩ | ⟨rfl, _, rfl⟩)⟩ | ⟨_, rfl, rfl⟩)
    · exact .same h1.refusals (.tryReserveExact k l) h1.trans
    · exact .refused rfl (.tryReserveExactRefused k l) href
    · exact .same rfl (.tryReserveExact k l) hrefl
  | shrinkTo k =>
    unfold Op.SLegal at ho
    rw [hlen] at ho
    refine quiet_sat ((sshrinkTo_spec hs h hw ho).mono ?_ ?_)
    · intro _ s' h1
      exact .same h1.refusals (.shrinkTo k l) h1.trans
    · rintro s' rfl
      exact .refused rfl (.shrinkToRefused k l) href
  | shrinkToFit =>
    unfold Op.SLegal at ho
    rw [hlen] at ho
    refine quiet_sat ((sshrinkToFit_spec hs h hw ho).mono ?_ ?_)
    · intro _ s' h1
      exact .same h1.refusals (.shrinkToFit l) h1.trans
    · rintro s' rfl
      exact .refused rfl (.shrinkToFitRefused l) href
  | get i =>
    refine map_sat ?_
    rw [sindex_spec hs h i]
    split
    · rename_i hi
      exact .same rfl (.get i l hi) hrefl
    · exact .same rfl (.getBad i l (by omega)) hrefl
  | set i a =>
    refine quiet_sat ((sindexSet_spec hs h hw i a).mono ?_ ?_)
    · rintro _ s' ⟨hi, h1, h2⟩
      exact .same h2 (.set i a l hi) h1
    · rintro s' ⟨h3, (⟨h1, h2⟩ | ⟨hi, _, h2⟩)⟩
      · exact .same h3 (.setBad i a l h1) h2
      · rw [hd rfl] at h2; cases h2
  | read =>
    refine map_sat ?_
    rw [sasSlice_spec hs h]
    exact .same rfl (.read l) hrefl
  | len =>
    refine map_sat ?_
    unfold Small.len
    rw [M.gets_apply, h.lenOf]
    exact .same rfl (.len l) hrefl

/-! ## The pool invariant -/

/-- The pool holds the lists `L`; buffers are unshared, and there are no other blocks. -/
structure SPInv (c : Cfg α) (P : SPool α) (L : Spec.Lists α) : Prop where
  len : P.vecs.length = L.length
  rep : ∀ (x : Nat) (v : SmallH α), P.vecs[x]? = some (some v) → ∃ l, L[x]? = some (some l) ∧ SRep c v P.w l
  live : ∀ (x : Nat) (l : List α), L[x]? = some (some l) → ∃ v, P.vecs[x]? = some (some v)
  inj : ∀ (x y : Nat) (v v' : SmallH α) (p : Nat), P.vecs[x]? = some (some v) → P.vecs[y]? = some (some v') →
    v.ptr = some p → v'.ptr = some p → x = y
  owned : ∀ p b, P.w.heap p = some b → ∃ (x : Nat) (v : SmallH α), P.vecs[x]? = some (some v) ∧ v.ptr = some p
  wf : P.w.WF

theorem SPInv.update {P : SPool α} {L : Spec.Lists α} (h : SPInv c P L) {x : Nat} {v : SmallH α}
    (hx : P.vecs[x]? = some (some v)) {l' d : List α} {s' : SSt α}
    (ht : STrans c l' d ⟨v, P.w⟩ s') :
    SPInv c ⟨P.vecs.set x (some s'.self), s'.w⟩ (L.set x (some l')) := by
  have hxl : x < P.vecs.length := by
    rcases List.getElem?_eq_some_iff.mp hx with ⟨h, _⟩; exact h
  -- blocks of other vectors are untouched
  have other : ∀ (y : Nat) (v' : SmallH α) (p : Nat), x ≠ y → P.vecs[y]? = some (some v') → v'.ptr = some p →
      v.ptr ≠ some p ∧ s'.self.ptr ≠ some p ∧ s'.w.heap p = P.w.heap p := by
    intro y v' p hxy hy hp
    have h1 : v.ptr ≠ some p := fun e => hxy (h.inj x y v v' p hx hy e hp)
    have h2 : s'.self.ptr ≠ some p := by
      intro e
      have h3 := ht.own.fresh p e h1
      obtain ⟨l, _, hl⟩ := h.rep y v' hy
      have := hl.ptr_lt h.wf hp
      simp only at h3
      omega
    exact ⟨h1, h2, ht.own.frame p (fun e => h1 e.symm) (fun e => h2 e.symm)⟩
  refine ⟨by simp [h.len], ?_, ?_, ?_, ?_, ht.wf⟩
  · intro y v' hy
    rcases set_get hy with ⟨rfl, e, _⟩ | ⟨hxy, hy⟩
    · cases e
      exact ⟨l', by rw [List.getElem?_set_self (by rw [← h.len]; exact hxl)], ht.rep⟩
    · obtain ⟨l, h1, h2⟩ := h.rep y v' hy
      refine ⟨l, by rw [List.getElem?_set_ne hxy]; exact h1, h2.congr fun p hp => ?_⟩
      exact (other y v' p hxy hy hp).2.2
  · intro y l hy
    rcases set_get hy with ⟨rfl, e, _⟩ | ⟨hxy, hy⟩
    · exact ⟨s'.self, by simp [hxl]⟩
    · obtain ⟨v', h1⟩ := h.live y l hy
      exact ⟨v', by simp [List.getElem?_set_ne hxy, h1]⟩
  · intro y z v1 v2 p hy hz hp hp'
    rcases set_get hy with ⟨rfl, e, _⟩ | ⟨hxy, hy⟩ <;>
      rcases set_get hz with ⟨rfl, e', _⟩ | ⟨hxz, hz⟩
    · rfl
    · cases e
      exact absurd hp (other z v2 p hxz hz hp').2.1
    · cases e'
      exact absurd hp' (other y v1 p hxy hy hp).2.1
    · exact h.inj y z v1 v2 p hy hz hp hp'
  · intro p b hb
    by_cases h1 : s'.self.ptr = some p
    · exact ⟨x, s'.self, by simp [hxl], h1⟩
    · by_cases h2 : v.ptr = some p
      · have := ht.own.freed p h2 h1
        rw [hb] at this; cases this
      · have e := ht.own.frame p (fun e => h2 e.symm) (fun e => h1 e.symm)
        rw [hb] at e
        obtain ⟨y, v', hy, hp⟩ := h.owned p b e.symm
        have hxy : x ≠ y := by
          rintro rfl
          rw [hx] at hy; cases hy
          exact h2 hp
        exact ⟨y, v', by simp [List.getElem?_set_ne hxy, hy], hp⟩

theorem SPInv.add {P : SPool α} {L : Spec.Lists α} (h : SPInv c P L) {v : SmallH α} {l d : List α}
    {w' : World α} (hm : SMade c l d P.w v w') :
    SPInv c ⟨P.vecs ++ [some v], w'⟩ (L ++ [some l]) := by
  have other : ∀ (y : Nat) (v' : SmallH α) (p : Nat), P.vecs[y]? = some (some v') → v'.ptr = some p →
      v.ptr ≠ some p ∧ w'.heap p = P.w.heap p := by
    intro y v' p hy hp
    have h1 : v.ptr ≠ some p := by
      intro e
      have h3 := hm.own.fresh p e (by simp)
      obtain ⟨l, _, hl⟩ := h.rep y v' hy
      have := hl.ptr_lt h.wf hp
      omega
    exact ⟨h1, hm.own.frame p (by simp) (fun e => h1 e.symm)⟩
  refine ⟨by simp [h.len], ?_, ?_, ?_, ?_, hm.wf⟩
  · intro y v' hy
    rcases getElem?_snoc hy with hy | ⟨rfl, e⟩
    · obtain ⟨l, h1, h2⟩ := h.rep y v' hy
      refine ⟨l, ?_, h2.congr fun p hp => (other y v' p hy hp).2⟩
      rw [List.getElem?_append_left (List.getElem?_eq_some_iff.mp h1).1, h1]
    · cases e
      exact ⟨l, by rw [h.len]; simp, hm.rep⟩
  · intro y l' hy
    rcases getElem?_snoc hy with hy | ⟨rfl, e⟩
    · obtain ⟨v', h1⟩ := h.live y l' hy
      exact ⟨v', by rw [List.getElem?_append_left (List.getElem?_eq_some_iff.mp h1).1, h1]⟩
    · exact ⟨v, by rw [← h.len]; simp⟩
  · intro y z v1 v2 p hy hz hp hp'
    rcases getElem?_snoc hy with hy | ⟨rfl, e⟩ <;> rcases getElem?_snoc hz with hz | ⟨rfl, e'⟩
    · exact h.inj y z v1 v2 p hy hz hp hp'
    · cases e'
      exact absurd hp' (other y v1 p hy hp).1
    · cases e
      exact absurd hp (other z v2 p hz hp').1
    · rfl
  · intro p b hb
    by_cases h1 : v.ptr = some p
    · exact ⟨P.vecs.length, v, by simp, h1⟩
    · have e := hm.own.frame p (by simp) (fun e => h1 e.symm)
      rw [hb] at e
      obtain ⟨y, v', hy, hp⟩ := h.owned p b e.symm
      exact ⟨y, v', by
        rw [List.getElem?_append_left (List.getElem?_eq_some_iff.mp hy).1, hy], hp⟩

theorem SPInv.clean {P : SPool α} {L : Spec.Lists α} (h : SPInv c P L) {d : List α} {w' : World α}
    (hm : Clean d P.w w') : SPInv c ⟨P.vecs, w'⟩ L := by
  refine ⟨h.len, ?_, h.live, h.inj, ?_, hm.wf⟩
  · intro y v hy
    obtain ⟨l, h1, h2⟩ := h.rep y v hy
    exact ⟨l, h1, h2.congr fun p _ => hm.heap p⟩
  · intro p b hb
    exact h.owned p b ((hm.heap p).symm.trans hb)

theorem SPInv.remove {P : SPool α} {L : Spec.Lists α} (h : SPInv c P L) {x : Nat} {v : SmallH α}
    (hx : P.vecs[x]? = some (some v)) (d : List α) :
    SPInv c ⟨P.vecs.set x none, (P.w.free v.ptr).addDrops d⟩ (L.set x none) := by
  refine ⟨by simp [h.len], ?_, ?_, ?_, ?_, ?_⟩
  · intro y v' hy
    rcases set_get hy with ⟨rfl, e, _⟩ | ⟨hxy, hy⟩
    · cases e
    · obtain ⟨l, h1, h2⟩ := h.rep y v' hy
      refine ⟨l, by rw [List.getElem?_set_ne hxy]; exact h1, h2.congr fun p hp => ?_⟩
      have : some p ≠ v.ptr := fun e => hxy (h.inj x y v v' p hx hy e.symm hp)
      simp [World.addDrops, World.free, this]
  · intro y l hy
    rcases set_get hy with ⟨rfl, e, _⟩ | ⟨hxy, hy⟩
    · cases e
    · obtain ⟨v', h1⟩ := h.live y l hy
      exact ⟨v', by simp [List.getElem?_set_ne hxy, h1]⟩
  · intro y z v1 v2 p hy hz hp hp'
    rcases set_get hy with ⟨rfl, e, _⟩ | ⟨hxy, hy⟩
    · cases e
    · rcases set_get hz with ⟨rfl, e', _⟩ | ⟨hxz, hz⟩
      · cases e'
      · exact h.inj y z v1 v2 p hy hz hp hp'
  · intro p b hb
    simp only [World.addDrops, World.free] at hb
    split at hb
    · cases hb
    · rename_i hne
      obtain ⟨y, v', hy, hp⟩ := h.owned p b hb
      have hxy : x ≠ y := by
        rintro rfl
        rw [hx] at hy; cases hy
        exact hne hp.symm
      exact ⟨y, v', by simp [List.getElem?_set_ne hxy, hy], hp⟩
  · intro p hp
    simp only [World.addDrops, World.free] at hp ⊢
    split
    · rfl
    · exact h.wf p hp

/-- Changing vector `y` without touching memory. -/
theorem SPInv.setList {P : SPool α} {L : Spec.Lists α} (h : SPInv c P L) {y : Nat} {v v' : SmallH α}
    (hy : P.vecs[y]? = some (some v)) (hv : v'.ptr = v.ptr) {l : List α} (hr : SRep c v' P.w l) :
    SPInv c ⟨P.vecs.set y (some v'), P.w⟩ (L.set y (some l)) := by
  have hyl : y < P.vecs.length := (List.getElem?_eq_some_iff.mp hy).1
  refine ⟨by simp [h.len], ?_, ?_, ?_, ?_, h.wf⟩
  · intro z v1 hz
    rcases set_get hz with ⟨rfl, e, _⟩ | ⟨hne, hz⟩
    · cases e
      exact ⟨l, by rw [List.getElem?_set_self (by rw [← h.len]; exact hyl)], hr⟩
    · obtain ⟨l, h1, h2⟩ := h.rep z v1 hz
      exact ⟨l, by rw [List.getElem?_set_ne hne]; exact h1, h2⟩
  · intro z l hz
    rcases set_get hz with ⟨rfl, e, _⟩ | ⟨hne, hz⟩
    · exact ⟨v', by simp [hyl]⟩
    · obtain ⟨v1, h1⟩ := h.live z l hz
      exact ⟨v1, by simp [List.getElem?_set_ne hne, h1]⟩
  · intro a b v1 v2 p ha hb hp hp'
    rcases set_get ha with ⟨rfl, e, _⟩ | ⟨hne, ha⟩ <;>
      rcases set_get hb with ⟨rfl, e', _⟩ | ⟨hne', hb⟩
    · rfl
    · cases e
      exact h.inj _ _ v v2 p hy hb (hv ▸ hp) hp'
    · cases e'
      exact h.inj _ _ v1 v p ha hy hp (hv ▸ hp')
    · exact h.inj _ _ v1 v2 p ha hb hp hp'
  · intro p b hb
    obtain ⟨x, v1, hx, hp⟩ := h.owned p b hb
    by_cases hxy : y = x
    · subst hxy
      rw [hy] at hx; cases hx
      exact ⟨y, v', by simp [hyl], by rw [hv]; exact hp⟩
    · exact ⟨x, v1, by simp [List.getElem?_set_ne hxy, hx], hp⟩

/-- Moving vector `x` to a new place without touching memory. -/
theorem SPInv.move {P : SPool α} {L : Spec.Lists α} (h : SPInv c P L) {x : Nat} {v v' : SmallH α}
    (hx : P.vecs[x]? = some (some v)) (hv : v'.ptr = v.ptr) {l : List α} (hr : SRep c v' P.w l) :
    SPInv c ⟨P.vecs.set x none ++ [some v'], P.w⟩ (L.set x none ++ [some l]) := by
  have hlen : (P.vecs.set x none).length = (L.set x none).length := by simp [h.len]
  refine ⟨by simp [h.len], ?_, ?_, ?_, ?_, h.wf⟩
  · intro z v1 hz
    rcases getElem?_snoc hz with hz | ⟨rfl, e⟩
    · rcases set_get hz with ⟨_, e, _⟩ | ⟨hne, hz⟩
      · cases e
      · obtain ⟨l1, h1, h2⟩ := h.rep z v1 hz
        refine ⟨l1, ?_, h2⟩
        rw [List.getElem?_append_left (by simpa using (List.getElem?_eq_some_iff.mp h1).1),
          List.getElem?_set_ne hne, h1]
    · cases e
      exact ⟨l, by rw [hlen]; simp, hr⟩
  · intro z l1 hz
    rcases getElem?_snoc hz with hz | ⟨rfl, e⟩
    · rcases set_get hz with ⟨_, e, _⟩ | ⟨hne, hz⟩
      · cases e
      · obtain ⟨v1, h1⟩ := h.live z l1 hz
        refine ⟨v1, ?_⟩
        show (P.vecs.set x none ++ [some v'])[z]? = _
        rw [List.getElem?_append_left (by simpa using (List.getElem?_eq_some_iff.mp h1).1),
          List.getElem?_set_ne hne, h1]
    · exact ⟨v', by rw [← hlen]; simp⟩
  · intro a b v1 v2 p ha hb hp hp'
    rcases getElem?_snoc ha with ha | ⟨rfl, e⟩ <;> rcases getElem?_snoc hb with hb | ⟨rfl, e'⟩
    · rcases set_get ha with ⟨_, e, _⟩ | ⟨hne, ha⟩
      · cases e
      · rcases set_get hb with ⟨_, e, _⟩ | ⟨hne', hb⟩
        · cases e
        · exact h.inj _ _ v1 v2 p ha hb hp hp'
    · cases e'
      rcases set_get ha with ⟨_, e, _⟩ | ⟨hne, ha⟩
      · cases e
      · exact absurd (h.inj _ _ v v1 p hx ha (hv ▸ hp') hp) hne
    · cases e
      rcases set_get hb with ⟨_, e, _⟩ | ⟨hne, hb⟩
      · cases e
      · exact absurd (h.inj _ _ v v2 p hx hb (hv ▸ hp) hp') hne
    · rfl
  · intro p b hb
    obtain ⟨z, v1, hz, hp⟩ := h.owned p b hb
    by_cases hzx : x = z
    · subst hzx
      rw [hx] at hz; cases hz
      exact ⟨(P.vecs.set x none).length, v', by simp, by rw [hv]; exact hp⟩
    · refine ⟨z, v1, ?_, hp⟩
      show (P.vecs.set x none ++ [some v'])[z]? = _
      rw [List.getElem?_append_left (by simpa using (List.getElem?_eq_some_iff.mp hz).1),
        List.getElem?_set_ne hzx, hz]

/-! ## One call of a client program -/

/-- A call in a pool with contents `L` is allowed by the specification. -/
def SCmdOk (c : Cfg α) (cmd : SCmd α) (L : Spec.Lists α) (P : SPool α) (out : Option (Out α))
    (P' : SPool α) : Prop :=
  ∃ L' made dropped,
    Spec.SStep c.cloneRel cmd ⟨out, P'.w.refusals != P.w.refusals⟩ L L' made dropped ∧
    SPInv c P' L' ∧ P'.w.log.drops = P.w.log.drops ++ dropped

theorem SCmdOk.same {cmd : SCmd α} {L L' : Spec.Lists α} {made dropped : List α} {P P' : SPool α}
    {out : Option (Out α)} (hr : P'.w.refusals = P.w.refusals)
    (he : Spec.SStep c.cloneRel cmd ⟨out, false⟩ L L' made dropped) (hi : SPInv c P' L')
    (hd : P'.w.log.drops = P.w.log.drops ++ dropped) : SCmdOk c cmd L P out P' := by
  refine ⟨L', made, dropped, ?_, hi, hd⟩
  have : (P'.w.refusals != P.w.refusals) = false := by simp [hr]
  rw [this]; exact he

theorem SCmdOk.refused {cmd : SCmd α} {L L' : Spec.Lists α} {made dropped : List α} {P P' : SPool α}
    {out : Option (Out α)} (hr : P'.w.refusals = P.w.refusals + 1)
    (he : Spec.SStep c.cloneRel cmd ⟨out, true⟩ L L' made dropped) (hi : SPInv c P' L')
    (hd : P'.w.log.drops = P.w.log.drops ++ dropped) : SCmdOk c cmd L P out P' := by
  refine ⟨L', made, dropped, ?_, hi, hd⟩
  have : (P'.w.refusals != P.w.refusals) = true := by simp [hr]
  rw [this]; exact he

theorem screating_sat {m : M (World α) (SmallH α)} {P : SPool α}
    {Q : Option (Out α) → SPool α → Prop}
    (h : Sat c (m P.w) (fun v w' => Q (some .unit) ⟨P.vecs ++ [some v], w'⟩)
      (fun w' => Q none ⟨P.vecs, w'⟩)) :
    Sat c (screating m P) (fun o P' => Q (some o) P') (fun P' => Q none P') := by
  unfold screating
  cases hr : m P.w <;> rw [hr] at h <;> exact h

theorem onSmalls_sat {β : Type} {m : M (SSt α) β} {P : SPool α} {x : Nat} {v : SmallH α} {dflt : β}
    (hx : P.vecs[x]? = some (some v)) {Q : β → SPool α → Prop} {E : SPool α → Prop}
    (h : Sat c (m ⟨v, P.w⟩) (fun a s' => Q a ⟨P.vecs.set x (some s'.self), s'.w⟩)
      (fun s' => E ⟨P.vecs.set x (some s'.self), s'.w⟩)) :
    Sat c (onSmalls x m dflt P) Q E := by
  unfold onSmalls
  rw [hx]
  cases hr : m ⟨v, P.w⟩ <;> rw [hr] at h <;> simp only [hr] <;> exact h

theorem runSCmd_spec {P : SPool α} {L : Spec.Lists α} (hs : c.size ≠ 0)
    (hd : ∀ a, c.dropPanics a = false) (h : SPInv c P L) (cmd : SCmd α) (hl : cmd.Legal c P) :
    Sat c (runSCmd c cmd P) (fun out P' => SCmdOk c cmd L P (some out) P')
      (fun P' => SCmdOk c cmd L P none P') := by
  cases cmd with
  | new n =>
    show Sat c (screating (Small.new n) P) _ _
    refine screating_sat (Q := SCmdOk c (.new n) L P) ?_
    exact SCmdOk.same (P' := ⟨P.vecs ++ [some (Small.withMarker n none)], P.w⟩) rfl (.new n L)
      (h.add (withMarker_made hl h.wf)) (by simp)
  | withCapacity n k =>
    refine screating_sat ((swithCapacity_spec hs h.wf hl.1 hl.2).mono ?_ ?_)
    · rintro v w' ⟨h1, _, _, _, h2, h3, _, _⟩
      exact .same h2 (.withCapacity n k L) (h.add h1) (by simp [h3])
    · rintro w' ⟨rfl, _, _⟩
      exact .refused rfl (.withCapacityRefused n k L) (h.clean (.refuse h.wf))
        (by simp [World.refuse])
  | fromArray n l =>
    refine screating_sat ((sfromArray_spec hs h.wf l hl.1 hl.2.1 ?_).mono ?_ ?_)
    · exact hl.2.2.imp id fun e => List.length_eq_zero_iff.mp e
    · rintro v w' ⟨h1, _, h2⟩
      exact .same h2 (.fromArray n l L) (h.add h1) h1.drops
    · rintro w' ⟨h1, h2⟩
      exact .refused h2 (.fromArrayRefused n l L) (h.clean h1) h1.drops
  | fromIter n it =>
    refine screating_sat ((sfromIter_spec hs h.wf it.iter hl.1 hl.2.1 hl.2.2).mono ?_ ?_)
    · rintro v w' ⟨h0, h1, h2⟩
      exact .same h2 (.fromIter n it L h0) (h.add h1) h1.drops
    · rintro w' ⟨d, h0, h1, (⟨h2, h3⟩ | h3)⟩
      · exact .same h3 (.fromIterPanic n it d L h2 h0) (h.clean h1) h1.drops
      · exact .refused h3 (.fromIterRefused n it d L h0) (h.clean h1) h1.drops
  | clone x =>
    obtain ⟨v, hx, hf⟩ := hl
    obtain ⟨l, hL, hv⟩ := h.rep x v hx
    have e : onSmalls x (Small.asSlice c) [] P = .ok l P := by
      simp only [onSmalls, hx, sasSlice_spec (s := ⟨v, P.w⟩) hs hv, set_self hx]
    unfold runSCmd
    simp only [hx]
    rw [M.bind_ok e]
    rw [hv.lenOf] at hf
    refine screating_sat ((sfromSlice_spec hs h.wf l hv.fits hf).mono ?_ ?_)
    · rintro v' w' ⟨ys, h1, h2, _, h3⟩
      exact .same h3 (.clone x l ys L hL h1.spec) (h.add h2) h2.drops
    · rintro w' (⟨h1, h2⟩ | ⟨pre, a, post, ys, rfl, h2,
        (⟨⟨k, h3⟩, h4, h5⟩ | ⟨b, ⟨k, h3⟩, h4, h5⟩)⟩)
      · exact .refused h2 (.cloneRefused x L) (h.clean h1) h1.drops
      · exact .same h5 (.clonePanic x pre a post ys L hL h2.spec ⟨k, h3⟩) (h.clean h4) h4.drops
      · exact .refused h5 (.cloneRefusedLate x pre a post ys b L hL h2.spec ⟨k, h3⟩) (h.clean h4)
          h4.drops
  | on x o =>
    obtain ⟨v, hx, ho⟩ := hl
    obtain ⟨l, hL, hv⟩ := h.rep x v hx
    refine onSmalls_sat hx ((runSOp_spec (s := ⟨v, P.w⟩) hs o (fun _ => hd) hv h.wf ho).mono ?_ ?_)
    · rintro out s' ⟨l', made, dropped, (h1 | ⟨h1, _⟩), h2⟩
      · exact ⟨_, made, dropped, .on x o _ l l' made dropped L hL h1, h.update hx h2, h2.drops⟩
      · simp [Event.refuse] at h1
    · rintro s' ⟨l', made, dropped, (h1 | ⟨h1, h1'⟩), h2⟩
      · exact ⟨_, made, dropped, .on x o _ l l' made dropped L hL h1, h.update hx h2, h2.drops⟩
      · refine ⟨_, made, dropped, ?_, h.update hx h2, h2.drops⟩
        simp only at h1 ⊢
        rw [h1]
        exact .onLate x o l l' made dropped L hL h1'
  | append x y =>
    obtain ⟨hxy, v, hx, v', hy, hf⟩ := hl
    obtain ⟨l, hL, hv⟩ := h.rep x v hx
    obtain ⟨l', hL', hv'⟩ := h.rep y v' hy
    have hne : v.ptr ≠ v'.ptr ∨ v'.ptr = none := by
      cases hp : v'.ptr with
      | none => exact Or.inr rfl
      | some p => exact Or.inl fun e => hxy (h.inj x y v v' p hx hy e hp)
    have key := sappend_spec hs hv hv' h.wf hne (by rw [← hv.lenOf, ← hv'.lenOf]; exact hf)
    unfold runSCmd
    simp only [hx, hy]
    cases hr : Small.append c ⟨(v, v'), P.w⟩ with
    | ok u s =>
      rw [hr] at key
      obtain ⟨v1, h1, h2, h3⟩ := key
      have i1 := h.update hx h2.trans
      have hy' : (P.vecs.set x (some v1))[y]? = some (some v') := by
        rw [List.getElem?_set_ne hxy, hy]
      have i2 := i1.setList (v' := v'.withLen 0) hy' (by simp) h3
      simp only [h1]
      exact .same h2.refusals (.append x y l l' L hxy hL hL') i2
        (by simpa using congrArg Log.drops h2.log)
    | panic s =>
      rw [hr] at key
      have key : s = St.refuse ⟨(v, v'), P.w⟩ := key
      subst key
      simp only [St.refuse, set_self hx, set_self hy]
      exact .refused rfl (.appendRefused x y L) (h.clean (.refuse h.wf)) (by simp [World.refuse])
    | abort => rw [hr] at key; exact key
    | ub u => rw [hr] at key; exact key
  | drop x =>
    obtain ⟨v, hx, _⟩ := hl
    obtain ⟨l, hL, hv⟩ := h.rep x v hx
    unfold runSCmd
    simp only [hx]
    obtain ⟨s', e, e'⟩ := sdrop_ok (s := ⟨v, P.w⟩) hs hv hd
    rw [e]
    simp only [e']
    exact .same rfl (.drop x l L hL) (h.remove hx l) rfl
  | moveToHeap x =>
    obtain ⟨v, hx, hf⟩ := hl
    obtain ⟨l, hL, hv⟩ := h.rep x v hx
    rw [hv.lenOf] at hf
    refine onSmalls_sat hx (quiet_sat (Q := fun o s' => SCmdOk c (.moveToHeap x) L P o
      ⟨P.vecs.set x (some s'.self), s'.w⟩)
      ((smoveToHeap_spec (s := ⟨v, P.w⟩) hs hv h.wf hf).mono ?_ ?_))
    · rintro _ s' ⟨h1, _⟩
      have := h.update hx h1.trans
      rw [set_self hL] at this
      exact SCmdOk.same h1.refusals (.moveToHeap x L) this (by simpa using congrArg Log.drops h1.log)
    · rintro s' rfl
      simp only [St.refuse, set_self hx]
      exact .refused rfl (.moveToHeapRefused x L) (h.clean (.refuse h.wf)) (by simp [World.refuse])
  | splitOff x n k =>
    obtain ⟨hn, v, hx, hk⟩ := hl
    obtain ⟨l, hL, hv⟩ := h.rep x v hx
    rw [hv.lenOf] at hk
    unfold runSCmd
    simp only [hx]
    by_cases hlt : k < l.length
    · have key := ssplitOff_spec (s := ⟨v, P.w⟩) (n' := n) hs hv h.wf hlt hn
      cases hr : Small.splitOffInto c n k ⟨v, P.w⟩ with
      | ok r s =>
        rw [hr] at key
        obtain ⟨h1, h2, h3, h4, h5, _⟩ := key
        have i1 := h.add h2
        have hxl : x < P.vecs.length := (List.getElem?_eq_some_iff.mp hx).1
        have hLl : x < L.length := (List.getElem?_eq_some_iff.mp hL).1
        have hx' : (P.vecs ++ [some r])[x]? = some (some v) := by
          rw [List.getElem?_append_left hxl, hx]
        have i2 := i1.setList (v' := s.self) hx' (by rw [h1]; simp) h3
        simp only [List.set_append_left _ _ hxl, List.set_append_left _ _ hLl] at i2
        exact .same h5 (.splitOff x n k l L hL (by omega)) i2
          (by simpa using congrArg Log.drops h4)
      | panic s =>
        rw [hr] at key
        have key : s = St.refuse ⟨v, P.w⟩ := key
        subst key
        simp only [St.refuse, set_self hx]
        exact .refused rfl (.splitOffRefused x n k L) (h.clean (.refuse h.wf))
          (by simp [World.refuse])
      | abort => rw [hr] at key; exact key
      | ub u => rw [hr] at key; exact key
    · rw [ssplitOff_panic (s := ⟨v, P.w⟩) hv (by omega)]
      simp only [set_self hx]
      exact .same rfl (.splitOffBad x n k l L hL (by omega)) h (by simp)
  | viaVec x n =>
    obtain ⟨hn, v, hx, hf⟩ := hl
    obtain ⟨l, hL, hv⟩ := h.rep x v hx
    rw [hv.lenOf] at hf
    have key := sintoVec_spec hs hv h.wf hf
    unfold runSCmd
    simp only [hx]
    cases hr : Small.intoVec c v P.w with
    | ok r w' =>
      rw [hr] at key
      have key : SReserved c l ⟨v, P.w⟩ ⟨{ v with store := .heap r }, w'⟩ := key
      have i1 := h.update hx key.trans
      have hx' : (P.vecs.set x (some { v with store := .heap r }))[x]? =
          some (some { v with store := .heap r }) := by
        rw [List.getElem?_set_self (List.getElem?_eq_some_iff.mp hx).1]
      have i2 := i1.move (v' := Small.fromVec n r) hx' rfl
        (sfromVec_rep hn (key.trans.rep.heap r rfl))
      simp only [List.set_set] at i2
      exact .same key.refusals (.viaVec x n l L hL) i2 (by simpa using congrArg Log.drops key.log)
    | panic w' =>
      rw [hr] at key
      have key : w' = (P.w.refuse.free v.ptr).addDrops l := key
      subst key
      have i1 := h.clean (.refuse h.wf)
      exact .refused rfl (.viaVecRefused x n l L hL) (i1.remove hx l) rfl
    | abort => rw [hr] at key; exact key
    | ub u => rw [hr] at key; exact key

/-! ## Whole histories -/

theorem SPInv.initial {P : SPool α} (h : P.Initial) : SPInv c P [] := by
  obtain ⟨h1, h2, _⟩ := h
  refine ⟨by simp [h1], ?_, ?_, ?_, ?_, fun p _ => h2 p⟩
  · intro x v hx; simp [h1] at hx
  · intro x l hx; simp at hx
  · intro x y v v' p hx; simp [h1] at hx
  · intro p b hb; rw [h2 p] at hb; cases hb

theorem SReaches.inv {P0 P : SPool α} {hist : Spec.SHistory α} (hs : c.size ≠ 0)
    (hd : ∀ a, c.dropPanics a = false) (h0 : P0.Initial) (h : SReaches c P0 hist P) :
    ∃ L made, Spec.SRuns c.cloneRel hist L made P.w.log.drops ∧ SPInv c P L := by
  induction h with
  | start => exact ⟨[], [], by rw [h0.2.2]; exact .start, .initial h0⟩
  | @step hist P cmd ev P' _ hl he ih =>
    obtain ⟨L, made, h1, h2⟩ := ih
    have key := runSCmd_spec hs hd h2 cmd hl
    cases he with
    | ret hr =>
      rw [hr] at key
      obtain ⟨L', made', dropped', h3, h4, h5⟩ := key
      exact ⟨L', made ++ made', by rw [h5]; exact .step h1 h3, h4⟩
    | panic hr =>
      rw [hr] at key
      obtain ⟨L', made', dropped', h3, h4, h5⟩ := key
      exact ⟨L', made ++ made', by rw [h5]; exact .step h1 h3, h4⟩

end Lokky
