import Verif.Proofs.VecPool
import Verif.Proofs.Conserve
import Verif.Spec.ListsPanic

/-!
# Pools of vectors when destructors may panic
-/

namespace Lokky.Spec
variable {α : Type} {cl : CloneRel α} {dp : α → Prop}

theorem EditP.conserve {o : Op α} {ev : Event α} {l l' made dropped : List α} {x : Nat}
    (h : EditP cl dp o ev l l' made dropped) :
    (o.given ++ made ++ l).Perm (dropped ++ taken (.on x o) ev ++ l') := by
  cases h with
  | edit h => exact h.conserve
  | truncate k _ h => simpa [Op.given, taken] using (take_drop_perm l k).symm
  | resizeDown k a _ h _ =>
    simp only [Op.given, taken, List.append_nil]
    refine (((take_drop_perm l k).symm.append_left [a]).trans ?_)
    rw [← List.append_assoc]
    exact List.perm_append_comm.append_right _
  | resizeWithDown k f _ h _ => simpa [Op.given, taken] using (take_drop_perm l k).symm
  | set i a _ h _ => simpa [Op.given, taken] using (set_perm l i a h).symm

theorem StepP.conserve {cmd : Cmd α} {ev : Event α} {L L' : Lists α} {made dropped leaked : List α}
    (h : StepP cl dp cmd ev L L' made dropped leaked) :
    (cmd.given ++ made ++ Lists.contents L).Perm
      (dropped ++ taken cmd ev ++ Lists.contents L' ++ leaked) := by
  classical
  cases h with
  | step h => simpa using h.conserve
  | on x o _ l l' _ _ _ hx he =>
    have h1 := he.conserve (x := x)
    refine perm_of_count fun a => ?_
    have h2 := List.perm_iff_count.mp h1 a
    have h3 := contents_set hx (some l') a
    simp only [Cmd.given, List.count_append, Option.getD_some, List.count_nil] at h2 h3 ⊢
    omega
  | drop x ys b zs _ hx _ _ =>
    refine perm_of_count fun a => ?_
    have h3 := contents_set hx none a
    simp only [Cmd.given, taken, List.count_append, Option.getD_none, List.nil_append,
      List.count_nil, List.count_cons] at h3 ⊢
    omega

theorem RunsP.conserve {h : History α} {L : Lists α} {made dropped leaked : List α}
    (hr : RunsP cl dp h L made dropped leaked) :
    (h.given ++ made).Perm (dropped ++ h.taken ++ Lists.contents L ++ leaked) := by
  classical
  induction hr with
  | start => simp [History.given, History.taken, Lists.contents]
  | step _ hs ih =>
    refine perm_of_count fun a => ?_
    have h1 := List.perm_iff_count.mp ih a
    have h2 := List.perm_iff_count.mp hs.conserve a
    simp only [History.given, History.taken, List.flatMap_append, List.flatMap_cons,
      List.flatMap_nil, List.count_append, List.append_nil] at h1 h2 ⊢
    omega

end Lokky.Spec

namespace Lokky
open Spec (Event Edit EditP Op Cmd Out)
variable {α : Type} {c : Cfg α}

/-- What the element type's destructor does. -/
def Cfg.dropRel (c : Cfg α) (a : α) : Prop := c.dropPanics a = true

/-- A call on a vector with contents `l` is allowed by the specification with panicking destructors. -/
def OpOkP (c : Cfg α) (o : Op α) (l : List α) (s : VSt α) (out : Option (Out α)) (s' : VSt α) : Prop :=
  ∃ l' made dropped, EditP c.cloneRel c.dropRel o ⟨out, s'.w.refusals != s.w.refusals⟩ l l' made dropped ∧
    Trans c l' dropped s s'

theorem OpOkP.same {o : Op α} {l l' made dropped : List α} {s s' : VSt α} {out : Option (Out α)}
    (hr : s'.w.refusals = s.w.refusals)
    (he : EditP c.cloneRel c.dropRel o ⟨out, false⟩ l l' made dropped) (ht : Trans c l' dropped s s') :
    OpOkP c o l s out s' := by
  refine ⟨l', made, dropped, ?_, ht⟩
  have : (s'.w.refusals != s.w.refusals) = false := by simp [hr]
  rw [this]; exact he

theorem OpOk.panics {o : Op α} {l : List α} {s s' : VSt α} {out : Option (Out α)} (h : OpOk c o l s out s') :
    OpOkP c o l s out s' := by
  obtain ⟨l', made, dropped, h1, h2⟩ := h
  exact ⟨l', made, dropped, .edit h1, h2⟩

theorem runOp_panics {s : VSt α} {l : List α} (hs : c.size ≠ 0)
    (h : Rep c s.self s.w l) (hw : s.w.WF) (o : Op α) (ho : o.Legal c s.self.len s.self.cap)
    (hc : o = .clear → ∀ a ∈ l, c.dropPanics a = false) :
    Sat c (runOp c o s) (fun out s' => OpOkP c o l s (some out) s')
      (fun s' => OpOkP c o l s none s') := by
  rw [h.len] at ho
  have hrefl := Trans.refl h hw
  have href := Trans.refuse h hw
  cases o with
  | push a =>
    refine quiet_sat ((push_spec hs h hw ho a).mono ?_ ?_)
    · rintro _ s' ⟨h1, _, _⟩
      exact (OpOk.same h1.refusals (.push a l) h1.trans).panics
    · rintro s' ⟨h1, rfl, _, _⟩
      exact (OpOk.refused rfl (.pushRefused a l) h1).panics
  | pop =>
    obtain ⟨s', e1, e2, _, _⟩ := pop_spec hs h hw
    refine map_sat ?_
    rw [e1]
    exact (OpOk.same e2.refusals (.pop l) e2.trans).panics
  | insert i a =>
    refine quiet_sat ((insert_spec hs h hw ho a).mono ?_ ?_)
    · rintro _ s' ⟨h0, h1, _⟩
      refine OpOk.panics (OpOk.same h1.refusals (.insert i a l h0) ?_)
      rw [← insertIdx_split h0]
      exact h1.trans
    · rintro s' ⟨h1, (⟨h2, rfl⟩ | ⟨h2, rfl, _, _⟩)⟩
      · refine OpOk.panics ?_
        exact .same rfl (.insertBad i a l h2) h1
      · exact (OpOk.refused rfl (.insertRefused i a l h2) h1).panics
  | remove i =>
    refine map_sat ?_
    by_cases hi : i < l.length
    · obtain ⟨s', e1, e2, _, _⟩ := remove_spec hs h hw hi
      rw [e1]
      refine OpOk.panics (OpOk.same e2.refusals (.remove i l hi) ?_)
      have := e2.trans
      rwa [List.eraseIdx_eq_take_drop_succ] at this
    · rw [remove_panic hs h hi]
      exact (OpOk.same rfl (.removeBad i l (by omega)) hrefl).panics
  | swapRemove i =>
    refine map_sat ?_
    by_cases hi : i < l.length
    · obtain ⟨s', e1, e2, _, _⟩ := swapRemove_spec hs h hw hi ho
      rw [e1]
      refine OpOk.panics (OpOk.same e2.refusals (.swapRemove i l hi) ?_)
      have := e2.trans
      unfold swapRemoved at this
      rw [List.getLast?_eq_some_getLast (List.ne_nil_of_length_pos (Nat.zero_lt_of_lt hi))] at this
      exact this
    · rw [swapRemove_panic h hi]
      exact (OpOk.same rfl (.swapRemoveBad i l (by omega)) hrefl).panics
  | truncate k =>
    refine quiet_sat ((truncate_spec hs h hw k).mono ?_ ?_)
    · rintro _ s' ⟨h1, _, h2, _⟩
      exact (OpOk.same h2 (.truncate k l) h1).panics
    · rintro s' ⟨h1, _, h2, _, h5⟩
      exact .same h2 (.truncate k l h5) h1
  | clear =>
    refine quiet_sat ((clear_spec hs h hw).mono ?_ ?_)
    · rintro _ s' ⟨h1, _, h2, _⟩
      exact (OpOk.same h2 (.clear l) h1).panics
    · rintro s' ⟨ys, a, zs, h4, h5, _⟩
      rw [hc rfl a (by rw [h4]; simp)] at h5; cases h5
  | extendFromSlice xs =>
    refine quiet_sat ((extendFromSlice_spec hs h hw xs ho).mono ?_ ?_)
    · rintro _ s' ⟨ys, h1, h2, h3, _⟩
      exact (OpOk.same h3 (.extendFromSlice xs ys l h1.spec) h2).panics
    · rintro s' (⟨rfl, _, _⟩ | ⟨pre, a, post, ys, rfl, h2, ⟨k, h3⟩, h4, h5⟩)
      · exact (OpOk.refused rfl (.extendFromSliceRefused xs l) href).panics
      · exact (OpOk.same h5 (.extendFromSlicePanic pre a post ys l h2.spec ⟨k, h3⟩) h4).panics
  | extendFromIter it =>
    refine quiet_sat ((extendFromIter_spec hs h hw it.iter ho.1 ho.2).mono ?_ ?_)
    · rintro _ s' ⟨h1, h2, h3⟩
      exact (OpOk.same h3 (.extendFromIter it l h1) h2).panics
    · rintro s' (⟨h1, h2, h3⟩ | ⟨pre, post, h1, h2, h3⟩)
      · exact (OpOk.same h3 (.extendFromIterPanic it l h1) h2).panics
      · exact (OpOk.refused h3 (.extendFromIterRefused it pre post l h1) h2).panics
  | resize k a =>
    refine quiet_sat ((resize_spec hs h hw k a ho).mono ?_ ?_)
    · rintro _ s' ⟨h1, (⟨h2, h3⟩ | ⟨h2, ys, h3, h4⟩)⟩
      · exact (OpOk.same h1 (.resizeDown k a l h2) h3).panics
      · exact (OpOk.same h1 (.resizeUp k a ys l h2 h3.spec) h4).panics
    · rintro s' (⟨h0, h3, h4, h5⟩ | ⟨h1, h2, h3⟩ | ⟨h1, h2, m, ys, h3, h4, ⟨j, h5⟩, h6⟩)
      · exact .same h4 (.resizeDown k a l h0 h5) h3
      · exact (OpOk.refused h2 (.resizeRefused k a l h1) h3).panics
      · exact (OpOk.same h2 (.resizePanic k a m ys l h3 h4.spec ⟨j, h5⟩) h6).panics
  | resizeWith k f =>
    refine quiet_sat ((resizeWith_spec hs h hw f k ho).mono ?_ ?_)
    · rintro _ s' ⟨h1, (⟨h2, h3⟩ | ⟨h2, ys, h3, h4⟩)⟩
      · exact (OpOk.same h1 (.resizeWithDown k f l h2) h3).panics
      · exact (OpOk.same h1 (.resizeWithUp k f ys l h2 h3) h4).panics
    · rintro s' (⟨h0, h3, h4, h5⟩ | ⟨h1, rfl⟩ | ⟨h1, h2, m, ys, h3, h4, h5, h6⟩)
      · exact .same h4 (.resizeWithDown k f l h0 h5) h3
      · exact (OpOk.refused rfl (.resizeWithRefused k f l h1) href).panics
      · exact (OpOk.same h2 (.resizeWithPanic k f m ys l h3 h4 h5) h6).panics
  | reserve k =>
    refine quiet_sat ((reserve_spec hs h hw ho).mono ?_ ?_)
    · rintro _ s' ⟨h1, _, _⟩
      exact (OpOk.same h1.refusals (.reserve k l) h1.trans).panics
    · rintro s' ⟨rfl, _, _⟩
      exact (OpOk.refused rfl (.reserveRefused k l) href).panics
  | reserveExact k =>
    refine quiet_sat ((reserveExact_spec hs h hw ho).mono ?_ ?_)
    · rintro _ s' ⟨h1, _, _⟩
      exact (OpOk.same h1.refusals (.reserveExact k l) h1.trans).panics
    · rintro s' ⟨rfl, _, _⟩
      exact (OpOk.refused rfl (.reserveExactRefused k l) href).panics
  | tryReserve k =>
    refine map_sat ?_
    by_cases hk : s.self.cap < l.length + k
    · refine (tryReserve_spec hs h hw (ho hk) hk).mono ?_ (fun _ h => h.elim)
      rintro r s' (⟨rfl, h1, h2, h3, h4, h5, h6, h7⟩ | ⟨rfl, h1, rfl⟩)
      · exact (OpOk.same h4 (.tryReserve k l) h1).panics
      · exact (OpOk.refused rfl (.tryReserveRefused k l) href).panics
    · have hu : s.self.len + k ≤ c.usizeMax := by
        have := Fits.le_usize hs h.fits
        have := h.len
        omega
      rw [tryReserve_noop hs hu (by have := h.len; omega)]
      exact (OpOk.same rfl (.tryReserve k l) hrefl).panics
  | tryReserveExact k =>
    refine map_sat ?_
    by_cases hk : s.self.cap < l.length + k
    · refine (tryReserveExact_spec hs h hw ho hk).mono ?_ (fun _ h => h.elim)
      rintro r s' (⟨rfl, h1, h2, h3, h4, h5, h6, h7⟩ | ⟨rfl, h1, rfl⟩)
      · exact (OpOk.same h4 (.tryReserveExact k l) h1).panics
      · exact (OpOk.refused rfl (.tryReserveExactRefused k l) href).panics
    · have hu : s.self.len + k ≤ c.usizeMax := by
        have := Fits.le_usize hs h.fits
        have := h.len
        omega
      rw [tryReserveExact_noop hs hu (by have := h.len; omega)]
      exact (OpOk.same rfl (.tryReserveExact k l) hrefl).panics
  | shrinkTo k =>
    refine quiet_sat ((shrinkTo_spec hs h hw ho).mono ?_ ?_)
    · rintro _ s' ⟨h1, _⟩
      exact (OpOk.same h1.refusals (.shrinkTo k l) h1.trans).panics
    · rintro s' ⟨rfl, _, _⟩
      exact (OpOk.refused rfl (.shrinkToRefused k l) href).panics
  | shrinkToFit =>
    have hz : l ≠ [] ∨ s.self.cap = 0 := by
      rcases ho with ho | ho
      · exact Or.inl (List.ne_nil_of_length_pos ho)
      · exact Or.inr ho
    refine quiet_sat ((shrinkToFit_spec hs h hw hz).mono ?_ ?_)
    · rintro _ s' ⟨h1, _⟩
      exact (OpOk.same h1.refusals (.shrinkToFit l) h1.trans).panics
    · rintro s' ⟨rfl, _, _⟩
      exact (OpOk.refused rfl (.shrinkToFitRefused l) href).panics
  | get i =>
    refine map_sat ?_
    rw [index_spec hs h i]
    split
    · rename_i hi
      exact (OpOk.same rfl (.get i l hi) hrefl).panics
    · exact (OpOk.same rfl (.getBad i l (by omega)) hrefl).panics
  | set i a =>
    refine quiet_sat ((indexSet_spec hs h hw i a).mono ?_ ?_)
    · rintro _ s' ⟨hi, h1, _, h2, _⟩
      exact (OpOk.same h2 (.set i a l hi) h1).panics
    · rintro s' (⟨h1, h2, h3⟩ | ⟨hi, h1, h2, h3⟩)
      · exact (OpOk.same h3 (.setBad i a l h1) h2).panics
      · exact .same h3 (.set i a l hi h2) h1
  | read =>
    refine map_sat ?_
    rw [asSlice_spec hs h]
    exact (OpOk.same rfl (.read l) hrefl).panics
  | len =>
    refine map_sat ?_
    unfold Vec.len
    rw [M.gets_apply, h.len]
    exact (OpOk.same rfl (.len l) hrefl).panics


/-! ## The pool invariant -/

/-- The pool holds the lists `L`. Beside the vectors of the pool there are those whose destruction was cut short by
a panic (`lost`): `G` holds both, and the lists `K` are what their memory shows. -/
structure GInv (c : Cfg α) (P : Pool α) (L : Spec.Lists α) (lost : List Nat) (G : List (Option VecH))
    (K : Spec.Lists α) : Prop where
  inv : PInv c ⟨G, P.w⟩ K
  len : P.vecs.length = G.length
  lenL : L.length = K.length
  sub : ∀ (x : Nat) (v : VecH), P.vecs[x]? = some (some v) → G[x]? = some (some v) ∧ L[x]? = K[x]?
  gone : ∀ x : Nat, P.vecs[x]? = some none → L[x]? = some none
  extra : ∀ (x : Nat) (v : VecH), G[x]? = some (some v) → P.vecs[x]? = some (some v) ∨ x ∈ lost

variable {P : Pool α} {L K : Spec.Lists α} {lost : List Nat} {G : List (Option VecH)}

theorem GInv.rep (h : GInv c P L lost G K) {x : Nat} {v : VecH} (hx : P.vecs[x]? = some (some v)) :
    ∃ l, L[x]? = some (some l) ∧ K[x]? = some (some l) ∧ Rep c v P.w l := by
  obtain ⟨h1, h2⟩ := h.sub x v hx
  obtain ⟨l, h3, h4⟩ := h.inv.rep x v h1
  exact ⟨l, h2.trans h3, h3, h4⟩

theorem get_lt {β : Type} {l : List β} {x : Nat} {a : β} (h : l[x]? = some a) : x < l.length :=
  (List.getElem?_eq_some_iff.mp h).1

/-- Changing vector `x` in the pool. -/
theorem GInv.change (h : GInv c P L lost G K) {x : Nat} {v v' : VecH} {l' : List α} {w' : World α}
    (hx : P.vecs[x]? = some (some v)) (hi : PInv c ⟨G.set x (some v'), w'⟩ (K.set x (some l'))) :
    GInv c ⟨P.vecs.set x (some v'), w'⟩ (L.set x (some l')) lost (G.set x (some v')) (K.set x (some l')) := by
  have hxl := get_lt hx
  refine ⟨hi, by simp [h.len], by simp [h.lenL], ?_, ?_, ?_⟩
  · intro y u hy
    rcases set_get hy with ⟨rfl, e, _⟩ | ⟨hne, hy⟩
    · cases e
      obtain ⟨l, h1, h2, _⟩ := h.rep hx
      simp [← h.len, hxl, get_lt h1, get_lt h2]
    · simp only [List.getElem?_set_ne hne]
      exact h.sub y u hy
  · intro y hy
    rcases set_get hy with ⟨rfl, e, _⟩ | ⟨hne, hy⟩
    · cases e
    · rw [List.getElem?_set_ne hne]; exact h.gone y hy
  · intro y u hy
    rcases set_get hy with ⟨rfl, e, _⟩ | ⟨hne, hy⟩
    · cases e
      exact Or.inl (by simp [hxl])
    · simp only [List.getElem?_set_ne hne]
      exact h.extra y u hy

theorem GInv.update (h : GInv c P L lost G K) {x : Nat} {v : VecH} (hx : P.vecs[x]? = some (some v))
    {l' d : List α} {s' : VSt α} (ht : Trans c l' d ⟨v, P.w⟩ s') :
    GInv c ⟨P.vecs.set x (some s'.self), s'.w⟩ (L.set x (some l')) lost (G.set x (some s'.self))
      (K.set x (some l')) :=
  h.change hx (h.inv.update (h.sub x v hx).1 ht)

theorem GInv.add (h : GInv c P L lost G K) {v : VecH} {l d : List α} {w' : World α}
    (hm : Made c l d P.w v w') :
    GInv c ⟨P.vecs ++ [some v], w'⟩ (L ++ [some l]) lost (G ++ [some v]) (K ++ [some l]) := by
  refine ⟨h.inv.add hm, by simp [h.len], by simp [h.lenL], ?_, ?_, ?_⟩
  · intro y u hy
    rcases getElem?_snoc hy with hy | ⟨rfl, e⟩
    · obtain ⟨h1, h2⟩ := h.sub y u hy
      obtain ⟨l', h3, h4, _⟩ := h.rep hy
      rw [List.getElem?_append_left (get_lt h1), List.getElem?_append_left (get_lt h3),
        List.getElem?_append_left (get_lt h4)]
      exact ⟨h1, h2⟩
    · cases e
      have h1 := h.inv.len
      have h2 := h.lenL
      simp only [] at h1
      refine ⟨by rw [h.len]; simp, ?_⟩
      rw [h.len, h1, ← h2]
      simp [h2]
  · intro y hy
    rcases getElem?_snoc hy with hy | ⟨rfl, e⟩
    · have := h.gone y hy
      rw [List.getElem?_append_left (get_lt this)]; exact this
    · cases e
  · intro y u hy
    rcases getElem?_snoc hy with hy | ⟨rfl, e⟩
    · refine (h.extra y u hy).imp_left fun h1 => ?_
      simp only [List.getElem?_append_left (get_lt h1)]; exact h1
    · cases e
      exact Or.inl (by simp [← h.len])

theorem GInv.clean (h : GInv c P L lost G K) {d : List α} {w' : World α} (hm : Clean d P.w w') :
    GInv c ⟨P.vecs, w'⟩ L lost G K :=
  ⟨h.inv.clean hm, h.len, h.lenL, h.sub, h.gone, h.extra⟩

theorem GInv.remove (h : GInv c P L lost G K) {x : Nat} {v : VecH} (hx : P.vecs[x]? = some (some v))
    (d : List α) :
    GInv c ⟨P.vecs.set x none, (P.w.free v.ptr).addDrops d⟩ (L.set x none) lost (G.set x none)
      (K.set x none) := by
  refine ⟨h.inv.remove (h.sub x v hx).1 d, by simp [h.len], by simp [h.lenL], ?_, ?_, ?_⟩
  · intro y u hy
    rcases set_get hy with ⟨rfl, e, _⟩ | ⟨hne, hy⟩
    · cases e
    · simp only [List.getElem?_set_ne hne]
      exact h.sub y u hy
  · intro y hy
    rcases set_get hy with ⟨rfl, _, _⟩ | ⟨hne, hy⟩
    · obtain ⟨l, h1, _⟩ := h.rep hx
      simp [get_lt h1]
    · rw [List.getElem?_set_ne hne]; exact h.gone y hy
  · intro y u hy
    rcases set_get hy with ⟨rfl, e, _⟩ | ⟨hne, hy⟩
    · cases e
    · simp only [List.getElem?_set_ne hne]
      exact h.extra y u hy

/-- The destruction of vector `x` was cut short. -/
theorem GInv.lose (h : GInv c P L lost G K) {x : Nat} {v : VecH} (hx : P.vecs[x]? = some (some v))
    (d : List α) :
    GInv c ⟨P.vecs.set x none, P.w.addDrops d⟩ (L.set x none) (lost ++ [x]) G K := by
  refine ⟨h.inv.clean ⟨fun _ => rfl, h.inv.wf, Nat.le_refl _, rfl, rfl⟩, by simp [h.len],
    by simp [h.lenL], ?_, ?_, ?_⟩
  · intro y u hy
    rcases set_get hy with ⟨rfl, e, _⟩ | ⟨hne, hy⟩
    · cases e
    · simp only [List.getElem?_set_ne hne]
      exact h.sub y u hy
  · intro y hy
    rcases set_get hy with ⟨rfl, _, _⟩ | ⟨hne, hy⟩
    · obtain ⟨l, h1, _⟩ := h.rep hx
      simp [get_lt h1]
    · rw [List.getElem?_set_ne hne]; exact h.gone y hy
  · intro y u hy
    by_cases hne : x = y
    · subst hne; exact Or.inr (by simp)
    · simp only [List.getElem?_set_ne hne]
      exact (h.extra y u hy).imp_right fun h => by simp [h]

/-! ## One call of a client program -/

/-- Vectors whose destruction the call cut short. -/
def lostNow : Cmd α → Option (Out α) → List Nat
  | .drop x, none => [x]
  | _, _ => []

/-- Nothing is put, in the pool or behind it, in the place of a vector that is gone. -/
def Keeps {β : Type} (V V' G G' : List (Option β)) (K K' : Spec.Lists α) : Prop :=
  ∀ x : Nat, V[x]? = some none → V'[x]? = some none ∧ G'[x]? = G[x]? ∧ K'[x]? = K[x]?

theorem Keeps.refl {β : Type} (V G : List (Option β)) (K : Spec.Lists α) : Keeps V V G G K K :=
  fun _ h => ⟨h, rfl, rfl⟩

theorem Keeps.trans {β : Type} {V V' V'' G G' G'' : List (Option β)} {K K' K'' : Spec.Lists α}
    (h : Keeps V V' G G' K K') (h' : Keeps V' V'' G' G'' K' K'') : Keeps V V'' G G'' K K'' := by
  intro x hx
  obtain ⟨h1, h2, h3⟩ := h x hx
  obtain ⟨h4, h5, h6⟩ := h' x h1
  exact ⟨h4, h5.trans h2, h6.trans h3⟩

theorem Keeps.set {β : Type} {V : List (Option β)} {x : Nat} {v : β} (hx : V[x]? = some (some v))
    (G : List (Option β)) (K : Spec.Lists α) (o o' : Option β) (k : Option (List α)) :
    Keeps V (V.set x o) G (G.set x o') K (K.set x k) := by
  intro y hy
  have hne : x ≠ y := by rintro rfl; rw [hx] at hy; cases hy
  simp only [List.getElem?_set_ne hne]
  exact ⟨hy, trivial, trivial⟩

theorem Keeps.unset {β : Type} {V : List (Option β)} {x : Nat} {v : β} (hx : V[x]? = some (some v))
    (G : List (Option β)) (K : Spec.Lists α) : Keeps V (V.set x none) G G K K := by
  intro y hy
  have hne : x ≠ y := by rintro rfl; rw [hx] at hy; cases hy
  simp only [List.getElem?_set_ne hne]
  exact ⟨hy, trivial, trivial⟩

theorem GInv.keeps (h : GInv c P L lost G K) (v : Option VecH) (k : Option (List α)) :
    Keeps P.vecs (P.vecs ++ [v]) G (G ++ [v]) K (K ++ [k]) := by
  intro y hy
  have h1 := get_lt hy
  have h2 := h.len
  have h3 := h.inv.len
  simp only at h3
  rw [List.getElem?_append_left h1, List.getElem?_append_left (by omega),
    List.getElem?_append_left (by omega)]
  exact ⟨hy, rfl, rfl⟩

/-- A call in a pool with contents `L` is allowed by the specification with panicking destructors. -/
def CmdOkP (c : Cfg α) (cmd : Cmd α) (L : Spec.Lists α) (lost : List Nat) (G : List (Option VecH))
    (K : Spec.Lists α) (P : Pool α) (out : Option (Out α)) (P' : Pool α) : Prop :=
  ∃ L' made dropped leaked,
    Spec.StepP c.cloneRel c.dropRel cmd ⟨out, P'.w.refusals != P.w.refusals⟩ L L' made dropped leaked ∧
    (∃ G' K', GInv c P' L' (lost ++ lostNow cmd out) G' K' ∧ Keeps P.vecs P'.vecs G G' K K') ∧
    P'.w.log.drops = P.w.log.drops ++ dropped

theorem GInv.more (h : GInv c P L lost G K) (xs : List Nat) : GInv c P L (lost ++ xs) G K :=
  ⟨h.inv, h.len, h.lenL, h.sub, h.gone, fun x v hx => (h.extra x v hx).imp_right fun h => by simp [h]⟩

theorem CmdOkP.same {cmd : Cmd α} {L' K' : Spec.Lists α} {made dropped : List α} {P' : Pool α}
    {G' : List (Option VecH)} {out : Option (Out α)} (hr : P'.w.refusals = P.w.refusals)
    (he : Spec.Step c.cloneRel cmd ⟨out, false⟩ L L' made dropped) (hi : GInv c P' L' lost G' K')
    (hk : Keeps P.vecs P'.vecs G G' K K')
    (hd : P'.w.log.drops = P.w.log.drops ++ dropped) : CmdOkP c cmd L lost G K P out P' := by
  refine ⟨L', made, dropped, [], ?_, ⟨G', K', hi.more _, hk⟩, hd⟩
  have : (P'.w.refusals != P.w.refusals) = false := by simp [hr]
  rw [this]; exact .step he

theorem CmdOkP.refused {cmd : Cmd α} {L' K' : Spec.Lists α} {made dropped : List α} {P' : Pool α}
    {G' : List (Option VecH)} {out : Option (Out α)} (hr : P'.w.refusals = P.w.refusals + 1)
    (he : Spec.Step c.cloneRel cmd ⟨out, true⟩ L L' made dropped) (hi : GInv c P' L' lost G' K')
    (hk : Keeps P.vecs P'.vecs G G' K K')
    (hd : P'.w.log.drops = P.w.log.drops ++ dropped) : CmdOkP c cmd L lost G K P out P' := by
  refine ⟨L', made, dropped, [], ?_, ⟨G', K', hi.more _, hk⟩, hd⟩
  have : (P'.w.refusals != P.w.refusals) = true := by simp [hr]
  rw [this]; exact .step he

/-- The command is not a `clear`. -/
def Spec.Cmd.NoClear (cmd : Spec.Cmd α) : Prop := ∀ x, cmd ≠ .on x .clear

/-- If the command is a `clear`, no destructor of an element of the vector panics. -/
def Spec.Cmd.Mild (c : Cfg α) (L : Spec.Lists α) (cmd : Spec.Cmd α) : Prop :=
  ∀ x, cmd = .on x .clear → ∀ l, L[x]? = some (some l) → ∀ a ∈ l, c.dropPanics a = false

theorem Spec.Cmd.NoClear.mild {cmd : Spec.Cmd α} (h : cmd.NoClear) : cmd.Mild c L :=
  fun x e => absurd e (h x)

theorem runCmd_panics (hs : c.size ≠ 0) (h : GInv c P L lost G K) (cmd : Cmd α) (hl : cmd.Legal c P)
    (hc : cmd.Mild c L) :
    Sat c (runCmd c cmd P) (fun out P' => CmdOkP c cmd L lost G K P (some out) P')
      (fun P' => CmdOkP c cmd L lost G K P none P') := by
  cases cmd with
  | new =>
    show Sat c (creating Vec.new P) _ _
    refine creating_sat (Q := CmdOkP c .new L lost G K P) ?_
    rw [new_eq]
    exact .same rfl (.new L) (h.add (Trans.made (Trans.refl (emptyVec_rep P.w) h.inv.wf))) (h.keeps _ _)
      (by simp)
  | withCapacity n =>
    refine creating_sat ((withCapacity_spec hs h.inv.wf hl).mono ?_ ?_)
    · rintro v w' ⟨h1, _, h2, h3⟩
      exact .same h2 (.withCapacity n L) (h.add h1.made) (h.keeps _ _) (by simp [h3])
    · rintro w' ⟨rfl, _, _⟩
      exact .refused rfl (.withCapacityRefused n L) (h.clean (.refuse h.inv.wf)) (.refl _ _ _) (by simp [World.refuse])
  | fromArray l =>
    refine creating_sat ((fromArray_spec hs h.inv.wf l hl).mono ?_ ?_)
    · rintro v w' ⟨h1, h2⟩
      exact .same h2 (.fromArray l L) (h.add h1) (h.keeps _ _) h1.drops
    · rintro w' ⟨h1, h2⟩
      exact .refused h2 (.fromArrayRefused l L) (h.clean h1) (.refl _ _ _) h1.drops
  | fromIter it =>
    refine creating_sat ((fromIter_spec hs h.inv.wf it.iter hl.1 hl.2).mono ?_ ?_)
    · rintro v w' ⟨h0, h1, h2⟩
      exact .same h2 (.fromIter it L h0) (h.add h1) (h.keeps _ _) h1.drops
    · rintro w' ⟨d, h0, h1, (⟨h2, h3⟩ | h3)⟩
      · exact .same h3 (.fromIterPanic it d L h2 h0) (h.clean h1) (.refl _ _ _) h1.drops
      · exact .refused h3 (.fromIterRefused it d L h0) (h.clean h1) (.refl _ _ _) h1.drops
  | clone x =>
    obtain ⟨v, hx⟩ := hl
    obtain ⟨l, hL, hK, hv⟩ := h.rep hx
    have e : onVecs x (Vec.asSlice c) [] P = .ok l P := by
      simp only [onVecs, hx, asSlice_spec (s := ⟨v, P.w⟩) hs hv, set_self hx]
    show Sat c ((onVecs x (Vec.asSlice c) [] >>= fun l => creating (Vec.cloneFrom c l)) P) _ _
    rw [M.bind_ok e]
    have hfit : c.Fits l.length := by
      have h1 := hv.fits
      have h2 := hv.le_cap
      unfold Cfg.Fits at h1 ⊢
      exact Nat.le_trans (Nat.mul_le_mul_right _ h2) h1
    refine creating_sat ((cloneFrom_spec hs h.inv.wf l hfit).mono ?_ ?_)
    · rintro v' w' ⟨ys, h1, h2, h3⟩
      exact .same h3 (.clone x l ys L hL h1.spec) (h.add h2) (h.keeps _ _) h2.drops
    · rintro w' (⟨h1, h2⟩ | ⟨pre, a, post, ys, rfl, h2, ⟨k, h3⟩, h4, h5⟩)
      · exact .refused h2 (.cloneRefused x L) (h.clean h1) (.refl _ _ _) h1.drops
      · exact .same h5 (.clonePanic x pre a post ys L hL h2.spec ⟨k, h3⟩) (h.clean h4) (.refl _ _ _) h4.drops
  | on x o =>
    obtain ⟨v, hx, ho⟩ := hl
    obtain ⟨l, hL, hK, hv⟩ := h.rep hx
    refine onVecs_sat hx ((runOp_panics (s := ⟨v, P.w⟩) hs hv h.inv.wf o ho
      (fun e => hc x (by rw [e]) l hL)).mono ?_ ?_)
    · rintro out s' ⟨l', made, dropped, h1, h2⟩
      exact ⟨_, made, dropped, [], .on x o _ l l' made dropped L hL h1, ⟨_, _, (h.update hx h2).more _, .set hx _ _ _ _ _⟩, h2.drops⟩
    · rintro s' ⟨l', made, dropped, h1, h2⟩
      exact ⟨_, made, dropped, [], .on x o _ l l' made dropped L hL h1, ⟨_, _, (h.update hx h2).more _, .set hx _ _ _ _ _⟩, h2.drops⟩
  | append x y =>
    obtain ⟨hxy, v, v', hx, hy, hf⟩ := hl
    obtain ⟨l, hL, hK, hv⟩ := h.rep hx
    obtain ⟨l', hL', hK', hv'⟩ := h.rep hy
    have hne : v.ptr ≠ v'.ptr ∨ v'.ptr = none := by
      cases hp : v'.ptr with
      | none => exact Or.inr rfl
      | some p => exact Or.inl fun e => hxy (h.inv.inj x y v v' p (h.sub x v hx).1 (h.sub y v' hy).1 e hp)
    have key := append_spec hs hv hv' h.inv.wf hne (by rw [← hv.len, ← hv'.len]; exact hf)
    unfold runCmd
    simp only [hx, hy]
    cases hr : Vec.append c ⟨(v, v'), P.w⟩ with
    | ok u s =>
      rw [hr] at key
      obtain ⟨v1, h1, h2, h3, _⟩ := key
      have i1 := h.update hx h2.trans
      have hy' : (P.vecs.set x (some v1))[y]? = some (some v') := by
        rw [List.getElem?_set_ne hxy, hy]
      have i2 := i1.change hy' (i1.inv.setEmpty (v' := { v' with len := 0 }) (i1.sub y v' hy').1 rfl h3)
      simp only [h1]
      exact .same h2.refusals (.append x y l l' L hxy hL hL') i2 ((Keeps.set hx _ _ _ _ _).trans (.set hy' _ _ _ _ _)) (by simpa using congrArg Log.drops h2.log)
    | panic s =>
      rw [hr] at key
      obtain ⟨rfl, _, _⟩ := key
      simp only [St.refuse, set_self hx, set_self hy]
      exact .refused rfl (.appendRefused x y L) (h.clean (.refuse h.inv.wf)) (.refl _ _ _) (by simp [World.refuse])
    | abort => rw [hr] at key; exact key
    | ub u => rw [hr] at key; exact key
  | drop x =>
    obtain ⟨v, hx⟩ := hl
    obtain ⟨l, hL, hK, hv⟩ := h.rep hx
    unfold runCmd
    simp only [hx]
    have key := drop_spec (s := ⟨v, P.w⟩) hs hv
    cases hr : Vec.drop c ⟨v, P.w⟩ with
    | ok u s =>
      rw [hr] at key
      obtain ⟨h1, h2⟩ := key
      show CmdOkP c (.drop x) L lost G K P _ ⟨_, s.w⟩
      rw [h1]
      exact .same rfl (.drop x l L hL) (h.remove hx l) (.set hx _ _ _ _ _) rfl
    | panic s =>
      rw [hr] at key
      obtain ⟨ys, a, zs, rfl, h1, h2, h3⟩ := key
      show CmdOkP c (.drop x) L lost G K P _ ⟨_, s.w⟩
      rw [h3]
      refine ⟨L.set x none, [], ys ++ [a], zs, ?_, ⟨G, K, h.lose hx _, .unset hx _ _⟩, rfl⟩
      have : ((P.w.addDrops (ys ++ [a])).refusals != P.w.refusals) = false := by
        simp [World.addDrops]
      simp only [this]
      exact .drop x ys a zs L hL h1 fun y hy hp => by
        have := h2 y hy
        unfold Cfg.dropRel at hp
        rw [hp] at this; cases this
    | abort => rw [hr] at key; exact key
    | ub u => rw [hr] at key; exact key

/-! ## Whole histories -/

/-- The vectors whose destruction was cut short in a history. -/
def lostIn (h : Spec.History α) : List Nat := h.flatMap fun e => lostNow e.1 e.2.out

theorem Reaches.inv_panics {P0 P : Pool α} {hist : Spec.History α} (hs : c.size ≠ 0)
    (h0 : P0.Initial) (h : Reaches c P0 hist P) (hc : ∀ e ∈ hist, e.1.NoClear) :
    ∃ L made leaked, Spec.RunsP c.cloneRel c.dropRel hist L made P.w.log.drops leaked ∧
      ∃ G K, GInv c P L (lostIn hist) G K := by
  induction h with
  | start =>
    refine ⟨[], [], [], by rw [h0.2.2]; exact .start, [], [], ?_⟩
    have hv := h0.1
    refine ⟨?_, by simp [hv], rfl, ?_, ?_, ?_⟩
    · have := PInv.initial (c := c) h0
      have e : P0 = ⟨[], P0.w⟩ := by rw [← hv]
      rwa [e] at this
    · intro x v hx; simp [hv] at hx
    · intro x hx; simp [hv] at hx
    · intro x v hx; simp at hx
  | @step hist P cmd ev P' _ hl he ih =>
    obtain ⟨L, made, leaked, h1, G, K, h2⟩ := ih fun e he => hc e (by simp [he])
    have key := runCmd_panics hs h2 cmd hl (hc (cmd, ev) (by simp)).mild
    have hlost : ∀ ev, lostIn (hist ++ [(cmd, ev)]) = lostIn hist ++ lostNow cmd ev.out := by
      intro ev; simp [lostIn]
    cases he with
    | ret hr =>
      rw [hr] at key
      obtain ⟨L', made', dropped', leaked', h3, ⟨G', K', h4, _⟩, h5⟩ := key
      exact ⟨L', made ++ made', leaked ++ leaked', by rw [h5]; exact .step h1 h3, by rw [hlost]; exact ⟨G', K', h4⟩⟩
    | panic hr =>
      rw [hr] at key
      obtain ⟨L', made', dropped', leaked', h3, ⟨G', K', h4, _⟩, h5⟩ := key
      exact ⟨L', made ++ made', leaked ++ leaked', by rw [h5]; exact .step h1 h3, by rw [hlost]; exact ⟨G', K', h4⟩⟩

theorem lostIn_event {cl : Spec.CloneRel α} {dp : α → Prop} {hist : Spec.History α} {made dropped leaked : List α}
    (h : Spec.RunsP cl dp hist L made dropped leaked) {x : Nat} (hx : x ∈ lostIn hist) :
    (.drop x, ⟨none, false⟩) ∈ hist := by
  induction h with
  | start => cases hx
  | @step h L made dropped leaked cmd ev L' _ _ _ _ hs ih =>
    simp only [lostIn, List.flatMap_append, List.mem_append, List.flatMap_cons, List.flatMap_nil,
      List.append_nil] at hx
    rcases hx with hx | hx
    · exact List.mem_append_left _ (ih hx)
    · refine List.mem_append_right _ ?_
      cases hs with
      | step hs => cases hs <;> simp [lostNow, Event.ret] at hx
      | on => simp [lostNow] at hx
      | drop y ys a zs _ _ _ _ =>
        simp only [lostNow, Event.panic, List.mem_singleton] at hx
        subst hx
        exact List.mem_singleton.mpr rfl

end Lokky
