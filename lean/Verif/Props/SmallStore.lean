import Verif.Props.Witness
import Verif.Proofs.SmallPool
import Verif.Proofs.SmallConserve

/-!
# C29, C31, C39: inline and heap storage
-/

namespace Lokky
variable {α : Type} {c : Cfg α}

/-! ## Witnesses -/

/-- An inline vector of inline size `n` with contents `l`. -/
def inline (l : List α) (n : Nat) (m : Marker) (w : World α) : SSt α :=
  ⟨⟨n, .stack (l.map some ++ List.replicate (n - l.length) none) l.length, m⟩, w⟩

theorem inline_rep {l : List α} {n : Nat} {m : Marker} {w : World α} (hl : l.length ≤ n)
    (hf : c.Fits n) : SRep c (inline l n m w).self (inline l n m w).w l := by
  refine ⟨hf, ?_, ?_⟩
  · intro slots len e
    simp only [inline, Store.stack.injEq] at e
    obtain ⟨rfl, rfl⟩ := e
    exact ⟨rfl, by simp [inline]; omega, _, rfl⟩
  · intro h e; simp [inline] at e

/-- A heap vector of inline size `n` with contents `l` and capacity `cap`. -/
def spilled (c : Cfg α) (l : List α) (n cap : Nat) : SSt α :=
  ⟨⟨n, .heap (stored c l cap).self, none⟩, (stored c l cap).w⟩

theorem spilled_rep {l : List α} {n cap : Nat} (h : 0 < cap) (hl : l.length ≤ cap)
    (hf : c.Fits cap) (hn : c.Fits n) : SRep c (spilled c l n cap).self (spilled c l n cap).w l :=
  ⟨hn, fun _ _ e => by simp [spilled] at e, fun v e => by
    simp only [spilled, Store.heap.injEq] at e
    subst e; exact stored_rep h hl hf⟩

/-! ## C29 -/

/-- One call, not refused memory, on two small vectors with the same contents. -/
theorem runSOp_det {s t s1 t1 : SSt α} {l : List α} {o : Spec.Op α} {out out' : Option (Spec.Out α)}
    (hc : ∀ j k a, c.clone j a = c.clone k a)
    (h1 : SOpOk c o l s out s1) (h2 : SOpOk c o l t out' t1)
    (r1 : s1.w.refusals = s.w.refusals) (r2 : t1.w.refusals = t.w.refusals) :
    out = out' ∧ ∃ l' d, STrans c l' d s s1 ∧ STrans c l' d t t1 := by
  have hdet : c.cloneRel.Det := by
    rintro a r r' ⟨j, rfl⟩ ⟨k, rfl⟩; exact hc j k a
  obtain ⟨l1, m1, d1, e1, t1'⟩ := h1
  obtain ⟨l2, m2, d2, e2, t2'⟩ := h2
  have b1 : (s1.w.refusals != s.w.refusals) = false := by simp [r1]
  have b2 : (t1.w.refusals != t.w.refusals) = false := by simp [r2]
  rw [b1] at e1
  rw [b2] at e2
  rcases e1 with e1 | ⟨e1, _⟩
  · rcases e2 with e2 | ⟨e2, _⟩
    · obtain ⟨h1, rfl, rfl, rfl⟩ := e1.det hdet e2 rfl rfl
      simp only [Spec.Event.mk.injEq, and_true] at h1
      exact ⟨h1, l1, d1, t1', t2'⟩
    · simp at e2
  · simp at e1

/-- C29, the part that holds: two small vectors with the same contents, whatever their inline sizes
and wherever they are stored, show the same under the same permitted calls as long as memory is not
refused: the same results and panics, the same contents after each call, the same elements dropped
in the same order. Missing: the calls excluded by `SLegal`, for which see `C29_refuted`. -/
theorem C29_storage_invisible_partial (hs : c.size ≠ 0) (hd : ∀ a, c.dropPanics a = false)
    (hc : ∀ j k a, c.clone j a = c.clone k a) {os : List (Spec.Op α)}
    {s t s' t' : SSt α} {evs evs' : List (Spec.Event α)} {l : List α}
    (h : SRep c s.self s.w l) (hw : s.w.WF) (h' : SRep c t.self t.w l) (hw' : t.w.WF)
    (hr : SRun c os s evs s') (hr' : SRun c os t evs' t')
    (hn : ∀ e ∈ evs, e.refused = false) (hn' : ∀ e ∈ evs', e.refused = false) :
    evs = evs' ∧ ∃ l' d,
      Small.asSlice c s' = .ok l' s' ∧ Small.asSlice c t' = .ok l' t' ∧
      s'.w.log.drops = s.w.log.drops ++ d ∧ t'.w.log.drops = t.w.log.drops ++ d := by
  have key : ∀ {o : Spec.Op α} {s1 t1 : SSt α} {out out' : Option (Spec.Out α)} {l : List α}
      {s t : SSt α}, SOpOk c o l s out s1 → SOpOk c o l t out' t1 →
      (s1.w.refusals != s.w.refusals) = false → (t1.w.refusals != t.w.refusals) = false →
      out = out' ∧ ∃ l' d, STrans c l' d s s1 ∧ STrans c l' d t t1 :=
    fun h1 h2 h3 h4 => runSOp_det hc h1 h2 (by simpa using h3) (by simpa using h4)
  induction hr generalizing t evs' l with
  | nil s =>
    cases hr'
    exact ⟨rfl, l, [], sasSlice_spec hs h, sasSlice_spec hs h', by simp, by simp⟩
  | @ret o os s out s1 evs s' hl hok _ ih =>
    have k1 := runSOp_spec hs o (fun _ => hd) h hw hl
    rw [hok] at k1
    have b1 := hn _ (List.mem_cons_self ..)
    cases hr' with
    | ret hl2 hok2 hrest =>
      have k2 := runSOp_spec hs o (fun _ => hd) h' hw' hl2
      rw [hok2] at k2
      have b2 := hn' _ (List.mem_cons_self ..)
      obtain ⟨e1, l1, d1, t1, t2⟩ := key k1 k2 b1 b2
      obtain ⟨e2, l2, d2, a1, a2, a3, a4⟩ := ih t1.rep t1.wf t2.rep t2.wf hrest
        (fun e he => hn e (List.mem_cons_of_mem _ he)) (fun e he => hn' e (List.mem_cons_of_mem _ he))
      refine ⟨?_, l2, d1 ++ d2, a1, a2, by rw [a3, t1.drops, List.append_assoc],
        by rw [a4, t2.drops, List.append_assoc]⟩
      simp only at b1 b2
      rw [b1, b2, e1, e2]
    | panic hl2 hok2 hrest =>
      have k2 := runSOp_spec hs o (fun _ => hd) h' hw' hl2
      rw [hok2] at k2
      have b2 := hn' _ (List.mem_cons_self ..)
      obtain ⟨e1, _⟩ := key k1 k2 b1 b2
      cases e1
  | @panic o os s s1 evs s' hl hok _ ih =>
    have k1 := runSOp_spec hs o (fun _ => hd) h hw hl
    rw [hok] at k1
    have b1 := hn _ (List.mem_cons_self ..)
    cases hr' with
    | ret hl2 hok2 hrest =>
      have k2 := runSOp_spec hs o (fun _ => hd) h' hw' hl2
      rw [hok2] at k2
      have b2 := hn' _ (List.mem_cons_self ..)
      obtain ⟨e1, _⟩ := key k1 k2 b1 b2
      cases e1
    | panic hl2 hok2 hrest =>
      have k2 := runSOp_spec hs o (fun _ => hd) h' hw' hl2
      rw [hok2] at k2
      have b2 := hn' _ (List.mem_cons_self ..)
      obtain ⟨e1, l1, d1, t1, t2⟩ := key k1 k2 b1 b2
      obtain ⟨e2, l2, d2, a1, a2, a3, a4⟩ := ih t1.rep t1.wf t2.rep t2.wf hrest
        (fun e he => hn e (List.mem_cons_of_mem _ he)) (fun e he => hn' e (List.mem_cons_of_mem _ he))
      refine ⟨?_, l2, d1 ++ d2, a1, a2, by rw [a3, t1.drops, List.append_assoc],
        by rw [a4, t2.drops, List.append_assoc]⟩
      simp only at b1 b2
      rw [b1, b2, e2]

/-- C29 does not hold: with the same non-empty contents, `truncate(0)` drops the elements of the
vector on the heap but not those of the inline one. -/
theorem C29_refuted {s t : SSt α} {a : α} {l : List α} (hs : c.size ≠ 0)
    (hd : ∀ a, c.dropPanics a = false)
    (h : SRep c s.self s.w (a :: l)) (hst : Small.isHeap s.self = false)
    (h' : SRep c t.self t.w (a :: l)) (hw' : t.w.WF) (hst' : Small.isHeap t.self = true) :
    ∃ s' t', Small.truncate c 0 s = .ok () s' ∧ Small.truncate c 0 t = .ok () t' ∧
      s'.w.log.drops = s.w.log.drops ∧ t'.w.log.drops = t.w.log.drops ++ a :: l := by
  have k2 := struncate_spec hs h' hw' 0 (fun e => by rw [hst'] at e; cases e)
  have k1 : ∃ s', Small.truncate c 0 s = .ok () s' ∧ s'.w = s.w := by
    cases hsto : s.self.store with
    | heap v => simp [Small.isHeap, hsto] at hst
    | stack slots len =>
      obtain ⟨h1, h2, _⟩ := h.stack _ _ hsto
      refine ⟨⟨⟨s.self.n, .stack slots 0, s.self.marker⟩, s.w⟩, ?_, rfl⟩
      unfold Small.truncate
      rw [onStore_stack hsto]
      have : Stack.truncate c 0 (s.stackBuf slots len) =
          .ok () { s.stackBuf slots len with len := 0 } := by
        simp [Stack.truncate, St.stackBuf, M.bind_apply, Buf.getLen, h1, Buf.setLen, debugAssert,
          Buf.dropLoop]
      rw [this]
      rfl
  obtain ⟨s', e1, e2⟩ := k1
  cases hr : Small.truncate c 0 t with
  | ok u t' =>
    rw [hr] at k2
    exact ⟨s', t', e1, rfl, by rw [e2], by simpa using k2.1.drops⟩
  | panic t' =>
    rw [hr] at k2
    obtain ⟨_, _, b, _, hb⟩ := k2
    rw [hd b] at hb; cases hb
  | abort =>
    rw [hr] at k2
    obtain ⟨b, hb⟩ := k2
    rw [hd b] at hb; cases hb
  | ub u => rw [hr] at k2; exact k2.elim

/-- Run calls on one vector, to get examples of `SRun`. -/
def srunOps (c : Cfg α) : List (Spec.Op α) → SSt α → Option (List (Spec.Event α) × SSt α)
  | [], s => some ([], s)
  | o :: os, s =>
    if o.SLegal c s.self then
      match runSOp c o s with
      | .ok out s1 => (srunOps c os s1).map fun r =>
          (⟨some out, s1.w.refusals != s.w.refusals⟩ :: r.1, r.2)
      | .panic s1 => (srunOps c os s1).map fun r =>
          (⟨none, s1.w.refusals != s.w.refusals⟩ :: r.1, r.2)
      | _ => none
    else none

theorem srunOps_run {os : List (Spec.Op α)} {s s' : SSt α} {evs : List (Spec.Event α)}
    (h : srunOps c os s = some (evs, s')) : SRun c os s evs s' := by
  induction os generalizing s evs with
  | nil =>
    simp only [srunOps, Option.some.injEq, Prod.mk.injEq] at h
    obtain ⟨rfl, rfl⟩ := h
    exact .nil s
  | cons o os ih =>
    unfold srunOps at h
    split at h
    · rename_i hl
      split at h
      · rename_i out s1 h1
        cases h2 : srunOps c os s1 with
        | none => simp [h2] at h
        | some r =>
          simp only [h2, Option.map_some, Option.some.injEq, Prod.mk.injEq] at h
          obtain ⟨rfl, rfl⟩ := h
          exact .ret hl h1 (ih h2)
      · rename_i s1 h1
        cases h2 : srunOps c os s1 with
        | none => simp [h2] at h
        | some r =>
          simp only [h2, Option.map_some, Option.some.injEq, Prod.mk.injEq] at h
          obtain ⟨rfl, rfl⟩ := h
          exact .panic hl h1 (ih h2)
      · cases h
    · cases h

/-- Calls for the example: an inline vector of inline size 4 moves to the heap in the middle. -/
def sops : List (Spec.Op Nat) :=
  [.push 7, .remove 0, .get 9, .insert 0 8, .set 1 5, .push 3, .push 4, .pop, .swapRemove 0, .read]

example : (srunOps cfg64 sops (inline [1, 2] 4 none world0)).map (fun r => r.1) =
      (srunOps cfg64 sops (spilled cfg64 [1, 2] 9 4)).map (fun r => r.1) ∧
    (srunOps cfg64 sops (inline [1, 2] 4 none world0)).map (fun r => r.1) =
      some [.ret .unit, .ret (.val 1), .panic, .ret .unit, .ret .unit, .ret .unit, .ret .unit,
        .ret (.opt (some 4)), .ret (.val 8), .ret (.list [3, 5, 7])] := by
  decide +kernel

/-! ## C31 -/

theorem cap_inline {v : SmallH α} (hst : Small.isHeap v = false) : Small.capacity c v = v.n := by
  cases hsto : v.store with
  | stack _ _ => simp [Small.capacity, hsto]
  | heap _ => simp [Small.isHeap, hsto] at hst

/-- `reserve` does nothing on an inline vector with enough room. -/
theorem sreserve_room {s : SSt α} {l : List α} {k : Nat} (hs : c.size ≠ 0)
    (h : SRep c s.self s.w l) (hf : c.Fits (l.length + k + Vec.minNonZeroCap c))
    (hst : Small.isHeap s.self = false) (hroom : l.length + extra c s.self k ≤ s.self.n) :
    Small.reserve c k s = .ok () s := by
  have hcap := cap_inline (c := c) hst
  have hu : Small.capacity c s.self + k ≤ c.usizeMax := by
    have h1 := Fits.le_isize hs (h.fits_cap hs)
    have h2 := Fits.le_isize hs hf
    unfold Cfg.usizeMax; omega
  have e : Small.tryReserve c k s = .ok (.ok ()) s := by
    unfold Small.tryReserve
    rw [M.bind_ok (M.get_apply s), M.bind_ok (soverflow_eq hu)]
    exact stryReserveExact_noop hs h (k := extra c s.self k) (by omega)
  unfold Small.reserve
  rw [M.bind_ok e]
  rfl

/-- As long as the length plus what `reserve(1)` asks for stays within the inline size, `push` keeps
the vector inline and asks the allocator for nothing. -/
theorem spush_inline {s : SSt α} {l : List α} (hs : c.size ≠ 0) (h : SRep c s.self s.w l)
    (hw : s.w.WF) (hst : Small.isHeap s.self = false)
    (hf : c.Fits (l.length + 1 + Vec.minNonZeroCap c))
    (hroom : l.length + extra c s.self 1 ≤ s.self.n) (a : α) :
    ∃ s', Small.push c a s = .ok () s' ∧ SReserved c (l ++ [a]) s s' ∧
      Small.isHeap s'.self = false ∧ s'.self.n = s.self.n ∧ s'.w.tick = s.w.tick := by
  have hcap := cap_inline (c := c) hst
  have hle := le_extra (c := c) s.self 1
  have hres := sreserve_room hs h hf hst hroom
  obtain ⟨s', e1, e2, e3, e4⟩ := spush_room hs h hw (a := a) (by omega)
  refine ⟨s', ?_, e2, ?_, e2.trans.place.n, e4⟩
  · unfold Small.push
    rw [M.bind_ok (M.onUnwind_ok hres)]
    exact e1
  · cases hsto : s.self.store with
    | heap _ => simp [Small.isHeap, hsto] at hst
    | stack slots len =>
      rw [onStore_stack hsto] at e1
      cases hb : Stack.uncheckedPush c a (s.stackBuf slots len) with
      | ok u b => rw [hb] at e1; simp only [Res.ok.injEq, true_and] at e1; rw [← e1]; rfl
      | panic b => rw [hb] at e1; cases e1
      | abort => rw [hb] at e1; cases e1
      | ub u => rw [hb] at e1; cases e1

theorem legal_push {s : SSt α} {a : α} (hl : (Spec.Op.push a).SLegal c s.self) {l : List α}
    (h : SRep c s.self s.w l) : c.Fits (l.length + 1 + Vec.minNonZeroCap c) := by
  unfold Spec.Op.SLegal at hl
  rwa [h.lenOf] at hl

/-- C31, the part that holds: if the inline size is at least the minimal capacity of heap vectors minus
one (7 for bytes, 3 for elements up to 1024 bytes, 0 for larger ones), then pushing any number of elements
as long as they fit keeps the vector inline and asks the allocator for nothing. Missing: smaller
inline sizes. -/
theorem C31_stays_inline_partial {s s' : SSt α} {l : List α} {xs : List α}
    {evs : List (Spec.Event α)} (hs : c.size ≠ 0)
    (h : SRep c s.self s.w l) (hw : s.w.WF) (hst : Small.isHeap s.self = false)
    (hmin : Vec.minNonZeroCap c ≤ s.self.n + 1) (hfit : l.length + xs.length ≤ s.self.n)
    (hr : SRun c (xs.map .push) s evs s') :
    evs = xs.map (fun _ => .ret .unit) ∧ Small.isHeap s'.self = false ∧ s'.w.tick = s.w.tick ∧
      Small.asSlice c s' = .ok (l ++ xs) s' := by
  induction xs generalizing s l evs with
  | nil =>
    cases hr
    exact ⟨rfl, hst, rfl, by rw [List.append_nil]; exact sasSlice_spec hs h⟩
  | cons a xs ih =>
    simp only [List.length_cons] at hfit
    rw [List.map_cons] at hr
    have hroom : l.length + extra c s.self 1 ≤ s.self.n := by
      rw [extra_stack hst]; omega
    have step : ∀ hl : (Spec.Op.push a).SLegal c s.self, ∃ s1, runSOp c (.push a) s = .ok .unit s1 ∧
        SReserved c (l ++ [a]) s s1 ∧ Small.isHeap s1.self = false ∧ s1.self.n = s.self.n ∧
        s1.w.tick = s.w.tick := by
      intro hl
      obtain ⟨s1, e1, e2⟩ := spush_inline hs h hw hst (legal_push hl h) hroom a
      refine ⟨s1, ?_, e2⟩
      show quiet (Small.push c a) s = _
      unfold quiet
      rw [M.bind_ok e1]
      rfl
    cases hr with
    | ret hl hok hrest =>
      obtain ⟨s1, e1, e2, e3, e4, e5⟩ := step hl
      rw [e1] at hok
      injection hok with h1 h2
      subst h1 h2
      obtain ⟨i1, i2, i3, i4⟩ := ih e2.trans.rep e2.trans.wf e3 (by rw [e4]; exact hmin)
        (by rw [e4]; simp; omega) hrest
      refine ⟨?_, i2, i3.trans e5, by simpa using i4⟩
      rw [i1, e2.refusals]
      simp
    | panic hl hok _ =>
      obtain ⟨s1, e1, _⟩ := step hl
      rw [e1] at hok; cases hok

/-- C31 does not hold: an inline vector of an inline size below the minimal capacity of heap vectors
minus one moves to the heap when its last inline slot is to be filled, although the element would
fit. -/
theorem C31_refuted {s : SSt α} {l : List α} (hs : c.size ≠ 0) (h : SRep c s.self s.w l)
    (hw : s.w.WF) (hst : Small.isHeap s.self = false) (hlen : l.length + 1 = s.self.n)
    (hmin : s.self.n + 1 < Vec.minNonZeroCap c)
    (hf : c.Fits (l.length + 1 + Vec.minNonZeroCap c)) (hg : ∀ t b, c.grant t b = true)
    (hd : ∀ x, c.dropPanics x = false) (a : α) :
    ∃ s' v p, Small.push c a s = .ok () s' ∧ s'.self.store = .heap v ∧ v.ptr = some p ∧
      s.w.heap p = none ∧ Small.asSlice c s' = .ok (l ++ [a]) s' := by
  have hcap : Small.capacity c s.self = s.self.n := by
    cases hsto : s.self.store with
    | stack _ _ => simp [Small.capacity, hsto]
    | heap _ => simp [Small.isHeap, hsto] at hst
  have hlt : Small.capacity c s.self < l.length + extra c s.self 1 := by
    rw [extra_stack hst]; omega
  obtain ⟨s1, e1, e2, hroom, v, e3⟩ : ∃ s1, Small.reserve c 1 s = .ok () s1 ∧ SReserved c l s s1 ∧
      l.length < Small.capacity c s1.self ∧ ∃ v, s1.self.store = .heap v := by
    have key := sreserve_spec hs h hw hf
    cases hr : Small.reserve c 1 s with
    | ok u s1 =>
      rw [hr] at key
      obtain ⟨k1, k2, -, k4⟩ := key
      obtain ⟨v, hv, -⟩ := k4 hlt
      exact ⟨s1, rfl, k1, by have := k2.1; omega, v, hv⟩
    | panic s1 =>
      rw [hr] at key
      rw [hg] at key
      cases key.2.2
    | abort => rw [hr] at key; obtain ⟨x, hx⟩ := key; rw [hd] at hx; cases hx
    | ub u => rw [hr] at key; exact key.elim
  obtain ⟨s2, e4, e5, e6, e7⟩ := spush_room hs e2.trans.rep e2.trans.wf hroom a
  obtain ⟨v', e8, -⟩ := e5.trans.place.heap v e3
  have hall := e2.trans' hw e5
  have hrep := hall.trans.rep.heap v' e8
  rcases hrep.buf with ⟨-, -, h0⟩ | ⟨p, b, rest, hp, -⟩
  · simp at h0
  · refine ⟨s2, v', p, ?_, e8, hp, ?_, sasSlice_spec hs hall.trans.rep⟩
    · unfold Small.push
      rw [M.bind_ok (M.onUnwind_ok e1)]
      exact e4
    · refine hw p (hall.trans.own.fresh p ?_ ?_)
      · simp [SmallH.ptr, e8, hp]
      · cases hsto : s.self.store with
        | stack _ _ => simp [SmallH.ptr, hsto]
        | heap _ => simp [Small.isHeap, hsto] at hst

/-- Inline size 4, 8-byte elements: two more elements fit and stay inline. Inline size 2: the second
element moves the vector to the heap. -/
example : (srunOps cfg64 ([7, 8].map .push) (inline [1, 2] 4 none world0)).map
      (fun r => (r.1, Small.isHeap r.2.self, r.2.w.tick)) =
      some ([.ret .unit, .ret .unit], false, 0) ∧
    (srunOps cfg64 [.push 2] (inline [1] 2 none world0)).map
      (fun r => (r.1, Small.isHeap r.2.self, r.2.w.tick)) = some ([.ret .unit], true, 1) := by
  decide +kernel

/-! ## C39 -/

theorem SRun.place (hs : c.size ≠ 0) (hd : ∀ a, c.dropPanics a = false) {os : List (Spec.Op α)}
    {s s' : SSt α} {evs : List (Spec.Event α)} {l : List α} (h : SRep c s.self s.w l)
    (hw : s.w.WF) (hr : SRun c os s evs s') :
    SPlace s s' ∧ s'.w.WF ∧ ∃ l', SRep c s'.self s'.w l' := by
  induction hr generalizing l with
  | nil s => exact ⟨.refl s, hw, l, h⟩
  | @ret o os s out s1 evs s' hl hok _ ih =>
    have k1 := runSOp_spec hs o (fun _ => hd) h hw hl
    rw [hok] at k1
    obtain ⟨l', _, _, _, t⟩ := k1
    obtain ⟨i1, i2⟩ := ih t.rep t.wf
    exact ⟨t.place.trans i1, i2⟩
  | @panic o os s s1 evs s' hl hok _ ih =>
    have k1 := runSOp_spec hs o (fun _ => hd) h hw hl
    rw [hok] at k1
    obtain ⟨l', _, _, _, t⟩ := k1
    obtain ⟨i1, i2⟩ := ih t.rep t.wf
    exact ⟨t.place.trans i1, i2⟩

/-- C39 for programs: whatever permitted calls are made on an inline vector with marker `m`, it keeps
its marker, and if it is on the heap afterwards then its buffer is a live block of the allocator
selected for `m` and the heap vector has the marker `m`. -/
theorem C39_spill (hs : c.size ≠ 0) (hd : ∀ a, c.dropPanics a = false) {os : List (Spec.Op α)}
    {s s' : SSt α} {evs : List (Spec.Event α)} {l : List α} (h : SRep c s.self s.w l)
    (hw : s.w.WF) (hst : Small.isHeap s.self = false) (hr : SRun c os s evs s') :
    s'.self.marker = s.self.marker ∧ ∀ v, s'.self.store = .heap v →
      v.marker = s.self.marker ∧ v.alloc = s.w.allocFor s.self.marker ∧
      ∃ p b, v.ptr = some p ∧ s'.w.heap p = some b ∧ b.alloc = s.w.allocFor s.self.marker := by
  obtain ⟨h1, h2, l', h3⟩ := hr.place hs hd h hw
  refine ⟨h1.marker, fun v hv => ?_⟩
  cases hsto : s.self.store with
  | heap _ => simp [Small.isHeap, hsto] at hst
  | stack slots len =>
    obtain ⟨e1, e2, e3⟩ := h1.spill _ _ _ hsto hv
    refine ⟨e2, e1, ?_⟩
    rcases (h3.heap v hv).buf with ⟨_, h0, _⟩ | ⟨p, b, rest, hp, hb, ha, _⟩
    · omega
    · exact ⟨p, b, hp, hb, by rw [ha, e1]⟩

/-- C39 for moving to the heap by `try_move_to_heap_and_reserve_exact`, with any contents. -/
theorem C39_move_to_heap {s s' : SSt α} {l : List α} {k : Nat} (hs : c.size ≠ 0)
    (h : SRep c s.self s.w l) (hw : s.w.WF) (hst : Small.isHeap s.self = false)
    (hf : c.Fits (max (l.length + k) (Vec.minNonZeroCap c)))
    (hr : Small.tryMoveToHeap c k s = .ok (.ok ()) s') :
    ∃ v, s'.self.store = .heap v ∧ v.marker = s.self.marker ∧ s'.self.marker = s.self.marker ∧
      v.alloc = s.w.allocFor s.self.marker := by
  cases hsto : s.self.store with
  | heap _ => simp [Small.isHeap, hsto] at hst
  | stack slots len =>
    have key := tryMoveToHeap_stack (k := k) hs h hw hsto hf
    rw [hr] at key
    rcases key with ⟨-, h1, ⟨v, h2, _⟩, _⟩ | ⟨h0, _⟩
    · obtain ⟨e1, e2, e3⟩ := h1.trans.place.spill _ _ _ hsto h2
      exact ⟨v, h2, e2, h1.trans.place.marker, e1⟩
    · cases h0

/-- C39 for vectors created on the heap by `with_capacity_and_marker`. -/
theorem C39_with_capacity {w w' : World α} {n k : Nat} {m : Marker} {v : SmallH α} (hs : c.size ≠ 0)
    (hw : w.WF) (hn : c.Fits n) (hk : c.Fits k) (hlt : n < k)
    (hr : Small.withCapacityAndMarker c n k m w = .ok v w') :
    v.marker = m ∧ ∃ h, v.store = .heap h ∧ h.marker = m ∧ h.alloc = w.allocFor m := by
  have key := swithCapacity_spec (m := m) hs hw hn hk
  rw [hr] at key
  obtain ⟨_, _, h1, _, _, _, _, h2⟩ := key
  obtain ⟨h, e1, _, e2, e3⟩ := h2 hlt
  exact ⟨h1, h, e1, e2, e3⟩

/-- C39 for `into_vec` of an inline vector. -/
theorem C39_into_vec {v : SmallH α} {w w' : World α} {r : VecH} {l : List α} (hs : c.size ≠ 0)
    (h : SRep c v w l) (hw : w.WF) (hst : Small.isHeap v = false)
    (hf : c.Fits (l.length + Vec.minNonZeroCap c)) (hr : Small.intoVec c v w = .ok r w') :
    r.marker = v.marker ∧ r.alloc = w.allocFor v.marker := by
  have key := sintoVec_spec hs h hw hf
  rw [hr] at key
  cases hsto : v.store with
  | heap _ => simp [Small.isHeap, hsto] at hst
  | stack slots len =>
    obtain ⟨e1, e2, e3⟩ := key.trans.place.spill slots len r hsto rfl
    exact ⟨e2, e1⟩

/-- C39 for `From<Vec<T>>`: the vector takes over the marker and the buffer as they are, so that
later requests go where those of the `Vec` would have gone. -/
theorem C39_from_vec {v : VecH} {w : World α} {l : List α} {n : Nat} (hn : c.Fits n)
    (h : Rep c v w l) :
    SRep c (Small.fromVec n v) w l ∧ (Small.fromVec n v : SmallH α).marker = v.marker ∧
      (Small.fromVec n v : SmallH α).store = .heap v ∧ (Small.fromVec n v : SmallH α).n = n :=
  ⟨sfromVec_rep hn h, rfl, rfl, rfl⟩

/-- A scope in which marker 3 selects allocator 30 and everything else allocator 5. -/
def worldMarked : World Nat :=
  ⟨fun _ => none, 0, 0, 0, fun m => if m = some 3 then 30 else 5, ⟨[], 0⟩⟩

/-- A vector with marker 3 spills, is emptied and refilled: its block is of allocator 30. -/
example : (srunOps cfg64 [.push 2, .push 3, .push 4, .clear, .push 5]
      (inline [1] 2 (some 3) worldMarked)).map (fun r =>
        match r.2.self.store with
        | .heap v => (v.marker, v.alloc, (v.ptr.bind r.2.w.heap).map Block.alloc)
        | .stack _ _ => (none, 0, none)) = some (some 3, 30, some 30) := by decide +kernel

end Lokky
