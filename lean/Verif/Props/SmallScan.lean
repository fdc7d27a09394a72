import Verif.Props.SmallStore
import Verif.Props.VecMove
import Verif.Props.VecScan

/-!
# C103–C105: `retain`, `dedup` and `drain` of small vectors

The scans are those of `Vec`, on whichever storage is in use.
-/

namespace Lokky
variable {α : Type} {c : Cfg α}
open Spec (answers accepted rejected runs keyRuns)

/-- Working on the buffer, wherever it is: what holds of the buffer holds of the vector. -/
theorem onAny_sat {β : Type} {m : M (Buf α) β} {s : SSt α} {l : List α} (hs : c.size ≠ 0)
    (h : SRep c s.self s.w l) (hw : s.w.WF) {Q : Buf α → β → Buf α → Prop} {E : Buf α → Buf α → Prop}
    {Q' : β → SSt α → Prop} {E' : SSt α → Prop}
    (hm : ∀ b, BRep b l → b.cap = Small.capacity c s.self → Sat c (m b) (Q b) (E b))
    (hQ : ∀ b a b' s', Q b a b' → (∀ l' d, BTrans l' d b b' → STrans c l' d s s') → Q' a s')
    (hE : ∀ b b' s', E b b' → (∀ l' d, BTrans l' d b b' → STrans c l' d s s') → E' s') :
    Sat c (Small.onAny c m s) Q' E' := by
  unfold Small.onAny
  cases hst : s.self.store with
  | stack slots len =>
    refine stack_sat hst (hm _ (h.brep hst) (by simp [St.stackBuf, Small.capacity, hst])) ?_ ?_
    · exact fun a b' hq => hQ _ a b' _ hq fun l' d ht => putStack_trans h hw hst ht
    · exact fun b' he => hE _ b' _ he fun l' d ht => putStack_trans h hw hst ht
  | heap v =>
    have hv := h.heap v hst
    refine heap_sat hst (onBuf_sat0 (s := ⟨v, s.w⟩)
      (Q' := fun a t => Q' a (s.putHeap t)) (E' := fun t => E' (s.putHeap t))
      (hm _ (hv.brep (s := ⟨v, s.w⟩) hs)
        (by simp [bufOf, Small.capacity, hst])) ?_ ?_) (fun _ _ h => h) (fun _ h => h)
    · exact fun a b' hq => hQ _ a b' _ hq fun l' d ht =>
        putHeap_trans h hst (putBuf_trans (s := ⟨v, s.w⟩) hs hv hw ht)
    · exact fun b' he => hE _ b' _ he fun l' d ht =>
        putHeap_trans h hst (putBuf_trans (s := ⟨v, s.w⟩) hs hv hw ht)

theorem onAny_scanned {s : SSt α} {l K : List α} {r : List (α × Bool)} {n : Nat}
    {m : M (Buf α) Unit} {P Q : Prop} (hs : c.size ≠ 0) (h : SRep c s.self s.w l) (hw : s.w.WF)
    (hm : ∀ b, BRep b l → Sat c (m b) (fun _ b' => Scanned K r n b b' ∧ P)
      (fun b' => Scanned K r n b b' ∧ Q)) :
    Sat c (Small.onAny c m s) (fun _ s' => STrans c (K ++ accepted r) (rejected r) s s' ∧ P)
      (fun s' => STrans c (K ++ accepted r) (rejected r) s s' ∧ Q) :=
  onAny_sat hs h hw (fun b hb _ => hm b hb)
    (fun _ _ _ _ hq ht => ⟨ht _ _ hq.1.trans, hq.2⟩) (fun _ _ _ hq ht => ⟨ht _ _ hq.1.trans, hq.2⟩)

/-! ## C103 -/

/-- C103 does not hold: when the first of two or more elements is accepted, the second one is never
shown to the predicate, is not kept, and is not dropped either. -/
theorem C103_retain_loses_second {s : SSt α} {a x : α} {R : List α} (hs : c.size ≠ 0)
    (hd : ∀ a, c.dropPanics a = false) (h : SRep c s.self s.w (a :: x :: R)) (hw : s.w.WF)
    (f : Nat → α → Option Bool) (hf : f 0 a = some true) :
    Sat c (Small.retain c f s)
      (fun _ s' => STrans c (a :: accepted (answers f 1 R)) (rejected (answers f 1 R)) s s' ∧
        (answers f 1 R).length = R.length)
      (fun s' => STrans c (a :: accepted (answers f 1 R)) (rejected (answers f 1 R)) s s' ∧
        (answers f 1 R).length < R.length) :=
  onAny_scanned (K := [a]) (n := R.length) hs h hw
    (fun b hb => by simpa using retainBuf_keep hs hd f hb hf)

/-- What C103 asks for: `retain` shows every element to the predicate, in order, keeps the accepted
ones and drops the rejected ones. -/
def SRetainCorrect (c : Cfg α) : Prop :=
  ∀ (s : SSt α) (l : List α) (f : Nat → α → Option Bool), SRep c s.self s.w l → s.w.WF →
    Sat c (Small.retain c f s)
      (fun _ s' => STrans c (accepted (answers f 0 l)) (rejected (answers f 0 l)) s s')
      (fun _ => (answers f 0 l).length < l.length)

/-- C103 does not hold, for any element type and build, already on inline vectors. -/
theorem C103_refuted (hs : c.size ≠ 0) (hd : ∀ a, c.dropPanics a = false) (hf : c.Fits 2)
    {w : World α} (hw : w.WF) : ¬ SRetainCorrect c := by
  intro h
  let l := [c.zst, c.zst]
  have hr : SRep c (inline l 2 none w).self (inline l 2 none w).w l := inline_rep (by simp [l]) hf
  have h1 := h (inline l 2 none w) l (fun _ _ => some true) hr hw
  have h2 := C103_retain_loses_second hs hd hr hw (fun _ _ => some true) rfl
  cases hres : Small.retain c (fun _ _ => some true) (inline l 2 none w) with
  | ok u s' =>
    rw [hres] at h1 h2
    have e1 := h1.rep.lenOf
    have e2 := h2.1.rep.lenOf
    rw [e1] at e2
    simp [l, answers, accepted] at e2
  | panic s' => rw [hres] at h2; simp [answers] at h2; exact h2.elim
  | abort => rw [hres] at h2; obtain ⟨a, ha⟩ := h2; rw [hd a] at ha; cases ha
  | ub u => rw [hres] at h2; exact h2

/-- C103, the part that holds: `retain` is right on vectors of at most one element, and whenever the
predicate rejects the first element. If the predicate panics, the vector keeps what was accepted
before (the whole vector if the very first call panics).
Missing: vectors whose first element is accepted, for which it is false. -/
theorem C103_partial {s : SSt α} {l : List α} (hs : c.size ≠ 0)
    (hd : ∀ a, c.dropPanics a = false) (h : SRep c s.self s.w l) (hw : s.w.WF)
    (f : Nat → α → Option Bool)
    (hf : l.length ≤ 1 ∨ ∃ a, l.head? = some a ∧ f 0 a = some false) :
    Sat c (Small.retain c f s)
      (fun _ s' => STrans c (accepted (answers f 0 l)) (rejected (answers f 0 l)) s s' ∧
        (answers f 0 l).length = l.length)
      (fun s' => STrans c l [] s s' ∧ f 0 (l.head?.getD c.zst) = none ∨
        STrans c (accepted (answers f 0 l)) (rejected (answers f 0 l)) s s' ∧
        (answers f 0 l).length < l.length) := by
  refine onAny_sat hs h hw (fun b hb _ => retainBuf_ok hs hd f hb hf)
    (fun _ _ _ _ hq ht => ⟨ht _ _ hq.1.trans, hq.2⟩) ?_
  rintro b b' s' (⟨h1, h2⟩ | ⟨h1, h2⟩) ht
  · exact Or.inl ⟨ht _ _ h1, h2⟩
  · exact Or.inr ⟨ht _ _ h1.trans, h2⟩

/-- Contents and dropped elements if the run returned. -/
def slookDrops {β : Type} (r : Res (SSt Nat) β) : Option (List (Option Nat) × List Nat) :=
  match r with
  | .ok _ s => some ((Small.slotsOf s.self s.w).take (Small.lenOf s.self), s.w.log.drops)
  | _ => none

/-- Keeping the even elements of `[4, 6, 1, 8]`: the 6 is lost, inline and on the heap. -/
example : slookDrops (Small.retain cfg64 (fun _ a => some (a % 2 == 0))
    (inline [4, 6, 1, 8] 4 none world0)) = some ([some 4, some 8], [1]) := by decide +kernel
example : slookDrops (Small.retain cfg64 (fun _ a => some (a % 2 == 0))
    (spilled cfg64 [4, 6, 1, 8] 2 4)) = some ([some 4, some 8], [1]) := by decide +kernel
/-- Keeping the even elements of `[3, 6, 1, 8]` is right. -/
example : slookDrops (Small.retain cfg64 (fun _ a => some (a % 2 == 0))
    (inline [3, 6, 1, 8] 5 none world0)) = some ([some 6, some 8], [3, 1]) := by decide +kernel

/-! ## C104 -/

/-- C104 does not hold: on two or more elements the second one is never compared, is not kept, and is
not dropped either; the scan goes on with the third. -/
theorem C104_dedup_by_loses_second {s : SSt α} {a x : α} {R : List α} (hs : c.size ≠ 0)
    (hd : ∀ a, c.dropPanics a = false) (h : SRep c s.self s.w (a :: x :: R)) (hw : s.w.WF)
    (same : Nat → α → α → Option Bool) :
    Sat c (Small.dedupBy c (fun k a b => (same k a b).map fun r => (r, a, b)) s)
      (fun _ s' => STrans c (a :: accepted (runs same 0 a R)) (rejected (runs same 0 a R)) s s' ∧
        (runs same 0 a R).length = R.length)
      (fun s' => STrans c (a :: accepted (runs same 0 a R)) (rejected (runs same 0 a R)) s s' ∧
        (runs same 0 a R).length < R.length) :=
  onAny_scanned (K := [a]) (n := R.length) hs h hw
    (fun b hb => by simpa using dedupByBuf_spec hs hd same hb)

/-- The same for `dedup_by_key`. -/
theorem C104_dedup_by_key_loses_second {κ : Type} [DecidableEq κ] {s : SSt α} {a x : α}
    {R : List α} (hs : c.size ≠ 0) (hd : ∀ a, c.dropPanics a = false)
    (h : SRep c s.self s.w (a :: x :: R)) (hw : s.w.WF) (key : Nat → α → Option κ) {q : κ}
    (hq : key 0 a = some q) :
    Sat c (Small.dedupByKey c (fun k a => (key k a).map fun q => (q, a)) s)
      (fun _ s' => STrans c (a :: accepted (keyRuns key 1 q R)) (rejected (keyRuns key 1 q R)) s s' ∧
        (keyRuns key 1 q R).length = R.length)
      (fun s' => STrans c (a :: accepted (keyRuns key 1 q R)) (rejected (keyRuns key 1 q R)) s s' ∧
        (keyRuns key 1 q R).length < R.length) :=
  onAny_scanned (K := [a]) (n := R.length) hs h hw
    (fun b hb => by simpa using dedupByKeyBuf_spec hs hd key hb hq)

theorem sdedup_eq (eq : α → α → Bool) :
    Small.dedup c eq = Small.dedupBy c (fun k a b => ((fun _ x y => some (eq x y) :
      Nat → α → α → Option Bool) k a b).map fun r => (r, a, b)) := rfl

/-- What C104 asks of `dedup`: the first element is kept, every later one is kept iff it differs from
the last kept one, and the others are dropped. -/
def SDedupCorrect (c : Cfg α) : Prop :=
  ∀ (s : SSt α) (a : α) (R : List α) (eq : α → α → Bool), SRep c s.self s.w (a :: R) → s.w.WF →
    Sat c (Small.dedup c eq s)
      (fun _ s' => STrans c (a :: accepted (runs (fun _ x y => some (eq x y)) 0 a R))
        (rejected (runs (fun _ x y => some (eq x y)) 0 a R)) s s')
      (fun _ => False)

/-- C104 does not hold, for any element type and build, already on inline vectors. -/
theorem C104_refuted (hs : c.size ≠ 0) (hd : ∀ a, c.dropPanics a = false) (hf : c.Fits 2)
    {w : World α} (hw : w.WF) : ¬ SDedupCorrect c := by
  intro h
  let l := [c.zst, c.zst]
  have hr : SRep c (inline l 2 none w).self (inline l 2 none w).w l := inline_rep (by simp [l]) hf
  have h1 := h (inline l 2 none w) c.zst [c.zst] (fun _ _ => false) hr hw
  have h2 := C104_dedup_by_loses_second hs hd hr hw (fun _ _ _ => some false)
  rw [sdedup_eq] at h1
  cases hres : Small.dedupBy c (fun k a b => ((fun _ x y =>
      some ((fun _ _ => false : α → α → Bool) x y) :
      Nat → α → α → Option Bool) k a b).map fun r => (r, a, b)) (inline l 2 none w) with
  | ok u s' =>
    rw [hres] at h1 h2
    have e1 := h1.rep.lenOf
    have e2 := h2.1.rep.lenOf
    rw [e1] at e2
    simp [runs, accepted] at e2
  | panic s' => rw [hres] at h1; exact h1
  | abort => rw [hres] at h2; obtain ⟨a, ha⟩ := h2; rw [hd a] at ha; cases ha
  | ub u => rw [hres] at h2; exact h2

/-- C104, the part that holds: vectors of at most one element are left alone; on longer ones the scan
is right for the first element and everything from the third on.
Missing: the second element (for which it is false) and tests that modify the elements (C119). -/
theorem C104_partial {s : SSt α} {l : List α} (hs : c.size ≠ 0)
    (hd : ∀ a, c.dropPanics a = false) (h : SRep c s.self s.w l) (hw : s.w.WF)
    (eq : α → α → Bool) :
    (l.length ≤ 1 → Small.dedup c eq s = .ok () s) ∧
    ∀ a x R, l = a :: x :: R → Sat c (Small.dedup c eq s)
      (fun _ s' => STrans c (a :: accepted (runs (fun _ x y => some (eq x y)) 0 a R))
        (rejected (runs (fun _ x y => some (eq x y)) 0 a R)) s s') (fun _ => False) := by
  refine ⟨fun hl => onAny_look hs h fun b hb => dedupByBuf_small _ hb hl, ?_⟩
  rintro a x R rfl
  rw [sdedup_eq]
  refine (C104_dedup_by_loses_second hs hd h hw _).mono (fun _ _ h => h.1) ?_
  rintro s' ⟨_, hlt⟩
  have : ∀ (R : List α) k p, (runs (fun _ x y => some (eq x y)) k p R).length = R.length := by
    intro R
    induction R with
    | nil => intros; rfl
    | cons y R ih =>
      intro k p
      simp only [runs]
      cases eq y p <;> simp [ih]
  rw [this] at hlt
  exact absurd hlt (Nat.lt_irrefl _)

example : slookDrops (Small.dedup cfg64 (· == ·) (inline [5, 6, 5, 7, 7, 5] 6 none world0))
    = some ([some 5, some 7, some 5], [5, 7]) := by decide +kernel
example : slookDrops (Small.dedup cfg64 (· == ·) (spilled cfg64 [5, 6, 5, 7, 7, 5] 2 6))
    = some ([some 5, some 7, some 5], [5, 7]) := by decide +kernel

/-! ## C105

Ranges may be written in any way, as in C12. -/

theorem sdrainAll_range {s : SSt α} {l : List α} (h : SRep c s.self s.w l) {lo hi : Vec.Bnd} {x y : Nat}
    (hlo : StartsAt lo x) (hhi : EndsAt l.length hi y) (hx : x ≤ c.usizeMax) (hy : y ≤ c.usizeMax) :
    Small.drainAll c lo hi s = Small.drainAll c (.included x) (.excluded y) s := by
  unfold Small.drainAll Small.onAny
  cases hst : s.self.store with
  | stack slots len =>
    have hl := (h.stack slots len hst).1
    rw [onStore_stack hst, onStore_stack hst, M.bind_apply, M.bind_apply,
      drainNew_range (b := s.stackBuf slots len) hlo (by simpa [St.stackBuf, hl] using hhi) hx hy]
  | heap v =>
    have hl := (h.heap v hst).len
    rw [onStore_heap hst, onStore_heap hst]
    have := drainAll_range (c := c) (s := ⟨v, s.w⟩) hlo (by simpa [hl] using hhi) hx hy
    unfold Vec.drainAll at this
    rw [this]

theorem sdrainAll_panic {s : SSt α} {l : List α} (hs : c.size ≠ 0) (h : SRep c s.self s.w l)
    (hw : s.w.WF) {a b : Nat} (ha : a ≤ l.length) (hab : a ≠ b) :
    ∃ s', Small.drainAll c (.included a) (.excluded b) s = .panic s' ∧
      STrans c (l.take a) [] s s' := by
  have key : Sat c (Small.drainAll c (.included a) (.excluded b) s) (fun _ _ => False)
      (fun s' => STrans c (l.take a) [] s s') := by
    refine onAny_sat (Q := fun _ _ _ => False) (E := fun b b' => b' = b.withLen a ∧ BRep b l)
      hs h hw ?_ (fun _ _ _ _ h => h.elim) ?_
    · intro b' hb _
      rw [M.bind_panic (drainNew_panic (Nat.le_trans ha hb.le_cap) hab)]
      exact ⟨rfl, hb⟩
    · rintro b b' s' ⟨rfl, hb⟩ ht
      exact ht _ _ (hb.cut ha)
  cases hr : Small.drainAll c (.included a) (.excluded b) s with
  | ok _ _ => rw [hr] at key; exact key.elim
  | panic s' => rw [hr] at key; exact ⟨s', rfl, key⟩
  | abort =>
    unfold Small.drainAll Small.onAny at hr
    exfalso
    cases hst : s.self.store with
    | stack slots len =>
      have hb := h.brep hst
      rw [onStore_stack hst, M.bind_panic (drainNew_panic (Nat.le_trans ha hb.le_cap) hab)] at hr
      cases hr
    | heap v =>
      have hb := (h.heap v hst).brep (s := ⟨v, s.w⟩) hs
      rw [onStore_heap hst, onBuf_eq,
        M.bind_panic (drainNew_panic (Nat.le_trans ha hb.le_cap) hab)] at hr
      cases hr
  | ub _ => rw [hr] at key; exact key.elim

/-- C105 does not hold: draining any range that is not empty panics, and leaves only the elements
before the range; all others are lost without being dropped. -/
theorem C105_refuted {s : SSt α} {l : List α} (hs : c.size ≠ 0) (h : SRep c s.self s.w l)
    (hw : s.w.WF) {lo hi : Vec.Bnd} {a b : Nat} (hlo : StartsAt lo a) (hhi : EndsAt l.length hi b)
    (hab : a < b) (hb : b ≤ l.length) :
    ∃ s', Small.drainAll c lo hi s = .panic s' ∧
      STrans c (l.take a) [] s s' ∧ (l.take a).length < l.length := by
  have h1 := h.le_cap hs
  have h2 := Fits.le_usize hs (h.fits_cap hs)
  rw [sdrainAll_range h hlo hhi (by omega) (by omega)]
  obtain ⟨s', e1, e2⟩ := sdrainAll_panic hs h hw (by omega : a ≤ l.length) (by omega : a ≠ b)
  exact ⟨s', e1, e2, by simp; omega⟩

/-- C105 does not hold for invalid ranges either: a range with `b < a < len` panics, as it
should, but cuts the vector back. -/
theorem C105_bad_range_refuted {s : SSt α} {l : List α} (hs : c.size ≠ 0)
    (h : SRep c s.self s.w l) (hw : s.w.WF) {lo hi : Vec.Bnd} {a b : Nat} (hlo : StartsAt lo a)
    (hhi : EndsAt l.length hi b) (hab : b < a) (ha : a < l.length) :
    ∃ s', Small.drainAll c lo hi s = .panic s' ∧
      STrans c (l.take a) [] s s' ∧ (l.take a).length < l.length := by
  have h1 := h.le_cap hs
  have h2 := Fits.le_usize hs (h.fits_cap hs)
  rw [sdrainAll_range h hlo hhi (by omega) (by omega)]
  obtain ⟨s', e1, e2⟩ := sdrainAll_panic hs h hw (by omega : a ≤ l.length) (by omega : a ≠ b)
  exact ⟨s', e1, e2, by simp; omega⟩

/-- C105, the part that holds: draining the empty range at the end yields nothing and changes
nothing. Missing: all other ranges, for which it is false; and under the letter of the contract of
`get_unchecked` (strict) this one as well. -/
theorem C105_partial {s : SSt α} {l : List α} (hs : c.size ≠ 0)
    (hst : c.strict = false) (h : SRep c s.self s.w l) (hw : s.w.WF) {lo hi : Vec.Bnd}
    (hlo : StartsAt lo l.length) (hhi : EndsAt l.length hi l.length) :
    ∃ s', Small.drainAll c lo hi s = .ok [] s' ∧ SReserved c l s s' := by
  have h1 := h.le_cap hs
  have h2 := Fits.le_usize hs (h.fits_cap hs)
  rw [sdrainAll_range h hlo hhi (by omega) (by omega)]
  obtain ⟨s', e1, e2, -⟩ := onAny_ok (l' := l) (a := ([] : List α))
    (m := do
      let d ← Vec.drainNew c (.included l.length) (.excluded l.length)
      let out ← Buf.readSlice c d.off d.cnt
      Vec.drainDrop c { d with off := d.off + d.cnt, cnt := 0 }
      pure out) hs h hw (fun b hb _ => by
    have hcap := hb.le_cap
    refine ⟨b.withLen l.length, ?_, ?_, rfl⟩
    · rw [M.bind_ok (drainNew_empty hcap),
        M.bind_ok (show Buf.readSlice c l.length 0 (b.withLen l.length) = .ok [] _ from rfl),
        M.bind_ok (show Vec.drainDrop c ⟨l.length + 0, 0, l.length, l.length, l.length⟩
          (b.withLen l.length) = _ from drainDrop_empty hst hcap)]
      rfl
    · have := hb.cut (Nat.le_refl _)
      rwa [List.take_length] at this)
  exact ⟨s', e1, e2⟩

/-- Results of draining: yielded elements (`none`: panicked), and what is left. -/
def slookDrain (r : Res (SSt Nat) (List Nat)) : Option (Option (List Nat) × List (Option Nat)) :=
  match r with
  | .ok a s => some (some a, (Small.slotsOf s.self s.w).take (Small.lenOf s.self))
  | .panic s => some (none, (Small.slotsOf s.self s.w).take (Small.lenOf s.self))
  | _ => none

example : slookDrain (Small.drainAll cfgLax (.included 1) (.excluded 2)
    (inline [7, 8, 9] 4 none world0)) = some (none, [some 7]) := by decide +kernel
example : slookDrain (Small.drainAll cfgLax (.included 1) (.excluded 2)
    (spilled cfgLax [7, 8, 9] 2 4)) = some (none, [some 7]) := by decide +kernel
example : slookDrain (Small.drainAll cfgLax (.included 3) (.excluded 3)
    (inline [7, 8, 9] 4 none world0)) = some (some [], [some 7, some 8, some 9]) := by decide +kernel

example : slookDrain (Small.drainAll cfgLax (.included 0) (.included 0)
    (inline [7, 8, 9] 4 none world0)) = some (none, []) := by decide +kernel
example : slookDrain (Small.drainAll cfgLax (.excluded 2) .unbounded
    (spilled cfgLax [7, 8, 9] 2 4)) = some (some [], [some 7, some 8, some 9]) := by decide +kernel

end Lokky
