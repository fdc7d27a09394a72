import Verif.Props.SmallStore

/-!
# C99–C101: capacity of a `SmallVec`

`SRep c v w l` says that the small vector `v` holds the list `l`; `SReserved c l s s'` that it holds
`l` afterwards, that nothing was dropped and no other block touched; `s.refuse` is `s` after one
refused request; `Sat c r Q E` that the outcome `r` is free of undefined behaviour and satisfies `Q`
if it returned, `E` if it panicked.
-/

namespace Lokky
variable {α : Type} {c : Cfg α}

/-! ## C99 -/

/-- C99. `with_capacity(k)` for inline size `n`: the capacity is `n` if that is enough, otherwise
exactly `k`; nothing is requested in the first case. -/
theorem C99_with_capacity {w : World α} {n k : Nat} (hs : c.size ≠ 0) (hw : w.WF)
    (hn : c.Fits n) (hk : c.Fits k) :
    Sat c (Small.withCapacity c n k w)
      (fun v w' => SRep c v w' [] ∧ Small.capacity c v = max n k ∧
        Small.isHeap v = decide (n < k) ∧ (k ≤ n → w' = w))
      (fun w' => w' = w.refuse ∧ n < k ∧ c.grant w.tick (k * c.size) = false) := by
  refine (swithCapacity_spec (m := none) hs hw hn hk).mono ?_ (fun _ h => h)
  rintro v w' ⟨h1, -, -, -, -, -, h2, h3⟩
  by_cases hlt : n < k
  · obtain ⟨h, e1, e2, -⟩ := h3 hlt
    refine ⟨h1.rep, ?_, by simp [Small.isHeap, e1, hlt], fun h => by omega⟩
    simp only [Small.capacity, e1, capacity_eq hs, e2]; omega
  · obtain ⟨rfl, rfl⟩ := h2 (by omega)
    refine ⟨h1.rep, ?_, by simp [Small.isHeap, Small.withMarker, hlt], fun _ => rfl⟩
    simp only [Small.capacity, Small.withMarker]; omega

/-- C99. `try_with_capacity_and_marker(k)`: the same, but a refusal is an error. -/
theorem C99_try_with_capacity {w : World α} {n k : Nat} {m : Marker} (hs : c.size ≠ 0) (hw : w.WF)
    (hn : c.Fits n) (hk : c.Fits k) :
    Sat c (Small.tryWithCapacityAndMarker c n k m w)
      (fun r w' => (∃ v, r = .ok v ∧ SRep c v w' [] ∧ v.marker = m ∧ Small.capacity c v = max n k) ∨
        (r = .error .allocError ∧ w' = w.refuse ∧ n < k ∧ c.grant w.tick (k * c.size) = false))
      (fun _ => False) := by
  have key := swithCapacity_spec (m := m) hs hw hn hk
  unfold Small.withCapacityAndMarker at key
  have hmax : ∀ v w', Small.tryWithCapacityAndMarker c n k m w = .ok (.ok v) w' →
      Small.capacity c v = max n k := by
    intro v w' hr
    have e : Small.withCapacityAndMarker c n k m w = .ok v w' := by
      unfold Small.withCapacityAndMarker
      rw [M.bind_ok hr]; rfl
    have key := swithCapacity_spec (m := m) hs hw hn hk
    rw [e] at key
    obtain ⟨-, -, -, -, -, -, h2, h3⟩ := key
    by_cases hlt : n < k
    · obtain ⟨h, e1, e2, -⟩ := h3 hlt
      simp only [Small.capacity, e1, capacity_eq hs, e2]; omega
    · obtain ⟨rfl, -⟩ := h2 (by omega)
      simp only [Small.capacity, Small.withMarker]; omega
  cases hr : Small.tryWithCapacityAndMarker c n k m w with
  | ok r w' =>
    rw [M.bind_ok hr] at key
    cases r with
    | ok v =>
      exact Or.inl ⟨v, rfl, key.1.rep, key.2.2.1, hmax v w' hr⟩
    | error e =>
      cases e with
      | allocError => exact Or.inr ⟨rfl, key⟩
      | _ => 
        exfalso
        unfold Small.tryWithCapacityAndMarker at hr
        split at hr
        · have k2 := tryWithCapacity_spec hs hw (by omega) hk m
          rw [M.bind_apply] at hr
          cases h2 : Vec.tryWithCapacityAndMarker c k m w with
          | ok r w'' =>
            rw [h2] at hr k2
            rcases k2 with ⟨v, rfl, -⟩ | ⟨rfl, -⟩ <;> simp [M.pure_apply] at hr
          | panic _ => rw [h2] at k2; exact k2
          | abort => rw [h2] at hr; cases hr
          | ub _ => rw [h2] at hr; cases hr
        · simp [M.pure_apply] at hr
  | panic w' =>
    exfalso
    unfold Small.tryWithCapacityAndMarker at hr
    split at hr
    · have k2 := tryWithCapacity_spec hs hw (by omega) hk m
      rw [M.bind_apply] at hr
      cases h2 : Vec.tryWithCapacityAndMarker c k m w with
      | ok r w'' =>
        rw [h2] at hr k2
        rcases k2 with ⟨v, rfl, -⟩ | ⟨rfl, -⟩ <;> simp [M.pure_apply] at hr
      | panic _ => rw [h2] at k2; exact k2
      | abort => rw [h2] at hr; cases hr
      | ub _ => rw [h2] at hr; cases hr
    · simp [M.pure_apply] at hr
  | abort =>
    rw [M.bind_apply, hr] at key; exact key
  | ub u =>
    rw [M.bind_apply, hr] at key; exact key.elim

/-- The capacity after a heap buffer of `n` elements was provided. -/
theorem grown_capacity (hs : c.size ≠ 0) {s' : SSt α} {n : Nat}
    (h : ∃ v, s'.self.store = .heap v ∧ v.cap = n) : Small.capacity c s'.self = n := by
  obtain ⟨v, h1, h2⟩ := h
  simp only [Small.capacity, h1, capacity_eq hs, h2]

/-- C99. `try_reserve_exact(k)`: with room it does nothing; without room an inline vector gets
capacity `len + k` but at least the minimal one, a heap vector exactly `len + k`; a refusal is an
error and changes nothing. -/
theorem C99_try_reserve_exact {s : SSt α} {l : List α} {k : Nat} (hs : c.size ≠ 0)
    (h : SRep c s.self s.w l) (hw : s.w.WF) (hf : c.Fits (l.length + k + Vec.minNonZeroCap c)) :
    Sat c (Small.tryReserveExact c k s)
      (fun r s' =>
        (r = .ok () ∧ l.length + k ≤ Small.capacity c s.self ∧ s' = s) ∨
        (r = .ok () ∧ Small.capacity c s.self < l.length + k ∧ SReserved c l s s' ∧
          Small.isHeap s'.self = true ∧
          Small.capacity c s'.self = (if Small.isHeap s.self then l.length + k
            else max (l.length + k) (if c.size = 1 then 8 else if c.size ≤ 1024 then 4 else 1)) ∧
          s'.w.tick = s.w.tick + 1) ∨
        (r = .error .allocError ∧ Small.capacity c s.self < l.length + k ∧ s' = s.refuse))
      (fun _ => False) := by
  refine (sreserveExact_spec hs h hw hf).mono ?_ (fun _ h => h)
  rintro r s' (⟨h0, (⟨rfl, h1, h2, -, h3⟩ | ⟨rfl, -, h1⟩)⟩ | ⟨h0, rfl, h1⟩)
  · refine Or.inr (Or.inl ⟨rfl, h0, h1, ?_, ?_, h3⟩)
    · obtain ⟨v, hv, -⟩ := h2
      simp [Small.isHeap, hv]
    · rw [grown_capacity hs h2]
      change _ = if _ then _ else max _ (Vec.minNonZeroCap c)
      cases hst : s.self.store <;> simp [newCap, Small.isHeap, hst]
  · exact Or.inr (Or.inr ⟨rfl, h0, h1⟩)
  · exact Or.inl ⟨rfl, h0, h1⟩

/-- C99. `reserve_exact(k)`. -/
theorem C99_reserve_exact {s : SSt α} {l : List α} {k : Nat} (hs : c.size ≠ 0)
    (h : SRep c s.self s.w l) (hw : s.w.WF) (hf : c.Fits (l.length + k + Vec.minNonZeroCap c)) :
    Sat c (Small.reserveExact c k s)
      (fun _ s' => SReserved c l s s' ∧ l.length + k ≤ Small.capacity c s'.self ∧
        (l.length + k ≤ Small.capacity c s.self → s' = s) ∧
        (Small.capacity c s.self < l.length + k → Small.isHeap s.self = true →
          Small.capacity c s'.self = l.length + k))
      (fun s' => s' = s.refuse ∧ Small.capacity c s.self < l.length + k) := by
  unfold Small.reserveExact
  refine Sat.bind' (C99_try_reserve_exact hs h hw hf) (fun _ h => h.elim) ?_
  rintro r s' (⟨rfl, h1, rfl⟩ | ⟨rfl, h1, h2, -, h3, -⟩ | ⟨rfl, h1, rfl⟩)
  · exact ⟨.refl h hw, h1, fun _ => rfl, fun _ => by omega⟩
  · refine ⟨h2, ?_, fun _ => by omega, fun _ e => by rw [h3, if_pos e]⟩
    rw [h3]; split <;> omega
  · exact ⟨rfl, h1⟩

/-- C99. `try_reserve(k)`: afterwards there is room for `k` more; a refusal is an error and changes
nothing. -/
theorem C99_try_reserve {s : SSt α} {l : List α} {k : Nat} (hs : c.size ≠ 0)
    (h : SRep c s.self s.w l) (hw : s.w.WF) (hf : c.Fits (l.length + k + Vec.minNonZeroCap c)) :
    Sat c (Small.tryReserve c k s)
      (fun r s' =>
        (r = .ok () ∧ SReserved c l s s' ∧ l.length + k ≤ Small.capacity c s'.self ∧
          Small.capacity c s.self ≤ Small.capacity c s'.self) ∨
        (r = .error .allocError ∧ s' = s.refuse))
      (fun _ => False) := by
  have hx := le_extra (c := c) s.self k
  have hn := le_newCap (c := c) s.self (l.length + extra c s.self k)
  refine (stryReserve_spec hs h hw hf).mono ?_ (fun _ h => h)
  rintro r s' (⟨h0, (⟨rfl, h1, h2, -, h3⟩ | ⟨rfl, -, h1⟩)⟩ | ⟨h0, rfl, rfl⟩)
  · refine Or.inl ⟨rfl, h1, ?_⟩
    rw [grown_capacity hs h2]; omega
  · exact Or.inr ⟨rfl, h1⟩
  · exact Or.inl ⟨rfl, .refl h hw, by omega, Nat.le_refl _⟩

/-- C99. `reserve(k)`. -/
theorem C99_reserve {s : SSt α} {l : List α} {k : Nat} (hs : c.size ≠ 0)
    (h : SRep c s.self s.w l) (hw : s.w.WF) (hf : c.Fits (l.length + k + Vec.minNonZeroCap c)) :
    Sat c (Small.reserve c k s)
      (fun _ s' => SReserved c l s s' ∧ l.length + k ≤ Small.capacity c s'.self ∧
          Small.capacity c s.self ≤ Small.capacity c s'.self)
      (fun s' => s' = s.refuse) := by
  unfold Small.reserve
  refine Sat.bind' (C99_try_reserve hs h hw hf) (fun _ h => h.elim) ?_
  rintro r s' (⟨rfl, h1⟩ | ⟨rfl, rfl⟩)
  · exact h1
  · exact rfl

/-- C99. `try_move_to_heap_and_reserve_exact(k)` of an inline vector: it is on the heap afterwards
with capacity `len + k`, but at least the minimal one; a refusal is an error and changes nothing. -/
theorem C99_move_to_heap {s : SSt α} {l : List α} {k : Nat} (hs : c.size ≠ 0)
    (h : SRep c s.self s.w l) (hw : s.w.WF) (hst : Small.isHeap s.self = false)
    (hf : c.Fits (max (l.length + k) (Vec.minNonZeroCap c))) :
    Sat c (Small.tryMoveToHeap c k s)
      (fun r s' =>
        (r = .ok () ∧ SReserved c l s s' ∧ Small.isHeap s'.self = true ∧
          Small.capacity c s'.self =
            max (l.length + k) (if c.size = 1 then 8 else if c.size ≤ 1024 then 4 else 1)) ∨
        (r = .error .allocError ∧ s' = s.refuse))
      (fun _ => False) := by
  cases hsto : s.self.store with
  | heap _ => simp [Small.isHeap, hsto] at hst
  | stack slots len =>
    refine (tryMoveToHeap_stack hs h hw hsto hf).mono ?_ (fun _ h => h)
    rintro r s' (⟨rfl, h1, h2, -⟩ | ⟨rfl, -, h1⟩)
    · refine Or.inl ⟨rfl, h1, ?_, grown_capacity hs h2⟩
      obtain ⟨v, hv, -⟩ := h2
      simp [Small.isHeap, hv]
    · exact Or.inr ⟨rfl, h1⟩

/-- C99. `try_move_to_heap_and_reserve_exact(k)` of a vector on the heap: capacity `len + k` if there
was less. -/
theorem C99_on_heap {s : SSt α} {l : List α} {k : Nat} (hs : c.size ≠ 0)
    (h : SRep c s.self s.w l) (hw : s.w.WF) (hst : Small.isHeap s.self = true)
    (hf : c.Fits (l.length + k)) :
    Sat c (Small.tryMoveToHeap c k s)
      (fun r s' => r = .ok () ∧ SReserved c l s s' ∧
        Small.capacity c s'.self = max (Small.capacity c s.self) (l.length + k))
      (fun s' => s' = s.refuse) := by
  cases hsto : s.self.store with
  | stack _ _ => simp [Small.isHeap, hsto] at hst
  | heap v =>
    unfold Small.tryMoveToHeap
    rw [M.bind_ok (M.get_apply s)]
    simp only [hsto]
    refine Sat.bind' (Q := fun _ s' => SReserved c l s s' ∧
        Small.capacity c s'.self = max (Small.capacity c s.self) (l.length + k))
      (E := fun s' => s' = s.refuse) ?_ (fun _ h => h) (fun _ _ h => ⟨rfl, h⟩)
    refine heap_sat hsto (reserveExact_spec (s := ⟨v, s.w⟩) hs (h.heap v hsto) hw hf) ?_ ?_
    · rintro _ t ⟨h1, h2, -⟩
      refine ⟨putHeap_reserved h hsto h1, ?_⟩
      simp only [Small.capacity, hsto, capacity_eq hs, St.putHeap]
      exact h2
    · rintro t ⟨rfl, -⟩
      exact putHeap_refuse hsto

/-- C99. `shrink_to(m)`: an inline vector stays as it is; on the heap the capacity becomes
`min(old, max(len, m))` (of a vector that does not become empty; for the other case see C22). -/
theorem C99_shrink_to {s : SSt α} {l : List α} {m : Nat} (hs : c.size ≠ 0)
    (h : SRep c s.self s.w l) (hw : s.w.WF)
    (hz : Small.isHeap s.self = true → 0 < max l.length m ∨ Small.capacity c s.self = 0) :
    Sat c (Small.shrinkTo c m s)
      (fun _ s' => SReserved c l s s' ∧
        (Small.isHeap s.self = false → s' = s) ∧
        (Small.isHeap s.self = true →
          Small.capacity c s'.self = min (Small.capacity c s.self) (max l.length m)))
      (fun s' => s' = s.refuse ∧ Small.isHeap s.self = true) := by
  unfold Small.shrinkTo
  cases hst : s.self.store with
  | stack slots len =>
    rw [onStore_look_stack hst (M.pure_apply () _)]
    exact ⟨.refl h hw, fun _ => rfl, fun e => by simp [Small.isHeap, hst] at e⟩
  | heap v =>
    refine heap_sat hst (shrinkTo_spec hs (h.heap v hst) hw ?_) ?_ ?_
    · simpa [Small.capacity, hst, capacity_eq hs] using hz (by simp [Small.isHeap, hst])
    · rintro _ t ⟨h1, h2⟩
      refine ⟨putHeap_reserved h hst h1, fun e => by simp [Small.isHeap, hst] at e, fun _ => ?_⟩
      simpa only [Small.capacity, hst, capacity_eq hs, St.putHeap] using h2
    · rintro t ⟨rfl, _⟩
      exact ⟨putHeap_refuse hst, by simp [Small.isHeap, hst]⟩

/-- C99. `shrink_to_fit`. -/
theorem C99_shrink_to_fit {s : SSt α} {l : List α} (hs : c.size ≠ 0)
    (h : SRep c s.self s.w l) (hw : s.w.WF)
    (hz : Small.isHeap s.self = true → l ≠ [] ∨ Small.capacity c s.self = 0) :
    Sat c (Small.shrinkToFit c s)
      (fun _ s' => SReserved c l s s' ∧
        (Small.isHeap s.self = false → s' = s) ∧
        (Small.isHeap s.self = true → Small.capacity c s'.self = l.length))
      (fun s' => s' = s.refuse ∧ Small.isHeap s.self = true) := by
  unfold Small.shrinkToFit
  cases hst : s.self.store with
  | stack slots len =>
    rw [onStore_look_stack hst (M.pure_apply () _)]
    exact ⟨.refl h hw, fun _ => rfl, fun e => by simp [Small.isHeap, hst] at e⟩
  | heap v =>
    refine heap_sat hst (shrinkToFit_spec hs (h.heap v hst) hw ?_) ?_ ?_
    · simpa [Small.capacity, hst, capacity_eq hs] using hz (by simp [Small.isHeap, hst])
    · rintro _ t ⟨h1, h2⟩
      refine ⟨putHeap_reserved h hst h1, fun e => by simp [Small.isHeap, hst] at e, fun _ => ?_⟩
      simpa only [Small.capacity, hst, capacity_eq hs, St.putHeap] using h2
    · rintro t ⟨rfl, _⟩
      exact ⟨putHeap_refuse hst, by simp [Small.isHeap, hst]⟩

/-- What a user can look at: contents, capacity, whether on the heap, requests made so far. -/
def slook {β : Type} (r : Res (SSt Nat) β) : Option (List (Option Nat) × Nat × Bool × Nat) :=
  match r with
  | .ok _ s => some ((Small.slotsOf s.self s.w).take (Small.lenOf s.self),
      Small.capacity cfg64 s.self, Small.isHeap s.self, s.w.tick)
  | _ => none

/-- Inline size 2 with two elements. -/
example : SRep cfg64 (inline [7, 8] 2 none world0).self (inline [7, 8] 2 none world0).w [7, 8] :=
  inline_rep (by decide) (by decide)
example : slook (Small.reserveExact cfg64 1 (inline [7, 8] 2 none world0)) =
    some ([some 7, some 8], 4, true, 1) := by decide +kernel
example : slook (Small.reserveExact cfg64 0 (inline [7, 8] 2 none world0)) =
    some ([some 7, some 8], 2, false, 0) := by decide +kernel
example : slook (Small.reserveExact cfg64 3 (spilled cfg64 [7, 8, 9] 2 4)) =
    some ([some 7, some 8, some 9], 6, true, 2) := by decide +kernel
example : slook (Small.tryMoveToHeap cfg64 9 (inline [7, 8] 2 none world0)) =
    some ([some 7, some 8], 11, true, 1) := by decide +kernel
example : slook (Small.tryMoveToHeap cfg64 9 (spilled cfg64 [7, 8, 9] 2 4)) =
    some ([some 7, some 8, some 9], 12, true, 2) := by decide +kernel
example : slook (Small.shrinkTo cfg64 4 (spilled cfg64 [7, 8, 9] 2 10)) =
    some ([some 7, some 8, some 9], 4, true, 2) := by decide +kernel
example : slook (Small.shrinkToFit cfg64 (spilled cfg64 [7, 8, 9] 2 10)) =
    some ([some 7, some 8, some 9], 3, true, 2) := by decide +kernel

/-! ## C100 -/

/-- `reserve(k)` does nothing if `len + extra` elements fit. -/
theorem sreserve_noop {s : SSt α} {l : List α} {k : Nat} (hs : c.size ≠ 0)
    (h : SRep c s.self s.w l) (hroom : l.length + extra c s.self k ≤ Small.capacity c s.self) :
    Small.reserve c k s = .ok () s := by
  have hx := le_extra (c := c) s.self k
  have hu : Small.capacity c s.self + k ≤ c.usizeMax := by
    have h1 := Fits.le_isize hs (h.fits_cap hs)
    unfold Cfg.usizeMax; omega
  have e : Small.tryReserve c k s = .ok (.ok ()) s := by
    unfold Small.tryReserve
    rw [M.bind_ok (M.get_apply s), M.bind_ok (soverflow_eq hu)]
    exact stryReserveExact_noop hs h (k := extra c s.self k) hroom
  unfold Small.reserve
  rw [M.bind_ok e]
  rfl

/-- C100 does not hold for `reserve`: a vector of inline size 1 with 8-byte elements is empty, there is
room for one element, and `reserve(1)` moves it to the heap. On the heap, too: with one element and
room for one more, `reserve(1)` asks for a larger buffer. -/
theorem C100_reserve_refuted :
    slook (Small.reserve cfg64 1 (inline [] 1 none world0)) = some ([], 4, true, 1) ∧
    slook (Small.reserve cfg64 1 (spilled cfg64 [7] 0 2)) = some ([some 7], 3, true, 2) := by
  decide +kernel

/-- `SmallVec::with_capacity(k)` followed by pushes: capacity and requests so far, after making the
vector and after pushing. -/
def withCapacityThenPush (n k : Nat) (xs : List Nat) : Option ((Nat × Nat) × (Nat × Nat)) :=
  match Small.withCapacity cfg64 n k world0 with
  | .ok v w =>
    match Small.pushItems cfg64 false xs ⟨v, w⟩ with
    | .ok _ s => some ((Small.capacity cfg64 v, w.tick), (Small.capacity cfg64 s.self, s.w.tick))
    | _ => none
  | _ => none

/-- C100 does not hold for `push`: two pushes after `with_capacity(2)` ask the allocator again. -/
theorem C100_push_refuted : withCapacityThenPush 0 2 [7, 8] = some ((2, 1), (3, 2)) := by
  decide +kernel

/-- C100, the part that holds: if the capacity is at least the minimal capacity of heap vectors minus
one (7 for bytes, 3 for elements up to 1024 bytes, 0 for larger ones), a vector with room for `k`
elements is left alone by `reserve(k)` and `reserve_exact(k)`, and a push into a vector with room
asks the allocator for nothing and keeps capacity and storage. Missing: smaller capacities, where
it is false for `reserve` and `push`. -/
theorem C100_partial {s : SSt α} {l : List α} {k : Nat} (hs : c.size ≠ 0)
    (h : SRep c s.self s.w l) (hw : s.w.WF) (hroom : l.length + k ≤ Small.capacity c s.self) :
    Small.reserveExact c k s = .ok () s ∧
    (Vec.minNonZeroCap c ≤ Small.capacity c s.self + k → Small.reserve c k s = .ok () s) ∧
    (0 < k → Vec.minNonZeroCap c ≤ Small.capacity c s.self + 1 → ∀ a,
      ∃ s', Small.push c a s = .ok () s' ∧ SReserved c (l ++ [a]) s s' ∧ s'.w.tick = s.w.tick ∧
        Small.capacity c s'.self = Small.capacity c s.self) := by
  refine ⟨?_, fun hm => sreserve_noop hs h (by unfold extra; omega), fun hk hm a => ?_⟩
  · unfold Small.reserveExact
    rw [M.bind_ok (stryReserveExact_noop hs h hroom)]
    rfl
  · obtain ⟨s', e1, e2, e3, e4⟩ := spush_room hs h hw (by omega) a
    refine ⟨s', ?_, e2, e4, e3⟩
    unfold Small.push
    rw [M.bind_ok (M.onUnwind_ok (sreserve_noop (k := 1) hs h (by unfold extra; omega)))]
    exact e1

example : slook (Small.reserve cfg64 2 (inline [7, 8] 4 none world0)) =
    some ([some 7, some 8], 4, false, 0) := by decide +kernel
example : slook (Small.push cfg64 9 (spilled cfg64 [7, 8] 0 3)) =
    some ([some 7, some 8, some 9], 3, true, 1) := by decide +kernel

/-! ## C101 -/

/-- Pushing `xs` onto a vector of at least the minimal capacity: one request for each element that
does not fit. -/
theorem spushItems_ticks {s : SSt α} {l : List α} (hs : c.size ≠ 0) (hg : ∀ t b, c.grant t b = true)
    (hd : ∀ a, c.dropPanics a = false) (h : SRep c s.self s.w l) (hw : s.w.WF)
    (hm : Vec.minNonZeroCap c ≤ Small.capacity c s.self + 1) (xs : List α)
    (hf : c.Fits (l.length + xs.length + Vec.minNonZeroCap c)) :
    ∃ s', Small.pushItems c false xs s = .ok () s' ∧ SReserved c (l ++ xs) s s' ∧
      s'.w.tick = s.w.tick + (l.length + xs.length - Small.capacity c s.self) := by
  induction xs generalizing s l with
  | nil =>
    have := h.le_cap hs
    exact ⟨s, rfl, by simpa using SReserved.refl h hw, by simp; omega⟩
  | cons a xs ih =>
    have hle := h.le_cap hs
    have hf1 : c.Fits (l.length + 1 + Vec.minNonZeroCap c) :=
      Fits.mono hf (by simp only [List.length_cons]; omega)
    have step : ∃ s1, Small.push c a s = .ok () s1 ∧ SReserved c (l ++ [a]) s s1 ∧
        Small.capacity c s1.self = max (Small.capacity c s.self) (l.length + 1) ∧
        s1.w.tick = s.w.tick + (l.length + 1 - Small.capacity c s.self) := by
      by_cases hroom : l.length + 1 ≤ Small.capacity c s.self
      · obtain ⟨s1, e1, e2, e3, e4⟩ := (C100_partial hs h hw hroom).2.2 (by omega) hm a
        exact ⟨s1, e1, e2, by rw [e4]; omega, by rw [e3]; omega⟩
      · have hx : extra c s.self 1 = 1 := by unfold extra; omega
        have hlt : Small.capacity c s.self < l.length + extra c s.self 1 := by omega
        have k1 := stryReserve_spec (k := 1) hs h hw hf1
        obtain ⟨s0, e1, e2, e3, e4⟩ : ∃ s0, Small.tryReserve c 1 s = .ok (.ok ()) s0 ∧
            SReserved c l s s0 ∧ Small.capacity c s0.self = l.length + 1 ∧
            s0.w.tick = s.w.tick + 1 := by
          cases hr : Small.tryReserve c 1 s with
          | ok r s0 =>
            rw [hr] at k1
            rcases k1 with ⟨-, (⟨rfl, k2, k3, -, k4⟩ | ⟨-, k2, -⟩)⟩ | ⟨k2, -⟩
            · refine ⟨s0, rfl, k2, ?_, k4⟩
              rw [grown_capacity hs k3, hx]
              unfold newCap; split <;> omega
            · rw [hg] at k2; cases k2
            · omega
          | panic _ => rw [hr] at k1; exact k1.elim
          | abort => rw [hr] at k1; obtain ⟨x, hx⟩ := k1; rw [hd] at hx; cases hx
          | ub _ => rw [hr] at k1; exact k1.elim
        obtain ⟨s1, f1, f2, f3, f4⟩ := spush_room hs e2.trans.rep e2.trans.wf (by omega) a
        refine ⟨s1, ?_, e2.trans' hw f2, by rw [f3, e3]; omega, by rw [f4, e4]; omega⟩
        have er : Small.reserve c 1 s = .ok () s0 := by
          unfold Small.reserve
          rw [M.bind_ok e1]; rfl
        unfold Small.push
        rw [M.bind_ok (M.onUnwind_ok er)]
        exact f1
    obtain ⟨s1, e1, e2, e3, e4⟩ := step
    obtain ⟨s', f1, f2, f3⟩ := ih e2.trans.rep e2.trans.wf (by omega)
      (by simpa [Nat.add_assoc, Nat.add_comm, Nat.add_left_comm] using hf)
    refine ⟨s', ?_, by simpa using e2.trans' hw f2, ?_⟩
    · rw [Small.pushItems, M.bind_ok (M.onUnwind_ok e1)]
      exact f1
    · rw [f3, e4, e3]
      simp only [List.length_append, List.length_cons, List.length_nil]
      omega

/-- C101 does not hold: a `SmallVec` built by pushing asks the allocator once for each element
beyond its inline size (of at least the minimal capacity of heap vectors). -/
theorem C101_one_request_per_push {w : World α} {n : Nat} (hs : c.size ≠ 0)
    (hg : ∀ t b, c.grant t b = true) (hd : ∀ a, c.dropPanics a = false) (hw : w.WF)
    (hn : c.Fits n) (hm : Vec.minNonZeroCap c ≤ n) (xs : List α)
    (hf : c.Fits (xs.length + Vec.minNonZeroCap c)) :
    ∃ s', Small.pushItems c false xs ⟨Small.withMarker n none, w⟩ = .ok () s' ∧
      SRep c s'.self s'.w xs ∧ s'.w.tick = w.tick + (xs.length - n) := by
  have h0 : SRep c (Small.withMarker n none : SmallH α) w [] := by
    have := inline_rep (c := c) (l := ([] : List α)) (n := n) (m := none) (w := w) (by simp) hn
    simpa [inline, Small.withMarker] using this
  obtain ⟨s', e1, e2, e3⟩ := spushItems_ticks (s := ⟨Small.withMarker n none, w⟩) hs hg hd h0 hw
    (by simp [Small.capacity, Small.withMarker]; omega) xs (by simpa using hf)
  exact ⟨s', e1, by simpa using e2.trans.rep, by simpa [Small.capacity, Small.withMarker] using e3⟩

/-- C101 does not hold: no constant times the logarithm bounds the number of requests. -/
theorem C101_refuted :
    ¬ ∃ K, ∀ (c : Cfg Nat) (xs : List Nat) (s' : SSt Nat), c.size ≠ 0 → c.Fits (xs.length + 8) →
      Small.pushItems c false xs ⟨Small.withMarker 8 none, world0⟩ = .ok () s' →
      s'.w.tick ≤ K * (Nat.log2 xs.length + 1) := by
  rintro ⟨K, h⟩
  let n := 2 ^ (4 * K + 4)
  let cn : Cfg Nat := { cfg64 with size := 1, align := 1, isizeMax := n + 8 }
  have hmin : Vec.minNonZeroCap cn = 8 := by simp [Vec.minNonZeroCap, cn]
  have hf : cn.Fits ((List.replicate n 0).length + 8) := by
    simp [Cfg.Fits, Cfg.maxBytes, cn]
  have hn8 : cn.Fits 8 := Fits.mono hf (by omega)
  obtain ⟨s', h1, _, h3⟩ := C101_one_request_per_push (c := cn) (w := world0) (n := 8)
    (by simp [cn]) (fun _ _ => rfl) (fun _ => rfl) world0_wf hn8 (by omega)
    (List.replicate n 0) (by rw [hmin]; exact hf)
  have := h cn _ s' (by simp [cn]) hf h1
  rw [h3] at this
  simp only [List.length_replicate, world0, n, Nat.log2_two_pow] at this
  have hp : 2 ^ (4 * K + 4) = 16 * (2 ^ (2 * K) * 2 ^ (2 * K)) := by
    rw [← Nat.pow_add, Nat.pow_add 2 (4 * K) 4, show 2 * K + 2 * K = 4 * K by omega]; omega
  have hq : 2 * K < 2 ^ (2 * K) := Nat.lt_two_pow_self
  have hm : (2 * K + 1) * (2 * K + 1) ≤ 2 ^ (2 * K) * 2 ^ (2 * K) := Nat.mul_le_mul hq hq
  have hx : (2 * K + 1) * (2 * K + 1) = 4 * (K * K) + 4 * K + 1 := by
    simp only [Nat.add_mul, Nat.mul_add]
    have : 2 * K * (2 * K) = 4 * (K * K) := by
      rw [Nat.mul_mul_mul_comm]
    omega
  have hy : K * (4 * K + 4 + 1) = 4 * (K * K) + 5 * K := by
    rw [show 4 * K + 4 + 1 = 4 * K + 5 by omega, Nat.mul_add, Nat.mul_left_comm]; omega
  omega

/-- C101, the part that holds: after `with_capacity(k)` with `k` at least the minimal capacity of heap
vectors minus one, up to `k` pushes ask the allocator for nothing more. Missing: the bound for
building by `push` alone, which is false. -/
theorem C101_partial {s : SSt α} {w : World α} {n k : Nat} (hs : c.size ≠ 0)
    (hg : ∀ t b, c.grant t b = true) (hd : ∀ a, c.dropPanics a = false) (hw : w.WF)
    (hn : c.Fits n) (hk : c.Fits (k + Vec.minNonZeroCap c)) (hm : Vec.minNonZeroCap c ≤ k + 1)
    (xs : List α) (hxs : xs.length ≤ k)
    (hr : Small.withCapacity c n k w = .ok s.self s.w) :
    ∃ s', Small.pushItems c false xs s = .ok () s' ∧ SRep c s'.self s'.w xs ∧
      s'.w.tick = s.w.tick := by
  have k1 := swithCapacity_spec (m := none) hs hw hn (Fits.mono hk (by omega : k ≤ _))
  unfold Small.withCapacity at hr
  rw [hr] at k1
  obtain ⟨h1, -, -, h2, -⟩ := k1
  obtain ⟨s', e1, e2, e3⟩ := spushItems_ticks (s := s) hs hg hd h1.rep h1.wf (by omega) xs
    (Fits.mono hk (by simp; omega))
  refine ⟨s', e1, by simpa using e2.trans.rep, ?_⟩
  rw [e3]; simp; omega

/-- Twenty pushes onto an inline vector of inline size 4: sixteen requests. -/
example : (slook (Small.pushItems cfg64 false (List.range 20) (inline [] 4 none world0))).map
    (fun r => r.2) = some (20, true, 16) := by decide +kernel
example : (slook (Small.pushItems cfg64 false (List.range 20) (spilled cfg64 [] 4 20))).map
    (fun r => r.2) = some (20, true, 1) := by decide +kernel

end Lokky
