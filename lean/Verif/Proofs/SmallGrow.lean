import Verif.Proofs.SmallRep

/-!
# Capacity of a `SmallVec`: spilling and growing
-/

namespace Lokky
variable {α : Type} {c : Cfg α}

theorem minCap_pos : 0 < Vec.minNonZeroCap c := by
  unfold Vec.minNonZeroCap; split
  · decide
  · split <;> decide

/-- Copying the whole contents into an empty buffer with room. -/
theorem fill_buf {b : Buf α} {l : List α} (hs : c.size ≠ 0) (h : BRep b []) {src : List (Option α)}
    (hsrc : ∃ rest, src = l.map some ++ rest) (hc : l.length ≤ b.cap) :
    ∃ b', (do
      Buf.copyFrom c src 0 l.length
      Buf.setLen c l.length : M (Buf α) Unit) b = .ok () b' ∧ BTrans l [] b b' ∧
        b'.log = b.log := by
  have := copyFrom_buf (l2 := l) hs h hsrc (by simpa using hc)
  rw [M.bind_ok (Buf.getLen_apply b), h.len] at this
  simpa using this

/-- Outcome of a reservation that has to provide a heap buffer of `n` elements. -/
def SGrow (c : Cfg α) (l : List α) (s : SSt α) (n : Nat) (r : Except AllocErr Unit)
    (s' : SSt α) : Prop :=
  (r = .ok () ∧ SReserved c l s s' ∧ (∃ v, s'.self.store = .heap v ∧ v.cap = n) ∧
    c.grant s.w.tick (n * c.size) = true ∧ s'.w.tick = s.w.tick + 1) ∨
  (r = .error .allocError ∧ c.grant s.w.tick (n * c.size) = false ∧ s' = s.refuse)

theorem tryMoveToHeap_stack {s : SSt α} {l : List α} (hs : c.size ≠ 0) (h : SRep c s.self s.w l)
    (hw : s.w.WF) {slots : List (Option α)} {len : Nat} (hst : s.self.store = .stack slots len)
    {k : Nat} (hf : c.Fits (max (l.length + k) (Vec.minNonZeroCap c))) :
    Sat c (Small.tryMoveToHeap c k s) (SGrow c l s (max (l.length + k) (Vec.minNonZeroCap c)))
      (fun _ => False) := by
  obtain ⟨hlen, hsl, hrest⟩ := h.stack _ _ hst
  have hmin := minCap_pos (c := c)
  have hu : len + k ≤ c.usizeMax := by
    have := Fits.le_usize hs hf
    omega
  unfold Small.tryMoveToHeap
  rw [M.bind_ok (M.get_apply s)]
  simp only [hst]
  rw [M.bind_ok (uadd_eq hu), hlen]
  refine Sat.bind' (liftW_sat (tryWithCapacity_spec hs hw (by omega) hf s.self.marker)) ?_ ?_
  · rintro s' ⟨w, hF, _⟩; exact hF
  · rintro r s' ⟨w, hr, rfl⟩
    rcases hr with ⟨v, rfl, hg, h1, h2, h3, h4, h5, h6, h7, h8, h9, h10, h11, h12, h13⟩ |
      ⟨rfl, hg, rfl⟩
    · simp only
      obtain ⟨t, e1, e2, e3, e4⟩ := onBuf_ok (s := ⟨v, w⟩) (l' := l) hs h1 h2
        (fun b hb hcap => fill_buf hs hb hrest (by simp only at hcap; omega))
      rw [M.bind_ok (liftW_ok (s := ⟨s.self, w⟩) (withLocal_ok e1))]
      refine Or.inl ⟨rfl, ⟨⟨?_, e2.trans.wf, ?_, ?_, ?_⟩, ?_, ?_⟩, ?_, hg, ?_⟩
      · exact ⟨h.fits, fun _ _ e => by simp at e, fun v' e => by
          simp only [Store.heap.injEq] at e; subst e; exact e2.trans.rep⟩
      · have g1 : GOwn (none : Option Nat) v.ptr s.w w := by
          refine ⟨?_, by simp, ?_, by omega⟩
          · intro q _ hq
            have : q ≠ s.w.next := fun e => hq (by simp [e, h6])
            simp [h8, this]
          · intro q hq _
            simp only [h6, Option.some.injEq] at hq
            omega
        have g2 := e2.trans.own.gown
        have := g1.trans hw g2
        have ep : s.self.ptr = none := by simp [SmallH.ptr, hst]
        rw [ep]
        exact this
      · refine ⟨rfl, rfl, e2.trans.place.scope.trans h13, ?_, ?_⟩
        · intro v' e; rw [hst] at e; cases e
        · intro _ _ v' _ e
          simp only [Store.heap.injEq] at e
          subst e
          have hpos : 0 < v.cap := by omega
          obtain ⟨b1, b2⟩ := e2.trans.place.big hpos
          exact ⟨b2.trans h5, e2.trans.place.marker.trans h4, b1⟩
      · simp [e2.log, h12]
      · simp [e2.log, h12]
      · simp [e2.refusals, h11]
      · exact ⟨t.self, rfl, e3.trans h3⟩
      · simp [e4, h10]
    · exact Or.inr ⟨rfl, hg, rfl⟩

theorem tryReserveExact_heap {s : SSt α} {l : List α} (hs : c.size ≠ 0) (h : SRep c s.self s.w l)
    (hw : s.w.WF) {v : VecH} (hst : s.self.store = .heap v) {k : Nat}
    (hf : c.Fits (l.length + k)) (hlt : v.cap < l.length + k) :
    Sat c (Small.onStore (pure (.ok ())) (Vec.tryReserveExact c k) s)
      (SGrow c l s (l.length + k)) (fun _ => False) := by
  refine heap_sat hst (tryReserveExact_spec (s := ⟨v, s.w⟩) hs (h.heap v hst) hw hf hlt) ?_
    (fun _ h => h)
  rintro r t (⟨rfl, h1, h2, h3, h4, h5, h6, h7⟩ | ⟨rfl, h1, rfl⟩)
  · exact Or.inl ⟨rfl, putHeap_reserved h hst ⟨h1, h3, h4⟩, ⟨t.self, rfl, h5⟩, h6, h7⟩
  · exact Or.inr ⟨rfl, h1, putHeap_refuse hst⟩

/-- The capacity `try_reserve_exact(k)` provides when it has to grow. -/
def newCap (c : Cfg α) (v : SmallH α) (n : Nat) : Nat :=
  match v.store with
  | .stack _ _ => max n (Vec.minNonZeroCap c)
  | .heap _ => n

theorem soverflow_eq {s : SSt α} {a b : Nat} (h : a + b ≤ c.usizeMax) :
    Small.overflowGuardedAdd c a b s = .ok (a + b) s := by simp [Small.overflowGuardedAdd, h]

theorem stryReserveExact_spec {s : SSt α} {l : List α} (hs : c.size ≠ 0) (h : SRep c s.self s.w l)
    (hw : s.w.WF) {k : Nat} (hf : c.Fits (newCap c s.self (l.length + k)))
    (hlt : Small.capacity c s.self < l.length + k) :
    Sat c (Small.tryReserveExact c k s) (SGrow c l s (newCap c s.self (l.length + k)))
      (fun _ => False) := by
  unfold Small.tryReserveExact
  rw [M.bind_ok (M.get_apply s)]
  cases hst : s.self.store with
  | stack slots len =>
    simp only [newCap, hst] at hf ⊢
    have hu : Small.lenOf s.self + k ≤ c.usizeMax := by
      have := Fits.le_usize hs hf
      have := h.lenOf
      omega
    rw [M.bind_ok (soverflow_eq hu), if_pos (by rw [h.lenOf]; exact hlt)]
    exact tryMoveToHeap_stack hs h hw hst hf
  | heap v =>
    simp only [newCap, hst] at hf ⊢
    refine tryReserveExact_heap hs h hw hst hf ?_
    simpa [Small.capacity, hst, capacity_eq hs] using hlt

theorem stryReserveExact_noop {s : SSt α} {l : List α} (hs : c.size ≠ 0) (h : SRep c s.self s.w l)
    {k : Nat} (hk : l.length + k ≤ Small.capacity c s.self) :
    Small.tryReserveExact c k s = .ok (.ok ()) s := by
  have hu : l.length + k ≤ c.usizeMax := Nat.le_trans hk (Fits.le_usize hs (h.fits_cap hs))
  unfold Small.tryReserveExact
  rw [M.bind_ok (M.get_apply s)]
  cases hst : s.self.store with
  | stack slots len =>
    simp only
    rw [M.bind_ok (soverflow_eq (by rw [h.lenOf]; exact hu)),
      if_neg (by rw [h.lenOf]; omega)]
    rfl
  | heap v =>
    have hl := (h.heap v hst).len
    simp only [Small.capacity, hst, capacity_eq hs] at hk
    simp only
    rw [onStore_heap hst, tryReserveExact_noop (s := ⟨v, s.w⟩) hs (by simp only; omega)
      (by simp only; omega)]
    simp [putHeap_self hst]

theorem sreserveExact_spec {s : SSt α} {l : List α} (hs : c.size ≠ 0) (h : SRep c s.self s.w l)
    (hw : s.w.WF) {k : Nat} (hf : c.Fits (l.length + k + Vec.minNonZeroCap c)) :
    Sat c (Small.tryReserveExact c k s)
      (fun r s' => (Small.capacity c s.self < l.length + k ∧
          SGrow c l s (newCap c s.self (l.length + k)) r s') ∨
        (l.length + k ≤ Small.capacity c s.self ∧ r = .ok () ∧ s' = s))
      (fun _ => False) := by
  by_cases hlt : Small.capacity c s.self < l.length + k
  · have hf' : c.Fits (newCap c s.self (l.length + k)) := by
      refine Fits.mono hf ?_
      unfold newCap; split <;> omega
    exact (stryReserveExact_spec hs h hw hf' hlt).mono (fun _ _ h => Or.inl ⟨hlt, h⟩) (fun _ h => h)
  · rw [stryReserveExact_noop hs h (by omega)]
    exact Or.inr ⟨by omega, rfl, rfl⟩

/-- How much `try_reserve(k)` asks `try_reserve_exact` for (small_vec.rs 482-488). -/
def extra (c : Cfg α) (v : SmallH α) (k : Nat) : Nat :=
  max (Vec.minNonZeroCap c) (Small.capacity c v + k) - Small.capacity c v

theorem le_extra (v : SmallH α) (k : Nat) : k ≤ extra c v k := by unfold extra; omega

theorem extra_le (v : SmallH α) (k : Nat) : extra c v k ≤ k + Vec.minNonZeroCap c := by
  unfold extra; omega

/-- `reserve(k)` grows iff the length plus `extra` exceeds the capacity. -/
theorem stryReserve_spec {s : SSt α} {l : List α} (hs : c.size ≠ 0) (h : SRep c s.self s.w l)
    (hw : s.w.WF) {k : Nat} (hf : c.Fits (l.length + k + Vec.minNonZeroCap c)) :
    Sat c (Small.tryReserve c k s)
      (fun r s' => (Small.capacity c s.self < l.length + extra c s.self k ∧
          SGrow c l s (newCap c s.self (l.length + extra c s.self k)) r s') ∨
        (l.length + extra c s.self k ≤ Small.capacity c s.self ∧ r = .ok () ∧ s' = s))
      (fun _ => False) := by
  have hu : Small.capacity c s.self + k ≤ c.usizeMax := by
    have h1 := Fits.le_isize hs (h.fits_cap hs)
    have h2 := Fits.le_isize hs hf
    unfold Cfg.usizeMax; omega
  have hx := extra_le (c := c) s.self k
  unfold Small.tryReserve
  rw [M.bind_ok (M.get_apply s), M.bind_ok (soverflow_eq hu)]
  show Sat c (Small.tryReserveExact c (extra c s.self k) s) _ _
  by_cases hlt : Small.capacity c s.self < l.length + extra c s.self k
  · have hf' : c.Fits (newCap c s.self (l.length + extra c s.self k)) := by
      refine Fits.mono hf ?_
      unfold newCap; split <;> omega
    exact (stryReserveExact_spec hs h hw hf' hlt).mono (fun _ _ h => Or.inl ⟨hlt, h⟩) (fun _ h => h)
  · rw [stryReserveExact_noop hs h (by omega)]
    exact Or.inr ⟨by omega, rfl, rfl⟩

theorem le_newCap (v : SmallH α) (n : Nat) : n ≤ newCap c v n := by
  unfold newCap; split <;> omega

/-- The storage after a reservation: unchanged, or on the heap. -/
def Roomy (c : Cfg α) (s s' : SSt α) (n : Nat) : Prop :=
  n ≤ Small.capacity c s'.self ∧
    (s' = s ∨ ∃ v, s'.self.store = .heap v ∧ n ≤ v.cap)

theorem sreserve_spec {s : SSt α} {l : List α} (hs : c.size ≠ 0) (h : SRep c s.self s.w l)
    (hw : s.w.WF) {k : Nat} (hf : c.Fits (l.length + k + Vec.minNonZeroCap c)) :
    Sat c (Small.reserve c k s)
      (fun _ s' => SReserved c l s s' ∧ Roomy c s s' (l.length + k) ∧
        (l.length + extra c s.self k ≤ Small.capacity c s.self → s' = s) ∧
        (Small.capacity c s.self < l.length + extra c s.self k →
          ∃ v, s'.self.store = .heap v ∧
            v.cap = newCap c s.self (l.length + extra c s.self k)))
      (fun s' => s' = s.refuse ∧ Small.capacity c s.self < l.length + extra c s.self k ∧
        c.grant s.w.tick (newCap c s.self (l.length + extra c s.self k) * c.size) = false) := by
  have hx := le_extra (c := c) s.self k
  have hn := le_newCap (c := c) s.self (l.length + extra c s.self k)
  unfold Small.reserve
  refine Sat.bind' (stryReserve_spec hs h hw hf) (fun _ h => h.elim) ?_
  rintro r s' (⟨h0, (⟨rfl, h1, ⟨v, h2, h3⟩, h4, h5⟩ | ⟨rfl, h1, rfl⟩)⟩ | ⟨h0, rfl, rfl⟩)
  · refine ⟨h1, ⟨?_, Or.inr ⟨v, h2, by omega⟩⟩, fun _ => by omega, fun _ => ⟨v, h2, h3⟩⟩
    simp only [Small.capacity, h2, capacity_eq hs]; omega
  · exact ⟨rfl, h0, h1⟩
  · exact ⟨.refl h hw, ⟨by omega, Or.inl rfl⟩, fun _ => rfl, fun _ => by omega⟩

theorem sreserveExact_unit {s : SSt α} {l : List α} (hs : c.size ≠ 0) (h : SRep c s.self s.w l)
    (hw : s.w.WF) {k : Nat} (hf : c.Fits (l.length + k + Vec.minNonZeroCap c)) :
    Sat c (Small.reserveExact c k s)
      (fun _ s' => SReserved c l s s' ∧ Roomy c s s' (l.length + k))
      (fun s' => s' = s.refuse ∧ Small.capacity c s.self < l.length + k ∧
        c.grant s.w.tick (newCap c s.self (l.length + k) * c.size) = false) := by
  have hn := le_newCap (c := c) s.self (l.length + k)
  unfold Small.reserveExact
  refine Sat.bind' (sreserveExact_spec hs h hw hf) (fun _ h => h.elim) ?_
  rintro r s' (⟨h0, (⟨rfl, h1, ⟨v, h2, h3⟩, h4, h5⟩ | ⟨rfl, h1, rfl⟩)⟩ | ⟨h0, rfl, rfl⟩)
  · refine ⟨h1, ⟨?_, Or.inr ⟨v, h2, by omega⟩⟩⟩
    simp only [Small.capacity, h2, capacity_eq hs]; omega
  · exact ⟨rfl, h0, h1⟩
  · exact ⟨.refl h hw, ⟨by omega, Or.inl rfl⟩⟩

/-- `move_to_heap`. -/
theorem smoveToHeap_spec {s : SSt α} {l : List α} (hs : c.size ≠ 0) (h : SRep c s.self s.w l)
    (hw : s.w.WF) (hf : c.Fits (l.length + Vec.minNonZeroCap c)) :
    Sat c (Small.moveToHeap c s)
      (fun _ s' => SReserved c l s s' ∧ ∃ v, s'.self.store = .heap v)
      (fun s' => s' = s.refuse) := by
  unfold Small.moveToHeap
  cases hst : s.self.store with
  | stack slots len =>
    refine Sat.bind' (tryMoveToHeap_stack (k := 0) hs h hw hst (Fits.mono hf (by omega)))
      (fun _ h => h.elim) ?_
    rintro r s' (⟨rfl, h1, ⟨v, h2, _⟩, _⟩ | ⟨rfl, h1, rfl⟩)
    · exact ⟨h1, v, h2⟩
    · exact rfl
  | heap v =>
    have hv := h.heap v hst
    have e : Small.tryMoveToHeap c 0 s = .ok (.ok ()) s := by
      unfold Small.tryMoveToHeap
      rw [M.bind_ok (M.get_apply s)]
      simp only [hst]
      have hl := hv.len
      have hle := hv.le_cap
      have hfu := Fits.le_usize hs hv.fits
      have e2 : Small.onStore (pure ()) (Vec.reserveExact c 0) s = .ok () s := by
        rw [onStore_heap hst, reserveExact_noop (s := ⟨v, s.w⟩) hs (by simp only; omega)
          (by simp only; omega)]
        simp [putHeap_self hst]
      rw [M.bind_ok e2]
      rfl
    rw [M.bind_ok e]
    exact ⟨.refl h hw, v, hst⟩

end Lokky
