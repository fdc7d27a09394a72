import Verif.Proofs.VecRep

/-!
# Growing and shrinking
-/

namespace Lokky
variable {α : Type} {c : Cfg α}

/-- The world after a refused request. -/
def World.refuse (w : World α) : World α :=
  { w with tick := w.tick + 1, refusals := w.refusals + 1 }

/-- The state after a refused request. -/
def St.refuse {S : Type} (s : St S α) : St S α := { s with w := s.w.refuse }

theorem Rep.congr {v : VecH} {w w' : World α} {l : List α} (h : Rep c v w l)
    (hh : ∀ p, v.ptr = some p → w'.heap p = w.heap p) : Rep c v w' l := by
  refine ⟨h.len, ?_⟩
  rcases h.buf with h0 | ⟨p, b, rest, hp, hb, h⟩
  · exact Or.inl h0
  · exact Or.inr ⟨p, b, rest, hp, by rw [hh p hp, hb], h⟩

theorem Rep.refuse {s : VSt α} {l : List α} (h : Rep c s.self s.w l) :
    Rep c s.refuse.self s.refuse.w l := h.congr (fun _ _ => rfl)

theorem Trans.refuse {s : VSt α} {l : List α} (h : Rep c s.self s.w l) (hw : s.w.WF) :
    Trans c l [] s s.refuse :=
  ⟨h.refuse, hw, ⟨fun _ _ _ => rfl, fun _ h h' => absurd h h', fun _ h h' => absurd h h',
    fun _ h h' => (by simp only [St.refuse] at h'; rw [h] at h'; cases h'), Nat.le_refl _⟩,
    ⟨rfl, fun h => ⟨h, rfl⟩, fun h => Or.inl ⟨h, rfl⟩, rfl⟩, by simp [St.refuse, World.refuse]⟩

theorem rawAlloc_spec {w : World α} {a bytes : Nat} (hb : bytes ≠ 0) :
    rawAlloc c a bytes w = if c.grant w.tick bytes then
      .ok (some w.next) { w with
        heap := fun p => if p = w.next
          then some ⟨a, bytes, List.replicate (bytes / c.size) none⟩ else w.heap p
        next := w.next + 1
        tick := w.tick + 1 }
      else .ok none w.refuse := by
  simp [rawAlloc, hb, World.refuse]

/-- Creating a vector with capacity. -/
theorem tryWithCapacity_spec {w : World α} {n : Nat} (hs : c.size ≠ 0) (hw : w.WF)
    (hn : 0 < n) (hf : c.Fits n) (m : Marker) :
    Sat c (Vec.tryWithCapacityAndMarker c n m w)
      (fun r w' => (∃ v, r = .ok v ∧ c.grant w.tick (n * c.size) = true ∧ Rep c v w' [] ∧ w'.WF ∧
          v.cap = n ∧ v.marker = m ∧ v.alloc = w.allocFor m ∧ v.ptr = some w.next ∧ v.len = 0 ∧
          w'.heap = (fun p => if p = w.next then
            some ⟨w.allocFor m, n * c.size, List.replicate n none⟩ else w.heap p) ∧
          w'.next = w.next + 1 ∧ w'.tick = w.tick + 1 ∧ w'.refusals = w.refusals ∧
          w'.log = w.log ∧ w'.allocFor = w.allocFor) ∨
        (r = .error .allocError ∧ c.grant w.tick (n * c.size) = false ∧ w' = w.refuse))
      (fun _ => False) := by
  have hn0 : n ≠ 0 := by omega
  have hb : n * c.size ≠ 0 := Nat.mul_ne_zero hn0 hs
  have hd : n * c.size / c.size = n := Nat.mul_div_cancel _ (Nat.pos_of_ne_zero hs)
  simp only [Vec.tryWithCapacityAndMarker, hn0, hs, or_self, if_false, Vec.allocArrayUninit,
    hf, not_true, M.bind_apply, M.get_apply, rawAlloc_spec hb]
  cases hg : c.grant w.tick (n * c.size)
  · simp [Sat]
  · simp only [if_true, Sat, M.pure_apply, hd]
    refine Or.inl ⟨_, rfl, trivial, ?_, ?_, by simp⟩
    · refine ⟨rfl, Or.inr ⟨w.next, _, List.replicate n none, rfl, if_pos rfl, rfl, rfl, ?_, ?_,
        hn, hf⟩⟩ <;> simp
    · intro p hp
      have : p ≠ w.next := by simp at hp; omega
      simp only [this, if_false]
      exact hw p (by simp at hp; omega)

theorem Rep.fits {v : VecH} {w : World α} {l : List α} (h : Rep c v w l) : c.Fits v.cap := by
  rcases h.buf with ⟨_, h0, _⟩ | ⟨_, _, _, _, _, _, _, _, _, _, hf⟩
  · simp [Cfg.Fits, h0]
  · exact hf

theorem Rep.le_cap {v : VecH} {w : World α} {l : List α} (h : Rep c v w l) :
    l.length ≤ v.cap := by
  rcases h.buf with ⟨_, h0, h1⟩ | ⟨_, b, rest, _, _, _, _, h4, h5, _⟩
  · simp [h0, h1]
  · rw [← h5, h4]; simp

theorem Fits.le_isize (hs : c.size ≠ 0) {n : Nat} (h : c.Fits n) : n ≤ c.isizeMax := by
  unfold Cfg.Fits Cfg.maxBytes at h
  have : n * 1 ≤ n * c.size := Nat.mul_le_mul_left n (Nat.pos_of_ne_zero hs)
  omega

theorem Fits.mul_le_usize {n : Nat} (h : c.Fits n) : n * c.size ≤ c.usizeMax := by
  unfold Cfg.Fits Cfg.maxBytes at h
  unfold Cfg.usizeMax
  omega

/-- Resizing the buffer to `n` elements, `n` at least the length and not zero. -/
theorem reallocArray_spec {s : VSt α} {l : List α} (hs : c.size ≠ 0)
    (h : Rep c s.self s.w l) (hw : s.w.WF) {n : Nat} (hcap : 0 < s.self.cap)
    (hl : l.length ≤ n) (hn : 0 < n) (hf : c.Fits n) :
    Sat c (Vec.reallocArray c n s)
      (fun r s' => (r = .ok () ∧ c.grant s.w.tick (n * c.size) = true ∧ Trans c l [] s s' ∧
          s'.self.cap = n ∧ s'.self.len = s.self.len ∧ s'.w.tick = s.w.tick + 1 ∧
          s'.w.refusals = s.w.refusals ∧ s'.w.log = s.w.log) ∨
        (r = .error .allocError ∧ c.grant s.w.tick (n * c.size) = false ∧ s' = s.refuse))
      (fun _ => False) := by
  have hn0 : n ≠ 0 := by omega
  have hb : n * c.size ≠ 0 := Nat.mul_ne_zero hn0 hs
  have hd : n * c.size / c.size = n := Nat.mul_div_cancel _ (Nat.pos_of_ne_zero hs)
  have hmax : ¬ c.maxBytes < n * c.size := Nat.not_lt.mpr hf
  rcases h.buf with ⟨_, h0, _⟩ | ⟨p, b, rest, hp, hbk, h1, h2, h3, h4, h5, h6⟩
  · omega
  simp only [Vec.reallocArray, M.bind_apply, M.get_apply, umul_eq (Fits.mul_le_usize hf), liftW,
    rawRealloc, hp, hbk, h1, h2, ne_eq, not_true, if_false, hb, hmax]
  cases hg : c.grant s.w.tick (n * c.size)
  · simp [Sat, St.refuse, World.refuse]
  · simp only [if_true, Sat, M.bind_apply, M.modify_apply, M.pure_apply, hd]
    have hpn : p ≠ s.w.next := Nat.ne_of_lt (h.ptr_lt hw hp)
    refine Or.inl ⟨trivial, trivial, ⟨?_, ?_, ?_, ?_, by simp⟩, by simp⟩
    · refine ⟨h.len, Or.inr ⟨s.w.next, _, (rest.take (n - l.length)) ++
        List.replicate (n - b.slots.length) none, rfl, if_pos rfl, rfl, rfl, ?_, ?_, hn, hf⟩⟩
      · simp only [h3, List.take_append, List.length_map]
        rw [List.take_of_length_le (by simpa using hl)]
        simp
      · simp; omega
    · intro q hq
      simp only at hq ⊢
      have e1 : q ≠ s.w.next := by omega
      simp only [e1, if_false]
      split
      · rfl
      · exact hw q (by omega)
    · refine ⟨?_, ?_, ?_, ?_, by simp⟩
      · intro q hq1 hq2
        simp only at hq2 ⊢
        have e1 : q ≠ s.w.next := fun e => hq2 (by rw [e])
        have e2 : q ≠ p := fun e => hq1 (by rw [e, hp])
        simp [e1, e2]
      · intro q hq1 _
        have e2 : q = p := by rw [hp] at hq1; exact (Option.some.inj hq1).symm
        subst e2
        simp [hpn]
      · intro q hq1 _
        simp only [Option.some.injEq] at hq1
        omega
      · intro q _ hq2
        cases hq2
    · exact ⟨rfl, fun _ => ⟨hn, rfl⟩, fun e => by omega, rfl⟩

theorem drop_empty {s : VSt α} (h : Vec.capacity c s.self = 0) : Vec.drop c s = .ok () s := by
  simp [Vec.drop, M.bind_apply, h]

/-- Growing to exactly `n` elements. -/
theorem growExact_spec {s : VSt α} {l : List α} (hs : c.size ≠ 0)
    (h : Rep c s.self s.w l) (hw : s.w.WF) {n : Nat} (hn : s.self.cap < n) (hf : c.Fits n) :
    Sat c (Vec.growExact c n s)
      (fun r s' => (r = .ok () ∧ c.grant s.w.tick (n * c.size) = true ∧ Trans c l [] s s' ∧
          s'.self.cap = n ∧ s'.self.len = s.self.len ∧ s'.w.tick = s.w.tick + 1 ∧
          s'.w.refusals = s.w.refusals ∧ s'.w.log = s.w.log) ∨
        (r = .error .allocError ∧ c.grant s.w.tick (n * c.size) = false ∧ s' = s.refuse))
      (fun _ => False) := by
  unfold Vec.growExact
  rw [M.bind_ok (M.get_apply s), M.bind_ok (debugAssert_pos (by rw [capacity_eq hs]; exact hn))]
  rw [capacity_eq hs]
  have hle := h.le_cap
  by_cases h0 : s.self.cap = 0
  · rw [if_pos h0]
    have hl : l = [] := List.length_eq_zero_iff.mp (by omega)
    subst hl
    have hptr : s.self.ptr = none := by
      rcases h.buf with ⟨h1, _⟩ | ⟨_, _, _, _, _, _, _, _, _, h5, _⟩
      · exact h1
      · omega
    have key := tryWithCapacity_spec hs hw (by omega : 0 < n) hf s.self.marker
    rw [M.bind_apply]
    unfold liftW
    cases hr : Vec.tryWithCapacityAndMarker c n s.self.marker s.w with
    | ok r w' =>
      rw [hr] at key
      rcases key with ⟨v, rfl, hg, hrep, hwf, h1, h2, h3, h4, h5, h6, h7, h8, h9, h10, h11⟩ |
        ⟨rfl, hg, rfl⟩
      · simp only
        rw [M.bind_ok (drop_empty (by rw [capacity_eq hs]; exact h0))]
        simp only [M.bind_apply, M.modify_apply, M.pure_apply, Sat]
        refine Or.inl ⟨trivial, hg, ⟨hrep, hwf, ?_, ?_, by simp [h10]⟩, h1, ?_, h8, h9, h10⟩
        · refine ⟨?_, ?_, ?_, ?_, by simp [h7]⟩
          · intro q _ hq2
            have e1 : q ≠ s.w.next := fun e => hq2 (by simp [e, h4])
            simp [h6, e1]
          · intro q hq _; rw [hptr] at hq; cases hq
          · intro q hq _
            simp only [h4, Option.some.injEq] at hq
            omega
          · intro q hq; rw [hptr] at hq; cases hq
        · refine ⟨h2, fun e => by omega, fun _ => Or.inr h3, h11⟩
        · rw [h5, h.len]; rfl
      · simp [Sat, St.refuse, hg]
    | panic w' => rw [hr] at key; exact key
    | abort => simpa [Sat, hr] using key
    | ub u => rw [hr] at key; exact key
  · rw [if_neg h0]
    exact reallocArray_spec hs h hw (Nat.pos_of_ne_zero h0) (by omega) (by omega) hf

/-! ### reserve_exact -/

theorem overflowGuardedAdd_eq {s : VSt α} {a b : Nat} (h : a + b ≤ c.usizeMax) :
    Vec.overflowGuardedAdd c a b s = .ok (a + b) s := by simp [Vec.overflowGuardedAdd, h]

theorem Fits.mono {m n : Nat} (h : c.Fits n) (hm : m ≤ n) : c.Fits m := by
  unfold Cfg.Fits at h ⊢
  exact Nat.le_trans (Nat.mul_le_mul_right _ hm) h

theorem Fits.le_usize (hs : c.size ≠ 0) {n : Nat} (h : c.Fits n) : n ≤ c.usizeMax := by
  have := Fits.le_isize hs h
  unfold Cfg.usizeMax; omega

/-- Success and failure of a reservation that may have to grow to `n` elements. -/
def GrowPost (c : Cfg α) (l : List α) (s : VSt α) (n : Nat) (r : Except AllocErr Unit)
    (s' : VSt α) : Prop :=
  (r = .ok () ∧ Trans c l [] s s' ∧ s'.self.len = s.self.len ∧ s'.w.log = s.w.log ∧
    s'.w.refusals = s.w.refusals ∧ s'.self.cap = n ∧
    c.grant s.w.tick (n * c.size) = true ∧ s'.w.tick = s.w.tick + 1) ∨
  (r = .error .allocError ∧ c.grant s.w.tick (n * c.size) = false ∧ s' = s.refuse)

theorem tryReserveExact_noop {s : VSt α} (hs : c.size ≠ 0) {k : Nat}
    (hu : s.self.len + k ≤ c.usizeMax) (hk : s.self.len + k ≤ s.self.cap) :
    Vec.tryReserveExact c k s = .ok (.ok ()) s := by
  unfold Vec.tryReserveExact
  rw [M.bind_ok (M.get_apply s), M.bind_ok (overflowGuardedAdd_eq hu), capacity_eq hs,
    if_neg (by omega)]
  rfl

theorem tryReserveExact_spec {s : VSt α} {l : List α} (hs : c.size ≠ 0)
    (h : Rep c s.self s.w l) (hw : s.w.WF) {k : Nat} (hf : c.Fits (l.length + k))
    (hlt : s.self.cap < l.length + k) :
    Sat c (Vec.tryReserveExact c k s) (GrowPost c l s (l.length + k)) (fun _ => False) := by
  have hu := Fits.le_usize hs hf
  rw [← h.len] at hf hu hlt ⊢
  unfold Vec.tryReserveExact
  rw [M.bind_ok (M.get_apply s), M.bind_ok (overflowGuardedAdd_eq hu), capacity_eq hs,
    if_pos hlt]
  refine (growExact_spec hs h hw hlt hf).mono ?_ (fun _ h => h)
  rintro r s' (⟨h1, h2, h3, h4, h5, h6, h7, h8⟩ | h1)
  · exact Or.inl ⟨h1, h3, h5, h8, h7, h4, h2, h6⟩
  · exact Or.inr h1

/-- What a successful reservation guarantees. -/
structure Reserved (c : Cfg α) (l : List α) (s s' : VSt α) : Prop where
  trans : Trans c l [] s s'
  log : s'.w.log = s.w.log
  refusals : s'.w.refusals = s.w.refusals

theorem reserveExact_noop {s : VSt α} (hs : c.size ≠ 0) {k : Nat}
    (hu : s.self.len + k ≤ c.usizeMax) (hk : s.self.len + k ≤ s.self.cap) :
    Vec.reserveExact c k s = .ok () s := by
  unfold Vec.reserveExact
  rw [M.bind_ok (tryReserveExact_noop hs hu hk)]
  rfl

theorem reserveExact_spec {s : VSt α} {l : List α} (hs : c.size ≠ 0)
    (h : Rep c s.self s.w l) (hw : s.w.WF) {k : Nat} (hf : c.Fits (l.length + k)) :
    Sat c (Vec.reserveExact c k s)
      (fun _ s' => Reserved c l s s' ∧ s'.self.cap = max s.self.cap (l.length + k) ∧
        s'.w.tick = s.w.tick + (if s.self.cap < l.length + k then 1 else 0))
      (fun s' => s' = s.refuse ∧ s.self.cap < l.length + k ∧
        c.grant s.w.tick ((l.length + k) * c.size) = false) := by
  by_cases hk : s.self.cap < l.length + k
  · unfold Vec.reserveExact
    refine Sat.bind' (tryReserveExact_spec hs h hw hf hk) (fun _ h => h.elim) ?_
    rintro r s' (⟨rfl, h1, h2, h3, h4, h5, h6, h7⟩ | ⟨rfl, h1, rfl⟩)
    · refine ⟨⟨h1, h3, h4⟩, ?_, ?_⟩
      · rw [h5]; omega
      · rw [h7, if_pos hk]
    · exact ⟨rfl, hk, h1⟩
  · have hl := h.len
    rw [reserveExact_noop hs (by rw [hl]; exact Fits.le_usize hs hf) (by omega)]
    exact ⟨⟨Trans.refl h hw, rfl, rfl⟩, by omega, by simp [hk]⟩

/-! ### reserve -/

/-- Capacity that `reserve` grows to. -/
def amortized (c : Cfg α) (cap required : Nat) : Nat :=
  max (max required (Vec.minNonZeroCap c)) (cap * 2)

theorem tryReserve_spec {s : VSt α} {l : List α} (hs : c.size ≠ 0)
    (h : Rep c s.self s.w l) (hw : s.w.WF) {k : Nat}
    (hf : c.Fits (amortized c s.self.cap (l.length + k)))
    (hlt : s.self.cap < l.length + k) :
    Sat c (Vec.tryReserve c k s) (GrowPost c l s (amortized c s.self.cap (l.length + k)))
      (fun _ => False) := by
  have hu := Fits.le_usize hs hf
  have hcap2 : s.self.cap * 2 ≤ c.usizeMax := by
    have := Fits.le_isize hs h.fits
    unfold Cfg.usizeMax; omega
  have hlt' : s.self.cap < amortized c s.self.cap (l.length + k) := by
    unfold amortized; omega
  have hsum : l.length + k ≤ c.usizeMax := by
    unfold amortized at hu; omega
  rw [← h.len] at hf hu hlt hlt' hsum ⊢
  unfold Vec.tryReserve
  rw [M.bind_ok (M.get_apply s), M.bind_ok (overflowGuardedAdd_eq hsum), capacity_eq hs,
    if_pos hlt]
  unfold Vec.growAmortized
  rw [M.bind_ok (M.get_apply s), M.bind_ok (debugAssert_pos (by rw [capacity_eq hs]; exact hlt)),
    capacity_eq hs, M.bind_ok (umul_eq hcap2)]
  refine (growExact_spec hs h hw hlt' hf).mono ?_ (fun _ h => h)
  rintro r s' (⟨h1, h2, h3, h4, h5, h6, h7, h8⟩ | h1)
  · exact Or.inl ⟨h1, h3, h5, h8, h7, h4, h2, h6⟩
  · exact Or.inr h1

theorem tryReserve_noop {s : VSt α} (hs : c.size ≠ 0) {k : Nat}
    (hu : s.self.len + k ≤ c.usizeMax) (hk : s.self.len + k ≤ s.self.cap) :
    Vec.tryReserve c k s = .ok (.ok ()) s := by
  unfold Vec.tryReserve
  rw [M.bind_ok (M.get_apply s), M.bind_ok (overflowGuardedAdd_eq hu), capacity_eq hs,
    if_neg (by omega)]
  rfl

theorem reserve_noop {s : VSt α} (hs : c.size ≠ 0) {k : Nat}
    (hu : s.self.len + k ≤ c.usizeMax) (hk : s.self.len + k ≤ s.self.cap) :
    Vec.reserve c k s = .ok () s := by
  unfold Vec.reserve
  rw [M.bind_ok (tryReserve_noop hs hu hk)]
  rfl

theorem reserve_spec {s : VSt α} {l : List α} (hs : c.size ≠ 0)
    (h : Rep c s.self s.w l) (hw : s.w.WF) {k : Nat}
    (hf : s.self.cap < l.length + k → c.Fits (amortized c s.self.cap (l.length + k))) :
    Sat c (Vec.reserve c k s)
      (fun _ s' => Reserved c l s s' ∧
        s'.self.cap = (if s.self.cap < l.length + k
          then amortized c s.self.cap (l.length + k) else s.self.cap) ∧
        s'.w.tick = s.w.tick + (if s.self.cap < l.length + k then 1 else 0))
      (fun s' => s' = s.refuse ∧ s.self.cap < l.length + k ∧
        c.grant s.w.tick (amortized c s.self.cap (l.length + k) * c.size) = false) := by
  by_cases hk : s.self.cap < l.length + k
  · unfold Vec.reserve
    refine Sat.bind' (tryReserve_spec hs h hw (hf hk) hk) (fun _ h => h.elim) ?_
    rintro r s' (⟨rfl, h1, h2, h3, h4, h5, h6, h7⟩ | ⟨rfl, h1, rfl⟩)
    · refine ⟨⟨h1, h3, h4⟩, ?_, ?_⟩
      · rw [h5, if_pos hk]
      · rw [h7, if_pos hk]
    · exact ⟨rfl, hk, h1⟩
  · have hl := h.len
    have hu : l.length + k ≤ c.usizeMax := by
      have := Fits.le_usize hs h.fits
      omega
    rw [reserve_noop hs (by rw [hl]; exact hu) (by omega)]
    exact ⟨⟨Trans.refl h hw, rfl, rfl⟩, by simp [hk], by simp [hk]⟩

/-! ### shrinking -/

theorem shrink_spec {s : VSt α} {l : List α} (hs : c.size ≠ 0)
    (h : Rep c s.self s.w l) (hw : s.w.WF) {n : Nat} (hl : l.length ≤ n) (hn : 0 < n)
    (hlt : n < s.self.cap) :
    Sat c (Vec.shrink c n s) (GrowPost c l s n) (fun _ => False) := by
  have hf : c.Fits n := by
    have := h.fits
    unfold Cfg.Fits at this ⊢
    exact Nat.le_trans (Nat.mul_le_mul_right _ (Nat.le_of_lt hlt)) this
  unfold Vec.shrink
  rw [M.bind_ok (M.get_apply s), M.bind_ok (debugAssert_pos (by rw [capacity_eq hs]; exact hlt)),
    M.bind_ok (debugAssert_pos (by rw [h.len]; exact hl)), if_neg hs]
  refine (reallocArray_spec hs h hw (by omega) hl hn hf).mono ?_ (fun _ h => h)
  rintro r s' (⟨h1, h2, h3, h4, h5, h6, h7, h8⟩ | h1)
  · exact Or.inl ⟨h1, h3, h5, h8, h7, h4, h2, h6⟩
  · exact Or.inr h1

theorem shrinkTo_spec {s : VSt α} {l : List α} (hs : c.size ≠ 0)
    (h : Rep c s.self s.w l) (hw : s.w.WF) {m : Nat}
    (hz : 0 < max l.length m ∨ s.self.cap = 0) :
    Sat c (Vec.shrinkTo c m s)
      (fun _ s' => Reserved c l s s' ∧ s'.self.cap = min s.self.cap (max l.length m))
      (fun s' => s' = s.refuse ∧ max l.length m < s.self.cap ∧
        c.grant s.w.tick ((max l.length m) * c.size) = false) := by
  unfold Vec.shrinkTo
  rw [M.bind_ok (M.get_apply s)]
  simp only [h.len, capacity_eq hs]
  by_cases hk : max l.length m < s.self.cap
  · rw [if_pos hk]
    refine Sat.bind' (shrink_spec hs h hw (Nat.le_max_left _ _) (by omega) hk)
      (fun _ h => h.elim) ?_
    rintro r s' (⟨rfl, h1, h2, h3, h4, h5, h6, h7⟩ | ⟨rfl, h1, rfl⟩)
    · refine ⟨⟨h1, h3, h4⟩, ?_⟩
      rw [h5]; omega
    · exact ⟨rfl, hk, h1⟩
  · rw [if_neg hk]
    exact ⟨⟨Trans.refl h hw, rfl, rfl⟩, by omega⟩

theorem shrinkToFit_spec {s : VSt α} {l : List α} (hs : c.size ≠ 0)
    (h : Rep c s.self s.w l) (hw : s.w.WF) (hz : l ≠ [] ∨ s.self.cap = 0) :
    Sat c (Vec.shrinkToFit c s)
      (fun _ s' => Reserved c l s s' ∧ s'.self.cap = l.length)
      (fun s' => s' = s.refuse ∧ l.length < s.self.cap ∧
        c.grant s.w.tick (l.length * c.size) = false) := by
  have hle := h.le_cap
  unfold Vec.shrinkToFit
  rw [M.bind_ok (M.get_apply s)]
  simp only [h.len, capacity_eq hs]
  by_cases hk : l.length < s.self.cap
  · rw [if_pos hk]
    have hpos : 0 < l.length := by
      rcases hz with hz | hz
      · exact List.length_pos_iff.mpr hz
      · omega
    refine Sat.bind' (shrink_spec hs h hw (Nat.le_refl _) hpos hk)
      (fun _ h => h.elim) ?_
    rintro r s' (⟨rfl, h1, h2, h3, h4, h5, h6, h7⟩ | ⟨rfl, h1, rfl⟩)
    · exact ⟨⟨h1, h3, h4⟩, h5⟩
    · exact ⟨rfl, hk, h1⟩
  · rw [if_neg hk]
    exact ⟨⟨Trans.refl h hw, rfl, rfl⟩, by omega⟩

end Lokky
