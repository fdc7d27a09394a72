import Verif.Props.Witness

/-!
# C05–C08, C22: capacity, growth, refusals, overflow, shrinking to nothing

`Rep c v w l` says that the vector `v` holds the list `l`; `Trans c l d s s'` that it holds `l`
afterwards, that `d` was dropped meanwhile and that no other block was touched; `Sat c r Q E` that the
outcome `r` is free of undefined behaviour and satisfies `Q` if it returned, `E` if it panicked.
-/

namespace Lokky
variable {α : Type} {c : Cfg α}

/-! ## C05 -/

/-- C05. `with_capacity(n)`. -/
theorem C05_with_capacity {w : World α} {n : Nat} (hs : c.size ≠ 0) (hw : w.WF) (hf : c.Fits n) :
    Sat c (Vec.withCapacity c n w)
      (fun v w' => Rep c v w' [] ∧ v.len = 0 ∧ Vec.capacity c v = n)
      (fun w' => w' = w.refuse ∧ c.grant w.tick (n * c.size) = false) :=
  (withCapacity_spec hs hw hf).mono
    (fun v w' h => ⟨h.1.rep, h.1.rep.len, by rw [capacity_eq hs]; exact h.2.1⟩)
    (fun _ h => ⟨h.1, h.2.2⟩)

/-- C05. `reserve_exact(k)`. -/
theorem C05_reserve_exact {s : VSt α} {l : List α} (hs : c.size ≠ 0) (h : Rep c s.self s.w l)
    (hw : s.w.WF) {k : Nat} (hf : c.Fits (l.length + k)) :
    Sat c (Vec.reserveExact c k s)
      (fun _ s' => Trans c l [] s s' ∧
        Vec.capacity c s'.self = max (Vec.capacity c s.self) (l.length + k))
      (fun s' => s' = s.refuse ∧ c.grant s.w.tick ((l.length + k) * c.size) = false) :=
  (reserveExact_spec hs h hw hf).mono
    (fun _ _ h => ⟨h.1.trans, by simp only [capacity_eq hs]; exact h.2.1⟩)
    (fun _ h => ⟨h.1, h.2.2⟩)

/-- C05. `reserve(k)`: at least the requested room; if it grew, at least twice the old capacity and
at least the minimal capacity; if there was room already, nothing changes. -/
theorem C05_reserve {s : VSt α} {l : List α} (hs : c.size ≠ 0) (h : Rep c s.self s.w l)
    (hw : s.w.WF) {k : Nat}
    (hf : c.Fits (max (max (l.length + k) (Vec.minNonZeroCap c)) (2 * s.self.cap))) :
    Sat c (Vec.reserve c k s)
      (fun _ s' => Trans c l [] s s' ∧ l.length + k ≤ Vec.capacity c s'.self ∧
        (Vec.capacity c s'.self = Vec.capacity c s.self ∨
          2 * Vec.capacity c s.self ≤ Vec.capacity c s'.self ∧
          (if c.size = 1 then 8 else if c.size ≤ 1024 then 4 else 1) ≤ Vec.capacity c s'.self) ∧
        (l.length + k ≤ Vec.capacity c s.self → Vec.capacity c s'.self = Vec.capacity c s.self))
      (fun s' => s' = s.refuse ∧ s.self.cap < l.length + k) := by
  have e : amortized c s.self.cap (l.length + k)
      = max (max (l.length + k) (Vec.minNonZeroCap c)) (2 * s.self.cap) := by
    unfold amortized; rw [Nat.mul_comm]
  refine (reserve_spec hs h hw (k := k) (fun _ => by rw [e]; exact hf)).mono ?_
    (fun _ h => ⟨h.1, h.2.1⟩)
  rintro _ s' ⟨h1, h2, _⟩
  simp only [capacity_eq hs]
  rw [e] at h2
  change _ ∧ _ ∧ (_ ∨ _ ∧ Vec.minNonZeroCap c ≤ _) ∧ _
  refine ⟨h1.trans, ?_⟩
  split at h2 <;> omega

/-- C05. `shrink_to(m)` (of a vector that does not become empty; see C22 for the other case). -/
theorem C05_shrink_to {s : VSt α} {l : List α} (hs : c.size ≠ 0) (h : Rep c s.self s.w l)
    (hw : s.w.WF) {m : Nat} (hz : 0 < max l.length m ∨ s.self.cap = 0) :
    Sat c (Vec.shrinkTo c m s)
      (fun _ s' => Trans c l [] s s' ∧
        Vec.capacity c s'.self = min (Vec.capacity c s.self) (max l.length m))
      (fun s' => s' = s.refuse ∧ c.grant s.w.tick (max l.length m * c.size) = false) :=
  (shrinkTo_spec hs h hw hz).mono
    (fun _ _ h => ⟨h.1.trans, by simp only [capacity_eq hs]; exact h.2⟩)
    (fun _ h => ⟨h.1, h.2.2⟩)

/-- C05. `shrink_to_fit`. -/
theorem C05_shrink_to_fit {s : VSt α} {l : List α} (hs : c.size ≠ 0) (h : Rep c s.self s.w l)
    (hw : s.w.WF) (hz : l ≠ [] ∨ s.self.cap = 0) :
    Sat c (Vec.shrinkToFit c s)
      (fun _ s' => Trans c l [] s s' ∧ Vec.capacity c s'.self = l.length)
      (fun s' => s' = s.refuse ∧ c.grant s.w.tick (l.length * c.size) = false) :=
  (shrinkToFit_spec hs h hw hz).mono
    (fun _ _ h => ⟨h.1.trans, by rw [capacity_eq hs]; exact h.2⟩)
    (fun _ h => ⟨h.1, h.2.2⟩)

/-- What a reader can look at: outcome, contents and capacity. -/
def look {β : Type} (r : Res (VSt Nat) β) : Option (List (Option Nat) × Nat × Nat) :=
  match r with
  | .ok _ s => some ((s.w.slots s.self.ptr).take s.self.len, s.self.cap, s.w.tick)
  | _ => none

example : Rep cfg64 (stored cfg64 [7, 8] 3).self (stored cfg64 [7, 8] 3).w [7, 8] :=
  stored_rep (by decide) (by decide) (by decide)
example : look (Vec.reserveExact cfg64 4 (stored cfg64 [7, 8] 3)) =
    some ([some 7, some 8], 6, 2) := by decide +kernel
example : look (Vec.reserve cfg64 2 (stored cfg64 [7, 8] 3)) =
    some ([some 7, some 8], 6, 2) := by decide +kernel
example : look (Vec.shrinkToFit cfg64 (stored cfg64 [7, 8] 3)) =
    some ([some 7, some 8], 2, 2) := by decide +kernel

/-! ## C06 -/

theorem pushItems_ticks {s : VSt α} {l : List α} (hs : c.size ≠ 0) (hg : ∀ t b, c.grant t b = true)
    (h : Rep c s.self s.w l) (hw : s.w.WF) (hc : s.self.cap = l.length) (xs : List α)
    (hf : c.Fits (l.length + xs.length)) (hd : ∀ a, c.dropPanics a = false) :
    ∃ s', Vec.pushItems c false xs s = .ok () s' ∧ Rep c s'.self s'.w (l ++ xs) ∧
      s'.w.tick = s.w.tick + xs.length := by
  induction xs generalizing s l with
  | nil => exact ⟨s, rfl, by simpa using h, rfl⟩
  | cons a xs ih =>
    rw [Vec.pushItems]
    have hf1 : c.Fits (l.length + 1) := by
      simp only [Cfg.Fits, List.length_cons] at hf ⊢
      exact Nat.le_trans (Nat.mul_le_mul_right _ (by omega)) hf
    have key := push_spec hs h hw hf1 a
    cases hr : Vec.push c a s with
    | ok u s' =>
      rw [hr] at key
      obtain ⟨h1, h2, h3⟩ := key
      rw [M.bind_ok (M.onUnwind_ok hr)]
      obtain ⟨s'', e1, e2, e3⟩ := ih (l := l ++ [a]) h1.trans.rep h1.trans.wf
        (by rw [h2, hc]; simp)
        (by simpa [Nat.add_assoc, Nat.add_comm 1] using hf)
      refine ⟨s'', e1, by simpa using e2, ?_⟩
      rw [e3, h3, if_pos (by omega)]; simp; omega
    | panic s' =>
      rw [hr] at key
      have := key.2.2.2
      rw [hg] at this; cases this
    | abort =>
      rw [hr] at key
      obtain ⟨a, ha⟩ := key
      rw [hd a] at ha; cases ha
    | ub u => rw [hr] at key; exact key.elim

/-- C06 does not hold: building a vector by `push` asks the allocator once per element. -/
theorem C06_one_request_per_push {w : World α} (hs : c.size ≠ 0)
    (hg : ∀ t b, c.grant t b = true) (hd : ∀ a, c.dropPanics a = false) (hw : w.WF)
    (xs : List α) (hf : c.Fits xs.length) :
    ∃ s', Vec.pushItems c false xs ⟨emptyVec w, w⟩ = .ok () s' ∧ Rep c s'.self s'.w xs ∧
      s'.w.tick = w.tick + xs.length := by
  have := pushItems_ticks (s := ⟨emptyVec w, w⟩) hs hg (emptyVec_rep w) hw rfl xs (by simpa using hf) hd
  simpa using this

/-- C06 does not hold: no constant times the logarithm bounds the number of requests. -/
theorem C06_push_amortised_refuted :
    ¬ ∃ K, ∀ (c : Cfg Nat) (xs : List Nat) (s' : VSt Nat), c.size ≠ 0 → c.Fits xs.length →
      Vec.pushItems c false xs ⟨emptyVec world0, world0⟩ = .ok () s' →
      s'.w.tick ≤ K * (Nat.log2 xs.length + 1) := by
  rintro ⟨K, h⟩
  let n := 2 ^ (4 * K)
  let cn : Cfg Nat := { cfg64 with size := 1, align := 1, isizeMax := n }
  have hf : cn.Fits (List.replicate n 0).length := by
    simp [Cfg.Fits, Cfg.maxBytes, cn]
  obtain ⟨s', h1, _, h3⟩ := C06_one_request_per_push (c := cn) (w := world0) (by simp [cn])
    (fun _ _ => rfl) (fun _ => rfl) world0_wf (List.replicate n 0) hf
  have := h cn _ s' (by simp [cn]) hf h1
  rw [h3] at this
  simp only [List.length_replicate, world0, n, Nat.log2_two_pow] at this
  have hp : 2 ^ (4 * K) = 2 ^ (2 * K) * 2 ^ (2 * K) := by rw [← Nat.pow_add]; congr 1; omega
  have hq : 2 * K < 2 ^ (2 * K) := Nat.lt_two_pow_self
  have hm : (2 * K + 1) * (2 * K + 1) ≤ 2 ^ (2 * K) * 2 ^ (2 * K) := Nat.mul_le_mul hq hq
  have hx : (2 * K + 1) * (2 * K + 1) = 4 * (K * K) + 4 * K + 1 := by
    simp only [Nat.add_mul, Nat.mul_add]
    have : 2 * K * (2 * K) = 4 * (K * K) := by
      rw [Nat.mul_mul_mul_comm]
    omega
  have hy : K * (4 * K + 1) = 4 * (K * K) + K := by
    rw [Nat.mul_add, Nat.mul_left_comm]; omega
  omega

/-- `v.reserve(1); v.push(a)` for each of the items. -/
def reserveThenPush (c : Cfg α) : List α → M (VSt α) Unit
  | [] => pure ()
  | a :: l => do
    Vec.reserve c 1
    Vec.push c a
    reserveThenPush c l

theorem reserveThenPush_ticks {s : VSt α} {l : List α} (hs : c.size ≠ 0)
    (h : Rep c s.self s.w l) (hw : s.w.WF) {t0 N : Nat} (xs : List α)
    (ht0 : t0 ≤ s.w.tick)
    (ht : s.w.tick = t0 ∨ 2 ^ (s.w.tick - t0 - 1) ≤ s.self.cap)
    (hb : s.w.tick = t0 ∨ s.w.tick ≤ t0 + Nat.log2 N + 2)
    (hN : l.length + xs.length ≤ N)
    (hf : c.Fits (max (2 * N) 8)) (hcN : s.self.cap ≤ max (2 * N) 8) :
    Sat c (reserveThenPush c xs s)
      (fun _ s' => Trans c (l ++ xs) [] s s' ∧ s'.w.tick ≤ t0 + Nat.log2 N + 2)
      (fun s' => s'.w.refusals = s.w.refusals + 1) := by
  induction xs generalizing s l with
  | nil =>
    refine ⟨by simpa using Trans.refl h hw, ?_⟩
    rcases hb with hb | hb <;> omega
  | cons a xs ih =>
    simp only [List.length_cons] at hN
    have hle := h.le_cap
    have hmin : Vec.minNonZeroCap c ≤ 8 ∧ 1 ≤ Vec.minNonZeroCap c := by
      unfold Vec.minNonZeroCap; repeat' split
      all_goals omega
    rw [reserveThenPush]
    refine Sat.bind' (reserve_spec hs h hw (k := 1) ?_) ?_ ?_
    · intro hlt
      refine Nat.le_trans (Nat.mul_le_mul_right _ ?_) hf
      unfold amortized; omega
    · rintro s' ⟨rfl, _⟩; rfl
    rintro _ s' ⟨h1, h2, h3⟩
    have hroom : l.length < s'.self.cap := by
      rw [h2]; split
      · unfold amortized; omega
      · omega
    obtain ⟨s'', e1, e2, e3, e4⟩ := push_reserved hs h1.trans.rep h1.trans.wf hroom a
    rw [M.bind_ok e1]
    have htick : s''.w.tick = s'.w.tick := e4
    have hN1 : N ≠ 0 := by omega
    refine (ih (s := s'') (l := l ++ [a]) e2.trans.rep e2.trans.wf ?_ ?_ ?_ ?_ ?_).mono ?_ ?_
    · rw [htick, h3]; omega
    · rw [htick, h3, e3, h2]
      split
      · rename_i hlt
        right
        rcases ht with ht | ht
        · rw [ht, show t0 + 1 - t0 - 1 = 0 by omega]; unfold amortized; omega
        · by_cases hz : s.w.tick = t0
          · rw [hz, show t0 + 1 - t0 - 1 = 0 by omega]; unfold amortized; omega
          · rw [show s.w.tick + 1 - t0 - 1 = (s.w.tick - t0 - 1) + 1 by omega, Nat.pow_succ]
            unfold amortized; omega
      · simpa using ht
    · rw [htick, h3]
      split
      · rename_i hlt
        right
        rcases ht with ht | ht
        · omega
        · by_cases hz : s.w.tick = t0
          · omega
          · have : 2 ^ (s.w.tick - t0 - 1) ≤ N := by omega
            have := (Nat.le_log2 hN1).mpr this
            omega
      · simpa using hb
    · simp; omega
    · rw [e3, h2]
      split
      · unfold amortized; omega
      · exact hcN
    · rintro _ s3 ⟨g1, g2⟩
      refine ⟨?_, g2⟩
      have := (h1.trans.trans hw e2.trans).trans hw g1
      simpa using this
    · intro s3 g
      rw [g, e2.refusals, h1.refusals]

/-- C06, the part that holds: if every push is preceded by `reserve(1)`, building `n` elements asks
the allocator at most `log2 n + 2` times; and a push into reserved room asks nothing.
Missing: the bound for `push` alone, which is false. -/
theorem C06_push_amortised_partial {w : World α} (hs : c.size ≠ 0) (hw : w.WF) (xs : List α)
    (hf : c.Fits (max (2 * xs.length) 8)) :
    Sat c (reserveThenPush c xs ⟨emptyVec w, w⟩)
      (fun _ s' => Rep c s'.self s'.w xs ∧ s'.w.tick ≤ w.tick + Nat.log2 xs.length + 2)
      (fun s' => s'.w.refusals = w.refusals + 1) ∧
    ∀ (s : VSt α) (l : List α) (a : α), Rep c s.self s.w l → s.w.WF →
      l.length < Vec.capacity c s.self →
      ∃ s', Vec.push c a s = .ok () s' ∧ Rep c s'.self s'.w (l ++ [a]) ∧
        s'.w.tick = s.w.tick := by
  refine ⟨?_, ?_⟩
  · have := reserveThenPush_ticks (s := ⟨emptyVec w, w⟩) (N := xs.length) hs (emptyVec_rep w) hw xs
      (t0 := w.tick) (by simp) (Or.inl rfl) (Or.inl rfl) (by simp) hf (by simp [emptyVec])
    exact this.mono (fun _ s' h => ⟨by simpa using h.1.rep, h.2⟩) (fun _ h => h)
  · intro s l a h hw hc
    rw [capacity_eq hs] at hc
    obtain ⟨s', h1, h2, _, h4⟩ := push_reserved hs h hw hc a
    exact ⟨s', h1, h2.trans.rep, h4⟩

/-- Number of requests, if the run returned. -/
def requests {β : Type} (r : Res (VSt Nat) β) : Option Nat :=
  match r with
  | .ok _ s => some s.w.tick
  | _ => none

example : requests (Vec.pushItems cfg64 false (List.range 20) ⟨emptyVec world0, world0⟩)
    = some 20 := by decide +kernel
example : requests (reserveThenPush cfg64 (List.range 20) ⟨emptyVec world0, world0⟩)
    = some 4 := by decide +kernel

/-! ## C07 -/

/-- C07. A refused `try_reserve_exact`: error, and the only change is that the allocator was asked
(`refuse` counts the request; the heap, this vector, all others and the log are the same). -/
theorem C07_try_reserve_exact {s : VSt α} {l : List α} (hs : c.size ≠ 0) (h : Rep c s.self s.w l)
    (hw : s.w.WF) {k : Nat} (hf : c.Fits (l.length + k)) (hlt : s.self.cap < l.length + k)
    (hg : c.grant s.w.tick ((l.length + k) * c.size) = false) :
    Sat c (Vec.tryReserveExact c k s)
      (fun r s' => r = .error .allocError ∧ s' = s.refuse) (fun _ => False) := by
  refine (tryReserveExact_spec hs h hw hf hlt).mono ?_ (fun _ h => h)
  rintro r s' (⟨_, _, _, _, _, _, h7, _⟩ | ⟨h1, _, h3⟩)
  · rw [hg] at h7; cases h7
  · exact ⟨h1, h3⟩

/-- C07. A refused `try_reserve`. -/
theorem C07_try_reserve {s : VSt α} {l : List α} (hs : c.size ≠ 0) (h : Rep c s.self s.w l)
    (hw : s.w.WF) {k : Nat} (hlt : s.self.cap < l.length + k)
    (hf : c.Fits (max (max (l.length + k) (Vec.minNonZeroCap c)) (s.self.cap * 2)))
    (hg : ∀ b, c.grant s.w.tick b = false) :
    Sat c (Vec.tryReserve c k s)
      (fun r s' => r = .error .allocError ∧ s' = s.refuse) (fun _ => False) := by
  refine (tryReserve_spec hs h hw hf hlt).mono ?_ (fun _ h => h)
  rintro r s' (⟨_, _, _, _, _, _, h7, _⟩ | ⟨h1, _, h3⟩)
  · rw [hg] at h7; cases h7
  · exact ⟨h1, h3⟩

/-- C07. A refused `try_with_capacity_and_marker`. -/
theorem C07_try_with_capacity {w : World α} {n : Nat} (hs : c.size ≠ 0) (hw : w.WF) (hn : 0 < n)
    (hf : c.Fits n) (m : Marker) (hg : c.grant w.tick (n * c.size) = false) :
    Sat c (Vec.tryWithCapacityAndMarker c n m w)
      (fun r w' => r = .error .allocError ∧ w' = w.refuse) (fun _ => False) := by
  refine (tryWithCapacity_spec hs hw hn hf m).mono ?_ (fun _ h => h)
  rintro r w' (⟨v, _, h2, _⟩ | ⟨h1, _, h3⟩)
  · rw [hg] at h2; cases h2
  · exact ⟨h1, h3⟩

/-- C07. A refused `reserve_exact` panics. -/
theorem C07_reserve_exact {s : VSt α} {l : List α} (hs : c.size ≠ 0) (h : Rep c s.self s.w l)
    (hw : s.w.WF) {k : Nat} (hf : c.Fits (l.length + k)) (hlt : s.self.cap < l.length + k)
    (hg : c.grant s.w.tick ((l.length + k) * c.size) = false) :
    Sat c (Vec.reserveExact c k s) (fun _ _ => False) (fun s' => s' = s.refuse) := by
  unfold Vec.reserveExact
  refine Sat.bind' (C07_try_reserve_exact hs h hw hf hlt hg) (fun _ h => h.elim) ?_
  rintro _ _ ⟨rfl, rfl⟩
  exact rfl

/-- C07. A refused `reserve` panics. -/
theorem C07_reserve {s : VSt α} {l : List α} (hs : c.size ≠ 0) (h : Rep c s.self s.w l)
    (hw : s.w.WF) {k : Nat} (hlt : s.self.cap < l.length + k)
    (hf : c.Fits (max (max (l.length + k) (Vec.minNonZeroCap c)) (s.self.cap * 2)))
    (hg : ∀ b, c.grant s.w.tick b = false) :
    Sat c (Vec.reserve c k s) (fun _ _ => False) (fun s' => s' = s.refuse) := by
  unfold Vec.reserve
  refine Sat.bind' (C07_try_reserve hs h hw hlt hf hg) (fun _ h => h.elim) ?_
  rintro _ _ ⟨rfl, rfl⟩
  exact rfl

/-- C07. A refused `with_capacity_and_marker` panics. -/
theorem C07_with_capacity {w : World α} {n : Nat} (hs : c.size ≠ 0) (hw : w.WF) (hn : 0 < n)
    (hf : c.Fits n) (m : Marker) (hg : c.grant w.tick (n * c.size) = false) :
    Sat c (Vec.withCapacityAndMarker c n m w) (fun _ _ => False) (fun w' => w' = w.refuse) := by
  unfold Vec.withCapacityAndMarker
  refine Sat.bind' (C07_try_with_capacity hs hw hn hf m hg) (fun _ h => h.elim) ?_
  rintro _ _ ⟨rfl, rfl⟩
  exact rfl

/-- C07. A refused `push` panics; the element is dropped once, nothing else changes. -/
theorem C07_push {s : VSt α} {l : List α} (hs : c.size ≠ 0) (h : Rep c s.self s.w l)
    (hw : s.w.WF) (hf : c.Fits (l.length + 1)) (hlt : s.self.cap = l.length)
    (hg : c.grant s.w.tick ((l.length + 1) * c.size) = false) (a : α) :
    Sat c (Vec.push c a s) (fun _ _ => False)
      (fun s' => s' = s.refuse.setLog (s.w.log.addDrops [a]) ∧ Rep c s'.self s'.w l) := by
  unfold Vec.push
  refine Sat.bind (Q := fun _ _ => False) ?_ (fun _ _ h => h.elim)
  refine Sat.onUnwind (C07_reserve_exact hs h hw hf (by omega) hg) ?_
  rintro s' rfl
  refine (Trans.dropVal a (Trans.refuse h hw)).mono ?_ (fun _ h => ⟨_, h.2.2⟩)
  rintro _ s'' ⟨h3, rfl, _⟩
  exact ⟨rfl, h3.rep⟩

/-- An allocator that grants nothing. -/
def cfgDeny : Cfg Nat := { cfg64 with grant := fun _ _ => false }

/-- Contents, dropped elements and refusals if the run panicked. -/
def lookPanic {β : Type} (r : Res (VSt Nat) β) : Option (List (Option Nat) × List Nat × Nat) :=
  match r with
  | .panic s => some ((s.w.slots s.self.ptr).take s.self.len, s.w.log.drops, s.w.refusals)
  | _ => none

example : lookPanic (Vec.push cfgDeny 9 (stored cfgDeny [7, 8] 2)) =
    some ([some 7, some 8], [9], 1) := by decide +kernel

/-! ## C08 -/

/-- C08 does not hold: an amount that overflows `usize` panics instead of being reported. -/
theorem C08_refuted_panics {s : VSt α} {k : Nat} (h : c.usizeMax < s.self.len + k) :
    Vec.tryReserve c k s = .panic s ∧ Vec.tryReserveExact c k s = .panic s := by
  have : ¬ s.self.len + k ≤ c.usizeMax := by omega
  constructor
  · simp [Vec.tryReserve, Vec.overflowGuardedAdd, M.bind_apply, this]
  · simp [Vec.tryReserveExact, Vec.overflowGuardedAdd, M.bind_apply, this]

/-- Asking the allocator to resize the buffer, when the size does not overflow `usize`. -/
theorem tryReserveExact_toolarge {s : VSt α} {l : List α} (hs : c.size ≠ 0)
    (h : Rep c s.self s.w l) (hc : 0 < s.self.cap) {k : Nat}
    (hf : ¬ c.Fits (l.length + k)) (hu : (l.length + k) * c.size ≤ c.usizeMax) :
    Vec.tryReserveExact c k s = .ub .badLayout := by
  have hlt : s.self.cap < l.length + k := by
    apply Nat.lt_of_not_le
    intro hle
    exact hf (Nat.le_trans (Nat.mul_le_mul_right _ hle) h.fits)
  have hu1 : l.length + k ≤ c.usizeMax :=
    Nat.le_trans (Nat.le_mul_of_pos_right _ (Nat.pos_of_ne_zero hs)) hu
  have hcap0 : s.self.cap ≠ 0 := by omega
  have hn0 : (l.length + k) * c.size ≠ 0 := Nat.mul_ne_zero (by omega) hs
  unfold Vec.tryReserveExact
  rw [M.bind_ok (M.get_apply s), h.len, M.bind_ok (overflowGuardedAdd_eq hu1), capacity_eq hs,
    if_pos hlt]
  unfold Vec.growExact
  rw [M.bind_ok (M.get_apply s), capacity_eq hs, M.bind_ok (debugAssert_pos hlt), if_neg hcap0]
  unfold Vec.reallocArray
  rw [M.bind_ok (M.get_apply s), M.bind_ok (umul_eq hu)]
  rcases h.buf with ⟨_, h1, _⟩ | ⟨p, b, rest, hp, hb, h1, h2, _⟩
  · omega
  · have hbig : c.maxBytes < (l.length + k) * c.size := by unfold Cfg.Fits at hf; omega
    apply M.bind_ub
    simp only [liftW, rawRealloc, hp, hb, h1, h2, ne_eq, not_true_eq_false, if_false, hn0, hbig,
      if_true]

/-- C08 does not hold: on an allocated vector, an amount whose byte size exceeds `isize::MAX` but not
`usize::MAX` is passed on to the allocator, which breaks its contract. -/
theorem C08_refuted_bad_request {s : VSt α} {l : List α} (hs : c.size ≠ 0)
    (h : Rep c s.self s.w l) (hc : 0 < s.self.cap) {k : Nat}
    (hf : ¬ c.Fits (l.length + k)) (hu : (l.length + k) * c.size ≤ c.usizeMax) :
    Vec.tryReserveExact c k s = .ub .badLayout := tryReserveExact_toolarge hs h hc hf hu

/-- What `Fits` says: the bytes of the elements, rounded up to the alignment, are at most `isize::MAX`. -/
theorem fits_iff (ha : 0 < c.align) (hi : c.align ≤ c.isizeMax + 1) {n : Nat} :
    c.Fits n ↔ n * c.size + (c.align - 1) ≤ c.isizeMax := by
  unfold Cfg.Fits Cfg.maxBytes
  omega

/-- Elements of 24 bytes, aligned to 8. -/
example : ({ cfg64 with size := 24 } : Cfg Nat).Fits (2 ^ 63 / 24) ∧ ¬ ({ cfg64 with size := 24 } : Cfg Nat).Fits (2 ^ 63 / 24 + 1) := by
  decide

/-- Release build of `cfg64`, not counting mere contract violations. -/
def cfgRelease : Cfg Nat := { cfg64 with debug := false, strict := false }

/-- Kind of undefined behaviour of a run. -/
def ubOf {σ β : Type} (r : Res σ β) : Option UB :=
  match r with
  | .ub u => some u
  | _ => none

/-- C08 does not hold: in a release build, an amount whose byte size wraps around `usize` to a small
number `b` is answered with success, although the new buffer has room for `b / size` elements only;
the next `push` writes out of bounds. -/
theorem C08_refuted_corruption {s : VSt α} {l : List α} (hs : c.size ≠ 0) (hdbg : c.debug = false)
    (h : Rep c s.self s.w l) (hc : s.self.cap = l.length) (hpos : 0 < s.self.cap) {k b : Nat}
    (hu : l.length + k ≤ c.usizeMax) (hov : c.usizeMax < (l.length + k) * c.size)
    (hb : (l.length + k) * c.size % (c.usizeMax + 1) = b) (hb0 : b ≠ 0) (hbm : b ≤ c.maxBytes)
    (hg : c.grant s.w.tick b = true) (hbl : b / c.size ≤ l.length) :
    ∃ s', Vec.tryReserveExact c k s = .ok (.ok ()) s' ∧ Vec.capacity c s'.self = l.length + k ∧
      ∀ a, Vec.push c a s' = .ub .oob := by
  have hlt : s.self.cap < l.length + k := by
    apply Nat.lt_of_not_le
    intro hle
    have : (l.length + k) * c.size ≤ s.self.cap * c.size := Nat.mul_le_mul_right _ hle
    have := Fits.mul_le_usize h.fits
    omega
  rcases h.buf with ⟨_, h1, _⟩ | ⟨p, blk, rest, hp, hblk, h1, h2, h3, h4, _⟩
  · omega
  · have e : (umul c (l.length + k) c.size : M (VSt α) Nat) s = .ok b s := by
      have : ¬ (l.length + k) * c.size ≤ c.usizeMax := by omega
      simp [umul, this, hdbg, hb]
    refine ⟨?_, ?_, ?_, ?_⟩
    rotate_left
    · unfold Vec.tryReserveExact
      rw [M.bind_ok (M.get_apply s), h.len, M.bind_ok (overflowGuardedAdd_eq hu), capacity_eq hs,
        if_pos hlt]
      unfold Vec.growExact
      rw [M.bind_ok (M.get_apply s), capacity_eq hs, M.bind_ok (debugAssert_pos hlt),
        if_neg (by omega)]
      unfold Vec.reallocArray
      rw [M.bind_ok (M.get_apply s), M.bind_ok e]
      refine M.bind_ok (s' := ?_) (a := some s.w.next) ?_
      rotate_left
      · simp only [liftW, rawRealloc, hp, hblk, h1, h2, ne_eq, not_true_eq_false, if_false, hb0,
          Nat.not_lt.mpr hbm, hg, if_true]
        rfl
    · simp [capacity_eq hs]
    · intro a
      have hn : s.self.len = l.length := h.len
      unfold Vec.push
      rw [M.bind_ok (M.onUnwind_ok (reserveExact_noop hs (by simp only; omega) (by simp only; omega)))]
      have : ¬ l.length < b / c.size := by omega
      have hsl : blk.slots.length = l.length := by rw [h4, hc]
      simp [Vec.onBuf, M.bind_apply, Buf.getLen, Buf.write, hs, World.slots, hn, hsl, hbl,
        Nat.min_eq_left hbl, this]

/-- The smallest case on a 64-bit machine: one 8-byte element, `try_reserve_exact(2^61)`. -/
example (a x : Nat) : ∃ s',
    Vec.tryReserveExact cfgRelease (2 ^ 61) (stored cfgRelease [a] 1) = .ok (.ok ()) s' ∧
      Vec.push cfgRelease x s' = .ub .oob := by
  obtain ⟨s', h1, _, h3⟩ := C08_refuted_corruption (c := cfgRelease) (s := stored cfgRelease [a] 1)
    (l := [a]) (k := 2 ^ 61) (b := 8) (by decide) rfl
    (stored_rep (by decide) (by simp) (by decide)) rfl (by simp [stored]) (by simp; decide +kernel)
    (by simp; decide +kernel) (by simp; decide +kernel) (by decide) (by decide) rfl
    (by simp [cfgRelease, cfg64])
  exact ⟨s', h1, h3 x⟩

/-- C08, the part that holds: a vector that has not allocated yet reports `CapacityOverflow` and
is unchanged, as long as `len + additional` fits `usize`; an allocated one does so never (see above).
Missing: allocated vectors, and sums that overflow. -/
theorem C08_overflow_partial {s : VSt α} (hs : c.size ≠ 0)
    (h : Rep c s.self s.w []) (hc : s.self.cap = 0) {k : Nat} (hk : k ≤ c.usizeMax)
    (hf : ¬ c.Fits k) :
    Vec.tryReserveExact c k s = .ok (.error .capacityOverflow) s ∧
    Vec.tryReserve c k s = .ok (.error .capacityOverflow) s := by
  have hk0 : k ≠ 0 := by rintro rfl; exact hf (by simp [Cfg.Fits])
  have hl : s.self.len = 0 := h.len
  have grow : ∀ n, k ≤ n → Vec.growExact c n s = .ok (.error .capacityOverflow) s := by
    intro n hn
    have hfn : ¬ c.Fits n := fun hfn => hf (Nat.le_trans (Nat.mul_le_mul_right _ hn) hfn)
    have hn0 : n ≠ 0 := by omega
    unfold Vec.growExact
    rw [M.bind_ok (M.get_apply s), capacity_eq hs, M.bind_ok (debugAssert_pos (by omega)),
      if_pos hc]
    have e : (liftW (Vec.tryWithCapacityAndMarker c n s.self.marker) : M (VSt α) _) s
        = .ok (.error .capacityOverflow) s := by
      simp [liftW, Vec.tryWithCapacityAndMarker, hn0, hs, Vec.allocArrayUninit, hfn]
    rw [M.bind_ok e]
    rfl
  constructor
  · unfold Vec.tryReserveExact
    rw [M.bind_ok (M.get_apply s), hl, M.bind_ok (overflowGuardedAdd_eq (by omega)),
      capacity_eq hs, if_pos (by omega)]
    exact grow _ (by omega)
  · unfold Vec.tryReserve
    rw [M.bind_ok (M.get_apply s), hl, M.bind_ok (overflowGuardedAdd_eq (by omega)),
      capacity_eq hs, if_pos (by omega)]
    unfold Vec.growAmortized
    rw [M.bind_ok (M.get_apply s), capacity_eq hs, M.bind_ok (debugAssert_pos (by omega)),
      M.bind_ok (umul_eq (by rw [hc]; simp))]
    exact grow _ (by omega)

example : ¬ cfg64.Fits (2 ^ 61) ∧ (2 ^ 61) ≤ cfg64.usizeMax := by decide
example : ¬ cfg64.Fits (2 + 2 ^ 60) ∧ (2 + 2 ^ 60) * cfg64.size ≤ cfg64.usizeMax := by decide

/-! ## C22 -/

theorem shrink_zero {s : VSt α} (hs : c.size ≠ 0) (h : Rep c s.self s.w []) (hc : 0 < s.self.cap) :
    Vec.shrink c 0 s = .ub .zeroSize := by
  unfold Vec.shrink
  rw [M.bind_ok (M.get_apply s), capacity_eq hs, M.bind_ok (debugAssert_pos hc),
    M.bind_ok (debugAssert_pos (by have := h.len; simp at this; omega)), if_neg hs]
  unfold Vec.reallocArray
  rw [M.bind_ok (M.get_apply s), M.bind_ok (umul_eq (by simp))]
  rcases h.buf with ⟨_, h1, _⟩ | ⟨p, b, rest, hp, hb, h1, h2, _⟩
  · omega
  · apply M.bind_ub
    simp [liftW, rawRealloc, hp, hb, h1, h2]

/-- C22 does not hold: every way of shrinking an empty vector with spare capacity asks the
allocator to resize a block to zero bytes, which its contract forbids. -/
theorem C22_shrink_empty_refuted {s : VSt α} (hs : c.size ≠ 0) (h : Rep c s.self s.w [])
    (hc : 0 < s.self.cap) :
    Vec.shrinkToFit c s = .ub .zeroSize ∧ Vec.shrinkTo c 0 s = .ub .zeroSize ∧
    Vec.intoBoxedSlice c s.self s.w = .ub .zeroSize := by
  have hl : s.self.len = 0 := h.len
  have e : Vec.shrinkToFit c s = .ub .zeroSize := by
    unfold Vec.shrinkToFit
    rw [M.bind_ok (M.get_apply s), capacity_eq hs, hl, if_pos hc, M.bind_ub (shrink_zero hs h hc)]
  refine ⟨e, ?_, ?_⟩
  · unfold Vec.shrinkTo
    rw [M.bind_ok (M.get_apply s), capacity_eq hs, hl]
    simp only [Nat.max_self]
    rw [if_pos hc, M.bind_ub (shrink_zero hs h hc)]
  · unfold Vec.intoBoxedSlice
    apply M.bind_ub
    have : M.onUnwind (Vec.shrinkToFit c) (Vec.drop c) ⟨s.self, s.w⟩ = .ub .zeroSize := by
      unfold M.onUnwind
      rw [show (⟨s.self, s.w⟩ : VSt α) = s from rfl, e]
    simp only [withLocal, this]

/-- C22, the part that holds: shrinking an empty vector that never allocated does nothing, and
shrinking to a non-zero capacity is fine. Missing: the empty vector with a buffer. -/
theorem C22_shrink_empty_partial {s : VSt α} (hs : c.size ≠ 0) (h : Rep c s.self s.w [])
    (hw : s.w.WF) :
    (s.self.cap = 0 → Vec.shrinkToFit c s = .ok () s ∧ ∀ m, Vec.shrinkTo c m s = .ok () s) ∧
    (∀ m, 0 < m → Sat c (Vec.shrinkTo c m s)
      (fun _ s' => Rep c s'.self s'.w [] ∧ s'.self.cap = min s.self.cap m)
      (fun s' => s' = s.refuse)) := by
  have hl : s.self.len = 0 := h.len
  refine ⟨fun hc => ⟨?_, fun m => ?_⟩, fun m hm => ?_⟩
  · simp [Vec.shrinkToFit, M.bind_apply, capacity_eq hs, hc]
  · simp [Vec.shrinkTo, M.bind_apply, capacity_eq hs, hc]
  · refine (shrinkTo_spec hs h hw (m := m) (Or.inl (by simp; omega))).mono ?_ (fun _ h => h.1)
    rintro _ s' ⟨h1, h2⟩
    exact ⟨h1.trans.rep, by simpa using h2⟩

example : Rep cfg64 (stored cfg64 [] 3).self (stored cfg64 [] 3).w [] :=
  stored_rep (by decide) (by decide) (by decide)
example : ubOf (Vec.shrinkToFit cfg64 (stored cfg64 [] 3)) = some .zeroSize := by decide +kernel

end Lokky
