import Verif.Proofs.VecBulk
import Verif.Spec.Scan

/-!
# The scans of retain and dedup
-/

namespace Lokky
variable {α : Type} {c : Cfg α}
open Spec (answers accepted rejected runs keyRuns)

/-- State of a scan: `K` is kept so far, `R` is still to be looked at. -/
structure Scan (b : Buf α) (K R : List α) (write read initial : Nat) : Prop where
  len : b.len = K.length
  cap : b.slots.length = b.cap
  wr : write = K.length
  lt : write < read
  ini : initial = read + R.length
  inicap : initial ≤ b.cap
  kept : ∀ i (h : i < K.length), b.slots[i]? = some (some K[i])
  todo : ∀ i (h : i < R.length), b.slots[read + i]? = some (some R[i])

theorem Scan.brep {b : Buf α} {K R : List α} {w r i : Nat} (h : Scan b K R w r i) : BRep b K :=
  BRep.of_slots h.len h.cap h.kept

theorem Scan.head {b : Buf α} {K R : List α} {a : α} {w r i : Nat} (h : Scan b K (a :: R) w r i) :
    b.slots[r]? = some (some a) := h.todo 0 (by simp)

theorem BRep.head {b : Buf α} {R : List α} {a : α} (h : BRep b (a :: R)) :
    b.slots[0]? = some (some a) := h.slot (i := 0) (by simp)

theorem Buf.copyNonoverlapping_eq {b : Buf α} {src dst : Nat} {a : α} (hs : c.size ≠ 0)
    (hne : src ≠ dst) (h1 : b.slots[src]? = some (some a)) (h2 : dst < b.slots.length) :
    Buf.copyNonoverlapping c src dst 1 b = .ok () { b with slots := b.slots.set dst (some a) } := by
  have h1' : src < b.slots.length := by
    rcases Nat.lt_or_ge src b.slots.length with h | h
    · exact h
    · rw [List.getElem?_eq_none h] at h1; cases h1
  unfold Buf.copyNonoverlapping
  rw [if_neg (by omega), Buf.copy_eq hs (by omega) (by omega)]
  congr 2
  rw [List.set_eq_take_append_cons_drop, if_pos h2]
  have : (b.slots.drop src).take 1 = [some a] := by
    rw [List.drop_eq_getElem_cons h1']
    rw [List.getElem?_eq_getElem h1'] at h1
    simp only [Option.some.injEq] at h1
    simp [h1]
  rw [this]; simp

theorem keepNext_eq {b : Buf α} {K R : List α} {a : α} {w r i : Nat} (hs : c.size ≠ 0)
    (h : Scan b K (a :: R) w r i) :
    ∃ b', Vec.keepNext c w r i b = .ok () b' ∧ Scan b' (K ++ [a]) R (w + 1) (r + 1) i ∧
      b'.cap = b.cap ∧ b'.log = b.log ∧ b'.slots[r]? = some (some a) := by
  have hlt := h.lt
  have hini := h.ini
  have hic := h.inicap
  have hcap := h.cap
  have hwr := h.wr
  simp only [List.length_cons] at hini
  have h0 : b.slots[r]? = some (some a) := h.head
  refine ⟨{ b with slots := b.slots.set w (some a), len := b.len + 1 }, ?_, ?_, rfl, rfl, ?_⟩
  · unfold Vec.keepNext
    rw [M.bind_ok (debugAssert_pos (by omega)), M.bind_ok (uncheckedIndex_eq (by omega)),
      M.bind_ok (uncheckedIndex_eq (by omega)),
      M.bind_ok (Buf.copyNonoverlapping_eq hs (by omega) h0 (by omega)),
      M.bind_ok (Buf.getLen_apply _), Buf.setLen_eq (by simp only; have := h.len; omega)]
  · refine ⟨by simp [h.len], by simp [hcap], by simp [hwr], by omega, by omega, hic, ?_, ?_⟩
    · intro j hj
      simp only [List.length_append, List.length_singleton] at hj
      simp only
      by_cases hjk : j < K.length
      · rw [List.getElem?_set_ne (by omega), h.kept j hjk, List.getElem_append_left hjk]
      · have : j = w := by omega
        subst this
        rw [List.getElem?_set_self (by omega), List.getElem_append_right (by omega)]
        simp
    · intro j hj
      simp only
      rw [List.getElem?_set_ne (by omega)]
      have := h.todo (j + 1) (by simpa using hj)
      rw [show r + 1 + j = r + (j + 1) by omega, this]
      simp
  · simp only
    rw [List.getElem?_set_ne (by omega), h0]

theorem discardNext_spec {b : Buf α} {K R : List α} {a : α} {w r i : Nat} (hs : c.size ≠ 0)
    (h : Scan b K (a :: R) w r i) :
    Sat c (Vec.discardNext c r i b)
      (fun _ b' => b' = { b with log := b.log.addDrops [a] } ∧ Scan b' K R w (r + 1) i ∧
        c.dropPanics a = false)
      (fun b' => b' = { b with log := b.log.addDrops [a] } ∧ c.dropPanics a = true) := by
  have hini := h.ini
  simp only [List.length_cons] at hini
  unfold Vec.discardNext
  rw [M.bind_ok (uncheckedIndex_eq (by omega))]
  refine (Buf.dropAt_spec hs h.head).mono ?_ (fun _ h => h)
  rintro _ b' ⟨rfl, hp⟩
  refine ⟨rfl, ⟨h.len, h.cap, h.wr, Nat.lt_succ_of_lt h.lt, by omega, h.inicap, h.kept, ?_⟩, hp⟩
  intro j hj
  have := h.todo (j + 1) (by simpa using hj)
  simp only
  rw [show r + 1 + j = r + (j + 1) by omega, this]
  simp

/-- What a scan that was not disturbed by destructors leaves behind. -/
structure Scanned (K : List α) (r : List (α × Bool)) (n : Nat) (b b' : Buf α) : Prop where
  trans : BTrans (K ++ accepted r) (rejected r) b b'
  calls : b'.log.calls = b.log.calls

theorem Scanned.keep {K : List α} {a : α} {r : List (α × Bool)} {n : Nat} {b b1 b' : Buf α}
    (h : Scanned (K ++ [a]) r n b1 b') (hc : b1.cap = b.cap) (hl : b1.log = b.log) :
    Scanned K ((a, true) :: r) (n + 1) b b' := by
  refine ⟨⟨?_, h.trans.cap.trans hc, ?_⟩, by rw [h.calls, hl]⟩
  · simpa [accepted] using h.trans.rep
  · rw [h.trans.drops, hl]; simp [rejected]

theorem Scanned.discard {K : List α} {a : α} {r : List (α × Bool)} {n : Nat} {b b' : Buf α}
    (h : Scanned K r n { b with log := b.log.addDrops [a] } b') :
    Scanned K ((a, false) :: r) (n + 1) b b' := by
  refine ⟨⟨?_, h.trans.cap, ?_⟩, by rw [h.calls]; rfl⟩
  · simpa [accepted] using h.trans.rep
  · rw [h.trans.drops]; simp [rejected]

theorem retainLoop_spec {b : Buf α} {K R : List α} {w r i : Nat} (hs : c.size ≠ 0)
    (hd : ∀ a, c.dropPanics a = false) (f : Nat → α → Option Bool) (k : Nat)
    (h : Scan b K R w r i) :
    Sat c (Vec.retainLoop c f R.length k w r i b)
      (fun _ b' => Scanned K (answers f k R) R.length b b' ∧ (answers f k R).length = R.length)
      (fun b' => Scanned K (answers f k R) R.length b b' ∧ (answers f k R).length < R.length) := by
  induction R generalizing b K w r k with
  | nil => exact ⟨⟨by simpa [answers, accepted, rejected] using BTrans.refl h.brep, rfl⟩, rfl⟩
  | cons a R ih =>
    have hini := h.ini
    simp only [List.length_cons] at hini
    rw [List.length_cons, Vec.retainLoop, M.bind_ok (uncheckedIndex_eq (by omega)),
      M.bind_ok (Buf.read_eq hs h.head)]
    simp only [answers]
    cases hf : f k a with
    | none =>
      refine ⟨⟨by simpa [accepted, rejected] using BTrans.refl h.brep, rfl⟩, by simp⟩
    | some q =>
      cases q with
      | true =>
        obtain ⟨b1, e1, e2, e3, e4, _⟩ := keepNext_eq hs h
        simp only
        rw [M.bind_ok e1]
        refine (ih (k + 1) e2).mono ?_ ?_
        · rintro _ b' ⟨h1, h2⟩; exact ⟨h1.keep e3 e4, by simp [h2]⟩
        · rintro b' ⟨h1, h2⟩; exact ⟨h1.keep e3 e4, by simpa using h2⟩
      | false =>
        simp only
        refine Sat.bind' (discardNext_spec hs h) ?_ ?_
        · rintro b' ⟨_, hp⟩; rw [hd a] at hp; cases hp
        · rintro _ b1 ⟨rfl, e2, _⟩
          refine (ih (k + 1) e2).mono ?_ ?_
          · rintro _ b' ⟨h1, h2⟩; exact ⟨h1.discard, by simp [h2]⟩
          · rintro b' ⟨h1, h2⟩; exact ⟨h1.discard, by simpa using h2⟩

theorem retainNew_keep {b : Buf α} {a x : α} {R : List α} (h : BRep b (a :: x :: R)) :
    ∃ b', Vec.retainNew c false b = .ok (1, 2, R.length + 2) b' ∧
      Scan b' [a] R 1 2 (R.length + 2) ∧ b'.cap = b.cap ∧ b'.log = b.log ∧
      b'.slots = b.slots := by
  have hle := h.le_cap
  have hl := h.len
  simp only [List.length_cons] at hle hl
  refine ⟨{ b with len := 1 }, ?_, ?_, rfl, rfl, rfl⟩
  · unfold Vec.retainNew
    rw [M.bind_ok (Buf.getLen_apply b), M.bind_ok (debugAssert_pos (by omega))]
    simp only [Bool.false_eq_true, if_false]
    rw [M.bind_ok (Buf.setLen_eq (by omega)), hl]
    rfl
  · refine ⟨rfl, h.cap, rfl, by omega, by omega, by simp only; omega, ?_, ?_⟩
    · intro j hj
      simp only [List.length_singleton] at hj
      have : j = 0 := by omega
      subst this
      exact h.slot (i := 0) (by simp)
    · intro j hj
      have := h.slot (i := j + 2) (by simpa using hj)
      rw [Nat.add_comm]; simpa using this

theorem retainNew_keep1 {b : Buf α} {a : α} (h : BRep b [a]) :
    Vec.retainNew c false b = .ok (1, 2, 1) b := by
  have hle := h.le_cap
  have hl := h.len
  simp only [List.length_singleton] at hle hl
  unfold Vec.retainNew
  rw [M.bind_ok (Buf.getLen_apply b), M.bind_ok (debugAssert_pos (by omega))]
  simp only [Bool.false_eq_true, if_false]
  rw [M.bind_ok (Buf.setLen_eq (by omega)), hl]
  cases b; cases hl; rfl

theorem retainNew_discard {b : Buf α} {a : α} {R : List α} (hs : c.size ≠ 0)
    (h : BRep b (a :: R)) :
    Sat c (Vec.retainNew c true b)
      (fun x b' => x = (0, 1, R.length + 1) ∧ Scan b' [] R 0 1 (R.length + 1) ∧ b'.cap = b.cap ∧
        b'.log = b.log.addDrops [a] ∧ c.dropPanics a = false)
      (fun b' => BTrans [] [a] b b' ∧ b'.log.calls = b.log.calls ∧ c.dropPanics a = true) := by
  have hle := h.le_cap
  have hl := h.len
  simp only [List.length_cons] at hle hl
  unfold Vec.retainNew
  rw [M.bind_ok (Buf.getLen_apply b), M.bind_ok (debugAssert_pos (by omega))]
  simp only [if_true]
  rw [M.bind_ok (Buf.setLen_eq (by omega)), M.bind_ok (uncheckedIndex_eq (by omega))]
  refine Sat.bind' (Buf.dropAt_spec hs h.head) ?_ ?_
  · rintro b' ⟨rfl, hp⟩
    exact ⟨⟨⟨rfl, h.cap, ⟨b.slots, by simp⟩⟩, rfl, by simp⟩, rfl, hp⟩
  rintro _ b' ⟨rfl, hp⟩
  refine ⟨by rw [hl], ⟨rfl, h.cap, rfl, by omega, by omega, by simp only; omega, by simp, ?_⟩,
    rfl, rfl, hp⟩
  intro j hj
  have := h.slot (i := j + 1) (by simpa using hj)
  rw [Nat.add_comm]; simpa using this

/-- `retain` when the first element is accepted: the second one is skipped. -/
theorem retainBuf_keep {b : Buf α} {a x : α} {R : List α} (hs : c.size ≠ 0)
    (hd : ∀ a, c.dropPanics a = false) (f : Nat → α → Option Bool) (h : BRep b (a :: x :: R))
    (hf : f 0 a = some true) :
    Sat c (Vec.retainBuf c f b)
      (fun _ b' => Scanned [a] (answers f 1 R) R.length b b' ∧ (answers f 1 R).length = R.length)
      (fun b' => Scanned [a] (answers f 1 R) R.length b b' ∧ (answers f 1 R).length < R.length) := by
  obtain ⟨b1, e1, e2, e3, e4, _⟩ := retainNew_keep (c := c) h
  unfold Vec.retainBuf
  rw [M.bind_ok (Buf.getLen_apply b), if_neg (by rw [h.len]; simp),
    M.bind_ok (Buf.read_eq hs h.head)]
  simp only [hf, Bool.not_true]
  rw [M.bind_ok e1]
  simp only
  rw [show R.length + 2 - 2 = R.length by omega]
  refine (retainLoop_spec hs hd f 1 e2).mono ?_ ?_
  · rintro _ b' ⟨h1, h2⟩
    exact ⟨⟨⟨h1.trans.rep, h1.trans.cap.trans e3, by rw [h1.trans.drops, e4]⟩,
      by rw [h1.calls, e4]⟩, h2⟩
  · rintro b' ⟨h1, h2⟩
    exact ⟨⟨⟨h1.trans.rep, h1.trans.cap.trans e3, by rw [h1.trans.drops, e4]⟩,
      by rw [h1.calls, e4]⟩, h2⟩

/-- `retain` when the first element is rejected (or its test panics), or there is only one. -/
theorem retainBuf_ok {b : Buf α} {l : List α} (hs : c.size ≠ 0)
    (hd : ∀ a, c.dropPanics a = false) (f : Nat → α → Option Bool) (h : BRep b l)
    (hf : l.length ≤ 1 ∨ ∃ a, l.head? = some a ∧ f 0 a = some false) :
    Sat c (Vec.retainBuf c f b)
      (fun _ b' => Scanned [] (answers f 0 l) l.length b b' ∧ (answers f 0 l).length = l.length)
      (fun b' => BTrans l [] b b' ∧ f 0 (l.head?.getD c.zst) = none ∨
        Scanned [] (answers f 0 l) l.length b b' ∧ (answers f 0 l).length < l.length) := by
  unfold Vec.retainBuf
  rw [M.bind_ok (Buf.getLen_apply b)]
  cases l with
  | nil =>
    rw [if_pos (by rw [h.len]; simp)]
    exact ⟨⟨by simpa [answers, accepted, rejected] using BTrans.refl h, rfl⟩, rfl⟩
  | cons a R =>
    rw [if_neg (by rw [h.len]; simp),
      M.bind_ok (Buf.read_eq hs h.head)]
    cases hfa : f 0 a with
    | none =>
      refine Or.inl ⟨BTrans.refl h, by simpa using hfa⟩
    | some q =>
      cases q with
      | true =>
        have hR : R = [] := by
          rcases hf with hf | ⟨a', h1, h2⟩
          · simpa using hf
          · simp at h1; subst h1; rw [hfa] at h2; cases h2
        subst hR
        simp only [Bool.not_true]
        rw [M.bind_ok (retainNew_keep1 h)]
        refine ⟨⟨?_, rfl⟩, by simp [answers, hfa]⟩
        simpa [answers, hfa, accepted, rejected] using BTrans.refl h
      | false =>
        simp only [Bool.not_false]
        refine Sat.bind' (retainNew_discard hs h) ?_ ?_
        · rintro b' ⟨_, _, hp⟩; rw [hd a] at hp; cases hp
        · rintro _ b1 ⟨rfl, e2, e3, e4, _⟩
          simp only
          rw [show R.length + 1 - 1 = R.length by omega]
          have lift : ∀ b', Scanned [] (answers f 1 R) R.length b1 b' →
              Scanned [] (answers f 0 (a :: R)) (R.length + 1) b b' := by
            intro b' h1
            refine ⟨⟨?_, h1.trans.cap.trans e3, ?_⟩, by rw [h1.calls, e4]; rfl⟩
            · simpa [answers, hfa, accepted] using h1.trans.rep
            · rw [h1.trans.drops, e4]; simp [answers, hfa, rejected]
          refine (retainLoop_spec hs hd f 1 e2).mono ?_ ?_
          · rintro _ b' ⟨h1, h2⟩
            exact ⟨lift _ h1, by simp [answers, hfa, h2]⟩
          · rintro b' ⟨h1, h2⟩
            exact Or.inr ⟨lift _ h1, by simpa [answers, hfa] using h2⟩

/-! ## dedup -/

theorem Buf.write_same {b : Buf α} {i : Nat} {a : α} (hs : c.size ≠ 0)
    (h : b.slots[i]? = some (some a)) : Buf.write c i a b = .ok () b := by
  have hlt : i < b.slots.length := by
    rcases Nat.lt_or_ge i b.slots.length with h' | h'
    · exact h'
    · rw [List.getElem?_eq_none h'] at h; cases h
  rw [Buf.write_eq hs hlt]
  have : b.slots.set i (some a) = b.slots := by
    rw [List.getElem?_eq_getElem hlt] at h
    simp only [Option.some.injEq] at h
    rw [← h]; simp
  rw [this]

theorem dedupByLoop_spec {b : Buf α} {K R : List α} {w r i kp : Nat} {p : α} (hs : c.size ≠ 0)
    (hd : ∀ a, c.dropPanics a = false) (same : Nat → α → α → Option Bool) (k : Nat)
    (h : Scan b K R w r i) (hp : b.slots[kp]? = some (some p)) :
    Sat c (Vec.dedupByLoop c (fun k a b => (same k a b).map fun r => (r, a, b))
        R.length k kp w r i b)
      (fun _ b' => Scanned K (runs same k p R) R.length b b' ∧ (runs same k p R).length = R.length)
      (fun b' => Scanned K (runs same k p R) R.length b b' ∧
        (runs same k p R).length < R.length) := by
  induction R generalizing b K w r k kp p with
  | nil => exact ⟨⟨by simpa [runs, accepted, rejected] using BTrans.refl h.brep, rfl⟩, rfl⟩
  | cons a R ih =>
    have hini := h.ini
    simp only [List.length_cons] at hini
    have h0 : b.slots[r]? = some (some a) := h.head
    rw [List.length_cons, Vec.dedupByLoop, M.bind_ok (uncheckedIndex_eq (by omega)),
      M.bind_ok (Buf.read_eq hs h0), M.bind_ok (Buf.read_eq hs hp)]
    simp only [runs]
    cases hf : same k a p with
    | none =>
      refine ⟨⟨by simpa [accepted, rejected] using BTrans.refl h.brep, rfl⟩, by simp⟩
    | some q =>
      simp only [Option.map_some]
      rw [M.bind_ok (Buf.write_same hs h0), M.bind_ok (Buf.write_same hs hp)]
      cases q with
      | false =>
        obtain ⟨b1, e1, e2, e3, e4, e5⟩ := keepNext_eq hs h
        simp only [Bool.false_eq_true, if_false]
        rw [M.bind_ok e1]
        refine (ih (k + 1) e2 e5).mono ?_ ?_
        · rintro _ b' ⟨h1, h2⟩; exact ⟨h1.keep e3 e4, by simp [h2]⟩
        · rintro b' ⟨h1, h2⟩; exact ⟨h1.keep e3 e4, by simpa using h2⟩
      | true =>
        simp only [if_true]
        refine Sat.bind' (discardNext_spec hs h) ?_ ?_
        · rintro b' ⟨_, hp⟩; rw [hd a] at hp; cases hp
        · rintro _ b1 ⟨rfl, e2, _⟩
          refine (ih (k + 1) e2 hp).mono ?_ ?_
          · rintro _ b' ⟨h1, h2⟩; exact ⟨h1.discard, by simp [h2]⟩
          · rintro b' ⟨h1, h2⟩; exact ⟨h1.discard, by simpa using h2⟩

theorem dedupByKeyLoop_spec {κ : Type} [DecidableEq κ] {b : Buf α} {K R : List α} {w r i : Nat}
    (hs : c.size ≠ 0) (hd : ∀ a, c.dropPanics a = false) (key : Nat → α → Option κ) (k : Nat)
    (p : κ) (h : Scan b K R w r i) :
    Sat c (Vec.dedupByKeyLoop c (fun k a => (key k a).map fun q => (q, a)) R.length k p w r i b)
      (fun _ b' => Scanned K (keyRuns key k p R) R.length b b' ∧
        (keyRuns key k p R).length = R.length)
      (fun b' => Scanned K (keyRuns key k p R) R.length b b' ∧
        (keyRuns key k p R).length < R.length) := by
  induction R generalizing b K w r k p with
  | nil => exact ⟨⟨by simpa [keyRuns, accepted, rejected] using BTrans.refl h.brep, rfl⟩, rfl⟩
  | cons a R ih =>
    have hini := h.ini
    simp only [List.length_cons] at hini
    have h0 : b.slots[r]? = some (some a) := h.head
    rw [List.length_cons, Vec.dedupByKeyLoop, M.bind_ok (uncheckedIndex_eq (by omega)),
      M.bind_ok (Buf.read_eq hs h0)]
    simp only [keyRuns]
    cases hf : key k a with
    | none =>
      refine ⟨⟨by simpa [accepted, rejected] using BTrans.refl h.brep, rfl⟩, by simp⟩
    | some q =>
      simp only [Option.map_some]
      rw [M.bind_ok (Buf.write_same hs h0)]
      by_cases hq : p = q
      · rw [if_pos hq, if_pos hq]
        refine Sat.bind' (discardNext_spec hs h) ?_ ?_
        · rintro b' ⟨_, hp⟩; rw [hd a] at hp; cases hp
        · rintro _ b1 ⟨rfl, e2, _⟩
          refine (ih (k + 1) p e2).mono ?_ ?_
          · rintro _ b' ⟨h1, h2⟩; exact ⟨h1.discard, by simp [h2]⟩
          · rintro b' ⟨h1, h2⟩; exact ⟨h1.discard, by simpa using h2⟩
      · rw [if_neg hq, if_neg hq]
        obtain ⟨b1, e1, e2, e3, e4, e5⟩ := keepNext_eq hs h
        rw [M.bind_ok e1]
        refine (ih (k + 1) q e2).mono ?_ ?_
        · rintro _ b' ⟨h1, h2⟩; exact ⟨h1.keep e3 e4, by simp [h2]⟩
        · rintro b' ⟨h1, h2⟩; exact ⟨h1.keep e3 e4, by simpa using h2⟩

theorem Scanned.from {K : List α} {r : List (α × Bool)} {n : Nat} {b b1 b' : Buf α}
    (h : Scanned K r n b1 b') (hc : b1.cap = b.cap) (hl : b1.log = b.log) : Scanned K r n b b' :=
  ⟨⟨h.trans.rep, h.trans.cap.trans hc, by rw [h.trans.drops, hl]⟩, by rw [h.calls, hl]⟩

/-- `dedup_by` with a test that does not change the elements, on two or more elements. -/
theorem dedupByBuf_spec {b : Buf α} {a x : α} {R : List α} (hs : c.size ≠ 0)
    (hd : ∀ a, c.dropPanics a = false) (same : Nat → α → α → Option Bool)
    (h : BRep b (a :: x :: R)) :
    Sat c (Vec.dedupByBuf c (fun k a b => (same k a b).map fun r => (r, a, b)) b)
      (fun _ b' => Scanned [a] (runs same 0 a R) R.length b b' ∧
        (runs same 0 a R).length = R.length)
      (fun b' => Scanned [a] (runs same 0 a R) R.length b b' ∧
        (runs same 0 a R).length < R.length) := by
  obtain ⟨b1, e1, e2, e3, e4, e5⟩ := retainNew_keep (c := c) h
  unfold Vec.dedupByBuf
  rw [M.bind_ok (Buf.getLen_apply b), if_neg (by rw [h.len]; simp), M.bind_ok e1]
  simp only
  rw [show R.length + 2 - 2 = R.length by omega]
  refine (dedupByLoop_spec hs hd same 0 e2 (kp := 0) (p := a) ?_).mono ?_ ?_
  · rw [e5]; exact h.head
  · rintro _ b' ⟨h1, h2⟩; exact ⟨h1.from e3 e4, h2⟩
  · rintro b' ⟨h1, h2⟩; exact ⟨h1.from e3 e4, h2⟩

theorem dedupByBuf_small {b : Buf α} {l : List α}
    (same : Nat → α → α → Option (Bool × α × α)) (h : BRep b l) (hl : l.length ≤ 1) :
    Vec.dedupByBuf c same b = .ok () b := by
  unfold Vec.dedupByBuf
  rw [M.bind_ok (Buf.getLen_apply b)]
  match l, hl with
  | [], _ => rw [if_pos (by rw [h.len]; simp)]; rfl
  | [a], _ =>
    rw [if_neg (by rw [h.len]; simp), M.bind_ok (retainNew_keep1 h)]
    rfl

/-- `dedup_by_key` with a key function that does not change the elements. -/
theorem dedupByKeyBuf_spec {κ : Type} [DecidableEq κ] {b : Buf α} {a x : α} {R : List α}
    (hs : c.size ≠ 0) (hd : ∀ a, c.dropPanics a = false) (key : Nat → α → Option κ)
    (h : BRep b (a :: x :: R)) {q : κ} (hq : key 0 a = some q) :
    Sat c (Vec.dedupByKeyBuf c (fun k a => (key k a).map fun q => (q, a)) b)
      (fun _ b' => Scanned [a] (keyRuns key 1 q R) R.length b b' ∧
        (keyRuns key 1 q R).length = R.length)
      (fun b' => Scanned [a] (keyRuns key 1 q R) R.length b b' ∧
        (keyRuns key 1 q R).length < R.length) := by
  obtain ⟨b1, e1, e2, e3, e4, e5⟩ := retainNew_keep (c := c) h
  have h0 : b.slots[0]? = some (some a) := h.head
  unfold Vec.dedupByKeyBuf
  rw [M.bind_ok (Buf.getLen_apply b), if_neg (by rw [h.len]; simp), M.bind_ok (Buf.read_eq hs h0)]
  simp only [hq, Option.map_some]
  rw [M.bind_ok (Buf.write_same hs h0), M.bind_ok e1]
  simp only
  rw [show R.length + 2 - 2 = R.length by omega]
  refine (dedupByKeyLoop_spec hs hd key 1 q e2).mono ?_ ?_
  · rintro _ b' ⟨h1, h2⟩; exact ⟨h1.from e3 e4, h2⟩
  · rintro b' ⟨h1, h2⟩; exact ⟨h1.from e3 e4, h2⟩

end Lokky
