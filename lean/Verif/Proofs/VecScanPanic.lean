import Verif.Proofs.VecScan
import Verif.Spec.ScanPanic

/-!
# The scans of retain and dedup when destructors panic
-/

namespace Lokky
variable {α : Type} {c : Cfg α}
open Spec (answers accepted rejected runs keyRuns uptoBoom)

/-- A scan came to its end: `K` was kept before it, `r` is what it saw of `n` elements. -/
def ScanOk (c : Cfg α) (K : List α) (r : List (α × Bool)) (n : Nat) (b b' : Buf α) : Prop :=
  Scanned K r n b b' ∧ r.length = n ∧ ∀ a ∈ rejected r, c.dropPanics a = false

/-- A scan stopped at a panic, of the test or of a destructor. -/
def ScanBoom (c : Cfg α) (K : List α) (r : List (α × Bool)) (n : Nat) (b b' : Buf α) : Prop :=
  Scanned K (uptoBoom c.dropPanics r) n b b' ∧
    (r.length < n ∨ ∃ a ∈ rejected r, c.dropPanics a = true)

theorem ScanOk.keep {K : List α} {a : α} {r : List (α × Bool)} {n : Nat} {b b1 b' : Buf α}
    (h : ScanOk c (K ++ [a]) r n b1 b') (hc : b1.cap = b.cap) (hl : b1.log = b.log) :
    ScanOk c K ((a, true) :: r) (n + 1) b b' :=
  ⟨h.1.keep hc hl, by simp [h.2.1], by simpa [rejected] using h.2.2⟩

theorem ScanBoom.keep {K : List α} {a : α} {r : List (α × Bool)} {n : Nat} {b b1 b' : Buf α}
    (h : ScanBoom c (K ++ [a]) r n b1 b') (hc : b1.cap = b.cap) (hl : b1.log = b.log) :
    ScanBoom c K ((a, true) :: r) (n + 1) b b' :=
  ⟨by simpa [uptoBoom] using h.1.keep hc hl, by simpa [rejected] using h.2⟩

theorem ScanOk.discard {K : List α} {a : α} {r : List (α × Bool)} {n : Nat} {b b' : Buf α}
    (h : ScanOk c K r n { b with log := b.log.addDrops [a] } b') (hp : c.dropPanics a = false) :
    ScanOk c K ((a, false) :: r) (n + 1) b b' :=
  ⟨h.1.discard, by simp [h.2.1], by
    have := h.2.2
    simp only [rejected] at this ⊢
    simpa [hp] using this⟩

theorem ScanBoom.discard {K : List α} {a : α} {r : List (α × Bool)} {n : Nat} {b b' : Buf α}
    (h : ScanBoom c K r n { b with log := b.log.addDrops [a] } b') (hp : c.dropPanics a = false) :
    ScanBoom c K ((a, false) :: r) (n + 1) b b' :=
  ⟨by simpa [uptoBoom, hp] using h.1.discard, by
    have := h.2
    simp only [rejected] at this ⊢
    simpa [hp] using this⟩

theorem ScanBoom.boom {K : List α} {a : α} {r : List (α × Bool)} {n : Nat} {b : Buf α}
    (hb : BRep b K) (hp : c.dropPanics a = true) :
    ScanBoom c K ((a, false) :: r) n b { b with log := b.log.addDrops [a] } := by
  refine ⟨?_, Or.inr ⟨a, by simp [rejected], hp⟩⟩
  simp only [uptoBoom, hp, Bool.not_false, Bool.and_self, if_true]
  refine ⟨⟨?_, rfl, by simp [rejected]⟩, rfl⟩
  simpa [accepted] using (⟨hb.len, hb.cap, hb.holds⟩ : BRep { b with log := b.log.addDrops [a] } K)

theorem ScanOk.nil {K : List α} {b : Buf α} (h : BRep b K) : ScanOk c K [] 0 b b :=
  ⟨⟨by simpa [accepted, rejected] using BTrans.refl h, rfl⟩, rfl, by simp [rejected]⟩

theorem ScanBoom.nil {K : List α} {n : Nat} {b : Buf α} (h : BRep b K) :
    ScanBoom c K [] (n + 1) b b :=
  ⟨⟨by simpa [accepted, rejected, uptoBoom] using BTrans.refl h, rfl⟩, Or.inl (by simp)⟩

theorem ScanOk.from {K : List α} {r : List (α × Bool)} {n : Nat} {b b1 b' : Buf α}
    (h : ScanOk c K r n b1 b') (hc : b1.cap = b.cap) (hl : b1.log = b.log) : ScanOk c K r n b b' :=
  ⟨h.1.from hc hl, h.2⟩

theorem ScanBoom.from {K : List α} {r : List (α × Bool)} {n : Nat} {b b1 b' : Buf α}
    (h : ScanBoom c K r n b1 b') (hc : b1.cap = b.cap) (hl : b1.log = b.log) :
    ScanBoom c K r n b b' :=
  ⟨h.1.from hc hl, h.2⟩

theorem retainLoop_boom {b : Buf α} {K R : List α} {w r i : Nat} (hs : c.size ≠ 0)
    (f : Nat → α → Option Bool) (k : Nat) (h : Scan b K R w r i) :
    Sat c (Vec.retainLoop c f R.length k w r i b)
      (fun _ b' => ScanOk c K (answers f k R) R.length b b')
      (fun b' => ScanBoom c K (answers f k R) R.length b b') := by
  induction R generalizing b K w r k with
  | nil => exact ScanOk.nil h.brep
  | cons a R ih =>
    have hini := h.ini
    simp only [List.length_cons] at hini
    rw [List.length_cons, Vec.retainLoop, M.bind_ok (uncheckedIndex_eq (by omega)),
      M.bind_ok (Buf.read_eq hs h.head)]
    simp only [answers]
    cases hf : f k a with
    | none => exact ScanBoom.nil h.brep
    | some q =>
      cases q with
      | true =>
        obtain ⟨b1, e1, e2, e3, e4, _⟩ := keepNext_eq hs h
        simp only
        rw [M.bind_ok e1]
        exact (ih (k + 1) e2).mono (fun _ _ h1 => h1.keep e3 e4) (fun _ h1 => h1.keep e3 e4)
      | false =>
        simp only
        refine Sat.bind' (discardNext_spec hs h) ?_ ?_
        · rintro b' ⟨rfl, hp⟩; exact ScanBoom.boom h.brep hp
        · rintro _ b1 ⟨rfl, e2, hp⟩
          exact (ih (k + 1) e2).mono (fun _ _ h1 => h1.discard hp) (fun _ h1 => h1.discard hp)

theorem dedupByLoop_boom {b : Buf α} {K R : List α} {w r i kp : Nat} {p : α} (hs : c.size ≠ 0)
    (same : Nat → α → α → Option Bool) (k : Nat)
    (h : Scan b K R w r i) (hp : b.slots[kp]? = some (some p)) :
    Sat c (Vec.dedupByLoop c (fun k a b => (same k a b).map fun r => (r, a, b))
        R.length k kp w r i b)
      (fun _ b' => ScanOk c K (runs same k p R) R.length b b')
      (fun b' => ScanBoom c K (runs same k p R) R.length b b') := by
  induction R generalizing b K w r k kp p with
  | nil => exact ScanOk.nil h.brep
  | cons a R ih =>
    have hini := h.ini
    simp only [List.length_cons] at hini
    have h0 : b.slots[r]? = some (some a) := h.head
    rw [List.length_cons, Vec.dedupByLoop, M.bind_ok (uncheckedIndex_eq (by omega)),
      M.bind_ok (Buf.read_eq hs h0), M.bind_ok (Buf.read_eq hs hp)]
    simp only [runs]
    cases hf : same k a p with
    | none => exact ScanBoom.nil h.brep
    | some q =>
      simp only [Option.map_some]
      rw [M.bind_ok (Buf.write_same hs h0), M.bind_ok (Buf.write_same hs hp)]
      cases q with
      | false =>
        obtain ⟨b1, e1, e2, e3, e4, e5⟩ := keepNext_eq hs h
        simp only [Bool.false_eq_true, if_false]
        rw [M.bind_ok e1]
        exact (ih (k + 1) e2 e5).mono (fun _ _ h1 => h1.keep e3 e4) (fun _ h1 => h1.keep e3 e4)
      | true =>
        simp only [if_true]
        refine Sat.bind' (discardNext_spec hs h) ?_ ?_
        · rintro b' ⟨rfl, hx⟩; exact ScanBoom.boom h.brep hx
        · rintro _ b1 ⟨rfl, e2, hx⟩
          exact (ih (k + 1) e2 hp).mono (fun _ _ h1 => h1.discard hx) (fun _ h1 => h1.discard hx)

theorem dedupByKeyLoop_boom {κ : Type} [DecidableEq κ] {b : Buf α} {K R : List α} {w r i : Nat}
    (hs : c.size ≠ 0) (key : Nat → α → Option κ) (k : Nat)
    (p : κ) (h : Scan b K R w r i) :
    Sat c (Vec.dedupByKeyLoop c (fun k a => (key k a).map fun q => (q, a)) R.length k p w r i b)
      (fun _ b' => ScanOk c K (keyRuns key k p R) R.length b b')
      (fun b' => ScanBoom c K (keyRuns key k p R) R.length b b') := by
  induction R generalizing b K w r k p with
  | nil => exact ScanOk.nil h.brep
  | cons a R ih =>
    have hini := h.ini
    simp only [List.length_cons] at hini
    have h0 : b.slots[r]? = some (some a) := h.head
    rw [List.length_cons, Vec.dedupByKeyLoop, M.bind_ok (uncheckedIndex_eq (by omega)),
      M.bind_ok (Buf.read_eq hs h0)]
    simp only [keyRuns]
    cases hf : key k a with
    | none => exact ScanBoom.nil h.brep
    | some q =>
      simp only [Option.map_some]
      rw [M.bind_ok (Buf.write_same hs h0)]
      by_cases hq : p = q
      · rw [if_pos hq, if_pos hq]
        refine Sat.bind' (discardNext_spec hs h) ?_ ?_
        · rintro b' ⟨rfl, hx⟩; exact ScanBoom.boom h.brep hx
        · rintro _ b1 ⟨rfl, e2, hx⟩
          exact (ih (k + 1) p e2).mono (fun _ _ h1 => h1.discard hx) (fun _ h1 => h1.discard hx)
      · rw [if_neg hq, if_neg hq]
        obtain ⟨b1, e1, e2, e3, e4, e5⟩ := keepNext_eq hs h
        rw [M.bind_ok e1]
        exact (ih (k + 1) q e2).mono (fun _ _ h1 => h1.keep e3 e4) (fun _ h1 => h1.keep e3 e4)

/-- `retain` when the first element is accepted: the second one is skipped. -/
theorem retainBuf_keep_boom {b : Buf α} {a x : α} {R : List α} (hs : c.size ≠ 0)
    (f : Nat → α → Option Bool) (h : BRep b (a :: x :: R)) (hf : f 0 a = some true) :
    Sat c (Vec.retainBuf c f b)
      (fun _ b' => ScanOk c [a] (answers f 1 R) R.length b b')
      (fun b' => ScanBoom c [a] (answers f 1 R) R.length b b') := by
  obtain ⟨b1, e1, e2, e3, e4, _⟩ := retainNew_keep (c := c) h
  unfold Vec.retainBuf
  rw [M.bind_ok (Buf.getLen_apply b), if_neg (by rw [h.len]; simp),
    M.bind_ok (Buf.read_eq hs h.head)]
  simp only [hf, Bool.not_true]
  rw [M.bind_ok e1]
  simp only
  rw [show R.length + 2 - 2 = R.length by omega]
  exact (retainLoop_boom hs f 1 e2).mono (fun _ _ h1 => h1.from e3 e4) (fun _ h1 => h1.from e3 e4)

/-- `retain` when the first element is rejected, or there is at most one. -/
theorem retainBuf_boom {b : Buf α} {l : List α} (hs : c.size ≠ 0)
    (f : Nat → α → Option Bool) (h : BRep b l)
    (hf : l.length ≤ 1 ∨ ∃ a, l.head? = some a ∧ f 0 a = some false) :
    Sat c (Vec.retainBuf c f b)
      (fun _ b' => ScanOk c [] (answers f 0 l) l.length b b')
      (fun b' => BTrans l [] b b' ∧ f 0 (l.head?.getD c.zst) = none ∨
        ScanBoom c [] (answers f 0 l) l.length b b') := by
  unfold Vec.retainBuf
  rw [M.bind_ok (Buf.getLen_apply b)]
  cases l with
  | nil =>
    rw [if_pos (by rw [h.len]; simp)]
    exact ScanOk.nil h
  | cons a R =>
    rw [if_neg (by rw [h.len]; simp), M.bind_ok (Buf.read_eq hs h.head)]
    cases hfa : f 0 a with
    | none => exact Or.inl ⟨BTrans.refl h, by simpa using hfa⟩
    | some q =>
      cases q with
      | true =>
        have hR : R = [] := by
          rcases hf with hf | ⟨a', h1, h2⟩
          · simpa using hf
          · simp at h1; subst h1; rw [hfa] at h2; cases h2
        subst hR
        simp only [Bool.not_true]
        rw [M.bind_ok (retainNew_keep1 h)]
        refine ⟨⟨?_, rfl⟩, by simp [answers, hfa], by simp [answers, hfa, rejected]⟩
        simpa [answers, hfa, accepted, rejected] using BTrans.refl h
      | false =>
        simp only [Bool.not_false]
        refine Sat.bind' (retainNew_discard hs h) ?_ ?_
        · rintro b' ⟨h1, h2, hp⟩
          refine Or.inr ⟨?_, Or.inr ⟨a, by simp [answers, hfa, rejected], hp⟩⟩
          simp only [answers, hfa, uptoBoom, hp, Bool.not_false, Bool.and_self, if_true]
          exact ⟨by simpa [accepted, rejected] using h1, h2⟩
        · rintro _ b1 ⟨rfl, e2, e3, e4, hp⟩
          simp only
          rw [show R.length + 1 - 1 = R.length by omega]
          have lift : ∀ r b', Scanned [] r R.length b1 b' →
              Scanned [] ((a, false) :: r) (R.length + 1) b b' := by
            intro r b' h1
            refine ⟨⟨?_, h1.trans.cap.trans e3, ?_⟩, by rw [h1.calls, e4]; rfl⟩
            · simpa [accepted] using h1.trans.rep
            · rw [h1.trans.drops, e4]; simp [rejected]
          simp only [answers, hfa, List.length_cons]
          refine (retainLoop_boom hs f 1 e2).mono ?_ ?_
          · rintro _ b' ⟨h1, h2, h3⟩
            refine ⟨lift _ _ h1, by simp [h2], ?_⟩
            simp only [rejected] at h3 ⊢
            simpa [hp] using h3
          · rintro b' ⟨h1, h2⟩
            refine Or.inr ⟨by simpa [uptoBoom, hp] using lift _ _ h1, ?_⟩
            simp only [rejected] at h2 ⊢
            simpa [hp] using h2

/-- `dedup_by` with a test that does not change the elements, on two or more elements. -/
theorem dedupByBuf_boom {b : Buf α} {a x : α} {R : List α} (hs : c.size ≠ 0)
    (same : Nat → α → α → Option Bool) (h : BRep b (a :: x :: R)) :
    Sat c (Vec.dedupByBuf c (fun k a b => (same k a b).map fun r => (r, a, b)) b)
      (fun _ b' => ScanOk c [a] (runs same 0 a R) R.length b b')
      (fun b' => ScanBoom c [a] (runs same 0 a R) R.length b b') := by
  obtain ⟨b1, e1, e2, e3, e4, e5⟩ := retainNew_keep (c := c) h
  unfold Vec.dedupByBuf
  rw [M.bind_ok (Buf.getLen_apply b), if_neg (by rw [h.len]; simp), M.bind_ok e1]
  simp only
  rw [show R.length + 2 - 2 = R.length by omega]
  refine (dedupByLoop_boom hs same 0 e2 (kp := 0) (p := a) ?_).mono
    (fun _ _ h1 => h1.from e3 e4) (fun _ h1 => h1.from e3 e4)
  rw [e5]; exact h.head

/-- `dedup_by_key` with a key function that does not change the elements. -/
theorem dedupByKeyBuf_boom {κ : Type} [DecidableEq κ] {b : Buf α} {a x : α} {R : List α}
    (hs : c.size ≠ 0) (key : Nat → α → Option κ)
    (h : BRep b (a :: x :: R)) {q : κ} (hq : key 0 a = some q) :
    Sat c (Vec.dedupByKeyBuf c (fun k a => (key k a).map fun q => (q, a)) b)
      (fun _ b' => ScanOk c [a] (keyRuns key 1 q R) R.length b b')
      (fun b' => ScanBoom c [a] (keyRuns key 1 q R) R.length b b') := by
  obtain ⟨b1, e1, e2, e3, e4, e5⟩ := retainNew_keep (c := c) h
  have h0 : b.slots[0]? = some (some a) := h.head
  unfold Vec.dedupByKeyBuf
  rw [M.bind_ok (Buf.getLen_apply b), if_neg (by rw [h.len]; simp), M.bind_ok (Buf.read_eq hs h0)]
  simp only [hq, Option.map_some]
  rw [M.bind_ok (Buf.write_same hs h0), M.bind_ok e1]
  simp only
  rw [show R.length + 2 - 2 = R.length by omega]
  exact (dedupByKeyLoop_boom hs key 1 q e2).mono
    (fun _ _ h1 => h1.from e3 e4) (fun _ h1 => h1.from e3 e4)

end Lokky
