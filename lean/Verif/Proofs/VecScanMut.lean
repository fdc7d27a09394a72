import Verif.Proofs.VecScan
import Verif.Spec.ScanMut

/-!
# dedup with tests that change the elements
-/

namespace Lokky
open Spec
variable {α : Type} {c : Cfg α}

theorem Scan.set_todo {b : Buf α} {K R : List α} {a a' : α} {w r i : Nat}
    (h : Scan b K (a :: R) w r i) :
    Scan { b with slots := b.slots.set r (some a') } K (a' :: R) w r i := by
  have hini := h.ini
  have hic := h.inicap
  have hcap := h.cap
  have hwr := h.wr
  have hlt := h.lt
  simp only [List.length_cons] at hini
  refine ⟨h.len, by simp [hcap], hwr, hlt, by simpa using h.ini, hic, ?_, ?_⟩
  · intro j hj
    simp only
    rw [List.getElem?_set_ne (by omega)]
    exact h.kept j hj
  · intro j hj
    simp only
    cases j with
    | zero => rw [Nat.add_zero, List.getElem?_set_self (by omega)]; simp
    | succ j =>
      rw [List.getElem?_set_ne (by omega)]
      have := h.todo (j + 1) (by simpa using hj)
      simpa using this

theorem Scan.set_aside {b : Buf α} {K R : List α} {p : α} {w r i kp : Nat}
    (h : Scan b K R w r i) (hk : w ≤ kp) (hr : kp < r) :
    Scan { b with slots := b.slots.set kp (some p) } K R w r i := by
  have hwr := h.wr
  refine ⟨h.len, by simp [h.cap], hwr, h.lt, h.ini, h.inicap, ?_, ?_⟩
  · intro j hj
    simp only
    rw [List.getElem?_set_ne (by omega)]
    exact h.kept j hj
  · intro j hj
    simp only
    rw [List.getElem?_set_ne (by omega)]
    exact h.todo j hj

theorem Scan.set_first {b : Buf α} {R : List α} {p p' : α} {w r i : Nat}
    (h : Scan b [p] R w r i) :
    Scan { b with slots := b.slots.set 0 (some p') } [p'] R w r i := by
  have hwr := h.wr
  have hlt := h.lt
  have hini := h.ini
  have hic := h.inicap
  have hcap := h.cap
  refine ⟨h.len, by simp [h.cap], hwr, hlt, hini, hic, ?_, ?_⟩
  · intro j hj
    simp only [List.length_singleton] at hj
    have : j = 0 := by omega
    subst this
    simp only
    rw [List.getElem?_set_self (by omega)]; simp
  · intro j hj
    simp only
    rw [List.getElem?_set_ne (by omega)]
    exact h.todo j hj

theorem BTrans.keepAs {l d : List α} {b b1 b' : Buf α} (h : BTrans l d b1 b')
    (hc : b1.cap = b.cap) (hl : b1.log = b.log) : BTrans l d b b' :=
  ⟨h.rep, h.cap.trans hc, by rw [h.drops, hl]⟩

theorem BTrans.dropAs {l d : List α} {a : α} {b b1 b' : Buf α}
    (h : BTrans l d { b1 with log := b1.log.addDrops [a] } b')
    (hc : b1.cap = b.cap) (hl : b1.log = b.log) : BTrans l (a :: d) b b' :=
  ⟨h.rep, h.cap.trans hc, by rw [h.drops]; simp [hl]⟩

/-- After the first element was left behind, the calls change a copy. -/
theorem dedupByLoop_aside {b : Buf α} {K R : List α} {w r i kp : Nat} {p : α} (hs : c.size ≠ 0)
    (hd : ∀ a, c.dropPanics a = false) (same : Nat → α → α → Bool × α × α) (k : Nat)
    (h : Scan b K R w r i) (hp : b.slots[kp]? = some (some p)) (hk : w ≤ kp) (hr : kp < r) :
    Sat c (Vec.dedupByLoop c (fun k a b => some (same k a b)) R.length k kp w r i b)
      (fun _ b' => BTrans (K ++ (mergedAside same k p R).1) (mergedAside same k p R).2 b b')
      (fun _ => False) := by
  induction R generalizing b K w r k kp p with
  | nil =>
    show BTrans _ _ b b
    simpa [mergedAside] using BTrans.refl h.brep
  | cons a R ih =>
    have hini := h.ini
    have hic := h.inicap
    have hcap := h.cap
    have hwr := h.wr
    simp only [List.length_cons] at hini
    have h0 : b.slots[r]? = some (some a) := h.head
    rw [List.length_cons, Vec.dedupByLoop, M.bind_ok (uncheckedIndex_eq (by omega)),
      M.bind_ok (Buf.read_eq hs h0), M.bind_ok (Buf.read_eq hs hp)]
    simp only [mergedAside]
    rcases same k a p with ⟨q, a', p'⟩
    simp only
    rw [M.bind_ok (Buf.write_eq hs (by omega)), M.bind_ok (Buf.write_eq hs (by simp; omega))]
    have h1 := (h.set_todo (a' := a')).set_aside (p := p') hk hr
    simp only at h1
    cases q with
    | false =>
      obtain ⟨b1, e1, e2, e3, e4, e5⟩ := keepNext_eq hs h1
      simp only [Bool.false_eq_true, if_false]
      rw [M.bind_ok e1]
      refine (ih (k + 1) e2 e5 (by have := h.lt; omega) (by omega)).mono ?_ (fun _ h => h)
      rintro _ b' hb
      have hb := BTrans.keepAs (b := b) hb e3 e4
      simpa using hb
    | true =>
      simp only [if_true]
      refine Sat.bind' (discardNext_spec hs h1) ?_ ?_
      · rintro b' ⟨_, hp⟩; rw [hd a'] at hp; cases hp
      · rintro _ b1 ⟨rfl, e2, _⟩
        refine (ih (k + 1) e2 (kp := kp) (p := p') ?_ hk (by omega)).mono ?_ (fun _ h => h)
        · simp only
          rw [List.getElem?_set_self (by simp; omega)]
        · rintro _ b' hb
          exact BTrans.dropAs (b := b) hb rfl rfl

/-- Until an element is kept, the calls change the first element itself. -/
theorem dedupByLoop_first {b : Buf α} {R : List α} {r i : Nat} {p : α} (hs : c.size ≠ 0)
    (hd : ∀ a, c.dropPanics a = false) (same : Nat → α → α → Bool × α × α) (k : Nat)
    (h : Scan b [p] R 1 r i) :
    Sat c (Vec.dedupByLoop c (fun k a b => some (same k a b)) R.length k 0 1 r i b)
      (fun _ b' => BTrans (mergedFirst same k p R).1 (mergedFirst same k p R).2 b b')
      (fun _ => False) := by
  induction R generalizing b r k p with
  | nil =>
    show BTrans _ _ b b
    simpa [mergedFirst] using BTrans.refl h.brep
  | cons a R ih =>
    have hini := h.ini
    have hic := h.inicap
    have hcap := h.cap
    have hlt := h.lt
    simp only [List.length_cons] at hini
    have h0 : b.slots[r]? = some (some a) := h.head
    have hp : b.slots[0]? = some (some p) := by simpa using h.kept 0 (by simp)
    rw [List.length_cons, Vec.dedupByLoop, M.bind_ok (uncheckedIndex_eq (by omega)),
      M.bind_ok (Buf.read_eq hs h0), M.bind_ok (Buf.read_eq hs hp)]
    simp only [mergedFirst]
    rcases same k a p with ⟨q, a', p'⟩
    simp only
    rw [M.bind_ok (Buf.write_eq hs (by omega)), M.bind_ok (Buf.write_eq hs (by simp; omega))]
    have h1 := (h.set_todo (a' := a')).set_first (p' := p')
    simp only at h1
    cases q with
    | false =>
      obtain ⟨b1, e1, e2, e3, e4, e5⟩ := keepNext_eq hs h1
      simp only [Bool.false_eq_true, if_false]
      rw [M.bind_ok e1]
      refine (dedupByLoop_aside hs hd same (k + 1) e2 e5 (by omega) (by omega)).mono ?_
        (fun _ h => h)
      rintro _ b' hb
      have hb := BTrans.keepAs (b := b) hb e3 e4
      simpa using hb
    | true =>
      simp only [if_true]
      refine Sat.bind' (discardNext_spec hs h1) ?_ ?_
      · rintro b' ⟨_, hp⟩; rw [hd a'] at hp; cases hp
      · rintro _ b1 ⟨rfl, e2, _⟩
        refine (ih (k + 1) e2).mono ?_ (fun _ h => h)
        rintro _ b' hb
        exact BTrans.dropAs (b := b) hb rfl rfl

theorem dedupByBuf_mut {b : Buf α} {a x : α} {R : List α} (hs : c.size ≠ 0)
    (hd : ∀ a, c.dropPanics a = false) (same : Nat → α → α → Bool × α × α)
    (h : BRep b (a :: x :: R)) :
    Sat c (Vec.dedupByBuf c (fun k a b => some (same k a b)) b)
      (fun _ b' => BTrans (mergedFirst same 0 a R).1 (mergedFirst same 0 a R).2 b b')
      (fun _ => False) := by
  obtain ⟨b1, e1, e2, e3, e4, e5⟩ := retainNew_keep (c := c) h
  unfold Vec.dedupByBuf
  rw [M.bind_ok (Buf.getLen_apply b), if_neg (by rw [h.len]; simp), M.bind_ok e1]
  simp only
  rw [show R.length + 2 - 2 = R.length by omega]
  exact (dedupByLoop_first hs hd same 0 e2).mono (fun _ _ hb => hb.keepAs e3 e4) (fun _ h => h)

theorem dedupByKeyLoop_mut {κ : Type} [DecidableEq κ] {b : Buf α} {K R : List α} {w r i : Nat}
    (hs : c.size ≠ 0) (hd : ∀ a, c.dropPanics a = false) (key : Nat → α → κ × α) (k : Nat)
    (p : κ) (h : Scan b K R w r i) :
    Sat c (Vec.dedupByKeyLoop c (fun k a => some (key k a)) R.length k p w r i b)
      (fun _ b' => BTrans (K ++ (keyMerged key k p R).1) (keyMerged key k p R).2 b b')
      (fun _ => False) := by
  induction R generalizing b K w r k p with
  | nil =>
    show BTrans _ _ b b
    simpa [keyMerged] using BTrans.refl h.brep
  | cons a R ih =>
    have hini := h.ini
    have hic := h.inicap
    have hcap := h.cap
    simp only [List.length_cons] at hini
    have h0 : b.slots[r]? = some (some a) := h.head
    rw [List.length_cons, Vec.dedupByKeyLoop, M.bind_ok (uncheckedIndex_eq (by omega)),
      M.bind_ok (Buf.read_eq hs h0)]
    simp only [keyMerged]
    rcases key k a with ⟨q, a'⟩
    simp only
    rw [M.bind_ok (Buf.write_eq hs (by omega))]
    have h1 := h.set_todo (a' := a')
    by_cases hq : p = q
    · rw [if_pos hq, if_pos hq]
      refine Sat.bind' (discardNext_spec hs h1) ?_ ?_
      · rintro b' ⟨_, hp⟩; rw [hd a'] at hp; cases hp
      · rintro _ b1 ⟨rfl, e2, _⟩
        refine (ih (k + 1) p e2).mono ?_ (fun _ h => h)
        rintro _ b' hb
        exact BTrans.dropAs (b := b) hb rfl rfl
    · rw [if_neg hq, if_neg hq]
      obtain ⟨b1, e1, e2, e3, e4, e5⟩ := keepNext_eq hs h1
      rw [M.bind_ok e1]
      refine (ih (k + 1) q e2).mono ?_ (fun _ h => h)
      rintro _ b' hb
      have hb := BTrans.keepAs (b := b) hb e3 e4
      simpa using hb

theorem BRep.set_head {b : Buf α} {a a' : α} {R : List α} (h : BRep b (a :: R)) :
    BRep { b with slots := b.slots.set 0 (some a') } (a' :: R) := by
  obtain ⟨rest, hr⟩ := h.holds
  refine ⟨by simpa using h.len, by simp [h.cap], ⟨rest, ?_⟩⟩
  simp [hr]

theorem dedupByKeyBuf_mut {κ : Type} [DecidableEq κ] {b : Buf α} {a x : α} {R : List α}
    (hs : c.size ≠ 0) (hd : ∀ a, c.dropPanics a = false) (key : Nat → α → κ × α)
    (h : BRep b (a :: x :: R)) :
    Sat c (Vec.dedupByKeyBuf c (fun k a => some (key k a)) b)
      (fun _ b' => BTrans ((key 0 a).2 :: (keyMerged key 1 (key 0 a).1 R).1)
        (keyMerged key 1 (key 0 a).1 R).2 b b')
      (fun _ => False) := by
  have h0 : b.slots[0]? = some (some a) := h.head
  have hlt : 0 < b.slots.length := by have := h.le_cap; have := h.cap; simp at *; omega
  unfold Vec.dedupByKeyBuf
  rw [M.bind_ok (Buf.getLen_apply b), if_neg (by rw [h.len]; simp), M.bind_ok (Buf.read_eq hs h0)]
  simp only
  rw [M.bind_ok (Buf.write_eq hs hlt)]
  obtain ⟨b1, e1, e2, e3, e4, e5⟩ := retainNew_keep (c := c) (h.set_head (a' := (key 0 a).2))
  rw [M.bind_ok e1]
  simp only
  rw [show R.length + 2 - 2 = R.length by omega]
  exact (dedupByKeyLoop_mut hs hd key 1 _ e2).mono
    (fun _ _ hb => by simpa using BTrans.keepAs (b := b) hb e3 e4) (fun _ h => h)

/-- Calls that leave the kept element alone. -/
theorem mergedAside_eq (same : Nat → α → α → Bool × α × α) (hk : ∀ k a p, (same k a p).2.2 = p)
    (l : List α) : ∀ k p, merged same k p l =
      (p :: (mergedAside same k p l).1, (mergedAside same k p l).2) := by
  induction l with
  | nil => intros; rfl
  | cons a l ih =>
    intro k p
    have := hk k a p
    simp only [merged, mergedAside]
    rcases he : same k a p with ⟨q, a', p'⟩
    rw [he] at this
    simp only at this
    subst this
    cases q <;> simp [ih]

theorem mergedFirst_eq (same : Nat → α → α → Bool × α × α) (hk : ∀ k a p, (same k a p).2.2 = p)
    (l : List α) : ∀ k p, mergedFirst same k p l = merged same k p l := by
  induction l with
  | nil => intros; rfl
  | cons a l ih =>
    intro k p
    simp only [merged, mergedFirst]
    rcases same k a p with ⟨q, a', p'⟩
    cases q <;> simp [ih, mergedAside_eq same hk]

/-- Calls that merge everything into the first element. -/
theorem mergedFirst_all (same : Nat → α → α → Bool × α × α) (l : List α) :
    ∀ k p, (merged same k p l).1.length = 1 → mergedFirst same k p l = merged same k p l := by
  induction l with
  | nil => intros; rfl
  | cons a l ih =>
    intro k p
    simp only [merged, mergedFirst]
    rcases same k a p with ⟨q, a', p'⟩
    cases q with
    | true => intro h; simp only at h; simp [ih _ _ h]
    | false =>
      intro h
      simp only [List.length_cons] at h
      exfalso
      have : ∀ (l : List α) k p, (merged same k p l).1 ≠ [] := by
        intro l
        induction l with
        | nil => intro k p; simp [merged]
        | cons a l ih =>
          intro k p
          simp only [merged]
          rcases same k a p with ⟨q, a', p'⟩
          cases q <;> simp [ih]
      exact this l (k + 1) a' (List.length_eq_zero_iff.mp (by omega))

end Lokky
