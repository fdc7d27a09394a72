import Verif.Props.SmallScan
import Verif.Props.VecPanic
import Verif.Proofs.VecScanPanic

/-!
# C121: `retain` and `dedup` when destructors panic
-/

namespace Lokky
variable {α : Type} {c : Cfg α}
open Spec (answers accepted rejected runs keyRuns uptoBoom)

/-- None of these elements has a destructor that panics. -/
def Calm (c : Cfg α) (d : List α) : Prop := ∀ a ∈ d, c.dropPanics a = false

/-- The last of these elements, and only it, has a destructor that panics. -/
def LastBooms (c : Cfg α) (d : List α) : Prop :=
  ∃ d0 a, d = d0 ++ [a] ∧ Calm c d0 ∧ c.dropPanics a = true

/-- A scan of `l` left `l'` in the vector and dropped `d`, both in the order of `l`; every element is
in the vector, dropped or lost, never two of these. -/
structure Parted (l l' d : List α) : Prop where
  kept : l'.Sublist l
  dropped : d.Sublist l
  once : Shared l l' d

theorem uptoBoom_prefix (p : α → Bool) (r : List (α × Bool)) : uptoBoom p r <+: r := by
  induction r with
  | nil => exact List.prefix_refl _
  | cons x r ih =>
    obtain ⟨a, q⟩ := x
    simp only [uptoBoom]
    split
    · exact ⟨r, rfl⟩
    · exact (List.prefix_cons_inj _).2 ih

theorem uptoBoom_ends (r : List (α × Bool)) :
    (uptoBoom c.dropPanics r = r ∧ Calm c (rejected r)) ∨
      LastBooms c (rejected (uptoBoom c.dropPanics r)) := by
  induction r with
  | nil => exact Or.inl ⟨rfl, by simp [Calm, rejected]⟩
  | cons x r ih =>
    obtain ⟨a, q⟩ := x
    cases q with
    | true =>
      rcases ih with ⟨h1, h2⟩ | h1
      · exact Or.inl ⟨by simp [uptoBoom, h1], by simpa [rejected] using h2⟩
      · exact Or.inr (by simpa [uptoBoom, rejected] using h1)
    | false =>
      cases hp : c.dropPanics a with
      | true =>
        refine Or.inr ⟨[], a, ?_, by simp [Calm], hp⟩
        simp [uptoBoom, hp, rejected]
      | false =>
        rcases ih with ⟨h1, h2⟩ | ⟨d0, x, h1, h2, h3⟩
        · refine Or.inl ⟨by simp [uptoBoom, hp, h1], ?_⟩
          simp only [Calm, rejected] at h2 ⊢
          simpa [hp] using h2
        · refine Or.inr ⟨a :: d0, x, ?_, ?_, h3⟩
          · simp only [uptoBoom, hp, rejected] at h1 ⊢
            simpa using h1
          · intro y hy
            rcases List.mem_cons.1 hy with rfl | hy
            · exact hp
            · exact h2 y hy

/-- What was seen is a prefix of what was there. -/
theorem parted_of {l : List α} {r r' : List (α × Bool)} (h : r.map (·.1) <+: l) (h' : r' <+: r) :
    Parted l (accepted r') (rejected r') := by
  have hp : r'.map (·.1) <+: l := (h'.map _).trans h
  obtain ⟨rest, hr⟩ := hp
  refine ⟨?_, ?_, rest, ?_⟩
  · rw [← hr]
    exact ((List.filter_sublist).map _).trans (List.sublist_append_left _ _)
  · rw [← hr]
    exact ((List.filter_sublist).map _).trans (List.sublist_append_left _ _)
  · rw [← hr]
    exact (accepted_rejected r').append_right rest

theorem Parted.cons {l l' d : List α} (h : Parted l l' d) (a x : α) :
    Parted (a :: x :: l) (a :: l') d :=
  ⟨(h.kept.cons x).cons_cons a, (h.dropped.cons x).cons a, h.once.cons a x⟩

theorem Parted.same (l : List α) : Parted l l [] :=
  ⟨List.Sublist.refl _, List.nil_sublist _, [], by simp⟩

theorem answers_prefix (f : Nat → α → Option Bool) (k : Nat) (l : List α) :
    (answers f k l).map (·.1) <+: l := by
  obtain ⟨rest, h⟩ := answers_split f k l
  exact ⟨rest, h.symm⟩

theorem runs_prefix (same : Nat → α → α → Option Bool) (k : Nat) (p : α) (l : List α) :
    (runs same k p l).map (·.1) <+: l := by
  induction l generalizing k p with
  | nil => exact List.prefix_refl _
  | cons a l ih =>
    simp only [runs]
    cases same k a p with
    | none => exact List.nil_prefix
    | some q => cases q <;> simpa using ih _ _

theorem keyRuns_prefix {κ : Type} [DecidableEq κ] (key : Nat → α → Option κ) (k : Nat) (p : κ)
    (l : List α) : (keyRuns key k p l).map (·.1) <+: l := by
  induction l generalizing k p with
  | nil => exact List.prefix_refl _
  | cons a l ih =>
    simp only [keyRuns]
    cases key k a with
    | none => exact List.nil_prefix
    | some q =>
      simp only
      split <;> simpa using ih _ _

theorem answers_short {f : Nat → α → Option Bool} {k : Nat} {l : List α}
    (h : (answers f k l).length < l.length) : ∃ k a, f k a = none := by
  induction l generalizing k with
  | nil => simp at h
  | cons a l ih =>
    cases hf : f k a with
    | none => exact ⟨k, a, hf⟩
    | some q => exact ih (k := k + 1) (by simpa [answers, hf] using h)

theorem runs_short {same : Nat → α → α → Option Bool} {k : Nat} {p : α} {l : List α}
    (h : (runs same k p l).length < l.length) : ∃ k a b, same k a b = none := by
  induction l generalizing k p with
  | nil => simp at h
  | cons a l ih =>
    cases hf : same k a p with
    | none => exact ⟨k, a, p, hf⟩
    | some q => cases q <;> exact ih (k := k + 1) (by simpa [runs, hf] using h)

theorem keyRuns_short {κ : Type} [DecidableEq κ] {key : Nat → α → Option κ} {k : Nat} {p : κ}
    {l : List α} (h : (keyRuns key k p l).length < l.length) : ∃ k a, key k a = none := by
  induction l generalizing k p with
  | nil => simp at h
  | cons a l ih =>
    cases hf : key k a with
    | none => exact ⟨k, a, hf⟩
    | some q =>
      simp only [keyRuns, hf] at h
      split at h <;> exact ih (k := k + 1) (by simpa using h)

/-- What a scan of the elements `l` does to the buffer that holds them, if it returns. -/
def EndsWell (c : Cfg α) (l : List α) (b b' : Buf α) : Prop :=
  ∃ l' d, BTrans l' d b b' ∧ Parted l l' d ∧ Calm c d

/-- What it does if it panics; `P`: some call of the test panics. -/
def EndsBoom (c : Cfg α) (P : Prop) (l : List α) (b b' : Buf α) : Prop :=
  ∃ l' d, BTrans l' d b b' ∧ Parted l l' d ∧ (LastBooms c d ∨ Calm c d ∧ P)

theorem ScanOk.ends {K l L : List α} {r : List (α × Bool)} {n : Nat} {b b' : Buf α}
    (h : ScanOk c K r n b b') (hr : r.map (·.1) <+: l)
    (hK : ∀ l' d, Parted l l' d → Parted L (K ++ l') d) : EndsWell c L b b' :=
  ⟨_, _, h.1.trans, hK _ _ (parted_of hr (List.prefix_refl _)), h.2.2⟩

theorem ScanBoom.ends {K l L : List α} {r : List (α × Bool)} {n : Nat} {b b' : Buf α} {P : Prop}
    (h : ScanBoom c K r n b b') (hr : r.map (·.1) <+: l)
    (hK : ∀ l' d, Parted l l' d → Parted L (K ++ l') d) (hP : r.length < n → P) :
    EndsBoom c P L b b' := by
  refine ⟨_, _, h.1.trans, hK _ _ (parted_of hr (uptoBoom_prefix _ _)), ?_⟩
  rcases uptoBoom_ends (c := c) r with ⟨h1, h2⟩ | h1
  · rw [h1]
    rcases h.2 with h3 | ⟨a, h3, h4⟩
    · exact Or.inr ⟨h2, hP h3⟩
    · rw [h2 a h3] at h4; cases h4
  · exact Or.inl h1

theorem retainBuf_ends {b : Buf α} {l : List α} (hs : c.size ≠ 0) (f : Nat → α → Option Bool)
    (h : BRep b l) : Sat c (Vec.retainBuf c f b) (fun _ => EndsWell c l b)
      (EndsBoom c (∃ k a, f k a = none) l b) := by
  have easy : (l.length ≤ 1 ∨ ∃ a, l.head? = some a ∧ f 0 a = some false) →
      Sat c (Vec.retainBuf c f b) (fun _ => EndsWell c l b)
        (EndsBoom c (∃ k a, f k a = none) l b) := by
    intro hf
    refine (retainBuf_boom hs f h hf).mono ?_ ?_
    · exact fun _ b' h1 => h1.ends (answers_prefix f 0 l) (fun _ _ h => h)
    · rintro b' (⟨h1, h2⟩ | h1)
      · exact ⟨_, _, h1, Parted.same l, Or.inr ⟨by simp [Calm], 0, _, h2⟩⟩
      · exact h1.ends (answers_prefix f 0 l) (fun _ _ h => h) answers_short
  match l, h, easy with
  | [], _, easy => exact easy (Or.inl (by simp))
  | [_], _, easy => exact easy (Or.inl (by simp))
  | a :: x :: R, h, easy =>
    cases hf : f 0 a with
    | none =>
      have e : Vec.retainBuf c f b = .panic b := by
        unfold Vec.retainBuf
        rw [M.bind_ok (Buf.getLen_apply _), if_neg (by rw [h.len]; simp),
          M.bind_ok (Buf.read_eq hs h.head), hf]
        rfl
      rw [e]
      exact ⟨_, _, BTrans.refl h, Parted.same _, Or.inr ⟨by simp [Calm], 0, _, hf⟩⟩
    | some q =>
      cases q with
      | false => exact easy (Or.inr ⟨a, rfl, hf⟩)
      | true =>
        refine (retainBuf_keep_boom hs f h hf).mono ?_ ?_
        · exact fun _ b' h1 => h1.ends (answers_prefix f 1 R) (fun _ _ h => h.cons a x)
        · exact fun b' h1 => h1.ends (answers_prefix f 1 R) (fun _ _ h => h.cons a x) answers_short

theorem dedupByBuf_ends {b : Buf α} {l : List α} (hs : c.size ≠ 0)
    (same : Nat → α → α → Option Bool) (h : BRep b l) :
    Sat c (Vec.dedupByBuf c (fun k a b => (same k a b).map fun r => (r, a, b)) b)
      (fun _ => EndsWell c l b) (EndsBoom c (∃ k a p, same k a p = none) l b) := by
  have easy : l.length ≤ 1 →
      Sat c (Vec.dedupByBuf c (fun k a b => (same k a b).map fun r => (r, a, b)) b)
      (fun _ => EndsWell c l b) (EndsBoom c (∃ k a p, same k a p = none) l b) := by
    intro hl
    rw [dedupByBuf_small _ h hl]
    exact ⟨_, _, BTrans.refl h, Parted.same _, by simp [Calm]⟩
  match l, h, easy with
  | [], _, easy => exact easy (by simp)
  | [_], _, easy => exact easy (by simp)
  | a :: x :: R, h, _ =>
    refine (dedupByBuf_boom hs same h).mono ?_ ?_
    · exact fun _ b' h1 => h1.ends (runs_prefix same 0 a R) (fun _ _ h => h.cons a x)
    · exact fun b' h1 => h1.ends (runs_prefix same 0 a R) (fun _ _ h => h.cons a x) runs_short

theorem dedupByKeyBuf_ends {κ : Type} [DecidableEq κ] {b : Buf α} {l : List α} (hs : c.size ≠ 0)
    (key : Nat → α → Option κ) (h : BRep b l) :
    Sat c (Vec.dedupByKeyBuf c (fun k a => (key k a).map fun q => (q, a)) b)
      (fun _ => EndsWell c l b) (EndsBoom c (∃ k a, key k a = none) l b) := by
  match l, h with
  | [], h =>
    unfold Vec.dedupByKeyBuf
    rw [M.bind_ok (Buf.getLen_apply b), if_pos (by rw [h.len]; simp)]
    exact ⟨_, _, BTrans.refl h, Parted.same _, by simp [Calm]⟩
  | a :: R, h =>
    have h0 : b.slots[0]? = some (some a) := h.head
    cases hq : key 0 a with
    | none =>
      unfold Vec.dedupByKeyBuf
      rw [M.bind_ok (Buf.getLen_apply b), if_neg (by rw [h.len]; simp),
        M.bind_ok (Buf.read_eq hs h0)]
      simp only [hq, Option.map_none]
      exact ⟨_, _, BTrans.refl h, Parted.same _, Or.inr ⟨by simp [Calm], 0, _, hq⟩⟩
    | some q =>
      match R, h with
      | [], h =>
        unfold Vec.dedupByKeyBuf
        rw [M.bind_ok (Buf.getLen_apply b), if_neg (by rw [h.len]; simp),
          M.bind_ok (Buf.read_eq hs h0)]
        simp only [hq, Option.map_some]
        rw [M.bind_ok (Buf.write_same hs h0), M.bind_ok (retainNew_keep1 h)]
        exact ⟨_, _, BTrans.refl h, Parted.same _, by simp [Calm]⟩
      | x :: R, h =>
        refine (dedupByKeyBuf_boom hs key h hq).mono ?_ ?_
        · exact fun _ b' h1 => h1.ends (keyRuns_prefix key 1 q R) (fun _ _ h => h.cons a x)
        · exact fun b' h1 => h1.ends (keyRuns_prefix key 1 q R) (fun _ _ h => h.cons a x)
            keyRuns_short

/-- C121 of a call on a vector that holds `l`: if it returns, no destructor that ran panics; if it
panics, the last destructor that ran is the one that panicked, or the test (`P`) panicked. Either way
the vector holds some of its elements, in order, some others were dropped, and none is in both. -/
def ScanSafe (c : Cfg α) (P : Prop) (l : List α) (m : M (VSt α) Unit) : Prop :=
  ∀ s : VSt α, Rep c s.self s.w l → s.w.WF →
    Sat c (m s) (fun _ s' => ∃ l' d, Trans c l' d s s' ∧ Parted l l' d ∧ Calm c d)
      (fun s' => ∃ l' d, Trans c l' d s s' ∧ Parted l l' d ∧ (LastBooms c d ∨ Calm c d ∧ P))

/-- The same for small vectors. -/
def SScanSafe (c : Cfg α) (P : Prop) (l : List α) (m : M (SSt α) Unit) : Prop :=
  ∀ s : SSt α, SRep c s.self s.w l → s.w.WF →
    Sat c (m s) (fun _ s' => ∃ l' d, STrans c l' d s s' ∧ Parted l l' d ∧ Calm c d)
      (fun s' => ∃ l' d, STrans c l' d s s' ∧ Parted l l' d ∧ (LastBooms c d ∨ Calm c d ∧ P))

theorem onBuf_safe {l : List α} {P : Prop} {m : M (Buf α) Unit} (hs : c.size ≠ 0)
    (hm : ∀ b, BRep b l → Sat c (m b) (fun _ => EndsWell c l b) (EndsBoom c P l b)) :
    ScanSafe c P l (Vec.onBuf c m) := by
  intro s h hw
  refine onBuf_sat0 (hm _ (h.brep hs)) ?_ ?_
  · rintro _ b ⟨l', d, h1, h2⟩; exact ⟨l', d, putBuf_trans hs h hw h1, h2⟩
  · rintro b ⟨l', d, h1, h2⟩; exact ⟨l', d, putBuf_trans hs h hw h1, h2⟩

theorem onAny_safe {l : List α} {P : Prop} {m : M (Buf α) Unit} (hs : c.size ≠ 0)
    (hm : ∀ b, BRep b l → Sat c (m b) (fun _ => EndsWell c l b) (EndsBoom c P l b)) :
    SScanSafe c P l (Small.onAny c m) := by
  intro s h hw
  refine onAny_sat hs h hw (fun b hb _ => hm b hb) ?_ ?_
  · rintro b _ b' s' ⟨l', d, h1, h2⟩ ht; exact ⟨l', d, ht _ _ h1, h2⟩
  · rintro b b' s' ⟨l', d, h1, h2⟩ ht; exact ⟨l', d, ht _ _ h1, h2⟩

/-- C121, `retain`, whatever the predicate answers, and whichever of its calls and of the destructors
panic. -/
theorem C121_retain (hs : c.size ≠ 0) (f : Nat → α → Option Bool) (l : List α) :
    ScanSafe c (∃ k a, f k a = none) l (Vec.retain c f) ∧
      SScanSafe c (∃ k a, f k a = none) l (Small.retain c f) :=
  ⟨onBuf_safe hs fun _ => retainBuf_ends hs f, onAny_safe hs fun _ => retainBuf_ends hs f⟩

/-- C121, `dedup_by` with tests that do not change the elements. -/
theorem C121_dedup_by (hs : c.size ≠ 0) (same : Nat → α → α → Option Bool) (l : List α) :
    ScanSafe c (∃ k a p, same k a p = none) l
        (Vec.dedupBy c fun k a b => (same k a b).map fun r => (r, a, b)) ∧
      SScanSafe c (∃ k a p, same k a p = none) l
        (Small.dedupBy c fun k a b => (same k a b).map fun r => (r, a, b)) :=
  ⟨onBuf_safe hs fun _ => dedupByBuf_ends hs same, onAny_safe hs fun _ => dedupByBuf_ends hs same⟩

/-- C121, `dedup`. -/
theorem C121_dedup (hs : c.size ≠ 0) (eq : α → α → Bool) (l : List α) :
    ScanSafe c False l (Vec.dedup c eq) ∧ SScanSafe c False l (Small.dedup c eq) := by
  have h := C121_dedup_by hs (fun _ a b => some (eq a b)) l
  have e : (∃ (_ : Nat) (a b : α), some (eq a b) = none) = False := by simp
  rw [e] at h
  exact h

/-- C121, `dedup_by_key` with a key function that does not change the elements. -/
theorem C121_dedup_by_key {κ : Type} [DecidableEq κ] (hs : c.size ≠ 0) (key : Nat → α → Option κ)
    (l : List α) :
    ScanSafe c (∃ k a, key k a = none) l
        (Vec.dedupByKey c fun k a => (key k a).map fun q => (q, a)) ∧
      SScanSafe c (∃ k a, key k a = none) l
        (Small.dedupByKey c fun k a => (key k a).map fun q => (q, a)) :=
  ⟨onBuf_safe hs fun _ => dedupByKeyBuf_ends hs key,
    onAny_safe hs fun _ => dedupByKeyBuf_ends hs key⟩

/-- C121: which elements are kept and which are dropped when the first element is rejected: those the
predicate answered before the first rejected element whose destructor panics, and that one. -/
theorem C121_retain_exact {s : VSt α} {a : α} {R : List α} (hs : c.size ≠ 0)
    (h : Rep c s.self s.w (a :: R)) (hw : s.w.WF) (f : Nat → α → Option Bool)
    (hf : f 0 a = some false) :
    Sat c (Vec.retain c f s)
      (fun _ s' => Trans c (accepted (answers f 0 (a :: R))) (rejected (answers f 0 (a :: R))) s s')
      (fun s' => Trans c (accepted (uptoBoom c.dropPanics (answers f 0 (a :: R))))
        (rejected (uptoBoom c.dropPanics (answers f 0 (a :: R)))) s s') := by
  refine onBuf_sat0 (retainBuf_boom hs f (h.brep hs) (Or.inr ⟨a, rfl, hf⟩))
    (fun _ _ hq => putBuf_trans hs h hw hq.1.trans) ?_
  rintro b (⟨h1, h2⟩ | h1)
  · simp [hf] at h2
  · exact putBuf_trans hs h hw h1.1.trans

/-- Contents and dropped elements if the run panicked. -/
def lookBoom {β : Type} (r : Res (VSt Nat) β) : Option (List (Option Nat) × List Nat) :=
  match r with
  | .panic s => some ((s.w.slots s.self.ptr).take s.self.len, s.w.log.drops)
  | _ => none

/-- The same of a small vector. -/
def slookBoom {β : Type} (r : Res (SSt Nat) β) : Option (List (Option Nat) × List Nat) :=
  match r with
  | .panic s => some ((match s.self.store with
      | .stack slots len => slots.take len
      | .heap v => (s.w.slots v.ptr).take v.len), s.w.log.drops)
  | _ => none

/-- Keeping the even elements of `[1, 2, 3, 4, 13, 6, 7]`: the destructor of 13 panics. -/
example : lookBoom (Vec.retain cfgBoom (fun _ a => some (a % 2 == 0))
    (stored cfgBoom [1, 2, 3, 4, 13, 6, 7] 7)) = some ([some 2, some 4], [1, 3, 13]) := by
  decide +kernel
example : slookBoom (Small.retain cfgBoom (fun _ a => some (a % 2 == 0))
    (inline [1, 2, 3, 4, 13, 6, 7] 8 none world0)) = some ([some 2, some 4], [1, 3, 13]) := by
  decide +kernel
/-- Dropping the first element already panics. -/
example : lookBoom (Vec.retain cfgBoom (fun _ a => some (a % 2 == 0))
    (stored cfgBoom [13, 2, 3] 3)) = some ([], [13]) := by decide +kernel
example : lookBoom (Vec.dedup cfgBoom (· == ·) (stored cfgBoom [5, 6, 5, 13, 13, 7] 6))
    = some ([some 5, some 13], [5, 13]) := by decide +kernel
example : lookBoom (Vec.dedupByKey cfgBoom (fun _ a => some (a % 2, a))
    (stored cfgBoom [5, 6, 4, 13, 13, 7] 6)) = some ([some 5, some 4, some 13], [13]) := by
  decide +kernel

end Lokky
