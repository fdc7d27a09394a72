import Verif.Model.VecCmp
import Verif.Props.Witness
import Verif.Proofs.VecBulk

/-!
# C23: comparison and hashing see the content only
-/

namespace Lokky
variable {α H : Type} {c : Cfg α}

theorem bothSlices_eq {v v' : VecH} {w : World α} {l l' : List α} (hs : c.size ≠ 0)
    (h : Rep c v w l) (h' : Rep c v' w l') :
    Vec.bothSlices c ⟨(v, v'), w⟩ = .ok (l, l') ⟨(v, v'), w⟩ := by
  unfold Vec.bothSlices
  have e1 : onPart Prod.fst (fun v p => (v, p.2)) (Vec.asSlice c) ⟨(v, v'), w⟩
      = .ok l ⟨(v, v'), w⟩ := by
    simp only [onPart, asSlice_spec (s := ⟨v, w⟩) hs h]
  have e2 : onPart Prod.snd (fun v p => (p.1, v)) (Vec.asSlice c) ⟨(v, v'), w⟩
      = .ok l' ⟨(v, v'), w⟩ := by
    simp only [onPart, asSlice_spec (s := ⟨v', w⟩) hs h']
  rw [M.bind_ok e1, M.bind_ok e2]; rfl

/-- Slices are equal iff they have the same length and equal elements at every position. -/
theorem sliceEq_iff (eqT : α → α → Bool) (l l' : List α) :
    sliceEq eqT l l' = true ↔ l.length = l'.length ∧
      ∀ (i : Nat) (h1 : i < l.length) (h2 : i < l'.length), eqT l[i] l'[i] = true := by
  unfold sliceEq
  by_cases hl : l.length = l'.length
  · rw [if_neg (by simpa using hl), List.all_eq_true]
    constructor
    · intro hh
      refine ⟨hl, fun i h1 h2 => ?_⟩
      exact hh (l[i], l'[i]) (by
        rw [List.mem_iff_getElem]
        exact ⟨i, by simp; omega, by simp⟩)
    · rintro ⟨_, hh⟩ ⟨a, b⟩ hab
      rw [List.mem_iff_getElem] at hab
      obtain ⟨i, hi, e⟩ := hab
      simp only [List.length_zip] at hi
      rw [List.getElem_zip] at e
      cases e
      exact hh i (by omega) (by omega)
  · rw [if_pos hl]
    simp [hl]

/-- What slices feed to a hasher: the length and then all elements in order. -/
theorem sliceHash_feeds (l : List α) :
    sliceHash (H := List (Nat ⊕ α)) ⟨fun h n => h ++ [.inl n], fun h a => h ++ [.inr a]⟩ [] l
      = .inl l.length :: l.map .inr := by
  unfold sliceHash
  have : ∀ (acc : List (Nat ⊕ α)), l.foldl (fun h a => h ++ [.inr a]) acc = acc ++ l.map .inr := by
    induction l with
    | nil => simp
    | cons a l ih => intro acc; simp [ih]
  simpa using this [.inl l.length]

/-- C23. `==` returns whether both vectors have the same length and equal elements at every position;
nothing changes. -/
theorem C23_eq {v v' : VecH} {w : World α} {l l' : List α} (hs : c.size ≠ 0)
    (h : Rep c v w l) (h' : Rep c v' w l') (eqT : α → α → Bool) :
    ∃ r, Vec.eq c eqT ⟨(v, v'), w⟩ = .ok r ⟨(v, v'), w⟩ ∧
      (r = true ↔ l.length = l'.length ∧
        ∀ (i : Nat) (h1 : i < l.length) (h2 : i < l'.length), eqT l[i] l'[i] = true) := by
  refine ⟨sliceEq eqT l l', ?_, sliceEq_iff eqT l l'⟩
  unfold Vec.eq
  rw [M.bind_ok (bothSlices_eq hs h h')]; rfl

/-- C23. For an equality that is equality, `==` decides whether the contents are the same. -/
theorem C23_eq_content {v v' : VecH} {w : World α} {l l' : List α} (hs : c.size ≠ 0)
    (h : Rep c v w l) (h' : Rep c v' w l') {eqT : α → α → Bool}
    (he : ∀ a b, eqT a b = true ↔ a = b) :
    ∃ r, Vec.eq c eqT ⟨(v, v'), w⟩ = .ok r ⟨(v, v'), w⟩ ∧ (r = true ↔ l = l') := by
  obtain ⟨r, e, hr⟩ := C23_eq hs h h' eqT
  refine ⟨r, e, hr.trans ⟨?_, ?_⟩⟩
  · rintro ⟨h1, h2⟩
    exact List.ext_getElem h1 fun i g1 g2 => (he _ _).mp (h2 i g1 g2)
  · rintro rfl
    exact ⟨rfl, fun i _ _ => (he _ _).mpr rfl⟩

/-- The lists agree (elements compare `Equal`) before position `i`. -/
def AgreeTo (cmpT : α → α → Option Ordering) (l l' : List α) (i : Nat) : Prop :=
  ∀ (j : Nat) (h1 : j < l.length) (h2 : j < l'.length), j < i → cmpT l[j] l'[j] = some .eq

/-- The outcome of a lexicographic comparison: at the first position where the lists do not agree the
elements decide; if there is none, the shorter list is less. -/
inductive Lex (cmpT : α → α → Option Ordering) (l l' : List α) : Option Ordering → Prop
  | differ (i : Nat) (h1 : i < l.length) (h2 : i < l'.length) : AgreeTo cmpT l l' i →
      cmpT l[i] l'[i] ≠ some .eq → Lex cmpT l l' (cmpT l[i] l'[i])
  | shorter : AgreeTo cmpT l l' l.length → l.length < l'.length → Lex cmpT l l' (some .lt)
  | longer : AgreeTo cmpT l l' l'.length → l'.length < l.length → Lex cmpT l l' (some .gt)
  | same : AgreeTo cmpT l l' l.length → l.length = l'.length → Lex cmpT l l' (some .eq)

theorem AgreeTo.cons {cmpT : α → α → Option Ordering} {a b : α} {l l' : List α} {i : Nat}
    (hab : cmpT a b = some .eq) (h : AgreeTo cmpT l l' i) :
    AgreeTo cmpT (a :: l) (b :: l') (i + 1) := by
  intro j h1 h2 hj
  cases j with
  | zero => exact hab
  | succ j =>
    simp only [List.getElem_cons_succ]
    exact h j (by simpa using h1) (by simpa using h2) (by omega)

theorem sliceCmp_lex (cmpT : α → α → Option Ordering) (l l' : List α) :
    Lex cmpT l l' (sliceCmp cmpT l l') := by
  induction l generalizing l' with
  | nil =>
    cases l' with
    | nil => exact .same (fun j h1 => by simp at h1) rfl
    | cons b l' => exact .shorter (fun j h1 => by simp at h1) (by simp)
  | cons a l ih =>
    cases l' with
    | nil => exact .longer (fun j _ h2 => by simp at h2) (by simp)
    | cons b l' =>
      by_cases hab : cmpT a b = some .eq
      · have e : sliceCmp cmpT (a :: l) (b :: l') = sliceCmp cmpT l l' := by
          have e1 : compare (l.length + 1) (l'.length + 1) = compare l.length l'.length := by
            simp [compare, compareOfLessAndEq]
          simp only [sliceCmp, List.zip_cons_cons, firstDiff, hab, List.length_cons, e1]
        rw [e]
        have ih' := ih l'
        generalize sliceCmp cmpT l l' = r at ih' ⊢
        cases ih' with
        | differ i h1 h2 h3 h4 =>
          have := Lex.differ (cmpT := cmpT) (l := a :: l) (l' := b :: l') (i + 1) (by simpa using h1)
            (by simpa using h2) (h3.cons hab) (by simpa using h4)
          simpa using this
        | shorter h1 h2 => exact .shorter (h1.cons hab) (by simpa using h2)
        | longer h1 h2 => exact .longer (h1.cons hab) (by simpa using h2)
        | same h1 h2 => exact .same (h1.cons hab) (by simpa using h2)
      · have e : sliceCmp cmpT (a :: l) (b :: l') = cmpT a b := by
          unfold sliceCmp
          rw [List.zip_cons_cons, firstDiff]
          cases h : cmpT a b with
          | none => rfl
          | some o =>
            cases o with
            | eq => exact absurd h hab
            | lt => rfl
            | gt => rfl
        rw [e]
        exact Lex.differ (cmpT := cmpT) (l := a :: l) (l' := b :: l') 0 (by simp) (by simp)
          (fun j _ _ hj => absurd hj (Nat.not_lt_zero _)) hab

/-- C23. `partial_cmp` and `cmp` are the lexicographic comparison of the contents; nothing changes. -/
theorem C23_cmp {v v' : VecH} {w : World α} {l l' : List α} (hs : c.size ≠ 0)
    (h : Rep c v w l) (h' : Rep c v' w l') (cmpT : α → α → Option Ordering) :
    ∃ r, Vec.cmp c cmpT ⟨(v, v'), w⟩ = .ok r ⟨(v, v'), w⟩ ∧ Lex cmpT l l' r := by
  refine ⟨_, ?_, sliceCmp_lex cmpT l l'⟩
  unfold Vec.cmp
  rw [M.bind_ok (bothSlices_eq hs h h')]; rfl

/-- The lexicographic outcome is unique, so the theorem above fixes the result. -/
theorem C23_lex_unique {cmpT : α → α → Option Ordering} {l l' : List α} {r r' : Option Ordering}
    (h : Lex cmpT l l' r) (h' : Lex cmpT l l' r') : r = r' := by
  cases h with
  | differ i h1 h2 h3 h4 =>
    cases h' with
    | differ j g1 g2 g3 g4 =>
      rcases Nat.lt_trichotomy i j with h | h | h
      · exact absurd (g3 i h1 h2 h) h4
      · subst h; rfl
      · exact absurd (h3 j g1 g2 h) g4
    | shorter g1 g2 => exact absurd (g1 i h1 h2 h1) h4
    | longer g1 g2 => exact absurd (g1 i h1 h2 h2) h4
    | same g1 g2 => exact absurd (g1 i h1 h2 h1) h4
  | shorter h1 h2 =>
    cases h' with
    | differ j g1 g2 g3 g4 => exact absurd (h1 j g1 g2 g1) g4
    | shorter g1 g2 => rfl
    | longer g1 g2 => omega
    | same g1 g2 => omega
  | longer h1 h2 =>
    cases h' with
    | differ j g1 g2 g3 g4 => exact absurd (h1 j g1 g2 g2) g4
    | shorter g1 g2 => omega
    | longer g1 g2 => rfl
    | same g1 g2 => omega
  | same h1 h2 =>
    cases h' with
    | differ j g1 g2 g3 g4 => exact absurd (h1 j g1 g2 g1) g4
    | shorter g1 g2 => omega
    | longer g1 g2 => omega
    | same g1 g2 => rfl

/-- C23. Vectors with the same content compare `Equal` if elements compare `Equal` to themselves. -/
theorem C23_cmp_same {v v' : VecH} {w : World α} {l : List α} (hs : c.size ≠ 0)
    (h : Rep c v w l) (h' : Rep c v' w l) {cmpT : α → α → Option Ordering}
    (hr : ∀ a, cmpT a a = some .eq) :
    Vec.cmp c cmpT ⟨(v, v'), w⟩ = .ok (some .eq) ⟨(v, v'), w⟩ := by
  obtain ⟨r, e, h1⟩ := C23_cmp hs h h' cmpT
  rw [e, C23_lex_unique h1 (.same (fun j _ _ _ => hr _) rfl)]

/-- C23. Vectors with the same content, in whatever memory, feed the same to the hasher. -/
theorem C23_hash {s s' : VSt α} {l : List α} (hz : c.size ≠ 0) (h : Rep c s.self s.w l)
    (h' : Rep c s'.self s'.w l) (hs : Hasher α H) (h0 : H) :
    ∃ x, Vec.hash c hs h0 s = .ok x s ∧ Vec.hash c hs h0 s' = .ok x s' := by
  refine ⟨sliceHash hs h0 l, ?_, ?_⟩
  · unfold Vec.hash; rw [M.bind_ok (asSlice_spec hz h)]; rfl
  · unfold Vec.hash; rw [M.bind_ok (asSlice_spec hz h')]; rfl

/-- C23. What is fed to the hasher: the length and then all elements in order. -/
theorem C23_hash_feeds {s : VSt α} {l : List α} (hz : c.size ≠ 0) (h : Rep c s.self s.w l) :
    Vec.hash c (H := List (Nat ⊕ α)) ⟨fun h n => h ++ [.inl n], fun h a => h ++ [.inr a]⟩ [] s
      = .ok (.inl l.length :: l.map .inr) s := by
  unfold Vec.hash
  rw [M.bind_ok (asSlice_spec hz h), M.pure_apply, sliceHash_feeds]

/-- Two vectors with different capacities and buffers. -/
def twoVecs (l l' : List Nat) : St (VecH × VecH) Nat :=
  ⟨(⟨some 0, 4, 0, none, l.length⟩, ⟨some 1, 7, 0, some 3, l'.length⟩),
    { world0 with
      heap := fun p =>
        if p = 0 then some ⟨0, 32, l.map some ++ List.replicate (4 - l.length) none⟩
        else if p = 1 then some ⟨0, 56, l'.map some ++ List.replicate (7 - l'.length) none⟩
        else none
      next := 2 }⟩

def lookRes {σ β : Type} : Res σ β → Option β
  | .ok b _ => some b
  | _ => none

example : lookRes (Vec.eq cfg64 (· == ·) (twoVecs [7, 8] [7, 8])) = some true := by decide +kernel
example : lookRes (Vec.cmp cfg64 (fun a b => some (compare a b)) (twoVecs [7, 8] [7, 8, 1]))
    = some (some .lt) := by decide +kernel
example : lookRes (Vec.cmp cfg64 (fun a b => some (compare a b)) (twoVecs [7, 9] [7, 8, 1]))
    = some (some .gt) := by decide +kernel

end Lokky
