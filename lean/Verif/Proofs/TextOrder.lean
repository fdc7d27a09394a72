import Verif.Proofs.Utf8
import Verif.Model.VecCmp

/-!
# Byte order of UTF-8 is code point order
-/

namespace Lokky
open Utf8 Spec

/-- Comparison of bytes. -/
def byteCmp (a b : UInt8) : Option Ordering := some (compare a.toNat b.toNat)

/-- Comparison of characters by code point. -/
def charCmp (a b : Char) : Option Ordering := some (compare a.val.toNat b.val.toNat)

theorem firstDiff_lt {a b : UInt8} {r : List (UInt8 × UInt8)} (h : a.toNat < b.toNat) :
    firstDiff byteCmp ((a, b) :: r) = some (some .lt) := by
  simp [firstDiff, byteCmp, Nat.compare_eq_lt.mpr h]

theorem firstDiff_gt {a b : UInt8} {r : List (UInt8 × UInt8)} (h : b.toNat < a.toNat) :
    firstDiff byteCmp ((a, b) :: r) = some (some .gt) := by
  simp [firstDiff, byteCmp, Nat.compare_eq_gt.mpr h]

theorem firstDiff_eq {a b : UInt8} {r : List (UInt8 × UInt8)} (h : a.toNat = b.toNat) :
    firstDiff byteCmp ((a, b) :: r) = firstDiff byteCmp r := by
  simp [firstDiff, byteCmp, Nat.compare_eq_eq.mpr h]

/-- The encodings of a smaller and a greater code point differ, and the first difference decides. -/
theorem enc_lt {v v' : Nat} {l l' : List UInt8} (h : Enc v l) (h' : Enc v' l') (hlt : v < v')
    (r r' : List UInt8) : firstDiff byteCmp ((l ++ r).zip (l' ++ r')) = some (some .lt) := by
  cases h <;> cases h' <;> simp only [List.cons_append, List.nil_append, List.zip_cons_cons]
  all_goals first | (rw [firstDiff_lt (by omega)]; done) | skip
  all_goals first | omega | skip
  · rename_i a b _ _ ha hb a' b' _ _ ha' hb'
    rcases Nat.lt_or_ge (v / 64) (v' / 64) with h | h
    · rw [firstDiff_lt (by omega)]
    · rw [firstDiff_eq (by omega), firstDiff_lt (by omega)]
  · rename_i a b d _ _ _ ha hb hd a' b' d' _ _ _ ha' hb' hd'
    rcases Nat.lt_or_ge (v / 4096) (v' / 4096) with h | h
    · rw [firstDiff_lt (by omega)]
    · rw [firstDiff_eq (by omega)]
      rcases Nat.lt_or_ge (v / 64) (v' / 64) with h1 | h1
      · rw [firstDiff_lt (by omega)]
      · rw [firstDiff_eq (by omega), firstDiff_lt (by omega)]
  · rename_i a b d e _ _ ha hb hd he a' b' d' e' _ _ ha' hb' hd' he'
    rcases Nat.lt_or_ge (v / 262144) (v' / 262144) with h | h
    · rw [firstDiff_lt (by omega)]
    · rw [firstDiff_eq (by omega)]
      rcases Nat.lt_or_ge (v / 4096) (v' / 4096) with h2 | h2
      · rw [firstDiff_lt (by omega)]
      · rw [firstDiff_eq (by omega)]
        rcases Nat.lt_or_ge (v / 64) (v' / 64) with h1 | h1
        · rw [firstDiff_lt (by omega)]
        · rw [firstDiff_eq (by omega), firstDiff_lt (by omega)]

theorem enc_gt {v v' : Nat} {l l' : List UInt8} (h : Enc v l) (h' : Enc v' l') (hlt : v' < v)
    (r r' : List UInt8) : firstDiff byteCmp ((l ++ r).zip (l' ++ r')) = some (some .gt) := by
  cases h <;> cases h' <;> simp only [List.cons_append, List.nil_append, List.zip_cons_cons]
  all_goals first | (rw [firstDiff_gt (by omega)]; done) | skip
  all_goals first | omega | skip
  · rename_i a b _ _ ha hb a' b' _ _ ha' hb'
    rcases Nat.lt_or_ge (v' / 64) (v / 64) with h | h
    · rw [firstDiff_gt (by omega)]
    · rw [firstDiff_eq (by omega), firstDiff_gt (by omega)]
  · rename_i a b d _ _ _ ha hb hd a' b' d' _ _ _ ha' hb' hd'
    rcases Nat.lt_or_ge (v' / 4096) (v / 4096) with h | h
    · rw [firstDiff_gt (by omega)]
    · rw [firstDiff_eq (by omega)]
      rcases Nat.lt_or_ge (v' / 64) (v / 64) with h1 | h1
      · rw [firstDiff_gt (by omega)]
      · rw [firstDiff_eq (by omega), firstDiff_gt (by omega)]
  · rename_i a b d e _ _ ha hb hd he a' b' d' e' _ _ ha' hb' hd' he'
    rcases Nat.lt_or_ge (v' / 262144) (v / 262144) with h | h
    · rw [firstDiff_gt (by omega)]
    · rw [firstDiff_eq (by omega)]
      rcases Nat.lt_or_ge (v' / 4096) (v / 4096) with h2 | h2
      · rw [firstDiff_gt (by omega)]
      · rw [firstDiff_eq (by omega)]
        rcases Nat.lt_or_ge (v' / 64) (v / 64) with h1 | h1
        · rw [firstDiff_gt (by omega)]
        · rw [firstDiff_eq (by omega), firstDiff_gt (by omega)]

theorem firstDiff_self (l : List UInt8) (r r' : List UInt8) :
    firstDiff byteCmp ((l ++ r).zip (l ++ r')) = firstDiff byteCmp (r.zip r') := by
  induction l with
  | nil => rfl
  | cons a l ih =>
    simp only [List.cons_append, List.zip_cons_cons]
    rw [firstDiff_eq rfl, ih]

theorem compare_add_left (k a b : Nat) : compare (k + a) (k + b) = compare a b := by
  rcases Nat.lt_trichotomy a b with h | h | h
  · rw [Nat.compare_eq_lt.mpr h, Nat.compare_eq_lt.mpr (by omega)]
  · rw [Nat.compare_eq_eq.mpr h, Nat.compare_eq_eq.mpr (by omega)]
  · rw [Nat.compare_eq_gt.mpr h, Nat.compare_eq_gt.mpr (by omega)]

theorem utf8_pos (ch : Char) (t : List Char) : 0 < (utf8 (ch :: t)).length := by
  have := lenUtf8_pos ch
  rw [utf8_cons, List.length_append, ← lenUtf8_eq]
  omega

/-- Comparing encodings byte by byte is comparing texts by code points. -/
theorem sliceCmp_utf8 (t t' : List Char) :
    sliceCmp byteCmp (utf8 t) (utf8 t') = sliceCmp charCmp t t' := by
  induction t generalizing t' with
  | nil =>
    cases t' with
    | nil => rfl
    | cons b t' =>
      have := utf8_pos b t'
      have e1 : sliceCmp byteCmp (utf8 []) (utf8 (b :: t')) = some .lt := by
        simp only [sliceCmp, utf8_nil, List.zip_nil_left, firstDiff, List.length_nil,
          Nat.compare_eq_lt.mpr this]
      rw [e1]; rfl
  | cons a t ih =>
    cases t' with
    | nil =>
      have := utf8_pos a t
      have e1 : sliceCmp byteCmp (utf8 (a :: t)) (utf8 []) = some .gt := by
        simp only [sliceCmp, utf8_nil, List.zip_nil_right, firstDiff, List.length_nil,
          Nat.compare_eq_gt.mpr this]
      rw [e1]; rfl
    | cons b t' =>
      rcases Nat.lt_trichotomy (code a) (code b) with h | h | h
      · have e1 : sliceCmp byteCmp (utf8 (a :: t)) (utf8 (b :: t')) = some .lt := by
          simp only [sliceCmp, utf8_cons, enc_lt (enc_utf8 a) (enc_utf8 b) h]
        have e2 : charCmp a b = some .lt := by
          unfold charCmp; rw [Nat.compare_eq_lt.mpr h]
        rw [e1]
        simp [sliceCmp, firstDiff, e2]
      · have := code_inj h
        subst this
        have e2 : charCmp a a = some .eq := by unfold charCmp; rw [Nat.compare_eq_eq.mpr rfl]
        have := ih t'
        unfold sliceCmp at this ⊢
        simp only [utf8_cons, firstDiff_self, List.length_append, compare_add_left,
          List.zip_cons_cons, firstDiff, e2, List.length_cons] at this ⊢
        rw [this, Nat.add_comm t.length, Nat.add_comm t'.length, compare_add_left]
      · have e1 : sliceCmp byteCmp (utf8 (a :: t)) (utf8 (b :: t')) = some .gt := by
          simp only [sliceCmp, utf8_cons, enc_gt (enc_utf8 a) (enc_utf8 b) h]
        have e2 : charCmp a b = some .gt := by
          unfold charCmp; rw [Nat.compare_eq_gt.mpr h]
        rw [e1]
        simp [sliceCmp, firstDiff, e2]

end Lokky
