import Verif.Model.SmallCmp
import Verif.Props.SmallStore
import Verif.Props.VecCmp

/-!
# C102: comparison and hashing of small vectors see the content only
-/

namespace Lokky
variable {α H : Type} {c : Cfg α}

theorem sbothSlices_eq {v v' : SmallH α} {w : World α} {l l' : List α} (hs : c.size ≠ 0)
    (h : SRep c v w l) (h' : SRep c v' w l') :
    Small.bothSlices c ⟨(v, v'), w⟩ = .ok (l, l') ⟨(v, v'), w⟩ := by
  unfold Small.bothSlices
  have e1 : onPart Prod.fst (fun v p => (v, p.2)) (Small.asSlice c) ⟨(v, v'), w⟩
      = .ok l ⟨(v, v'), w⟩ := by
    simp only [onPart, sasSlice_spec (s := ⟨v, w⟩) hs h]
  have e2 : onPart Prod.snd (fun v p => (p.1, v)) (Small.asSlice c) ⟨(v, v'), w⟩
      = .ok l' ⟨(v, v'), w⟩ := by
    simp only [onPart, sasSlice_spec (s := ⟨v', w⟩) hs h']
  rw [M.bind_ok e1, M.bind_ok e2]; rfl

/-- C102. `==` returns whether both vectors have the same length and equal elements at every position,
wherever either of them is stored; nothing changes. -/
theorem C102_eq {v v' : SmallH α} {w : World α} {l l' : List α} (hs : c.size ≠ 0)
    (h : SRep c v w l) (h' : SRep c v' w l') (eqT : α → α → Bool) :
    ∃ r, Small.eq c eqT ⟨(v, v'), w⟩ = .ok r ⟨(v, v'), w⟩ ∧
      (r = true ↔ l.length = l'.length ∧
        ∀ (i : Nat) (h1 : i < l.length) (h2 : i < l'.length), eqT l[i] l'[i] = true) := by
  refine ⟨sliceEq eqT l l', ?_, sliceEq_iff eqT l l'⟩
  unfold Small.eq
  rw [M.bind_ok (sbothSlices_eq hs h h')]; rfl

/-- C102. `partial_cmp` and `cmp` are the lexicographic comparison of the contents (by
`C23_lex_unique` this fixes the result); nothing changes. -/
theorem C102_cmp {v v' : SmallH α} {w : World α} {l l' : List α} (hs : c.size ≠ 0)
    (h : SRep c v w l) (h' : SRep c v' w l') (cmpT : α → α → Option Ordering) :
    ∃ r, Small.cmp c cmpT ⟨(v, v'), w⟩ = .ok r ⟨(v, v'), w⟩ ∧ Lex cmpT l l' r := by
  refine ⟨_, ?_, sliceCmp_lex cmpT l l'⟩
  unfold Small.cmp
  rw [M.bind_ok (sbothSlices_eq hs h h')]; rfl

/-- C102. Vectors with the same content, in whatever memory, feed the same to the hasher. -/
theorem C102_hash {s s' : SSt α} {l : List α} (hz : c.size ≠ 0) (h : SRep c s.self s.w l)
    (h' : SRep c s'.self s'.w l) (hs : Hasher α H) (h0 : H) :
    ∃ x, Small.hash c hs h0 s = .ok x s ∧ Small.hash c hs h0 s' = .ok x s' := by
  refine ⟨sliceHash hs h0 l, ?_, ?_⟩
  · unfold Small.hash; rw [M.bind_ok (sasSlice_spec hz h)]; rfl
  · unfold Small.hash; rw [M.bind_ok (sasSlice_spec hz h')]; rfl

/-- C102. What is fed to the hasher: the length and then all elements in order. -/
theorem C102_hash_feeds {s : SSt α} {l : List α} (hz : c.size ≠ 0) (h : SRep c s.self s.w l) :
    Small.hash c (H := List (Nat ⊕ α)) ⟨fun h n => h ++ [.inl n], fun h a => h ++ [.inr a]⟩ [] s
      = .ok (.inl l.length :: l.map .inr) s := by
  unfold Small.hash
  rw [M.bind_ok (sasSlice_spec hz h), M.pure_apply, sliceHash_feeds]

/-- C102. A small vector feeds the hasher what a `Vec` with the same content feeds it, so both can be
looked up as `[T]` (`Borrow<[T]>`). -/
theorem C102_hash_as_vec {s : SSt α} {t : VSt α} {l : List α} (hz : c.size ≠ 0)
    (h : SRep c s.self s.w l) (h' : Rep c t.self t.w l) (hs : Hasher α H) (h0 : H) :
    ∃ x, Small.hash c hs h0 s = .ok x s ∧ Vec.hash c hs h0 t = .ok x t := by
  refine ⟨sliceHash hs h0 l, ?_, ?_⟩
  · unfold Small.hash; rw [M.bind_ok (sasSlice_spec hz h)]; rfl
  · unfold Vec.hash; rw [M.bind_ok (asSlice_spec hz h')]; rfl

/-- One vector inline, the other on the heap. -/
def mixedPair (l l' : List Nat) : St (SmallH Nat × SmallH Nat) Nat :=
  ⟨((inline l 4 none world0).self, (spilled cfg64 l' 4 9).self), (spilled cfg64 l' 4 9).w⟩

example : SRep cfg64 (mixedPair [7, 8] [7, 8]).self.1 (mixedPair [7, 8] [7, 8]).w [7, 8] ∧
    SRep cfg64 (mixedPair [7, 8] [7, 8]).self.2 (mixedPair [7, 8] [7, 8]).w [7, 8] :=
  ⟨inline_rep (by decide) (by decide), spilled_rep (by decide) (by decide) (by decide) (by decide)⟩
example : lookRes (Small.eq cfg64 (· == ·) (mixedPair [7, 8] [7, 8])) = some true := by decide +kernel
example : lookRes (Small.eq cfg64 (· == ·) (mixedPair [7, 8] [7, 8, 9])) = some false := by
  decide +kernel
example : lookRes (Small.cmp cfg64 (fun a b => some (compare a b)) (mixedPair [7, 8] [7, 8, 1]))
    = some (some .lt) := by decide +kernel
example : lookRes (Small.cmp cfg64 (fun a b => some (compare a b)) (mixedPair [7, 9] [7, 8, 1]))
    = some (some .gt) := by decide +kernel

end Lokky
