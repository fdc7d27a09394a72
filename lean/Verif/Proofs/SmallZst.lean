import Verif.Proofs.VecZst
import Verif.Proofs.SmallPool

/-!
# Small vectors of zero-sized elements

`ySt n m sl w k g` is an inline vector of `k` elements of size zero and inline size `n`, with log `g` and a memory that is
always that of `w`.
-/

namespace Lokky
open Spec (Event Edit Op Cmd Out)
variable {α : Type} {c : Cfg α}

def ySt (n : Nat) (m : Marker) (sl : List (Option α)) (w : World α) (k : Nat) (g : Log α) : SSt α :=
  ⟨{ n := n, store := .stack sl k, marker := m }, { w with log := g }⟩

def yBuf (n : Nat) (sl : List (Option α)) (k : Nat) (g : Log α) : Buf α := ⟨sl, n, k, g⟩

variable {n : Nat} {m : Marker} {sl : List (Option α)} {w : World α} {k : Nat} {g : Log α}

theorem onStore_y {β : Type} {f : M (Buf α) β} {f' : M (VSt α) β} {a : β} {k' : Nat} {g' : Log α}
    (h : f (yBuf n sl k g) = .ok a (yBuf n sl k' g')) :
    Small.onStore f f' (ySt n m sl w k g) = .ok a (ySt n m sl w k' g') := by
  simp only [Small.onStore, ySt, St.stackBuf]
  rw [show (⟨sl, n, k, g⟩ : Buf α) = yBuf n sl k g from rfl, h]
  rfl

theorem onStore_yp {β : Type} {f : M (Buf α) β} {f' : M (VSt α) β} {k' : Nat} {g' : Log α}
    (h : f (yBuf n sl k g) = .panic (yBuf n sl k' g')) :
    Small.onStore f f' (ySt n m sl w k g) = .panic (ySt n m sl w k' g') := by
  simp only [Small.onStore, ySt, St.stackBuf]
  rw [show (⟨sl, n, k, g⟩ : Buf α) = yBuf n sl k g from rfl, h]
  rfl

theorem onLog_y {β : Type} {f : M (Log α) β} {a : β} {g' : Log α}
    (h : f g = .ok a g') : onLog f (ySt n m sl w k g) = .ok a (ySt n m sl w k g') := by
  rw [onLogOk (s := ySt n m sl w k g) h]; rfl

theorem onLog_yp {β : Type} {f : M (Log α) β} {g' : Log α}
    (h : f g = .panic g') : onLog f (ySt n m sl w k g) = .panic (ySt n m sl w k g') := by
  simp only [onLog, liftW, World.onLog, ySt, h]

theorem bufLog_y {β : Type} {f : M (Log α) β} {a : β} {g' : Log α}
    (h : f g = .ok a g') : Buf.onLog f (yBuf n sl k g) = .ok a (yBuf n sl k g') := by
  simp only [Buf.onLog, yBuf, h]

theorem bufLog_yp {β : Type} {f : M (Log α) β} {g' : Log α}
    (h : f g = .panic g') : Buf.onLog f (yBuf n sl k g) = .panic (yBuf n sl k g') := by
  simp only [Buf.onLog, yBuf, h]

/-! ### Buffers -/

theorem getLen_y : Buf.getLen (yBuf n sl k g) = .ok k (yBuf n sl k g) := rfl
theorem setLen_y {k' : Nat} (h : k' ≤ n) : Buf.setLen c k' (yBuf n sl k g) = .ok () (yBuf n sl k' g) :=
  Buf.setLen_eq (b := yBuf n sl k g) h
theorem read_y (hz : c.size = 0) (i : Nat) : Buf.read c i (yBuf n sl k g) = .ok c.zst (yBuf n sl k g) := by
  simp [Buf.read, hz]
theorem write_y (hz : c.size = 0) (i : Nat) (a : α) :
    Buf.write c i a (yBuf n sl k g) = .ok () (yBuf n sl k g) := by simp [Buf.write, hz]
theorem copy_y (hz : c.size = 0) (i j l : Nat) :
    Buf.copy c i j l (yBuf n sl k g) = .ok () (yBuf n sl k g) := by simp [Buf.copy, hz]
theorem copyNon_y (hz : c.size = 0) (i j l : Nat) :
    Buf.copyNonoverlapping c i j l (yBuf n sl k g) = .ok () (yBuf n sl k g) := by
  simp [Buf.copyNonoverlapping, hz, copy_y]
theorem dropAt_y (hz : c.size = 0) (hd : ∀ a, c.dropPanics a = false) (i : Nat) :
    Buf.dropAt c i (yBuf n sl k g) = .ok () (yBuf n sl k (g.addDrops [c.zst])) := by
  simp [Buf.dropAt, hz, Buf.onLog, yBuf, dropVal_ok hd]

theorem dropLoop_y (hz : c.size = 0) (hd : ∀ a, c.dropPanics a = false) (i j : Nat) (g : Log α) :
    Buf.dropLoop c i j (yBuf n sl k g) = .ok () (yBuf n sl k (g.addDrops (List.replicate j c.zst))) := by
  induction j generalizing i g with
  | zero => simp [Buf.dropLoop, Log.addDrops]
  | succ j ih =>
    simp only [Buf.dropLoop]
    rw [M.bind_ok (dropAt_y hz hd i), ih, addDrops_add]; rfl

theorem readSlice_y (hz : c.size = 0) (i j : Nat) :
    Buf.readSlice c i j (yBuf n sl k g) = .ok (List.replicate j c.zst) (yBuf n sl k g) := by
  induction j generalizing i with
  | zero => rfl
  | succ j ih =>
    simp only [Buf.readSlice]
    rw [M.bind_ok (read_y hz i), M.bind_ok (ih _)]; rfl

/-! ### Calls on an inline vector -/

theorem guardedAdd_y {i j : Nat} (h : i + j ≤ c.usizeMax) (s : SSt α) :
    Small.overflowGuardedAdd c i j s = .ok (i + j) s := by
  unfold Small.overflowGuardedAdd
  rw [if_pos h]; rfl

theorem tryReserveExact_y {j : Nat} (hu : n ≤ c.usizeMax) (h : k + j ≤ n) :
    Small.tryReserveExact c j (ySt n m sl w k g) = .ok (.ok ()) (ySt n m sl w k g) := by
  unfold Small.tryReserveExact
  rw [M.bind_ok (M.get_apply _)]
  have hl : Small.lenOf (ySt n m sl w k g).self = k := rfl
  have hc : Small.capacity c (ySt n m sl w k g).self = n := rfl
  rw [hl, hc]
  have e := M.bind_ok (f := fun wanted => if n < wanted then Small.tryMoveToHeap c j else pure (.ok ()))
    (guardedAdd_y (c := c) (i := k) (j := j) (by omega) (ySt n m sl w k g))
  rw [if_neg (by omega)] at e
  exact e

theorem tryReserve_y {j : Nat} (hm : Vec.minNonZeroCap c ≤ n) (hu : n + n ≤ c.usizeMax) (h : k + j ≤ n) :
    Small.tryReserve c j (ySt n m sl w k g) = .ok (.ok ()) (ySt n m sl w k g) := by
  unfold Small.tryReserve
  rw [M.bind_ok (M.get_apply _)]
  have hc : Small.capacity c (ySt n m sl w k g).self = n := rfl
  rw [hc, M.bind_ok (guardedAdd_y (by omega) _), show max (Vec.minNonZeroCap c) (n + j) - n = j by omega]
  exact tryReserveExact_y (by omega) h

theorem reserve_y {j : Nat} (hm : Vec.minNonZeroCap c ≤ n) (hu : n + n ≤ c.usizeMax) (h : k + j ≤ n) :
    Small.reserve c j (ySt n m sl w k g) = .ok () (ySt n m sl w k g) := by
  unfold Small.reserve
  rw [M.bind_ok (tryReserve_y hm hu h)]; rfl

theorem reserveExact_y {j : Nat} (hu : n ≤ c.usizeMax) (h : k + j ≤ n) :
    Small.reserveExact c j (ySt n m sl w k g) = .ok () (ySt n m sl w k g) := by
  unfold Small.reserveExact
  rw [M.bind_ok (tryReserveExact_y hu h)]; rfl

theorem uncheckedPush_y (hz : c.size = 0) (a : α) (h : k + 1 ≤ n) :
    Stack.uncheckedPush c a (yBuf n sl k g) = .ok () (yBuf n sl (k + 1) g) := by
  unfold Stack.uncheckedPush
  rw [M.bind_ok (s' := yBuf n sl k g) (a := ()) (M.onUnwind_ok ?_), M.bind_ok getLen_y, M.bind_ok (write_y hz _ _)]
  · exact setLen_y h
  · rw [M.bind_ok (M.get_apply _)]
    exact assert_pos (by simp only [yBuf]; omega)

theorem spush_y (hz : c.size = 0) (a : α) (h : k + 1 ≤ n) :
    Stack.push c a (yBuf n sl k g) = .ok () (yBuf n sl (k + 1) g) := by
  unfold Stack.push
  rw [M.bind_ok (s' := yBuf n sl k g) (a := ()) (M.onUnwind_ok ?_)]
  · exact uncheckedPush_y hz a h
  · rw [M.bind_ok (M.get_apply _)]
    exact debugAssert_pos (by simp only [yBuf]; omega)

theorem push_y (hz : c.size = 0) (hm : Vec.minNonZeroCap c ≤ n) (hu : n + n ≤ c.usizeMax) (a : α) (h : k + 1 ≤ n) :
    Small.push c a (ySt n m sl w k g) = .ok () (ySt n m sl w (k + 1) g) := by
  unfold Small.push
  rw [M.bind_ok (M.onUnwind_ok (reserve_y hm hu h))]
  exact onStore_y (uncheckedPush_y hz a h)

theorem pop_y (hz : c.size = 0) (h : k ≤ n) :
    Small.pop c (ySt n m sl w k g) = .ok (if k = 0 then none else some c.zst) (ySt n m sl w (k - 1) g) := by
  refine onStore_y ?_
  unfold Stack.pop
  rw [M.bind_ok getLen_y]
  split
  · rename_i h0; subst h0; rfl
  · rw [M.bind_ok (uncheckedIndex_eq (by omega)), M.bind_ok (read_y hz _), M.bind_ok (setLen_y (by omega))]
    rfl

theorem insert_y (hz : c.size = 0) (hm : Vec.minNonZeroCap c ≤ n) (hu : n + n ≤ c.usizeMax) (a : α) {i : Nat}
    (hi : i ≤ k) (hs : c.strict = true → i ≠ k) (h : k + 1 ≤ n) :
    Small.insert c i a (ySt n m sl w k g) = .ok () (ySt n m sl w (k + 1) g) := by
  unfold Small.insert
  rw [M.bind_ok (M.onUnwind_ok (reserve_y hm hu h))]
  refine onStore_y ?_
  unfold Stack.uncheckedInsert
  have hx : (uncheckedIndex c i k : M (Buf α) Unit) (yBuf n sl k g) = .ok () (yBuf n sl k g) := by
    unfold uncheckedIndex
    rw [if_neg]
    · rfl
    · simp only [Bool.and_eq_true, decide_eq_true_eq, not_and, Nat.not_le]
      intro h1
      have := hs h1
      omega
  have hsub : (usub c k i : M (Buf α) Nat) (yBuf n sl k g) = .ok (k - i) (yBuf n sl k g) := by
    unfold usub
    rw [if_pos hi]; rfl
  rw [M.bind_ok getLen_y, M.bind_ok (M.onUnwind_ok (debugAssert_pos hi)), M.bind_ok hx, M.bind_ok hsub,
    M.bind_ok (copy_y hz _ _ _), M.bind_ok (write_y hz _ _)]
  exact setLen_y h

theorem insert_yp (hd : ∀ a, c.dropPanics a = false) (hb : c.debug = true) (hm : Vec.minNonZeroCap c ≤ n)
    (hu : n + n ≤ c.usizeMax) (a : α) {i : Nat} (hi : ¬ i ≤ k) (h : k + 1 ≤ n) :
    Small.insert c i a (ySt n m sl w k g) = .panic (ySt n m sl w k (g.addDrops [a])) := by
  unfold Small.insert
  rw [M.bind_ok (M.onUnwind_ok (reserve_y hm hu h))]
  refine onStore_yp ?_
  unfold Stack.uncheckedInsert
  rw [M.bind_ok getLen_y]
  refine M.bind_panic (onUnwind_panic ?_ (bufLog_y (dropVal_ok hd _ _)))
  simp [debugAssert, hb, hi, M.boom]

theorem remove_y (hz : c.size = 0) {i : Nat} (hi : i < k) (h : k ≤ n) :
    Small.remove c i (ySt n m sl w k g) = .ok c.zst (ySt n m sl w (k - 1) g) := by
  refine onStore_y ?_
  unfold Stack.remove
  rw [M.bind_ok getLen_y, M.bind_ok (assert_pos hi), M.bind_ok (debugAssert_pos hi), M.bind_ok (uncheckedIndex_eq hi),
    M.bind_ok (read_y hz _), M.bind_ok (copy_y hz _ _ _), M.bind_ok (setLen_y (by omega))]
  rfl

theorem remove_yp {i : Nat} (hi : ¬ i < k) :
    Small.remove c i (ySt n m sl w k g) = .panic (ySt n m sl w k g) := by
  refine onStore_yp ?_
  unfold Stack.remove
  rw [M.bind_ok getLen_y, M.bind_panic (assert_neg hi)]

theorem swapRemove_y (hz : c.size = 0) {i : Nat} (hi : i < k) (h : k ≤ n) :
    Small.swapRemove c i (ySt n m sl w k g) = .ok c.zst (ySt n m sl w (k - 1) g) := by
  refine onStore_y ?_
  unfold Stack.swapRemove
  rw [M.bind_ok getLen_y, M.bind_ok (assert_pos hi), M.bind_ok (uncheckedIndex_eq hi),
    M.bind_ok (read_y hz _), M.bind_ok (uncheckedIndex_eq (show k - 1 < k by omega)),
    M.bind_ok (copyNon_y hz _ _ _), M.bind_ok (setLen_y (by omega))]
  rfl

theorem swapRemove_yp {i : Nat} (hi : ¬ i < k) :
    Small.swapRemove c i (ySt n m sl w k g) = .panic (ySt n m sl w k g) := by
  refine onStore_yp ?_
  unfold Stack.swapRemove
  rw [M.bind_ok getLen_y, M.bind_panic (assert_neg hi)]

theorem struncate_y {j : Nat} (h : k ≤ j) :
    Stack.truncate c j (yBuf n sl k g) = .ok () (yBuf n sl k g) := by
  unfold Stack.truncate
  rw [M.bind_ok getLen_y, if_neg (by omega)]
  rfl

theorem clear_y (hz : c.size = 0) (hd : ∀ a, c.dropPanics a = false) :
    Small.clear c (ySt n m sl w k g) = .ok () (ySt n m sl w 0 (g.addDrops (List.replicate k c.zst))) := by
  refine onStore_y ?_
  unfold Stack.clear
  rw [M.bind_ok getLen_y, M.bind_ok (setLen_y (Nat.zero_le _))]
  exact dropLoop_y hz hd _ _ _

theorem drop_y (hz : c.size = 0) (hd : ∀ a, c.dropPanics a = false) :
    Small.drop c (ySt n m sl w k g) = .ok () (ySt n m sl w k (g.addDrops (List.replicate k c.zst))) := by
  refine onStore_y ?_
  unfold Stack.drop
  rw [M.bind_ok getLen_y]
  exact dropLoop_y hz hd _ _ _

theorem index_y (hz : c.size = 0) {i : Nat} (hi : i < k) :
    Small.index c i (ySt n m sl w k g) = .ok c.zst (ySt n m sl w k g) := by
  refine onStore_y ?_
  unfold Stack.index
  rw [M.bind_ok getLen_y, M.bind_ok (assert_pos hi)]
  exact read_y hz _

theorem index_yp {i : Nat} (hi : ¬ i < k) :
    Small.index c i (ySt n m sl w k g) = .panic (ySt n m sl w k g) := by
  refine onStore_yp ?_
  unfold Stack.index
  rw [M.bind_ok getLen_y, M.bind_panic (assert_neg hi)]

theorem indexSet_y (hz : c.size = 0) (hd : ∀ a, c.dropPanics a = false) {i : Nat} (a : α) (hi : i < k) :
    Small.indexSet c i a (ySt n m sl w k g) = .ok () (ySt n m sl w k (g.addDrops [c.zst])) := by
  refine onStore_y ?_
  unfold Stack.indexSet
  rw [M.bind_ok (s' := yBuf n sl k g) (a := ()) (M.onUnwind_ok ?_), andAlways_ok (dropAt_y hz hd i), write_y hz]
  rw [M.bind_ok getLen_y]; exact assert_pos hi

theorem indexSet_yp (hd : ∀ a, c.dropPanics a = false) {i : Nat} (a : α) (hi : ¬ i < k) :
    Small.indexSet c i a (ySt n m sl w k g) = .panic (ySt n m sl w k (g.addDrops [a])) := by
  refine onStore_yp ?_
  unfold Stack.indexSet
  refine M.bind_panic (onUnwind_panic ?_ (bufLog_y (dropVal_ok hd _ _)))
  rw [M.bind_ok getLen_y]; exact assert_neg hi

theorem asSlice_y (hz : c.size = 0) :
    Small.asSlice c (ySt n m sl w k g) = .ok (List.replicate k c.zst) (ySt n m sl w k g) := by
  refine onStore_y ?_
  unfold Stack.asSlice
  rw [M.bind_ok getLen_y]
  exact readSlice_y hz _ _

theorem pushClones_y (hz : c.size = 0) (hm : Vec.minNonZeroCap c ≤ n) (hu : n + n ≤ c.usizeMax) (xs : List α)
    (h : k + xs.length ≤ n) :
    (∃ ys j, Spec.Clones c.cloneRel xs ys ∧
      Small.pushClones c xs (ySt n m sl w k g) = .ok () (ySt n m sl w (k + ys.length) (g.addCalls j))) ∨
    (∃ pre a post ys j, xs = pre ++ a :: post ∧ Spec.Clones c.cloneRel pre ys ∧
      c.cloneRel a none ∧
      Small.pushClones c xs (ySt n m sl w k g) = .panic (ySt n m sl w (k + ys.length) (g.addCalls j))) := by
  induction xs generalizing k g with
  | nil => exact Or.inl ⟨[], 0, .nil, rfl⟩
  | cons a xs ih =>
    simp only [List.length_cons] at h
    simp only [Small.pushClones]
    cases hcl : c.clone g.calls a with
    | none =>
      refine Or.inr ⟨[], a, xs, [], 1, rfl, .nil, ⟨_, hcl⟩, ?_⟩
      rw [M.bind_panic (onLog_yp (cloneVal_panic hcl))]; rfl
    | some b =>
      rw [M.bind_ok (onLog_y (cloneVal_ok hcl)), M.bind_ok (push_y hz hm hu b (by omega))]
      rcases ih (k := k + 1) (g := g.addCalls 1) (by omega) with
        ⟨ys, j, h1, h2⟩ | ⟨pre, a', post, ys, j, h1, h2, h3, h4⟩
      · refine Or.inl ⟨b :: ys, 1 + j, .cons ⟨_, hcl⟩ h1, ?_⟩
        rw [h2]; simp [Log.addCalls, Nat.add_assoc, Nat.add_comm 1]
      · refine Or.inr ⟨a :: pre, a', post, b :: ys, 1 + j, by simp [h1], .cons ⟨_, hcl⟩ h2, h3, ?_⟩
        rw [h4]; simp [Log.addCalls, Nat.add_assoc, Nat.add_comm 1]

theorem pushItems_y (hz : c.size = 0) (hm : Vec.minNonZeroCap c ≤ n) (hu : n + n ≤ c.usizeMax) (boom : Bool)
    (xs : List α) (h : k + xs.length ≤ n) :
    Small.pushItems c boom xs (ySt n m sl w k g) =
      if boom then .panic (ySt n m sl w (k + xs.length) g) else .ok () (ySt n m sl w (k + xs.length) g) := by
  induction xs generalizing k with
  | nil => cases boom <;> rfl
  | cons a xs ih =>
    simp only [List.length_cons] at h
    simp only [Small.pushItems]
    rw [M.bind_ok (M.onUnwind_ok (push_y hz hm hu a (by omega))), ih (by omega), List.length_cons,
      show k + 1 + xs.length = k + (xs.length + 1) by omega]

theorem pushCalls_y (hz : c.size = 0) (f : Nat → Option α) (i j : Nat) (h : k + j ≤ n) :
    (∃ ys : List α, (List.range' i j).map f = ys.map some ∧
      Stack.pushCalls c f i j (yBuf n sl k g) = .ok () (yBuf n sl (k + ys.length) g)) ∨
    (∃ (l : Nat) (ys : List α), l < j ∧ (List.range' i l).map f = ys.map some ∧ f (i + l) = none ∧
      Stack.pushCalls c f i j (yBuf n sl k g) = .panic (yBuf n sl (k + ys.length) g)) := by
  induction j generalizing k i with
  | zero => exact Or.inl ⟨[], rfl, rfl⟩
  | succ j ih =>
    simp only [Stack.pushCalls]
    cases hf : f i with
    | none => exact Or.inr ⟨0, [], by omega, rfl, hf, rfl⟩
    | some a =>
      simp only
      rw [M.bind_ok (spush_y hz a (by omega))]
      rcases ih (k := k + 1) (i + 1) (by omega) with ⟨ys, h1, h2⟩ | ⟨l, ys, h1, h2, h3, h4⟩
      · refine Or.inl ⟨a :: ys, ?_, ?_⟩
        · rw [List.range'_succ, List.map_cons, List.map_cons, hf, h1]
        · rw [h2, List.length_cons, show k + 1 + ys.length = k + (ys.length + 1) by omega]
      · refine Or.inr ⟨l + 1, a :: ys, by omega, ?_, ?_, ?_⟩
        · rw [List.range'_succ, List.map_cons, List.map_cons, hf, h2]
        · rw [← h3, show i + (l + 1) = i + 1 + l by omega]
        · rw [h4, List.length_cons, show k + 1 + ys.length = k + (ys.length + 1) by omega]

theorem pushCopies_y (hz : c.size = 0) (a : α) (j : Nat) (h : k + j ≤ n) :
    (∃ ys i, Spec.Clones c.cloneRel (List.replicate j a) ys ∧
      Stack.pushCopies c a j (yBuf n sl k g) = .ok () (yBuf n sl (k + ys.length) (g.addCalls i))) ∨
    (∃ l ys i, l < j ∧ Spec.Clones c.cloneRel (List.replicate l a) ys ∧ c.cloneRel a none ∧
      Stack.pushCopies c a j (yBuf n sl k g) = .panic (yBuf n sl (k + ys.length) (g.addCalls i))) := by
  induction j generalizing k g with
  | zero => exact Or.inl ⟨[], 0, .nil, rfl⟩
  | succ j ih =>
    simp only [Stack.pushCopies]
    cases hcl : c.clone g.calls a with
    | none =>
      refine Or.inr ⟨0, [], 1, by omega, .nil, ⟨_, hcl⟩, ?_⟩
      rw [M.bind_panic (bufLog_yp (cloneVal_panic hcl))]; rfl
    | some b =>
      rw [M.bind_ok (bufLog_y (cloneVal_ok hcl)), M.bind_ok (spush_y hz b (by omega))]
      rcases ih (k := k + 1) (g := g.addCalls 1) (by omega) with ⟨ys, i, h1, h2⟩ | ⟨l, ys, i, h1, h2, h3, h4⟩
      · refine Or.inl ⟨b :: ys, 1 + i, .cons ⟨_, hcl⟩ h1, ?_⟩
        rw [h2]; simp [Log.addCalls, Nat.add_assoc, Nat.add_comm 1]
      · refine Or.inr ⟨l + 1, b :: ys, 1 + i, by omega, .cons ⟨_, hcl⟩ h2, h3, ?_⟩
        rw [h4]; simp [Log.addCalls, Nat.add_assoc, Nat.add_comm 1]

/-! ### Histories -/

/-- Calls on an inline vector of `len` zero-sized elements and inline size `n` that stay inline, other than those refuted
for inline vectors of any type: `truncate` and `resize` to a smaller length (C32, C35), `insert` at or beyond the end
(C34). -/
def Spec.Op.YLegal (c : Cfg α) (o : Spec.Op α) (n len : Nat) : Prop :=
  match o with
  | .push _ => len + 1 ≤ n
  | .insert i _ => len + 1 ≤ n ∧ (c.debug = true ∨ i ≤ len) ∧ (c.strict = true → i ≠ len)
  | .truncate k => len ≤ k
  | .extendFromSlice xs => len + xs.length ≤ n
  | .extendFromIter it => len + it.items.length ≤ n ∧ len + it.hint ≤ n
  | .resize k _ => len ≤ k ∧ k ≤ n
  | .resizeWith k _ => len ≤ k ∧ k ≤ n
  | .reserve k => len + k ≤ n
  | .reserveExact k => len + k ≤ n
  | .tryReserve k => len + k ≤ n
  | .tryReserveExact k => len + k ≤ n
  | _ => True

/-- A call on an inline vector of zero-sized elements with contents `l`: it is what the list specification says, the vector
stays inline, nothing happens to memory. -/
def YZOk (c : Cfg α) (n : Nat) (m : Marker) (sl : List (Option α)) (w : World α) (o : Op α) (l : List α) (g : Log α) :
    Prop :=
  ∃ out l' made dropped g', Edit c.cloneRel o ⟨out, false⟩ l l' made dropped ∧
    l'.length ≤ n ∧ g'.drops = g.drops ++ dropped ∧
    runSOp c o (ySt n m sl w l.length g) = resOf out (ySt n m sl w l'.length g')

theorem YZOk.ok {o : Op α} {l : List α} {g : Log α} {out : Out α} (l' made dropped : List α)
    (g' : Log α) (hr : runSOp c o (ySt n m sl w l.length g) = .ok out (ySt n m sl w l'.length g'))
    (he : Edit c.cloneRel o (.ret out) l l' made dropped)
    (hl : l'.length ≤ n) (hg : g'.drops = g.drops ++ dropped) : YZOk c n m sl w o l g :=
  ⟨some out, l', made, dropped, g', he, hl, hg, hr⟩

theorem YZOk.panic {o : Op α} {l : List α} {g : Log α} (l' made dropped : List α)
    (g' : Log α) (hr : runSOp c o (ySt n m sl w l.length g) = .panic (ySt n m sl w l'.length g'))
    (he : Edit c.cloneRel o .panic l l' made dropped)
    (hl : l'.length ≤ n) (hg : g'.drops = g.drops ++ dropped) : YZOk c n m sl w o l g :=
  ⟨none, l', made, dropped, g', he, hl, hg, hr⟩

theorem runSOp_y [Subsingleton α] (hz : c.size = 0) (hd : ∀ a, c.dropPanics a = false)
    (hm : Vec.minNonZeroCap c ≤ n) (hu : n + n ≤ c.usizeMax)
    (l : List α) (hn : l.length ≤ n) (g : Log α) (o : Op α)
    (ho : o.YLegal c n l.length) : YZOk c n m sl w o l g := by
  have nil : g.drops = g.drops ++ [] := (List.append_nil _).symm
  have zst : ∀ a, c.zst = a := fun a => Subsingleton.elim _ _
  cases o with
  | push a =>
    refine .ok (l ++ [a]) [] [] g ?_ (.push a l) (by rw [List.length_append]; exact ho) nil
    rw [List.length_append]
    exact quiet_ok (push_y hz hm hu a ho)
  | pop =>
    refine .ok l.dropLast [] [] g ?_ (.pop l) (by simp; omega) nil
    have e := mapo_ok (f := Out.opt) (pop_y (m := m) (sl := sl) (w := w) (g := g) hz hn)
    have e2 : (if l.length = 0 then none else some c.zst) = l.getLast? := by
      cases hl : l.getLast? with
      | none => rw [List.getLast?_eq_none_iff] at hl; simp [hl]
      | some a =>
        rw [if_neg, zst a]
        intro h0
        rw [List.length_eq_zero_iff] at h0
        subst h0; simp at hl
    rw [e2] at e
    rw [List.length_dropLast]
    exact e
  | insert i a =>
    by_cases hi : i ≤ l.length
    · refine .ok _ [] [] g ?_ (.insert i a l hi) ?_ nil
      · have : (l.take i ++ a :: l.drop i).length = l.length + 1 := by simp; omega
        rw [this]
        exact quiet_ok (insert_y hz hm hu a hi ho.2.2 ho.1)
      · have : (l.take i ++ a :: l.drop i).length = l.length + 1 := by simp; omega
        rw [this]; exact ho.1
    · exact .panic l [] [a] (g.addDrops [a])
        (quiet_panic (insert_yp hd (ho.2.1.resolve_right hi) hm hu a hi ho.1))
        (.insertBad i a l (by omega)) hn rfl
  | remove i =>
    by_cases hi : i < l.length
    · refine .ok _ [] [] g ?_ (.remove i l hi) ?_ nil
      · have : (l.take i ++ l.drop (i + 1)).length = l.length - 1 := by simp; omega
        rw [this, ← zst l[i]]
        exact mapo_ok (remove_y hz hi hn)
      · simp; omega
    · exact .panic l [] [] g (mapo_panic (remove_yp hi)) (.removeBad i l (by omega)) hn nil
  | swapRemove i =>
    by_cases hi : i < l.length
    · refine .ok _ [] [] g ?_ (.swapRemove i l hi) ?_ nil
      · rw [List.length_dropLast, List.length_set, ← zst l[i]]
        exact mapo_ok (swapRemove_y hz hi hn)
      · simp; omega
    · exact .panic l [] [] g (mapo_panic (swapRemove_yp hi)) (.swapRemoveBad i l (by omega)) hn nil
  | truncate j =>
    have ho : l.length ≤ j := ho
    refine .ok (l.take j) [] (l.drop j) g ?_ (.truncate j l) (by simp; omega) ?_
    · rw [List.take_of_length_le ho]
      exact quiet_ok (onStore_y (struncate_y ho))
    · rw [List.drop_of_length_le ho]; exact nil
  | clear =>
    refine .ok [] [] l (g.addDrops l) ?_ (.clear l) (Nat.zero_le _) rfl
    have e := quiet_ok (α := α) (clear_y (n := n) (m := m) (sl := sl) (w := w) (g := g) (k := l.length) hz hd)
    rwa [show List.replicate l.length c.zst = l from list_sub (by simp)] at e
  | extendFromSlice xs =>
    have ho : l.length + xs.length ≤ n := ho
    have e0 : ∀ r, Small.pushClones c xs (ySt n m sl w l.length g) = r →
        Small.extendFromSlice c xs (ySt n m sl w l.length g) = r := by
      intro r h
      unfold Small.extendFromSlice
      rw [M.bind_ok (reserve_y hm hu ho)]; exact h
    rcases pushClones_y (m := m) (sl := sl) (w := w) (g := g) hz hm hu xs ho with
      ⟨ys, j, h1, h2⟩ | ⟨pre, a, post, ys, j, rfl, h2, h3, h4⟩
    · refine .ok (l ++ ys) ys [] (g.addCalls j) ?_ (.extendFromSlice xs ys l h1) ?_ nil
      · rw [List.length_append]; exact quiet_ok (e0 _ h2)
      · rw [List.length_append, ← h1.length]; exact ho
    · refine .panic (l ++ ys) ys [] (g.addCalls j) ?_ (.extendFromSlicePanic pre a post ys l h2 h3)
        ?_ nil
      · rw [List.length_append]; exact quiet_panic (e0 _ h4)
      · have := h2.length
        simp at ho ⊢; omega
  | extendFromIter it =>
    have e0 := pushItems_y (m := m) (sl := sl) (w := w) (g := g) hz hm hu it.boom it.items ho.1
    have e1 : Small.extendFromIter c it.iter (ySt n m sl w l.length g) =
        Small.pushItems c it.boom it.items (ySt n m sl w l.length g) := by
      unfold Small.extendFromIter
      rw [M.bind_ok (M.onUnwind_ok (reserve_y (j := it.iter.hint) hm hu ho.2))]; rfl
    rw [← List.length_append] at e0
    cases hb : it.boom with
    | false =>
      rw [hb] at e0 e1
      exact .ok (l ++ it.items) [] [] g (quiet_ok (e1.trans e0)) (.extendFromIter it l hb)
        (by rw [List.length_append]; exact ho.1) nil
    | true =>
      rw [hb] at e0 e1
      exact .panic (l ++ it.items) [] [] g (quiet_panic (e1.trans e0)) (.extendFromIterPanic it l hb)
        (by rw [List.length_append]; exact ho.1) nil
  | resize j a =>
    have ho : l.length ≤ j ∧ j ≤ n := ho
    have e : ∀ r, Small.onStore (Stack.resize c j a) (Vec.resize c j a) (ySt n m sl w l.length g) = r →
        Small.resize c j a (ySt n m sl w l.length g) = r := by
      intro r h
      unfold Small.resize
      rw [M.bind_ok (s' := ySt n m sl w l.length g) (a := ()) (M.onUnwind_ok ?_)]
      · exact h
      · rw [M.bind_ok (M.get_apply _)]
        rw [show (ySt n m sl w l.length g).self.n = n from rfl, if_neg (by omega)]; rfl
    by_cases hk : j ≤ l.length
    · refine .ok (l.take j) [] (l.drop j ++ [a]) (g.addDrops (l.drop j ++ [a])) ?_
        (.resizeDown j a l hk) (by simp; omega) rfl
      refine quiet_ok (e _ (onStore_y ?_))
      unfold Stack.resize
      rw [M.bind_ok getLen_y, if_pos hk, andAlways_ok (struncate_y ho.1), List.take_of_length_le ho.1,
        List.drop_of_length_le ho.1, bufLog_y (dropVal_ok hd a _)]
      rfl
    · have e0 : ∀ r, Stack.pushCopies c a (j - l.length - 1) (yBuf n sl l.length g) = r →
          (do Stack.reserveExact c (j - l.length)
              Stack.pushCopies c a (j - l.length - 1) : M (Buf α) Unit) (yBuf n sl l.length g) = r := by
        rintro r rfl
        have : Stack.reserveExact c (j - l.length) (yBuf n sl l.length g) = .ok () (yBuf n sl l.length g) := by
          unfold Stack.reserveExact
          rw [M.bind_ok (M.get_apply _)]
          exact debugAssert_pos (by simp only [yBuf]; omega)
        rw [M.bind_ok this]
      rcases pushCopies_y (n := n) (sl := sl) (g := g) (k := l.length) hz a (j - l.length - 1) (by omega) with
        ⟨ys, i, h1, h2⟩ | ⟨p, ys, i, h1, h2, h3, h4⟩
      · have hl := h1.length
        rw [List.length_replicate] at hl
        refine .ok (l ++ ys ++ [a]) ys [] (g.addCalls i) (quiet_ok (e _ (onStore_y ?_)))
          (.resizeUp j a ys l (by omega) h1) (by simp; omega) nil
        unfold Stack.resize
        rw [M.bind_ok getLen_y, if_neg hk, M.bind_ok (M.onUnwind_ok (e0 _ h2)), spush_y hz a (by omega)]
        simp [Nat.add_assoc]
      · have hl := h2.length
        rw [List.length_replicate] at hl
        refine .panic (l ++ ys) ys [a] ((g.addCalls i).addDrops [a]) (quiet_panic (e _ (onStore_yp ?_)))
          (.resizePanic j a p ys l h1 h2 h3) (by simp; omega) rfl
        unfold Stack.resize
        rw [M.bind_ok getLen_y, if_neg hk,
          M.bind_panic (onUnwind_panic (e0 _ h4) (bufLog_y (dropVal_ok hd a _))), List.length_append]
  | resizeWith j f =>
    have ho : l.length ≤ j ∧ j ≤ n := ho
    by_cases hk : j ≤ l.length
    · refine .ok (l.take j) [] (l.drop j) g ?_ (.resizeWithDown j f l hk) (by simp; omega) ?_
      · refine quiet_ok (onStore_y ?_)
        unfold Stack.resizeWith
        rw [M.bind_ok getLen_y, if_pos hk, struncate_y ho.1, List.take_of_length_le ho.1]
      · rw [List.drop_of_length_le ho.1]; exact nil
    · have e0 : Stack.resizeWith c j f (yBuf n sl l.length g) =
          Stack.pushCalls c f 0 (j - l.length) (yBuf n sl l.length g) := by
        unfold Stack.resizeWith
        have : Stack.reserveExact c (j - l.length) (yBuf n sl l.length g) = .ok () (yBuf n sl l.length g) := by
          unfold Stack.reserveExact
          rw [M.bind_ok (M.get_apply _)]
          exact debugAssert_pos (by simp only [yBuf]; omega)
        rw [M.bind_ok getLen_y, if_neg hk, M.bind_ok this]
      rcases pushCalls_y (n := n) (sl := sl) (g := g) (k := l.length) hz f 0 (j - l.length) (by omega)
        with ⟨ys, h1, h2⟩ | ⟨p, ys, h1, h2, h3, h4⟩
      · have hl := congrArg List.length h1
        simp at hl
        refine .ok (l ++ ys) ys [] g (quiet_ok (onStore_y ?_)) (.resizeWithUp j f ys l (by omega) ?_)
          (by simp; omega) nil
        · rw [e0, h2, List.length_append]
        · rw [List.range_eq_range', h1]
      · have hl := congrArg List.length h2
        simp at hl
        refine .panic (l ++ ys) ys [] g (quiet_panic (onStore_yp ?_)) (.resizeWithPanic j f p ys l h1 ?_ ?_)
          (by simp; omega) nil
        · rw [e0, h4, List.length_append]
        · rw [List.range_eq_range', h2]
        · rw [← h3, Nat.zero_add]
  | reserve j => exact .ok l [] [] g (quiet_ok (reserve_y hm hu ho)) (.reserve j l) hn nil
  | reserveExact j =>
    exact .ok l [] [] g (quiet_ok (reserveExact_y (by omega) ho)) (.reserveExact j l) hn nil
  | tryReserve j =>
    exact .ok l [] [] g (mapo_ok (f := outRes) (tryReserve_y hm hu ho)) (.tryReserve j l) hn nil
  | tryReserveExact j =>
    exact .ok l [] [] g (mapo_ok (f := outRes) (tryReserveExact_y (by omega) ho)) (.tryReserveExact j l) hn nil
  | shrinkTo j => exact .ok l [] [] g (quiet_ok (onStore_y rfl)) (.shrinkTo j l) hn nil
  | shrinkToFit => exact .ok l [] [] g (quiet_ok (onStore_y rfl)) (.shrinkToFit l) hn nil
  | get i =>
    by_cases hi : i < l.length
    · refine .ok l [] [] g ?_ (.get i l hi) hn nil
      rw [← zst l[i]]
      exact mapo_ok (index_y hz hi)
    · exact .panic l [] [] g (mapo_panic (index_yp hi)) (.getBad i l (by omega)) hn nil
  | set i a =>
    by_cases hi : i < l.length
    · refine .ok (l.set i a) [] [l[i]] (g.addDrops [l[i]]) ?_ (.set i a l hi) (by simpa using hn) rfl
      rw [List.length_set, ← zst l[i]]
      exact quiet_ok (indexSet_y hz hd a hi)
    · exact .panic l [] [a] (g.addDrops [a]) (quiet_panic (indexSet_yp hd a hi))
        (.setBad i a l (by omega)) hn rfl
  | read =>
    refine .ok l [] [] g ?_ (.read l) hn nil
    have e := mapo_ok (f := Out.list) (asSlice_y (n := n) (m := m) (sl := sl) (w := w) (k := l.length) (g := g) hz)
    rwa [show List.replicate l.length c.zst = l from list_sub (by simp)] at e
  | len => exact .ok l [] [] g (mapo_ok (f := Out.nat) (b := l.length) rfl) (.len l) hn nil

/-! ### The heap -/

/-- A vector of `k` zero-sized elements that lies on the heap. -/
def xSt (n : Nat) (m : Marker) (v : VecH) (w : World α) (k : Nat) (g : Log α) : SSt α :=
  ⟨{ n := n, store := .heap { v with ptr := none, len := k }, marker := m }, { w with log := g }⟩

variable {v : VecH}

theorem onStore_x {β : Type} {f : M (Buf α) β} {f' : M (VSt α) β} {a : β} {k' : Nat} {g' : Log α}
    (h : f' (zSt v w k g) = .ok a (zSt v w k' g')) :
    Small.onStore f f' (xSt n m v w k g) = .ok a (xSt n m v w k' g') := by
  simp only [Small.onStore, xSt]
  rw [show (⟨{ v with ptr := none, len := k }, { w with log := g }⟩ : VSt α) = zSt v w k g from rfl, h]
  rfl

theorem onStore_xub {β : Type} {f : M (Buf α) β} {f' : M (VSt α) β} {u : UB}
    (h : f' (zSt v w k g) = .ub u) : Small.onStore f f' (xSt n m v w k g) = .ub u := by
  simp only [Small.onStore, xSt]
  rw [show (⟨{ v with ptr := none, len := k }, { w with log := g }⟩ : VSt α) = zSt v w k g from rfl, h]

/-- Adding to the capacity of a vector that is on the heap overflows. -/
theorem tryReserve_heap (hz : c.size = 0) {j : Nat} (hj : 0 < j) {s : SSt α} {v : VecH}
    (h : s.self.store = .heap v) : Small.tryReserve c j s = .panic s := by
  unfold Small.tryReserve
  rw [M.bind_ok (M.get_apply _)]
  have hc : Small.capacity c s.self = c.usizeMax := by simp [Small.capacity, h, Vec.capacity, hz]
  have ho : Small.overflowGuardedAdd c (Small.capacity c s.self) j s = .panic s := by
    unfold Small.overflowGuardedAdd
    rw [hc, if_neg (by omega)]; rfl
  exact M.bind_panic ho

theorem reserve_heap (hz : c.size = 0) {j : Nat} (hj : 0 < j) {s : SSt α} {v : VecH}
    (h : s.self.store = .heap v) : Small.reserve c j s = .panic s := by
  unfold Small.reserve
  exact M.bind_panic (tryReserve_heap hz hj h)

theorem zdrop_ub (hz : c.size = 0) (hmax : 0 < c.usizeMax) (hd : ∀ a, c.dropPanics a = false) :
    Vec.drop c (zSt v w k g) = .ub .badFree := by
  unfold Vec.drop
  rw [M.bind_ok (M.get_apply _), capacity_z hz, if_pos hmax,
    M.bind_ok (onBuf_z hz (dropLoop_z hz hd 0 _ g))]
  rfl

theorem moveToHeap_y (hz : c.size = 0) {j : Nat} (h : k + j ≤ c.usizeMax) :
    Small.tryMoveToHeap c j (ySt n m sl w k g) =
      .ok (.ok ()) (xSt n m ⟨none, 0, w.allocFor m, none, 0⟩ w k g) := by
  unfold Small.tryMoveToHeap
  rw [M.bind_ok (M.get_apply _)]
  have hu : (uadd c k j : M (SSt α) Nat) (ySt n m sl w k g) = .ok (k + j) (ySt n m sl w k g) := by
    unfold uadd
    rw [if_pos h]; rfl
  simp only [show (ySt n m sl w k g).self.store = .stack sl k from rfl]
  rw [M.bind_ok hu]
  have h1 : (liftW (Vec.tryWithCapacityAndMarker c (max (k + j) (Vec.minNonZeroCap c))
        (ySt n m sl w k g).self.marker) : M (SSt α) _) (ySt n m sl w k g) =
      .ok (.ok ⟨none, 0, w.allocFor m, none, 0⟩) (ySt n m sl w k g) := by
    simp only [liftW, Vec.tryWithCapacityAndMarker, hz, or_true, if_true, M.bind_apply, Vec.withMarker, M.pure_apply]
    rfl
  rw [M.bind_ok h1]
  have hb : (Vec.onBuf c (do Buf.copyFrom c sl 0 k; Buf.setLen c k) : M (VSt α) Unit)
      (zSt ⟨none, 0, w.allocFor m, none, 0⟩ w 0 g) = .ok () (zSt ⟨none, 0, w.allocFor m, none, 0⟩ w k g) := by
    refine onBuf_z hz ?_
    rw [M.bind_ok (s' := zBuf c 0 g) (a := ()) (by simp [Buf.copyFrom, hz])]
    exact setLen_z (by omega)
  have h2 : (liftW (withLocal ⟨none, 0, w.allocFor m, none, 0⟩ (Vec.drop c) (Vec.onBuf c (do
        Buf.copyFrom c sl 0 k; Buf.setLen c k))) : M (SSt α) _) (ySt n m sl w k g) =
      .ok ((), ⟨none, 0, w.allocFor m, none, k⟩) (ySt n m sl w k g) := by
    have e := M.onUnwind_ok (k := Vec.drop c) hb
    simp only [liftW, withLocal]
    rw [show (⟨⟨none, 0, w.allocFor m, none, 0⟩, (ySt n m sl w k g).w⟩ : VSt α) =
      zSt ⟨none, 0, w.allocFor m, none, 0⟩ w 0 g from rfl, e]
    rfl
  simp only
  rw [M.bind_ok h2]
  rfl

/-- The push for which there is no room inline moves the elements to the heap. -/
theorem push_spill (hz : c.size = 0) (hm : Vec.minNonZeroCap c ≤ n) (hu : n + 1 ≤ c.usizeMax) (a : α) :
    Small.push c a (ySt n m sl w n g) =
      .ok () (xSt n m ⟨none, 0, w.allocFor m, none, 0⟩ w (n + 1) g) := by
  unfold Small.push
  have h1 : Small.tryReserveExact c 1 (ySt n m sl w n g) =
      .ok (.ok ()) (xSt n m ⟨none, 0, w.allocFor m, none, 0⟩ w n g) := by
    unfold Small.tryReserveExact
    rw [M.bind_ok (M.get_apply _)]
    have hl : Small.lenOf (ySt n m sl w n g).self = n := rfl
    have hc : Small.capacity c (ySt n m sl w n g).self = n := rfl
    rw [hl, hc]
    have e := M.bind_ok (f := fun wanted => if n < wanted then Small.tryMoveToHeap c 1 else pure (.ok ()))
      (guardedAdd_y (c := c) (i := n) (j := 1) hu (ySt n m sl w n g))
    rw [if_pos (by omega), moveToHeap_y hz hu] at e
    exact e
  have h2 : Small.reserve c 1 (ySt n m sl w n g) =
      .ok () (xSt n m ⟨none, 0, w.allocFor m, none, 0⟩ w n g) := by
    unfold Small.reserve Small.tryReserve
    rw [M.bind_ok (a := .ok ()) (s' := xSt n m ⟨none, 0, w.allocFor m, none, 0⟩ w n g) ?_]
    · rfl
    · rw [M.bind_ok (M.get_apply _)]
      have hc : Small.capacity c (ySt n m sl w n g).self = n := rfl
      rw [hc, M.bind_ok (guardedAdd_y hu _), show max (Vec.minNonZeroCap c) (n + 1) - n = 1 by omega]
      exact h1
  rw [M.bind_ok (M.onUnwind_ok h2)]
  exact onStore_x (push_z hz a hu)

end Lokky
