import Verif.Proofs.VecPool

/-!
# Vectors of zero-sized elements

`zSt v w n g` is a vector of `n` elements of size zero: dangling pointer, log `g`, and a memory that
is always that of `w`.
-/

namespace Lokky
open Spec (Event Edit Op Cmd Out)
variable {α : Type} {c : Cfg α}

def zSt (v : VecH) (w : World α) (n : Nat) (g : Log α) : VSt α :=
  ⟨{ v with ptr := none, len := n }, { w with log := g }⟩

def zBuf (c : Cfg α) (n : Nat) (g : Log α) : Buf α := ⟨[], c.usizeMax, n, g⟩

variable {v : VecH} {w : World α} {n : Nat} {g : Log α}

theorem zSt_len : (zSt v w n g).self.len = n := rfl
theorem getLen_z : Buf.getLen (zBuf c n g) = .ok n (zBuf c n g) := rfl

theorem bufOf_z (hz : c.size = 0) : bufOf c (zSt v w n g) = zBuf c n g := by
  simp [bufOf, zSt, zBuf, Vec.capacity, hz, World.slots]

theorem putBuf_z (n' : Nat) (g' : Log α) :
    putBuf (zSt v w n g) (zBuf c n' g') = zSt v w n' g' := rfl

theorem onBuf_z {β : Type} (hz : c.size = 0) {m : M (Buf α) β} {a : β} {n' : Nat} {g' : Log α}
    (h : m (zBuf c n g) = .ok a (zBuf c n' g')) :
    Vec.onBuf c m (zSt v w n g) = .ok a (zSt v w n' g') := by
  rw [onBuf_eq, bufOf_z hz, h]
  rfl

theorem onBuf_zp {β : Type} (hz : c.size = 0) {m : M (Buf α) β} {n' : Nat} {g' : Log α}
    (h : m (zBuf c n g) = .panic (zBuf c n' g')) :
    Vec.onBuf c m (zSt v w n g) = .panic (zSt v w n' g') := by
  rw [onBuf_eq, bufOf_z hz, h]
  rfl

theorem capacity_z (hz : c.size = 0) (v : VecH) : Vec.capacity c v = c.usizeMax := by
  simp [Vec.capacity, hz]

theorem tryReserveExact_z (hz : c.size = 0) {k : Nat} (h : n + k ≤ c.usizeMax) :
    Vec.tryReserveExact c k (zSt v w n g) = .ok (.ok ()) (zSt v w n g) := by
  unfold Vec.tryReserveExact
  rw [M.bind_ok (M.get_apply _), zSt_len]
  simp only [Vec.overflowGuardedAdd, if_pos h, capacity_z hz]
  rw [M.bind_ok (M.pure_apply _ _), if_neg (by omega), M.pure_apply]

theorem reserveExact_z (hz : c.size = 0) {k : Nat} (h : n + k ≤ c.usizeMax) :
    Vec.reserveExact c k (zSt v w n g) = .ok () (zSt v w n g) := by
  unfold Vec.reserveExact
  rw [M.bind_ok (tryReserveExact_z hz h)]; rfl

theorem tryReserve_z (hz : c.size = 0) {k : Nat} (h : n + k ≤ c.usizeMax) :
    Vec.tryReserve c k (zSt v w n g) = .ok (.ok ()) (zSt v w n g) := by
  unfold Vec.tryReserve
  rw [M.bind_ok (M.get_apply _), zSt_len]
  simp only [Vec.overflowGuardedAdd, if_pos h, capacity_z hz]
  rw [M.bind_ok (M.pure_apply _ _), if_neg (by omega), M.pure_apply]

theorem reserve_z (hz : c.size = 0) {k : Nat} (h : n + k ≤ c.usizeMax) :
    Vec.reserve c k (zSt v w n g) = .ok () (zSt v w n g) := by
  unfold Vec.reserve
  rw [M.bind_ok (tryReserve_z hz h)]; rfl

theorem shrink_z (hz : c.size = 0) {k : Nat} (h1 : k < c.usizeMax) (h2 : n ≤ k) :
    Vec.shrink c k (zSt v w n g) = .ok (.ok ()) (zSt v w n g) := by
  unfold Vec.shrink
  rw [M.bind_ok (M.get_apply _), zSt_len, M.bind_ok (debugAssert_pos (by rw [capacity_z hz]; exact h1)),
    M.bind_ok (debugAssert_pos h2), if_pos hz]
  rfl

theorem shrinkTo_z (hz : c.size = 0) {k : Nat} :
    Vec.shrinkTo c k (zSt v w n g) = .ok () (zSt v w n g) := by
  unfold Vec.shrinkTo
  rw [M.bind_ok (M.get_apply _), zSt_len]
  simp only [capacity_z hz]
  split
  · rename_i h
    rw [M.bind_ok (shrink_z hz h (Nat.le_max_left _ _))]; rfl
  · rfl

theorem shrinkToFit_z (hz : c.size = 0) :
    Vec.shrinkToFit c (zSt v w n g) = .ok () (zSt v w n g) := by
  unfold Vec.shrinkToFit
  rw [M.bind_ok (M.get_apply _), zSt_len]
  simp only [capacity_z hz]
  split
  · rename_i h
    rw [M.bind_ok (shrink_z hz h (Nat.le_refl _))]; rfl
  · rfl

theorem setLen_z {n' : Nat} (h : n' ≤ c.usizeMax) :
    Buf.setLen c n' (zBuf c n g) = .ok () (zBuf c n' g) := Buf.setLen_eq (b := zBuf c n g) h

theorem read_z (hz : c.size = 0) (i : Nat) : Buf.read c i (zBuf c n g) = .ok c.zst (zBuf c n g) := by
  simp [Buf.read, hz]
theorem write_z (hz : c.size = 0) (i : Nat) (a : α) :
    Buf.write c i a (zBuf c n g) = .ok () (zBuf c n g) := by simp [Buf.write, hz]
theorem copy_z (hz : c.size = 0) (i j k : Nat) :
    Buf.copy c i j k (zBuf c n g) = .ok () (zBuf c n g) := by simp [Buf.copy, hz]
theorem copyNon_z (hz : c.size = 0) (i j k : Nat) :
    Buf.copyNonoverlapping c i j k (zBuf c n g) = .ok () (zBuf c n g) := by
  simp [Buf.copyNonoverlapping, hz, copy_z]
theorem dropVal_ok (hd : ∀ a, c.dropPanics a = false) (a : α) (g : Log α) :
    dropVal c a g = .ok () (g.addDrops [a]) := by simp [dropVal, hd, Log.addDrops]
theorem dropAt_z (hz : c.size = 0) (hd : ∀ a, c.dropPanics a = false) (i : Nat) :
    Buf.dropAt c i (zBuf c n g) = .ok () (zBuf c n (g.addDrops [c.zst])) := by
  simp [Buf.dropAt, hz, Buf.onLog, zBuf, dropVal_ok hd]

theorem andAlways_ok {σ : Type} {m f : M σ Unit} {s s1 : σ} (h : m s = .ok () s1) :
    (m.andAlways f) s = f s1 := by
  show (M.onUnwind m f >>= fun _ => f) s = _
  rw [M.bind_ok (M.onUnwind_ok h)]

theorem addDrops_add (g : Log α) (x y : List α) :
    (g.addDrops x).addDrops y = g.addDrops (x ++ y) := by simp [Log.addDrops]

theorem dropLoop_z (hz : c.size = 0) (hd : ∀ a, c.dropPanics a = false) (i k : Nat) (g : Log α) :
    Buf.dropLoop c i k (zBuf c n g) = .ok () (zBuf c n (g.addDrops (List.replicate k c.zst))) := by
  induction k generalizing i g with
  | zero => simp [Buf.dropLoop, Log.addDrops]
  | succ k ih =>
    simp only [Buf.dropLoop]
    rw [M.bind_ok (dropAt_z hz hd i), ih, addDrops_add]; rfl

theorem dropSlice_z (hz : c.size = 0) (hd : ∀ a, c.dropPanics a = false) (i k : Nat) (g : Log α) :
    Buf.dropSlice c i k (zBuf c n g) = .ok () (zBuf c n (g.addDrops (List.replicate k c.zst))) := by
  induction k generalizing i g with
  | zero => simp [Buf.dropSlice, Log.addDrops]
  | succ k ih =>
    simp only [Buf.dropSlice]
    rw [andAlways_ok (dropAt_z hz hd i), ih, addDrops_add]; rfl

theorem readSlice_z (hz : c.size = 0) (i k : Nat) :
    Buf.readSlice c i k (zBuf c n g) = .ok (List.replicate k c.zst) (zBuf c n g) := by
  induction k generalizing i with
  | zero => rfl
  | succ k ih =>
    simp only [Buf.readSlice]
    rw [M.bind_ok (read_z hz i), M.bind_ok (ih _)]; rfl

theorem push_z (hz : c.size = 0) (a : α) (h : n + 1 ≤ c.usizeMax) :
    Vec.push c a (zSt v w n g) = .ok () (zSt v w (n + 1) g) := by
  unfold Vec.push
  rw [M.bind_ok (M.onUnwind_ok (reserveExact_z hz h))]
  refine onBuf_z hz ?_
  rw [M.bind_ok (getLen_z), M.bind_ok (write_z hz _ _)]
  exact setLen_z h

theorem pop_z (hz : c.size = 0) (h : n ≤ c.usizeMax) :
    Vec.pop c (zSt v w n g) = .ok (if n = 0 then none else some c.zst) (zSt v w (n - 1) g) := by
  refine onBuf_z hz ?_
  rw [M.bind_ok (getLen_z)]
  split
  · rename_i h0; subst h0; rfl
  · rw [M.bind_ok (uncheckedIndex_eq (by omega)), M.bind_ok (read_z hz _),
      M.bind_ok (setLen_z (by omega))]
    rfl

theorem onLogOk {S β : Type} {m : M (Log α) β} {s : St S α} {a : β} {g : Log α}
    (h : m s.w.log = .ok a g) : onLog m s = .ok a ⟨s.self, { s.w with log := g }⟩ := by
  simp [onLog, liftW, World.onLog, h]

theorem onLog_z {β : Type} {m : M (Log α) β} {a : β} {g' : Log α}
    (h : m g = .ok a g') : onLog m (zSt v w n g) = .ok a (zSt v w n g') := by
  rw [onLogOk (s := zSt v w n g) h]; rfl

theorem onLog_zp {β : Type} {m : M (Log α) β} {g' : Log α}
    (h : m g = .panic g') : onLog m (zSt v w n g) = .panic (zSt v w n g') := by
  simp only [onLog, liftW, World.onLog, zSt, h]

theorem onUnwind_panic {σ β : Type} {m : M σ β} {f : M σ Unit} {s s1 s2 : σ}
    (h : m s = .panic s1) (h2 : f s1 = .ok () s2) : (m.onUnwind f) s = .panic s2 := by
  simp [M.onUnwind, h, h2]

theorem insert_z (hz : c.size = 0) (a : α) {i : Nat} (hi : i ≤ n) (h : n + 1 ≤ c.usizeMax) :
    Vec.insert c i a (zSt v w n g) = .ok () (zSt v w (n + 1) g) := by
  unfold Vec.insert
  rw [M.bind_ok (s' := zSt v w n g) (a := ()) (M.onUnwind_ok ?_)]
  · refine onBuf_z hz ?_
    rw [M.bind_ok (getLen_z),
      M.bind_ok (uncheckedIndex_eq (show i < n + 1 by omega)), M.bind_ok (copy_z hz _ _ _),
      M.bind_ok (write_z hz _ _)]
    exact setLen_z h
  · rw [M.bind_ok (M.get_apply _), zSt_len, M.bind_ok (assert_pos hi)]
    split
    · exact reserveExact_z hz h
    · rfl

theorem insert_zp (hd : ∀ a, c.dropPanics a = false) (a : α) {i : Nat} (hi : ¬ i ≤ n) :
    Vec.insert c i a (zSt v w n g) = .panic (zSt v w n (g.addDrops [a])) := by
  unfold Vec.insert
  refine M.bind_panic (onUnwind_panic ?_ (onLog_z (dropVal_ok hd _ _)))
  rw [M.bind_ok (M.get_apply _), zSt_len, M.bind_panic (assert_neg hi)]

theorem remove_z (hz : c.size = 0) {i : Nat} (hi : i < n) (h : n ≤ c.usizeMax) :
    Vec.remove c i (zSt v w n g) = .ok c.zst (zSt v w (n - 1) g) := by
  refine onBuf_z hz ?_
  rw [M.bind_ok (getLen_z), M.bind_ok (assert_pos hi), M.bind_ok (uncheckedIndex_eq hi),
    M.bind_ok (read_z hz _), M.bind_ok (copy_z hz _ _ _),
    M.bind_ok (setLen_z (by omega))]
  rfl

theorem remove_zp (hz : c.size = 0) {i : Nat} (hi : ¬ i < n) :
    Vec.remove c i (zSt v w n g) = .panic (zSt v w n g) := by
  refine onBuf_zp hz ?_
  rw [M.bind_ok (getLen_z), M.bind_panic (assert_neg hi)]

theorem swapRemove_z (hz : c.size = 0) {i : Nat} (hi : i < n) (h : n ≤ c.usizeMax) :
    Vec.swapRemove c i (zSt v w n g) = .ok c.zst (zSt v w (n - 1) g) := by
  unfold Vec.swapRemove
  rw [M.bind_ok (M.get_apply _), zSt_len, M.bind_ok (assert_pos hi)]
  split
  · rename_i h1
    rw [M.bind_ok (pop_z hz h)]
    simp only [if_neg (show ¬ n = 0 by omega)]; rfl
  · refine onBuf_z hz ?_
    rw [M.bind_ok (getLen_z), M.bind_ok (uncheckedIndex_eq hi),
      M.bind_ok (uncheckedIndex_eq (show n - 1 < n by omega)),
      M.bind_ok (read_z hz _), M.bind_ok (copyNon_z hz _ _ _),
      M.bind_ok (setLen_z (by omega))]
    rfl

theorem swapRemove_zp {i : Nat} (hi : ¬ i < n) :
    Vec.swapRemove c i (zSt v w n g) = .panic (zSt v w n g) := by
  unfold Vec.swapRemove
  rw [M.bind_ok (M.get_apply _), zSt_len, M.bind_panic (assert_neg hi)]

theorem truncate_z (hz : c.size = 0) (hd : ∀ a, c.dropPanics a = false) (k : Nat)
    (h : n ≤ c.usizeMax) :
    Vec.truncate c k (zSt v w n g)
      = .ok () (zSt v w (min k n) (g.addDrops (List.replicate (n - k) c.zst))) := by
  refine onBuf_z hz ?_
  unfold Vec.truncateBuf
  rw [M.bind_ok (getLen_z)]
  split
  · rw [Nat.min_eq_right (by omega), show n - k = 0 by omega]
    simp [Log.addDrops]
  · rw [Nat.min_eq_left (by omega), M.bind_ok (setLen_z (show k ≤ c.usizeMax by omega))]
    exact dropSlice_z hz hd _ _ _

theorem clear_z (hz : c.size = 0) (hd : ∀ a, c.dropPanics a = false) :
    Vec.clear c (zSt v w n g) = .ok () (zSt v w 0 (g.addDrops (List.replicate n c.zst))) := by
  refine onBuf_z hz ?_
  rw [M.bind_ok (getLen_z), M.bind_ok (dropLoop_z hz hd _ _ _)]
  exact setLen_z (Nat.zero_le _)

theorem index_z (hz : c.size = 0) {i : Nat} (hi : i < n) :
    Vec.index c i (zSt v w n g) = .ok c.zst (zSt v w n g) := by
  refine onBuf_z hz ?_
  rw [M.bind_ok (getLen_z), M.bind_ok (assert_pos hi)]
  exact read_z hz _

theorem index_zp (hz : c.size = 0) {i : Nat} (hi : ¬ i < n) :
    Vec.index c i (zSt v w n g) = .panic (zSt v w n g) := by
  refine onBuf_zp hz ?_
  rw [M.bind_ok (getLen_z), M.bind_panic (assert_neg hi)]

theorem indexSet_z (hz : c.size = 0) (hd : ∀ a, c.dropPanics a = false) {i : Nat} (a : α)
    (hi : i < n) :
    Vec.indexSet c i a (zSt v w n g) = .ok () (zSt v w n (g.addDrops [c.zst])) := by
  unfold Vec.indexSet
  rw [M.bind_ok (s' := zSt v w n g) (a := ()) (M.onUnwind_ok ?_)]
  · refine onBuf_z hz ?_
    rw [andAlways_ok (dropAt_z hz hd i), write_z hz]
  · rw [M.bind_ok (M.get_apply _), zSt_len]; exact assert_pos hi

theorem indexSet_zp (hd : ∀ a, c.dropPanics a = false) {i : Nat} (a : α) (hi : ¬ i < n) :
    Vec.indexSet c i a (zSt v w n g) = .panic (zSt v w n (g.addDrops [a])) := by
  unfold Vec.indexSet
  refine M.bind_panic (onUnwind_panic ?_ (onLog_z (dropVal_ok hd _ _)))
  rw [M.bind_ok (M.get_apply _), zSt_len]; exact assert_neg hi

theorem asSlice_z (hz : c.size = 0) :
    Vec.asSlice c (zSt v w n g) = .ok (List.replicate n c.zst) (zSt v w n g) := by
  refine onBuf_z hz ?_
  rw [M.bind_ok (getLen_z)]
  exact readSlice_z hz _ _

/-- The log after `k` further callbacks. -/
def Log.addCalls (g : Log α) (k : Nat) : Log α := { g with calls := g.calls + k }

theorem cloneVal_ok {a b : α} (h : c.clone g.calls a = some b) :
    cloneVal c a g = .ok b (g.addCalls 1) := by simp [cloneVal, h, Log.addCalls]
theorem cloneVal_panic {a : α} (h : c.clone g.calls a = none) :
    cloneVal c a g = .panic (g.addCalls 1) := by simp [cloneVal, h, Log.addCalls]

theorem Spec.Clones.length {cl : Spec.CloneRel α} {xs ys : List α} (h : Spec.Clones cl xs ys) :
    xs.length = ys.length := by
  induction h with
  | nil => rfl
  | cons _ _ ih => simp [ih]

theorem pushClones_z (hz : c.size = 0) (xs : List α) (h : n + xs.length ≤ c.usizeMax) :
    (∃ ys k, Spec.Clones c.cloneRel xs ys ∧
      Vec.pushClones c xs (zSt v w n g) = .ok () (zSt v w (n + ys.length) (g.addCalls k))) ∨
    (∃ pre a post ys k, xs = pre ++ a :: post ∧ Spec.Clones c.cloneRel pre ys ∧
      c.cloneRel a none ∧
      Vec.pushClones c xs (zSt v w n g) = .panic (zSt v w (n + ys.length) (g.addCalls k))) := by
  induction xs generalizing n g with
  | nil => exact Or.inl ⟨[], 0, .nil, rfl⟩
  | cons a xs ih =>
    simp only [List.length_cons] at h
    simp only [Vec.pushClones]
    cases hcl : c.clone g.calls a with
    | none =>
      refine Or.inr ⟨[], a, xs, [], 1, rfl, .nil, ⟨_, hcl⟩, ?_⟩
      rw [M.bind_panic (onLog_zp (cloneVal_panic hcl))]; rfl
    | some b =>
      rw [M.bind_ok (onLog_z (cloneVal_ok hcl)), M.bind_ok (push_z hz b (by omega))]
      rcases ih (n := n + 1) (g := g.addCalls 1) (by omega) with
        ⟨ys, k, h1, h2⟩ | ⟨pre, a', post, ys, k, h1, h2, h3, h4⟩
      · refine Or.inl ⟨b :: ys, 1 + k, .cons ⟨_, hcl⟩ h1, ?_⟩
        rw [h2]; simp [Log.addCalls, Nat.add_assoc, Nat.add_comm 1]
      · refine Or.inr ⟨a :: pre, a', post, b :: ys, 1 + k, by simp [h1], .cons ⟨_, hcl⟩ h2, h3, ?_⟩
        rw [h4]; simp [Log.addCalls, Nat.add_assoc, Nat.add_comm 1]

theorem pushItems_z (hz : c.size = 0) (boom : Bool) (xs : List α)
    (h : n + xs.length ≤ c.usizeMax) :
    Vec.pushItems c boom xs (zSt v w n g) =
      if boom then .panic (zSt v w (n + xs.length) g) else .ok () (zSt v w (n + xs.length) g) := by
  induction xs generalizing n with
  | nil => cases boom <;> rfl
  | cons a xs ih =>
    simp only [List.length_cons] at h
    simp only [Vec.pushItems]
    rw [M.bind_ok (M.onUnwind_ok (push_z hz a (by omega))), ih (by omega), List.length_cons,
      show n + 1 + xs.length = n + (xs.length + 1) by omega]

theorem pushCalls_z (hz : c.size = 0) (f : Nat → Option α) (k m : Nat)
    (h : n + m ≤ c.usizeMax) :
    (∃ ys : List α, (List.range' k m).map f = ys.map some ∧
      Vec.pushCalls c f k m (zSt v w n g) = .ok () (zSt v w (n + ys.length) g)) ∨
    (∃ (j : Nat) (ys : List α), j < m ∧ (List.range' k j).map f = ys.map some ∧ f (k + j) = none ∧
      Vec.pushCalls c f k m (zSt v w n g) = .panic (zSt v w (n + ys.length) g)) := by
  induction m generalizing n k with
  | zero => exact Or.inl ⟨[], rfl, rfl⟩
  | succ m ih =>
    simp only [Vec.pushCalls]
    cases hf : f k with
    | none => exact Or.inr ⟨0, [], by omega, rfl, hf, rfl⟩
    | some a =>
      simp only
      rw [M.bind_ok (push_z hz a (by omega))]
      rcases ih (n := n + 1) (k + 1) (by omega) with ⟨ys, h1, h2⟩ | ⟨j, ys, h1, h2, h3, h4⟩
      · refine Or.inl ⟨a :: ys, ?_, ?_⟩
        · rw [List.range'_succ, List.map_cons, List.map_cons, hf, h1]
        · rw [h2, List.length_cons, show n + 1 + ys.length = n + (ys.length + 1) by omega]
      · refine Or.inr ⟨j + 1, a :: ys, by omega, ?_, ?_, ?_⟩
        · rw [List.range'_succ, List.map_cons, List.map_cons, hf, h2]
        · rw [← h3, show k + (j + 1) = k + 1 + j by omega]
        · rw [h4, List.length_cons, show n + 1 + ys.length = n + (ys.length + 1) by omega]

/-- Sizes a call on a vector of `len` zero-sized elements must keep to: lengths are `usize`. -/
def Spec.Op.ZLegal (c : Cfg α) (o : Spec.Op α) (len : Nat) : Prop :=
  match o with
  | .push _ => len + 1 ≤ c.usizeMax
  | .insert _ _ => len + 1 ≤ c.usizeMax
  | .extendFromSlice xs => len + xs.length ≤ c.usizeMax
  | .extendFromIter it => len + it.items.length ≤ c.usizeMax ∧ len + it.hint ≤ c.usizeMax
  | .resize k _ => k ≤ c.usizeMax
  | .resizeWith k _ => k ≤ c.usizeMax
  | .reserve k => len + k ≤ c.usizeMax
  | .reserveExact k => len + k ≤ c.usizeMax
  | .tryReserve k => len + k ≤ c.usizeMax
  | .tryReserveExact k => len + k ≤ c.usizeMax
  | _ => True

/-- The result of a call as the client sees it. -/
def resOf {σ β : Type} (out : Option β) (s : σ) : Res σ β :=
  match out with
  | some b => .ok b s
  | none => .panic s

theorem list_sub [Subsingleton α] {l l' : List α} (h : l.length = l'.length) : l = l' :=
  List.ext_getElem h fun _ _ _ => Subsingleton.elim _ _

theorem quiet_ok {σ : Type} {m : M σ Unit} {s s' : σ} (h : m s = .ok () s') :
    (quiet m : M σ (Out α)) s = .ok .unit s' := by
  unfold quiet; rw [M.bind_ok h]; rfl
theorem quiet_panic {σ : Type} {m : M σ Unit} {s s' : σ} (h : m s = .panic s') :
    (quiet m : M σ (Out α)) s = .panic s' := by
  unfold quiet; rw [M.bind_panic h]
theorem mapo_ok {σ β : Type} {m : M σ β} {f : β → Out α} {s s' : σ} {b : β} (h : m s = .ok b s') :
    (do pure (f (← m)) : M σ (Out α)) s = .ok (f b) s' := by
  rw [M.bind_ok h]; rfl
theorem mapo_panic {σ β : Type} {m : M σ β} {f : β → Out α} {s s' : σ} (h : m s = .panic s') :
    (do pure (f (← m)) : M σ (Out α)) s = .panic s' := by
  rw [M.bind_panic h]

/-- A call on a vector of zero-sized elements with contents `l`: it is what the list specification
says, nothing happens to memory. -/
def ZOk (c : Cfg α) (v : VecH) (w : World α) (o : Op α) (l : List α) (g : Log α) : Prop :=
  ∃ out l' made dropped g', Edit c.cloneRel o ⟨out, false⟩ l l' made dropped ∧
    l'.length ≤ c.usizeMax ∧ g'.drops = g.drops ++ dropped ∧
    runOp c o (zSt v w l.length g) = resOf out (zSt v w l'.length g')

theorem ZOk.ok {o : Op α} {l : List α} {g : Log α} {out : Out α} (l' made dropped : List α)
    (g' : Log α) (hr : runOp c o (zSt v w l.length g) = .ok out (zSt v w l'.length g'))
    (he : Edit c.cloneRel o (.ret out) l l' made dropped)
    (hl : l'.length ≤ c.usizeMax) (hg : g'.drops = g.drops ++ dropped) : ZOk c v w o l g :=
  ⟨some out, l', made, dropped, g', he, hl, hg, hr⟩

theorem ZOk.panic {o : Op α} {l : List α} {g : Log α} (l' made dropped : List α)
    (g' : Log α) (hr : runOp c o (zSt v w l.length g) = .panic (zSt v w l'.length g'))
    (he : Edit c.cloneRel o .panic l l' made dropped)
    (hl : l'.length ≤ c.usizeMax) (hg : g'.drops = g.drops ++ dropped) : ZOk c v w o l g :=
  ⟨none, l', made, dropped, g', he, hl, hg, hr⟩

theorem runOp_z [Subsingleton α] (hz : c.size = 0) (hd : ∀ a, c.dropPanics a = false)
    (l : List α) (hn : l.length ≤ c.usizeMax) (g : Log α) (o : Op α)
    (ho : o.ZLegal c l.length) : ZOk c v w o l g := by
  have nil : g.drops = g.drops ++ [] := (List.append_nil _).symm
  have zst : ∀ a, c.zst = a := fun a => Subsingleton.elim _ _
  cases o with
  | push a =>
    refine .ok (l ++ [a]) [] [] g ?_ (.push a l) (by rw [List.length_append]; exact ho) nil
    rw [List.length_append]
    exact quiet_ok (push_z hz a ho)
  | pop =>
    refine .ok l.dropLast [] [] g ?_ (.pop l) (by simp; omega) nil
    have e := mapo_ok (f := Out.opt) (pop_z (v := v) (w := w) (g := g) hz hn)
    have e2 : (if l.length = 0 then none else some c.zst) = l.getLast? := by
      cases hl : l.getLast? with
      | none => rw [List.getLast?_eq_none_iff] at hl; simp [hl]
      | some a =>
        rw [if_neg, zst a]
        intro h0
        rw [List.length_eq_zero_iff] at h0
        subst h0; simp at hl
    rw [e2] at e
    rw [List.length_dropLast]
    exact e
  | insert i a =>
    by_cases hi : i ≤ l.length
    · refine .ok _ [] [] g ?_ (.insert i a l hi) ?_ nil
      · have : (l.take i ++ a :: l.drop i).length = l.length + 1 := by simp; omega
        rw [this]
        exact quiet_ok (insert_z hz a hi ho)
      · have : (l.take i ++ a :: l.drop i).length = l.length + 1 := by simp; omega
        rw [this]; exact ho
    · exact .panic l [] [a] (g.addDrops [a]) (quiet_panic (insert_zp hd a hi))
        (.insertBad i a l (by omega)) hn rfl
  | remove i =>
    by_cases hi : i < l.length
    · refine .ok _ [] [] g ?_ (.remove i l hi) ?_ nil
      · have : (l.take i ++ l.drop (i + 1)).length = l.length - 1 := by simp; omega
        rw [this, ← zst l[i]]
        exact mapo_ok (remove_z hz hi hn)
      · simp; omega
    · exact .panic l [] [] g (mapo_panic (remove_zp hz hi)) (.removeBad i l (by omega)) hn nil
  | swapRemove i =>
    by_cases hi : i < l.length
    · refine .ok _ [] [] g ?_ (.swapRemove i l hi) ?_ nil
      · rw [List.length_dropLast, List.length_set, ← zst l[i]]
        exact mapo_ok (swapRemove_z hz hi hn)
      · simp; omega
    · exact .panic l [] [] g (mapo_panic (swapRemove_zp hi)) (.swapRemoveBad i l (by omega)) hn nil
  | truncate k =>
    refine .ok (l.take k) [] (l.drop k) (g.addDrops (l.drop k)) ?_ (.truncate k l) (by simp; omega) rfl
    have e := quiet_ok (α := α) (truncate_z (v := v) (w := w) (g := g) hz hd k hn)
    rw [show List.replicate (l.length - k) c.zst = l.drop k from list_sub (by simp)] at e
    rw [List.length_take]
    exact e
  | clear =>
    refine .ok [] [] l (g.addDrops l) ?_ (.clear l) (Nat.zero_le _) rfl
    have e := quiet_ok (α := α) (clear_z (v := v) (w := w) (g := g) (n := l.length) hz hd)
    rwa [show List.replicate l.length c.zst = l from list_sub (by simp)] at e
  | extendFromSlice xs =>
    have e0 : ∀ r, Vec.pushClones c xs (zSt v w l.length g) = r →
        Vec.extendFromSlice c xs (zSt v w l.length g) = r := by
      intro r h
      unfold Vec.extendFromSlice
      rw [M.bind_ok (reserveExact_z hz ho)]; exact h
    rcases pushClones_z (v := v) (w := w) (g := g) hz xs ho with
      ⟨ys, k, h1, h2⟩ | ⟨pre, a, post, ys, k, rfl, h2, h3, h4⟩
    · refine .ok (l ++ ys) ys [] (g.addCalls k) ?_ (.extendFromSlice xs ys l h1) ?_ nil
      · rw [List.length_append]; exact quiet_ok (e0 _ h2)
      · rw [List.length_append, ← h1.length]; exact ho
    · refine .panic (l ++ ys) ys [] (g.addCalls k) ?_ (.extendFromSlicePanic pre a post ys l h2 h3)
        ?_ nil
      · rw [List.length_append]; exact quiet_panic (e0 _ h4)
      · have := h2.length
        have ho : l.length + (pre ++ a :: post).length ≤ _ := ho
        simp at ho ⊢; omega
  | extendFromIter it =>
    have e0 := pushItems_z (v := v) (w := w) (g := g) hz it.boom it.items ho.1
    have e1 : Vec.extendFromIter c it.iter (zSt v w l.length g) =
        Vec.pushItems c it.boom it.items (zSt v w l.length g) := by
      unfold Vec.extendFromIter
      rw [M.bind_ok (M.onUnwind_ok (reserveExact_z (k := it.iter.hint) hz ho.2))]; rfl
    rw [← List.length_append] at e0
    cases hb : it.boom with
    | false =>
      rw [hb] at e0 e1
      exact .ok (l ++ it.items) [] [] g (quiet_ok (e1.trans e0)) (.extendFromIter it l hb)
        (by rw [List.length_append]; exact ho.1) nil
    | true =>
      rw [hb] at e0 e1
      exact .panic (l ++ it.items) [] [] g (quiet_panic (e1.trans e0)) (.extendFromIterPanic it l hb)
        (by rw [List.length_append]; exact ho.1) nil
  | resize k a =>
    have ho : k ≤ c.usizeMax := ho
    by_cases hk : k ≤ l.length
    · have e := truncate_z (v := v) (w := w) (g := g) hz hd k hn
      rw [show List.replicate (l.length - k) c.zst = l.drop k from list_sub (by simp)] at e
      refine .ok (l.take k) [] (l.drop k ++ [a]) (g.addDrops (l.drop k ++ [a])) ?_
        (.resizeDown k a l hk) (by simp; omega) rfl
      refine quiet_ok ?_
      unfold Vec.resize
      rw [M.bind_ok (M.get_apply _), zSt_len, if_pos hk, andAlways_ok e,
        onLog_z (dropVal_ok hd a _), addDrops_add, List.length_take]
    · have e0 : ∀ r, Vec.pushClones c (List.replicate (k - l.length - 1) a)
            (zSt v w l.length g) = r →
          (do Vec.reserveExact c (k - l.length)
              Vec.pushCopies c a (k - l.length - 1) : M (VSt α) Unit) (zSt v w l.length g) = r := by
        rintro r rfl
        rw [M.bind_ok (reserveExact_z hz (show l.length + (k - l.length) ≤ c.usizeMax by omega)),
          pushCopies_eq]
      rcases pushClones_z (v := v) (w := w) (g := g) (n := l.length) hz (List.replicate (k - l.length - 1) a)
          (by simp; omega) with
        ⟨ys, j, h1, h2⟩ | ⟨pre, a', post, ys, j, h1, h2, h3, h4⟩
      · have hl := h1.length
        rw [List.length_replicate] at hl
        refine .ok (l ++ ys ++ [a]) ys [] (g.addCalls j) (quiet_ok ?_)
          (.resizeUp k a ys l (by omega) h1) (by simp; omega) nil
        unfold Vec.resize
        rw [M.bind_ok (M.get_apply _), zSt_len, if_neg hk, M.bind_ok (M.onUnwind_ok (e0 _ h2)),
          push_z hz a (by omega)]
        simp [Nat.add_assoc]
      · have h5 : pre = List.replicate pre.length a ∧ a' = a ∧ pre.length < k - l.length - 1 := by
          refine ⟨list_sub (by simp), Subsingleton.elim _ _, ?_⟩
          have := congrArg List.length h1
          simp at this; omega
        have hl := h2.length
        rw [h5.2.1] at h3
        rw [h5.1] at h2
        refine .panic (l ++ ys) ys [a] ((g.addCalls j).addDrops [a]) (quiet_panic ?_)
          (.resizePanic k a pre.length ys l h5.2.2 h2 h3) (by simp; omega) rfl
        unfold Vec.resize
        rw [M.bind_ok (M.get_apply _), zSt_len, if_neg hk,
          M.bind_panic (onUnwind_panic (e0 _ h4) (onLog_z (dropVal_ok hd a _))), List.length_append]
  | resizeWith k f =>
    have ho : k ≤ c.usizeMax := ho
    by_cases hk : k ≤ l.length
    · have e := truncate_z (v := v) (w := w) (g := g) hz hd k hn
      rw [show List.replicate (l.length - k) c.zst = l.drop k from list_sub (by simp)] at e
      refine .ok (l.take k) [] (l.drop k) (g.addDrops (l.drop k)) ?_
        (.resizeWithDown k f l hk) (by simp; omega) rfl
      refine quiet_ok ?_
      unfold Vec.resizeWith
      rw [M.bind_ok (M.get_apply _), zSt_len, if_pos hk, e, List.length_take]
    · have e0 : Vec.resizeWith c k f (zSt v w l.length g) =
          Vec.pushCalls c f 0 (k - l.length) (zSt v w l.length g) := by
        unfold Vec.resizeWith
        rw [M.bind_ok (M.get_apply _), zSt_len, if_neg hk,
          M.bind_ok (reserveExact_z hz (show l.length + (k - l.length) ≤ c.usizeMax by omega))]
      rcases pushCalls_z (v := v) (w := w) (g := g) (n := l.length) hz f 0 (k - l.length) (by omega)
        with ⟨ys, h1, h2⟩ | ⟨j, ys, h1, h2, h3, h4⟩
      · have hl := congrArg List.length h1
        simp at hl
        refine .ok (l ++ ys) ys [] g (quiet_ok ?_) (.resizeWithUp k f ys l (by omega) ?_)
          (by simp; omega) nil
        · rw [e0, h2, List.length_append]
        · rw [List.range_eq_range', h1]
      · have hl := congrArg List.length h2
        simp at hl
        refine .panic (l ++ ys) ys [] g (quiet_panic ?_) (.resizeWithPanic k f j ys l h1 ?_ ?_)
          (by simp; omega) nil
        · rw [e0, h4, List.length_append]
        · rw [List.range_eq_range', h2]
        · rw [← h3, Nat.zero_add]
  | reserve k => exact .ok l [] [] g (quiet_ok (reserve_z hz ho)) (.reserve k l) hn nil
  | reserveExact k => exact .ok l [] [] g (quiet_ok (reserveExact_z hz ho)) (.reserveExact k l) hn nil
  | tryReserve k =>
    exact .ok l [] [] g (mapo_ok (f := outRes) (tryReserve_z hz ho)) (.tryReserve k l) hn nil
  | tryReserveExact k =>
    exact .ok l [] [] g (mapo_ok (f := outRes) (tryReserveExact_z hz ho)) (.tryReserveExact k l) hn nil
  | shrinkTo k => exact .ok l [] [] g (quiet_ok (shrinkTo_z hz)) (.shrinkTo k l) hn nil
  | shrinkToFit => exact .ok l [] [] g (quiet_ok (shrinkToFit_z hz)) (.shrinkToFit l) hn nil
  | get i =>
    by_cases hi : i < l.length
    · refine .ok l [] [] g ?_ (.get i l hi) hn nil
      rw [← zst l[i]]
      exact mapo_ok (index_z hz hi)
    · exact .panic l [] [] g (mapo_panic (index_zp hz hi)) (.getBad i l (by omega)) hn nil
  | set i a =>
    by_cases hi : i < l.length
    · refine .ok (l.set i a) [] [l[i]] (g.addDrops [l[i]]) ?_ (.set i a l hi) (by simpa using hn) rfl
      rw [List.length_set, ← zst l[i]]
      exact quiet_ok (indexSet_z hz hd a hi)
    · exact .panic l [] [a] (g.addDrops [a]) (quiet_panic (indexSet_zp hd a hi))
        (.setBad i a l (by omega)) hn rfl
  | read =>
    refine .ok l [] [] g ?_ (.read l) hn nil
    have e := mapo_ok (f := Out.list) (asSlice_z (v := v) (w := w) (n := l.length) (g := g) hz)
    rwa [show List.replicate l.length c.zst = l from list_sub (by simp)] at e
  | len => exact .ok l [] [] g (mapo_ok (f := Out.nat) (b := l.length) rfl) (.len l) hn nil

end Lokky
