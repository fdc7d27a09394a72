import Verif.Proofs.AliasBox
import Verif.Proofs.Borrows

/-!
# Lemmas on the pointers of `Box` under Stacked Borrows
-/

open Lokky.Alias

namespace Lokky.SB

namespace Bx

/-- Raw pointer `p` is in the stack. -/
def OwnK (p : Nat) (k : Stack) : Prop := (⟨p, .srw⟩ : Item) ∈ k ∧ ∀ x ∈ k, x.tag = p → x.perm = .srw

/-- `&mut` `t` is in the stack, above `p`. -/
def MutK (p t : Nat) (k : Stack) : Prop :=
  ∃ a b, k = a ++ ⟨t, .uniq⟩ :: b ∧ (∀ x ∈ a, x.tag ≠ t) ∧ (⟨p, .srw⟩ : Item) ∈ b

/-- All pointers in the stack are older than `nx`. -/
def LtK (nx : Nat) (k : Stack) : Prop := ∀ x ∈ k, x.tag < nx

theorem OwnK.canW {p : Nat} {k : Stack} (h : OwnK p k) : CanW p k := ⟨_, h.1, rfl, .inr rfl⟩

/-- What is left of a stack after something else was put in or taken away. -/
theorem OwnK.mem {p : Nat} {b k : Stack} (h : OwnK p k) (hb : CanW p b) (hs : ∀ x ∈ b, x ∈ k) :
    (⟨p, .srw⟩ : Item) ∈ b := by
  obtain ⟨⟨t, q⟩, hx, h1, _⟩ := hb
  have := h.2 _ (hs _ hx) h1
  simp only at h1 this
  subst h1 this
  exact hx

theorem LtK.mono {n m : Nat} {k : Stack} (h : LtK n k) (hm : n ≤ m) : LtK m k := fun x hx => Nat.lt_of_lt_of_le (h x hx) hm

theorem LtK.cons {n : Nat} {k : Stack} {i : Item} (h : LtK n k) (hi : i.tag < n) : LtK n (i :: k) := by
  intro x hx
  rcases List.mem_cons.1 hx with rfl | hx
  · exact hi
  · exact h x hx

theorem OwnK.cons {p : Nat} {k : Stack} {i : Item} (h : OwnK p k) (hi : i.tag ≠ p) : OwnK p (i :: k) := by
  refine ⟨List.mem_cons_of_mem _ h.1, fun x hx e => ?_⟩
  rcases List.mem_cons.1 hx with rfl | hx
  · exact absurd e hi
  · exact h.2 x hx e

theorem OwnK.afterRead {p : Nat} {a b : Stack} (h : OwnK p (a ++ b)) : OwnK p (a.map Item.afterRead ++ b) := by
  refine ⟨mem_afterRead h.1 (by simp), fun x hx e => ?_⟩
  rcases List.mem_append.1 hx with hx | hx
  · obtain ⟨y, hy, rfl⟩ := List.mem_map.1 hx
    rw [afterRead_tag] at e
    have := h.2 y (List.mem_append_left _ hy) e
    simp [Item.afterRead, this]
  · exact h.2 x (List.mem_append_right _ hx) e

theorem OwnK.suffix {p : Nat} {a b : Stack} (h : OwnK p (a ++ b)) (hb : (⟨p, .srw⟩ : Item) ∈ b) : OwnK p b :=
  ⟨hb, fun x hx => h.2 x (List.mem_append_right _ hx)⟩

theorem splitFirst_at {f : Item → Bool} {a b : Stack} {g : Item} (ha : ∀ x ∈ a, f x = false) (hg : f g = true) :
    splitFirst f (a ++ g :: b) = some (a, g, b) := by
  induction a with
  | nil => simp [splitFirst, hg]
  | cons i a ih =>
    have := ih fun x hx => ha x (List.mem_cons_of_mem _ hx)
    simp [splitFirst, ha i (by simp), this]

theorem grant_at {t : Nat} {a b : Stack} (ha : ∀ x ∈ a, x.tag ≠ t) :
    (a ++ ⟨t, .uniq⟩ :: b).grantWrite t = some (a, ⟨t, .uniq⟩ :: b) := by
  rw [Stack.grantWrite, splitFirst_at (fun x hx => ?_) (by simp [Item.writes])]
  · simp [group]
  · simp [Item.writes, ha x hx]

theorem read_at {t : Nat} {a b : Stack} (ha : ∀ x ∈ a, x.tag ≠ t) :
    (a ++ ⟨t, .uniq⟩ :: b).read t = some (a.map Item.afterRead ++ ⟨t, .uniq⟩ :: b) := by
  rw [Stack.read, splitFirst_at (fun x hx => ?_) (by simp [Item.reads])]
  simp [Item.reads, ha x hx]

/-! ## One slot -/

theorem shrK {p nx : Nat} {k : Stack} (h : OwnK p k) (hl : LtK nx k) (hp : p < nx) :
    ∃ k', k.shrRef p nx = some k' ∧ (OwnK p k' ∧ LtK (nx + 1) k' ∧ (⟨nx, .sro⟩ : Item) ∈ k' ∧
      ∀ x ∈ k, x.perm ≠ .uniq → x ∈ k') := by
  obtain ⟨a, b, e, rfl, _⟩ := shrRef_ok (new := nx) h.canW.canR
  refine ⟨_, e, h.afterRead.cons (by simp only; omega), ?_, by simp, fun x hx hq => List.mem_cons_of_mem _ (mem_afterRead hx hq)⟩
  exact LtK.cons (fun x hx => Nat.lt_succ_of_lt (lt_afterRead hl x hx)) (Nat.lt_succ_self _)

theorem mutK {p nx : Nat} {k : Stack} (h : OwnK p k) (hl : LtK nx k) (hp : p < nx) :
    ∃ k', k.mutRef p nx = some k' ∧ (OwnK p k' ∧ LtK (nx + 1) k' ∧ MutK p nx k') := by
  obtain ⟨a, b, e, rfl, hb, _⟩ := mutRef_ok (new := nx) h.canW
  have hm := h.mem hb fun x hx => List.mem_append_right _ hx
  refine ⟨_, e, (h.suffix hm).cons (by simp only; omega), ?_, [], b, rfl, by simp, hm⟩
  exact LtK.cons (fun x hx => Nat.lt_succ_of_lt (hl x (List.mem_append_right _ hx))) (Nat.lt_succ_self _)

theorem readK {p t nx : Nat} {k : Stack} (h : OwnK p k) (hl : LtK nx k) (ht : CanR t k) :
    ∃ k', k.read t = some k' ∧ (OwnK p k' ∧ LtK nx k' ∧ ∀ x ∈ k, x.perm ≠ .uniq → x ∈ k') := by
  obtain ⟨a, b, e, rfl, _⟩ := read_ok ht
  exact ⟨_, e, h.afterRead, lt_afterRead hl, fun x hx hq => mem_afterRead hx hq⟩

theorem writeK {p nx : Nat} {k : Stack} (h : OwnK p k) (hl : LtK nx k) :
    ∃ k', k.write p = some k' ∧ (OwnK p k' ∧ LtK nx k') := by
  obtain ⟨a, b, e, rfl, hb, _⟩ := write_ok h.canW
  exact ⟨b, e, h.suffix (h.mem hb fun x hx => List.mem_append_right _ hx), fun x hx => hl x (List.mem_append_right _ hx)⟩

theorem readMutK {p t nx : Nat} {k : Stack} (h : OwnK p k) (hl : LtK nx k) (ht : MutK p t k) :
    ∃ k', k.read t = some k' ∧ (OwnK p k' ∧ LtK nx k' ∧ MutK p t k') := by
  obtain ⟨a, b, rfl, ha, hb⟩ := ht
  refine ⟨_, read_at ha, h.afterRead, lt_afterRead hl, _, b, rfl, fun x hx => ?_, hb⟩
  obtain ⟨y, hy, rfl⟩ := List.mem_map.1 hx
  rw [afterRead_tag]
  exact ha y hy

theorem writeMutK {p t nx : Nat} {k : Stack} (h : OwnK p k) (hl : LtK nx k) (ht : MutK p t k) :
    ∃ k', k.write t = some k' ∧ (OwnK p k' ∧ LtK nx k' ∧ MutK p t k') := by
  obtain ⟨a, b, rfl, ha, hb⟩ := ht
  exact ⟨⟨t, .uniq⟩ :: b, by simp [Stack.write, grant_at ha], h.suffix (List.mem_cons_of_mem _ hb),
    fun x hx => hl x (List.mem_append_right _ hx), [], b, rfl, by simp, hb⟩

/-- A `&mut` made from `t`, and a write through it. -/
theorem dropMutK {p t nx : Nat} {k : Stack} (h : OwnK p k) (hl : LtK nx k) (ht : MutK p t k) (hp : p < nx) (hn : t < nx) :
    ∃ k', k.mutRef t nx = some k' ∧ (OwnK p k' ∧ LtK (nx + 1) k' ∧ MutK p t k' ∧ k'.write nx = some k') := by
  obtain ⟨a, b, rfl, ha, hb⟩ := ht
  refine ⟨⟨nx, .uniq⟩ :: ⟨t, .uniq⟩ :: b, by simp [Stack.mutRef, Stack.write, grant_at ha],
    (h.suffix (List.mem_cons_of_mem _ hb)).cons (by simp only; omega), ?_, ⟨[⟨nx, .uniq⟩], b, rfl, by simp; omega, hb⟩, ?_⟩
  · exact LtK.cons (fun x hx => Nat.lt_succ_of_lt (hl x (List.mem_append_right _ hx))) (Nat.lt_succ_self _)
  · rw [Stack.write, show (⟨nx, .uniq⟩ :: ⟨t, .uniq⟩ :: b : Stack) = [] ++ ⟨nx, .uniq⟩ :: ⟨t, .uniq⟩ :: b from rfl, grant_at (by simp)]
    rfl

theorem rawK {p t nx : Nat} {k : Stack} (hl : LtK nx k) (ht : MutK p t k) :
    ∃ k', k.rawMut t nx = some k' ∧ (OwnK nx k' ∧ LtK (nx + 1) k') := by
  obtain ⟨a, b, rfl, ha, hb⟩ := ht
  refine ⟨a ++ ⟨nx, .srw⟩ :: ⟨t, .uniq⟩ :: b, by simp [Stack.rawMut, grant_at ha], ⟨by simp, fun x hx e => ?_⟩, fun x hx => ?_⟩
  all_goals
    rcases List.mem_append.1 hx with hx | hx
    · have := hl x (List.mem_append_left _ hx)
      first | omega | skip
    · rcases List.mem_cons.1 hx with rfl | hx
      · first | rfl | exact Nat.lt_succ_self _
      · have := hl x (List.mem_append_right _ hx)
        omega

/-! ## All slots -/

theorem retag_all {f : Nat → Stack → Option Stack} {lo n : Nat} {s : St} {P : Nat → Stack → Prop}
    (h : ∀ i, lo ≤ i → i < lo + n → ∃ k, f s.next (s.stack i) = some k ∧ P i k) :
    ∃ s', retag f lo n s = some (s.next, s') ∧ s'.next = s.next + 1 ∧
      (∀ i, lo ≤ i → i < lo + n → P i (s'.stack i)) ∧ Out lo n s s' := by
  obtain ⟨st, e⟩ := forSlots_ok (f := f s.next) (lo := lo) (n := n) (st := s.stack)
    fun i hl hu => (h i hl hu).imp fun k hk => hk.1
  refine ⟨⟨st, s.next + 1⟩, by simp [retag, e], rfl, fun i hl hu => ?_, fun i hi => (forSlots_some e).2 i (by omega)⟩
  obtain ⟨k, e1, hk⟩ := h i hl hu
  have := (forSlots_some e).1 i hl hu
  rw [e1] at this
  cases this
  exact hk

theorem touch_all {f : Stack → Option Stack} {lo n : Nat} {s : St} {P : Nat → Stack → Prop}
    (h : ∀ i, lo ≤ i → i < lo + n → ∃ k, f (s.stack i) = some k ∧ P i k) :
    ∃ s', touch f lo n s = some ((), s') ∧ s'.next = s.next ∧
      (∀ i, lo ≤ i → i < lo + n → P i (s'.stack i)) ∧ Out lo n s s' := by
  obtain ⟨st, e⟩ := forSlots_ok (f := f) (lo := lo) (n := n) (st := s.stack)
    fun i hl hu => (h i hl hu).imp fun k hk => hk.1
  refine ⟨⟨st, s.next⟩, by simp [touch, e], rfl, fun i hl hu => ?_, fun i hi => (forSlots_some e).2 i (by omega)⟩
  obtain ⟨k, e1, hk⟩ := h i hl hu
  have := (forSlots_some e).1 i hl hu
  rw [e1] at this
  cases this
  exact hk

/-- A block of `n` slots with its pointer. -/
structure Own (n p : Nat) (s : St) : Prop where
  old : p < s.next
  lt : ∀ i, LtK s.next (s.stack i)
  own : ∀ i, i < n → OwnK p (s.stack i)

/-- A `&` to the block. -/
def Shr (n _p t : Nat) (s : St) : Prop := ∀ i, i < n → (⟨t, .sro⟩ : Item) ∈ s.stack i

/-- A `&mut` to the block. -/
structure Mut (n p t : Nat) (s : St) : Prop where
  own : Own n p s
  old : t < s.next
  mutk : ∀ i, i < n → MutK p t (s.stack i)

/-- After something that concerned only some of the slots. -/
theorem Own.next {n p lo k : Nat} {s s' : St} (h : Own n p s) (hn : s.next ≤ s'.next) (ho : Out lo k s s')
    (hk : ∀ i, lo ≤ i → i < lo + k → OwnK p (s'.stack i) ∧ LtK s'.next (s'.stack i)) : Own n p s' := by
  refine ⟨Nat.lt_of_lt_of_le h.old hn, fun i => ?_, fun i hi => ?_⟩
  all_goals by_cases hr : lo ≤ i ∧ i < lo + k
  · exact (hk i hr.1 hr.2).2
  · rw [ho i hr]; exact (h.lt i).mono hn
  · exact (hk i hr.1 hr.2).1
  · rw [ho i hr]; exact h.own i hi

theorem Mut.next {n p t lo k : Nat} {s s' : St} (h : Mut n p t s) (hn : s.next ≤ s'.next) (ho : Out lo k s s')
    (hk : ∀ i, lo ≤ i → i < lo + k → OwnK p (s'.stack i) ∧ LtK s'.next (s'.stack i) ∧ MutK p t (s'.stack i)) : Mut n p t s' := by
  refine ⟨h.own.next hn ho fun i hl hu => ⟨(hk i hl hu).1, (hk i hl hu).2.1⟩, Nat.lt_of_lt_of_le h.old hn, fun i hi => ?_⟩
  by_cases hr : lo ≤ i ∧ i < lo + k
  · exact (hk i hr.1 hr.2).2.2
  · rw [ho i hr]; exact h.mutk i hi

end Bx

open Bx in
/-- Stacked Borrows allows what `Box` does. -/
instance instBxRules : BxRules St where
  Own := Bx.Own
  Shr := Bx.Shr
  Mut := Bx.Mut
  start n := by
    refine ⟨Nat.one_pos, fun i x hx => ?_, fun i hi => ?_⟩
    · simp only [Mach.heap, fresh] at hx ⊢
      split at hx
      · simp at hx; subst hx; exact Nat.one_pos
      · cases hx
    · simp [Mach.heap, fresh, hi, OwnK]
  shr n p s h := by
    obtain ⟨s', e, hn, hk, ho⟩ := retag_all (f := Stack.shrRef p) (lo := 0) (n := n) (s := s)
      (P := fun i k' => OwnK p k' ∧ LtK (s.next + 1) k' ∧ (⟨s.next, .sro⟩ : Item) ∈ k' ∧ ∀ x ∈ s.stack i, x.perm ≠ .uniq → x ∈ k')
      fun i _ hi => shrK (h.own i (by omega)) (h.lt i) h.old
    refine ⟨s.next, s', e, h.next (by omega) ho fun i hl hu => ?_, fun i hi => (hk i (by omega) (by omega)).2.2.1,
      fun u hu i hi => (hk i (by omega) (by omega)).2.2.2 _ (hu i hi) (by simp)⟩
    rw [hn]
    exact ⟨(hk i hl hu).1, (hk i hl hu).2.1⟩
  mutr n p s h := by
    obtain ⟨s', e, hn, hk, ho⟩ := retag_all (f := Stack.mutRef p) (lo := 0) (n := n) (s := s)
      (P := fun i k' => OwnK p k' ∧ LtK (s.next + 1) k' ∧ MutK p s.next k')
      fun i _ hi => mutK (h.own i (by omega)) (h.lt i) h.old
    refine ⟨s.next, s', e, h.next (by omega) ho fun i hl hu => ?_, by omega, fun i hi => (hk i (by omega) (by omega)).2.2⟩
    rw [hn]
    exact ⟨(hk i hl hu).1, (hk i hl hu).2.1⟩
  own n p t s h := h.own
  read n p t s i h ht hi := by
    obtain ⟨s', e, hn, hk, ho⟩ := touch_all (f := Stack.read t) (lo := i) (n := 1) (s := s)
      (P := fun i k' => OwnK p k' ∧ LtK s.next k' ∧ ∀ x ∈ s.stack i, x.perm ≠ .uniq → x ∈ k')
      fun j _ hj => readK (h.own j (by omega)) (h.lt j) ⟨_, ht j (by omega), rfl, by simp⟩
    refine ⟨s', e, h.next (by omega) ho fun i hl hu => ?_, fun u hu j hj => ?_⟩
    · rw [hn]; exact ⟨(hk i hl hu).1, (hk i hl hu).2.1⟩
    · by_cases hr : i ≤ j ∧ j < i + 1
      · exact (hk j hr.1 hr.2).2.2 _ (hu j hj) (by simp)
      · rw [ho j hr]; exact hu j hj
  readMut n p t s i h hi := by
    obtain ⟨s', e, hn, hk, ho⟩ := touch_all (f := Stack.read t) (lo := i) (n := 1) (s := s)
      (P := fun i k' => OwnK p k' ∧ LtK s.next k' ∧ MutK p t k')
      fun j _ hj => readMutK (h.own.own j (by omega)) (h.own.lt j) (h.mutk j (by omega))
    exact ⟨s', e, h.next (by omega) ho fun i hl hu => by rw [hn]; exact hk i hl hu⟩
  write n p t s lo k h hle := by
    obtain ⟨s', e, hn, hk, ho⟩ := touch_all (f := Stack.write t) (lo := lo) (n := k) (s := s)
      (P := fun i k' => OwnK p k' ∧ LtK s.next k' ∧ MutK p t k')
      fun j _ hj => writeMutK (h.own.own j (by omega)) (h.own.lt j) (h.mutk j (by omega))
    exact ⟨s', e, h.next (by omega) ho fun i hl hu => by rw [hn]; exact hk i hl hu⟩
  dropMut n p t s i h hi := by
    obtain ⟨s1, e1, hn1, hk1, ho1⟩ := retag_all (f := Stack.mutRef t) (lo := i) (n := 1) (s := s)
      (P := fun i k' => OwnK p k' ∧ LtK (s.next + 1) k' ∧ MutK p t k' ∧ k'.write s.next = some k')
      fun j _ hj => dropMutK (h.own.own j (by omega)) (h.own.lt j) (h.mutk j (by omega)) h.own.old h.old
    have h1 : Bx.Mut n p t s1 := h.next (by omega) ho1 fun i hl hu => by
      rw [hn1]; exact ⟨(hk1 i hl hu).1, (hk1 i hl hu).2.1, (hk1 i hl hu).2.2.1⟩
    obtain ⟨s2, e2, hn2, hk2, ho2⟩ := touch_all (f := Stack.write s.next) (lo := i) (n := 1) (s := s1)
      (P := fun i k' => k' = s1.stack i) fun j hl hj => ⟨_, (hk1 j hl hj).2.2.2, rfl⟩
    refine ⟨s2, ?_, h1.next (by omega) ho2 fun j hl hu => ?_⟩
    · rw [Alias.dropAt, bind_some (show Mach.mutRef t i 1 s = some (s.next, s1) from e1)]
      exact e2
    · rw [hk2 j hl hu, hn2]
      exact ⟨h1.own.own j (by omega), h1.own.lt j, h1.mutk j (by omega)⟩
  raw n p t s h := by
    obtain ⟨s', e, hn, hk, ho⟩ := retag_all (f := Stack.rawMut t) (lo := 0) (n := n) (s := s)
      (P := fun i k' => OwnK s.next k' ∧ LtK (s.next + 1) k')
      fun i _ hi => rawK (h.own.lt i) (h.mutk i (by omega))
    refine ⟨s.next, s', e, by omega, fun i => ?_, fun i hi => (hk i (by omega) (by omega)).1⟩
    by_cases hi : i < n
    · rw [hn]; exact (hk i (by omega) (by omega)).2
    · rw [ho i (by omega)]; exact (h.own.lt i).mono (by omega)
  dropOwn n p s i h hi := by
    obtain ⟨s1, e1, hn1, hk1, ho1⟩ := retag_all (f := Stack.mutRef p) (lo := i) (n := 1) (s := s)
      (P := fun i k' => OwnK p k' ∧ LtK (s.next + 1) k' ∧ MutK p s.next k')
      fun j _ hj => mutK (h.own j (by omega)) (h.lt j) h.old
    have h1 : Bx.Own n p s1 := h.next (by omega) ho1 fun i hl hu => by
      rw [hn1]; exact ⟨(hk1 i hl hu).1, (hk1 i hl hu).2.1⟩
    obtain ⟨s2, e2, hn2, hk2, ho2⟩ := touch_all (f := Stack.write s.next) (lo := i) (n := 1) (s := s1)
      (P := fun i k' => OwnK p k' ∧ LtK s1.next k' ∧ MutK p s.next k')
      fun j hl hj => writeMutK (h1.own j (by omega)) (h1.lt j) (hk1 j hl hj).2.2
    refine ⟨s2, ?_, h1.next (by omega) ho2 fun j hl hu => ?_⟩
    · rw [Alias.dropAt, bind_some (show Mach.mutRef p i 1 s = some (s.next, s1) from e1)]
      exact e2
    · rw [hn2]
      exact ⟨(hk2 j hl hu).1, (hk2 j hl hu).2.1⟩
  readOwn n p s h := by
    obtain ⟨s', e, hn, hk, ho⟩ := touch_all (f := Stack.read p) (lo := 0) (n := n) (s := s)
      (P := fun i k' => OwnK p k' ∧ LtK s.next k' ∧ ∀ x ∈ s.stack i, x.perm ≠ .uniq → x ∈ k')
      fun j _ hj => readK (h.own j (by omega)) (h.lt j) (h.own j (by omega)).canW.canR
    exact ⟨s', e, h.next (by omega) ho fun i hl hu => by rw [hn]; exact ⟨(hk i hl hu).1, (hk i hl hu).2.1⟩⟩
  writeOwn n p s h := by
    obtain ⟨s', e, hn, hk, ho⟩ := touch_all (f := Stack.write p) (lo := 0) (n := n) (s := s)
      (P := fun i k' => OwnK p k' ∧ LtK s.next k')
      fun j _ hj => writeK (h.own j (by omega)) (h.lt j)
    exact ⟨s', e, h.next (by omega) ho fun i hl hu => by rw [hn]; exact hk i hl hu⟩

end Lokky.SB
