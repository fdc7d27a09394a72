import Verif.Proofs.TreeDedup

/-!
# Lemmas on programs with a vector under Tree Borrows
-/

open Lokky.Alias

namespace Lokky.TB

/-- The state of a program with a vector. -/
structure PInv (g : Prog St) : Prop where
  inv : VInv g.cap g.st
  len : g.len ≤ g.cap
  shr : ∀ t lo n, (t, lo, n) ∈ g.shr → IsShr g.cap t g.st ∧ lo + n ≤ g.cap
  uniq : ∀ t lo n, g.uniq = some (t, lo, n) → (∀ i, i < g.cap → CanW g.st t i) ∧ lo + n ≤ g.cap
  excl : g.uniq ≠ none → g.shr = []

theorem vinv_fresh (cap : Nat) : VInv cap (fresh cap) :=
  ⟨inv_fresh cap, fun i hi => by simp [fresh, hi]⟩

theorem pinv_start (cap len : Nat) (h : len ≤ cap) : PInv (Prog.start cap len) :=
  ⟨vinv_fresh cap, h, fun _ _ _ h => (nomatch h), fun _ _ _ h => (nomatch h), fun h => absurd rfl h⟩

theorem PInv.setLen {g : Prog St} (h : PInv g) {n : Nat} (hn : n ≤ g.cap) :
    PInv { g with len := n } := ⟨h.inv, hn, h.shr, h.uniq, h.excl⟩

theorem PInv.addShr {g : Prog St} (h : PInv g) {t lo n : Nat} (hu : g.uniq = none)
    (hm : IsShr g.cap t g.st) (hn : lo + n ≤ g.cap) :
    PInv { g with shr := g.shr ++ [(t, lo, n)] } := by
  refine ⟨h.inv, h.len, fun t' lo' n' ht => ?_, h.uniq, fun hne => absurd hu hne⟩
  rcases List.mem_append.1 ht with ht | ht
  · exact h.shr t' lo' n' ht
  · simp at ht
    obtain ⟨rfl, rfl, rfl⟩ := ht
    exact ⟨hm, hn⟩

theorem PInv.setUniq {g : Prog St} (h : PInv g) {t lo n : Nat} (hs : g.shr = [])
    (hm : IsRes g.cap t g.st) (hn : lo + n ≤ g.cap) : PInv { g with uniq := some (t, lo, n) } := by
  refine ⟨h.inv, h.len, h.shr, fun t' lo' n' ht => ?_, fun _ => hs⟩
  cases ht
  exact ⟨fun i hi => (hm.2 i hi).canW h.inv.inv, hn⟩

theorem PInv.shared {β : Type} {g : Prog St} (h : PInv g) {m : B β} {k : β → Prog St → Prog St}
    {Q : β → St → Prop} (hm : Shr g.cap m Q)
    (hf : ∀ b g', PInv g' → g'.cap = g.cap → g'.len = g.len → g'.uniq = none → Q b g'.st →
      PInv (k b g')) : ∃ g', g.shared m k = some g' ∧ PInv g' := by
  obtain ⟨b, s, e, hs, hr, q⟩ := hm g.st h.inv
  refine ⟨k b { g with st := s, uniq := none }, by simp only [Prog.shared, e],
    hf b _ ⟨hs, h.len, fun t lo n ht => ?_, fun _ _ _ h => (nomatch h), fun h => absurd rfl h⟩
      rfl rfl rfl q⟩
  obtain ⟨h1, h2⟩ := h.shr t lo n ht
  exact ⟨h1.rd h.inv hr, h2⟩

theorem PInv.unique {β : Type} {g : Prog St} (h : PInv g) {m : B β} {k : β → Prog St → Prog St}
    (hm : Wrk g.cap m)
    (hf : ∀ b g', PInv g' → g'.cap = g.cap → g'.len = g.len → PInv (k b g')) :
    ∃ g', g.unique m k = some g' ∧ PInv g' := by
  obtain ⟨b, s, e, hs⟩ := hm g.st h.inv
  exact ⟨k b { g with st := s, shr := [], uniq := none }, by simp only [Prog.unique, e],
    hf b _ ⟨hs, h.len, fun _ _ _ h => (nomatch h), fun _ _ _ h => (nomatch h),
      fun h => absurd rfl h⟩ rfl rfl⟩

theorem PInv.lend {g : Prog St} (h : PInv g) {m : B Nat} (lo n : Prog St → Nat)
    (hm : Shr g.cap m (IsRes g.cap))
    (hn : ∀ g' : Prog St, g'.cap = g.cap → g'.len = g.len → lo g' + n g' ≤ g.cap) :
    ∃ g', g.unique m (fun t g => { g with uniq := some (t, lo g, n g) }) = some g' ∧ PInv g' := by
  obtain ⟨b, s, e, hs, _, q⟩ := hm g.st h.inv
  have h' : PInv { g with st := s, shr := [], uniq := none } :=
    ⟨hs, h.len, fun _ _ _ h => (nomatch h), fun _ _ _ h => (nomatch h), fun h => absurd rfl h⟩
  have h2 := h'.setUniq rfl q (hn { g with st := s, shr := [], uniq := none } rfl rfl)
  exact ⟨_, by simp only [Prog.unique, e], h2⟩

/-- A read through a `&` held. -/
theorem PInv.readShr {g : Prog St} (h : PInv g) {t lo n i : Nat} (ht : (t, lo, n) ∈ g.shr)
    (hu : i < lo + n) : ∃ g', g.through (Mach.readAt t i 1) = some g' ∧ PInv g' := by
  obtain ⟨h1, h2⟩ := h.shr t lo n ht
  obtain ⟨s, e, hs, hr⟩ := h.inv.readAt (lo := i) (n := 1) h1 (by omega)
  refine ⟨{ g with st := s }, by unfold Prog.through; rw [e], hs, h.len, fun t' lo' n' ht' => ?_,
    fun t' lo' n' ht' => ?_, h.excl⟩
  · obtain ⟨h1, h2⟩ := h.shr t' lo' n' ht'
    exact ⟨h1.rd h.inv hr, h2⟩
  · have := h.excl (by rw [show g.uniq = _ from ht']; simp)
    rw [this] at ht
    cases ht

/-- A read through the `&mut` held. -/
theorem PInv.readMut {g : Prog St} (h : PInv g) {t lo n i : Nat} (ht : g.uniq = some (t, lo, n))
    (hu : i < lo + n) : ∃ g', g.through (Mach.readAt t i 1) = some g' ∧ PInv g' := by
  obtain ⟨h1, h2⟩ := h.uniq t lo n ht
  obtain ⟨s, e, hs, hr, _, hk⟩ := h.inv.inv.readAt (t := t) (lo := i) (n := 1) fun j _ hj =>
    (h1 j (by omega)).canR
  refine ⟨{ g with st := s }, by unfold Prog.through; rw [e], h.inv.rd hs hr, h.len,
    fun t' lo' n' ht' => ?_, fun t' lo' n' ht' => ?_, h.excl⟩
  · have := h.excl (by rw [ht]; simp)
    rw [show g.shr = _ from this] at ht'
    cases ht'
  · have ht' : g.uniq = some (t', lo', n') := ht'
    rw [ht] at ht'
    cases ht'
    exact ⟨fun j hj => hk j (h1 j hj), h2⟩

/-- A write through the `&mut` held. -/
theorem PInv.writeMut {g : Prog St} (h : PInv g) {t lo n i : Nat} (ht : g.uniq = some (t, lo, n))
    (hu : i < lo + n) : ∃ g', g.through (Mach.writeAt t i 1) = some g' ∧ PInv g' := by
  obtain ⟨h1, h2⟩ := h.uniq t lo n ht
  obtain ⟨s, e, hs, hr, hk⟩ := h.inv.inv.writeAt (t := t) (lo := i) (n := 1) fun j _ hj =>
    h1 j (by omega)
  refine ⟨{ g with st := s }, by unfold Prog.through; rw [e], h.inv.wr hs hr, h.len,
    fun t' lo' n' ht' => ?_, fun t' lo' n' ht' => ?_, h.excl⟩
  · have := h.excl (by rw [ht]; simp)
    rw [show g.shr = _ from this] at ht'
    cases ht'
  · have ht' : g.uniq = some (t', lo', n') := ht'
    rw [ht] at ht'
    cases ht'
    exact ⟨fun j hj => hk j (h1 j hj), h2⟩

theorem PInv.step {g : Prog St} (h : PInv g) (dbg : Bool) (c : Call) :
    ∃ g', g.step dbg c = some g' ∧ PInv g' := by
  have hl := h.len
  cases c with
  | capacity => exact h.shared (shr_capacity g.cap) fun _ _ h _ _ _ _ => h
  | asSlice =>
    exact h.shared (shr_slice hl) fun b g' h' hc hn hu q =>
      h'.addShr hu (by rw [hc]; exact q) (by have := h'.len; omega)
  | index i =>
    simp only [Prog.step]
    split
    · rename_i hi
      exact h.shared (shr_getRef hl hi) fun b g' h' hc hn hu q =>
        h'.addShr hu (by rw [hc]; exact q) (by omega)
    · exact ⟨g, rfl, h⟩
  | readShr k i =>
    simp only [Prog.step]
    split
    · rename_i t lo n hk
      split
      · rename_i hi
        exact h.readShr (List.mem_of_getElem? hk) hi.2
      · exact ⟨g, rfl, h⟩
    · exact ⟨g, rfl, h⟩
  | asMutSlice => exact h.lend (fun _ => 0) (fun g => g.len) (shr_sliceMut hl) (fun _ _ _ => by omega)
  | indexMut i =>
    simp only [Prog.step]
    split
    · rename_i hi
      exact h.lend (fun _ => i) (fun _ => 1) (shr_getMut hl hi) (fun _ _ _ => by omega)
    · exact ⟨g, rfl, h⟩
  | readMut i =>
    simp only [Prog.step]
    split
    · rename_i t lo n hk
      split
      · rename_i hi
        exact h.readMut hk hi.2
      · exact ⟨g, rfl, h⟩
    · exact ⟨g, rfl, h⟩
  | writeMut i =>
    simp only [Prog.step]
    split
    · rename_i t lo n hk
      split
      · rename_i hi
        exact h.writeMut hk hi.2
      · exact ⟨g, rfl, h⟩
    · exact ⟨g, rfl, h⟩
  | pop =>
    simp only [Prog.step]
    split
    · rename_i h0
      exact h.unique (shr_pop dbg hl h0).wrk fun b g' h' hc hn => h'.setLen (by omega)
    · exact ⟨g, rfl, h⟩
  | clear => exact h.unique (wrk_clear dbg hl) fun b g' h' hc hn => h'.setLen (Nat.zero_le _)
  | truncate n =>
    exact h.unique (wrk_truncate dbg hl) fun b g' h' hc hn =>
      h'.setLen (n := min g'.len n) (by omega)
  | insertLast =>
    simp only [Prog.step]
    split
    · rename_i h0
      exact h.unique (wrk_insert dbg h0 (Nat.le_refl _)) fun b g' h' hc hn => h'.setLen (by omega)
    · exact ⟨g, rfl, h⟩
  | removeLast =>
    simp only [Prog.step]
    split
    · rename_i h0
      exact h.unique (wrk_remove dbg hl (by omega)) fun b g' h' hc hn => h'.setLen (by omega)
    · exact ⟨g, rfl, h⟩
  | swapRemoveOnly =>
    simp only [Prog.step]
    split
    · rename_i h0
      exact h.unique (wrk_swapRemove dbg hl (by omega)) fun b g' h' hc hn => h'.setLen (by omega)
    · exact ⟨g, rfl, h⟩
  | realloc cap =>
    simp only [Prog.step]
    split
    · rename_i h0
      exact ⟨_, rfl, pinv_start cap g.len h0⟩
    · exact ⟨g, rfl, h⟩

theorem PInv.stepAll {g : Prog St} (h : PInv g) (dbg : Bool) (c : VCall) :
    ∃ g', g.stepAll dbg c = some g' ∧ PInv g' := by
  have hl := h.len
  cases c with
  | of c => exact h.step dbg c
  | push =>
    simp only [Prog.stepAll]
    split
    · rename_i h0
      exact h.unique (wrk_push dbg h0) fun b g' h' hc hn => h'.setLen (by omega)
    · exact ⟨g, rfl, h⟩
  | append n =>
    simp only [Prog.stepAll]
    split
    · rename_i h0
      exact h.unique (wrk_append dbg h0) fun b g' h' hc hn => h'.setLen (by omega)
    · exact ⟨g, rfl, h⟩
  | insert i =>
    simp only [Prog.stepAll]
    split
    · rename_i h0
      exact h.unique (wrk_insert dbg h0.2 h0.1) fun b g' h' hc hn => h'.setLen (by omega)
    · exact ⟨g, rfl, h⟩
  | remove i =>
    simp only [Prog.stepAll]
    split
    · rename_i h0
      exact h.unique (wrk_remove dbg hl h0) fun b g' h' hc hn => h'.setLen (by omega)
    · exact ⟨g, rfl, h⟩
  | swapRemove i =>
    simp only [Prog.stepAll]
    split
    · rename_i h0
      exact h.unique (wrk_swapRemove dbg hl h0) fun b g' h' hc hn => h'.setLen (by omega)
    · exact ⟨g, rfl, h⟩
  | splitOff k =>
    exact h.unique (shr_splitOff hl).wrk fun b g' h' hc hn =>
      h'.setLen (n := min g'.len k) (by omega)
  | retain keep n =>
    simp only [Prog.stepAll]
    split
    · rename_i h0
      exact h.unique (wrk_retain dbg keep hl h0) fun b g' h' hc hn => h'.setLen (by omega)
    · exact ⟨g, rfl, h⟩
  | dedupKey same n =>
    simp only [Prog.stepAll]
    split
    · rename_i h0
      exact h.unique (wrk_dedupKey dbg same hl h0) fun b g' h' hc hn => h'.setLen (by omega)
    · exact ⟨g, rfl, h⟩
  | dedupBy wt same n =>
    simp only [Prog.stepAll]
    split
    · rename_i h0
      exact h.unique (wrk_dedupBy dbg wt same hl h0) fun b g' h' hc hn => h'.setLen (by omega)
    · exact ⟨g, rfl, h⟩
  | spareCapacity =>
    exact h.shared (shr_spareCapacity hl) fun b g' h' hc hn hu q =>
      h'.addShr (lo := g'.len) (n := g'.cap - g'.len) hu (by rw [hc]; exact q)
        (by have := h'.len; omega)
  | spareCapacityMut =>
    exact h.lend (fun g => g.len) (fun g => g.cap - g.len) (shr_spareCapacityMut hl)
      (fun _ _ _ => by omega)

theorem PInv.runAll {g : Prog St} (h : PInv g) (dbg : Bool) (cs : List VCall) :
    ∃ g', g.runAll dbg cs = some g' ∧ PInv g' := by
  induction cs generalizing g with
  | nil => exact ⟨g, rfl, h⟩
  | cons c cs ih =>
    obtain ⟨g1, e1, h1⟩ := h.stepAll dbg c
    obtain ⟨g2, e2, h2⟩ := ih h1
    exact ⟨g2, by simp only [Prog.runAll, e1, e2], h2⟩

theorem PInv.stepStack {g : Prog St} (h : PInv g) (c : SCall) :
    ∃ g', g.stepStack c = some g' ∧ PInv g' := by
  have hl := h.len
  cases c with
  | asSlice => exact h.step false .asSlice
  | index i => exact h.step false (.index i)
  | readShr k i => exact h.step false (.readShr k i)
  | asMutSlice => exact h.step false .asMutSlice
  | indexMut i => exact h.step false (.indexMut i)
  | readMut i => exact h.step false (.readMut i)
  | writeMut i => exact h.step false (.writeMut i)
  | pop => exact h.step false .pop
  | push =>
    simp only [Prog.stepStack]
    split
    · rename_i h0
      exact h.unique (wrk_stackPush h0) fun b g' h' hc hn => h'.setLen (by omega)
    · exact ⟨g, rfl, h⟩
  | clear => exact h.unique (wrk_stackClear hl) fun b g' h' hc hn => h'.setLen (Nat.zero_le _)
  | insert i =>
    simp only [Prog.stepStack]
    split
    · rename_i h0
      exact h.unique (wrk_stackInsert h0.2 h0.1) fun b g' h' hc hn => h'.setLen (by omega)
    · exact ⟨g, rfl, h⟩
  | remove i =>
    simp only [Prog.stepStack]
    split
    · rename_i h0
      exact h.unique (wrk_stackRemove h0.2 h0.1) fun b g' h' hc hn => h'.setLen (by omega)
    · exact ⟨g, rfl, h⟩
  | swapRemove i =>
    simp only [Prog.stepStack]
    split
    · rename_i h0
      exact h.unique (wrk_stackSwapRemove hl h0) fun b g' h' hc hn => h'.setLen (by omega)
    · exact ⟨g, rfl, h⟩

theorem PInv.runStack {g : Prog St} (h : PInv g) (cs : List SCall) :
    ∃ g', g.runStack cs = some g' ∧ PInv g' := by
  induction cs generalizing g with
  | nil => exact ⟨g, rfl, h⟩
  | cons c cs ih =>
    obtain ⟨g1, e1, h1⟩ := h.stepStack c
    obtain ⟨g2, e2, h2⟩ := ih h1
    exact ⟨g2, by simp only [Prog.runStack, e1, e2], h2⟩

/-! ## When `dedup_by` and `StackVec::remove` fail -/

theorem keptOnce_iff (wt wk same : Nat → Bool) (n : Nat) : ∀ (d : Bool) (read : Nat),
    keptOnce wt wk same d read n = false ↔
      (d = true ∧ ∃ j, read ≤ j ∧ j < read + n ∧ (∀ k, read ≤ k → k < j → same k = true) ∧
        wk j = true) ∨
      ∃ i j, read ≤ i ∧ i < j ∧ j < read + n ∧ (if same i then wk i else wt i) = true ∧
        (∀ k, i < k → k < j → same k = true) ∧ wk j = true := by
  induction n with
  | zero =>
    intro d read
    constructor
    · intro h; cases h
    · rintro (⟨_, j, h1, h2, _⟩ | ⟨i, j, h1, h2, h3, _⟩) <;> omega
  | succ n ih =>
    intro d read
    rw [keptOnce, Bool.and_eq_false_iff, ih]
    constructor
    · rintro (h | ⟨hd, j, h1, h2, h3, h4⟩ | ⟨i, j, h1, h2, h3, h4, h5, h6⟩)
      · simp at h
        exact .inl ⟨h.1, read, Nat.le_refl _, by omega, fun k h1 h2 => by omega, h.2⟩
      · cases hs : same read with
        | false =>
          rw [hs] at hd
          exact .inr ⟨read, j, Nat.le_refl _, by omega, by omega, by rw [hs]; simpa using hd,
            fun k hk1 hk2 => h3 k (by omega) hk2, h4⟩
        | true =>
          rw [hs] at hd
          simp at hd
          rcases hd with hd | hd
          · refine .inl ⟨hd, j, by omega, by omega, fun k hk1 hk2 => ?_, h4⟩
            by_cases hk : k = read
            · rw [hk, hs]
            · exact h3 k (by omega) hk2
          · exact .inr ⟨read, j, Nat.le_refl _, by omega, by omega, by rw [hs]; simpa using hd,
              fun k hk1 hk2 => h3 k (by omega) hk2, h4⟩
      · exact .inr ⟨i, j, by omega, h2, by omega, h4, h5, h6⟩
    · rintro (⟨hd, j, h1, h2, h3, h4⟩ | ⟨i, j, h1, h2, h3, h4, h5, h6⟩)
      · by_cases hj : j = read
        · subst hj; exact .inl (by simp [hd, h4])
        · refine .inr (.inl ⟨?_, j, by omega, by omega, fun k hk1 hk2 => h3 k (by omega) hk2, h4⟩)
          rw [h3 read (Nat.le_refl _) (by omega)]
          simp [hd]
      · by_cases hi : i = read
        · subst hi
          refine .inr (.inl ⟨?_, j, by omega, by omega, fun k hk1 hk2 => h5 k (by omega) hk2, h6⟩)
          cases hs : same i with
          | false => rw [hs] at h4; simpa using h4
          | true => rw [hs] at h4; simp at h4; simp [h4]
        · exact .inr (.inr ⟨i, j, by omega, h2, by omega, h4, h5, h6⟩)

theorem readAt_dead {s : St} {t lo n : Nat} (i : Nat) (h1 : lo ≤ i) (h2 : i < lo + n)
    (hd : s.live i = false) : Mach.readAt t lo n s = none := by
  have : s.grants false t lo n ≠ true := fun hg => by
    have := (grants_iff.1 hg i h1 h2).1
    rw [hd] at this
    cases this
  rw [mach_readAt]
  simp only [access]
  rw [if_neg this]

theorem stackRemove_none {n i : Nat} {s : St} (h : VInv n s) (hd : s.live n = false) (hi : i < n) :
    Alias.stackRemove n n i s = none := by
  obtain ⟨p, s1, e1, h1, r1, q1⟩ := shr_getMutPtr (cap := n) (Nat.le_refl n) hi s h
  obtain ⟨s2, e2, h2, r2⟩ := h1.readAt (lo := i) (n := 1) (q1.shr h1) (by omega)
  obtain ⟨r, s3, e3, h3, r3, _⟩ := shr_asPtr (cap := n) (Nat.le_refl n) s2 h2
  obtain ⟨w, s4, e4, h4, r4, _⟩ := shr_asMutPtr (cap := n) (Nat.le_refl n) s3 h3
  unfold Alias.stackRemove
  rw [bind_some e1, bind_some e2, bind_some e3, bind_some e4]
  refine bind_none (readAt_dead n (by omega) (by omega) ?_)
  rw [r4.live, r3.live, r2.live, r1.live]
  exact hd

end Lokky.TB
