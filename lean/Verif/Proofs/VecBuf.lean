import Verif.Proofs.VecGrow

/-!
# Element operations inside a buffer
-/

namespace Lokky
variable {α : Type} {c : Cfg α}

theorem BRep.of_slots {b : Buf α} {l : List α} (h1 : b.len = l.length)
    (h2 : b.slots.length = b.cap)
    (h3 : ∀ i (h : i < l.length), b.slots[i]? = some (some l[i])) : BRep b l := by
  refine ⟨h1, h2, b.slots.drop l.length, ?_⟩
  apply List.ext_getElem?
  intro i
  rcases Nat.lt_or_ge i l.length with h | h
  · rw [List.getElem?_append_left (by simpa using h), h3 i h]
    simp [h]
  · rw [List.getElem?_append_right (by simpa using h)]
    simp [h]

theorem BRep.length_le {b : Buf α} {l : List α} (h : BRep b l) : l.length ≤ b.slots.length := by
  rw [h.cap]; exact h.le_cap

/-- `write` at the end, then `set_len(len + 1)`. -/
theorem writeEnd_spec {b : Buf α} {l : List α} (hs : c.size ≠ 0) (h : BRep b l)
    (hc : l.length < b.cap) (a : α) :
    ∃ b', (do let n ← Buf.getLen; Buf.write c n a; Buf.setLen c (n + 1) : M (Buf α) Unit) b
        = .ok () b' ∧ BTrans (l ++ [a]) [] b b' ∧ b'.log = b.log := by
  refine ⟨?_, ?_, ?_, ?_⟩
  rotate_left
  · rw [M.bind_ok (Buf.getLen_apply b),
      M.bind_ok (Buf.write_eq hs (by rw [h.len, h.cap]; exact hc)),
      Buf.setLen_eq (by simp only; rw [h.len]; exact hc)]
  · refine ⟨BRep.of_slots (by simp [h.len]) (by simp [h.cap]) ?_, rfl, by simp⟩
    intro i hi
    simp only [List.length_append, List.length_singleton] at hi
    simp only [h.len]
    rcases Nat.lt_or_ge i l.length with h' | h'
    · rw [List.getElem?_set_ne (by omega), h.slot h']
      simp [h']
    · have : i = l.length := by omega
      subst this
      have := h.cap
      rw [List.getElem?_set_self (by omega)]
      simp
  · rfl

theorem pop_buf {b : Buf α} {l : List α} (hs : c.size ≠ 0) (h : BRep b l) :
    ∃ b', (do
      let n ← Buf.getLen
      if n = 0 then pure none
      else do
        uncheckedIndex c (n - 1) n
        let a ← Buf.read c (n - 1)
        Buf.setLen c (n - 1)
        pure (some a) : M (Buf α) (Option α)) b = .ok l.getLast? b' ∧
      BTrans l.dropLast [] b b' ∧ b'.log = b.log := by
  rw [M.bind_ok (Buf.getLen_apply b), h.len]
  by_cases h0 : l.length = 0
  · have : l = [] := List.length_eq_zero_iff.mp h0
    subst this
    refine ⟨b, by simp, by simpa using BTrans.refl h, rfl⟩
  · have hlt : l.length - 1 < l.length := by omega
    have hlast : l.getLast? = some l[l.length - 1] := by
      rw [List.getLast?_eq_getElem?]; simp [hlt]
    refine ⟨?_, ?_, ?_, ?_⟩
    rotate_left
    · rw [if_neg h0, M.bind_ok (uncheckedIndex_eq hlt), M.bind_ok (Buf.read_eq hs (h.slot hlt)),
        M.bind_ok (Buf.setLen_eq (by have := h.le_cap; omega)), M.pure_apply, hlast]
    · refine ⟨BRep.of_slots (by simp) h.cap ?_, rfl, by simp⟩
      intro i hi
      simp only [List.length_dropLast] at hi
      rw [h.slot (by omega)]; simp
    · rfl

theorem remove_buf {b : Buf α} {l : List α} (hs : c.size ≠ 0) (h : BRep b l) {i : Nat}
    (hi : i < l.length) :
    ∃ b', (do
      let n ← Buf.getLen
      assert (i < n)
      uncheckedIndex c i n
      let a ← Buf.read c i
      Buf.copy c (i + 1) i (n - i - 1)
      Buf.setLen c (n - 1)
      pure a : M (Buf α) α) b = .ok l[i] b' ∧ BTrans (l.eraseIdx i) [] b b' ∧ b'.log = b.log := by
  have hle := h.length_le
  refine ⟨?_, ?_, ?_, ?_⟩
  rotate_left
  · rw [M.bind_ok (Buf.getLen_apply b), h.len, M.bind_ok (assert_pos hi),
      M.bind_ok (uncheckedIndex_eq hi), M.bind_ok (Buf.read_eq hs (h.slot hi)),
      M.bind_ok (Buf.copy_eq hs (by omega) (by omega)),
      M.bind_ok (Buf.setLen_eq (by have := h.le_cap; simp only; omega)), M.pure_apply]
  · refine ⟨BRep.of_slots (by simp [List.length_eraseIdx, hi]) ?_ ?_, rfl, by simp⟩
    · simp only [List.length_append, List.length_take, List.length_drop]
      have := h.cap; omega
    · intro j hj
      simp only [List.length_eraseIdx, hi, if_true] at hj
      simp only [List.getElem?_append, List.length_take, List.length_append, List.getElem?_take,
        List.getElem?_drop, List.length_drop]
      rw [Nat.min_eq_left (by omega : i ≤ b.slots.length)]
      by_cases hji : j < i
      · simp only [hji, if_true]
        rw [if_pos (by omega), h.slot (by omega), List.getElem_eraseIdx_of_lt _ hji]
      · have hlt : j < i + min (l.length - i - 1) (b.slots.length - (i + 1)) := by omega
        simp only [hlt, hji, if_true, if_false]
        rw [if_pos (by omega), List.getElem_eraseIdx_of_ge _ (by omega)]
        have : i + 1 + (j - i) = j + 1 := by omega
        rw [this, h.slot (by omega)]
  · rfl

theorem remove_buf_panic {b : Buf α} {l : List α} (h : BRep b l) {i : Nat}
    (hi : ¬ i < l.length) :
    (do
      let n ← Buf.getLen
      assert (i < n)
      uncheckedIndex c i n
      let a ← Buf.read c i
      Buf.copy c (i + 1) i (n - i - 1)
      Buf.setLen c (n - 1)
      pure a : M (Buf α) α) b = .panic b := by
  rw [M.bind_ok (Buf.getLen_apply b), h.len, M.bind_panic (assert_neg hi)]

/-- Contents after `swap_remove(i)`: the last element takes the place of the removed one. -/
def swapRemoved (l : List α) (i : Nat) : List α :=
  match l.getLast? with
  | none => []
  | some z => (l.set i z).dropLast

theorem swapRemove_buf {b : Buf α} {l : List α} (hs : c.size ≠ 0) (h : BRep b l) {i : Nat}
    (hi : i < l.length) (hstrict : c.strict = true → i + 1 ≠ l.length) :
    ∃ b', (do
      let n ← Buf.getLen
      uncheckedIndex c i n
      uncheckedIndex c (n - 1) n
      let a ← Buf.read c i
      Buf.copyNonoverlapping c (n - 1) i 1
      Buf.setLen c (n - 1)
      pure a : M (Buf α) α) b = .ok l[i] b' ∧ BTrans (swapRemoved l i) [] b b' ∧
        b'.log = b.log := by
  have hle := h.length_le
  have hlt : l.length - 1 < l.length := by omega
  have hno : ¬ (c.strict ∧ c.size ≠ 0 ∧ l.length - 1 < i + 1 ∧ i < l.length - 1 + 1) := by
    rintro ⟨h1, _, h2, h3⟩
    exact hstrict h1 (by omega)
  refine ⟨?_, ?_, ?_, ?_⟩
  rotate_left
  · rw [M.bind_ok (Buf.getLen_apply b), h.len, M.bind_ok (uncheckedIndex_eq hi),
      M.bind_ok (uncheckedIndex_eq hlt), M.bind_ok (Buf.read_eq hs (h.slot hi))]
    have e : Buf.copyNonoverlapping c (l.length - 1) i 1 b = .ok () { b with
      slots := b.slots.take i ++ (b.slots.drop (l.length - 1)).take 1 ++ b.slots.drop (i + 1) } := by
      unfold Buf.copyNonoverlapping
      rw [if_neg hno, Buf.copy_eq hs (by omega) (by omega)]
    rw [M.bind_ok e, M.bind_ok (Buf.setLen_eq (by have := h.le_cap; simp only; omega)),
      M.pure_apply]
  · have hlast : l.getLast? = some l[l.length - 1] := by
      rw [List.getLast?_eq_getElem?]; simp [hlt]
    refine ⟨BRep.of_slots (by simp [swapRemoved, hlast]) ?_ ?_, rfl, by simp⟩
    · simp only [List.length_append, List.length_take, List.length_drop]
      have := h.cap; omega
    · intro j hj
      simp only [swapRemoved, hlast, List.length_dropLast, List.length_set] at hj
      simp only [swapRemoved, hlast, List.getElem_dropLast, List.getElem_set]
      simp only [List.getElem?_append, List.length_take, List.length_append, List.getElem?_take,
        List.getElem?_drop, List.length_drop]
      rw [Nat.min_eq_left (by omega : i ≤ b.slots.length),
        Nat.min_eq_left (by omega : 1 ≤ b.slots.length - (l.length - 1))]
      by_cases hji : j < i
      · simp only [hji, if_true]
        rw [if_pos (by omega), if_neg (by omega), h.slot (by omega)]
      · by_cases hij : i = j
        · subst hij
          simp only [Nat.lt_irrefl, if_false, Nat.sub_self, Nat.lt_succ_self, if_true,
            Nat.add_zero]
          rw [h.slot hlt]
        · simp only [hij, hji, if_false]
          rw [if_neg (by omega)]
          have : i + 1 + (j - (i + 1)) = j := by omega
          rw [this, h.slot (by omega)]
  · rfl

theorem insert_buf {b : Buf α} {l : List α} (hs : c.size ≠ 0) (h : BRep b l) {i : Nat}
    (hi : i ≤ l.length) (hc : l.length < b.cap) (a : α) :
    ∃ b', (do
      let n ← Buf.getLen
      uncheckedIndex c i (n + 1)
      Buf.copy c i (i + 1) (n - i)
      Buf.write c i a
      Buf.setLen c (n + 1) : M (Buf α) Unit) b = .ok () b' ∧
        BTrans (l.insertIdx i a) [] b b' ∧ b'.log = b.log := by
  have hle := h.length_le
  have hcap := h.cap
  have hlen : (b.slots.take (i + 1) ++ (b.slots.drop i).take (l.length - i) ++
      b.slots.drop (i + 1 + (l.length - i))).length = b.slots.length := by
    simp only [List.length_append, List.length_take, List.length_drop]; omega
  refine ⟨?_, ?_, ?_, ?_⟩
  rotate_left
  · rw [M.bind_ok (Buf.getLen_apply b), h.len, M.bind_ok (uncheckedIndex_eq (by omega)),
      M.bind_ok (Buf.copy_eq hs (by omega) (by omega)),
      M.bind_ok (Buf.write_eq hs (by simp only; rw [hlen]; omega)),
      Buf.setLen_eq (by simp only; omega)]
  · refine ⟨BRep.of_slots (by simp [List.length_insertIdx, hi]) (by simpa using hlen.trans hcap) ?_,
      rfl, by simp⟩
    intro j hj
    simp only [List.length_insertIdx, hi, if_true] at hj
    rw [List.getElem?_set]
    by_cases hij : i = j
    · subst hij
      rw [if_pos rfl, if_pos (by rw [hlen]; omega)]
      simp
    · rw [if_neg hij]
      simp only [List.getElem?_append, List.length_take, List.length_append, List.getElem?_take,
        List.getElem?_drop, List.length_drop]
      rw [Nat.min_eq_left (by omega : i + 1 ≤ b.slots.length)]
      by_cases hji : j < i
      · simp only [show j < i + 1 by omega, if_true]
        rw [if_pos (by omega), h.slot (by omega), List.getElem_insertIdx_of_lt hji]
      · have h1 : j < i + 1 + min (l.length - i) (b.slots.length - i) := by omega
        have h2 : ¬ j < i + 1 := by omega
        simp only [h1, h2, if_true, if_false]
        rw [if_pos (by omega), List.getElem_insertIdx_of_gt (by omega)]
        have : i + (j - (i + 1)) = j - 1 := by omega
        rw [this, h.slot (by omega)]
  · rfl

theorem truncate_buf {b : Buf α} {l : List α} (hs : c.size ≠ 0) (h : BRep b l) (k : Nat) :
    Sat c (Vec.truncateBuf c k b)
      (fun _ b' => BTrans (l.take k) (l.drop k) b b' ∧ b'.log.calls = b.log.calls)
      (fun b' => BTrans (l.take k) (l.drop k) b b' ∧ b'.log.calls = b.log.calls ∧
        ∃ a ∈ l.drop k, c.dropPanics a = true) := by
  unfold Vec.truncateBuf
  rw [M.bind_ok (Buf.getLen_apply b), h.len]
  by_cases hk : l.length < k
  · rw [if_pos hk]
    simp only [M.pure_apply, Sat]
    rw [List.take_of_length_le (by omega), List.drop_of_length_le (by omega)]
    exact ⟨BTrans.refl h, trivial⟩
  · have hle := h.le_cap
    have hlen : l.length - k = (l.drop k).length := by simp
    rw [if_neg hk, M.bind_ok (Buf.setLen_eq (by omega)), hlen]
    have hrep : ∀ g : Log α, BRep { b with len := k, log := g } (l.take k) := by
      intro g
      refine BRep.of_slots (by simp; omega) h.cap ?_
      intro i hi
      simp only [List.length_take] at hi
      rw [h.slot (by omega)]; simp
    refine (Buf.dropSlice_spec hs (xs := l.drop k) ?_).mono ?_ ?_
    · intro j hj
      simp only [List.length_drop] at hj
      rw [h.slot (by omega)]; simp
    · rintro _ b' rfl
      exact ⟨⟨hrep _, rfl, by simp⟩, rfl⟩
    · rintro b' ⟨rfl, hp⟩
      exact ⟨⟨hrep _, rfl, by simp⟩, rfl, hp⟩

theorem clear_buf {b : Buf α} {l : List α} (hs : c.size ≠ 0) (h : BRep b l) :
    Sat c ((do let n ← Buf.getLen; Buf.dropLoop c 0 n; Buf.setLen c 0 : M (Buf α) Unit) b)
      (fun _ b' => BTrans [] l b b' ∧ b'.log.calls = b.log.calls ∧
        ∀ a ∈ l, c.dropPanics a = false)
      (fun b' => ∃ ys a zs, l = ys ++ a :: zs ∧ c.dropPanics a = true ∧
        (∀ y ∈ ys, c.dropPanics y = false) ∧
        b' = { b with log := b.log.addDrops (ys ++ [a]) }) := by
  rw [M.bind_ok (Buf.getLen_apply b)]
  have key := Buf.dropLoop_spec (b := b) (i := 0) hs (xs := l)
    (fun k hk => by rw [Nat.zero_add]; exact h.slot hk)
  rw [← h.len] at key
  refine Sat.bind' key (fun _ h => h) ?_
  · rintro _ b' ⟨rfl, hall⟩
    rw [Buf.setLen_eq (by simp)]
    exact ⟨⟨BRep.of_slots rfl h.cap (by simp), rfl, by simp⟩, rfl, hall⟩

theorem copyFrom_buf {b : Buf α} {l l2 : List α} (hs : c.size ≠ 0) (h : BRep b l)
    {src : List (Option α)} (hsrc : ∃ rest, src = l2.map some ++ rest)
    (hc : l.length + l2.length ≤ b.cap) :
    ∃ b', (do
      let k ← Buf.getLen
      Buf.copyFrom c src k l2.length
      Buf.setLen c (k + l2.length) : M (Buf α) Unit) b = .ok () b' ∧
        BTrans (l ++ l2) [] b b' ∧ b'.log = b.log := by
  obtain ⟨rest, rfl⟩ := hsrc
  have hle := h.length_le
  have hcap := h.cap
  refine ⟨?_, ?_, ?_, ?_⟩
  rotate_left
  · rw [M.bind_ok (Buf.getLen_apply b), h.len,
      M.bind_ok (Buf.copyFrom_eq hs (by simp) (by omega)), Buf.setLen_eq (by simp only; omega)]
  · refine ⟨BRep.of_slots (by simp) ?_ ?_, rfl, by simp⟩
    · simp only [List.length_append, List.length_take, List.length_drop, List.length_map]; omega
    · intro j hj
      simp only [List.length_append] at hj
      simp only [List.getElem?_append, List.length_take, List.length_append, List.getElem?_take,
        List.length_map, List.getElem_append]
      rw [Nat.min_eq_left (by omega : l.length ≤ b.slots.length)]
      by_cases hji : j < l.length
      · simp only [hji, if_true, dite_true]
        rw [if_pos (by omega), h.slot hji]
      · simp only [hji, if_false, dite_false]
        rw [if_pos (by omega), if_pos (by omega), if_pos (by omega)]
        rw [List.getElem?_map, List.getElem?_eq_getElem (by omega)]
        rfl
  · rfl

theorem index_buf {b : Buf α} {l : List α} (hs : c.size ≠ 0) (h : BRep b l) (i : Nat) :
    (do let n ← Buf.getLen; assert (i < n); Buf.read c i : M (Buf α) α) b =
      (if hi : i < l.length then .ok l[i] b else .panic b) := by
  rw [M.bind_ok (Buf.getLen_apply b), h.len]
  split
  · rename_i hi
    rw [M.bind_ok (assert_pos hi), Buf.read_eq hs (h.slot hi)]
  · rename_i hi
    rw [M.bind_panic (assert_neg hi)]

theorem indexSet_buf {b : Buf α} {l : List α} (hs : c.size ≠ 0) (h : BRep b l) {i : Nat}
    (hi : i < l.length) (a : α) :
    Sat c ((Buf.dropAt c i).andAlways (Buf.write c i a) b)
      (fun _ b' => BTrans (l.set i a) [l[i]] b b' ∧ b'.log.calls = b.log.calls ∧
        c.dropPanics l[i] = false)
      (fun b' => BTrans (l.set i a) [l[i]] b b' ∧ b'.log.calls = b.log.calls ∧
        c.dropPanics l[i] = true) := by
  have hle := h.length_le
  have hw : ∀ g : Log α, BRep { b with slots := b.slots.set i (some a), log := g } (l.set i a) := by
    intro g
    refine BRep.of_slots (by simpa using h.len) (by simpa using h.cap) ?_
    intro j hj
    simp only [List.length_set] at hj
    simp only [List.getElem?_set, List.getElem_set]
    by_cases hij : i = j
    · subst hij; simp; omega
    · simp only [hij, if_false]; exact h.slot hj
  refine Sat.andAlways (Buf.dropAt_spec hs (h.slot hi)) ?_ ?_
  · rintro b' ⟨rfl, hp⟩
    rw [Buf.write_eq hs (by simp only; omega)]
    exact ⟨⟨hw _, rfl, by simp⟩, rfl, hp⟩
  · rintro b' ⟨rfl, hp⟩
    rw [Buf.write_eq hs (by simp only; omega)]
    exact ⟨⟨hw _, rfl, by simp⟩, rfl, hp⟩

theorem asSlice_buf {b : Buf α} {l : List α} (hs : c.size ≠ 0) (h : BRep b l) :
    (do let n ← Buf.getLen; Buf.readSlice c 0 n : M (Buf α) (List α)) b = .ok l b := by
  rw [M.bind_ok (Buf.getLen_apply b), h.len]
  exact Buf.readSlice_spec hs (fun k hk => by rw [Nat.zero_add]; exact h.slot hk)

end Lokky
