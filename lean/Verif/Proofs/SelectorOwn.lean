import Verif.Proofs.Selector

/-! Lemmas about pointers and the memory they own. -/

namespace Lokky
variable {Site : Type} {L : Linked Site PTy} {choose : Nat → AllocSelector → Nat}

theorem Given.unique {S : Prop} {k : Nat} {log : List SelEv} (h : LogOk L choose S k log) {b a a' : Nat}
    {q q' : AllocSelector} (h1 : Given log b q a) (h2 : Given log b q' a') : q = q' ∧ a = a' := by
  have key : ∀ e ∈ log, ∀ e' ∈ log, ∀ b, e.born = some b → e'.born = some b → e = e' := by
    intro e he e' he' b hb hb'
    obtain ⟨l1, l2, rfl⟩ := List.append_of_mem he
    have hk : ∀ pre f' post, l1 ++ e :: l2 = pre ++ f' :: post → f'.born = some b → ∀ f ∈ pre, f.born ≠ some b := by
      intro pre f' post hh hb f hf
      have hok := h pre f' post hh
      cases f' with
      | got k q a b' => cases hb; exact hok.2.2 f hf
      | regot a b' b'' => cases hb; exact hok.2 f hf
      | _ => cases hb
    rcases List.mem_append.mp he' with hm | hm
    · exact absurd hb' (hk l1 e l2 rfl hb e' hm)
    · rcases List.mem_cons.mp hm with rfl | hm
      · rfl
      · obtain ⟨m1, m2, rfl⟩ := List.append_of_mem hm
        exact absurd hb (hk (l1 ++ e :: m1) e' m2 (by simp) hb' e (by simp))
  induction h1 generalizing q' a' with
  | got m1 =>
    cases h2 with
    | got m2 => have := key _ m1 _ m2 _ rfl rfl; cases this; exact ⟨rfl, rfl⟩
    | regot m2 _ => have := key _ m1 _ m2 _ rfl rfl; cases this
  | regot m1 _ ih =>
    cases h2 with
    | got m2 => have := key _ m1 _ m2 _ rfl rfl; cases this
    | regot m2 g2 => have := key _ m1 _ m2 _ rfl rfl; cases this; exact ih g2

/-- The pointers own different pieces of memory that are in use; if `F`, all that is in use. -/
structure OwnInv (F : Prop) (ptrs : List (Option SPtr)) (next : Nat) (live : List Nat) : Prop where
  dist : ∀ (i j : Nat) (p p' : SPtr), ptrs[i]? = some (some p) → ptrs[j]? = some (some p') → p.block = p'.block → i = j
  inUse : ∀ (i : Nat) (p : SPtr), ptrs[i]? = some (some p) → p.block ∈ live
  nodup : live.Nodup
  fresh : ∀ b ∈ live, b < next
  owned : F → ∀ b ∈ live, ∃ (i : Nat) (p : SPtr), ptrs[i]? = some (some p) ∧ p.block = b

variable {F : Prop} {ptrs : List (Option SPtr)} {next : Nat} {live : List Nat}

theorem snoc_getElem? {β : Type} {l : List β} {x y : β} {i : Nat} (h : (l ++ [x])[i]? = some y) :
    l[i]? = some y ∨ (i = l.length ∧ x = y) := by
  rw [List.getElem?_append] at h
  split at h
  · exact .inl h
  · next hl =>
    have : i - l.length = 0 := by
      rcases Nat.eq_zero_or_pos (i - l.length) with h0 | h0
      · exact h0
      · rw [List.getElem?_eq_none (by simp only [List.length_cons, List.length_nil]; omega)] at h
        cases h
    rw [this] at h
    exact .inr ⟨by omega, by simpa using h⟩

theorem OwnInv.grow (h : OwnInv F ptrs next live) {p : SPtr} (hp : p.block = next) :
    OwnInv F (ptrs ++ [some p]) (next + 1) (next :: live) := by
  have hlt : ∀ (i : Nat) (p' : SPtr), ptrs[i]? = some (some p') → p'.block ≠ next := fun i p' hi e =>
    absurd (h.fresh _ (h.inUse i p' hi)) (by omega)
  refine ⟨?_, ?_, ?_, ?_, ?_⟩
  · intro i j p1 p2 h1 h2 he
    rcases snoc_getElem? h1 with h1 | ⟨rfl, g1⟩ <;> rcases snoc_getElem? h2 with h2 | ⟨rfl, g2⟩
    · exact h.dist i j p1 p2 h1 h2 he
    · cases g2; exact absurd (he.trans hp) (hlt i p1 h1)
    · cases g1; exact absurd (he.symm.trans hp) (hlt j p2 h2)
    · rfl
  · intro i p1 h1
    rcases snoc_getElem? h1 with h1 | ⟨rfl, g1⟩
    · exact List.mem_cons_of_mem _ (h.inUse i p1 h1)
    · cases g1; exact hp ▸ List.mem_cons_self
  · exact List.nodup_cons.mpr ⟨fun hm => absurd (h.fresh _ hm) (Nat.lt_irrefl _), h.nodup⟩
  · intro b hb
    rcases List.mem_cons.mp hb with rfl | hb
    · exact Nat.lt_succ_self _
    · exact Nat.lt_succ_of_lt (h.fresh b hb)
  · intro hF b hb
    rcases List.mem_cons.mp hb with rfl | hb
    · exact ⟨ptrs.length, p, by simp, hp⟩
    · obtain ⟨i, p', hi, he⟩ := h.owned hF b hb
      exact ⟨i, p', by rw [List.getElem?_append_left (List.getElem?_eq_some_iff.mp hi).1]; exact hi, he⟩

theorem set_getElem? {β : Type} {l : List β} {x y : β} {i j : Nat} (h : (l.set i x)[j]? = some y) :
    (j ≠ i ∧ l[j]? = some y) ∨ (j = i ∧ x = y) := by
  rw [List.getElem?_set] at h
  split at h
  · next hij =>
    subst hij
    split at h
    · exact .inr ⟨rfl, by simpa using h⟩
    · cases h
  · next hij => exact .inl ⟨fun e => hij e.symm, h⟩

/-- The type of a pointer changes. -/
theorem OwnInv.retype (h : OwnInv F ptrs next live) {i : Nat} {p p' : SPtr} (hi : ptrs[i]? = some (some p))
    (hp : p'.block = p.block) : OwnInv F (ptrs.set i (some p')) next live := by
  have old : ∀ (j : Nat) (p1 : SPtr), (ptrs.set i (some p'))[j]? = some (some p1) →
      ∃ p2 : SPtr, ptrs[j]? = some (some p2) ∧ p2.block = p1.block := by
    intro j p1 hj
    rcases set_getElem? hj with ⟨-, hj⟩ | ⟨rfl, gj⟩
    · exact ⟨p1, hj, rfl⟩
    · cases gj; exact ⟨p, hi, hp.symm⟩
  refine ⟨?_, ?_, h.nodup, h.fresh, ?_⟩
  · intro a b p1 p2 h1 h2 he
    obtain ⟨q1, g1, e1⟩ := old a p1 h1
    obtain ⟨q2, g2, e2⟩ := old b p2 h2
    exact h.dist a b q1 q2 g1 g2 (by rw [e1, e2, he])
  · intro a p1 h1
    obtain ⟨q1, g1, e1⟩ := old a p1 h1
    exact e1 ▸ h.inUse a q1 g1
  · intro hF b hb
    obtain ⟨j, q, hj, he⟩ := h.owned hF b hb
    by_cases hji : j = i
    · subst hji
      rw [hi] at hj; cases hj
      exact ⟨j, p', List.getElem?_set_self (List.getElem?_eq_some_iff.mp hi).1, hp.trans he⟩
    · exact ⟨j, q, by rw [List.getElem?_set_ne (Ne.symm hji)]; exact hj, he⟩

/-- A pointer and its memory go away. -/
theorem OwnInv.drop (h : OwnInv F ptrs next live) {i : Nat} {p : SPtr} (hi : ptrs[i]? = some (some p)) :
    OwnInv F (ptrs.set i none) next (live.erase p.block) := by
  refine ⟨?_, ?_, h.nodup.erase _, fun b hb => h.fresh b (List.mem_of_mem_erase hb), ?_⟩
  · intro a b p1 p2 h1 h2 he
    rcases set_getElem? h1 with ⟨-, h1⟩ | ⟨-, g1⟩
    · rcases set_getElem? h2 with ⟨-, h2⟩ | ⟨-, g2⟩
      · exact h.dist a b p1 p2 h1 h2 he
      · cases g2
    · cases g1
  · intro a p1 h1
    rcases set_getElem? h1 with ⟨ha, h1⟩ | ⟨-, g1⟩
    · exact (h.nodup.mem_erase_iff).mpr ⟨fun e => ha (h.dist a i p1 p h1 hi e), h.inUse a p1 h1⟩
    · cases g1
  · intro hF b hb
    obtain ⟨hne, hb⟩ := (h.nodup.mem_erase_iff).mp hb
    obtain ⟨j, q, hj, he⟩ := h.owned hF b hb
    have hji : j ≠ i := by
      rintro rfl
      rw [hi] at hj; cases hj
      exact hne he.symm
    exact ⟨j, q, by rw [List.getElem?_set_ne (Ne.symm hji)]; exact hj, he⟩

/-- The memory of a pointer is replaced by new memory. -/
theorem OwnInv.realloc (h : OwnInv F ptrs next live) {i : Nat} {p p' : SPtr} (hi : ptrs[i]? = some (some p))
    (hp : p'.block = next) : OwnInv F (ptrs.set i (some p')) (next + 1) (next :: live.erase p.block) := by
  have hd := h.drop hi
  have hlt : ∀ (j : Nat) (p1 : SPtr), ptrs[j]? = some (some p1) → p1.block ≠ next := fun j p1 hj e =>
    absurd (h.fresh _ (h.inUse j p1 hj)) (by omega)
  refine ⟨?_, ?_, ?_, ?_, ?_⟩
  · intro a b p1 p2 h1 h2 he
    rcases set_getElem? h1 with ⟨-, k1⟩ | ⟨rfl, g1⟩ <;> rcases set_getElem? h2 with ⟨-, k2⟩ | ⟨rfl, g2⟩
    · exact h.dist a b p1 p2 k1 k2 he
    · cases g2; exact absurd (he.trans hp) (hlt a p1 k1)
    · cases g1; exact absurd (he.symm.trans hp) (hlt b p2 k2)
    · rfl
  · intro a p1 h1
    rcases set_getElem? h1 with ⟨ha, h1⟩ | ⟨-, g1⟩
    · refine List.mem_cons_of_mem _ (hd.inUse a p1 ?_)
      rw [List.getElem?_set_ne (Ne.symm ha)]; exact h1
    · cases g1; exact hp ▸ List.mem_cons_self
  · exact List.nodup_cons.mpr ⟨fun hm => absurd (hd.fresh _ hm) (Nat.lt_irrefl _), hd.nodup⟩
  · intro b hb
    rcases List.mem_cons.mp hb with rfl | hb
    · exact Nat.lt_succ_self _
    · exact Nat.lt_succ_of_lt (hd.fresh b hb)
  · intro hF b hb
    rcases List.mem_cons.mp hb with rfl | hb
    · exact ⟨i, p', List.getElem?_set_self (List.getElem?_eq_some_iff.mp hi).1, hp⟩
    · obtain ⟨j, q, hj, he⟩ := hd.owned hF b hb
      rcases set_getElem? hj with ⟨hji, hj⟩ | ⟨-, gj⟩
      · exact ⟨j, q, by rw [List.getElem?_set_ne (Ne.symm hji)]; exact hj, he⟩
      · cases gj

/-- A pointer is forgotten; its memory is never given back. -/
theorem OwnInv.forget (h : OwnInv F ptrs next live) (hF : ¬ F) {i : Nat} : OwnInv F (ptrs.set i none) next live := by
  refine ⟨?_, ?_, h.nodup, h.fresh, fun hF' => absurd hF' hF⟩
  · intro a b p1 p2 h1 h2 he
    rcases set_getElem? h1 with ⟨-, h1⟩ | ⟨-, g1⟩
    · rcases set_getElem? h2 with ⟨-, h2⟩ | ⟨-, g2⟩
      · exact h.dist a b p1 p2 h1 h2 he
      · cases g2
    · cases g1
  · intro a p1 h1
    rcases set_getElem? h1 with ⟨-, h1⟩ | ⟨-, g1⟩
    · exact h.inUse a p1 h1
    · cases g1

theorem OwnInv.run {o : SelOp Site} {s : SelSt} (h : OwnInv F s.ptrs s.next s.live) (ho : o.single) (hF : F → o.keeps) :
    ∃ s', o.run L choose s = .ok () s' ∧ OwnInv F s'.ptrs s'.next s'.live := by
  cases o with
  | enter k' => exact ⟨_, rfl, h⟩
  | box x t => exact ⟨_, rfl, h.grow rfl⟩
  | boxWith x t m => exact ⟨_, rfl, h.grow rfl⟩
  | alloc t q => exact ⟨_, rfl, h.grow rfl⟩
  | array t q => exact ⟨_, rfl, h.grow rfl⟩
  | fence x t => exact ⟨_, rfl, (h.grow rfl).grow rfl⟩
  | clone i => exact ho.elim
  | cast i t =>
    rcases onPtr_cases i (fun p => SelOp.put i (some (p.cast t))) s with ⟨p, hp, e⟩ | e
    · exact ⟨_, e, h.retype hp rfl⟩
    · exact ⟨_, e, h⟩
  | castToSlice i =>
    rcases onPtr_cases i (fun p => SelOp.put i (some p.castToSlice)) s with ⟨p, hp, e⟩ | e
    · exact ⟨_, e, h.retype hp rfl⟩
    · exact ⟨_, e, h⟩
  | bytes i =>
    simp only [SelOp.run]
    rcases onPtr_cases i (fun p => if p.ty = .str then SelOp.put i (some p.castStrToBytes) else pure ()) s with
      ⟨p, hp, e⟩ | e
    · rw [e]
      split
      · exact ⟨_, rfl, h.retype hp rfl⟩
      · exact ⟨_, rfl, h⟩
    · exact ⟨_, e, h⟩
  | realloc i =>
    simp only [SelOp.run, SelOp.onPtr]
    split
    · next p hp =>
      cases hty : p.ty with
      | slice t =>
        simp only [M.bind_apply, SPtr.reallocArray, if_pos (h.inUse i p hp)]
        exact ⟨_, rfl, h.realloc hp rfl⟩
      | _ => exact ⟨_, rfl, h⟩
    · exact ⟨_, rfl, h⟩
  | forget i =>
    rcases onPtr_cases i (fun _ => SelOp.put i none) s with ⟨p, hp, e⟩ | e
    · exact ⟨_, e, h.forget fun hf => (hF hf).elim⟩
    · exact ⟨_, e, h⟩
  | drop i =>
    simp only [SelOp.run, SelOp.onPtr]
    split
    · next p hp =>
      simp only [M.bind_apply, SPtr.dealloc, if_pos (h.inUse i p hp)]
      exact ⟨_, rfl, h.drop hp⟩
    · exact ⟨_, rfl, h⟩
  | selector x i =>
    rcases onPtr_cases i (fun p => M.modify fun s =>
        { s with log := s.log ++ [.told p.block (p.allocSelector L x)] }) s with ⟨p, hp, e⟩ | e
    · exact ⟨_, e, h⟩
    · exact ⟨_, e, h⟩

theorem OwnInv.runAll {os : List (SelOp Site)} {s : SelSt} (h : OwnInv F s.ptrs s.next s.live)
    (ho : ∀ o ∈ os, o.single) (hF : F → ∀ o ∈ os, o.keeps) :
    ∃ s', SelOp.runAll L choose os s = .ok () s' ∧ OwnInv F s'.ptrs s'.next s'.live := by
  induction os generalizing s with
  | nil => exact ⟨s, rfl, h⟩
  | cons o os ih =>
    obtain ⟨s1, e1, h1⟩ := h.run (L := L) (choose := choose) (ho o List.mem_cons_self) (fun hf => hF hf o List.mem_cons_self)
    obtain ⟨s2, e2, h2⟩ := ih h1 (fun o hm => ho o (List.mem_cons_of_mem _ hm)) (fun hf o hm => hF hf o (List.mem_cons_of_mem _ hm))
    exact ⟨s2, by simp only [SelOp.runAll, M.bind_apply, e1, e2], h2⟩

end Lokky
