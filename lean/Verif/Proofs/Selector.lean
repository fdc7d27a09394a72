import Verif.Spec.Selector

/-! Lemmas about pointers and selectors. -/

namespace Lokky
variable {Site : Type} {L : Linked Site PTy} {choose : Nat → AllocSelector → Nat}

/-- The memory that an event is the beginning of. -/
def SelEv.born : SelEv → Option Nat
  | .got _ _ _ b => some b
  | .regot _ _ b => some b
  | _ => none

/-- The event may follow the log. -/
def EvOk (L : Linked Site PTy) (choose : Nat → AllocSelector → Nat) (S : Prop) (k : Nat) (log : List SelEv) : SelEv → Prop
  | .entered _ => True
  | .got k' q a b => k' = scopeAfter k log ∧ a = choose k' q ∧ ∀ e ∈ log, e.born ≠ some b
  | .regot a b b' => (∃ q, Given log b q a) ∧ ∀ e ∈ log, e.born ≠ some b'
  | .back a b => ∃ q, Given log b q a
  | .told b q' => ∃ q a, Given log b q a ∧ q'.marker = q.marker ∧ (S → ∃ x y t, q' = L.selector x t q.marker ∧ q.ty = L.typeName y t)

def LogOk (L : Linked Site PTy) (choose : Nat → AllocSelector → Nat) (S : Prop) (k : Nat) (log : List SelEv) : Prop :=
  ∀ pre e post, log = pre ++ e :: post → EvOk L choose S k pre e

theorem LogOk.snoc {S : Prop} {k : Nat} {log : List SelEv} {e : SelEv} (h : LogOk L choose S k log)
    (he : EvOk L choose S k log e) : LogOk L choose S k (log ++ [e]) := by
  intro pre e' post hh
  rcases List.eq_nil_or_concat post with rfl | ⟨post', e'', rfl⟩
  · have := List.append_inj' hh rfl
    obtain ⟨h1, h2⟩ := this
    simp only [List.cons.injEq, and_true] at h2
    subst h1; subst h2
    exact he
  · rw [List.concat_eq_append, ← List.cons_append, ← List.append_assoc] at hh
    obtain ⟨h1, -⟩ := List.append_inj' hh rfl
    exact h pre e' post' h1

theorem Given.mono {l : List SelEv} {e : SelEv} {b : Nat} {q : AllocSelector} {a : Nat} (h : Given l b q a) :
    Given (l ++ [e]) b q a := by
  induction h with
  | got h => exact .got (List.mem_append_left _ h)
  | regot h _ ih => exact .regot (List.mem_append_left _ h) ih

theorem Given.born {l : List SelEv} {b : Nat} {q : AllocSelector} {a : Nat} (h : Given l b q a) :
    ∃ e ∈ l, e.born = some b := by
  cases h with
  | got h => exact ⟨_, h, rfl⟩
  | regot h _ => exact ⟨_, h, rfl⟩

/-- What is known of a pointer. -/
def POk (L : Linked Site PTy) (S : Prop) (log : List SelEv) (p : SPtr) : Prop :=
  ∃ q, Given log p.block q p.alloc ∧ p.marker = q.marker ∧ (S → ∃ y, q.ty = L.typeName y p.ty)

/-- What is known of a state. -/
structure SelInv (L : Linked Site PTy) (choose : Nat → AllocSelector → Nat) (S : Prop) (k : Nat) (s : SelSt) : Prop where
  log : LogOk L choose S k s.log
  cur : s.cur = scopeAfter k s.log
  fresh : ∀ e ∈ s.log, ∀ b, e.born = some b → b < s.next
  ptrs : ∀ p, some p ∈ s.ptrs → POk L S s.log p

variable {S : Prop} {k : Nat}

theorem POk.mono {l : List SelEv} {e : SelEv} {p : SPtr} (h : POk L S l p) : POk L S (l ++ [e]) p := by
  obtain ⟨q, hg, hm, ht⟩ := h
  exact ⟨q, hg.mono, hm, ht⟩

theorem SelInv.start (L : Linked Site PTy) (choose : Nat → AllocSelector → Nat) (S : Prop) (k : Nat) :
    SelInv L choose S k (SelSt.start k) :=
  ⟨by intro pre e post h; simp [SelSt.start] at h, rfl, by simp [SelSt.start], by simp [SelSt.start]⟩

theorem scopeAfter_snoc (k : Nat) (l : List SelEv) (e : SelEv) (h : ∀ k', e ≠ .entered k') :
    scopeAfter k (l ++ [e]) = scopeAfter k l := by
  cases e <;> simp_all [scopeAfter, List.foldl_append]

/-- A new pointer. -/
theorem SelInv.alloc {s : SelSt} (h : SelInv L choose S k s) (t : PTy) (q : AllocSelector)
    (ht : S → ∃ y, q.ty = L.typeName y t) :
    ∃ p s', SPtr.allocLayout choose t q s = .ok p s' ∧ SelInv L choose S k s' ∧ POk L S s'.log p ∧
      (∀ p', POk L S s.log p' → POk L S s'.log p') ∧ p.ty = t ∧ s'.ptrs = s.ptrs ∧
      p.block = s.next ∧ s'.next = s.next + 1 ∧ s'.live = s.next :: s.live := by
  refine ⟨_, _, rfl, ⟨?_, ?_, ?_, ?_⟩, ?_, fun p' hp => hp.mono, rfl, rfl, rfl, rfl, rfl⟩
  · refine h.log.snoc ⟨h.cur, rfl, ?_⟩
    intro e he hb
    exact absurd (h.fresh e he _ hb) (Nat.lt_irrefl _)
  · rw [scopeAfter_snoc _ _ _ (by simp)]
    exact h.cur
  · intro e he b hb
    rcases List.mem_append.mp he with he | he
    · exact Nat.lt_succ_of_lt (h.fresh e he b hb)
    · simp only [List.mem_singleton] at he
      subst he
      simp only [SelEv.born, Option.some.injEq] at hb
      subst hb
      exact Nat.lt_succ_self _
  · intro p hp
    exact (h.ptrs p hp).mono
  · exact ⟨q, .got (List.mem_append_right _ (List.mem_singleton.mpr rfl)), rfl, ht⟩

theorem SelInv.keep {s : SelSt} (h : SelInv L choose S k s) {p : SPtr} (hp : POk L S s.log p) :
    SelInv L choose S k { s with ptrs := s.ptrs ++ [some p] } := by
  refine ⟨h.log, h.cur, h.fresh, ?_⟩
  intro p' hp'
  rcases List.mem_append.mp hp' with h' | h'
  · exact h.ptrs p' h'
  · simp only [List.mem_singleton, Option.some.injEq] at h'
    subst h'; exact hp

theorem SelInv.put {s : SelSt} (h : SelInv L choose S k s) {i : Nat} {p : Option SPtr}
    (hp : ∀ p', p = some p' → POk L S s.log p') :
    SelInv L choose S k { s with ptrs := s.ptrs.set i p } := by
  refine ⟨h.log, h.cur, h.fresh, ?_⟩
  intro p' hp'
  rcases List.mem_or_eq_of_mem_set hp' with h' | h'
  · exact h.ptrs p' h'
  · exact hp p' h'.symm

/-- A log grows by an event at which no memory begins. -/
theorem SelInv.event {s : SelSt} (h : SelInv L choose S k s) {e : SelEv} (he : EvOk L choose S k s.log e)
    (hb : e.born = none) (hk : ∀ k', e ≠ .entered k') (live : List Nat) :
    SelInv L choose S k { s with live := live, log := s.log ++ [e] } := by
  refine ⟨h.log.snoc he, ?_, ?_, fun p hp => (h.ptrs p hp).mono⟩
  · rw [scopeAfter_snoc _ _ _ hk]
    exact h.cur
  · intro e' he' b hb'
    rcases List.mem_append.mp he' with he' | he'
    · exact h.fresh e' he' b hb'
    · simp only [List.mem_singleton] at he'
      subst he'
      rw [hb] at hb'
      cases hb'

theorem SelInv.getPtr {s : SelSt} (h : SelInv L choose S k s) {i : Nat} {p : SPtr} (hp : s.ptrs[i]? = some (some p)) :
    POk L S s.log p := h.ptrs p (List.mem_of_getElem? hp)

theorem onPtr_cases (i : Nat) (f : SPtr → M SelSt Unit) (s : SelSt) :
    (∃ p, s.ptrs[i]? = some (some p) ∧ SelOp.onPtr i f s = f p s) ∨ SelOp.onPtr i f s = .ok () s := by
  unfold SelOp.onPtr
  split
  · next p hp => exact .inl ⟨p, hp, rfl⟩
  · exact .inr rfl

theorem SelInv.run {o : SelOp Site} {s s' : SelSt} (h : SelInv L choose S k s) (hS : S → o.typed)
    (hr : o.run L choose s = .ok () s') : SelInv L choose S k s' := by
  cases o with
  | enter k' =>
    simp only [SelOp.run, M.modify_apply, Res.ok.injEq, true_and] at hr
    subst hr
    refine ⟨h.log.snoc trivial, ?_, ?_, fun p hp => (h.ptrs p hp).mono⟩
    · simp [scopeAfter, List.foldl_append]
    · intro e' he' b hb'
      rcases List.mem_append.mp he' with he' | he'
      · exact h.fresh e' he' b hb'
      · simp only [List.mem_singleton] at he'
        subst he'
        cases hb'
  | box x t =>
    obtain ⟨p, s1, e, h1, hp, -, -, -⟩ := h.alloc t (L.plain x t) (fun _ => ⟨x, rfl⟩)
    simp only [SelOp.run, SPtr.boxNew, SPtr.make, M.bind_apply, e, SelOp.keep, M.modify_apply, Res.ok.injEq, true_and] at hr
    subst hr
    exact h1.keep hp
  | boxWith x t m =>
    obtain ⟨p, s1, e, h1, hp, -, -, -⟩ := h.alloc t (L.selector x t m) (fun _ => ⟨x, rfl⟩)
    simp only [SelOp.run, SPtr.boxNewWith, SPtr.make, M.bind_apply, e, SelOp.keep, M.modify_apply, Res.ok.injEq, true_and] at hr
    subst hr
    exact h1.keep hp
  | alloc t q =>
    obtain ⟨p, s1, e, h1, hp, -, -, -⟩ := h.alloc t q (fun hs => (hS hs).elim)
    simp only [SelOp.run, SPtr.make, M.bind_apply, e, SelOp.keep, M.modify_apply, Res.ok.injEq, true_and] at hr
    subst hr
    exact h1.keep hp
  | array t q =>
    obtain ⟨p, s1, e, h1, hp, -, -, -⟩ := h.alloc t q (fun hs => (hS hs).elim)
    simp only [SelOp.run, SPtr.allocArrayUninit, M.bind_apply, e, M.pure_apply, SelOp.keep, M.modify_apply, Res.ok.injEq,
      true_and] at hr
    subst hr
    obtain ⟨q', hg, hm, ht⟩ := hp
    exact h1.keep (p := p.castToSlice) ⟨q', hg, hm, fun hs => (hS hs).elim⟩
  | fence x t =>
    obtain ⟨p, s1, e, h1, hp, -, -, -⟩ := h.alloc (.master t) (L.plain x (.master t)) (fun _ => ⟨x, rfl⟩)
    obtain ⟨p2, s2, e2, h2, hp2, hk, -, -⟩ := h1.alloc (.fence t) (L.plain x t) (fun hs => (hS hs).elim)
    simp only [SelOp.run, SPtr.urcFence, SPtr.make, M.bind_apply, e, e2, M.pure_apply, SelOp.keep, M.modify_apply,
      Res.ok.injEq, true_and] at hr
    subst hr
    exact (h2.keep (hk p hp)).keep hp2
  | cast i t =>
    rcases onPtr_cases i (fun p => SelOp.put i (some (p.cast t))) s with ⟨p, hp, e⟩ | e <;>
      simp only [SelOp.run] at hr <;> rw [e] at hr <;>
      simp only [SelOp.put, M.modify_apply, Res.ok.injEq, true_and] at hr <;> subst hr
    · obtain ⟨q', hg, hm, ht⟩ := h.getPtr hp
      refine h.put ?_
      rintro p' ⟨⟩
      exact ⟨q', hg, hm, fun hs => (hS hs).elim⟩
    · exact h
  | castToSlice i =>
    rcases onPtr_cases i (fun p => SelOp.put i (some p.castToSlice)) s with ⟨p, hp, e⟩ | e <;>
      simp only [SelOp.run] at hr <;> rw [e] at hr <;>
      simp only [SelOp.put, M.modify_apply, Res.ok.injEq, true_and] at hr <;> subst hr
    · obtain ⟨q', hg, hm, ht⟩ := h.getPtr hp
      refine h.put ?_
      rintro p' ⟨⟩
      exact ⟨q', hg, hm, fun hs => (hS hs).elim⟩
    · exact h
  | bytes i =>
    rcases onPtr_cases i (fun p => if p.ty = .str then SelOp.put i (some p.castStrToBytes) else pure ()) s with
      ⟨p, hp, e⟩ | e <;> simp only [SelOp.run] at hr <;> rw [e] at hr
    · split at hr
      · simp only [SelOp.put, M.modify_apply, Res.ok.injEq, true_and] at hr
        subst hr
        obtain ⟨q', hg, hm, ht⟩ := h.getPtr hp
        refine h.put ?_
        rintro p' ⟨⟩
        exact ⟨q', hg, hm, fun hs => (hS hs).elim⟩
      · simp only [M.pure_apply, Res.ok.injEq, true_and] at hr
        subst hr; exact h
    · simp only [Res.ok.injEq, true_and] at hr
      subst hr; exact h
  | clone i =>
    rcases onPtr_cases i (fun p => SelOp.keep p.clone) s with ⟨p, hp, e⟩ | e <;>
      simp only [SelOp.run] at hr <;> rw [e] at hr <;>
      simp only [SelOp.keep, M.modify_apply, Res.ok.injEq, true_and] at hr <;> subst hr
    · exact h.keep (p := p.clone) (h.getPtr hp)
    · exact h
  | realloc i =>
    simp only [SelOp.run, SelOp.onPtr] at hr
    split at hr
    · next p hp =>
      have hcases : (∃ t, p.ty = .slice t) ∨ s' = s := by
        cases hty : p.ty with
        | slice t => exact .inl ⟨t, rfl⟩
        | _ =>
          rw [hty] at hr
          simp only [M.pure_apply, Res.ok.injEq, true_and] at hr
          exact .inr hr.symm
      rcases hcases with ⟨t', ht'⟩ | rfl
      · rw [ht'] at hr
        simp only [M.bind_apply, SPtr.reallocArray] at hr
        split at hr
        · next a s1 e1 =>
          split at e1
          · simp only [Res.ok.injEq] at e1
            obtain ⟨rfl, rfl⟩ := e1
            simp only [SelOp.put, M.modify_apply, Res.ok.injEq, true_and] at hr
            subst hr
            obtain ⟨q', hg, hm, ht⟩ := h.getPtr hp
            refine SelInv.put (s := ⟨s.cur, s.ptrs, s.next + 1, s.next :: s.live.erase p.block,
              s.log ++ [.regot p.alloc p.block s.next]⟩) ⟨?_, ?_, ?_, ?_⟩ ?_
            · refine h.log.snoc ⟨⟨q', hg⟩, ?_⟩
              intro e he hb
              exact absurd (h.fresh e he _ hb) (Nat.lt_irrefl _)
            · rw [scopeAfter_snoc _ _ _ (by simp)]
              exact h.cur
            · intro e he b hb
              rcases List.mem_append.mp he with he | he
              · exact Nat.lt_succ_of_lt (h.fresh e he b hb)
              · simp only [List.mem_singleton] at he
                subst he
                simp only [SelEv.born, Option.some.injEq] at hb
                subst hb
                exact Nat.lt_succ_self _
            · intro p' hp'
              exact (h.ptrs p' hp').mono
            · rintro p' ⟨⟩
              exact ⟨q', .regot (List.mem_append_right _ (List.mem_singleton.mpr rfl)) hg.mono, hm, ht⟩
          · cases e1
        all_goals cases hr
      · exact h
    · simp only [Res.ok.injEq, true_and] at hr
      subst hr; exact h
  | forget i =>
    rcases onPtr_cases i (fun _ => SelOp.put i none) s with ⟨p, hp, e⟩ | e <;>
      simp only [SelOp.run] at hr <;> rw [e] at hr <;>
      simp only [SelOp.put, M.modify_apply, Res.ok.injEq, true_and] at hr <;> subst hr
    · exact h.put (by intro p' h'; cases h')
    · exact h
  | drop i =>
    simp only [SelOp.run, SelOp.onPtr] at hr
    split at hr
    · next p hp =>
      simp only [M.bind_apply, SPtr.dealloc] at hr
      split at hr
      · next a s1 e1 =>
        split at e1
        · simp only [Res.ok.injEq, true_and] at e1
          subst e1
          simp only [SelOp.put, M.modify_apply, Res.ok.injEq, true_and] at hr
          subst hr
          obtain ⟨q', hg, hm, ht⟩ := h.getPtr hp
          exact (h.event (e := .back p.alloc p.block) ⟨q', hg⟩ rfl (by simp) _).put (by intro p' h'; cases h')
        · cases e1
      all_goals cases hr
    · simp only [Res.ok.injEq, true_and] at hr
      subst hr; exact h
  | selector x i =>
    rcases onPtr_cases i (fun p => M.modify fun s =>
        { s with log := s.log ++ [.told p.block (p.allocSelector L x)] }) s with ⟨p, hp, e⟩ | e <;>
      simp only [SelOp.run] at hr <;> rw [e] at hr <;>
      simp only [M.modify_apply, Res.ok.injEq, true_and] at hr <;> subst hr
    · obtain ⟨q', hg, hm, ht⟩ := h.getPtr hp
      refine h.event (e := .told p.block (p.allocSelector L x)) ⟨q', _, hg, hm, ?_⟩ rfl (by simp) s.live
      intro hs
      obtain ⟨y, hy⟩ := ht hs
      exact ⟨x, y, p.ty, by simp only [SPtr.allocSelector, SPtr.getMarker, hm], hy⟩
    · exact h

theorem SelInv.runAll {os : List (SelOp Site)} {s s' : SelSt} (h : SelInv L choose S k s) (hS : S → ∀ o ∈ os, o.typed)
    (hr : SelOp.runAll L choose os s = .ok () s') : SelInv L choose S k s' := by
  induction os generalizing s with
  | nil =>
    simp only [SelOp.runAll, M.pure_apply, Res.ok.injEq, true_and] at hr
    subst hr; exact h
  | cons o os ih =>
    simp only [SelOp.runAll, M.bind_apply] at hr
    split at hr
    · next s1 e1 =>
      exact ih (h.run (fun hs => hS hs o List.mem_cons_self) e1) (fun hs o ho => hS hs o (List.mem_cons_of_mem _ ho)) hr
    all_goals cases hr

end Lokky
