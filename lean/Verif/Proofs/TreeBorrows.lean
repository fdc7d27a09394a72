import Verif.Model.TreeBorrows
import Verif.Proofs.Alias

/-!
# Lemmas on Tree Borrows
-/

open Lokky.Alias

namespace Lokky.TB

theorem mach_mutRef (t lo n : Nat) : (Mach.mutRef t lo n : B Nat) = refTo .reserved t lo n := rfl
theorem mach_shrRef (t lo n : Nat) : (Mach.shrRef t lo n : B Nat) = refTo .frozen t lo n := rfl
theorem mach_rawMut (t lo n : Nat) : (Mach.rawMut t lo n : B Nat) = same t := rfl
theorem mach_readAt (t lo n : Nat) : (Mach.readAt t lo n : B Unit) = access false t lo n := rfl
theorem mach_writeAt (t lo n : Nat) : (Mach.writeAt t lo n : B Unit) = access true t lo n := rfl

/-- The pointer of the block is above all, and may do anything. -/
structure Inv (s : St) : Prop where
  root : ∀ t, 0 ∈ s.path t
  act : ∀ i, s.perm i 0 = .active
  old : ∀ t u, u ∈ s.path t → u < s.next
  own : s.path 0 = [0]

theorem Inv.pos {s : St} (h : Inv s) : 0 < s.next := h.old 0 0 (h.root 0)

/-- Nobody wrote through pointer `t` or any above, and nobody else wrote. -/
def Res (s : St) (t i : Nat) : Prop :=
  s.live i = true ∧ ∀ u ∈ s.path t, u ≠ 0 → s.perm i u = .reserved

/-- Pointer `t` may write slot `i`. -/
def CanW (s : St) (t i : Nat) : Prop :=
  s.live i = true ∧ ∀ u ∈ s.path t, s.perm i u = .reserved ∨ s.perm i u = .active

/-- Pointer `t` may read slot `i`. -/
def CanR (s : St) (t i : Nat) : Prop :=
  s.live i = true ∧ ∀ u ∈ s.path t, s.perm i u ≠ .disabled

theorem Res.canW {s : St} {t i : Nat} (h : Res s t i) (hs : Inv s) : CanW s t i :=
  ⟨h.1, fun u hu => by
    by_cases h0 : u = 0
    · subst h0; exact .inr (hs.act i)
    · exact .inl (h.2 u hu h0)⟩

theorem CanW.canR {s : St} {t i : Nat} (h : CanW s t i) : CanR s t i :=
  ⟨h.1, fun u hu => by rcases h.2 u hu with e | e <;> rw [e] <;> decide⟩

theorem Inv.res_root {s : St} (h : Inv s) {i : Nat} (hi : s.live i = true) : Res s 0 i :=
  ⟨hi, fun u hu h0 => by rw [h.own] at hu; simp at hu; exact absurd hu h0⟩

/-- Slot `i` was only read: a `&mut` that had been written through may have become a `&`. -/
structure At (i : Nat) (s s' : St) : Prop where
  next : s.next ≤ s'.next
  live : s'.live = s.live
  path : ∀ t, t < s.next → s'.path t = s.path t
  perm : ∀ u, u < s.next →
    s'.perm i u = s.perm i u ∨ s.perm i u = .active ∧ s'.perm i u = .frozen

theorem At.refl (i : Nat) (s : St) : At i s s :=
  ⟨Nat.le_refl _, rfl, fun _ _ => rfl, fun _ _ => .inl rfl⟩

theorem At.trans {i : Nat} {s s' s'' : St} (h : At i s s') (h' : At i s' s'') : At i s s'' :=
  ⟨Nat.le_trans h.next h'.next, by rw [h'.live, h.live],
    fun t ht => by rw [h'.path t (Nat.lt_of_lt_of_le ht h.next), h.path t ht],
    fun u hu => by
      rcases h'.perm u (Nat.lt_of_lt_of_le hu h.next) with e' | ⟨e', f'⟩
      · rw [e']; exact h.perm u hu
      · rcases h.perm u hu with e | ⟨_, f⟩
        · exact .inr ⟨by rw [← e, e'], f'⟩
        · rw [f] at e'; cases e'⟩

/-- Only reads happened. -/
def Rd (s s' : St) : Prop := ∀ i, At i s s'

theorem Rd.next {s s' : St} (h : Rd s s') : s.next ≤ s'.next := (h 0).next
theorem Rd.live {s s' : St} (h : Rd s s') : s'.live = s.live := (h 0).live
theorem Rd.path {s s' : St} (h : Rd s s') : ∀ t, t < s.next → s'.path t = s.path t := (h 0).path

theorem Rd.refl (s : St) : Rd s s := fun i => At.refl i s

theorem Rd.trans {s s' s'' : St} (h : Rd s s') (h' : Rd s' s'') : Rd s s'' :=
  fun i => (h i).trans (h' i)

theorem Res.at {s s' : St} {t i : Nat} (h : Res s t i) (hs : Inv s) (ht : t < s.next)
    (hr : At i s s') : Res s' t i :=
  ⟨by rw [hr.live]; exact h.1, fun u hu h0 => by
    rw [hr.path t ht] at hu
    rcases hr.perm u (hs.old t u hu) with e | ⟨e, _⟩
    · rw [e]; exact h.2 u hu h0
    · rw [h.2 u hu h0] at e; cases e⟩

theorem CanR.at {s s' : St} {t i : Nat} (h : CanR s t i) (hs : Inv s) (ht : t < s.next)
    (hr : At i s s') : CanR s' t i :=
  ⟨by rw [hr.live]; exact h.1, fun u hu => by
    rw [hr.path t ht] at hu
    rcases hr.perm u (hs.old t u hu) with e | ⟨_, e⟩
    · rw [e]; exact h.2 u hu
    · rw [e]; decide⟩

theorem Res.rd {s s' : St} {t i : Nat} (h : Res s t i) (hs : Inv s) (ht : t < s.next)
    (hr : Rd s s') : Res s' t i := h.at hs ht (hr i)

theorem CanR.rd {s s' : St} {t i : Nat} (h : CanR s t i) (hs : Inv s) (ht : t < s.next)
    (hr : Rd s s') : CanR s' t i := h.at hs ht (hr i)

/-- Only these slots changed. -/
structure Wr (lo n : Nat) (s s' : St) : Prop where
  next : s'.next = s.next
  live : s'.live = s.live
  path : s'.path = s.path
  perm : ∀ i u, ¬ (lo ≤ i ∧ i < lo + n) → s'.perm i u = s.perm i u

theorem Wr.at {s s' : St} {lo n i : Nat} (h : Wr lo n s s') (hi : ¬ (lo ≤ i ∧ i < lo + n)) :
    At i s s' :=
  ⟨Nat.le_of_eq h.next.symm, h.live, fun t _ => by rw [h.path], fun u _ => .inl (h.perm i u hi)⟩

theorem Res.wr {s s' : St} {t i lo n : Nat} (h : Res s t i) (hw : Wr lo n s s')
    (hi : ¬ (lo ≤ i ∧ i < lo + n)) : Res s' t i :=
  ⟨by rw [hw.live]; exact h.1, fun u hu h0 => by
    rw [hw.path] at hu
    rw [hw.perm i u hi]
    exact h.2 u hu h0⟩

theorem CanR.wr {s s' : St} {t i lo n : Nat} (h : CanR s t i) (hw : Wr lo n s s')
    (hi : ¬ (lo ≤ i ∧ i < lo + n)) : CanR s' t i :=
  ⟨by rw [hw.live]; exact h.1, fun u hu => by
    rw [hw.path] at hu
    rw [hw.perm i u hi]
    exact h.2 u hu⟩

theorem CanW.wr {s s' : St} {t i lo n : Nat} (h : CanW s t i) (hw : Wr lo n s s')
    (hi : ¬ (lo ≤ i ∧ i < lo + n)) : CanW s' t i :=
  ⟨by rw [hw.live]; exact h.1, fun u hu => by
    rw [hw.path] at hu
    rw [hw.perm i u hi]
    exact h.2 u hu⟩

/-! ## Accesses -/

theorem grants_iff {s : St} {w : Bool} {t lo n : Nat} :
    s.grants w t lo n = true ↔ ∀ i, lo ≤ i → i < lo + n →
      s.live i = true ∧ ∀ u ∈ s.path t, (s.perm i u).allows w = true := by
  simp only [St.grants, List.all_eq_true, List.mem_range, Bool.and_eq_true]
  constructor
  · intro h i hl hu
    have := h (i - lo) (by omega)
    rwa [show lo + (i - lo) = i from by omega] at this
  · intro h k hk
    exact h (lo + k) (by omega) (by omega)

theorem within_iff {lo n i : Nat} : within lo n i = true ↔ lo ≤ i ∧ i < lo + n := by
  simp [within]

theorem after_in {s : St} {w : Bool} {t lo n i u : Nat} (hi : lo ≤ i ∧ i < lo + n)
    (hu : u ∈ s.path t) : (s.after w t lo n).perm i u = (s.perm i u).own w := by
  simp [St.after, within_iff.2 hi, hu]

theorem after_other {s : St} {w : Bool} {t lo n i u : Nat} (hi : lo ≤ i ∧ i < lo + n)
    (hu : u ∉ s.path t) : (s.after w t lo n).perm i u = (s.perm i u).other w := by
  simp [St.after, within_iff.2 hi, hu]

theorem after_out {s : St} {w : Bool} {t lo n i u : Nat} (hi : ¬ (lo ≤ i ∧ i < lo + n)) :
    (s.after w t lo n).perm i u = s.perm i u := by
  have : within lo n i = false := by
    cases e : within lo n i with
    | false => rfl
    | true => exact absurd (within_iff.1 e) hi
  simp [St.after, this]

theorem Inv.after {s : St} (h : Inv s) (w : Bool) (t lo n : Nat) : Inv (s.after w t lo n) where
  root := h.root
  act i := by
    by_cases hi : lo ≤ i ∧ i < lo + n
    · rw [after_in hi (h.root t), h.act]; rfl
    · rw [after_out hi, h.act]
  old := h.old
  own := h.own

theorem own_read (p : Perm) : p.own false = p := by cases p <;> rfl

theorem rd_after (s : St) (t lo n : Nat) : Rd s (s.after false t lo n) := fun i =>
  ⟨Nat.le_refl _, rfl, fun _ _ => rfl, fun u _ => by
    by_cases hi : lo ≤ i ∧ i < lo + n
    · by_cases hu : u ∈ s.path t
      · rw [after_in hi hu, own_read]; exact .inl rfl
      · rw [after_other hi hu]
        cases s.perm i u
        · exact .inl rfl
        · exact .inr ⟨rfl, rfl⟩
        · exact .inl rfl
        · exact .inl rfl
    · rw [after_out hi]; exact .inl rfl⟩

theorem wr_after (s : St) (w : Bool) (t lo n : Nat) : Wr lo n s (s.after w t lo n) :=
  ⟨rfl, rfl, rfl, fun _ _ hi => after_out hi⟩

/-- Reading. -/
theorem Inv.readAt {s : St} (h : Inv s) {t lo n : Nat}
    (hc : ∀ i, lo ≤ i → i < lo + n → CanR s t i) :
    ∃ s', Mach.readAt t lo n s = some ((), s') ∧ Inv s' ∧ Rd s s' ∧ s'.next = s.next ∧
      ∀ i, CanW s t i → CanW s' t i := by
  have hg : s.grants false t lo n = true := grants_iff.2 fun i hl hu =>
    ⟨(hc i hl hu).1, fun u hp => by
      have := (hc i hl hu).2 u hp
      revert this
      cases s.perm i u <;> decide⟩
  refine ⟨s.after false t lo n, by simp only [mach_readAt, access, hg, if_true], h.after _ _ _ _,
    rd_after _ _ _ _, rfl, fun i hw => ⟨hw.1, fun u hu => ?_⟩⟩
  have hu : u ∈ s.path t := hu
  by_cases hi : lo ≤ i ∧ i < lo + n
  · rw [after_in hi hu, own_read]; exact hw.2 u hu
  · rw [after_out hi]; exact hw.2 u hu

/-- Writing. -/
theorem Inv.writeAt {s : St} (h : Inv s) {t lo n : Nat}
    (hc : ∀ i, lo ≤ i → i < lo + n → CanW s t i) :
    ∃ s', Mach.writeAt t lo n s = some ((), s') ∧ Inv s' ∧ Wr lo n s s' ∧
      ∀ i, CanW s t i → CanW s' t i := by
  have hg : s.grants true t lo n = true := grants_iff.2 fun i hl hu =>
    ⟨(hc i hl hu).1, fun u hp => by
      rcases (hc i hl hu).2 u hp with e | e <;> rw [e] <;> rfl⟩
  refine ⟨s.after true t lo n, by simp only [mach_writeAt, access, hg, if_true], h.after _ _ _ _,
    wr_after _ _ _ _ _, fun i hw => ⟨hw.1, fun u hu => ?_⟩⟩
  have hu : u ∈ s.path t := hu
  by_cases hi : lo ≤ i ∧ i < lo + n
  · rw [after_in hi hu]
    rcases hw.2 u hu with e | e <;> rw [e] <;> exact .inr rfl
  · rw [after_out hi]; exact hw.2 u hu

/-- Making a reference. -/
theorem Inv.refTo {s : St} (h : Inv s) {p : Perm} (hp : p = .reserved ∨ p = .frozen) {t lo n : Nat}
    (hc : ∀ i, lo ≤ i → i < lo + n → CanR s t i) :
    ∃ s', TB.refTo p t lo n s = some (s.next, s') ∧ Inv s' ∧ Rd s s' ∧ s'.next = s.next + 1 ∧
      s'.path s.next = s.next :: s.path t ∧ (∀ i, s'.perm i s.next = p) ∧
      (∀ i u, u ∈ s.path t → s'.perm i u = s.perm i u) ∧
      ∀ i u, lo ≤ i → i < lo + n → u < s.next → u ∉ s.path t → s'.perm i u ≠ .active := by
  have hn : ∀ v u, u ∈ s.path v → u ≠ s.next := fun v u hu => Nat.ne_of_lt (h.old v u hu)
  let s1 : St := { s with
    path := fun u => if u = s.next then s.next :: s.path t else s.path u
    perm := fun i u => if u = s.next then p else s.perm i u
    next := s.next + 1 }
  have h1 : Inv s1 := by
    refine ⟨fun v => ?_, fun i => ?_, fun v u hu => ?_, ?_⟩
    · show 0 ∈ if v = s.next then s.next :: s.path t else s.path v
      split
      · exact List.mem_cons_of_mem _ (h.root t)
      · exact h.root v
    · show (if 0 = s.next then p else s.perm i 0) = _
      rw [if_neg (Nat.ne_of_lt h.pos)]
      exact h.act i
    · have hu : u ∈ if v = s.next then s.next :: s.path t else s.path v := hu
      show u < s.next + 1
      split at hu
      · rcases List.mem_cons.1 hu with rfl | hu
        · exact Nat.lt_succ_self _
        · exact Nat.lt_succ_of_lt (h.old t u hu)
      · exact Nat.lt_succ_of_lt (h.old v u hu)
    · show (if 0 = s.next then s.next :: s.path t else s.path 0) = _
      rw [if_neg (Nat.ne_of_lt h.pos)]
      exact h.own
  have hp1 : s1.path s.next = s.next :: s.path t := by
    show (if s.next = s.next then _ else _) = _
    rw [if_pos rfl]
  have hd : p ≠ .disabled := by rcases hp with rfl | rfl <;> decide
  have hpn : ∀ i, s1.perm i s.next = p := fun i => by
    show (if s.next = s.next then p else _) = p
    rw [if_pos rfl]
  have hpo : ∀ i u, u ≠ s.next → s1.perm i u = s.perm i u := fun i u hu => by
    show (if u = s.next then p else _) = _
    rw [if_neg hu]
  have r1 : Rd s s1 := fun i => by
    refine ⟨Nat.le_succ _, rfl, fun v hv => ?_, fun u hu => .inl (hpo i u (Nat.ne_of_lt hu))⟩
    show (if v = s.next then _ else _) = _
    rw [if_neg (Nat.ne_of_lt hv)]
  have hc1 : ∀ i, lo ≤ i → i < lo + n → CanR s1 s.next i := fun i hl hu =>
    ⟨(hc i hl hu).1, fun u hm => by
      rw [hp1] at hm
      rcases List.mem_cons.1 hm with rfl | hm
      · rw [hpn]; exact hd
      · rw [hpo i u (hn t u hm)]; exact (hc i hl hu).2 u hm⟩
  have hg : s1.grants false s.next lo n = true := grants_iff.2 fun i hl hu =>
    ⟨(hc1 i hl hu).1, fun u hm => by
      have := (hc1 i hl hu).2 u hm
      revert this
      cases s1.perm i u <;> decide⟩
  have e2 : access false s.next lo n s1 = some ((), s1.after false s.next lo n) := by
    simp only [access, hg, if_true]
  have stay : ∀ i u, u ∈ s1.path s.next → (s1.after false s.next lo n).perm i u = s1.perm i u :=
    fun i u hu => by
      by_cases hi : lo ≤ i ∧ i < lo + n
      · rw [after_in hi hu, own_read]
      · rw [after_out hi]
  refine ⟨s1.after false s.next lo n, ?_, h1.after _ _ _ _, r1.trans (rd_after _ _ _ _), rfl, hp1,
    fun i => ?_, fun i u hu => ?_, fun i u hl hu hx hp => ?_⟩
  · have e1 : child t p s = some (s.next, s1) := rfl
    simp only [TB.refTo]
    rw [bind_some e1, bind_some e2]
    rfl
  · rw [stay i _ (by rw [hp1]; exact List.mem_cons_self ..), hpn]
  · rw [stay i u (by rw [hp1]; exact List.mem_cons_of_mem _ hu), hpo i u (hn t u hu)]
  · have hx' : u ≠ s.next := Nat.ne_of_lt hx
    have : u ∉ s1.path s.next := by
      rw [hp1]
      intro hm
      rcases List.mem_cons.1 hm with hm | hm
      · exact hx' hm
      · exact hp hm
    rw [after_other ⟨hl, hu⟩ this]
    cases s1.perm i u <;> decide

/-- Making a `&mut`. -/
theorem Inv.mutRef {s : St} (h : Inv s) {t lo n : Nat}
    (hc : ∀ i, lo ≤ i → i < lo + n → CanR s t i) :
    ∃ s', Mach.mutRef t lo n s = some (s.next, s') ∧ Inv s' ∧ Rd s s' ∧ s'.next = s.next + 1 ∧
      (∀ i, Res s t i → Res s' s.next i) ∧ (∀ i, CanW s t i → CanW s' s.next i) ∧
      (∀ i, CanR s t i → CanR s' s.next i) ∧ s'.path s.next = s.next :: s.path t ∧
      ∀ i u, lo ≤ i → i < lo + n → u < s.next → u ∉ s.path t → s'.perm i u ≠ .active := by
  obtain ⟨s', e, h', r, hn, hp, hq, ho, hx⟩ := h.refTo (.inl rfl) hc
  refine ⟨s', e, h', r, hn, fun i hr => ⟨by rw [r.live]; exact hr.1, fun u hu h0 => ?_⟩,
    fun i hr => ⟨by rw [r.live]; exact hr.1, fun u hu => ?_⟩,
    fun i hr => ⟨by rw [r.live]; exact hr.1, fun u hu => ?_⟩, hp, hx⟩
  · rw [hp] at hu
    rcases List.mem_cons.1 hu with rfl | hu
    · exact hq i
    · rw [ho i u hu]; exact hr.2 u hu h0
  · rw [hp] at hu
    rcases List.mem_cons.1 hu with rfl | hu
    · exact .inl (hq i)
    · rw [ho i u hu]; exact hr.2 u hu
  · rw [hp] at hu
    rcases List.mem_cons.1 hu with rfl | hu
    · rw [hq i]; decide
    · rw [ho i u hu]; exact hr.2 u hu

/-- Making a `&`. -/
theorem Inv.shrRef {s : St} (h : Inv s) {t lo n : Nat}
    (hc : ∀ i, lo ≤ i → i < lo + n → CanR s t i) :
    ∃ s', Mach.shrRef t lo n s = some (s.next, s') ∧ Inv s' ∧ Rd s s' ∧ s'.next = s.next + 1 ∧
      ∀ i, CanR s t i → CanR s' s.next i := by
  obtain ⟨s', e, h', r, hn, hp, hq, ho, _⟩ := h.refTo (.inr rfl) hc
  refine ⟨s', e, h', r, hn, fun i hr => ⟨by rw [r.live]; exact hr.1, fun u hu => ?_⟩⟩
  rw [hp] at hu
  rcases List.mem_cons.1 hu with rfl | hu
  · rw [hq i]; decide
  · rw [ho i u hu]; exact hr.2 u hu

/-- Making a raw pointer. -/
theorem Inv.rawMut {s : St} (h : Inv s) {t lo n : Nat} :
    ∃ s', Mach.rawMut t lo n s = some (s.next, s') ∧ Inv s' ∧ Rd s s' ∧ s'.next = s.next + 1 ∧
      (∀ i, Res s t i → Res s' s.next i) ∧ (∀ i, CanW s t i → CanW s' s.next i) ∧
      (∀ i, CanR s t i → CanR s' s.next i) ∧ s'.path s.next = s.path t := by
  let s1 : St := { s with
    path := fun u => if u = s.next then s.path t else s.path u
    next := s.next + 1 }
  have hp1 : s1.path s.next = s.path t := by
    show (if s.next = s.next then _ else _) = _
    rw [if_pos rfl]
  refine ⟨s1, rfl, ⟨fun v => ?_, h.act, fun v u hu => ?_, ?_⟩,
    fun i => ⟨Nat.le_succ _, rfl, fun v hv => ?_, fun _ _ => .inl rfl⟩, rfl,
    fun i hr => ⟨hr.1, fun u hu h0 => ?_⟩, fun i hr => ⟨hr.1, fun u hu => ?_⟩,
    fun i hr => ⟨hr.1, fun u hu => ?_⟩, hp1⟩
  · show 0 ∈ if v = s.next then s.path t else s.path v
    split
    · exact h.root t
    · exact h.root v
  · have hu : u ∈ if v = s.next then s.path t else s.path v := hu
    show u < s.next + 1
    split at hu
    · exact Nat.lt_succ_of_lt (h.old t u hu)
    · exact Nat.lt_succ_of_lt (h.old v u hu)
  · show (if 0 = s.next then s.path t else s.path 0) = _
    rw [if_neg (Nat.ne_of_lt h.pos)]
    exact h.own
  · show (if v = s.next then _ else _) = _
    rw [if_neg (Nat.ne_of_lt hv)]
  · rw [hp1] at hu; exact hr.2 u hu h0
  · rw [hp1] at hu; exact hr.2 u hu
  · rw [hp1] at hu; exact hr.2 u hu

theorem inv_fresh (cap : Nat) : Inv (fresh cap) where
  root _ := List.mem_singleton.2 rfl
  act _ := rfl
  old _ u hu := by simp [fresh] at hu; subst hu; exact Nat.one_pos
  own := rfl

end Lokky.TB
