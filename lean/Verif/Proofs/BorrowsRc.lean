import Verif.Proofs.AliasRc
import Verif.Proofs.BorrowsVec

/-!
# Lemmas on the pointers of `Rc`, `Arc` and `Urc`
-/

open Lokky.Alias

namespace Lokky.SB

/-! ## Counters -/

/-- The item of the handles' pointer is at the bottom. -/
def Based (k : Stack) : Prop := k.getLast? = some ⟨0, .srw⟩

theorem Based.suffix {a b : Stack} (h : Based (a ++ b)) (hb : b ≠ []) : Based b := by
  simp only [Based, List.getLast?_append] at h ⊢
  cases e : b.getLast? with
  | none => exact absurd (List.getLast?_eq_none_iff.1 e) hb
  | some x => rw [e] at h; simpa using h

theorem Based.append {a b : Stack} (h : Based b) : Based (a ++ b) := by
  simp only [Based, List.getLast?_append] at h ⊢
  rw [h]; rfl

theorem Based.mem {k : Stack} (h : Based k) : (⟨0, .srw⟩ : Item) ∈ k :=
  List.mem_of_getLast? h

theorem Based.canW {k : Stack} (h : Based k) : CanW 0 k := ⟨_, h.mem, rfl, .inr rfl⟩

theorem grantWrite_ne {t : Nat} {k a b : Stack} (h : k.grantWrite t = some (a, b)) : b ≠ [] := by
  simp only [Stack.grantWrite] at h
  split at h
  · cases h; simp
  · cases h

theorem Based.write {t : Nat} {k k' : Stack} (h : Based k) (e : k.write t = some k') :
    Based k' := by
  simp only [Stack.write] at e
  split at e
  · rename_i a b e'
    cases e
    rw [grantWrite_split e'] at h
    exact h.suffix (grantWrite_ne e')
  · cases e

theorem Based.mutRef {t new : Nat} {k k' : Stack} (h : Based k) (e : k.mutRef t new = some k') :
    Based k' := by
  simp only [Stack.mutRef] at e
  split at e
  · rename_i k1 e'
    cases e
    exact (h.write e').append (a := [_])
  · cases e

theorem Based.rawMut {t new : Nat} {k k' : Stack} (h : Based k) (e : k.rawMut t new = some k') :
    Based k' := by
  simp only [Stack.rawMut] at e
  split at e
  · rename_i a b e'
    cases e
    rw [grantWrite_split e'] at h
    have := (h.suffix (grantWrite_ne e')).append (a := a ++ [⟨new, .srw⟩])
    simpa using this
  · cases e

theorem Based.read {t : Nat} {k k' : Stack} (h : Based k) (e : k.read t = some k') :
    Based k' := by
  simp only [Stack.read] at e
  split at e
  · rename_i a g b e'
    cases e
    rw [(splitFirst_some e').1] at h
    exact (h.suffix (by simp)).append
  · cases e

theorem Based.shrRef {t new : Nat} {k k' : Stack} (h : Based k) (e : k.shrRef t new = some k') :
    Based k' := by
  simp only [Stack.shrRef] at e
  split at e
  · rename_i k1 e'
    cases e
    exact (h.read e').append (a := [_])
  · cases e

/-- What is kept by an operation on every stack is kept by the operation on a range of slots. -/
theorem forSlots_keep {P : Stack → Prop} {f : Stack → Option Stack} {lo n i : Nat}
    {st st' : Nat → Stack} (hf : ∀ k k', P k → f k = some k' → P k')
    (e : forSlots f lo n st = some st') (h : P (st i)) : P (st' i) := by
  obtain ⟨h1, h2⟩ := forSlots_some e
  by_cases hr : lo ≤ i ∧ i < lo + n
  · exact hf _ _ h (h1 i hr.1 hr.2)
  · rw [h2 i hr]; exact h

theorem retag_keep {P : Stack → Prop} {f : Nat → Stack → Option Stack} {lo n i r : Nat}
    {s s' : St} (hf : ∀ k k', P k → f s.next k = some k' → P k')
    (e : retag f lo n s = some (r, s')) (h : P (s.stack i)) : P (s'.stack i) := by
  simp only [retag] at e
  split at e
  · rename_i st est
    cases e
    exact forSlots_keep hf est h
  · cases e

theorem touch_keep {P : Stack → Prop} {f : Stack → Option Stack} {lo n i : Nat} {r : Unit}
    {s s' : St} (hf : ∀ k k', P k → f k = some k' → P k')
    (e : touch f lo n s = some (r, s')) (h : P (s.stack i)) : P (s'.stack i) := by
  simp only [touch] at e
  split at e
  · rename_i st est
    cases e
    exact forSlots_keep hf est h
  · cases e

/-- A new raw pointer or `&UnsafeCell` to slots that are not the value. -/
theorem Inv.rawMut_off {p : Perm} {cap t lo n : Nat} {s : St} (h : Inv p cap s) (hl : cap ≤ lo)
    (hc : ∀ i, lo ≤ i → i < lo + n → CanW t (s.stack i)) :
    ∃ s', Mach.rawMut t lo n s = some (s.next, s') ∧ Inv p cap s' ∧ s'.next = s.next + 1 ∧
      Out lo n s s' ∧ (∀ i x, x ∈ s.stack i → x ∈ s'.stack i) ∧
      ∀ i, lo ≤ i → i < lo + n → (⟨s.next, .srw⟩ : Item) ∈ s'.stack i := by
  obtain ⟨st, e⟩ := forSlots_ok (f := Stack.rawMut t s.next) (lo := lo) (n := n) (st := s.stack)
    fun i hl hu => by
      obtain ⟨a, b, e, _⟩ := rawMut_ok (new := s.next) (hc i hl hu)
      exact ⟨_, e⟩
  obtain ⟨hin, hout⟩ := forSlots_some e
  have key : ∀ i, lo ≤ i → i < lo + n → ∃ a b, st i = a ++ ⟨s.next, .srw⟩ :: b ∧
      s.stack i = a ++ b := fun i hl hu => by
    obtain ⟨a, b, e', h1, h2, h3⟩ := rawMut_ok (new := s.next) (hc i hl hu)
    rw [hin i hl hu] at e'
    exact ⟨a, b, Option.some.inj e', h1⟩
  refine ⟨⟨st, s.next + 1⟩, by simp [mach_rawMut, SB.rawMut, retag, e], ⟨h.wr, fun i hi => ?_, fun i x hx => ?_,
    Nat.succ_pos _⟩, rfl, hout, fun i x hx => ?_, fun i hl hu => ?_⟩
  · simp only [hout i (by omega)]; exact h.rooted i hi
  · by_cases hr : lo ≤ i ∧ i < lo + n
    · obtain ⟨a, b, e', h1⟩ := key i hr.1 hr.2
      simp only [e'] at hx
      have hlt := h.lt i
      rw [h1] at hlt
      rcases List.mem_append.1 hx with hx | hx
      · exact Nat.lt_succ_of_lt (hlt x (List.mem_append_left _ hx))
      · rcases List.mem_cons.1 hx with rfl | hx
        · exact Nat.lt_succ_self _
        · exact Nat.lt_succ_of_lt (hlt x (List.mem_append_right _ hx))
    · simp only [hout i hr] at hx
      exact Nat.lt_succ_of_lt (h.lt i x hx)
  · by_cases hr : lo ≤ i ∧ i < lo + n
    · obtain ⟨a, b, e', h1⟩ := key i hr.1 hr.2
      rw [h1] at hx
      simp only [e']
      rcases List.mem_append.1 hx with hx | hx
      · exact List.mem_append_left _ hx
      · exact List.mem_append_right _ (List.mem_cons_of_mem _ hx)
    · simp only [hout i hr]; exact hx
  · obtain ⟨a, b, e', _⟩ := key i hl hu
    simp only [e']
    simp

/-! ## The block of `Rc` and `Arc` -/

/-- The state of a counted block. -/
structure Blk (s : St) : Prop where
  inv : Inv .srw 1 s
  cnt : ∀ i, i = 1 ∨ i = 2 → Based (s.stack i)

/-- `&`s to the value are still there. -/
def Kept (s s' : St) : Prop := ∀ x, x ∈ s.stack 0 → x.perm ≠ .uniq → x ∈ s'.stack 0

theorem Kept.trans {s s' s'' : St} (h : Kept s s') (h' : Kept s' s'') : Kept s s'' :=
  fun x hx hp => h' x (h x hx hp) hp

theorem blk_fresh : Blk (fresh .srw 3) := by
  refine ⟨⟨.inr rfl, fun i hi => ?_, fun i x hx => ?_, Nat.one_pos⟩, fun i hi => ?_⟩
  · have : i < 3 := by omega
    simp only [fresh, this, if_true]; exact .root
  · simp only [fresh] at hx ⊢
    split at hx
    · simp at hx; subst hx; exact Nat.one_pos
    · cases hx
  · have : i < 3 := by omega
    simp [fresh, this, Based]

/-- Code that works in every state, and takes no `&` to the value away. -/
def Shr {β : Type} (m : B β) (Q : β → St → Prop) : Prop :=
  ∀ s, Blk s → ∃ b s', m s = some (b, s') ∧ Blk s' ∧ Kept s s' ∧ Q b s'

theorem Shr.bind {β γ : Type} {m : B β} {k : β → B γ} {Q : β → St → Prop} {R : γ → St → Prop}
    (h : Shr m Q) (hk : ∀ b, Shr (k b) R) : Shr (m >>= k) R := by
  intro s hs
  obtain ⟨b, s1, e1, h1, k1, _⟩ := h s hs
  obtain ⟨c, s2, e2, h2, k2, q2⟩ := hk b s1 h1
  exact ⟨c, s2, by rw [bind_some e1, e2], h2, k1.trans k2, q2⟩

/-- Nothing more is known. -/
abbrev Any {β : Type} : β → St → Prop := Nothing

theorem Shr.any {β : Type} {m : B β} {Q : β → St → Prop} (h : Shr m Q) : Shr m Any := by
  intro s hs
  obtain ⟨b, s1, e1, h1, k1, _⟩ := h s hs
  exact ⟨b, s1, e1, h1, k1, trivial⟩

theorem shr_ret {β : Type} (b : β) : Shr (ret b) Any :=
  fun s hs => ⟨b, s, rfl, hs, fun _ hx _ => hx, trivial⟩

theorem Blk.readAt {s : St} (h : Blk s) {t lo : Nat} (hc : CanR t (s.stack lo)) :
    ∃ s', Mach.readAt t lo 1 s = some ((), s') ∧ Blk s' ∧ Keeps s s' := by
  obtain ⟨s', e, hi, _, _, hk⟩ := h.inv.readAt (t := t) (lo := lo) (n := 1) fun j h1 h2 => by
    have : j = lo := by omega
    subst this; exact hc
  exact ⟨s', e, ⟨hi, fun i hi => touch_keep (fun _ _ => Based.read) e (h.cnt i hi)⟩, hk⟩

theorem Blk.writeAt {s : St} (h : Blk s) {t lo : Nat} (hc : CanW t (s.stack lo)) :
    ∃ s', Mach.writeAt t lo 1 s = some ((), s') ∧ Blk s' ∧ Out lo 1 s s' ∧ CanW t (s'.stack lo) := by
  obtain ⟨s', e, hi, _, ho, hk⟩ := h.inv.writeAt (t := t) (lo := lo) (n := 1) fun j h1 h2 => by
    have : j = lo := by omega
    subst this; exact hc
  exact ⟨s', e, ⟨hi, fun i hi => touch_keep (fun _ _ => Based.write) e (h.cnt i hi)⟩, ho,
    hk lo (Nat.le_refl _) (by omega)⟩

theorem Blk.mutRef {s : St} (h : Blk s) {t lo n : Nat}
    (hc : ∀ i, lo ≤ i → i < lo + n → CanW t (s.stack i)) :
    ∃ u s', Mach.mutRef t lo n s = some (u, s') ∧ Blk s' ∧
      ∀ i, lo ≤ i → i < lo + n → CanW u (s'.stack i) := by
  obtain ⟨s', e, hi, _, _, hk⟩ := h.inv.mutRef (t := t) (lo := lo) (n := n) hc
  exact ⟨_, s', e, ⟨hi, fun i hi => retag_keep (fun _ _ => Based.mutRef) e (h.cnt i hi)⟩, hk⟩

theorem Blk.shrRef {s : St} (h : Blk s) {t lo : Nat} (hc : CanR t (s.stack lo)) :
    ∃ u s', Mach.shrRef t lo 1 s = some (u, s') ∧ Blk s' ∧ Keeps s s' ∧
      (⟨u, .sro⟩ : Item) ∈ s'.stack lo := by
  obtain ⟨s', e, hi, _, _, hk, hm⟩ := h.inv.shrRef (t := t) (lo := lo) (n := 1) fun j h1 h2 => by
    have : j = lo := by omega
    subst this; exact hc
  exact ⟨_, s', e, ⟨hi, fun i hi => retag_keep (fun _ _ => Based.shrRef) e (h.cnt i hi)⟩, hk,
    hm lo (Nat.le_refl _) (by omega)⟩

theorem Blk.boxRef {s : St} (h : Blk s) :
    ∃ r s', Alias.boxRef 0 s = some (r, s') ∧ Blk s' ∧ Kept s s' ∧
      (∀ i, i = 1 ∨ i = 2 → (⟨r.1, .srw⟩ : Item) ∈ s'.stack i) ∧
      (⟨r.2, .sro⟩ : Item) ∈ s'.stack 0 := by
  obtain ⟨s1, e1, h1, n1, o1, k1, m1⟩ := h.inv.rawMut_off (t := 0) (lo := 1) (n := 2)
    (Nat.le_refl _) fun i h1 h2 => (h.cnt i (by omega)).canW
  have b1 : Blk s1 := ⟨h1, fun i hi => retag_keep (fun _ _ => Based.rawMut) e1 (h.cnt i hi)⟩
  obtain ⟨v, s2, e2, b2, k2, m2⟩ := b1.shrRef (t := 0) (lo := 0)
    (b1.inv.canW_root Nat.one_pos).canR
  refine ⟨(s.next, v), s2, ?_, b2, fun x hx hp => k2 0 x (k1 0 x hx) hp, fun i hi => ?_, m2⟩
  · simp only [Alias.boxRef]
    rw [bind_some e1, bind_some e2]
    rfl
  · exact k2 i _ (m1 i (by omega) (by omega)) (by simp)

theorem shr_loadCnt {i : Nat} (hi : i = 1 ∨ i = 2) : Shr (loadCnt 0 i) Any := by
  intro s h
  obtain ⟨r, s1, e1, h1, k1, c1, _⟩ := h.boxRef
  obtain ⟨s2, e2, h2, k2⟩ := h1.readAt (canW_srw (c1 i hi)).canR
  refine ⟨(), s2, ?_, h2, k1.trans fun x => k2 0 x, trivial⟩
  simp only [loadCnt, Nat.zero_add]
  rw [bind_some e1, e2]

theorem Blk.writeCnt {s : St} (h : Blk s) {t i : Nat} (hi : i = 1 ∨ i = 2)
    (hc : CanW t (s.stack i)) :
    ∃ s', Mach.writeAt t i 1 s = some ((), s') ∧ Blk s' ∧ Kept s s' := by
  obtain ⟨s', e, h', ho, _⟩ := h.writeAt hc
  exact ⟨s', e, h', fun x hx _ => by rw [ho 0 (by omega)]; exact hx⟩

theorem shr_storeCnt {i : Nat} (hi : i = 1 ∨ i = 2) : Shr (storeCnt 0 i) Any := by
  intro s h
  obtain ⟨r, s1, e1, h1, k1, c1, _⟩ := h.boxRef
  obtain ⟨s2, e2, h2, k2⟩ := h1.writeCnt hi (canW_srw (c1 i hi))
  refine ⟨(), s2, ?_, h2, k1.trans k2, trivial⟩
  simp only [storeCnt, Nat.zero_add]
  rw [bind_some e1, e2]

theorem shr_bumpCnt {i : Nat} (hi : i = 1 ∨ i = 2) : Shr (bumpCnt 0 i) Any := by
  intro s h
  obtain ⟨r, s1, e1, h1, k1, c1, _⟩ := h.boxRef
  obtain ⟨s2, e2, h2, k2⟩ := h1.readAt (canW_srw (c1 i hi)).canR
  obtain ⟨s3, e3, h3, k3⟩ := h2.writeCnt hi (canW_srw (k2 i _ (c1 i hi) (by simp)))
  refine ⟨(), s3, ?_, h3, k1.trans (Kept.trans (fun x => k2 0 x) k3), trivial⟩
  simp only [bumpCnt, Nat.zero_add]
  rw [bind_some e1, bind_some e2, e3]

/-- The result is a `&` to the value. -/
def IsRef (t : Nat) (s : St) : Prop := (⟨t, .sro⟩ : Item) ∈ s.stack 0

theorem shr_rcDeref : Shr rcDeref IsRef := by
  intro s h
  obtain ⟨r, s1, e1, h1, k1, _, m1⟩ := h.boxRef
  obtain ⟨u, s2, e2, h2, k2, m2⟩ := h1.shrRef (canR_sro m1)
  refine ⟨u, s2, ?_, h2, k1.trans fun x => k2 0 x, m2⟩
  simp only [rcDeref]
  rw [bind_some e1, e2]

theorem Blk.asMut {s : St} (h : Blk s) :
    ∃ t s', rcAsMut s = some (t, s') ∧ Blk s' ∧ CanW t (s'.stack 0) := by
  obtain ⟨m, s1, e1, h1, c1⟩ := h.mutRef (t := 0) (lo := 0) (n := 3) fun i _ hi => by
    by_cases h0 : i = 0
    · subst h0; exact h.inv.canW_root Nat.one_pos
    · exact (h.cnt i (by omega)).canW
  obtain ⟨t, s2, e2, h2, c2⟩ := h1.mutRef (t := m) (lo := 0) (n := 1) fun i _ hi =>
    c1 i (Nat.zero_le _) (by omega)
  refine ⟨t, s2, ?_, h2, c2 0 (Nat.le_refl _) (by omega)⟩
  simp only [rcAsMut, boxMut]
  rw [bind_some e1, e2]

/-- Code that works in every state. -/
def Wrk {β : Type} (m : B β) (Q : β → St → Prop) : Prop :=
  ∀ s, Blk s → ∃ b s', m s = some (b, s') ∧ Blk s' ∧ Q b s'

theorem Shr.wrk {β : Type} {m : B β} {Q : β → St → Prop} (h : Shr m Q) : Wrk m Q := by
  intro s hs
  obtain ⟨b, s1, e1, h1, _, q1⟩ := h s hs
  exact ⟨b, s1, e1, h1, q1⟩

theorem Wrk.bind {β γ : Type} {m : B β} {k : β → B γ} {Q : β → St → Prop} {R : γ → St → Prop}
    (h : Wrk m Q) (hk : ∀ b, Wrk (k b) R) : Wrk (m >>= k) R := by
  intro s hs
  obtain ⟨b, s1, e1, h1, _⟩ := h s hs
  obtain ⟨c, s2, e2, h2, q2⟩ := hk b s1 h1
  exact ⟨c, s2, by rw [bind_some e1, e2], h2, q2⟩

/-- The result is a `&mut` to the value. -/
def IsMut (t : Nat) (s : St) : Prop := CanW t (s.stack 0)

theorem wrk_asMut : Wrk rcAsMut IsMut := fun _ h => h.asMut

theorem wrk_rcIsSingle (strong : Nat) : Shr (rcIsSingle strong) Any := by
  intro s h
  obtain ⟨r, s1, e1, h1, k1, c1, _⟩ := h.boxRef
  obtain ⟨s2, e2, h2, k2⟩ := h1.readAt (canW_srw (c1 1 (.inl rfl))).canR
  simp only [rcIsSingle]
  rw [bind_some e1, bind_some e2]
  split
  · obtain ⟨s3, e3, h3, k3⟩ := h2.readAt (canW_srw (k2 2 _ (c1 2 (.inr rfl)) (by simp))).canR
    exact ⟨(), s3, e3, h3, k1.trans fun x hx hp => k3 0 x (k2 0 x hx hp) hp, trivial⟩
  · exact ⟨(), s2, rfl, h2, k1.trans fun x => k2 0 x, trivial⟩

theorem shr_rcUpgrade : Shr rcUpgrade Any := by
  intro s h
  obtain ⟨r, s1, e1, h1, k1, c1, _⟩ := h.boxRef
  have c1 := c1 1 (.inl rfl)
  obtain ⟨s2, e2, h2, k2⟩ := h1.readAt (canW_srw c1).canR
  have c2 := k2 1 _ c1 (by simp)
  obtain ⟨s3, e3, h3, k3⟩ := h2.readAt (canW_srw c2).canR
  obtain ⟨s4, e4, h4, k4⟩ := h3.writeCnt (.inl rfl) (canW_srw (k3 1 _ c2 (by simp)))
  refine ⟨(), s4, ?_, h4, k1.trans (Kept.trans (fun x => k2 0 x) (Kept.trans (fun x => k3 0 x) k4)),
    trivial⟩
  simp only [rcUpgrade]
  rw [bind_some e1, bind_some e2, bind_some e3, e4]

/-- Nothing is known but that `&`s are kept. -/
theorem Shr.on {β : Type} {m : B β} {Q : β → St → Prop} (h : Shr m Q) : ShrOn Blk IsRef m Q := by
  intro s hs
  obtain ⟨b, s', e, h', k, q⟩ := h s hs
  exact ⟨b, s', e, h', fun t ht => k _ ht (by simp), q⟩

instance instHRules : HRules St where
  Blk := Blk
  IsRef := IsRef
  IsMut := IsMut
  start := blk_fresh
  load i hi := (shr_loadCnt hi).on
  store i hi := (shr_storeCnt hi).on
  bump i hi := (shr_bumpCnt hi).on
  deref := shr_rcDeref.on
  single strong := (wrk_rcIsSingle strong).on
  upgrade := shr_rcUpgrade.on
  value := fun s h => by
    obtain ⟨r, s1, e1, h1, k1, _, m1⟩ := h.boxRef
    obtain ⟨s2, e2, h2, k2⟩ := h1.readAt (canR_sro m1)
    exact ⟨(), s2, by rw [bind_some e1, e2], h2, fun t ht => k2 0 _ (k1 _ ht (by simp)) (by simp),
      trivial⟩
  asMut := wrk_asMut
  readAt t s h ht := by
    obtain ⟨s', e, hb, hk⟩ := h.readAt (canR_sro ht)
    exact ⟨s', e, hb, fun u hu => hk 0 _ hu (by simp)⟩
  writeAt t s h ht := by
    obtain ⟨s', e, hb, _, hc⟩ := h.writeAt ht
    exact ⟨s', e, hb, hc⟩
  dropAt t s h ht := by
    obtain ⟨u, s2, e2, h2, c2⟩ := h.mutRef (t := t) (lo := 0) (n := 1) fun i _ hi => by
      have : i = 0 := by omega
      subst this; exact ht
    obtain ⟨s3, e3, h3, _⟩ := h2.writeAt (c2 0 (Nat.le_refl _) (by omega))
    refine ⟨s3, ?_, h3⟩
    simp only [Alias.dropAt]
    rw [bind_some e2, e3]

end Lokky.SB
