import Verif.Proofs.BorrowsRc

/-!
# Lemmas on the pointers of `Urc`
-/

open Lokky.Alias

namespace Lokky.SB

/-! ## Blocks used through `&` only -/

/-- The stack of a counter: raw pointers only. -/
structure AllRaw (k : Stack) : Prop where
  srw : ∀ x ∈ k, x.perm = .srw
  based : Based k

theorem takeWhile_all {k : Stack} (h : ∀ x ∈ k, x.perm = .srw) :
    k.takeWhile (fun i => i.perm == .srw) = k := by
  induction k with
  | nil => rfl
  | cons i k ih =>
    simp [List.takeWhile, h i List.mem_cons_self, ih fun x hx => h x (List.mem_cons_of_mem _ hx)]

theorem AllRaw.write {t : Nat} {k k' : Stack} (h : AllRaw k) (e : k.write t = some k') :
    k' = k := by
  simp only [Stack.write, Stack.grantWrite] at e
  split at e
  · rename_i a b e'
    split at e'
    · rename_i above g below e''
      obtain ⟨hk, hg⟩ := splitFirst_some e''
      have hgs : g.perm = .srw := h.srw g (by rw [hk]; simp)
      have hrev : ∀ x ∈ above.reverse, x.perm = .srw := fun x hx =>
        h.srw x (by rw [hk]; exact List.mem_append_left _ (by simpa using hx))
      have hgr : group g above.reverse = above.reverse := by
        simp only [group, hgs, if_true]
        exact takeWhile_all hrev
      rw [hgr] at e'
      cases e
      cases e'
      rw [hk, List.take_length, List.reverse_reverse]
    · cases e'
  · cases e

theorem afterRead_srw_id {a : Stack} (h : ∀ x ∈ a, x.perm = .srw) : a.map Item.afterRead = a := by
  induction a with
  | nil => rfl
  | cons i a ih =>
    have := h i List.mem_cons_self
    simp only [List.map_cons, ih fun x hx => h x (List.mem_cons_of_mem _ hx)]
    simp [Item.afterRead, this]

theorem AllRaw.read {t : Nat} {k k' : Stack} (h : AllRaw k) (e : k.read t = some k') :
    k' = k := by
  simp only [Stack.read] at e
  split at e
  · rename_i a g b e'
    obtain ⟨hk, _⟩ := splitFirst_some e'
    cases e
    rw [hk, afterRead_srw_id fun x hx => h.srw x (by rw [hk]; exact List.mem_append_left _ hx)]
  · cases e

theorem AllRaw.rawMut {t new : Nat} {k k' : Stack} (h : AllRaw k) (e : k.rawMut t new = some k') :
    AllRaw k' := by
  refine ⟨fun x hx => ?_, h.based.rawMut e⟩
  simp only [Stack.rawMut] at e
  split at e
  · rename_i a b e'
    cases e
    have hk := grantWrite_split e'
    have hs := h.srw
    rw [hk] at hs
    rcases List.mem_append.1 hx with hx | hx
    · exact hs x (List.mem_append_left _ hx)
    · rcases List.mem_cons.1 hx with rfl | hx
      · rfl
      · exact hs x (List.mem_append_right _ hx)
  · cases e

theorem Rooted.readK {p : Perm} {t : Nat} {k k' : Stack} (h : Rooted p k)
    (e : k.read t = some k') : Rooted p k' := by
  simp only [Stack.read] at e
  split at e
  · rename_i a g b e'
    cases e
    rw [(splitFirst_some e').1] at h
    exact h.read (by simp)
  · cases e

theorem Rooted.shrRefK {p : Perm} {t new : Nat} {k k' : Stack} (h : Rooted p k) (hn : new ≠ 0)
    (e : k.shrRef t new = some k') : Rooted p k' := by
  simp only [Stack.shrRef] at e
  split at e
  · rename_i k1 e'
    cases e
    exact .cons _ _ hn (fun _ => by simp) (h.readK e')
  · cases e

theorem Rooted.based {k : Stack} (h : Rooted .srw k) : Based k := by
  induction h with
  | root => rfl
  | cons i k _ _ h' ih => exact ih.append (a := [i])

/-- The state of the master and `n` fences used through `&` only. -/
structure Blks (n : Nat) (s : St) : Prop where
  inv : Inv .srw 1 s
  val : ∀ b, b % 3 = 0 → b < 3 + 3 * n → Rooted .srw (s.stack b)
  cnt : ∀ i, i % 3 ≠ 0 → i < 3 + 3 * n → AllRaw (s.stack i)
  out : ∀ i, 3 + 3 * n ≤ i → s.stack i = []

/-- Code that works in every such state and takes no rights away. -/
def UShr {β : Type} (n : Nat) (m : B β) (Q : β → St → Prop) : Prop :=
  ∀ s, Blks n s → ∃ b s', m s = some (b, s') ∧ Blks n s' ∧ Keeps s s' ∧ Q b s'

theorem UShr.bind {β γ : Type} {n : Nat} {m : B β} {k : β → B γ} {Q : β → St → Prop}
    {R : γ → St → Prop} (h : UShr n m Q) (hk : ∀ b, UShr n (k b) R) : UShr n (m >>= k) R := by
  intro s hs
  obtain ⟨b, s1, e1, h1, k1, _⟩ := h s hs
  obtain ⟨c, s2, e2, h2, k2, q2⟩ := hk b s1 h1
  exact ⟨c, s2, by rw [bind_some e1, e2], h2, k1.trans k2, q2⟩

theorem Blks.readAt {n : Nat} {s : St} (h : Blks n s) {t lo : Nat} (hl : lo < 3 + 3 * n)
    (hc : CanR t (s.stack lo)) :
    ∃ s', Mach.readAt t lo 1 s = some ((), s') ∧ Blks n s' ∧ Keeps s s' := by
  obtain ⟨s', e, hi, _, ho, hk⟩ := h.inv.readAt (t := t) (lo := lo) (n := 1) fun j h1 h2 => by
    have : j = lo := by omega
    subst this; exact hc
  refine ⟨s', e, ⟨hi, fun b h1 h2 => ?_, fun i h1 h2 => ?_, fun i hi => ?_⟩, hk⟩
  · exact touch_keep (fun _ _ h' e' => h'.readK e') e (h.val b h1 h2)
  · exact touch_keep (P := AllRaw) (fun _ _ h' e' => by rw [h'.read e']; exact h') e (h.cnt i h1 h2)
  · rw [ho i (by omega)]; exact h.out i hi

theorem Blks.writeAt {n : Nat} {s : St} (h : Blks n s) {t lo : Nat} (hm : lo % 3 ≠ 0)
    (hl : lo < 3 + 3 * n) (hc : CanW t (s.stack lo)) :
    ∃ s', Mach.writeAt t lo 1 s = some ((), s') ∧ Blks n s' ∧ Keeps s s' := by
  obtain ⟨s', e, hi, _, ho, _⟩ := h.inv.writeAt (t := t) (lo := lo) (n := 1) fun j h1 h2 => by
    have : j = lo := by omega
    subst this; exact hc
  have same : ∀ i, s'.stack i = s.stack i := fun i => by
    by_cases hil : i = lo
    · subst hil
      simp only [mach_writeAt, SB.writeAt, touch] at e
      split at e
      · rename_i st est
        cases e
        exact (h.cnt i hm hl).write ((forSlots_some est).1 i (Nat.le_refl _) (by omega))
      · cases e
    · exact ho i (by omega)
  refine ⟨s', e, ⟨hi, fun b h1 h2 => ?_, fun i h1 h2 => ?_, fun i hi => ?_⟩, fun i x hx _ => ?_⟩
  · rw [same]; exact h.val b h1 h2
  · rw [same]; exact h.cnt i h1 h2
  · rw [same]; exact h.out i hi
  · rw [same]; exact hx

theorem Blks.shrRef {n : Nat} {s : St} (h : Blks n s) {t lo : Nat} (hm : lo % 3 = 0)
    (hl : lo < 3 + 3 * n) (hc : CanR t (s.stack lo)) :
    ∃ s', Mach.shrRef t lo 1 s = some (s.next, s') ∧ Blks n s' ∧ Keeps s s' ∧
      s'.next = s.next + 1 ∧ (⟨s.next, .sro⟩ : Item) ∈ s'.stack lo := by
  obtain ⟨s', e, hi, hn, ho, hk, hmem⟩ := h.inv.shrRef (t := t) (lo := lo) (n := 1)
    fun j h1 h2 => by
      have : j = lo := by omega
      subst this; exact hc
  have hpos := h.inv.pos
  refine ⟨s', e, ⟨hi, fun b h1 h2 => ?_, fun i h1 h2 => ?_, fun i hi => ?_⟩, hk, hn,
    hmem lo (Nat.le_refl _) (by omega)⟩
  · exact retag_keep (fun _ _ h' e' => h'.shrRefK (by omega) e') e (h.val b h1 h2)
  · have : i ≠ lo := by rintro rfl; exact h1 hm
    rw [ho i (by omega)]; exact h.cnt i h1 h2
  · rw [ho i (by omega)]; exact h.out i hi

theorem Blks.rawMut {n : Nat} {s : St} (h : Blks n s) {t b : Nat} (hm : b % 3 = 0)
    (hl : b < 3 + 3 * n) (hc : ∀ i, i = b + 1 ∨ i = b + 2 → CanW t (s.stack i)) :
    ∃ s', Mach.rawMut t (b + 1) 2 s = some (s.next, s') ∧ Blks n s' ∧ Keeps s s' ∧
      s'.next = s.next + 1 ∧
      ∀ i, i = b + 1 ∨ i = b + 2 → (⟨s.next, .srw⟩ : Item) ∈ s'.stack i := by
  obtain ⟨s', e, hi, hn, ho, hk, hmem⟩ := h.inv.rawMut_off (t := t) (lo := b + 1) (n := 2)
    (by omega) fun i h1 h2 => hc i (by omega)
  refine ⟨s', e, ⟨hi, fun b' h1 h2 => ?_, fun i h1 h2 => ?_, fun i hi => ?_⟩,
    fun i x hx _ => hk i x hx, hn, fun i hi => hmem i (by omega) (by omega)⟩
  · rw [ho b' (by omega)]; exact h.val b' h1 h2
  · exact retag_keep (fun _ _ h' e' => h'.rawMut e') e (h.cnt i h1 h2)
  · rw [ho i (by omega)]; exact h.out i hi

/-- The results of `boxRef b` are pointers to a block. -/
def IsBox (b : Nat) (r : Nat × Nat) (s : St) : Prop :=
  (∀ i, i = b + 1 ∨ i = b + 2 → (⟨r.1, .srw⟩ : Item) ∈ s.stack i) ∧
  (⟨r.2, .sro⟩ : Item) ∈ s.stack b ∧ r.2 ≠ 0

theorem IsBox.keep {b : Nat} {r : Nat × Nat} {s s' : St} (h : IsBox b r s) (hk : Keeps s s') :
    IsBox b r s' :=
  ⟨fun i hi => hk i _ (h.1 i hi) (by simp), hk b _ h.2.1 (by simp), h.2.2⟩

/-- Is there a block at `b`? -/
def IsBlk (n b : Nat) : Prop := b % 3 = 0 ∧ b < 3 + 3 * n

theorem ushr_boxRef {n b : Nat} (hb : IsBlk n b) : UShr n (boxRef b) (IsBox b) := by
  intro s h
  obtain ⟨hm, hl⟩ := hb
  obtain ⟨s1, e1, h1, k1, n1, m1⟩ := h.rawMut (t := 0) hm hl fun i hi =>
    (h.cnt i (by omega) (by omega)).based.canW
  obtain ⟨s2, e2, h2, k2, n2, m2⟩ := h1.shrRef (t := 0) hm hl
    (h1.val b hm hl).based.canW.canR
  refine ⟨(s.next, s1.next), s2, ?_, h2, k1.trans k2, fun i hi => k2 i _ (m1 i hi) (by simp), m2,
    ?_⟩
  · simp only [Alias.boxRef]
    rw [bind_some e1, bind_some e2]
    rfl
  · have := h1.inv.pos
    show s1.next ≠ 0
    omega

theorem ushr_loadCnt {n b i : Nat} (hb : IsBlk n b) (hi : i = 1 ∨ i = 2) :
    UShr n (loadCnt b i) Any := by
  intro s h
  obtain ⟨r, s1, e1, h1, k1, c1, _⟩ := ushr_boxRef hb s h
  have hl := hb.2; have hm := hb.1
  obtain ⟨s2, e2, h2, k2⟩ := h1.readAt (t := r.1) (lo := b + i) (by omega)
    (canW_srw (c1 (b + i) (by omega))).canR
  refine ⟨(), s2, ?_, h2, k1.trans k2, trivial⟩
  simp only [loadCnt]
  rw [bind_some e1, e2]

theorem ushr_bumpCnt {n b i : Nat} (hb : IsBlk n b) (hi : i = 1 ∨ i = 2) :
    UShr n (bumpCnt b i) Any := by
  intro s h
  obtain ⟨r, s1, e1, h1, k1, c1, _⟩ := ushr_boxRef hb s h
  have hl := hb.2; have hm := hb.1
  have c1 := c1 (b + i) (by omega)
  obtain ⟨s2, e2, h2, k2⟩ := h1.readAt (t := r.1) (lo := b + i) (by omega) (canW_srw c1).canR
  obtain ⟨s3, e3, h3, k3⟩ := h2.writeAt (t := r.1) (lo := b + i) (by omega) (by omega)
    (canW_srw (k2 _ _ c1 (by simp)))
  refine ⟨(), s3, ?_, h3, k1.trans (k2.trans k3), trivial⟩
  simp only [bumpCnt]
  rw [bind_some e1, bind_some e2, e3]

theorem ushr_masterRef {n f : Nat} (hf : IsBlk n f) : UShr n (masterRef f) (IsBox 0) := by
  intro s h
  obtain ⟨r, s1, e1, h1, k1, _, c1, _⟩ := ushr_boxRef hf s h
  obtain ⟨s2, e2, h2, k2⟩ := h1.readAt (t := r.2) (lo := f) hf.2 (canR_sro c1)
  obtain ⟨q, s3, e3, h3, k3, c3⟩ := ushr_boxRef (n := n) (b := 0) ⟨rfl, by omega⟩ s2 h2
  refine ⟨q, s3, ?_, h3, k1.trans (k2.trans k3), c3⟩
  simp only [masterRef]
  rw [bind_some e1, bind_some e2, e3]

/-- Reading a counter of the master. -/
theorem ushr_masterRead {n f i : Nat} (hf : IsBlk n f) (hi : i = 1 ∨ i = 2) :
    UShr n (do let r ← masterRef f; Mach.readAt r.1 i 1) Any := by
  intro s h
  obtain ⟨r, s1, e1, h1, k1, c1, _⟩ := ushr_masterRef hf s h
  obtain ⟨s2, e2, h2, k2⟩ := h1.readAt (t := r.1) (lo := i) (by omega)
    (canW_srw (c1 i (by omega))).canR
  exact ⟨(), s2, by rw [bind_some e1, e2], h2, k1.trans k2, trivial⟩

/-- Writing a counter of the master, and going on. -/
theorem ushr_masterWrite {β : Type} {n f i : Nat} (hf : IsBlk n f) (hi : i = 1 ∨ i = 2) {m : B β}
    {Q : β → St → Prop} (hm : UShr n m Q) :
    UShr n (do let r ← masterRef f; Mach.writeAt r.1 i 1; m) Q := by
  intro s h
  obtain ⟨r, s1, e1, h1, k1, c1, _⟩ := ushr_masterRef hf s h
  obtain ⟨s2, e2, h2, k2⟩ := h1.writeAt (t := r.1) (lo := i) (by omega) (by omega)
    (canW_srw (c1 i (by omega)))
  obtain ⟨b, s3, e3, h3, k3, q⟩ := hm s2 h2
  exact ⟨b, s3, by rw [bind_some e1, bind_some e2, e3], h3, k1.trans (k2.trans k3), q⟩

/-- Reading a counter of the master, and going on. -/
theorem ushr_masterReadThen {β : Type} {n f i : Nat} (hf : IsBlk n f) (hi : i = 1 ∨ i = 2)
    {m : B β} {Q : β → St → Prop} (hm : UShr n m Q) :
    UShr n (do let r ← masterRef f; Mach.readAt r.1 i 1; m) Q := by
  intro s h
  obtain ⟨r, s1, e1, h1, k1, c1, _⟩ := ushr_masterRef hf s h
  obtain ⟨s2, e2, h2, k2⟩ := h1.readAt (t := r.1) (lo := i) (by omega)
    (canW_srw (c1 i (by omega))).canR
  obtain ⟨b, s3, e3, h3, k3, q⟩ := hm s2 h2
  exact ⟨b, s3, by rw [bind_some e1, bind_some e2, e3], h3, k1.trans (k2.trans k3), q⟩

theorem ushr_isUnique {n f : Nat} (hf : IsBlk n f) : UShr n (urcIsUnique f) Any :=
  ushr_masterWrite hf (.inr rfl) (ushr_masterReadThen hf (.inl rfl)
    (ushr_masterWrite hf (.inr rfl)
      ((ushr_loadCnt hf (.inl rfl)).bind fun _ => ushr_loadCnt hf (.inr rfl))))

/-- The references of a `Weak`. -/
def IsWeak (n : Nat) (w : UWeak) (s : St) : Prop :=
  IsBlk n w.f ∧ 3 ≤ w.f ∧ IsBox w.f w.fence s ∧ IsBox 0 w.master s

theorem ushr_downgrade {n f : Nat} (hf : IsBlk n f) (h3 : 3 ≤ f) :
    UShr n (urcDowngrade f) (fun w s => w.f = f ∧ IsWeak n w s) := by
  intro s h
  obtain ⟨_, s1, e1, h1, k1, _⟩ := ushr_bumpCnt (i := 2) hf (.inr rfl) s h
  obtain ⟨r, s2, e2, h2, k2, c2⟩ := ushr_boxRef hf s1 h1
  obtain ⟨q, s3, e3, h3', k3, c3⟩ := ushr_masterRef hf s2 h2
  refine ⟨⟨f, r, q⟩, s3, ?_, h3', k1.trans (k2.trans k3), rfl, hf, h3, c2.keep k3, c3⟩
  simp only [urcDowngrade]
  rw [bind_some e1, bind_some e2, bind_some e3]
  rfl

theorem Blks.weakFence {n : Nat} {s : St} (h : Blks n s) {w : UWeak} (hw : IsWeak n w s) :
    ∃ r s', Alias.weakFence w s = some (r, s') ∧ Blks n s' ∧ Keeps s s' ∧ IsBox w.f r s' := by
  obtain ⟨⟨hm, hl⟩, _, ⟨c1, c2, _⟩, _⟩ := hw
  obtain ⟨s1, e1, h1, k1, n1, m1⟩ := h.rawMut (t := w.fence.1) hm hl fun i hi => canW_srw (c1 i hi)
  obtain ⟨s2, e2, h2, k2, n2, m2⟩ := h1.shrRef (t := w.fence.2) hm hl
    (canR_sro (k1 _ _ c2 (by simp)))
  refine ⟨(s.next, s1.next), s2, ?_, h2, k1.trans k2, fun i hi => k2 i _ (m1 i hi) (by simp), m2,
    ?_⟩
  · simp only [Alias.weakFence]
    rw [bind_some e1, bind_some e2]
    rfl
  · have := h1.inv.pos
    show s1.next ≠ 0
    omega

theorem Blks.weakLoad {n i : Nat} {s : St} (h : Blks n s) {w : UWeak} (hw : IsWeak n w s)
    (hi : i = 1 ∨ i = 2) :
    ∃ s', Alias.weakLoad w i s = some ((), s') ∧ Blks n s' ∧ Keeps s s' := by
  obtain ⟨r, s1, e1, h1, k1, c1, _⟩ := h.weakFence hw
  have hl := hw.1.2; have hm := hw.1.1
  obtain ⟨s2, e2, h2, k2⟩ := h1.readAt (t := r.1) (lo := w.f + i) (by omega)
    (canW_srw (c1 _ (by omega))).canR
  refine ⟨s2, ?_, h2, k1.trans k2⟩
  simp only [Alias.weakLoad]
  rw [bind_some e1, e2]

theorem IsWeak.keep {n : Nat} {w : UWeak} {s s' : St} (h : IsWeak n w s) (hk : Keeps s s') :
    IsWeak n w s' := ⟨h.1, h.2.1, h.2.2.1.keep hk, h.2.2.2.keep hk⟩

theorem Blks.weakDropOther {n : Nat} {s : St} (h : Blks n s) {w : UWeak} (hw : IsWeak n w s) :
    ∃ s', Alias.weakDropOther w s = some ((), s') ∧ Blks n s' ∧ Keeps s s' := by
  obtain ⟨s1, e1, h1, k1⟩ := h.weakLoad hw (i := 2) (.inr rfl)
  obtain ⟨s2, e2, h2, k2⟩ := h1.weakLoad (hw.keep k1) (i := 1) (.inl rfl)
  obtain ⟨r, s3, e3, h3, k3, c3, _⟩ := h2.weakFence ((hw.keep k1).keep k2)
  have hl := hw.1.2; have hm := hw.1.1
  have c3 := c3 (w.f + 2) (.inr rfl)
  obtain ⟨s4, e4, h4, k4⟩ := h3.readAt (t := r.1) (lo := w.f + 2) (by omega) (canW_srw c3).canR
  obtain ⟨s5, e5, h5, k5⟩ := h4.writeAt (t := r.1) (lo := w.f + 2) (by omega) (by omega)
    (canW_srw (k4 _ _ c3 (by simp)))
  refine ⟨s5, ?_, h5, k1.trans (k2.trans (k3.trans (k4.trans k5)))⟩
  simp only [Alias.weakDropOther]
  rw [bind_some e1, bind_some e2, bind_some e3, bind_some e4, e5]

theorem Blks.weakMaster {n : Nat} {s : St} (h : Blks n s) {w : UWeak} (hw : IsWeak n w s) :
    ∃ r s', Alias.weakMaster w s = some (r, s') ∧ Blks n s' ∧ Keeps s s' ∧ IsBox 0 r s' := by
  obtain ⟨_, _, _, c1, c2, _⟩ := hw
  obtain ⟨s1, e1, h1, k1, n1, m1⟩ := h.rawMut (t := w.master.1) (b := 0) rfl (by omega)
    fun i hi => canW_srw (c1 i hi)
  obtain ⟨s2, e2, h2, k2, n2, m2⟩ := h1.shrRef (t := w.master.2) (lo := 0) rfl (by omega)
    (canR_sro (k1 _ _ c2 (by simp)))
  refine ⟨(s.next, s1.next), s2, ?_, h2, k1.trans k2, fun i hi => k2 i _ (m1 i hi) (by simp), m2,
    ?_⟩
  · simp only [Alias.weakMaster]
    rw [bind_some e1, bind_some e2]
    rfl
  · have := h1.inv.pos
    show s1.next ≠ 0
    omega

theorem Blks.weakDropLast {n : Nat} {s : St} (h : Blks n s) {w : UWeak} (hw : IsWeak n w s)
    (last : Bool) :
    ∃ s', Alias.weakDropLast w last s = some ((), s') ∧ Blks n s' ∧ Keeps s s' := by
  obtain ⟨s1, e1, h1, k1⟩ := h.weakLoad hw (i := 2) (.inr rfl)
  have hw := hw.keep k1
  obtain ⟨s2, e2, h2, k2⟩ := h1.weakLoad hw (i := 1) (.inl rfl)
  have hw := hw.keep k2
  obtain ⟨q, s3, e3, h3, k3, c3⟩ := h2.weakMaster hw
  obtain ⟨r, s4, e4, h4, k4, _⟩ := h3.weakFence (hw.keep k3)
  have c4 := (c3.keep k4).1
  obtain ⟨s5, e5, h5, k5⟩ := h4.writeAt (t := q.1) (lo := 2) (by omega) (by omega)
    (canW_srw (c4 2 (.inr rfl)))
  have hk := k1.trans (k2.trans (k3.trans (k4.trans k5)))
  simp only [Alias.weakDropLast]
  rw [bind_some e1, bind_some e2, bind_some e3, bind_some e4, bind_some e5]
  cases last
  · exact ⟨s5, rfl, h5, hk⟩
  · obtain ⟨s6, e6, h6, k6⟩ := h5.readAt (t := q.1) (lo := 1) (by omega)
      (canW_srw (k5 _ _ (c4 1 (.inl rfl)) (by simp))).canR
    exact ⟨s6, e6, h6, hk.trans k6⟩

theorem ushr_dropOther {n f : Nat} (hf : IsBlk n f) : UShr n (urcDropOther f) Any :=
  (ushr_loadCnt hf (.inl rfl)).bind fun _ => (ushr_loadCnt hf (.inr rfl)).bind fun _ =>
    ushr_bumpCnt hf (.inl rfl)

/-- `*u`, as long as the `data` field can be used, a read of the data, and going on. -/
theorem Blks.derefRead {β : Type} {n d : Nat} {s : St} (h : Blks n s)
    (hd : (⟨d, .sro⟩ : Item) ∈ s.stack 0) {m : B β} {Q : β → St → Prop} (hm : UShr n m Q) :
    ∃ b s', (do let t ← urcDeref d; Mach.readAt t 0 1; m) s = some (b, s') ∧ Blks n s' ∧
      Keeps s s' ∧ Q b s' := by
  obtain ⟨s1, e1, h1, k1, n1, m1⟩ := h.shrRef (t := d) (lo := 0) rfl (by omega) (canR_sro hd)
  obtain ⟨s2, e2, h2, k2⟩ := h1.readAt (t := s.next) (lo := 0) (by omega) (canR_sro m1)
  obtain ⟨b, s3, e3, h3, k3, q3⟩ := hm s2 h2
  refine ⟨b, s3, ?_, h3, k1.trans (k2.trans k3), q3⟩
  simp only [urcDeref]
  rw [bind_some e1, bind_some e2, e3]

theorem Blks.makeMutClone {n f d : Nat} {s : St} (h : Blks n s) (hf : IsBlk n f)
    (hd : (⟨d, .sro⟩ : Item) ∈ s.stack 0) (sole : Bool) :
    ∃ s', urcMakeMutClone f d sole s = some ((), s') ∧ Blks n s' ∧ Keeps s s' := by
  obtain ⟨r, s1, e1, h1, k1, c1, _⟩ := ushr_masterRef hf s h
  obtain ⟨s2, e2, h2, k2⟩ := h1.readAt (t := r.1) (lo := 1) (by omega)
    (canW_srw (c1 1 (by omega))).canR
  have k := k1.trans k2
  simp only [urcMakeMutClone]
  rw [bind_some e1, bind_some e2]
  cases sole
  · obtain ⟨_, s3, e3, h3, k3, _⟩ := h2.derefRead (k 0 _ hd (by simp)) (ushr_dropOther hf)
    exact ⟨s3, e3, h3, k.trans k3⟩
  · obtain ⟨_, s3, e3, h3, k3, _⟩ := ushr_loadCnt hf (.inr rfl) s2 h2
    obtain ⟨r, s4, e4, h4, k4, c4, _⟩ := ushr_masterRef hf s3 h3
    obtain ⟨s5, e5, h5, k5⟩ := h4.readAt (t := r.1) (lo := 2) (by omega)
      (canW_srw (c4 2 (by omega))).canR
    obtain ⟨_, s6, e6, h6, k6, _⟩ := ushr_loadCnt hf (.inl rfl) s5 h5
    have k := k.trans (k3.trans (k4.trans (k5.trans k6)))
    obtain ⟨_, s7, e7, h7, k7, _⟩ := h6.derefRead (k 0 _ hd (by simp)) (ushr_dropOther hf)
    refine ⟨s7, ?_, h7, k.trans k7⟩
    simp only [if_true]
    rw [bind_some e3, bind_some e4, bind_some e5, bind_some e6, e7]

theorem ushr_tryUnwrapErr {n f : Nat} (hf : IsBlk n f) (sole : Bool) :
    UShr n (urcTryUnwrapErr f sole) Any := by
  cases sole
  · exact ushr_masterRead hf (.inl rfl)
  · exact ushr_masterWrite hf (.inl rfl) (ushr_loadCnt hf (.inl rfl))

theorem ushr_tryUnwrapOk {n f : Nat} (hf : IsBlk n f) : UShr n (urcTryUnwrapOk f) Any := by
  refine ushr_masterWrite hf (.inl rfl) ((ushr_loadCnt hf (.inl rfl)).bind fun _ s h => ?_)
  obtain ⟨r, s1, e1, h1, k1, _, c1, _⟩ := ushr_masterRef hf s h
  obtain ⟨_, s2, e2, h2, k2, q⟩ := h1.derefRead (d := r.2) c1 (ushr_loadCnt hf (.inr rfl))
  exact ⟨(), s2, by rw [bind_some e1]; exact e2, h2, k1.trans k2, trivial⟩

theorem Blks.newFence {n : Nat} {s : St} (h : Blks n s) :
    ∃ s', Alias.newFence (fenceAt n) s = some ((), s') ∧ Blks (n + 1) s' ∧ Keeps s s' := by
  refine ⟨_, rfl, ⟨⟨.inr rfl, fun i hi => ?_, fun i x hx => ?_, h.inv.pos⟩, fun b h1 h2 => ?_,
    fun i h1 h2 => ?_, fun i hi => ?_⟩, fun i x hx hp => ?_⟩
  · have : ¬ (fenceAt n ≤ i ∧ i < fenceAt n + 3) := by simp only [fenceAt]; omega
    simp only [this, if_false]
    exact h.inv.rooted i hi
  · by_cases hr : fenceAt n ≤ i ∧ i < fenceAt n + 3
    · simp only [hr, and_self, if_true] at hx
      simp at hx
      subst hx
      exact h.inv.pos
    · simp only [hr, if_false] at hx
      exact h.inv.lt i x hx
  · by_cases hr : fenceAt n ≤ b ∧ b < fenceAt n + 3
    · simp only [hr, and_self, if_true]
      exact .root
    · simp only [hr, if_false]
      simp only [fenceAt] at hr
      exact h.val b h1 (by omega)
  · by_cases hr : fenceAt n ≤ i ∧ i < fenceAt n + 3
    · simp only [hr, and_self, if_true]
      exact ⟨fun x hx => by simp at hx; subst hx; rfl, rfl⟩
    · simp only [hr, if_false]
      simp only [fenceAt] at hr
      exact h.cnt i h1 (by omega)
  · have hr : ¬ (fenceAt n ≤ i ∧ i < fenceAt n + 3) := by simp only [fenceAt]; omega
    simp only [hr, if_false]
    exact h.out i (by omega)
  · by_cases hr : fenceAt n ≤ i ∧ i < fenceAt n + 3
    · have := h.out i (by simp only [fenceAt] at hr; omega)
      rw [this] at hx
      cases hx
    · simp only [hr, if_false]
      exact hx

theorem Blks.envelop {n f : Nat} {s : St} (h : Blks n s) (hf : IsBlk n f) :
    ∃ s', urcEnvelop f (fenceAt n) s = some ((), s') ∧ Blks (n + 1) s' ∧ Keeps s s' := by
  obtain ⟨r, s1, e1, h1, k1, c1, _⟩ := ushr_masterRef hf s h
  obtain ⟨s2, e2, h2, k2⟩ := h1.writeAt (t := r.1) (lo := 1) (by omega) (by omega)
    (canW_srw (c1 1 (.inl rfl)))
  obtain ⟨s3, e3, h3, k3⟩ := h2.newFence
  refine ⟨s3, ?_, h3, k1.trans (k2.trans k3)⟩
  simp only [urcEnvelop]
  rw [bind_some e1, bind_some e2, e3]

/-! ## Programs -/

/-- The state of a program: the `data` field, the `&T`s and the `Weak`s can be used. -/
structure UInv (g : UProg St) : Prop where
  blks : Blks g.n g.st
  some' : 0 < g.n
  data : (⟨g.d, .sro⟩ : Item) ∈ g.st.stack 0 ∧ g.d ≠ 0
  shr : ∀ t ∈ g.shr, (⟨t, .sro⟩ : Item) ∈ g.st.stack 0
  weaks : ∀ w ∈ g.weaks, IsWeak g.n w g.st

theorem isBlk_fence {n m : Nat} (h : m < n) : IsBlk n (fenceAt m) := by
  refine ⟨?_, ?_⟩ <;> simp only [fenceAt] <;> omega

theorem UInv.after {g : UProg St} (h : UInv g) {s : St} (hs : Blks g.n s) (hk : Keeps g.st s) :
    UInv { g with st := s } :=
  ⟨hs, h.some', ⟨hk 0 _ h.data.1 (by simp), h.data.2⟩, fun t ht => hk 0 _ (h.shr t ht) (by simp),
    fun w hw => (h.weaks w hw).keep hk⟩

theorem UInv.call {β : Type} {g : UProg St} (h : UInv g) {m : B β} {Q : β → St → Prop}
    (hm : UShr g.n m Q) {k : β → UProg St → UProg St}
    (hk : ∀ b st, UInv { g with st := st } → Q b st → UInv (k b { g with st := st })) :
    ∃ g', g.call m k = some g' ∧ UInv g' := by
  obtain ⟨b, s, e, hb, hkept, q⟩ := hm g.st h.blks
  exact ⟨k b { g with st := s }, by simp only [UProg.call, e], hk b s (h.after hb hkept) q⟩

theorem UInv.step {g : UProg St} (h : UInv g) (c : UCall) :
    ∃ g', g.step c = some g' ∧ UInv g' := by
  cases c with
  | deref =>
    simp only [UProg.step]
    obtain ⟨s, e, hb, hk, _, hm⟩ := h.blks.shrRef (t := g.d) (lo := 0) rfl (by omega)
      (canR_sro h.data.1)
    refine ⟨{ g with st := s, shr := g.shr ++ [g.st.next] },
      by simp only [UProg.call, urcDeref, e], ?_⟩
    have h' := h.after hb hk
    refine ⟨h'.blks, h'.some', h'.data, fun t ht => ?_, h'.weaks⟩
    rcases List.mem_append.1 ht with ht | ht
    · exact h'.shr t ht
    · simp at ht; subst ht; exact hm
  | read j =>
    simp only [UProg.step]
    cases hj : g.shr[j]? with
    | none => exact ⟨g, rfl, h⟩
    | some t =>
      obtain ⟨s, e, hb, hk⟩ := h.blks.readAt (t := t) (lo := 0) (by omega)
        (canR_sro (h.shr t (List.mem_of_getElem? hj)))
      exact ⟨{ g with st := s }, by simp only [UProg.call, e], h.after hb hk⟩
  | clone n =>
    simp only [UProg.step]
    split
    · rename_i hn
      exact h.call (ushr_bumpCnt (isBlk_fence hn) (.inl rfl)) fun _ _ h' _ => h'
    · exact ⟨g, rfl, h⟩
  | counts n =>
    simp only [UProg.step]
    split
    · rename_i hn
      exact h.call ((ushr_loadCnt (isBlk_fence hn) (.inl rfl)).bind fun _ =>
        ushr_loadCnt (isBlk_fence hn) (.inr rfl)) fun _ _ h' _ => h'
    · exact ⟨g, rfl, h⟩
  | sole n =>
    simp only [UProg.step]
    split
    · rename_i hn
      exact h.call (ushr_masterRead (isBlk_fence hn) (.inl rfl)) fun _ _ h' _ => h'
    · exact ⟨g, rfl, h⟩
  | getMutNone n =>
    simp only [UProg.step]
    split
    · rename_i hn
      exact h.call (ushr_isUnique (isBlk_fence hn)) fun _ _ h' _ => h'
    · exact ⟨g, rfl, h⟩
  | downgrade n =>
    simp only [UProg.step]
    split
    · rename_i hn
      refine h.call (ushr_downgrade (isBlk_fence hn) (by simp only [fenceAt]; omega))
        fun w st h' q => ⟨h'.blks, h'.some', h'.data, h'.shr, fun w' hw' => ?_⟩
      rcases List.mem_append.1 hw' with hw' | hw'
      · exact h'.weaks w' hw'
      · simp at hw'; subst hw'; exact q.2
    · exact ⟨g, rfl, h⟩
  | weakCounts j =>
    simp only [UProg.step]
    cases hj : g.weaks[j]? with
    | none => exact ⟨g, rfl, h⟩
    | some w =>
      have hw := h.weaks w (List.mem_of_getElem? hj)
      obtain ⟨s1, e1, h1, k1⟩ := h.blks.weakLoad hw (i := 2) (.inr rfl)
      obtain ⟨s2, e2, h2, k2⟩ := h1.weakLoad (hw.keep k1) (i := 1) (.inl rfl)
      refine ⟨{ g with st := s2 }, ?_, h.after h2 (k1.trans k2)⟩
      simp only [UProg.call]
      rw [bind_some e1, e2]
  | weakDrop j =>
    simp only [UProg.step]
    cases hj : g.weaks[j]? with
    | none => exact ⟨g, rfl, h⟩
    | some w =>
      have hw := h.weaks w (List.mem_of_getElem? hj)
      obtain ⟨s, e, hb, hk⟩ := h.blks.weakDropOther hw
      have h' := h.after hb hk
      exact ⟨{ g with st := s, weaks := g.weaks.eraseIdx j }, by simp only [UProg.call, e],
        h'.blks, h'.some', h'.data, h'.shr, fun w' hw' => h'.weaks w' (List.mem_of_mem_eraseIdx hw')⟩
  | weakDropLast j last =>
    simp only [UProg.step]
    cases hj : g.weaks[j]? with
    | none => exact ⟨g, rfl, h⟩
    | some w =>
      have hw := h.weaks w (List.mem_of_getElem? hj)
      obtain ⟨s, e, hb, hk⟩ := h.blks.weakDropLast hw last
      have h' := h.after hb hk
      exact ⟨{ g with st := s, weaks := g.weaks.eraseIdx j }, by simp only [UProg.call, e],
        h'.blks, h'.some', h'.data, h'.shr, fun w' hw' => h'.weaks w' (List.mem_of_mem_eraseIdx hw')⟩
  | makeMutClone n sole =>
    simp only [UProg.step]
    split
    · rename_i hn
      obtain ⟨s, e, hb, hk⟩ := h.blks.makeMutClone (isBlk_fence hn) h.data.1 sole
      exact ⟨{ g with st := s }, by simp only [UProg.call, e], h.after hb hk⟩
    · exact ⟨g, rfl, h⟩
  | tryUnwrapErr n sole =>
    simp only [UProg.step]
    split
    · rename_i hn
      exact h.call (ushr_tryUnwrapErr (isBlk_fence hn) sole) fun _ _ h' _ => h'
    · exact ⟨g, rfl, h⟩
  | tryUnwrapOk n =>
    simp only [UProg.step]
    split
    · rename_i hn
      exact h.call (ushr_tryUnwrapOk (isBlk_fence hn)) fun _ _ h' _ => h'
    · exact ⟨g, rfl, h⟩
  | drop n =>
    simp only [UProg.step]
    split
    · rename_i hn
      exact h.call (ushr_dropOther (isBlk_fence hn)) fun _ _ h' _ => h'
    · exact ⟨g, rfl, h⟩
  | envelop n =>
    simp only [UProg.step]
    split
    · rename_i hn
      obtain ⟨s, e, hb, hk⟩ := h.blks.envelop (isBlk_fence hn)
      refine ⟨{ g with st := s, n := g.n + 1 }, by simp only [UProg.call, e], hb, Nat.succ_pos _,
        ⟨hk 0 _ h.data.1 (by simp), h.data.2⟩, fun t ht => hk 0 _ (h.shr t ht) (by simp),
        fun w hw => ?_⟩
      obtain ⟨h1, h2, h3⟩ := (h.weaks w hw).keep hk
      exact ⟨⟨h1.1, by have := h1.2; show w.f < 3 + 3 * (g.n + 1); omega⟩, h2, h3⟩
    · exact ⟨g, rfl, h⟩

theorem UInv.run {g : UProg St} (h : UInv g) (cs : List UCall) :
    ∃ g', g.run cs = some g' ∧ UInv g' := by
  induction cs generalizing g with
  | nil => exact ⟨g, rfl, h⟩
  | cons c cs ih =>
    obtain ⟨g1, e1, h1⟩ := h.step c
    obtain ⟨g2, e2, h2⟩ := ih h1
    exact ⟨g2, by simp only [UProg.run, e1, e2], h2⟩

theorem blks_fresh : Blks 1 (fresh .srw 6) := by
  refine ⟨⟨.inr rfl, fun i hi => ?_, fun i x hx => ?_, Nat.one_pos⟩, fun i h1 hi => ?_,
    fun i h1 hi => ?_, fun i hi => ?_⟩
  · have : i < 6 := by omega
    simp only [fresh, this, if_true]; exact .root
  · simp only [fresh] at hx ⊢
    split at hx
    · simp at hx; subst hx; exact Nat.one_pos
    · cases hx
  · have : i < 6 := by omega
    simp only [fresh, this, if_true]; exact .root
  · have : i < 6 := by omega
    simp only [fresh, this, if_true]
    exact ⟨fun x hx => by simp at hx; subst hx; rfl, rfl⟩
  · have : ¬ i < 6 := by omega
    simp only [fresh, this, if_false]

theorem uinv_start : ∃ g, UProg.start (σ := St) = some g ∧ UInv g := by
  obtain ⟨r, s1, e1, h1, k1, _, c1, _⟩ := ushr_boxRef (n := 1) (b := 0) ⟨rfl, by omega⟩ _ blks_fresh
  obtain ⟨s2, e2, h2, k2, n2, m2⟩ := h1.shrRef (t := r.2) (lo := 0) rfl (by omega) (canR_sro c1)
  have e : urcData (Mach.heap 6 : St) = some (s1.next, s2) := by
    simp only [urcData]
    exact (bind_some e1).trans e2
  refine ⟨⟨s2, 1, s1.next, [], []⟩, by simp only [UProg.start, e], h2, Nat.one_pos, ⟨m2, ?_⟩,
    fun t ht => (nomatch ht), fun w hw => (nomatch hw)⟩
  have := h1.inv.pos
  show s1.next ≠ 0
  omega

theorem uinv_new {d : Nat} {s : St} (e : urcData (Mach.heap 6 : St) = some (d, s)) :
    UInv ⟨s, 1, d, [], []⟩ := by
  obtain ⟨g, eg, h⟩ := uinv_start
  simp only [UProg.start, e] at eg
  cases eg
  exact h

/-! ## What takes rights away -/

/-- The pointer of the handles is at the bottom everywhere. -/
structure Loose (n : Nat) (s : St) : Prop where
  inv : Inv .srw 1 s
  based : ∀ i, i < 3 + 3 * n → Based (s.stack i)

theorem Blks.loose {n : Nat} {s : St} (h : Blks n s) : Loose n s := by
  refine ⟨h.inv, fun i hi => ?_⟩
  by_cases hm : i % 3 = 0
  · exact (h.val i hm hi).based
  · exact (h.cnt i hm hi).based

theorem Loose.mutRef {n : Nat} {s : St} (h : Loose n s) {t lo k : Nat}
    (hc : ∀ i, lo ≤ i → i < lo + k → CanW t (s.stack i)) :
    ∃ s', Mach.mutRef t lo k s = some (s.next, s') ∧ Loose n s' ∧ s'.next = s.next + 1 ∧
      Out lo k s s' ∧ ∀ i, lo ≤ i → i < lo + k → CanW s.next (s'.stack i) := by
  obtain ⟨s', e, hi, hn, ho, hk⟩ := h.inv.mutRef (t := t) (lo := lo) (n := k) hc
  exact ⟨s', e, ⟨hi, fun i hi => retag_keep (fun _ _ => Based.mutRef) e (h.based i hi)⟩, hn, ho, hk⟩

theorem Loose.rawMut {n : Nat} {s : St} (h : Loose n s) {t lo k : Nat} (ht : t ≠ 0)
    (hc : ∀ i, lo ≤ i → i < lo + k → CanW t (s.stack i)) :
    ∃ s', Mach.rawMut t lo k s = some (s.next, s') ∧ Loose n s' ∧ s'.next = s.next + 1 ∧
      Out lo k s s' ∧ ∀ i, lo ≤ i → i < lo + k → CanW s.next (s'.stack i) := by
  obtain ⟨s', e, hi, hn, ho, hk⟩ := h.inv.rawMut (t := t) (lo := lo) (n := k) ht hc
  exact ⟨s', e, ⟨hi, fun i hi => retag_keep (fun _ _ => Based.rawMut) e (h.based i hi)⟩, hn, ho,
    fun i h1 h2 => canW_srw (hk i h1 h2)⟩

theorem Loose.readAt {n : Nat} {s : St} (h : Loose n s) {t lo : Nat}
    (hc : CanR t (s.stack lo)) :
    ∃ s', Mach.readAt t lo 1 s = some ((), s') ∧ Loose n s' ∧ s'.next = s.next ∧ Out lo 1 s s' := by
  obtain ⟨s', e, hi, hn, ho, _⟩ := h.inv.readAt (t := t) (lo := lo) (n := 1) fun j h1 h2 => by
    have : j = lo := by omega
    subst this; exact hc
  exact ⟨s', e, ⟨hi, fun i hi => touch_keep (fun _ _ => Based.read) e (h.based i hi)⟩, hn, ho⟩

theorem Loose.writeAt {n : Nat} {s : St} (h : Loose n s) {t lo : Nat}
    (hc : CanW t (s.stack lo)) :
    ∃ s', Mach.writeAt t lo 1 s = some ((), s') ∧ Loose n s' ∧ s'.next = s.next ∧ Out lo 1 s s' := by
  obtain ⟨s', e, hi, hn, ho, _⟩ := h.inv.writeAt (t := t) (lo := lo) (n := 1) fun j h1 h2 => by
    have : j = lo := by omega
    subst this; exact hc
  exact ⟨s', e, ⟨hi, fun i hi => touch_keep (fun _ _ => Based.write) e (h.based i hi)⟩, hn, ho⟩

/-- A `&mut` of a block made from the pointer of the handles takes the rights of all others to the
slot of a value or a field away. -/
theorem mutRef_root_gone {b k r u i : Nat} {s s' : St} (e : Mach.mutRef 0 b k s = some (r, s'))
    (hl : b ≤ i) (hu : i < b + k) (hr : Rooted .srw (s.stack i)) (h0 : u ≠ 0) (hn : u ≠ s.next) :
    Gone u (s'.stack i) := by
  simp only [mach_mutRef, SB.mutRef, retag] at e
  split at e
  · rename_i st est
    cases e
    have h2 := (forSlots_some est).1 i hl hu
    rw [hr.mutRef_root (.inr rfl)] at h2
    have := Option.some.inj h2
    show Gone u (st i)
    rw [← this]
    intro x hx
    simp at hx
    rcases hx with rfl | rfl
    · exact fun e => hn e.symm
    · exact fun e => h0 e.symm
  · cases e

/-- `master_mut` works, and afterwards no older `&` to the data can be used; fields and counters of
other pointers that are gone stay gone. -/
theorem Loose.masterMut {n f : Nat} {s : St} (h : Loose n s) (hf : IsBlk n f) :
    ∃ m s', Alias.masterMut f s = some (m, s') ∧ Loose n s' ∧ s.next ≤ m ∧ s'.next = m + 1 ∧
      (∀ i, i < 3 → CanW m (s'.stack i)) ∧
      (∀ u, u ≠ 0 → u < s.next → Gone u (s'.stack 0)) ∧
      ∀ u i, u < s.next → Gone u (s.stack i) → Gone u (s'.stack i) := by
  have hl := hf.2; have hm := hf.1
  obtain ⟨s1, e1, h1, n1, o1, c1⟩ := h.mutRef (t := 0) (lo := f) (k := 3) fun i _ hi =>
    (h.based i (by omega)).canW
  obtain ⟨s2, e2, h2, n2, o2, c2⟩ := h1.mutRef (t := s.next) (lo := f) (k := 1) fun i h1 h2 =>
    c1 i h1 (by omega)
  obtain ⟨s3, e3, h3', n3, o3⟩ := h2.readAt (t := s1.next) (lo := f)
    (c2 f (Nat.le_refl _) (by omega)).canR
  obtain ⟨s4, e4, h4, n4, o4, c4⟩ := h3'.mutRef (t := 0) (lo := 0) (k := 3) fun i _ hi =>
    (h3'.based i (by omega)).canW
  refine ⟨s3.next, s4, ?_, h4, by omega, n4, fun i hi => c4 i (Nat.zero_le _) (by omega),
    fun u h0 hu => ?_, fun u i hu hg => ?_⟩
  · simp only [Alias.masterMut, boxMut]
    rw [bind_some e1, bind_some e2, bind_some e3, e4]
  · exact mutRef_root_gone e4 (Nat.le_refl _) (by omega) (h3'.inv.rooted 0 Nat.one_pos) h0
      (by omega)
  · exact mutRef_stays e4 (by omega) (readAt_stays e3 (mutRef_stays e2 (by omega)
      (mutRef_stays e1 (by omega) hg)))

theorem retag_le {f : Nat → Stack → Option Stack} {lo n r : Nat} {s s' : St}
    (h : retag f lo n s = some (r, s')) : s.next ≤ s'.next := by
  rw [retag_next h]; omega

theorem UInv.d_lt {g : UProg St} (h : UInv g) : g.d < g.st.next := h.blks.inv.lt 0 _ h.data.1

/-- Code that only makes new pointers. -/
def Mono {β : Type} (m : B β) : Prop := ∀ s b s', m s = some (b, s') → s.next ≤ s'.next

theorem Mono.bind {β γ : Type} {m : B β} {k : β → B γ} (h : Mono m) (hk : ∀ b, Mono (k b)) :
    Mono (m >>= k) := by
  intro s b s' e
  obtain ⟨c, s1, e1, e2⟩ := bind_inv e
  exact Nat.le_trans (h _ _ _ e1) (hk c _ _ _ e2)

theorem mono_retag {f : Nat → Stack → Option Stack} {lo n : Nat} : Mono (retag f lo n) :=
  fun _ _ _ e => retag_le e

theorem mono_touch {f : Stack → Option Stack} {lo n : Nat} : Mono (touch f lo n) := by
  intro s b s' e
  simp only [touch] at e
  split at e
  · cases e; exact Nat.le_refl _
  · cases e

theorem mono_ret {β : Type} (b : β) : Mono (ret b) := by
  intro s c s' e
  cases e
  exact Nat.le_refl _

theorem mono_boxRef (b : Nat) : Mono (boxRef b) :=
  mono_retag.bind fun _ => mono_retag.bind fun _ => mono_ret _

theorem mono_loadCnt (b i : Nat) : Mono (loadCnt b i) := (mono_boxRef b).bind fun _ => mono_touch

theorem mono_masterRef (f : Nat) : Mono (masterRef f) :=
  (mono_boxRef f).bind fun _ => mono_touch.bind fun _ => mono_boxRef 0

theorem mono_isUnique (f : Nat) : Mono (urcIsUnique f) :=
  (mono_masterRef f).bind fun _ => mono_touch.bind fun _ => (mono_masterRef f).bind fun _ =>
    mono_touch.bind fun _ => (mono_masterRef f).bind fun _ => mono_touch.bind fun _ =>
      (mono_loadCnt f 1).bind fun _ => mono_loadCnt f 2

/-- `get_mut_unchecked` works, and then the `data` field can no longer be used. -/
theorem Loose.getMutUnchecked {n f d : Nat} {s : St} (h : Loose n s) (hf : IsBlk n f)
    (h0 : d ≠ 0) (hd : d < s.next) :
    ∃ t s1 s2, urcGetMutUnchecked f s = some (t, s1) ∧ Mach.writeAt t 0 1 s1 = some ((), s2) ∧
      urcDeref d s1 = none ∧ urcDeref d s2 = none := by
  obtain ⟨m, s1, e1, h1, hm, n1, c1, g1, _⟩ := h.masterMut hf
  obtain ⟨s2, e2, h2, n2, o2, c2⟩ := h1.mutRef (t := m) (lo := 0) (k := 1) fun i _ hi =>
    c1 i (by omega)
  obtain ⟨s3, e3, _⟩ := h2.writeAt (t := s1.next) (lo := 0) (c2 0 (Nat.le_refl _) (by omega))
  have gd := mutRef_stays e2 (by omega) (g1 d h0 hd)
  refine ⟨s1.next, s2, s3, ?_, e3, ?_, ?_⟩
  · simp only [urcGetMutUnchecked]
    rw [bind_some e1, e2]
  · exact shrRef_none (Nat.le_refl _) (by omega) gd
  · exact shrRef_none (Nat.le_refl _) (by omega) (writeAt_stays e3 gd)

theorem UInv.getMut {g : UProg St} (h : UInv g) {n : Nat} (hn : n < g.n) :
    ∃ t s1 s2, urcGetMut (fenceAt n) g.st = some (t, s1) ∧ Mach.writeAt t 0 1 s1 = some ((), s2) ∧
      urcDeref g.d s1 = none ∧ urcDeref g.d s2 = none := by
  obtain ⟨_, s1, e1, h1, k1, _⟩ := ushr_isUnique (isBlk_fence hn) g.st h.blks
  obtain ⟨t, s2, s3, e2, e3, d2, d3⟩ := h1.loose.getMutUnchecked (isBlk_fence hn) h.data.2
    (Nat.lt_of_lt_of_le h.d_lt (mono_isUnique _ _ _ _ e1))
  refine ⟨t, s2, s3, ?_, e3, d2, d3⟩
  simp only [urcGetMut]
  rw [bind_some e1, e2]

theorem makeMutNew : ∃ d t s1 s2, urcMakeMutNew (Mach.heap 6 : St) = some ((d, t), s1) ∧
    Mach.writeAt t 0 1 s1 = some ((), s2) ∧ urcDeref d s1 = none ∧ urcDeref d s2 = none := by
  obtain ⟨g, eg, _⟩ := uinv_start
  simp only [UProg.start] at eg
  split at eg
  · rename_i d s e
    have h := uinv_new e
    obtain ⟨t, s1, s2, e1, e2, d1, d2⟩ := h.blks.loose.getMutUnchecked (f := 3)
      (isBlk_fence (m := 0) Nat.one_pos)
      h.data.2 h.d_lt
    refine ⟨d, t, s1, s2, ?_, e2, d1, d2⟩
    simp only [urcMakeMutNew]
    rw [bind_some e, bind_some e1]
    rfl
  · cases eg

theorem UInv.dropFence {g : UProg St} (h : UInv g) {n : Nat} (hn : n < g.n) (last : Bool) :
    ∃ s1, urcDropFence (fenceAt n) last g.st = some ((), s1) ∧ urcDeref g.d s1 = none ∧
      ∀ t ∈ g.shr, Mach.readAt t 0 1 s1 = none := by
  have hb := isBlk_fence hn
  have h3 : 3 ≤ fenceAt n := by simp only [fenceAt]; omega
  obtain ⟨_, s1, e1, h1, k1, _⟩ := ushr_loadCnt (i := 1) hb (.inl rfl) g.st h.blks
  obtain ⟨_, s2, e2, h2, k2, _⟩ := ushr_loadCnt (i := 2) hb (.inr rfl) s1 h1
  have n1 := mono_loadCnt _ _ _ _ _ e1
  have n2 := mono_loadCnt _ _ _ _ _ e2
  obtain ⟨m, s3, e3, h3', hm, n3, c3, g3, _⟩ := h2.loose.masterMut hb
  have hpos := h2.inv.pos
  obtain ⟨s4, e4, h4, n4, o4, c4⟩ := h3'.rawMut (t := m) (lo := 0) (k := 3) (by omega)
    fun i _ hi => c3 i (by omega)
  obtain ⟨s5, e5, h5, n5, o5, c5⟩ := h4.mutRef (t := s3.next) (lo := 0) (k := 3) c4
  obtain ⟨s6, e6, h6, n6, o6, c6⟩ := h5.mutRef (t := 0) (lo := fenceAt n) (k := 3) fun i _ hi =>
    (h5.based i (by have := hb.2; have := hb.1; omega)).canW
  have c6' : ∀ i, i < 3 → CanW s4.next (s6.stack i) := fun i hi => by
    rw [o6 i (by omega)]; exact c5 i (Nat.zero_le _) (by omega)
  obtain ⟨s7, e7, h7, n7, o7⟩ := h6.writeAt (t := s4.next) (lo := 1) (c6' 1 (by omega))
  have gone : ∀ u, u ≠ 0 → u < g.st.next → Gone u (s7.stack 0) := fun u h0 hu =>
    writeAt_stays e7 (mutRef_stays e6 (by omega) (mutRef_stays e5 (by omega)
      (rawMut_stays e4 (by omega) (g3 u h0 (by omega)))))
  have hshr : ∀ t ∈ g.shr, t ≠ 0 ∧ t < g.st.next := fun t ht => by
    have := h.shr t ht
    refine ⟨?_, h.blks.inv.lt 0 _ this⟩
    rintro rfl
    have hr := h.blks.val 0 rfl (by omega)
    generalize g.st.stack 0 = k at hr this
    induction hr with
    | root => simp at this
    | cons i k h1 _ _ ih =>
      rcases List.mem_cons.1 this with rfl | this
      · exact h1 rfl
      · exact ih this
  cases last with
  | false =>
    refine ⟨s7, ?_, shrRef_none (Nat.le_refl _) (by omega) (gone _ h.data.2 h.d_lt), fun t ht =>
      readAt_none (Nat.le_refl _) (by omega) (gone t (hshr t ht).1 (hshr t ht).2)⟩
    simp only [urcDropFence]
    rw [bind_some e1, bind_some e2, bind_some e3, bind_some e4, bind_some e5,
      bind_some (show boxMut (fenceAt n) s5 = _ from e6), bind_some e7]
    rfl
  | true =>
    have c7 : ∀ i, i = 0 ∨ i = 2 → CanW s4.next (s7.stack i) := fun i hi => by
      rw [o7 i (by omega)]; exact c6' i (by omega)
    obtain ⟨s8, e8, h8, n8, o8, c8⟩ := h7.mutRef (t := s4.next) (lo := 0) (k := 1) fun i _ hi => by
      have : i = 0 := by omega
      subst this; exact c7 0 (.inl rfl)
    obtain ⟨s9, e9, h9, n9, o9⟩ := h8.readAt (t := s4.next) (lo := 2) (by
      rw [o8 2 (by omega)]; exact (c7 2 (.inr rfl)).canR)
    have gone9 : ∀ u, u ≠ 0 → u < g.st.next → Gone u (s9.stack 0) := fun u h0 hu =>
      readAt_stays e9 (mutRef_stays e8 (by omega) (gone u h0 hu))
    refine ⟨s9, ?_, shrRef_none (Nat.le_refl _) (by omega) (gone9 _ h.data.2 h.d_lt), fun t ht =>
      readAt_none (Nat.le_refl _) (by omega) (gone9 t (hshr t ht).1 (hshr t ht).2)⟩
    simp only [urcDropFence]
    rw [bind_some e1, bind_some e2, bind_some e3, bind_some e4, bind_some e5,
      bind_some (show boxMut (fenceAt n) s5 = _ from e6), bind_some e7]
    simp only [if_true]
    rw [bind_some e8, e9]

theorem UInv.moveOut {g : UProg St} (h : UInv g) {w : UWeak} (hw : w ∈ g.weaks) :
    ∃ s1, urcMoveOut w.f g.d g.st = some ((), s1) ∧ Alias.weakFence w s1 = none := by
  obtain ⟨hb, h3, ⟨_, c2, h0⟩, _⟩ := h.weaks w hw
  have hl := hb.2; have hm := hb.1
  obtain ⟨s1, e1, h1, k1, n1, m1⟩ := h.blks.shrRef (t := g.d) (lo := 0) rfl (by omega)
    (canR_sro h.data.1)
  obtain ⟨s2, e2, h2, k2⟩ := h1.readAt (t := g.st.next) (lo := 0) (by omega) (canR_sro m1)
  have hlt : w.fence.2 < s2.next :=
    h2.inv.lt w.f ⟨w.fence.2, .sro⟩ (k2 _ _ (k1 _ _ c2 (by simp)) (by simp))
  obtain ⟨s3, e3, h3', n3, o3, c3⟩ := h2.loose.mutRef (t := 0) (lo := w.f) (k := 3) fun i _ hi =>
    (h2.loose.based i (by omega)).canW
  have g3 : Gone w.fence.2 (s3.stack w.f) :=
    mutRef_root_gone e3 (Nat.le_refl _) (by omega) (h2.val w.f hm hl) h0 (by omega)
  obtain ⟨s4, e4, h4, n4, o4⟩ := h3'.writeAt (t := s2.next) (lo := w.f + 1)
    (c3 (w.f + 1) (by omega) (by omega))
  obtain ⟨m, s5, e5, h5, hm5, n5, c5, _, g5⟩ := h4.masterMut hb
  obtain ⟨s6, e6, h6, n6, o6⟩ := h5.writeAt (t := m) (lo := 1) (c5 1 (by omega))
  have g6 : Gone w.fence.2 (s6.stack w.f) :=
    writeAt_stays e6 (g5 _ _ (by omega) (writeAt_stays e4 g3))
  refine ⟨s6, ?_, ?_⟩
  · simp only [urcMoveOut]
    rw [bind_some (show urcDeref g.d g.st = _ from e1), bind_some e2,
      bind_some (show boxMut w.f s2 = _ from e3), bind_some e4, bind_some e5, e6]
  · simp only [Alias.weakFence]
    cases e : Mach.rawMut w.fence.1 (w.f + 1) 2 s6 with
    | none => exact bind_none e
    | some x =>
      obtain ⟨c, s7⟩ := x
      have hlt7 : w.fence.2 ≠ s6.next := by omega
      rw [bind_some e]
      exact bind_none (shrRef_none (Nat.le_refl _) (by omega) (rawMut_stays e hlt7 g6))

end Lokky.SB
