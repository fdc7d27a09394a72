import Verif.Proofs.TreeRc

/-!
# Lemmas on the pointers of `Urc` under Tree Borrows
-/

open Lokky.Alias

namespace Lokky.TB

/-- The state of the master and `n` fences. -/
structure Blks (n : Nat) (s : St) : Prop where
  inv : Inv s
  live : ∀ i, i < 3 + 3 * n → s.live i = true

/-- The value and the master pointers of the fences were only read. -/
structure Ukp (n : Nat) (s s' : St) : Prop where
  next : s.next ≤ s'.next
  live : ∀ i, s.live i = true → s'.live i = true
  path : ∀ t, t < s.next → s'.path t = s.path t
  perm : ∀ i u, i % 3 = 0 → i < 3 + 3 * n → u < s.next →
    s'.perm i u = s.perm i u ∨ s.perm i u = .active ∧ s'.perm i u = .frozen

theorem Ukp.trans {n : Nat} {s s' s'' : St} (h : Ukp n s s') (h' : Ukp n s' s'') :
    Ukp n s s'' :=
  ⟨Nat.le_trans h.next h'.next, fun i hi => h'.live i (h.live i hi),
    fun t ht => by rw [h'.path t (Nat.lt_of_lt_of_le ht h.next), h.path t ht],
    fun i u hi hl hu => by
      rcases h'.perm i u hi hl (Nat.lt_of_lt_of_le hu h.next) with e' | ⟨e', f'⟩
      · rw [e']; exact h.perm i u hi hl hu
      · rcases h.perm i u hi hl hu with e | ⟨_, f⟩
        · exact .inr ⟨by rw [← e, e'], f'⟩
        · rw [f] at e'; cases e'⟩

theorem Ukp.refl (n : Nat) (s : St) : Ukp n s s :=
  ⟨Nat.le_refl _, fun _ h => h, fun _ _ => rfl, fun _ _ _ _ _ => .inl rfl⟩

theorem Rd.ukp {s s' : St} (h : Rd s s') (n : Nat) : Ukp n s s' :=
  ⟨h.next, fun i hi => by rw [h.live]; exact hi, h.path, fun i u _ _ hu => (h i).perm u hu⟩

theorem Wr.ukp {s s' : St} {i : Nat} (h : Wr i 1 s s') (hi : i % 3 ≠ 0) (n : Nat) : Ukp n s s' :=
  ⟨Nat.le_of_eq h.next.symm, fun j hj => by rw [h.live]; exact hj, fun t _ => by rw [h.path],
    fun j u hj _ _ => .inl (h.perm j u (by omega))⟩

theorem Blks.to {n : Nat} {s s' : St} (h : Blks n s) (hi : Inv s') (hk : Ukp n s s') :
    Blks n s' := ⟨hi, fun i hl => hk.live i (h.live i hl)⟩

theorem Blks.res {n : Nat} {s : St} (h : Blks n s) {i : Nat} (hi : i < 3 + 3 * n) : Res s 0 i :=
  h.inv.res_root (h.live i hi)

/-- Pointer `t` is as good as the pointer of the handles. -/
def Raw (t : Nat) (s : St) : Prop := t < s.next ∧ s.path t = [0]

/-- Pointer `t` can read slot `i`. -/
def Ref (i t : Nat) (s : St) : Prop := t < s.next ∧ CanR s t i

theorem Raw.ukp {n t : Nat} {s s' : St} (h : Raw t s) (hk : Ukp n s s') : Raw t s' :=
  ⟨Nat.lt_of_lt_of_le h.1 hk.next, by rw [hk.path t h.1]; exact h.2⟩

theorem Ref.ukp {n i t : Nat} {s s' : St} (h : Ref i t s) (hs : Inv s) (hi : i % 3 = 0)
    (hl : i < 3 + 3 * n) (hk : Ukp n s s') : Ref i t s' :=
  ⟨Nat.lt_of_lt_of_le h.1 hk.next, hk.live i h.2.1, fun u hu => by
    rw [hk.path t h.1] at hu
    rcases hk.perm i u hi hl (hs.old t u hu) with e | ⟨_, e⟩
    · rw [e]; exact h.2.2 u hu
    · rw [e]; decide⟩

theorem Raw.canW {n t i : Nat} {s : St} (h : Raw t s) (hb : Blks n s) (hi : i < 3 + 3 * n) :
    CanW s t i :=
  ⟨hb.live i hi, fun u hu => by
    rw [h.2] at hu
    simp at hu
    subst hu
    exact .inr (hb.inv.act i)⟩

theorem one {P : Nat → Prop} {i : Nat} (h : P i) : ∀ j, i ≤ j → j < i + 1 → P j :=
  fun j h1 h2 => by rw [show j = i by omega]; exact h

theorem Blks.readAt {n : Nat} {s : St} (h : Blks n s) {t i : Nat} (hc : CanR s t i) :
    ∃ s', Mach.readAt t i 1 s = some ((), s') ∧ Blks n s' ∧ Ukp n s s' := by
  obtain ⟨s', e, i', r, _⟩ := h.inv.readAt (t := t) (lo := i) (n := 1) (one hc)
  exact ⟨s', e, h.to i' (r.ukp n), r.ukp n⟩

theorem Blks.writeAt {n : Nat} {s : St} (h : Blks n s) {t i : Nat} (hi : i % 3 ≠ 0)
    (hc : CanW s t i) :
    ∃ s', Mach.writeAt t i 1 s = some ((), s') ∧ Blks n s' ∧ Ukp n s s' ∧ Wr i 1 s s' := by
  obtain ⟨s', e, i', r, _⟩ := h.inv.writeAt (t := t) (lo := i) (n := 1) (one hc)
  exact ⟨s', e, h.to i' (r.ukp hi n), r.ukp hi n, r⟩

theorem Blks.shrRef {n : Nat} {s : St} (h : Blks n s) {t i : Nat} (hc : CanR s t i) :
    ∃ r s', Mach.shrRef t i 1 s = some (r, s') ∧ Blks n s' ∧ Ukp n s s' ∧ Ref i r s' := by
  obtain ⟨s', e, i', r, n', c⟩ := h.inv.shrRef (t := t) (lo := i) (n := 1) (one hc)
  exact ⟨_, s', e, h.to i' (r.ukp n), r.ukp n, by rw [n']; exact Nat.lt_succ_self _, c i hc⟩

theorem Blks.rawMut {n : Nat} {s : St} (h : Blks n s) {t lo k : Nat} (ht : Raw t s) :
    ∃ r s', Mach.rawMut t lo k s = some (r, s') ∧ Blks n s' ∧ Ukp n s s' ∧ Raw r s' := by
  obtain ⟨s', e, i', r, n', _, _, _, p⟩ := h.inv.rawMut (t := t) (lo := lo) (n := k)
  exact ⟨_, s', e, h.to i' (r.ukp n), r.ukp n, by rw [n']; exact Nat.lt_succ_self _,
    by rw [p]; exact ht.2⟩

/-- Is there a block at `b`? -/
def IsBlk (n b : Nat) : Prop := b % 3 = 0 ∧ b < 3 + 3 * n

theorem isBlk_fence {n m : Nat} (h : m < n) : IsBlk n (fenceAt m) := by
  refine ⟨?_, ?_⟩ <;> simp only [fenceAt] <;> omega

/-- The results of `boxRef b` are pointers to a block. -/
def IsBox (b : Nat) (r : Nat × Nat) (s : St) : Prop := Raw r.1 s ∧ Ref b r.2 s

theorem IsBox.ukp {n b : Nat} {r : Nat × Nat} {s s' : St} (h : IsBox b r s) (hs : Inv s)
    (hb : IsBlk n b) (hk : Ukp n s s') : IsBox b r s' :=
  ⟨h.1.ukp hk, h.2.ukp hs hb.1 hb.2 hk⟩

/-- Code that works in every such state and takes no rights away. -/
def UShr {β : Type} (n : Nat) (m : B β) (Q : β → St → Prop) : Prop :=
  ∀ s, Blks n s → ∃ b s', m s = some (b, s') ∧ Blks n s' ∧ Ukp n s s' ∧ Q b s'

theorem UShr.bind {β γ : Type} {n : Nat} {m : B β} {k : β → B γ} {Q : β → St → Prop}
    {R : γ → St → Prop} (h : UShr n m Q) (hk : ∀ b, UShr n (k b) R) : UShr n (m >>= k) R := by
  intro s hs
  obtain ⟨b, s1, e1, h1, k1, _⟩ := h s hs
  obtain ⟨c, s2, e2, h2, k2, q2⟩ := hk b s1 h1
  exact ⟨c, s2, by rw [bind_some e1, e2], h2, k1.trans k2, q2⟩

/-- The two references of `boxRef`, from pointers that are good for them. -/
theorem Blks.pair {n b t u : Nat} {s : St} (h : Blks n s) (hb : IsBlk n b) (ht : Raw t s)
    (hu : Ref b u s) :
    ∃ r s', (do
      let c ← Mach.rawMut t (b + 1) 2
      let v ← Mach.shrRef u b 1
      ret (c, v) : B (Nat × Nat)) s = some (r, s') ∧ Blks n s' ∧ Ukp n s s' ∧ IsBox b r s' := by
  obtain ⟨c, s1, e1, h1, k1, q1⟩ := h.rawMut (lo := b + 1) (k := 2) ht
  obtain ⟨v, s2, e2, h2, k2, q2⟩ := h1.shrRef (hu.ukp h.inv hb.1 hb.2 k1).2
  refine ⟨(c, v), s2, ?_, h2, k1.trans k2, q1.ukp k2, q2⟩
  rw [bind_some e1, bind_some e2]
  rfl

theorem Blks.root {n b : Nat} {s : St} (h : Blks n s) (hb : IsBlk n b) : IsBox b (0, 0) s :=
  ⟨⟨h.inv.pos, h.inv.own⟩, h.inv.pos, ((h.res hb.2).canW h.inv).canR⟩

theorem ushr_boxRef {n b : Nat} (hb : IsBlk n b) : UShr n (boxRef b) (IsBox b) :=
  fun _ h => h.pair hb (h.root hb).1 (h.root hb).2

theorem Blks.readRaw {n t i : Nat} {s : St} (h : Blks n s) (ht : Raw t s) (hi : i < 3 + 3 * n) :
    ∃ s', Mach.readAt t i 1 s = some ((), s') ∧ Blks n s' ∧ Ukp n s s' :=
  h.readAt (ht.canW h hi).canR

theorem Blks.writeRaw {n t i : Nat} {s : St} (h : Blks n s) (ht : Raw t s) (hi : i < 3 + 3 * n)
    (hm : i % 3 ≠ 0) :
    ∃ s', Mach.writeAt t i 1 s = some ((), s') ∧ Blks n s' ∧ Ukp n s s' := by
  obtain ⟨s', e, h', k, _⟩ := h.writeAt hm (ht.canW h hi)
  exact ⟨s', e, h', k⟩

theorem ushr_loadCnt {n b i : Nat} (hb : IsBlk n b) (hi : i = 1 ∨ i = 2) :
    UShr n (loadCnt b i) Nothing := by
  intro s h
  obtain ⟨r, s1, e1, h1, k1, c1, _⟩ := ushr_boxRef hb s h
  have hl := hb.2; have hm := hb.1
  obtain ⟨s2, e2, h2, k2⟩ := h1.readRaw (i := b + i) c1 (by omega)
  refine ⟨(), s2, ?_, h2, k1.trans k2, trivial⟩
  simp only [loadCnt]
  rw [bind_some e1, e2]

theorem ushr_bumpCnt {n b i : Nat} (hb : IsBlk n b) (hi : i = 1 ∨ i = 2) :
    UShr n (bumpCnt b i) Nothing := by
  intro s h
  obtain ⟨r, s1, e1, h1, k1, c1, _⟩ := ushr_boxRef hb s h
  have hl := hb.2; have hm := hb.1
  obtain ⟨s2, e2, h2, k2⟩ := h1.readRaw (i := b + i) c1 (by omega)
  obtain ⟨s3, e3, h3, k3⟩ := h2.writeRaw (i := b + i) (c1.ukp k2) (by omega) (by omega)
  refine ⟨(), s3, ?_, h3, k1.trans (k2.trans k3), trivial⟩
  simp only [bumpCnt]
  rw [bind_some e1, bind_some e2, e3]

theorem isBlk_zero (n : Nat) : IsBlk n 0 := ⟨rfl, by omega⟩

theorem ushr_masterRef {n f : Nat} (hf : IsBlk n f) : UShr n (masterRef f) (IsBox 0) := by
  intro s h
  obtain ⟨r, s1, e1, h1, k1, _, c1⟩ := ushr_boxRef hf s h
  obtain ⟨s2, e2, h2, k2⟩ := h1.readAt c1.2
  obtain ⟨q, s3, e3, h3, k3, c3⟩ := ushr_boxRef (isBlk_zero n) s2 h2
  refine ⟨q, s3, ?_, h3, k1.trans (k2.trans k3), c3⟩
  simp only [masterRef]
  rw [bind_some e1, bind_some e2, e3]

/-- Reading a counter of the master. -/
theorem ushr_masterRead {n f i : Nat} (hf : IsBlk n f) (hi : i = 1 ∨ i = 2) :
    UShr n (do let r ← masterRef f; Mach.readAt r.1 i 1) Nothing := by
  intro s h
  obtain ⟨r, s1, e1, h1, k1, c1, _⟩ := ushr_masterRef hf s h
  obtain ⟨s2, e2, h2, k2⟩ := h1.readRaw (i := i) c1 (by omega)
  exact ⟨(), s2, by rw [bind_some e1, e2], h2, k1.trans k2, trivial⟩

/-- Writing a counter of the master, and going on. -/
theorem ushr_masterWrite {β : Type} {n f i : Nat} (hf : IsBlk n f) (hi : i = 1 ∨ i = 2) {m : B β}
    {Q : β → St → Prop} (hm : UShr n m Q) :
    UShr n (do let r ← masterRef f; Mach.writeAt r.1 i 1; m) Q := by
  intro s h
  obtain ⟨r, s1, e1, h1, k1, c1, _⟩ := ushr_masterRef hf s h
  obtain ⟨s2, e2, h2, k2⟩ := h1.writeRaw (i := i) c1 (by omega) (by omega)
  obtain ⟨b, s3, e3, h3, k3, q⟩ := hm s2 h2
  exact ⟨b, s3, by rw [bind_some e1, bind_some e2, e3], h3, k1.trans (k2.trans k3), q⟩

/-- Reading a counter of the master, and going on. -/
theorem ushr_masterReadThen {β : Type} {n f i : Nat} (hf : IsBlk n f) (hi : i = 1 ∨ i = 2)
    {m : B β} {Q : β → St → Prop} (hm : UShr n m Q) :
    UShr n (do let r ← masterRef f; Mach.readAt r.1 i 1; m) Q := by
  intro s h
  obtain ⟨r, s1, e1, h1, k1, c1, _⟩ := ushr_masterRef hf s h
  obtain ⟨s2, e2, h2, k2⟩ := h1.readRaw (i := i) c1 (by omega)
  obtain ⟨b, s3, e3, h3, k3, q⟩ := hm s2 h2
  exact ⟨b, s3, by rw [bind_some e1, bind_some e2, e3], h3, k1.trans (k2.trans k3), q⟩

theorem ushr_isUnique {n f : Nat} (hf : IsBlk n f) : UShr n (urcIsUnique f) Nothing :=
  ushr_masterWrite hf (.inr rfl) (ushr_masterReadThen hf (.inl rfl)
    (ushr_masterWrite hf (.inr rfl)
      ((ushr_loadCnt hf (.inl rfl)).bind fun _ => ushr_loadCnt hf (.inr rfl))))

theorem ushr_dropOther {n f : Nat} (hf : IsBlk n f) : UShr n (urcDropOther f) Nothing :=
  (ushr_loadCnt hf (.inl rfl)).bind fun _ => (ushr_loadCnt hf (.inr rfl)).bind fun _ =>
    ushr_bumpCnt hf (.inl rfl)

/-! ## `Weak`s -/

/-- The references of a `Weak`. -/
def IsWeak (n : Nat) (w : UWeak) (s : St) : Prop :=
  IsBlk n w.f ∧ IsBox w.f w.fence s ∧ IsBox 0 w.master s

theorem IsWeak.ukp {n : Nat} {w : UWeak} {s s' : St} (h : IsWeak n w s) (hs : Inv s)
    (hk : Ukp n s s') : IsWeak n w s' :=
  ⟨h.1, h.2.1.ukp hs h.1 hk, h.2.2.ukp hs (isBlk_zero n) hk⟩

theorem ushr_downgrade {n f : Nat} (hf : IsBlk n f) :
    UShr n (urcDowngrade f) (IsWeak n) := by
  intro s h
  obtain ⟨_, s1, e1, h1, k1, _⟩ := ushr_bumpCnt (i := 2) hf (.inr rfl) s h
  obtain ⟨r, s2, e2, h2, k2, c2⟩ := ushr_boxRef hf s1 h1
  obtain ⟨q, s3, e3, h3, k3, c3⟩ := ushr_masterRef hf s2 h2
  refine ⟨⟨f, r, q⟩, s3, ?_, h3, k1.trans (k2.trans k3), hf, c2.ukp h2.inv hf k3, c3⟩
  simp only [urcDowngrade]
  rw [bind_some e1, bind_some e2, bind_some e3]
  rfl

theorem Blks.weakFence {n : Nat} {s : St} (h : Blks n s) {w : UWeak} (hw : IsWeak n w s) :
    ∃ r s', Alias.weakFence w s = some (r, s') ∧ Blks n s' ∧ Ukp n s s' ∧ IsBox w.f r s' :=
  h.pair hw.1 hw.2.1.1 hw.2.1.2

theorem Blks.weakMaster {n : Nat} {s : St} (h : Blks n s) {w : UWeak} (hw : IsWeak n w s) :
    ∃ r s', Alias.weakMaster w s = some (r, s') ∧ Blks n s' ∧ Ukp n s s' ∧ IsBox 0 r s' :=
  h.pair (isBlk_zero n) hw.2.2.1 hw.2.2.2

theorem Blks.weakLoad {n i : Nat} {s : St} (h : Blks n s) {w : UWeak} (hw : IsWeak n w s)
    (hi : i = 1 ∨ i = 2) :
    ∃ s', Alias.weakLoad w i s = some ((), s') ∧ Blks n s' ∧ Ukp n s s' := by
  obtain ⟨r, s1, e1, h1, k1, c1, _⟩ := h.weakFence hw
  have hl := hw.1.2; have hm := hw.1.1
  obtain ⟨s2, e2, h2, k2⟩ := h1.readRaw (i := w.f + i) c1 (by omega)
  refine ⟨s2, ?_, h2, k1.trans k2⟩
  simp only [Alias.weakLoad]
  rw [bind_some e1, e2]

theorem Blks.weakDropOther {n : Nat} {s : St} (h : Blks n s) {w : UWeak} (hw : IsWeak n w s) :
    ∃ s', Alias.weakDropOther w s = some ((), s') ∧ Blks n s' ∧ Ukp n s s' := by
  obtain ⟨s1, e1, h1, k1⟩ := h.weakLoad hw (i := 2) (.inr rfl)
  have hw := hw.ukp h.inv k1
  obtain ⟨s2, e2, h2, k2⟩ := h1.weakLoad hw (i := 1) (.inl rfl)
  have hw := hw.ukp h1.inv k2
  obtain ⟨r, s3, e3, h3, k3, c3, _⟩ := h2.weakFence hw
  have hl := hw.1.2; have hm := hw.1.1
  obtain ⟨s4, e4, h4, k4⟩ := h3.readRaw (i := w.f + 2) c3 (by omega)
  obtain ⟨s5, e5, h5, k5⟩ := h4.writeRaw (i := w.f + 2) (c3.ukp k4) (by omega) (by omega)
  refine ⟨s5, ?_, h5, k1.trans (k2.trans (k3.trans (k4.trans k5)))⟩
  simp only [Alias.weakDropOther]
  rw [bind_some e1, bind_some e2, bind_some e3, bind_some e4, e5]

theorem Blks.weakDropLast {n : Nat} {s : St} (h : Blks n s) {w : UWeak} (hw : IsWeak n w s)
    (last : Bool) :
    ∃ s', Alias.weakDropLast w last s = some ((), s') ∧ Blks n s' ∧ Ukp n s s' := by
  obtain ⟨s1, e1, h1, k1⟩ := h.weakLoad hw (i := 2) (.inr rfl)
  have hw := hw.ukp h.inv k1
  obtain ⟨s2, e2, h2, k2⟩ := h1.weakLoad hw (i := 1) (.inl rfl)
  have hw := hw.ukp h1.inv k2
  obtain ⟨q, s3, e3, h3, k3, c3, _⟩ := h2.weakMaster hw
  obtain ⟨r, s4, e4, h4, k4, _⟩ := h3.weakFence (hw.ukp h2.inv k3)
  have c4 := c3.ukp k4
  obtain ⟨s5, e5, h5, k5⟩ := h4.writeRaw (i := 2) c4 (by omega) (by omega)
  have hk := k1.trans (k2.trans (k3.trans (k4.trans k5)))
  simp only [Alias.weakDropLast]
  rw [bind_some e1, bind_some e2, bind_some e3, bind_some e4, bind_some e5]
  cases last
  · exact ⟨s5, rfl, h5, hk⟩
  · obtain ⟨s6, e6, h6, k6⟩ := h5.readRaw (i := 1) (c4.ukp k5) (by omega)
    exact ⟨s6, e6, h6, hk.trans k6⟩

/-! ## The value -/

/-- `*u`, as long as the `data` field can be used, a read of the data, and going on. -/
theorem Blks.derefRead {β : Type} {n d : Nat} {s : St} (h : Blks n s) (hd : Ref 0 d s)
    {m : B β} {Q : β → St → Prop} (hm : UShr n m Q) :
    ∃ b s', (do let t ← urcDeref d; Mach.readAt t 0 1; m) s = some (b, s') ∧ Blks n s' ∧
      Ukp n s s' ∧ Q b s' := by
  obtain ⟨t, s1, e1, h1, k1, m1⟩ := h.shrRef hd.2
  obtain ⟨s2, e2, h2, k2⟩ := h1.readAt m1.2
  obtain ⟨b, s3, e3, h3, k3, q3⟩ := hm s2 h2
  refine ⟨b, s3, ?_, h3, k1.trans (k2.trans k3), q3⟩
  simp only [urcDeref]
  rw [bind_some e1, bind_some e2, e3]

theorem Blks.makeMutClone {n f d : Nat} {s : St} (h : Blks n s) (hf : IsBlk n f)
    (hd : Ref 0 d s) (sole : Bool) :
    ∃ s', urcMakeMutClone f d sole s = some ((), s') ∧ Blks n s' ∧ Ukp n s s' := by
  have h0 := isBlk_zero n
  obtain ⟨r, s1, e1, h1, k1, c1, _⟩ := ushr_masterRef hf s h
  obtain ⟨s2, e2, h2, k2⟩ := h1.readRaw (i := 1) c1 (by omega)
  have k := k1.trans k2
  simp only [urcMakeMutClone]
  rw [bind_some e1, bind_some e2]
  cases sole
  · obtain ⟨_, s3, e3, h3, k3, _⟩ := h2.derefRead (hd.ukp h.inv h0.1 h0.2 k) (ushr_dropOther hf)
    exact ⟨s3, e3, h3, k.trans k3⟩
  · obtain ⟨_, s3, e3, h3, k3, _⟩ := ushr_loadCnt hf (.inr rfl) s2 h2
    obtain ⟨r, s4, e4, h4, k4, c4, _⟩ := ushr_masterRef hf s3 h3
    obtain ⟨s5, e5, h5, k5⟩ := h4.readRaw (i := 2) c4 (by omega)
    obtain ⟨_, s6, e6, h6, k6, _⟩ := ushr_loadCnt hf (.inl rfl) s5 h5
    have k := k.trans (k3.trans (k4.trans (k5.trans k6)))
    obtain ⟨_, s7, e7, h7, k7, _⟩ := h6.derefRead (hd.ukp h.inv h0.1 h0.2 k) (ushr_dropOther hf)
    refine ⟨s7, ?_, h7, k.trans k7⟩
    simp only [if_true]
    rw [bind_some e3, bind_some e4, bind_some e5, bind_some e6, e7]

theorem ushr_tryUnwrapErr {n f : Nat} (hf : IsBlk n f) (sole : Bool) :
    UShr n (urcTryUnwrapErr f sole) Nothing := by
  cases sole
  · exact ushr_masterRead hf (.inl rfl)
  · exact ushr_masterWrite hf (.inl rfl) (ushr_loadCnt hf (.inl rfl))

theorem ushr_tryUnwrapOk {n f : Nat} (hf : IsBlk n f) : UShr n (urcTryUnwrapOk f) Nothing := by
  refine ushr_masterWrite hf (.inl rfl) ((ushr_loadCnt hf (.inl rfl)).bind fun _ s h => ?_)
  obtain ⟨r, s1, e1, h1, k1, _, c1⟩ := ushr_masterRef hf s h
  obtain ⟨_, s2, e2, h2, k2, q⟩ := h1.derefRead (d := r.2) c1 (ushr_loadCnt hf (.inr rfl))
  exact ⟨(), s2, by rw [bind_some e1]; exact e2, h2, k1.trans k2, trivial⟩

theorem Blks.newFence {n : Nat} {s : St} (h : Blks n s) :
    ∃ s', Alias.newFence (fenceAt n) s = some ((), s') ∧ Blks (n + 1) s' ∧ Ukp n s s' := by
  have hw : ∀ i, i < 3 + 3 * n → within (fenceAt n) 3 i = false := fun i hi => by
    simp only [within, fenceAt]; exact decide_eq_false (by omega)
  refine ⟨_, rfl, ⟨⟨h.inv.root, fun i => ?_, h.inv.old, h.inv.own⟩, fun i hi => ?_⟩,
    Nat.le_refl _, fun i hi => ?_, fun _ _ => rfl, fun i u _ hl _ => ?_⟩
  · show (if within (fenceAt n) 3 i = true then if (0 : Nat) = 0 then Perm.active else .disabled
      else s.perm i 0) = _
    split
    · rfl
    · exact h.inv.act i
  · show (within (fenceAt n) 3 i || s.live i) = true
    by_cases hl : i < 3 + 3 * n
    · rw [h.live i hl, Bool.or_true]
    · have : within (fenceAt n) 3 i = true := within_iff.2 (by simp only [fenceAt]; omega)
      rw [this]; rfl
  · show (within (fenceAt n) 3 i || s.live i) = true
    rw [hi, Bool.or_true]
  · refine .inl ?_
    show (if within (fenceAt n) 3 i = true then _ else s.perm i u) = _
    rw [hw i hl]
    rfl

theorem Blks.envelop {n f : Nat} {s : St} (h : Blks n s) (hf : IsBlk n f) :
    ∃ s', urcEnvelop f (fenceAt n) s = some ((), s') ∧ Blks (n + 1) s' ∧ Ukp n s s' := by
  obtain ⟨r, s1, e1, h1, k1, c1, _⟩ := ushr_masterRef hf s h
  obtain ⟨s2, e2, h2, k2⟩ := h1.writeRaw (i := 1) c1 (by omega) (by omega)
  obtain ⟨s3, e3, h3, k3⟩ := h2.newFence
  refine ⟨s3, ?_, h3, k1.trans (k2.trans k3)⟩
  simp only [urcEnvelop]
  rw [bind_some e1, bind_some e2, e3]

/-! ## `&mut`s -/

/-- A `&mut` to the block at `b` that has not been written through. -/
def IsNew (b m : Nat) (s : St) : Prop :=
  m < s.next ∧ (∀ i, b ≤ i → i < b + 3 → Res s m i) ∧ s.path m = [m, 0]

theorem Blks.boxMut {n b : Nat} {s : St} (h : Blks n s) (hb : IsBlk n b) :
    ∃ m s', Alias.boxMut b s = some (m, s') ∧ Blks n s' ∧ Rd s s' ∧ IsNew b m s' ∧
      s.next ≤ m := by
  have hl := hb.2; have hm := hb.1
  obtain ⟨s', e, i', r, n', q, _, _, p, _⟩ := h.inv.mutRef (t := 0) (lo := b) (n := 3)
    fun i _ hi => ((h.res (by omega)).canW h.inv).canR
  refine ⟨_, s', e, h.to i' (r.ukp n), r, ⟨by rw [n']; exact Nat.lt_succ_self _,
    fun i h1 h2 => q i (h.res (by omega)), ?_⟩, Nat.le_refl _⟩
  rw [p, h.inv.own]

theorem Blks.masterMut {n f : Nat} {s : St} (h : Blks n s) (hf : IsBlk n f) :
    ∃ m s', Alias.masterMut f s = some (m, s') ∧ Blks n s' ∧ Rd s s' ∧ IsNew 0 m s' ∧
      s.next ≤ m := by
  obtain ⟨m, s1, e1, h1, r1, ⟨t1, q1, _⟩, _⟩ := h.boxMut hf
  have c1 := (q1 f (Nat.le_refl _) (by omega)).canW h1.inv
  obtain ⟨s2, e2, i2, r2, n2, _, q2, _⟩ := h1.inv.mutRef (t := m) (lo := f) (n := 1) (one c1.canR)
  have h2 := h1.to i2 (r2.ukp n)
  obtain ⟨s3, e3, i3, r3, n3, _⟩ := i2.readAt (t := s1.next) (lo := f) (n := 1)
    (one (q2 f c1).canR)
  have h3 := h2.to i3 (r3.ukp n)
  obtain ⟨m', s4, e4, h4, r4, q4, l4⟩ := h3.boxMut (isBlk_zero n)
  have r := r1.trans (r2.trans r3)
  refine ⟨m', s4, ?_, h4, r.trans r4, q4, Nat.le_trans r.next l4⟩
  simp only [Alias.masterMut]
  rw [bind_some e1, bind_some e2, bind_some e3, e4]

/-- `get_mut_unchecked`: a `&mut T` that has not been written through. -/
theorem Blks.getMutUnchecked {n f : Nat} {s : St} (h : Blks n s) (hf : IsBlk n f) :
    ∃ t s', urcGetMutUnchecked f s = some (t, s') ∧ Blks n s' ∧ Rd s s' ∧ t < s'.next ∧
      CanW s' t 0 ∧ ∀ u, u < s.next → u ≠ 0 → u ∉ s'.path t := by
  obtain ⟨m, s1, e1, h1, r1, ⟨t1, q1, p1⟩, l1⟩ := h.masterMut hf
  have c1 := (q1 0 (Nat.le_refl _) (by omega)).canW h1.inv
  obtain ⟨s2, e2, i2, r2, n2, _, q2, _, p2, _⟩ := h1.inv.mutRef (t := m) (lo := 0) (n := 1)
    (one c1.canR)
  refine ⟨s1.next, s2, ?_, h1.to i2 (r2.ukp n), r1.trans r2, by rw [n2]; exact Nat.lt_succ_self _,
    q2 0 c1, fun u hu h0 hmem => ?_⟩
  · simp only [urcGetMutUnchecked]
    rw [bind_some e1, e2]
  · rw [p2, p1] at hmem
    have := r1.next
    simp at hmem
    omega

theorem Blks.getMut {n f : Nat} {s : St} (h : Blks n s) (hf : IsBlk n f) :
    ∃ t s', urcGetMut f s = some (t, s') ∧ Blks n s' ∧ Ukp n s s' ∧ t < s'.next ∧
      CanW s' t 0 ∧ ∀ u, u < s.next → u ≠ 0 → u ∉ s'.path t := by
  obtain ⟨_, s1, e1, h1, k1, _⟩ := ushr_isUnique hf s h
  obtain ⟨t, s2, e2, h2, r2, t2, c2, p2⟩ := h1.getMutUnchecked hf
  refine ⟨t, s2, ?_, h2, k1.trans (r2.ukp n), t2, c2, fun u hu =>
    p2 u (Nat.lt_of_lt_of_le hu k1.next)⟩
  simp only [urcGetMut]
  rw [bind_some e1, e2]

theorem Blks.dropFence {n f : Nat} {s : St} (h : Blks n s) (hf : IsBlk n f) (last : Bool) :
    ∃ s', urcDropFence f last s = some ((), s') ∧ Blks n s' ∧ Ukp n s s' := by
  obtain ⟨_, s1, e1, h1, k1, _⟩ := ushr_loadCnt hf (.inl rfl) s h
  obtain ⟨_, s2, e2, h2, k2, _⟩ := ushr_loadCnt hf (.inr rfl) s1 h1
  obtain ⟨m, s3, e3, h3, r3, ⟨t3, q3, p3⟩, _⟩ := h2.masterMut hf
  obtain ⟨s4, e4, i4, r4, n4, q4, _⟩ := h3.inv.rawMut (t := m) (lo := 0) (n := 3)
  have h4 := h3.to i4 (r4.ukp n)
  have q4 : ∀ i, 0 ≤ i → i < 0 + 3 → Res s4 s3.next i := fun i a b => q4 i (q3 i a b)
  obtain ⟨s5, e5, i5, r5, n5, q5, _⟩ := i4.mutRef (t := s3.next) (lo := 0) (n := 3)
    fun i a b => ((q4 i a b).canW i4).canR
  have h5 := h4.to i5 (r5.ukp n)
  have q5 : ∀ i, i < 3 → Res s5 s4.next i := fun i hi => q5 i (q4 i (Nat.zero_le _) (by omega))
  obtain ⟨_, s6, e6, h6, r6, _⟩ := h5.boxMut hf
  have q6 : ∀ i, i < 3 → CanW s6 s4.next i := fun i hi =>
    ((q5 i hi).rd i5 (by omega) r6).canW h6.inv
  obtain ⟨s7, e7, h7, k7, w7⟩ := h6.writeAt (t := s4.next) (i := 1) (by omega) (q6 1 (by omega))
  have k := k1.trans (k2.trans ((r3.trans (r4.trans (r5.trans r6))).ukp n |>.trans k7))
  simp only [urcDropFence]
  rw [bind_some e1, bind_some e2, bind_some e3, bind_some e4, bind_some e5, bind_some e6,
    bind_some e7]
  cases last
  · exact ⟨s7, rfl, h7, k⟩
  · have c0 := (q6 0 (by omega)).wr w7 (by omega)
    have c2 := (q6 2 (by omega)).wr w7 (by omega)
    obtain ⟨s8, e8, i8, r8, n8, _⟩ := h7.inv.mutRef (t := s4.next) (lo := 0) (n := 1)
      (one c0.canR)
    have h8 := h7.to i8 (r8.ukp n)
    have ht : s4.next < s7.next := by
      have := r6.next
      rw [w7.next]; omega
    obtain ⟨s9, e9, h9, k9⟩ := h8.readAt (c2.canR.rd h7.inv ht r8)
    refine ⟨s9, ?_, h9, k.trans ((r8.ukp n).trans k9)⟩
    simp only [if_true]
    rw [bind_some e8, e9]

theorem Blks.moveOut {n f d : Nat} {s : St} (h : Blks n s) (hf : IsBlk n f) (hd : Ref 0 d s) :
    ∃ s', urcMoveOut f d s = some ((), s') ∧ Blks n s' ∧ Ukp n s s' := by
  have hm := hf.1
  obtain ⟨t, s1, e1, h1, k1, m1⟩ := h.shrRef hd.2
  obtain ⟨s2, e2, h2, k2⟩ := h1.readAt m1.2
  obtain ⟨m, s3, e3, h3, r3, ⟨t3, q3, _⟩, _⟩ := h2.boxMut hf
  obtain ⟨s4, e4, h4, k4, _⟩ := h3.writeAt (t := m) (i := f + 1) (by omega)
    ((q3 (f + 1) (by omega) (by omega)).canW h3.inv)
  obtain ⟨m', s5, e5, h5, r5, ⟨t5, q5, _⟩, _⟩ := h4.masterMut hf
  obtain ⟨s6, e6, h6, k6, _⟩ := h5.writeAt (t := m') (i := 1) (by omega)
    ((q5 1 (by omega) (by omega)).canW h5.inv)
  refine ⟨s6, ?_, h6, k1.trans (k2.trans ((r3.ukp n).trans (k4.trans ((r5.ukp n).trans k6))))⟩
  simp only [urcMoveOut, urcDeref]
  rw [bind_some e1, bind_some e2, bind_some e3, bind_some e4, bind_some e5, e6]

/-! ## Programs -/

/-- The state of a program: the `data` field, the `&T`s and the `Weak`s can be used. -/
structure UInv (g : UProg St) : Prop where
  blks : Blks g.n g.st
  data : Ref 0 g.d g.st
  own : g.d ∈ g.st.path g.d ∧ g.d ≠ 0
  shr : ∀ t ∈ g.shr, Ref 0 t g.st
  weaks : ∀ w ∈ g.weaks, IsWeak g.n w g.st

theorem UInv.after {g : UProg St} (h : UInv g) {s : St} (hs : Blks g.n s) (hk : Ukp g.n g.st s) :
    UInv { g with st := s } :=
  have h0 := isBlk_zero g.n
  ⟨hs, h.data.ukp h.blks.inv h0.1 h0.2 hk, ⟨by
      show g.d ∈ s.path g.d
      rw [hk.path _ h.data.1]; exact h.own.1, h.own.2⟩,
    fun t ht => (h.shr t ht).ukp h.blks.inv h0.1 h0.2 hk,
    fun w hw => (h.weaks w hw).ukp h.blks.inv hk⟩

theorem UInv.push {g : UProg St} (h : UInv g) {t : Nat} (ht : Ref 0 t g.st) :
    UInv { g with shr := g.shr ++ [t] } :=
  ⟨h.blks, h.data, h.own, fun u hu => by
    rcases List.mem_append.1 hu with hu | hu
    · exact h.shr u hu
    · simp at hu; subst hu; exact ht, h.weaks⟩

theorem UInv.call {β : Type} {g : UProg St} (h : UInv g) {m : B β} {Q : β → St → Prop}
    (hm : UShr g.n m Q) {k : β → UProg St → UProg St}
    (hk : ∀ b st, UInv { g with st := st } → Q b st → UInv (k b { g with st := st })) :
    ∃ g', g.call m k = some g' ∧ UInv g' := by
  obtain ⟨b, s, e, hb, hkept, q⟩ := hm g.st h.blks
  exact ⟨k b { g with st := s }, by simp only [UProg.call, e], hk b s (h.after hb hkept) q⟩

/-- A call that gives nothing. -/
theorem UInv.done {g : UProg St} (h : UInv g) {m : B Unit}
    (hm : ∃ s', m g.st = some ((), s') ∧ Blks g.n s' ∧ Ukp g.n g.st s') :
    ∃ g', g.call m (fun _ g => g) = some g' ∧ UInv g' := by
  obtain ⟨s, e, hb, hk⟩ := hm
  exact ⟨{ g with st := s }, by simp only [UProg.call, e], h.after hb hk⟩

/-- A `Weak` is dropped. -/
theorem UInv.gone {g : UProg St} (h : UInv g) (j : Nat) {m : B Unit}
    (hm : ∃ s', m g.st = some ((), s') ∧ Blks g.n s' ∧ Ukp g.n g.st s') :
    ∃ g', g.call m (fun _ g => { g with weaks := g.weaks.eraseIdx j }) = some g' ∧ UInv g' := by
  obtain ⟨s, e, hb, hk⟩ := hm
  have h' := h.after hb hk
  exact ⟨{ g with st := s, weaks := g.weaks.eraseIdx j }, by simp only [UProg.call, e],
    h'.blks, h'.data, h'.own, h'.shr, fun w' hw' => h'.weaks w' (List.mem_of_mem_eraseIdx hw')⟩

theorem UInv.step {g : UProg St} (h : UInv g) (c : UCall) :
    ∃ g', g.step c = some g' ∧ UInv g' := by
  cases c with
  | deref =>
    simp only [UProg.step]
    obtain ⟨t, s, e, hb, hk, hm⟩ := h.blks.shrRef h.data.2
    exact ⟨{ g with st := s, shr := g.shr ++ [t] }, by simp only [UProg.call, urcDeref, e],
      (h.after hb hk).push hm⟩
  | read j =>
    simp only [UProg.step]
    cases hj : g.shr[j]? with
    | none => exact ⟨g, rfl, h⟩
    | some t => exact h.done (h.blks.readAt (h.shr t (List.mem_of_getElem? hj)).2)
  | weakCounts j =>
    simp only [UProg.step]
    cases hj : g.weaks[j]? with
    | none => exact ⟨g, rfl, h⟩
    | some w =>
      have hw := h.weaks w (List.mem_of_getElem? hj)
      obtain ⟨s1, e1, h1, k1⟩ := h.blks.weakLoad hw (i := 2) (.inr rfl)
      obtain ⟨s2, e2, h2, k2⟩ := h1.weakLoad (hw.ukp h.blks.inv k1) (i := 1) (.inl rfl)
      exact h.done ⟨s2, by rw [bind_some e1, e2], h2, k1.trans k2⟩
  | weakDrop j =>
    simp only [UProg.step]
    cases hj : g.weaks[j]? with
    | none => exact ⟨g, rfl, h⟩
    | some w => exact h.gone j (h.blks.weakDropOther (h.weaks w (List.mem_of_getElem? hj)))
  | weakDropLast j last =>
    simp only [UProg.step]
    cases hj : g.weaks[j]? with
    | none => exact ⟨g, rfl, h⟩
    | some w => exact h.gone j (h.blks.weakDropLast (h.weaks w (List.mem_of_getElem? hj)) last)
  | downgrade n =>
    simp only [UProg.step]
    split
    · rename_i hn
      refine h.call (ushr_downgrade (isBlk_fence hn))
        fun w st h' q => ⟨h'.blks, h'.data, h'.own, h'.shr, fun w' hw' => ?_⟩
      rcases List.mem_append.1 hw' with hw' | hw'
      · exact h'.weaks w' hw'
      · simp at hw'; subst hw'; exact q
    · exact ⟨g, rfl, h⟩
  | envelop n =>
    simp only [UProg.step]
    split
    · rename_i hn
      obtain ⟨s, e, hb, hk⟩ := h.blks.envelop (isBlk_fence hn)
      have h0 := isBlk_zero g.n
      refine ⟨{ g with st := s, n := g.n + 1 }, by simp only [UProg.call, e], hb,
        h.data.ukp h.blks.inv h0.1 h0.2 hk, ⟨?_, h.own.2⟩,
        fun t ht => (h.shr t ht).ukp h.blks.inv h0.1 h0.2 hk, fun w hw => ?_⟩
      · show g.d ∈ s.path g.d
        rw [hk.path _ h.data.1]; exact h.own.1
      · obtain ⟨h1, h2, h3⟩ := (h.weaks w hw).ukp h.blks.inv hk
        exact ⟨⟨h1.1, by have := h1.2; show w.f < 3 + 3 * (g.n + 1); omega⟩, h2, h3⟩
    · exact ⟨g, rfl, h⟩
  | makeMutClone n sole =>
    simp only [UProg.step]
    split
    · rename_i hn
      exact h.done (h.blks.makeMutClone (isBlk_fence hn) h.data sole)
    · exact ⟨g, rfl, h⟩
  | clone n =>
    simp only [UProg.step]
    split
    · rename_i hn
      exact h.call (ushr_bumpCnt (isBlk_fence hn) (.inl rfl)) fun _ _ h' _ => h'
    · exact ⟨g, rfl, h⟩
  | counts n =>
    simp only [UProg.step]
    split
    · rename_i hn
      exact h.call ((ushr_loadCnt (isBlk_fence hn) (.inl rfl)).bind fun _ =>
        ushr_loadCnt (isBlk_fence hn) (.inr rfl)) fun _ _ h' _ => h'
    · exact ⟨g, rfl, h⟩
  | sole n =>
    simp only [UProg.step]
    split
    · rename_i hn
      exact h.call (ushr_masterRead (isBlk_fence hn) (.inl rfl)) fun _ _ h' _ => h'
    · exact ⟨g, rfl, h⟩
  | getMutNone n =>
    simp only [UProg.step]
    split
    · rename_i hn
      exact h.call (ushr_isUnique (isBlk_fence hn)) fun _ _ h' _ => h'
    · exact ⟨g, rfl, h⟩
  | tryUnwrapErr n sole =>
    simp only [UProg.step]
    split
    · rename_i hn
      exact h.call (ushr_tryUnwrapErr (isBlk_fence hn) sole) fun _ _ h' _ => h'
    · exact ⟨g, rfl, h⟩
  | tryUnwrapOk n =>
    simp only [UProg.step]
    split
    · rename_i hn
      exact h.call (ushr_tryUnwrapOk (isBlk_fence hn)) fun _ _ h' _ => h'
    · exact ⟨g, rfl, h⟩
  | drop n =>
    simp only [UProg.step]
    split
    · rename_i hn
      exact h.call (ushr_dropOther (isBlk_fence hn)) fun _ _ h' _ => h'
    · exact ⟨g, rfl, h⟩

theorem UInv.stepAll {g : UProg St} (h : UInv g) (c : UAll) :
    ∃ g', g.stepAll c = some g' ∧ UInv g' := by
  cases c with
  | of c => exact h.step c
  | getMut n =>
    simp only [UProg.stepAll]
    split
    · rename_i hn
      obtain ⟨t, s, e, hb, hk, ht, hc, _⟩ := h.blks.getMut (isBlk_fence hn)
      exact ⟨{ g with st := s, shr := g.shr ++ [t] }, by simp only [UProg.call, e],
        (h.after hb hk).push ⟨ht, hc.canR⟩⟩
    · exact ⟨g, rfl, h⟩
  | dropFence n last =>
    simp only [UProg.stepAll]
    split
    · rename_i hn
      exact h.done (h.blks.dropFence (isBlk_fence hn) last)
    · exact ⟨g, rfl, h⟩
  | moveOut n =>
    simp only [UProg.stepAll]
    split
    · rename_i hn
      exact h.done (h.blks.moveOut (isBlk_fence hn) h.data)
    · exact ⟨g, rfl, h⟩

theorem UInv.runAll {g : UProg St} (h : UInv g) (cs : List UAll) :
    ∃ g', g.runAll cs = some g' ∧ UInv g' := by
  induction cs generalizing g with
  | nil => exact ⟨g, rfl, h⟩
  | cons c cs ih =>
    obtain ⟨g1, e1, h1⟩ := h.stepAll c
    obtain ⟨g2, e2, h2⟩ := ih h1
    exact ⟨g2, by simp only [UProg.runAll, e1, e2], h2⟩

theorem blks_fresh : Blks 1 (fresh 6) :=
  ⟨inv_fresh 6, fun i hi => by simp [fresh]; omega⟩

theorem uinv_data : ∃ d s, urcData (Mach.heap 6 : St) = some (d, s) ∧ UInv ⟨s, 1, d, [], []⟩ := by
  obtain ⟨r, s1, e1, h1, k1, _, c1⟩ := ushr_boxRef (isBlk_zero 1) _ blks_fresh
  obtain ⟨s2, e2, i2, r2, n2, p2, q2, o2, _⟩ := h1.inv.refTo (p := .frozen) (.inr rfl)
    (one (P := CanR s1 r.2) c1.2)
  refine ⟨s1.next, s2, ?_, h1.to i2 (r2.ukp 1), ⟨by rw [n2]; exact Nat.lt_succ_self _, ?_⟩,
    ⟨?_, Nat.ne_of_gt h1.inv.pos⟩, fun t ht => (nomatch ht), fun w hw => (nomatch hw)⟩
  · simp only [urcData]
    exact (bind_some e1).trans e2
  · refine ⟨by rw [r2.live]; exact c1.2.1, fun u hu => ?_⟩
    have hu : u ∈ s2.path s1.next := hu
    rw [p2] at hu
    rcases List.mem_cons.1 hu with rfl | hu
    · show s2.perm 0 s1.next ≠ _
      rw [q2]; decide
    · show s2.perm 0 u ≠ _
      rw [o2 0 u hu]; exact c1.2.2 u hu
  · show s1.next ∈ s2.path s1.next
    rw [p2]; exact List.mem_cons_self ..

theorem uinv_start : ∃ g, UProg.start (σ := St) = some g ∧ UInv g := by
  obtain ⟨d, s, e, h⟩ := uinv_data
  exact ⟨_, by simp only [UProg.start, e], h⟩

/-- After a write by others a reference can be used no more. -/
theorem deref_dead {t d : Nat} {s s' : St} (hd : d ∈ s.path d) (hn : d < s.next)
    (ht : d ∉ s.path t) (e : Mach.writeAt t 0 1 s = some ((), s')) : urcDeref d s' = none := by
  simp only [mach_writeAt, access] at e
  split at e
  · cases e
    have hp : (s.after true t 0 1).perm 0 d = .disabled := by
      rw [after_other (by omega) ht]; rfl
    have : ∀ (s1 : St), d ∈ s1.path s.next → s1.perm 0 d = .disabled →
        access false s.next 0 1 s1 = none := fun s1 h1 h2 => by
      have hg : ¬ s1.grants false s.next 0 1 = true := fun hg => by
        have := (grants_iff.1 hg 0 (Nat.le_refl _) (by omega)).2 d h1
        rw [h2] at this; cases this
      simp only [access, hg]
      rfl
    simp only [urcDeref, mach_shrRef, refTo]
    rw [bind_some (show child d .frozen (s.after true t 0 1) = some (s.next, _) from rfl)]
    refine bind_none (this _ ?_ ?_)
    · show d ∈ if s.next = s.next then s.next :: s.path d else _
      rw [if_pos rfl]; exact List.mem_cons_of_mem _ hd
    · show (if d = s.next then Perm.frozen else (s.after true t 0 1).perm 0 d) = _
      rw [if_neg (Nat.ne_of_lt hn)]; exact hp
  · cases e

theorem UInv.getMut {g : UProg St} (h : UInv g) {n : Nat} (hn : n < g.n) :
    ∃ t s1 s2, urcGetMut (fenceAt n) g.st = some (t, s1) ∧ Mach.writeAt t 0 1 s1 = some ((), s2) ∧
      (urcDeref g.d s1).isSome = true ∧ urcDeref g.d s2 = none := by
  obtain ⟨t, s1, e1, h1, k1, t1, c1, p1⟩ := h.blks.getMut (isBlk_fence hn)
  obtain ⟨s2, e2, _⟩ := h1.inv.writeAt (t := t) (lo := 0) (n := 1) (one c1)
  have h' := h.after h1 k1
  obtain ⟨_, s3, e3, _⟩ := h1.shrRef h'.data.2
  exact ⟨t, s1, s2, e1, e2, by simp only [urcDeref]; rw [e3]; rfl,
    deref_dead h'.own.1 h'.data.1 (p1 _ h.data.1 h.own.2) e2⟩

theorem makeMutNew : ∃ d t s1 s2, urcMakeMutNew (Mach.heap 6 : St) = some ((d, t), s1) ∧
    Mach.writeAt t 0 1 s1 = some ((), s2) ∧ (urcDeref d s1).isSome = true ∧
      urcDeref d s2 = none := by
  obtain ⟨d, s, e, h⟩ := uinv_data
  obtain ⟨t, s1, e1, h1, r1, t1, c1, p1⟩ := h.blks.getMutUnchecked (f := 3) (isBlk_fence (m := 0)
    (by show 0 < 1; omega))
  obtain ⟨s2, e2, _⟩ := h1.inv.writeAt (t := t) (lo := 0) (n := 1) (one c1)
  have h' := h.after h1 (r1.ukp _)
  obtain ⟨_, s3, e3, _⟩ := h1.shrRef h'.data.2
  refine ⟨d, t, s1, s2, ?_, e2, by simp only [urcDeref]; rw [e3]; rfl,
    deref_dead h'.own.1 h'.data.1 (p1 _ h.data.1 h.own.2) e2⟩
  simp only [urcMakeMutNew]
  rw [bind_some e, bind_some e1]
  rfl

end Lokky.TB
