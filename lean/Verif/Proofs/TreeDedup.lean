import Verif.Proofs.TreeVec

/-!
# Lemmas on `dedup_by` under Tree Borrows
-/

open Lokky.Alias

namespace Lokky.TB

/-- The pointer `keeped`, at slot `i`; `d`: it has been written through. -/
structure KInv (d : Bool) (s : St) (t i : Nat) : Prop where
  lt : t < s.next
  can : CanR s t i
  node : ∃ u ∈ s.path t, u ≠ 0
  clean : d = false → Res s t i
  dirty : d = true → ∃ u ∈ s.path t, u ≠ 0 ∧ s.perm i u ≠ .reserved

theorem KInv.at {d : Bool} {s s' : St} {t i : Nat} (h : KInv d s t i) (hs : Inv s)
    (ha : At i s s') : KInv d s' t i where
  lt := Nat.lt_of_lt_of_le h.lt ha.next
  can := h.can.at hs h.lt ha
  node := by rw [ha.path t h.lt]; exact h.node
  clean hd := (h.clean hd).at hs h.lt ha
  dirty hd := by
    obtain ⟨u, hu, h0, hp⟩ := h.dirty hd
    refine ⟨u, by rw [ha.path t h.lt]; exact hu, h0, ?_⟩
    rcases ha.perm u (hs.old t u hu) with e | ⟨_, e⟩
    · rw [e]; exact hp
    · rw [e]; decide

/-- What `getMutPtr` makes, in full. -/
theorem VInv.getMutPtr {cap len i : Nat} {s : St} (h : VInv cap s) (hn : len ≤ cap) (hi : i < len) :
    ∃ t s', Alias.getMutPtr cap len i s = some (t, s') ∧ VInv cap s' ∧ Rd s s' ∧ IsRes cap t s' ∧
      (∃ u ∈ s'.path t, u ≠ 0) ∧
      ∀ j u, j < cap → u < s.next → u ≠ 0 → s'.perm j u ≠ .active := by
  obtain ⟨s1, e1, i1, r1, n1, q1, _, _, _, x1⟩ := h.inv.mutRef (t := 0) (lo := 0) (n := cap)
    fun j _ hu => (h.root.shr h).2 j (by omega)
  have h1 := h.rd i1 r1
  have q1 : IsRes cap s.next s1 := ⟨by omega, fun j hj => q1 j (h.root.2 j hj)⟩
  obtain ⟨p, s2, e2, h2, r2, q2⟩ := h1.rawMut (lo := 0) (n := cap) q1
  obtain ⟨b, s3, e3, h3, r3, q3⟩ := h2.mutRef (lo := 0) (n := len) q2 (by omega)
  obtain ⟨s4, e4, i4, r4, n4, q4, _, _, p4, _⟩ := h3.inv.mutRef (t := b) (lo := i) (n := 1)
    fun j _ hu => (q3.shr h3).2 j (by omega)
  have h4 := h3.rd i4 r4
  have q4 : IsRes cap s3.next s4 := ⟨by omega, fun j hj => q4 j (q3.2 j hj)⟩
  obtain ⟨s5, e5, i5, r5, n5, q5, _, _, p5⟩ := h4.inv.rawMut (t := s3.next) (lo := i) (n := 1)
  have h5 := h4.rd i5 r5
  have r := ((r2.trans r3).trans r4).trans r5
  refine ⟨s4.next, s5, ?_, h5, r1.trans r, ⟨by omega, fun j hj => q5 j (q4.2 j hj)⟩, ?_,
    fun j u hj hu h0 => ?_⟩
  · simp only [Alias.getMutPtr, Alias.getMut, Alias.sliceMut]
    rw [bind_some (b := s3.next) (s' := s4) (by
      rw [bind_some (b := b) (s' := s3) (by rw [bind_some e1, bind_some e2, e3]), e4]), e5]
  · refine ⟨s3.next, by rw [p5, p4]; exact List.mem_cons_self .., ?_⟩
    have := h3.inv.pos
    omega
  · have hx := x1 j u (Nat.zero_le _) (by omega) hu (by rw [h.inv.own]; simpa using h0)
    rcases (r j).perm u (Nat.lt_of_lt_of_le hu r1.next) with e | ⟨_, e⟩
    · rw [e]; exact hx
    · rw [e]; decide

theorem VInv.discardNext {cap len i : Nat} {s : St} (h : VInv cap s) (hn : len ≤ cap)
    (hi : i < len) :
    ∃ s', Alias.discardNext cap len i s = some ((), s') ∧ VInv cap s' ∧ ∀ j, j ≠ i → At j s s' := by
  obtain ⟨a, s1, e1, h1, r1, q1⟩ := shr_getMut hn hi s h
  obtain ⟨b, s2, e2, h2, r2, q2⟩ := h1.mutRef (lo := i) (n := 1) q1 (by omega)
  obtain ⟨s3, e3, h3, w3⟩ := h2.writeAt (t := b) (lo := i) (n := 1) fun j _ _ => q2.2 j (by omega)
  refine ⟨s3, ?_, h3, fun j hj => ((r1 j).trans (r2 j)).trans (w3.at (by omega))⟩
  simp only [Alias.discardNext, Alias.dropAt]
  rw [bind_some e1, bind_some e2, e3]

theorem VInv.keepNext {cap len read write : Nat} {s : St} (h : VInv cap s) (dbg : Bool)
    (hn : len ≤ cap) (hr : read < len) (hw : write < len) :
    ∃ s', Alias.keepNext dbg cap len read write s = some ((), s') ∧ VInv cap s' ∧
      ∀ j, j ≠ write → At j s s' := by
  obtain ⟨r, s1, e1, h1, r1, q1⟩ := shr_getRef hn hr s h
  obtain ⟨w, s2, e2, h2, r2, q2⟩ := shr_getMutPtr hn hw s1 h1
  obtain ⟨s3, e3, h3, r3⟩ := h2.readAt (lo := read) (n := 1) (q1.rd h1 r2) (by omega)
  have q2 := q2.rd h2 r3
  obtain ⟨s4, e4, h4, w4⟩ := h3.writeAt (t := w) (lo := write) (n := 1) fun j _ _ =>
    q2.2 j (by omega)
  obtain ⟨_, s5, e5, h5, r5, _⟩ := shr_setLen cap dbg s4 h4
  have ec : Alias.retainCopy cap len read write s = some ((), s4) := by
    simp only [Alias.retainCopy, copyAt]
    rw [bind_some e1, bind_some e2, bind_some e3, e4]
  refine ⟨s5, ?_, h5, fun j hj =>
    ((((r1 j).trans (r2 j)).trans (r3 j)).trans (w4.at (by omega))).trans (r5 j)⟩
  simp only [Alias.keepNext]
  rw [bind_some ec, e5]

/-- A pointer that may not write. -/
theorem writeAt_none {s : St} {t i u : Nat} (hu : u ∈ s.path t) (hp : s.perm i u = .frozen) :
    Mach.writeAt t i 1 s = none := by
  have : s.grants true t i 1 ≠ true := fun hg => by
    have := (grants_iff.1 hg i (Nat.le_refl _) (by omega)).2 u hu
    rw [hp] at this
    cases this
  simp only [mach_writeAt, access]
  rw [if_neg this]

/-- Is the element kept last never written to after it has been written to? `d`: it has been. -/
def keptOnce (wt wk same : Nat → Bool) : Bool → Nat → Nat → Bool
  | _, _, 0 => true
  | d, read, n + 1 =>
    !(d && wk read) &&
      keptOnce wt wk same (if same read then d || wk read else wt read) (read + 1) n

/-- One round of the loop up to the answer of the closure. -/
theorem VInv.round {cap len : Nat} (hn : len ≤ cap) {wt wk : Bool} {d : Bool}
    {kept at_ read : Nat} {s : St} (h : VInv cap s) (hk : KInv d s kept at_) (hr : read < len)
    (ha : at_ < read) :
    ∃ t s1 a s2, Alias.getMutPtr cap len read s = some (t, s1) ∧
      Mach.mutRef t read 1 s1 = some (a, s2) ∧
      ((d && wk) = true →
        (Mach.mutRef kept at_ 1 >>= fun b => useAt wt a read >>= fun _ => useAt wk b at_) s2 = none) ∧
      ((d && wk) = false → ∃ s5,
        (Mach.mutRef kept at_ 1 >>= fun b => useAt wt a read >>= fun _ => useAt wk b at_) s2 =
          some ((), s5) ∧ VInv cap s5 ∧ KInv (d || wk) s5 kept at_ ∧ KInv wt s5 t read) := by
  obtain ⟨t, s1, e1, h1, r1, q1, ⟨v, hv, hv0⟩, na⟩ := h.getMutPtr hn hr
  have k1 := hk.at h.inv (r1 at_)
  obtain ⟨s2, e2, i2, r2, n2, q2, _, _, p2, _⟩ := h1.inv.mutRef (t := t) (lo := read) (n := 1)
    fun j _ hu => (q1.shr h1).2 j (by omega)
  have h2 := h1.rd i2 r2
  have q2 : IsRes cap s1.next s2 := ⟨by omega, fun j hj => q2 j (q1.2 j hj)⟩
  have q1' := q1.rd h1 r2
  have k2 := k1.at h1.inv (r2 at_)
  obtain ⟨s3, e3, i3, r3, n3, q3, _, c3, p3, _⟩ := h2.inv.mutRef (t := kept) (lo := at_) (n := 1)
    fun j hl hu => by
      have : j = at_ := by omega
      subst this; exact k2.can
  have h3 := h2.rd i3 r3
  have k3 := k2.at h2.inv (r3 at_)
  have q2' := q2.rd h2 r3
  have q1'' := q1'.rd h2 r3
  -- the closure and the element asked about
  have u4 : ∃ s4, useAt wt s1.next read s3 = some ((), s4) ∧ VInv cap s4 ∧ At at_ s3 s4 ∧
      KInv wt s4 t read := by
    have ht3 : s3.path t = s1.path t := by
      rw [r3.path t q1'.1, r2.path t q1.1]
    have hpa : s3.path s1.next = s1.next :: s1.path t := by
      rw [r3.path s1.next q2.1, p2]
    cases wt with
    | false =>
      obtain ⟨s4, e4, h4, r4⟩ := h3.readAt (lo := read) (n := 1) (q2'.shr h3) (by omega)
      have q := q1''.rd h3 r4
      refine ⟨s4, e4, h4, r4 at_, q.1, (q.shr h4).2 read (by omega), ?_,
        fun _ => q.2 read (by omega), fun hc => by cases hc⟩
      exact ⟨v, by rw [r4.path t q1''.1, ht3]; exact hv, hv0⟩
    | true =>
      have hg : s3.grants true s1.next read 1 = true := grants_iff.2 fun j hl hu =>
        ⟨(q2'.2 j (by omega)).1, fun u hp => by
          rcases ((q2'.2 j (by omega)).canW h3.inv).2 u hp with e | e <;> rw [e] <;> rfl⟩
      have e4 : useAt true s1.next read s3 = some ((), s3.after true s1.next read 1) := by
        simp only [useAt, if_true, mach_writeAt, access, hg]
      have w4 := wr_after s3 true s1.next read 1
      have h4 := h3.wr (h3.inv.after true s1.next read 1) w4
      have hact : ∀ u, u ∈ s3.path t →
          (s3.after true s1.next read 1).perm read u = .active := fun u hu => by
        rw [after_in ⟨Nat.le_refl _, by omega⟩ (by
          rw [hpa]; rw [ht3] at hu; exact List.mem_cons_of_mem _ hu)]
        rcases ((q1''.2 read (by omega)).canW h3.inv).2 u hu with e | e <;> rw [e] <;> rfl
      refine ⟨_, e4, h4, w4.at (by omega), q1''.1, ⟨(q1''.2 read (by omega)).1, fun u hu => ?_⟩,
        ⟨v, by rw [← ht3] at hv; exact hv, hv0⟩, fun hc => (nomatch hc), fun _ => ?_⟩
      · rw [hact u hu]; decide
      · rw [← ht3] at hv
        exact ⟨v, hv, hv0, by rw [hact v hv]; decide⟩
  obtain ⟨s4, e4, h4, a4, t4⟩ := u4
  have k4 := k3.at h3.inv a4
  have hb4 : s2.next < s4.next := Nat.lt_of_lt_of_le (by omega) a4.next
  have hpb : s4.path s2.next = s2.next :: s2.path kept := by
    rw [a4.path s2.next (by omega), p3]
  have hpk : s4.path kept = s2.path kept := by
    rw [a4.path kept k3.lt, r3.path kept k2.lt]
  refine ⟨t, s1, s1.next, s2, e1, e2, fun hd => ?_, fun hd => ?_⟩
  · rw [Bool.and_eq_true] at hd
    obtain ⟨hd, rfl⟩ := hd
    rw [bind_some e3, bind_some e4]
    -- the pointer kept was written through, and others have read since
    obtain ⟨u, hu, h0, hp⟩ := k1.dirty hd
    have hold := h1.inv.old kept u hu
    have hf : s1.perm at_ u = .frozen := by
      have h1' := na at_ u (by omega) (by
        rw [r1.path kept hk.lt] at hu
        exact h.inv.old kept u hu) h0
      have h2' := k1.can.2 u hu
      cases e : s1.perm at_ u with
      | reserved => exact absurd e hp
      | active => exact absurd e h1'
      | frozen => rfl
      | disabled => exact absurd e h2'
    have stay : ∀ {x y : St}, At at_ x y → u < x.next → x.perm at_ u = .frozen →
        y.perm at_ u = .frozen := fun ha hlt e => by
      rcases ha.perm u hlt with e' | ⟨e', _⟩
      · rw [e', e]
      · rw [e] at e'; cases e'
    have f2 := stay (r2 at_) hold hf
    have f3 := stay (r3 at_) (Nat.lt_of_lt_of_le hold r2.next) f2
    have f4 := stay a4 (Nat.lt_of_lt_of_le hold (r2.trans r3).next) f3
    exact writeAt_none (u := u) (by
      rw [hpb, r2.path kept k1.lt]; exact List.mem_cons_of_mem _ hu) f4
  · rw [bind_some e3, bind_some e4]
    have cb : CanR s4 s2.next at_ := (c3 at_ k2.can).at h3.inv (by omega) a4
    cases wk with
    | false =>
      obtain ⟨s5, e5, i5, r5, _⟩ := h4.inv.readAt (t := s2.next) (lo := at_) (n := 1)
        fun j hl hu => by
          have : j = at_ := by omega
          subst this; exact cb
      refine ⟨s5, e5, h4.rd i5 r5, ?_, t4.at h4.inv (r5 read)⟩
      rw [Bool.or_false]
      exact k4.at h4.inv (r5 at_)
    | true =>
      have hd : d = false := by simpa using hd
      have rb : Res s4 s2.next at_ := (q3 at_ (k2.clean hd)).at h3.inv (by omega) a4
      have hg : s4.grants true s2.next at_ 1 = true := grants_iff.2 fun j hl hu => by
        have : j = at_ := by omega
        subst this
        exact ⟨rb.1, fun u hp => by
          rcases (rb.canW h4.inv).2 u hp with e | e <;> rw [e] <;> rfl⟩
      have e5 : useAt true s2.next at_ s4 = some ((), s4.after true s2.next at_ 1) := by
        simp only [useAt, if_true, mach_writeAt, access, hg]
      have w5 := wr_after s4 true s2.next at_ 1
      have h5 := h4.wr (h4.inv.after true s2.next at_ 1) w5
      have hact : ∀ u, u ∈ s4.path kept →
          (s4.after true s2.next at_ 1).perm at_ u = .active := fun u hu => by
        rw [hpk] at hu
        have hm : u ∈ s4.path s2.next := by rw [hpb]; exact List.mem_cons_of_mem _ hu
        rw [after_in ⟨Nat.le_refl _, by omega⟩ hm]
        rcases (rb.canW h4.inv).2 u hm with e | e <;> rw [e] <;> rfl
      refine ⟨_, e5, h5, ⟨k4.lt, ⟨k4.can.1, fun u hu => ?_⟩, k4.node, fun hc => ?_, fun _ => ?_⟩,
        t4.at h4.inv (w5.at (by omega))⟩
      · rw [hact u hu]; decide
      · rw [Bool.or_true] at hc; cases hc
      · obtain ⟨u, hu, h0⟩ := k4.node
        exact ⟨u, hu, h0, by rw [hact u hu]; decide⟩

theorem bind_assoc {β γ δ : Type} (m : B β) (k : β → B γ) (l : γ → B δ) :
    m >>= (fun b => k b >>= l) = (m >>= k) >>= l := by
  funext s
  cases e : m s with
  | none => rw [bind_none e, bind_none (bind_none e)]
  | some x =>
    obtain ⟨b, s1⟩ := x
    rw [bind_some e]
    cases e' : k b s1 with
    | none => rw [bind_none e', bind_none (by rw [bind_some e, e'])]
    | some y =>
      obtain ⟨c, s2⟩ := y
      rw [bind_some e', bind_some (by rw [bind_some e, e'])]

/-- The loop of `dedup_by`. -/
theorem dedupByLoop_iff {cap len : Nat} (dbg : Bool) (wt wk same : Nat → Bool) (hn : len ≤ cap)
    (n : Nat) : ∀ (d : Bool) (kept at_ read write : Nat) (s : St), VInv cap s →
      KInv d s kept at_ → read + n ≤ len → write < read → at_ < read →
      (keptOnce wt wk same d read n = true →
        ∃ s', Alias.dedupByLoop dbg cap len wt wk same kept at_ read write n s = some ((), s') ∧
          VInv cap s') ∧
      (keptOnce wt wk same d read n = false →
        Alias.dedupByLoop dbg cap len wt wk same kept at_ read write n s = none) := by
  induction n with
  | zero =>
    intro d kept at_ read write s h _ _ _ _
    exact ⟨fun _ => ⟨s, rfl, h⟩, fun e => by cases e⟩
  | succ n ih =>
    intro d kept at_ read write s h hk hr hw ha
    obtain ⟨t, s1, a, s2, e1, e2, no, yes⟩ := h.round hn (wt := wt read) (wk := wk read) hk
      (read := read) (by omega) ha
    simp only [Alias.dedupByLoop]
    rw [bind_some e1, bind_some e2]
    simp only [keptOnce]
    rw [show (fun b => useAt (wt read) a read >>= fun _ => useAt (wk read) b at_ >>= fun _ =>
        if same read = true then
          Alias.discardNext cap len read >>= fun _ =>
            Alias.dedupByLoop dbg cap len wt wk same kept at_ (read + 1) write n
        else
          Alias.keepNext dbg cap len read write >>= fun _ =>
            Alias.dedupByLoop dbg cap len wt wk same t read (read + 1) (write + 1) n : Nat → B Unit) =
      fun b => (useAt (wt read) a read >>= fun _ => useAt (wk read) b at_) >>= fun _ =>
        if same read = true then
          Alias.discardNext cap len read >>= fun _ =>
            Alias.dedupByLoop dbg cap len wt wk same kept at_ (read + 1) write n
        else
          Alias.keepNext dbg cap len read write >>= fun _ =>
            Alias.dedupByLoop dbg cap len wt wk same t read (read + 1) (write + 1) n from
      funext fun b => bind_assoc _ _ _, bind_assoc]
    cases hd : d && wk read with
    | true =>
      refine ⟨fun e => by simp at e, fun _ => bind_none (no hd)⟩
    | false =>
      obtain ⟨s5, e5, h5, k5, t5⟩ := yes hd
      rw [bind_some e5]
      simp only [Bool.not_false, Bool.true_and]
      cases hs : same read with
      | true =>
        obtain ⟨s6, e6, h6, a6⟩ := h5.discardNext hn (i := read) (by omega)
        simp only [if_true]
        rw [bind_some e6]
        exact ih _ _ _ _ _ _ h6 (k5.at h5.inv (a6 at_ (by omega))) (by omega) (by omega) (by omega)
      | false =>
        obtain ⟨s6, e6, h6, a6⟩ := h5.keepNext dbg hn (read := read) (write := write) (by omega)
          (by omega)
        simp only [Bool.false_eq_true, if_false]
        rw [bind_some e6]
        exact ih _ _ _ _ _ _ h6 (t5.at h5.inv (a6 read (by omega))) (by omega) (by omega) (by omega)

theorem VInv.dedupBy_iff {cap len : Nat} {s : St} (h : VInv cap s) (dbg : Bool)
    (wt wk same : Nat → Bool) (hn : len ≤ cap) (h0 : 0 < len) :
    (keptOnce wt wk same false 2 (len - 2) = true →
      ∃ s', Alias.dedupBy dbg cap len wt wk same s = some ((), s') ∧ VInv cap s') ∧
    (keptOnce wt wk same false 2 (len - 2) = false →
      Alias.dedupBy dbg cap len wt wk same s = none) := by
  obtain ⟨t, s1, e1, h1, r1, q1, nd, _⟩ := h.getMutPtr hn h0
  obtain ⟨_, s2, e2, h2, r2, _⟩ := shr_setLen cap dbg s1 h1
  have q2 := q1.rd h1 r2
  simp only [Alias.dedupBy]
  rw [bind_some e1, bind_some e2]
  by_cases hl : 2 ≤ len
  · exact dedupByLoop_iff dbg wt wk same hn (len - 2) false t 0 2 1 s2 h2
      ⟨q2.1, (q2.shr h2).2 0 (by omega), by rw [r2.path t q1.1]; exact nd, fun _ => q2.2 0 (by omega),
        fun hc => by cases hc⟩ (by omega) (by omega) (by omega)
  · rw [show len - 2 = 0 by omega]
    exact ⟨fun _ => ⟨s2, rfl, h2⟩, fun e => by cases e⟩

theorem keptOnce_read (wt same : Nat → Bool) (n : Nat) :
    ∀ d read, keptOnce wt (fun _ => false) same d read n = true := by
  induction n with
  | zero => intro _ _; rfl
  | succ n ih => intro d read; simp only [keptOnce, Bool.and_false, Bool.not_false, Bool.true_and, ih]

theorem wrk_dedupBy {cap len : Nat} (dbg : Bool) (wt same : Nat → Bool) (hn : len ≤ cap)
    (h0 : 0 < len) : Wrk cap (Alias.dedupBy dbg cap len wt (fun _ => false) same) := fun s h => by
  obtain ⟨s', e, h'⟩ := (h.dedupBy_iff dbg wt (fun _ => false) same hn h0).1 (keptOnce_read _ _ _ _ _)
  exact ⟨(), s', e, h'⟩

end Lokky.TB
