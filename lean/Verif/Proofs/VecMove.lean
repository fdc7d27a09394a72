import Verif.Proofs.VecBulk

/-!
# split_off, drain, construction from slices, leak, boxed slices
-/

namespace Lokky
variable {α : Type} {c : Cfg α}

theorem liftW_sat {S β : Type} {m : M (World α) β} {s : St S α} {Q : β → World α → Prop}
    {E : World α → Prop} (h : Sat c (m s.w) Q E) :
    Sat c (liftW m s) (fun a s' => ∃ w, Q a w ∧ s' = ⟨s.self, w⟩)
      (fun s' => ∃ w, E w ∧ s' = ⟨s.self, w⟩) := by
  unfold liftW
  cases hm : m s.w <;> simp_all [Sat]

theorem liftW_ok {S β : Type} {m : M (World α) β} {s : St S α} {a : β} {w : World α}
    (h : m s.w = .ok a w) : liftW m s = .ok a ⟨s.self, w⟩ := by simp [liftW, h]

theorem liftW_panic {S β : Type} {m : M (World α) β} {s : St S α} {w : World α}
    (h : m s.w = .panic w) : liftW m s = .panic ⟨s.self, w⟩ := by simp [liftW, h]

theorem withLocal_ok {S β : Type} {x : S} {d : M (St S α) Unit} {m : M (St S α) β} {w : World α}
    {a : β} {s : St S α} (h : m ⟨x, w⟩ = .ok a s) : withLocal x d m w = .ok (a, s.self) s.w := by
  unfold withLocal
  rw [M.onUnwind_ok h]

theorem withLocal_panic {S β : Type} {x : S} {d : M (St S α) Unit} {m : M (St S α) β}
    {w : World α} {s s' : St S α} (h : m ⟨x, w⟩ = .panic s) (hd : d s = .ok () s') :
    withLocal x d m w = .panic s'.w := by
  simp [withLocal, M.onUnwind, h, hd]

/-- A vector survives changes elsewhere. -/
theorem Made.other {w w' : World α} {v x : VecH} {l l' d : List α} (h : Made c l d w v w')
    (hw : w.WF) (hx : Rep c x w l') : Rep c x w' l' ∧ (x.ptr ≠ v.ptr ∨ x.ptr = none) := by
  have key : ∀ p, x.ptr = some p → some p ≠ v.ptr := by
    intro p hp e
    have h1 := h.fresh p e.symm
    have h2 := hx.ptr_lt hw hp
    omega
  refine ⟨hx.congr fun p hp => h.frame p (key p hp), ?_⟩
  cases hp : x.ptr with
  | none => exact Or.inr rfl
  | some p => exact Or.inl (key p hp)

/-- Copying bits into a vector of length zero leaves it holding nothing. -/
theorem copyIn_spec {s : VSt α} {src : List (Option α)} {n : Nat} (hs : c.size ≠ 0)
    (h : Rep c s.self s.w []) (hw : s.w.WF) (h1 : n ≤ src.length) (h2 : n ≤ s.self.cap) :
    ∃ s', Vec.onBuf c (Buf.copyFrom c src 0 n) s = .ok () s' ∧ Reserved c [] s s' ∧
      s'.self.cap = s.self.cap ∧ s'.w.tick = s.w.tick := by
  refine onBuf_ok hs h hw fun b hb hcap => ?_
  have hlen : 0 + n ≤ b.slots.length := by rw [hb.cap, hcap]; omega
  refine ⟨_, Buf.copyFrom_eq hs h1 hlen, ⟨⟨hb.len, ?_, _, rfl⟩, rfl, by simp⟩, rfl⟩
  have := hb.cap
  simp; omega

/-- `split_off` at a point before the end: the new vector has length zero, the old one keeps
everything. -/
theorem splitOff_spec {s : VSt α} {l : List α} (hs : c.size ≠ 0) (h : Rep c s.self s.w l)
    (hw : s.w.WF) {k : Nat} (hk : k < l.length) :
    Sat c (Vec.splitOff c k s)
      (fun r s' => s'.self = s.self ∧ Rep c s.self s'.w l ∧ Rep c r s'.w [] ∧
        s'.w.log = s.w.log ∧ r.ptr ≠ s.self.ptr)
      (fun s' => s' = s.refuse ∧ ∃ t b, c.grant t b = false) := by
  have hf : c.Fits (l.length - k) := by
    have := h.fits
    have hle := h.le_cap
    unfold Cfg.Fits at this ⊢
    exact Nat.le_trans (Nat.mul_le_mul_right _ (by omega)) this
  unfold Vec.splitOff
  rw [M.bind_ok (M.get_apply s), h.len, if_neg (by omega)]
  refine Sat.bind' (liftW_sat (withCapacity_spec hs hw hf)) ?_ ?_
  · rintro s' ⟨w, ⟨rfl, _, hg⟩, rfl⟩; exact ⟨rfl, _, _, hg⟩
  · rintro r s1 ⟨w1, ⟨ht, hcap, href, hlog⟩, rfl⟩
    have hm := ht.made
    obtain ⟨hself, _⟩ := hm.other hw h
    rw [M.bind_ok (uncheckedIndex_eq hk), M.bind_ok (M.get_apply _)]
    have hsl : l.length - k ≤ ((w1.slots s.self.ptr).drop k).length := by
      have e1 := (Rep.brep (s := ⟨s.self, w1⟩) hs hself).cap
      have e2 := (Rep.brep (s := ⟨s.self, w1⟩) hs hself).le_cap
      simp only [bufOf] at e1 e2
      simp; omega
    obtain ⟨s2, e1, e2, e3, _⟩ := copyIn_spec (s := ⟨r, w1⟩) hs ht.rep ht.wf hsl (by simp [hcap])
    have e4 := withLocal_ok (d := Vec.drop c) e1
    rw [M.bind_ok (liftW_ok (s := ⟨s.self, w1⟩) e4)]
    have hm2 : Made c [] [] s.w s2.self s2.w := by
      have ht2 : Trans c [] ([] ++ []) ⟨emptyVec s.w, s.w⟩ s2 := Trans.trans hw ht e2.trans
      exact ht2.made
    obtain ⟨h5, h6⟩ := hm2.other hw h
    refine ⟨rfl, h5, e2.trans.rep, by rw [e2.log]; exact hlog, fun e => ?_⟩
    rcases h6 with h6 | h6
    · exact h6 e.symm
    · rcases h.buf with ⟨_, _, h0⟩ | ⟨p, _, _, hp, _⟩
      · subst h0; simp at hk
      · rw [hp] at h6; cases h6

theorem splitOff_end {s : VSt α} {l : List α} (h : Rep c s.self s.w l) {k : Nat}
    (hk : l.length ≤ k) : Vec.splitOff c k s = .ok (emptyVec s.w) s := by
  unfold Vec.splitOff
  rw [M.bind_ok (M.get_apply s), h.len, if_pos hk]
  rfl

/-! ## drain -/

/-- Cutting the length back without dropping anything. -/
theorem BRep.cut {b : Buf α} {l : List α} (h : BRep b l) {k : Nat} (hk : k ≤ l.length) :
    BTrans (l.take k) [] b { b with len := k } := by
  obtain ⟨rest, hr⟩ := h.holds
  refine ⟨⟨by simp; omega, h.cap, (l.drop k).map some ++ rest, ?_⟩, rfl, by simp⟩
  rw [← List.append_assoc, ← List.map_append, List.take_append_drop]
  exact hr

/-- The buffer with another length. -/
def Buf.withLen (b : Buf α) (n : Nat) : Buf α := { b with len := n }

theorem Buf.setLen_eq' {b : Buf α} {n : Nat} (h : n ≤ b.cap) :
    Buf.setLen c n b = .ok () (b.withLen n) := Buf.setLen_eq h

/-- Index of the first element that a range with this lower bound takes. -/
inductive StartsAt : Vec.Bnd → Nat → Prop
  | unbounded : StartsAt .unbounded 0
  | included {a} : StartsAt (.included a) a
  | excluded {a} : StartsAt (.excluded a) (a + 1)

/-- Index of the first element after a range with this upper bound, in a slice of length `n`. -/
inductive EndsAt (n : Nat) : Vec.Bnd → Nat → Prop
  | unbounded : EndsAt n .unbounded n
  | included {b} : EndsAt n (.included b) (b + 1)
  | excluded {b} : EndsAt n (.excluded b) b

/-- All ways to write a range are treated alike. -/
theorem drainNew_range {b : Buf α} {lo hi : Vec.Bnd} {x y : Nat} (hlo : StartsAt lo x)
    (hhi : EndsAt b.len hi y) (hx : x ≤ c.usizeMax) (hy : y ≤ c.usizeMax) :
    Vec.drainNew c lo hi b = Vec.drainNew c (.included x) (.excluded y) b := by
  have h1 : Vec.bndStart c lo b = .ok x b := by
    cases hlo with
    | excluded => exact uadd_eq hx
    | _ => rfl
  have h2 : Vec.bndStop c b.len hi b = .ok y b := by
    cases hhi with
    | included => exact uadd_eq hy
    | _ => rfl
  unfold Vec.drainNew
  rw [M.bind_ok (Buf.getLen_apply _), M.bind_ok (Buf.getLen_apply _), M.bind_ok h1, M.bind_ok h2]
  rfl

theorem bndStart_included (x : Nat) (b : Buf α) : Vec.bndStart c (.included x) b = .ok x b := rfl
theorem bndStop_excluded (n x : Nat) (b : Buf α) : Vec.bndStop c n (.excluded x) b = .ok x b := rfl

/-- `drain(a..b)` of a range that is not empty cuts the vector back to `a` elements, then panics. -/
theorem drainNew_panic {b : Buf α} {x y : Nat} (hx : x ≤ b.cap) (hxy : x ≠ y) :
    Vec.drainNew c (.included x) (.excluded y) b = .panic (b.withLen x) := by
  unfold Vec.drainNew
  rw [M.bind_ok (Buf.getLen_apply _), M.bind_ok (bndStart_included x b),
    M.bind_ok (bndStop_excluded b.len y b), M.bind_ok (Buf.setLen_eq' hx),
    M.bind_ok (Buf.getLen_apply _),
    M.bind_panic (assert_neg (by simp only [Buf.withLen]; omega))]

theorem drainNew_empty {b : Buf α} {x : Nat} (hx : x ≤ b.cap) :
    Vec.drainNew c (.included x) (.excluded x) b = .ok ⟨x, 0, x, x, x⟩ (b.withLen x) := by
  unfold Vec.drainNew
  rw [M.bind_ok (Buf.getLen_apply _), M.bind_ok (bndStart_included x b),
    M.bind_ok (bndStop_excluded b.len x b), M.bind_ok (Buf.setLen_eq' hx),
    M.bind_ok (Buf.getLen_apply _), M.bind_ok (assert_pos (by simp [Buf.withLen]))]
  simp [Buf.withLen]

theorem drainDrop_empty {b : Buf α} {x : Nat} (hst : c.strict = false) (hx : x ≤ b.cap) :
    Vec.drainDrop c ⟨x, 0, x, x, x⟩ b = .ok () (b.withLen x) := by
  unfold Vec.drainDrop
  have hu : ∀ i n, uncheckedIndex c i n b = .ok () b := by
    intro i n; simp [uncheckedIndex, hst]
  rw [M.bind_ok (show Vec.drainCount c x 0 b = .ok () b from rfl), M.bind_ok (Buf.getLen_apply _), M.bind_ok (hu _ _),
    M.bind_ok (hu _ _), M.bind_ok (a := ()) (s' := b) (by simp [Buf.copy]),
    M.bind_ok (usub_eq (by simp)), Buf.setLen_eq' (by simpa using hx)]
  simp

theorem assert_ok {σ : Type} {p : Prop} [Decidable p] {s s' : σ} (h : assert p s = .ok () s') :
    p ∧ s' = s := by
  unfold assert at h
  by_cases hp : p
  · rw [if_pos hp] at h
    injection h with _ h
    exact ⟨hp, h.symm⟩
  · rw [if_neg hp] at h; cases h

theorem M.bind_ok_inv {σ β γ : Type} {m : M σ β} {f : β → M σ γ} {s s' : σ} {b : γ}
    (h : (m >>= f) s = .ok b s') : ∃ a s1, m s = .ok a s1 ∧ f a s1 = .ok b s' := by
  rw [M.bind_apply] at h
  cases hm : m s with
  | ok a s1 => rw [hm] at h; exact ⟨a, s1, rfl, h⟩
  | panic s1 => rw [hm] at h; cases h
  | abort => rw [hm] at h; cases h
  | ub u => rw [hm] at h; cases h

/-- The length is set to the start of the range before the range is checked. -/
theorem drainNew_none {b b' : Buf α} {lo hi : Vec.Bnd} {d : Vec.DrainH} (h : Vec.drainNew c lo hi b = .ok d b') :
    d.cnt = 0 := by
  unfold Vec.drainNew at h
  obtain ⟨n, b0, -, h⟩ := M.bind_ok_inv h
  obtain ⟨x, b1, -, h⟩ := M.bind_ok_inv h
  obtain ⟨y, b2, -, h⟩ := M.bind_ok_inv h
  obtain ⟨⟨⟩, b3, h3, h⟩ := M.bind_ok_inv h
  obtain ⟨m, b4, h4, h⟩ := M.bind_ok_inv h
  obtain ⟨⟨⟩, b5, h5, h⟩ := M.bind_ok_inv h
  cases h
  obtain ⟨h6, -⟩ := assert_ok h5
  have h7 : b3.len = x := by
    unfold Buf.setLen at h3
    obtain ⟨_, b6, -, h3⟩ := M.bind_ok_inv h3
    obtain ⟨_, b7, -, h3⟩ := M.bind_ok_inv h3
    rw [M.modify_apply] at h3
    injection h3 with _ h3
    rw [← h3]
  rw [Buf.getLen_apply] at h4
  injection h4 with h4
  simp only
  omega

theorem drainAll_range {s : VSt α} {lo hi : Vec.Bnd} {x y : Nat} (hlo : StartsAt lo x)
    (hhi : EndsAt s.self.len hi y) (hx : x ≤ c.usizeMax) (hy : y ≤ c.usizeMax) :
    Vec.drainAll c lo hi s = Vec.drainAll c (.included x) (.excluded y) s := by
  unfold Vec.drainAll
  rw [onBuf_eq, onBuf_eq, M.bind_apply, M.bind_apply,
    drainNew_range (b := bufOf c s) hlo (by simpa [bufOf] using hhi) hx hy]

theorem drainAll_panic {s : VSt α} (hs : c.size ≠ 0)
    {a b : Nat} (ha : a ≤ s.self.cap) (hab : a ≠ b) :
    Vec.drainAll c (.included a) (.excluded b) s = .panic (putBuf s ((bufOf c s).withLen a)) := by
  unfold Vec.drainAll
  rw [onBuf_eq, M.bind_panic (drainNew_panic (by simp only [bufOf, capacity_eq hs]; exact ha) hab)]

/-- `drain(a..a)`, where touching the end of a slice with `get_unchecked` is tolerated: the vector is
cut back to `a` elements. -/
theorem drainAll_empty {s : VSt α} (hs : c.size ≠ 0) (hst : c.strict = false) {a : Nat}
    (ha : a ≤ s.self.cap) :
    Vec.drainAll c (.included a) (.excluded a) s = .ok [] (putBuf s ((bufOf c s).withLen a)) := by
  have hcap : a ≤ (bufOf c s).cap := by simp only [bufOf, capacity_eq hs]; exact ha
  unfold Vec.drainAll
  rw [onBuf_eq, M.bind_ok (drainNew_empty hcap),
    M.bind_ok (show Buf.readSlice c a 0 ((bufOf c s).withLen a) = .ok [] _ from rfl),
    M.bind_ok (show Vec.drainDrop c ⟨a + 0, 0, a, a, a⟩ ((bufOf c s).withLen a) = _ from
      drainDrop_empty hst hcap)]
  rfl

/-! ## From a slice -/

theorem drop_emptyVec (hs : c.size ≠ 0) (w : World α) :
    Vec.drop c ⟨emptyVec w, w⟩ = .ok () ⟨emptyVec w, w⟩ :=
  drop_empty (by rw [capacity_eq hs]; rfl)

theorem fromSlice_eq (hs : c.size ≠ 0) (w : World α) (l : List α) :
    Vec.fromSlice c l w = if l = [] then .ok (emptyVec w) w else .panic w := by
  unfold Vec.fromSlice
  rw [M.bind_ok (new_eq w)]
  by_cases hl : l = []
  · subst hl
    rw [if_pos rfl]
    rw [M.bind_ok (withLocal_ok (a := ()) (s := ⟨emptyVec w, w⟩) (by
      rw [M.bind_ok (M.get_apply _)]; rfl))]
    rfl
  · rw [if_neg hl]
    have hne : ¬ (0 = l.length) := fun e => hl (List.length_eq_zero_iff.mp e.symm)
    refine M.bind_panic (withLocal_panic (s := ⟨emptyVec w, w⟩) ?_ (drop_emptyVec hs w))
    rw [M.bind_ok (M.get_apply _)]
    exact assert_neg hne

/-! ## Boxed slices -/

/-- The box holds exactly the list `l`, in a block of exactly that size. -/
structure BoxRep (c : Cfg α) (b : Vec.BoxSliceH) (w : World α) (l : List α) : Prop where
  len : b.len = l.length
  block : ∃ p, b.ptr = some p ∧ w.heap p = some ⟨b.alloc, l.length * c.size, l.map some⟩

theorem Rep.boxed {v : VecH} {w : World α} {l : List α} (h : Rep c v w l) (hl : l ≠ [])
    (hc : v.cap = l.length) : BoxRep c ⟨v.ptr, v.cap, v.alloc, v.marker⟩ w l := by
  rcases h.buf with ⟨_, _, h0⟩ | ⟨p, b, rest, hp, hb, h1, h2, h3, h4, _⟩
  · exact absurd h0 hl
  · refine ⟨hc, p, hp, ?_⟩
    have hrest : rest = [] := by
      rw [h3] at h4
      simp at h4
      exact List.length_eq_zero_iff.mp (by omega)
    rw [hrest, List.append_nil] at h3
    obtain ⟨ba, bb, bs⟩ := b
    simp only at h1 h2 h3
    rw [hb, h1, h2, h3, hc]

theorem BoxRep.rep {b : Vec.BoxSliceH} {w : World α} {l : List α} (h : BoxRep c b w l)
    (hl : l ≠ []) (hf : c.Fits l.length) : Rep c (Vec.ofBoxedSlice b) w l := by
  obtain ⟨p, hp, hb⟩ := h.block
  refine ⟨h.len, Or.inr ⟨p, _, [], hp, hb, rfl, ?_, by simp, by simp [Vec.ofBoxedSlice, h.len], ?_, ?_⟩⟩
  · simp [Vec.ofBoxedSlice, h.len]
  · simp only [Vec.ofBoxedSlice, h.len]; exact List.length_pos_iff.mpr hl
  · simp only [Vec.ofBoxedSlice, h.len]; exact hf

theorem intoBoxedSlice_spec {v : VecH} {w : World α} {l : List α} (hs : c.size ≠ 0)
    (hd : ∀ a, c.dropPanics a = false) (h : Rep c v w l) (hw : w.WF) (hl : l ≠ []) :
    Sat c (Vec.intoBoxedSlice c v w)
      (fun b w' => BoxRep c b w' l ∧ w'.log = w.log ∧ w'.WF ∧ b.alloc = v.alloc ∧
        b.marker = v.marker ∧ (∀ p, some p ≠ v.ptr → some p ≠ b.ptr → w'.heap p = w.heap p) ∧
        (∀ p, v.ptr = some p → b.ptr ≠ some p → w'.heap p = none))
      (fun w' => w' = (w.refuse.free v.ptr).addDrops l) := by
  unfold Vec.intoBoxedSlice
  have key := shrinkToFit_spec (s := ⟨v, w⟩) hs h hw (Or.inl hl)
  cases hr : Vec.shrinkToFit c ⟨v, w⟩ with
  | ok a s =>
    rw [hr] at key
    obtain ⟨h1, h2⟩ := key
    have hcap : 0 < v.cap := by
      have := h.le_cap
      have := List.length_pos_iff.mpr hl
      omega
    rw [M.bind_ok (withLocal_ok hr)]
    exact ⟨h1.trans.rep.boxed hl h2, h1.log, h1.trans.wf, (h1.trans.place.big hcap).2,
      h1.trans.place.marker, h1.trans.own.frame, h1.trans.own.freed⟩
  | panic s =>
    rw [hr] at key
    obtain ⟨rfl, _⟩ := key
    obtain ⟨v', e, _⟩ := drop_spec_ok (s := St.refuse ⟨v, w⟩) hs (Rep.refuse (s := ⟨v, w⟩) h)
      (fun a _ => hd a)
    rw [M.bind_panic (withLocal_panic hr e)]
    exact rfl
  | abort => rw [hr] at key; obtain ⟨a, ha⟩ := key; rw [hd a] at ha; cases ha
  | ub u => rw [hr] at key; exact key.elim

/-- Dropping the boxed slice. -/
theorem boxSliceDrop_spec {b : Vec.BoxSliceH} {w : World α} {l : List α} (hs : c.size ≠ 0)
    (h : BoxRep c b w l) (hl : l ≠ []) (hf : c.Fits l.length) :
    Sat c (Vec.boxSliceDrop c b w)
      (fun _ w' => w' = (w.free b.ptr).addDrops l)
      (fun w' => w' = w.addDrops l ∧ ∃ a ∈ l, c.dropPanics a = true) := by
  have hr : Rep c (Vec.ofBoxedSlice b) w l := h.rep hl hf
  have hbr := Rep.brep (s := ⟨Vec.ofBoxedSlice b, w⟩) hs hr
  have hput : ∀ d, putBuf (⟨Vec.ofBoxedSlice b, w⟩ : VSt α)
      { bufOf c ⟨Vec.ofBoxedSlice b, w⟩ with log := w.log.addDrops d } =
        ⟨Vec.ofBoxedSlice b, w.addDrops d⟩ := by
    intro d
    simp only [putBuf, bufOf, World.setSlots_slots]; rfl
  have hsl := Buf.dropSlice_spec (b := bufOf c ⟨Vec.ofBoxedSlice b, w⟩) (i := 0) (xs := l) hs
    (fun k hk => by rw [Nat.zero_add]; exact hbr.slot hk)
  unfold Vec.boxSliceDrop
  refine Sat.bind (Q := fun r w' => w' = (w.free b.ptr).addDrops l) ?_ (fun _ _ h => h)
  unfold withLocal M.onUnwind
  have key : Sat c ((do
      Vec.onBuf c (Buf.dropSlice c 0 b.len)
      Vec.dealloc c : M (VSt α) Unit) ⟨Vec.ofBoxedSlice b, w⟩)
      (fun _ s' => s'.w = (w.free b.ptr).addDrops l)
      (fun s' => s'.w = w.addDrops l ∧ ∃ a ∈ l, c.dropPanics a = true) := by
    rw [h.len]
    refine Sat.bind (Q := fun _ s' => s' = ⟨Vec.ofBoxedSlice b, w.addDrops l⟩)
      (onBuf_sat0 hsl ?_ ?_) ?_
    · rintro _ _ rfl; exact hput l
    · rintro _ ⟨rfl, h⟩; exact ⟨congrArg St.w (hput l), h⟩
    · rintro _ s' rfl
      have hrep : Rep c (Vec.ofBoxedSlice b) (w.addDrops l) l := hr.congr (fun _ _ => rfl)
      rw [dealloc_spec (s := ⟨Vec.ofBoxedSlice b, w.addDrops l⟩) hrep
        (by simp only [Vec.ofBoxedSlice, h.len]; exact List.length_pos_iff.mpr hl)]
      exact rfl
  cases hr : (do
      Vec.onBuf c (Buf.dropSlice c 0 b.len)
      Vec.dealloc c : M (VSt α) Unit) ⟨Vec.ofBoxedSlice b, w⟩ with
  | ok a s => rw [hr] at key; exact key
  | panic s => rw [hr] at key; exact key
  | abort => rw [hr] at key; exact key
  | ub u => rw [hr] at key; exact key

end Lokky
