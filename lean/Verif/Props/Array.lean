import Verif.Proofs.Array
import Verif.Props.VecCapacity

/-!
# C122, C123: arrays
-/

namespace Lokky
open Spec
variable {α : Type} {c : Cfg α}

/-! ## C122 -/

/-- C122 does not hold: `alloc_array_uninit` is a safe function, and reading an element of what it returns
is undefined, for every type. -/
theorem C122_refuted_read (hs : c.size ≠ 0) {n : Nat} (hn : 0 < n) (hf : c.Fits n) (m : Marker)
    {w : World α} (hw : w.WF) (hg : c.grant w.tick (n * c.size) = true) :
    ∃ b w', Arr.allocUninit c n m w = .ok (.ok b) w' ∧
      ∀ i, i < n → Arr.get c i ⟨b, w'⟩ = .ub .uninit := by
  rcases allocUninit_spec hs hw hn hf m with ⟨b, w', e, _, h, _, hl, _⟩ | ⟨_, _, h, _⟩
  · refine ⟨b, w', e, fun i hi => ?_⟩
    have hx : (List.replicate n (none : Option α))[i]? = some none := by
      rw [List.getElem?_replicate, if_pos hi]
    simp only [Arr.get, M.bind_apply, M.get_apply, assert, hl, if_pos hi, M.pure_apply]
    rw [onSlots_eq (s := ⟨b, w'⟩) hs h]
    simp only [Buf.read, hs, if_false, hx]
  · rw [hg] at h; cases h

/-- So is dropping it, for every type with a destructor. -/
theorem C122_refuted_drop (hs : c.size ≠ 0) (hd : c.needsDrop = true) {n : Nat} (hn : 0 < n)
    (hf : c.Fits n) (m : Marker) {w : World α} (hw : w.WF)
    (hg : c.grant w.tick (n * c.size) = true) :
    ∃ b w', Arr.allocUninit c n m w = .ok (.ok b) w' ∧ Arr.drop c b w' = .ub .uninit := by
  rcases allocUninit_spec hs hw hn hf m with ⟨b, w', e, _, h, _, hl, _⟩ | ⟨_, _, h, _⟩
  · refine ⟨b, w', e, ?_⟩
    obtain ⟨p, hp, hb⟩ := h.block
    have hsl : w'.slots b.ptr = List.replicate n none := by simp [World.slots, hp, hb]
    obtain ⟨k, rfl⟩ := Nat.exists_eq_succ_of_ne_zero (by omega : n ≠ 0)
    simp only [Arr.drop, Vec.boxSliceDrop, withLocal, M.onUnwind, M.bind_apply, Vec.onBuf,
      Vec.ofBoxedSlice, Vec.capacity, hs, if_false, hsl, hl, Buf.dropSlice, M.andAlways, M.seq,
      Buf.dropAt, Nat.succ_eq_add_one, List.replicate_succ, List.getElem?_cons_zero, hd, if_true]
  · rw [hg] at h; cases h

/-- And assigning to an element, for every type with a destructor. -/
theorem C122_refuted_assign (hs : c.size ≠ 0) (hd : c.needsDrop = true) {n : Nat} (hn : 0 < n)
    (hf : c.Fits n) (m : Marker) {w : World α} (hw : w.WF)
    (hg : c.grant w.tick (n * c.size) = true) (x : α) :
    ∃ b w', Arr.allocUninit c n m w = .ok (.ok b) w' ∧
      ∀ i, i < n → Arr.assign c i x ⟨b, w'⟩ = .ub .uninit := by
  rcases allocUninit_spec hs hw hn hf m with ⟨b, w', e, _, h, _, hl, _⟩ | ⟨_, _, h, _⟩
  · refine ⟨b, w', e, fun i hi => ?_⟩
    have hx : (List.replicate n (none : Option α))[i]? = some none := by
      rw [List.getElem?_replicate, if_pos hi]
    simp only [Arr.assign, M.bind_apply, M.get_apply, assert, hl, if_pos hi, M.onUnwind, M.pure_apply]
    rw [onSlots_eq (s := ⟨b, w'⟩) hs h]
    simp only [M.andAlways, M.seq, M.onUnwind, Buf.dropAt, hs, if_false, hx, hd, if_true]
  · rw [hg] at h; cases h

/-- An array of no bytes (no elements, or elements of size zero) asks the allocator for zero bytes, which
is undefined. -/
theorem C122_refuted_zero {n : Nat} (hn : n * c.size = 0) (m : Marker) (w : World α) :
    Arr.allocUninit c n m w = .ub .zeroSize := by
  have hf : c.Fits n := by unfold Cfg.Fits; omega
  simp only [Arr.allocUninit, Vec.allocArrayUninit, hf, not_true, if_false, M.bind_apply, M.get_apply,
    rawAlloc, hn, if_true]

example : cfg64.size ≠ 0 ∧ cfg64.needsDrop = true ∧ cfg64.Fits 3 ∧
    cfg64.grant world0.tick (3 * cfg64.size) = true := by decide +kernel

/-- A program all of whose calls are defined, whatever the allocator answers. -/
def ArrOks (c : Cfg α) : List (Option α) → List (ArrCmd α) → Prop
  | _, [] => True
  | ss, k :: ks => ArrOk c ss k ∧
      ∀ r ss' d, ArrStep c.dropPanics k ss r ss' d → ArrOks c ss' ks

theorem runArrs_spec (hs : c.size ≠ 0) (ks : List (ArrCmd α)) :
    ∀ {s : ASt α} {ss : List (Option α)}, ARep c s.self s.w ss → s.w.WF → ArrOks c ss ks →
    Sat c (runArrs c ks s)
      (fun rs s' => ∃ ss' d, ArrSteps c.dropPanics ks ss rs ss' d ∧ ATrans c ss' d s s')
      (fun _ => False) := by
  induction ks with
  | nil => intro s ss h hw _; exact ⟨_, _, .nil, ATrans.refl h hw⟩
  | cons k ks ih =>
    intro s ss h hw hk
    have h1 := runArr_spec hs h hw k hk.1
    have next : ∀ (r : Option (ArrRet α)) s', (∃ ss' d, ArrStep c.dropPanics k ss r ss' d ∧
        ATrans c ss' d s s') → Sat c ((runArrs c ks >>= fun rs => pure (r :: rs)) s')
        (fun rs s' => ∃ ss' d, ArrSteps c.dropPanics (k :: ks) ss rs ss' d ∧ ATrans c ss' d s s')
        (fun _ => False) := by
      rintro r s' ⟨ss', d, h2, h3⟩
      refine Sat.bind (ih h3.rep h3.wf (hk.2 _ _ _ h2)) ?_
      rintro rs s2 ⟨ss2, e, h4, h5⟩
      exact ⟨_, _, .cons h2 h4, h3.trans h5⟩
    simp only [runArrs]
    cases he : runArr c k s with
    | ok r s' => rw [he] at h1; exact next (some r) s' h1
    | panic s' => rw [he] at h1; exact next none s' h1
    | abort => rw [he] at h1; exact h1
    | ub u => rw [he] at h1; exact h1.elim

theorem ARep.boxed {b : Vec.BoxSliceH} {w : World α} {l : List α} (h : ARep c b w (l.map some)) :
    BoxRep c b w l := by
  have hl : b.len = l.length := by rw [← h.len]; simp
  obtain ⟨p, hp, hb⟩ := h.block
  exact ⟨hl, p, hp, by rw [hb, hl]⟩

/-- C122, the part that holds. Sizes that are too large are refused without asking the allocator. If the
allocator refuses, nothing changed. Otherwise the array comes from the allocator selected by the marker,
and every program of defined calls does to it what is specified, and leaves all other memory alone. If all
elements are initialised at the end, dropping the array drops them once each, in order, and gives the
memory back (unless a destructor panics); for types without a destructor this holds even if some are not.
Missing: reading elements that are not initialised, assigning to them or dropping them for types with a
destructor, and arrays of no bytes, for which the property is false. -/
theorem C122_partial (hs : c.size ≠ 0) {n : Nat} (hn : 0 < n) (m : Marker) {w : World α} (hw : w.WF)
    (ks : List (ArrCmd α)) (hk : ArrOks c (List.replicate n none) ks) :
    (¬ c.Fits n ∧ Arr.allocUninit c n m w = .ok (.error .capacityOverflow) w) ∨
    (∃ w', Arr.allocUninit c n m w = .ok (.error .allocError) w' ∧
      c.grant w.tick (n * c.size) = false ∧ w'.heap = w.heap ∧ w'.log = w.log) ∨
    ∃ b w1, Arr.allocUninit c n m w = .ok (.ok b) w1 ∧ b.len = n ∧ b.marker = m ∧
      b.alloc = w.allocFor m ∧
      Sat c (runArrs c ks ⟨b, w1⟩)
        (fun rs s' => ∃ ss d, ArrSteps c.dropPanics ks (List.replicate n none) rs ss d ∧
          ARep c s'.self s'.w ss ∧ s'.w.log.drops = w.log.drops ++ d ∧
          s'.w.others s'.self.ptr = w.heap ∧
          (∀ l, ss = l.map some → Sat c (Arr.drop c s'.self s'.w)
            (fun _ w2 => w2.heap = w.heap ∧ w2.log.drops = w.log.drops ++ d ++ l)
            (fun w2 => w2.log.drops = w.log.drops ++ d ++ l ∧ ∃ a ∈ l, c.dropPanics a = true)) ∧
          (c.needsDrop = false → (∀ a, c.dropPanics a = false) →
            ∃ w2, Arr.drop c s'.self s'.w = .ok () w2 ∧ w2.heap = w.heap ∧
              w2.log.drops = w.log.drops ++ d ++ ss.filterMap id))
        (fun _ => False) := by
  by_cases hf : c.Fits n
  · right
    rcases allocUninit_spec hs hw hn hf m with ⟨b, w1, e, _, h, hw1, h1, h2, h3, h4, h5⟩ | h
    · refine Or.inr ⟨b, w1, e, h1, h2, h3, ?_⟩
      refine (runArrs_spec (s := ⟨b, w1⟩) hs ks h hw1 hk).mono ?_ (fun _ h => h)
      rintro rs s' ⟨ss, d, h6, h7⟩
      have hh : s'.w.others s'.self.ptr = w.heap := h7.frame.trans h4
      have hd : s'.w.log.drops = w.log.drops ++ d := by rw [h7.drops]; simp only [h5]
      refine ⟨ss, d, h6, h7.rep, hd, hh, ?_, ?_⟩
      · rintro l rfl
        have hb := h7.rep.boxed
        have hl : s'.self.len = l.length := hb.len
        refine (boxSliceDrop_spec hs hb ?_ (hl ▸ h7.rep.fits)).mono ?_ ?_
        · rintro rfl
          have := h7.rep.pos
          rw [hl] at this; simp at this
        · rintro _ w2 rfl
          obtain ⟨p, hp, _⟩ := hb.block
          refine ⟨?_, by simp [World.addDrops, World.free, Log.addDrops, hp, hd]⟩
          rw [← hh]
          funext q
          simp only [World.addDrops, World.free, World.others, hp, Option.some.injEq]
          by_cases hq : p = q
          · simp [hq]
          · rw [if_neg (fun h => hq h.symm), if_neg hq]
        · rintro w2 ⟨rfl, hx⟩
          exact ⟨by simp [World.addDrops, Log.addDrops, hd], hx⟩
      · intro hnd hdp
        obtain ⟨w2, e2, h8, h9⟩ := arrDrop_plain hs hnd hdp h7.rep
        exact ⟨w2, e2, h8.trans hh, by rw [h9, hd]⟩
    · exact Or.inl h
  · left
    refine ⟨hf, ?_⟩
    simp only [Arr.allocUninit, Vec.allocArrayUninit, hf, not_false_eq_true, if_true, M.bind_apply,
      M.pure_apply]

/-- Three elements, initialised, changed, read and dropped. -/
def arrProg : List (ArrCmd Nat) :=
  [.put 0 7, .put 1 8, .put 2 9, .assign 1 5, .get 1, .get 3, .realloc 2]

example : ArrOks cfg64 (List.replicate 3 none) arrProg := by
  refine ⟨by simp [ArrOk], ?_⟩
  rintro r _ d (h | _)
  refine ⟨by simp [ArrOk], ?_⟩
  rintro r _ d (h | _)
  refine ⟨by simp [ArrOk], ?_⟩
  rintro r _ d (h | _)
  refine ⟨Or.inl (by simp), ?_⟩
  rintro r _ d (_ | _ | _ | h | h | h | h)
  · simp at h
  · refine ⟨by simp [ArrOk], ?_⟩
    rintro r _ d (_ | h | h)
    · refine ⟨by simp [ArrOk], ?_⟩
      rintro r _ d (_ | h | h)
      · simp at h
      · exact ⟨⟨by decide, by decide +kernel⟩, fun _ _ _ _ => trivial⟩
    · simp at h
  · rename_i hb; exact absurd hb (by simp [cfg64])
  · simp at h

/-- Answers, contents after the program and what was dropped in the end. -/
def arrLook (r : Res (World Nat) (List (Option (ArrRet Nat)) × List (Option Nat))) :
    Option (List (Option (ArrRet Nat)) × List (Option Nat) × List Nat) :=
  match r with
  | .ok (rs, ss) w => some (rs, ss, w.log.drops)
  | _ => none

example : arrLook ((do
    let b ← Arr.allocUninit cfg64 3 none
    let b ← Vec.unwrap b
    let (rs, b) ← withLocal b (pure ()) (runArrs cfg64 arrProg)
    let w ← M.get
    let ss := w.slots b.ptr
    Arr.drop cfg64 b
    pure (rs, ss)) world0) =
    some ([some .unit, some .unit, some .unit, some .unit, some (.val 5), none, some .unit],
      [some 7, some 5], [8, 7, 5]) := by decide +kernel

/-! ## C123 -/

/-- C123 does not hold: sizes beyond `usize::MAX` bytes are not reported as `CapacityOverflow`. Builds with
overflow checks panic. -/
theorem C123_refuted_panics {s : ASt α} {n : Nat} (hd : c.debug = true)
    (hn : c.usizeMax < n * c.size) : Arr.realloc c n s = .panic s := by
  simp only [Arr.realloc, M.bind_apply, M.get_apply, umul, if_neg (Nat.not_le.mpr hn), hd, if_true,
    M.boom_apply]

/-- In other builds the size wraps around: the call succeeds, but the memory holds fewer elements than the
array says; elements that a caller initialises within the bounds of the array are written outside of its
memory. -/
theorem C123_refuted_wraps {s : ASt α} {ss : List (Option α)} (hs : c.size ≠ 0) (hd : c.debug = false)
    (h : ARep c s.self s.w ss) {n b : Nat} (hn : c.usizeMax < n * c.size)
    (hb : n * c.size % (c.usizeMax + 1) = b) (hb0 : b ≠ 0) (hbm : b ≤ c.maxBytes)
    (hg : c.grant s.w.tick b = true) :
    b / c.size < n ∧ ∃ s', Arr.realloc c n s = .ok (.ok ()) s' ∧ s'.self.len = n ∧
      ∀ i x, b / c.size ≤ i → Arr.put c i x s' = .ub .oob := by
  obtain ⟨p, hp, hbk⟩ := h.block
  have hlt : b < n * c.size := by
    have := Nat.mod_lt (n * c.size) (Nat.succ_pos c.usizeMax)
    simp only [Nat.succ_eq_add_one] at this
    omega
  refine ⟨Nat.div_lt_of_lt_mul (by rwa [Nat.mul_comm] at hlt), ?_⟩
  simp only [Arr.realloc, M.bind_apply, M.get_apply, umul, if_neg (Nat.not_le.mpr hn), hd,
    Bool.false_eq_true, if_false, M.pure_apply, hb, liftW, rawRealloc, hp, hbk, ne_eq, not_true, hb0,
    if_neg (Nat.not_lt.mpr hbm), hg, if_true, M.modify_apply]
  refine ⟨_, rfl, rfl, fun i x hi => ?_⟩
  have hl : (ss.take (b / c.size) ++ List.replicate (b / c.size - ss.length) (none : Option α)).length
      ≤ i := by
    simp; omega
  simp only [Arr.put, Arr.onSlots, Vec.onBuf, Vec.ofBoxedSlice, World.slots, if_true, Buf.write, hs,
    if_false, if_neg (Nat.not_lt.mpr hl)]

/-- An array of one element. -/
def arrOne (c : Cfg α) (x : α) : ASt α :=
  ⟨⟨some 0, 1, 0, none⟩, { (stored c [x] 1).w with
    heap := fun p => if p = 0 then some ⟨0, 1 * c.size, [some x]⟩ else none
    next := 1 }⟩

theorem arrOne_rep {x : α} (hf : c.Fits 1) : ARep c (arrOne c x).self (arrOne c x).w [some x] ∧
    (arrOne c x).w.WF :=
  ⟨⟨⟨0, rfl, rfl⟩, rfl, Nat.one_pos, hf⟩, fun p hp => if_neg (by simp [arrOne] at hp; omega)⟩

/-- An array of one 8-byte element, resized to 2^61 + 1 elements: 8 bytes are requested. -/
example : cfgRelease.size ≠ 0 ∧ cfgRelease.debug = false ∧ cfgRelease.Fits 1 ∧
    cfgRelease.usizeMax < (2 ^ 61 + 1) * cfgRelease.size ∧
    (2 ^ 61 + 1) * cfgRelease.size % (cfgRelease.usizeMax + 1) = 8 ∧ 8 ≤ cfgRelease.maxBytes ∧
    cfgRelease.grant (arrOne cfgRelease 7).w.tick 8 = true := by decide +kernel

/-- Sizes between `isize::MAX` and `usize::MAX` bytes go to the allocator, which is undefined. -/
theorem C123_refuted_bad_request {s : ASt α} {ss : List (Option α)} (h : ARep c s.self s.w ss) {n : Nat}
    (hf : ¬ c.Fits n) (hn : n * c.size ≤ c.usizeMax) : Arr.realloc c n s = .ub .badLayout := by
  obtain ⟨p, hp, hb⟩ := h.block
  have h0 : n * c.size ≠ 0 := by unfold Cfg.Fits at hf; omega
  have h1 : c.maxBytes < n * c.size := Nat.lt_of_not_le hf
  simp only [Arr.realloc, M.bind_apply, M.get_apply, umul, if_pos hn, M.pure_apply, liftW, rawRealloc,
    hp, hb, ne_eq, not_true, if_false, h0, h1, if_true]

/-- So does the size zero. -/
theorem C123_refuted_zero {s : ASt α} {ss : List (Option α)} (h : ARep c s.self s.w ss) :
    Arr.realloc c 0 s = .ub .zeroSize := by
  obtain ⟨p, hp, hb⟩ := h.block
  simp only [Arr.realloc, M.bind_apply, M.get_apply, umul, Nat.zero_mul, Nat.zero_le, if_true,
    M.pure_apply, liftW, rawRealloc, hp, hb, ne_eq, not_true, if_false]

/-- C123, the part that holds: for new sizes above zero that fit. If the allocator refuses, the error is
reported and the array is as before; otherwise it has the new length, and the elements that fit into it are
as before, with the others dropped by nobody.
Missing: zero and sizes that do not fit, for which it is false. -/
theorem C123_partial {s : ASt α} {ss : List (Option α)} (hs : c.size ≠ 0) (h : ARep c s.self s.w ss)
    (hw : s.w.WF) {n : Nat} (hn : 0 < n) (hf : c.Fits n) :
    (∃ s', Arr.realloc c n s = .ok (.ok ()) s' ∧ c.grant s.w.tick (n * c.size) = true ∧
      ATrans c (ss.take n ++ List.replicate (n - ss.length) none) [] s s' ∧ s'.self.len = n) ∨
    (∃ s', Arr.realloc c n s = .ok (.error .allocError) s' ∧ c.grant s.w.tick (n * c.size) = false ∧
      ATrans c ss [] s s' ∧ s'.self = s.self ∧ s'.w.heap = s.w.heap) :=
  realloc_arr hs h hw hn hf

example : ARep cfg64 (arrOne cfg64 7).self (arrOne cfg64 7).w [some 7] ∧ cfg64.Fits 4 :=
  ⟨(arrOne_rep (by decide +kernel)).1, by decide +kernel⟩
example : (match Arr.realloc cfg64 4 (arrOne cfg64 7) with
    | .ok (.ok _) s => some (s.self.len, s.w.slots s.self.ptr)
    | _ => none) = some (4, [some 7, none, none, none]) := by decide +kernel
example : (¬ cfg64.Fits (2 ^ 60)) ∧ 2 ^ 60 * cfg64.size ≤ cfg64.usizeMax ∧
    cfg64.usizeMax < 2 ^ 61 * cfg64.size := by decide +kernel

end Lokky
