import Verif.Proofs.VecGrow
import Verif.Proofs.VecMove
import Verif.Spec.Array

/-!
# Arrays
-/

namespace Lokky
open Spec
variable {α : Type} {c : Cfg α}

/-- The array `b` in world `w` has the slots `ss`. -/
structure ARep (c : Cfg α) (b : Vec.BoxSliceH) (w : World α) (ss : List (Option α)) : Prop where
  block : ∃ p, b.ptr = some p ∧ w.heap p = some ⟨b.alloc, b.len * c.size, ss⟩
  len : ss.length = b.len
  pos : 0 < b.len
  fits : c.Fits b.len

/-- The heap without the block of the array. -/
def World.others (w : World α) (p : Option Nat) : Nat → Option (Block α) :=
  fun q => if p = some q then none else w.heap q

/-- A call took the array from `s` to `s'`, leaving the slots `ss` and dropping `d`; all other memory is as
it was. -/
structure ATrans (c : Cfg α) (ss : List (Option α)) (d : List α) (s s' : ASt α) : Prop where
  rep : ARep c s'.self s'.w ss
  wf : s'.w.WF
  frame : s'.w.others s'.self.ptr = s.w.others s.self.ptr
  keeps : s'.self.alloc = s.self.alloc ∧ s'.self.marker = s.self.marker
  drops : s'.w.log.drops = s.w.log.drops ++ d

theorem ATrans.refl {s : ASt α} {ss : List (Option α)} (h : ARep c s.self s.w ss) (hw : s.w.WF) :
    ATrans c ss [] s s := ⟨h, hw, rfl, ⟨rfl, rfl⟩, by simp⟩

theorem ATrans.trans {s s1 s2 : ASt α} {ss ss' : List (Option α)} {d e : List α}
    (h : ATrans c ss d s s1) (h' : ATrans c ss' e s1 s2) : ATrans c ss' (d ++ e) s s2 :=
  ⟨h'.rep, h'.wf, h'.frame.trans h.frame, ⟨h'.keeps.1.trans h.keeps.1, h'.keeps.2.trans h.keeps.2⟩,
    by rw [h'.drops, h.drops, List.append_assoc]⟩

/-- The state after the slots and the log of an array were changed. -/
def aput (s : ASt α) (ss : List (Option α)) (g : Log α) : ASt α :=
  ⟨s.self, { s.w.setSlots s.self.ptr ss with log := g }⟩

theorem aput_trans {s : ASt α} {ss ss' : List (Option α)} {g : Log α} {d : List α}
    (h : ARep c s.self s.w ss) (hw : s.w.WF) (hl : ss'.length = ss.length)
    (hg : g.drops = s.w.log.drops ++ d) : ATrans c ss' d s (aput s ss' g) := by
  obtain ⟨p, hp, hb⟩ := h.block
  have hh : ∀ q, (aput s ss' g).w.heap q =
      if q = p then some ⟨s.self.alloc, s.self.len * c.size, ss'⟩ else s.w.heap q := by
    intro q
    simp only [aput, World.setSlots, hp, hb]
  refine ⟨⟨⟨p, hp, by rw [hh, if_pos rfl]; rfl⟩, hl.trans h.len, h.pos, h.fits⟩, ?_, ?_, ⟨rfl, rfl⟩, hg⟩
  · intro q hq
    have hn : (aput s ss' g).w.next = s.w.next := by simp only [aput, World.setSlots, hp, hb]
    rw [hn] at hq
    rw [hh]
    have h1 := hw q hq
    have : q ≠ p := by rintro rfl; rw [hb] at h1; cases h1
    rw [if_neg this, h1]
  · funext q
    simp only [World.others]
    have : (aput s ss' g).self.ptr = some p := hp
    rw [this, hp, hh]
    by_cases hq : q = p
    · simp [hq]
    · simp [hq]

theorem onSlots_eq {β : Type} {m : M (Buf α) β} {s : ASt α} {ss : List (Option α)} (hs : c.size ≠ 0)
    (h : ARep c s.self s.w ss) :
    Arr.onSlots c m s = match m ⟨ss, s.self.len, s.self.len, s.w.log⟩ with
      | .ok a b => .ok a (aput s b.slots b.log)
      | .panic b => .panic (aput s b.slots b.log)
      | .abort => .abort
      | .ub u => .ub u := by
  obtain ⟨p, hp, hb⟩ := h.block
  have e : s.w.slots s.self.ptr = ss := by simp [World.slots, hp, hb]
  unfold Arr.onSlots Vec.onBuf
  simp only [Vec.ofBoxedSlice, Vec.capacity, hs, if_false, e]
  cases m ⟨ss, s.self.len, s.self.len, s.w.log⟩ <;> rfl

/-- The calls whose behaviour is defined: elements that are not initialised are not read, nor assigned to
if there is a destructor; new sizes are not zero and fit. -/
def ArrOk (c : Cfg α) (ss : List (Option α)) : ArrCmd α → Prop
  | .put i _ => i < ss.length
  | .get i => ss[i]? ≠ some none
  | .assign i _ => ss[i]? ≠ some none ∨ c.needsDrop = false
  | .realloc n => 0 < n ∧ c.Fits n

theorem World.WF.heap_lt {w : World α} (hw : w.WF) {p : Nat} {b : Block α} (h : w.heap p = some b) :
    p < w.next := by
  rcases Nat.lt_or_ge p w.next with h' | h'
  · exact h'
  · rw [hw p h'] at h; cases h

theorem realloc_arr {s : ASt α} {ss : List (Option α)} (hs : c.size ≠ 0) (h : ARep c s.self s.w ss)
    (hw : s.w.WF) {n : Nat} (hn : 0 < n) (hf : c.Fits n) :
    (∃ s', Arr.realloc c n s = .ok (.ok ()) s' ∧ c.grant s.w.tick (n * c.size) = true ∧
      ATrans c (ss.take n ++ List.replicate (n - ss.length) none) [] s s' ∧ s'.self.len = n) ∨
    (∃ s', Arr.realloc c n s = .ok (.error .allocError) s' ∧ c.grant s.w.tick (n * c.size) = false ∧
      ATrans c ss [] s s' ∧ s'.self = s.self ∧ s'.w.heap = s.w.heap) := by
  obtain ⟨p, hp, hb⟩ := h.block
  have hb0 : n * c.size ≠ 0 := Nat.mul_ne_zero (by omega) hs
  have hd : n * c.size / c.size = n := Nat.mul_div_cancel _ (Nat.pos_of_ne_zero hs)
  have hmax : ¬ c.maxBytes < n * c.size := Nat.not_lt.mpr hf
  have hpn := hw.heap_lt hb
  simp only [Arr.realloc, M.bind_apply, M.get_apply, umul_eq (Fits.mul_le_usize hf), liftW,
    rawRealloc, hp, hb, ne_eq, not_true, if_false, hb0, hmax]
  cases hg : c.grant s.w.tick (n * c.size)
  · right
    refine ⟨_, rfl, rfl, ⟨⟨⟨p, hp, hb⟩, h.len, h.pos, h.fits⟩, hw, rfl, ⟨rfl, rfl⟩, by simp⟩, rfl, rfl⟩
  · left
    simp only [if_true, M.bind_apply, M.modify_apply, M.pure_apply, hd]
    refine ⟨_, rfl, trivial, ⟨⟨⟨s.w.next, rfl, if_pos rfl⟩, ?_, hn, hf⟩, ?_, ?_, ⟨rfl, rfl⟩, by simp⟩, rfl⟩
    · simp; omega
    · intro q hq
      simp only at hq ⊢
      rw [if_neg (by omega), hw q (by omega)]
      split <;> rfl
    · funext q
      simp only [World.others, hp, Option.some.injEq]
      by_cases h1 : s.w.next = q
      · subst h1
        rw [if_pos rfl, if_neg (by omega), hw _ (Nat.le_refl _)]
      · rw [if_neg h1, if_neg (Ne.symm h1)]
        by_cases h2 : p = q
        · subst h2; simp
        · rw [if_neg (Ne.symm h2), if_neg h2]

/-- Every defined call does what is specified. -/
theorem runArr_spec {s : ASt α} {ss : List (Option α)} (hs : c.size ≠ 0) (h : ARep c s.self s.w ss)
    (hw : s.w.WF) (k : ArrCmd α) (hk : ArrOk c ss k) :
    Sat c (runArr c k s)
      (fun r s' => ∃ ss' d, ArrStep c.dropPanics k ss (some r) ss' d ∧ ATrans c ss' d s s')
      (fun s' => ∃ ss' d, ArrStep c.dropPanics k ss none ss' d ∧ ATrans c ss' d s s') := by
  cases k with
  | put i x =>
    simp only [ArrOk] at hk
    simp only [runArr, Arr.put, M.bind_apply, onSlots_eq hs h, Buf.write, hs, if_false, hk, if_true,
      M.pure_apply]
    exact ⟨_, _, .put hk, aput_trans h hw (by simp) (by simp)⟩
  | get i =>
    simp only [ArrOk] at hk
    simp only [runArr, Arr.get, M.bind_apply, M.get_apply, assert]
    by_cases hi : i < s.self.len
    · have hx : ∃ x, ss[i]? = some (some x) := by
        rcases hx : ss[i]? with _ | (_ | x)
        · rw [List.getElem?_eq_none_iff, h.len] at hx; omega
        · exact absurd hx hk
        · exact ⟨x, rfl⟩
      obtain ⟨x, hx⟩ := hx
      simp only [if_pos hi, M.pure_apply, onSlots_eq hs h, Buf.read, hs, if_false, hx]
      exact ⟨_, _, .get hx, aput_trans h hw rfl (by simp)⟩
    · simp only [if_neg hi, M.boom_apply]
      exact ⟨_, _, .getOut (by rw [h.len]; omega), ATrans.refl h hw⟩
  | assign i x =>
    simp only [ArrOk] at hk
    simp only [runArr, Arr.assign, M.bind_apply, M.get_apply, assert]
    by_cases hi : i < s.self.len
    · have hi' : i < ss.length := by rw [h.len]; exact hi
      simp only [if_pos hi, M.onUnwind, M.pure_apply, onSlots_eq hs h, M.andAlways, M.seq,
        Buf.dropAt, hs, if_false]
      rcases hx : ss[i]? with _ | (_ | y)
      · rw [List.getElem?_eq_none_iff] at hx; omega
      · have hn : c.needsDrop = false := by
          rcases hk with hk | hk
          · exact absurd hx hk
          · exact hk
        simp only [hn, Bool.false_eq_true, if_false, Buf.write, hs, hi', if_true]
        exact ⟨_, _, .fill hx, aput_trans h hw (by simp) (by simp)⟩
      · simp only [Buf.onLog, dropVal]
        cases hy : c.dropPanics y
        · simp only [Bool.false_eq_true, if_false, Buf.write, hs, hi', if_true]
          exact ⟨_, _, .assign hx hy, aput_trans h hw (by simp) (by simp)⟩
        · simp only [if_true, Buf.write, hs, hi', if_false]
          exact ⟨_, _, .assignBoom hx hy, aput_trans h hw (by simp) (by simp)⟩
    · simp only [if_neg hi, M.onUnwind, M.boom_apply, liftW, World.onLog, dropVal]
      cases hx : c.dropPanics x
      · simp only [Bool.false_eq_true, if_false]
        refine ⟨_, _, .assignOut (by rw [h.len]; omega), ⟨?_, hw, rfl, ⟨rfl, rfl⟩, rfl⟩⟩
        exact ⟨h.block, h.len, h.pos, h.fits⟩
      · simp only [if_true]
        exact ⟨x, hx⟩
  | realloc n =>
    obtain ⟨hn, hf⟩ := hk
    rcases realloc_arr hs h hw hn hf with ⟨s', e, _, ht, _⟩ | ⟨s', e, _, ht, _⟩
    · simp only [runArr, M.bind_apply, e, M.pure_apply]
      exact ⟨_, _, .realloc, ht⟩
    · simp only [runArr, M.bind_apply, e, M.pure_apply]
      exact ⟨_, _, .refused, ht⟩

/-- Creating an array. -/
theorem allocUninit_spec {w : World α} {n : Nat} (hs : c.size ≠ 0) (hw : w.WF) (hn : 0 < n)
    (hf : c.Fits n) (m : Marker) :
    (∃ b w', Arr.allocUninit c n m w = .ok (.ok b) w' ∧ c.grant w.tick (n * c.size) = true ∧
      ARep c b w' (List.replicate n none) ∧ w'.WF ∧ b.len = n ∧ b.marker = m ∧
      b.alloc = w.allocFor m ∧ w'.others b.ptr = w.heap ∧ w'.log = w.log) ∨
    (∃ w', Arr.allocUninit c n m w = .ok (.error .allocError) w' ∧
      c.grant w.tick (n * c.size) = false ∧ w'.heap = w.heap ∧ w'.log = w.log) := by
  have hb : n * c.size ≠ 0 := Nat.mul_ne_zero (by omega) hs
  have hd : n * c.size / c.size = n := Nat.mul_div_cancel _ (Nat.pos_of_ne_zero hs)
  simp only [Arr.allocUninit, Vec.allocArrayUninit, hf, not_true, if_false, M.bind_apply, M.get_apply,
    rawAlloc_spec hb]
  cases hg : c.grant w.tick (n * c.size)
  · exact Or.inr ⟨_, rfl, rfl, rfl, rfl⟩
  · left
    simp only [if_true, M.pure_apply, hd]
    refine ⟨_, _, rfl, trivial, ⟨⟨w.next, rfl, if_pos rfl⟩, by simp, hn, hf⟩, ?_, rfl, rfl, rfl, ?_, rfl⟩
    · intro q hq
      simp only at hq ⊢
      rw [if_neg (by omega), hw q (by omega)]
    · funext q
      simp only [World.others, Option.some.injEq]
      by_cases h1 : w.next = q
      · subst h1; rw [if_pos rfl, hw _ (Nat.le_refl _)]
      · rw [if_neg h1, if_neg (Ne.symm h1)]

/-- Dropping slots of a type without destructor does nothing but log what was there. -/
theorem dropSlice_plain (hs : c.size ≠ 0) (hn : c.needsDrop = false)
    (hd : ∀ a, c.dropPanics a = false) (n : Nat) :
    ∀ i (b : Buf α), i + n = b.slots.length → Buf.dropSlice c i n b =
      .ok () { b with log := b.log.addDrops ((b.slots.drop i).filterMap id) } := by
  induction n with
  | zero =>
    intro i b h
    rw [List.drop_of_length_le (by omega)]
    simp [Buf.dropSlice, Log.addDrops]
  | succ n ih =>
    intro i b h
    have hi : i < b.slots.length := by omega
    rw [List.drop_eq_getElem_cons hi]
    simp only [Buf.dropSlice, M.andAlways, M.seq, M.onUnwind, Buf.dropAt, hs, if_false,
      List.getElem?_eq_getElem hi]
    cases hx : b.slots[i] with
    | none =>
      simp only [hn, Bool.false_eq_true, if_false]
      rw [ih (i + 1) b (by omega)]
      simp
    | some a =>
      simp only [Buf.onLog, dropVal, hd a, Bool.false_eq_true, if_false]
      rw [ih (i + 1) _ (by simp only; omega)]
      simp [Log.addDrops]

theorem arrDrop_plain {b : Vec.BoxSliceH} {w : World α} {ss : List (Option α)} (hs : c.size ≠ 0)
    (hn : c.needsDrop = false) (hd : ∀ a, c.dropPanics a = false) (h : ARep c b w ss) :
    ∃ w', Arr.drop c b w = .ok () w' ∧ w'.heap = w.others b.ptr ∧
      w'.log.drops = w.log.drops ++ ss.filterMap id := by
  obtain ⟨p, hp, hb⟩ := h.block
  have e : w.slots (some p) = ss := by simp [World.slots, hb]
  have h1 := dropSlice_plain hs hn hd b.len 0 (⟨ss, b.len, b.len, w.log⟩ : Buf α) (by simp [h.len])
  simp only [List.drop_zero] at h1
  simp only [Arr.drop, Vec.boxSliceDrop, withLocal, M.onUnwind, M.bind_apply, Vec.onBuf,
    Vec.ofBoxedSlice, Vec.capacity, hs, if_false, e, h1, World.setSlots, hp, hb, Vec.dealloc,
    M.get_apply, liftW, rawDealloc, if_true, ne_eq, not_true, M.pure_apply]
  refine ⟨_, rfl, ?_, rfl⟩
  funext q
  simp only [World.others, Option.some.injEq]
  by_cases h2 : q = p
  · simp [h2]
  · rw [if_neg h2, if_neg h2, if_neg (Ne.symm h2)]

end Lokky
