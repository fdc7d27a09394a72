import Verif.Props.Witness
import Verif.Proofs.VecZst

/-!
# C18–C20: zero-sized elements, markers and scopes
-/

namespace Lokky
open Spec (Event Edit Edits Op Cmd Out)
variable {α : Type} {c : Cfg α}

/-! ## C18 -/

/-- Calls made one after the other on a vector of zero-sized elements, and what the client saw. -/
inductive ZCalls (c : Cfg α) (s0 : VSt α) : List (Op α × Event α) → VSt α → Prop
  | start : ZCalls c s0 [] s0
  | ret {h s o out s'} : ZCalls c s0 h s → o.ZLegal c s.self.len → runOp c o s = .ok out s' →
      ZCalls c s0 (h ++ [(o, .ret out)]) s'
  | panic {h s o s'} : ZCalls c s0 h s → o.ZLegal c s.self.len → runOp c o s = .panic s' →
      ZCalls c s0 (h ++ [(o, .panic)]) s'

theorem ZCalls.inv [Subsingleton α] (hz : c.size = 0) (hd : ∀ a, c.dropPanics a = false)
    {w : World α} {h : List (Op α × Event α)} {s : VSt α} (hr : ZCalls c ⟨emptyVec w, w⟩ h s) :
    ∃ l made dropped g, Edits c.cloneRel h l made dropped ∧ l.length ≤ c.usizeMax ∧
      g.drops = w.log.drops ++ dropped ∧ s = zSt (emptyVec w) w l.length g := by
  induction hr with
  | start => exact ⟨[], [], [], w.log, .start, Nat.zero_le _, by simp, rfl⟩
  | ret _ ho hrun ih =>
    obtain ⟨l, made, dropped, g, h1, h2, h3, rfl⟩ := ih
    obtain ⟨out, l', made', dropped', g', e1, e2, e3, e4⟩ :=
      runOp_z (v := emptyVec w) (w := w) hz hd l h2 g _ ho
    rw [e4] at hrun
    cases out with
    | none => cases hrun
    | some b =>
      injection hrun with hb hs
      subst hb; subst hs
      exact ⟨l', _, _, g', h1.step e1, e2, by rw [e3, h3, List.append_assoc], rfl⟩
  | panic _ ho hrun ih =>
    obtain ⟨l, made, dropped, g, h1, h2, h3, rfl⟩ := ih
    obtain ⟨out, l', made', dropped', g', e1, e2, e3, e4⟩ :=
      runOp_z (v := emptyVec w) (w := w) hz hd l h2 g _ ho
    rw [e4] at hrun
    cases out with
    | some b => cases hrun
    | none =>
      injection hrun with hs
      subst hs
      exact ⟨l', _, _, g', h1.step e1, e2, by rw [e3, h3, List.append_assoc], rfl⟩

/-- C18, the part that holds: over any history of calls on a new vector of zero-sized elements, every
answer, the length and the elements dropped are those of the list specification; the capacity is
unlimited and the allocator is never called. Missing: dropping the vector, for which it is false. -/
theorem C18_zst_history_partial [Subsingleton α] (hz : c.size = 0)
    (hd : ∀ a, c.dropPanics a = false) {w : World α} {h : List (Op α × Event α)} {s : VSt α}
    (hr : ZCalls c ⟨emptyVec w, w⟩ h s) :
    (∃ l made dropped, Edits c.cloneRel h l made dropped ∧ s.self.len = l.length ∧
      s.w.log.drops = w.log.drops ++ dropped) ∧
    Vec.capacity c s.self = c.usizeMax ∧
    s.w.heap = w.heap ∧ s.w.next = w.next ∧ s.w.tick = w.tick := by
  obtain ⟨l, made, dropped, g, h1, h2, h3, rfl⟩ := hr.inv hz hd
  exact ⟨⟨l, made, dropped, h1, rfl, h3⟩, capacity_z hz _, rfl, rfl, rfl⟩

/-- C18: on the way every legal call returns or panics; none is undefined. -/
theorem C18_zst_calls_defined_partial [Subsingleton α] (hz : c.size = 0)
    (hd : ∀ a, c.dropPanics a = false) {w : World α} {h : List (Op α × Event α)} {s : VSt α}
    (hr : ZCalls c ⟨emptyVec w, w⟩ h s) (o : Op α) (ho : o.ZLegal c s.self.len) :
    (∃ out s', runOp c o s = .ok out s') ∨ ∃ s', runOp c o s = .panic s' := by
  obtain ⟨l, made, dropped, g, h1, h2, h3, rfl⟩ := hr.inv hz hd
  obtain ⟨out, l', made', dropped', g', e1, e2, e3, e4⟩ :=
    runOp_z (v := emptyVec w) (w := w) hz hd l h2 g o ho
  cases out with
  | none => exact Or.inr ⟨_, e4⟩
  | some b => exact Or.inl ⟨_, _, e4⟩

/-- C18 does not hold: dropping any vector of zero-sized elements hands a dangling pointer to the
allocator. -/
theorem C18_zst_drop_refuted [Subsingleton α] (hz : c.size = 0) (hmax : 0 < c.usizeMax)
    (hd : ∀ a, c.dropPanics a = false) {w : World α} {h : List (Op α × Event α)} {s : VSt α}
    (hr : ZCalls c ⟨emptyVec w, w⟩ h s) : Vec.drop c s = .ub .badFree := by
  obtain ⟨l, made, dropped, g, h1, h2, h3, rfl⟩ := hr.inv hz hd
  unfold Vec.drop
  rw [M.bind_ok (M.get_apply _), capacity_z hz, if_pos hmax,
    M.bind_ok (onBuf_z hz (dropLoop_z hz hd 0 _ g))]
  rfl

/-- `Vec<()>` on a 64-bit target. -/
def cfgUnit : Cfg Unit where
  size := 0
  align := 1
  isizeMax := 2 ^ 63 - 1
  debug := true
  strict := true
  needsDrop := false
  dropPanics := fun _ => false
  zst := ()
  clone := fun _ a => some a
  grant := fun _ _ => true

def worldUnit : World Unit := ⟨fun _ => none, 0, 0, 0, fun _ => 0, ⟨[], 0⟩⟩

example : (match (do Vec.push cfgUnit (); Vec.push cfgUnit (); Vec.push cfgUnit ()
                     let a ← Vec.pop cfgUnit
                     pure a : M (VSt Unit) (Option Unit)) ⟨emptyVec worldUnit, worldUnit⟩ with
    | .ok a s => some (a, s.self.len, s.w.tick, match Vec.drop cfgUnit s with
        | .ub .badFree => true | _ => false)
    | _ => none) = some (some (), 2, 0, true) := by decide +kernel

/-! ## C19, C20 -/

/-- The vector seen from a scope in which markers select allocators by `f`. -/
def St.inScope {S : Type} (s : St S α) (f : Marker → Nat) : St S α :=
  ⟨s.self, { s.w with allocFor := f }⟩

/-- The later life of a vector: calls that return or panic, and changes of the current scope. -/
inductive Lives (c : Cfg α) (s0 : VSt α) : VSt α → Prop
  | start : Lives c s0 s0
  | ret {s o out s'} : Lives c s0 s → o.Legal c s.self.len s.self.cap →
      runOp c o s = .ok out s' → Lives c s0 s'
  | panic {s o s'} : Lives c s0 s → o.Legal c s.self.len s.self.cap →
      runOp c o s = .panic s' → Lives c s0 s'
  | scope {s} (f : Marker → Nat) : Lives c s0 s → Lives c s0 (s.inScope f)

theorem Rep.inScope {s : VSt α} {l : List α} (h : Rep c s.self s.w l) (f : Marker → Nat) :
    Rep c (s.inScope f).self (s.inScope f).w l := h.congr fun _ _ => rfl

theorem runOp_trans {s : VSt α} {l : List α} (hs : c.size ≠ 0)
    (hd : ∀ a, c.dropPanics a = false) (h : Rep c s.self s.w l) (hw : s.w.WF) {o : Op α}
    (ho : o.Legal c s.self.len s.self.cap) {s' : VSt α}
    (hr : (∃ out, runOp c o s = .ok out s') ∨ runOp c o s = .panic s') :
    ∃ l' d, Trans c l' d s s' := by
  have key := runOp_spec hs hd h hw o ho
  rcases hr with ⟨out, e⟩ | e <;>
  · rw [e] at key
    obtain ⟨l', _, d, _, ht⟩ := key
    exact ⟨l', d, ht⟩

/-- Once a vector has a buffer it keeps its marker and its allocator whatever happens. -/
theorem Lives.keeps {s0 s : VSt α} {l : List α} (hs : c.size ≠ 0)
    (hd : ∀ a, c.dropPanics a = false) (h : Rep c s0.self s0.w l) (hw : s0.w.WF)
    (hc : 0 < s0.self.cap) (hl : Lives c s0 s) :
    (∃ l, Rep c s.self s.w l) ∧ s.w.WF ∧ 0 < s.self.cap ∧ s.self.alloc = s0.self.alloc ∧
      s.self.marker = s0.self.marker := by
  induction hl with
  | start => exact ⟨⟨l, h⟩, hw, hc, rfl, rfl⟩
  | ret _ ho hr ih =>
    obtain ⟨⟨l1, h1⟩, h2, h3, h4, h5⟩ := ih
    obtain ⟨l', d, ht⟩ := runOp_trans hs hd h1 h2 ho (Or.inl ⟨_, hr⟩)
    obtain ⟨g1, g2⟩ := ht.place.big h3
    exact ⟨⟨l', ht.rep⟩, ht.wf, g1, g2.trans h4, ht.place.marker.trans h5⟩
  | panic _ ho hr ih =>
    obtain ⟨⟨l1, h1⟩, h2, h3, h4, h5⟩ := ih
    obtain ⟨l', d, ht⟩ := runOp_trans hs hd h1 h2 ho (Or.inr hr)
    obtain ⟨g1, g2⟩ := ht.place.big h3
    exact ⟨⟨l', ht.rep⟩, ht.wf, g1, g2.trans h4, ht.place.marker.trans h5⟩
  | scope f _ ih =>
    obtain ⟨⟨l1, h1⟩, h2, h3, h4, h5⟩ := ih
    exact ⟨⟨l1, h1.inScope f⟩, h2, h3, h4, h5⟩

/-- Where the buffer of a vector comes from. -/
def BufferFrom (s : VSt α) (a : Nat) : Prop :=
  ∃ p b, s.self.ptr = some p ∧ s.w.heap p = some b ∧ b.alloc = a

theorem Rep.bufferFrom {s : VSt α} {l : List α} (h : Rep c s.self s.w l) (hc : 0 < s.self.cap) :
    BufferFrom s s.self.alloc := by
  rcases h.buf with ⟨_, h1, _⟩ | ⟨p, b, rest, hp, hb, h1, _⟩
  · omega
  · exact ⟨p, b, hp, hb, h1⟩

/-- C19 does not hold: a vector created with a marker but without capacity reports no marker. -/
theorem C19_marker_lost_refuted (m : Marker) (w : World α) :
    ∃ v, Vec.withMarker m w = .ok v w ∧ v.marker = none :=
  ⟨_, rfl, rfl⟩

/-- … nor does one created with capacity zero; and its first buffer is taken from the allocator for
no marker. -/
theorem C19_marker_ignored_refuted (hs : c.size ≠ 0) (m : Marker) {w : World α} (hw : w.WF)
    (hf : c.Fits 1) (a : α) :
    ∃ v, Vec.tryWithCapacityAndMarker c 0 m w = .ok (.ok v) w ∧
      Sat c (Vec.push c a ⟨v, w⟩) (fun _ s => BufferFrom s (w.allocFor none))
        (fun s => s.self.cap = 0) := by
  refine ⟨{ ptr := none, cap := 0, alloc := w.allocFor m, marker := none, len := 0 }, ?_, ?_⟩
  · simp only [Vec.tryWithCapacityAndMarker, true_or, if_true, M.bind_apply, Vec.withMarker,
        M.pure_apply]
  · have h : Rep c { ptr := none, cap := 0, alloc := w.allocFor m, marker := none, len := 0 } w [] :=
      ⟨rfl, Or.inl ⟨rfl, rfl, rfl⟩⟩
    refine (push_spec (s := ⟨_, w⟩) hs h hw hf a).mono ?_ ?_
    · rintro _ s' ⟨h1, _, _⟩
      have hc : 0 < s'.self.cap := by have := h1.trans.rep.le_cap; simp at this; omega
      have h2 := h1.trans.rep.bufferFrom hc
      rcases h1.trans.place.small rfl with h3 | h3
      · omega
      · rwa [h3] at h2
    · rintro s' ⟨_, rfl, _, _⟩
      rfl

/-- C19, the part that holds: a vector created with a marker and some capacity reports that marker
for ever, and all buffers it ever uses come from the allocator which the creating scope selected for
the marker, whatever calls and scopes follow. Missing: creation without capacity, for which it is
false. -/
theorem C19_marker_kept_partial (hs : c.size ≠ 0) (hd : ∀ a, c.dropPanics a = false) {m : Marker}
    {w w' : World α} (hw : w.WF) {n : Nat} (hn : 0 < n) {v : VecH}
    (hv : Vec.tryWithCapacityAndMarker c n m w = .ok (.ok v) w') {s : VSt α}
    (hl : Lives c ⟨v, w'⟩ s) :
    s.self.marker = m ∧ BufferFrom s (w.allocFor m) := by
  have hf : c.Fits n := by
    refine Decidable.byContradiction fun hf => ?_
    simp only [Vec.tryWithCapacityAndMarker, if_neg (show ¬ (n = 0 ∨ c.size = 0) by omega),
      Vec.allocArrayUninit, if_pos hf, M.pure_apply] at hv
    cases hv
  have key := tryWithCapacity_spec hs hw hn hf m
  rw [hv] at key
  rcases key with ⟨v', e, _, h1, h2, h3, h4, h5, _⟩ | ⟨e, _⟩
  · cases e
    obtain ⟨⟨l, g1⟩, _, g2, g3, g4⟩ := hl.keeps hs hd h1 h2 (by simp only; omega)
    refine ⟨g4.trans h4, ?_⟩
    have := g1.bufferFrom g2
    rwa [g3, h5] at this
  · cases e

/-- C20 does not hold: a vector created in one scope that first grows inside another takes its buffer
from the allocator of the latter. -/
theorem C20_scope_refuted (hs : c.size ≠ 0) {w : World α} (hw : w.WF) (hf : c.Fits 1)
    (f : Marker → Nat) (a : α) :
    ∃ v, Vec.new w = .ok v w ∧ v.alloc = w.allocFor none ∧
      Sat c (Vec.push c a (St.inScope ⟨v, w⟩ f)) (fun _ s => BufferFrom s (f none))
        (fun s => s.self.cap = 0) := by
  refine ⟨emptyVec w, rfl, rfl, ?_⟩
  have h : Rep c (St.inScope ⟨emptyVec w, w⟩ f).self (St.inScope ⟨emptyVec w, w⟩ f).w [] :=
    Rep.inScope (emptyVec_rep w) f
  refine (push_spec (s := St.inScope ⟨emptyVec w, w⟩ f) hs h hw hf a).mono ?_ ?_
  · rintro _ s' ⟨h1, _, _⟩
    have hc : 0 < s'.self.cap := by have := h1.trans.rep.le_cap; simp at this; omega
    have h2 := h1.trans.rep.bufferFrom hc
    rcases h1.trans.place.small rfl with h3 | h3
    · omega
    · rwa [h3] at h2
  · rintro s' ⟨_, rfl, _, _⟩
    rfl

/-- C20, the part that holds: as soon as a vector has a buffer, its allocator is fixed; all later
buffers come from it, in whatever scope they are requested. Missing: vectors that have no buffer yet
when the scope changes, for which it is false. -/
theorem C20_scope_partial (hs : c.size ≠ 0) (hd : ∀ a, c.dropPanics a = false) {s0 s : VSt α}
    {l : List α} (h : Rep c s0.self s0.w l) (hw : s0.w.WF) (hc : 0 < s0.self.cap)
    (hl : Lives c s0 s) : ∃ a, BufferFrom s0 a ∧ BufferFrom s a := by
  obtain ⟨⟨l, g1⟩, _, g2, g3, _⟩ := hl.keeps hs hd h hw hc
  have := g1.bufferFrom g2
  rw [g3] at this
  exact ⟨_, h.bufferFrom hc, this⟩

/-- The later life of a vector as long as the scope does not change. -/
inductive Stays (c : Cfg α) (s0 : VSt α) : VSt α → Prop
  | start : Stays c s0 s0
  | ret {s o out s'} : Stays c s0 s → o.Legal c s.self.len s.self.cap →
      runOp c o s = .ok out s' → Stays c s0 s'
  | panic {s o s'} : Stays c s0 s → o.Legal c s.self.len s.self.cap →
      runOp c o s = .panic s' → Stays c s0 s'

/-- C20: a new vector used in its own scope only has all its buffers from that scope. -/
theorem C20_own_scope_partial (hs : c.size ≠ 0) (hd : ∀ a, c.dropPanics a = false) {w : World α}
    (hw : w.WF) {v : VecH} (hv : Vec.new w = .ok v w) {s : VSt α} (hl : Stays c ⟨v, w⟩ s)
    (hc : 0 < s.self.cap) : BufferFrom s (w.allocFor none) := by
  have hv : v = emptyVec w := by injection hv with h; exact h.symm
  subst hv
  have key : ∀ s, Stays c ⟨emptyVec w, w⟩ s → (∃ l, Rep c s.self s.w l) ∧ s.w.WF ∧
      s.self.alloc = w.allocFor none ∧ s.self.marker = none ∧ s.w.allocFor = w.allocFor := by
    intro s hl
    have step : ∀ {s s' : VSt α} {l' d : List α}, Trans c l' d s s' →
        s.self.alloc = w.allocFor none → s.self.marker = none → s.w.allocFor = w.allocFor →
        (∃ l, Rep c s'.self s'.w l) ∧ s'.w.WF ∧
        s'.self.alloc = w.allocFor none ∧ s'.self.marker = none ∧ s'.w.allocFor = w.allocFor := by
      intro s s' l' d ht h3 h4 h5
      refine ⟨⟨l', ht.rep⟩, ht.wf, ?_, ht.place.marker.trans h4, ht.place.scope.trans h5⟩
      by_cases h0 : 0 < s.self.cap
      · exact (ht.place.big h0).2.trans h3
      · rcases ht.place.small (by omega) with ⟨_, e⟩ | e
        · exact e.trans h3
        · rw [e, h4, h5]
    induction hl with
    | start => exact ⟨⟨[], emptyVec_rep w⟩, hw, rfl, rfl, rfl⟩
    | ret _ ho hr ih =>
      obtain ⟨⟨l1, h1⟩, h2, h3, h4, h5⟩ := ih
      obtain ⟨l', d, ht⟩ := runOp_trans hs hd h1 h2 ho (Or.inl ⟨_, hr⟩)
      exact step ht h3 h4 h5
    | panic _ ho hr ih =>
      obtain ⟨⟨l1, h1⟩, h2, h3, h4, h5⟩ := ih
      obtain ⟨l', d, ht⟩ := runOp_trans hs hd h1 h2 ho (Or.inr hr)
      exact step ht h3 h4 h5
  obtain ⟨⟨l, g1⟩, _, g2, _⟩ := key s hl
  have := g1.bufferFrom hc
  rwa [g2] at this

/-- Allocator of the buffer, and marker, after creating with capacity `n` and marker 5 in a scope that
maps markers to allocators 10, 15, …, and then pushing twice in a scope that maps all to 3. -/
def lookPlace (n : Nat) : Option (Option Nat × Marker) :=
  match Vec.tryWithCapacityAndMarker cfg64 n (some 5)
      { world0 with allocFor := fun m => 10 + m.getD 0 } with
  | .ok (.ok v) w =>
    match (do Vec.push cfg64 1; Vec.push cfg64 2 : M (VSt Nat) Unit)
        (St.inScope ⟨v, w⟩ fun _ => 3) with
    | .ok _ s => some ((s.self.ptr.bind s.w.heap).map (·.alloc), s.self.marker)
    | _ => none
  | _ => none

example : lookPlace 1 = some (some 15, some 5) := by decide +kernel
example : lookPlace 0 = some (some 3, none) := by decide +kernel

end Lokky
