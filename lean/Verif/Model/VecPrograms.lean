import Verif.Model.VecPool
import Verif.Spec.VecPrograms

/-!
# Client programs with vectors, by-value iterators and boxed slices

Not code of the crate: the way a client calls it. Each call runs the model of the corresponding function.
-/

namespace Lokky
variable {α : Type}

/-- An iterator (vec.rs 1079-1082) or a boxed slice (boxed.rs 7) made from a vector. -/
inductive ObjH where
  | iter (it : Vec.IntoIterH)
  | box (b : Vec.BoxSliceH)

/-- The vectors of a program, and the objects they were turned into, under the numbers of the vectors. -/
structure XPool (α : Type) where
  pool : Pool α
  objs : Nat → Option ObjH

/-- Object `x` becomes `o`. -/
def XPool.put (x : Nat) (o : Option ObjH) (X : XPool α) : XPool α :=
  { X with objs := fun y => if y = x then o else X.objs y }

/-- Vector `x` becomes `v`. -/
def XPool.setVec (x : Nat) (v : Option VecH) (X : XPool α) : XPool α :=
  { X with pool := { X.pool with vecs := X.pool.vecs.set x v } }

/-- The world becomes `w`. -/
def XPool.setW (w : World α) (X : XPool α) : XPool α := { X with pool := { X.pool with w } }

/-- A call on the vectors. -/
def onPool {β : Type} (m : M (Pool α) β) : M (XPool α) β := fun X =>
  match m X.pool with
  | .ok a P => .ok a { X with pool := P }
  | .panic P => .panic { X with pool := P }
  | .abort => .abort
  | .ub u => .ub u

/-- A call on iterator `x`. -/
def onIter (x : Nat) (m : M (St Vec.IntoIterH α) (Spec.Out α)) : M (XPool α) (Spec.Out α) := fun X =>
  match X.objs x with
  | some (.iter it) =>
    match m ⟨it, X.pool.w⟩ with
    | .ok a s => .ok a ((X.put x (some (.iter s.self))).setW s.w)
    | .panic s => .panic ((X.put x (some (.iter s.self))).setW s.w)
    | .abort => .abort
    | .ub u => .ub u
  | _ => .ok .unit X

/-- Calls of a client program (vec.rs 495-512, 1071-1131, 384-395, 1032-1040; ptr.rs 19-41). -/
def runX (c : Cfg α) : Spec.XCmd α → M (XPool α) (Spec.Out α)
  | .call cmd => onPool (runCmd c cmd)
  | .retain x f => onPool (onVecs x (quiet (Vec.retain c f)) .unit)
  | .dedupBy x same =>
    onPool (onVecs x (quiet (Vec.dedupBy c fun k a b => (same k a b).map fun r => (r, a, b))) .unit)
  | .dedupByKey x key =>
    onPool (onVecs x (quiet (Vec.dedupByKey c fun k a => (key k a).map fun q => (q, a))) .unit)
  | .intoIter x => fun X =>
    match X.pool.vecs[x]? with
    | some (some v) => .ok .unit ((X.setVec x none).put x (some (.iter (Vec.intoIter v))))
    | _ => .ok .unit X
  | .next x => onIter x do pure (.opt (← Vec.iterNext c))
  | .nextBack x => onIter x do pure (.opt (← Vec.iterNextBack c))
  | .rest x => onIter x do pure (.list (← Vec.iterAsSlice c))
  | .dropIter x => fun X =>
    match X.objs x with
    | some (.iter it) =>
      match Vec.iterDrop c ⟨it, X.pool.w⟩ with
      | .ok _ s => .ok .unit ((X.put x none).setW s.w)
      | .panic s => .panic ((X.put x none).setW s.w)
      | .abort => .abort
      | .ub u => .ub u
    | _ => .ok .unit X
  | .intoBoxed x => fun X =>
    match X.pool.vecs[x]? with
    | some (some v) =>
      match Vec.intoBoxedSlice c v X.pool.w with
      | .ok b w => .ok .unit (((X.setVec x none).put x (some (.box b))).setW w)
      | .panic w => .panic ((X.setVec x none).setW w)
      | .abort => .abort
      | .ub u => .ub u
    | _ => .ok .unit X
  | .readBox x => fun X =>
    match X.objs x with
    | some (.box b) =>
      match Vec.asSlice c ⟨Vec.ofBoxedSlice b, X.pool.w⟩ with
      | .ok l s => .ok (.list l) (X.setW s.w)
      | .panic s => .panic (X.setW s.w)
      | .abort => .abort
      | .ub u => .ub u
    | _ => .ok .unit X
  | .fromBoxed x => fun X =>
    match X.objs x with
    | some (.box b) => .ok .unit ((X.setVec x (some (Vec.ofBoxedSlice b))).put x none)
    | _ => .ok .unit X
  | .dropBox x => fun X =>
    match X.objs x with
    | some (.box b) =>
      match Vec.boxSliceDrop c b X.pool.w with
      | .ok _ w => .ok .unit ((X.put x none).setW w)
      | .panic w => .panic ((X.put x none).setW w)
      | .abort => .abort
      | .ub u => .ub u
    | _ => .ok .unit X

/-- What a client must respect: the conditions of C01–C04; `clear` only if no destructor of an element of the
vector panics (C21); `next_back` only while something is left (C15); only vectors with elements become boxed
slices (C22, C25). The objects named must be there and of the right kind, which Rust guarantees. -/
def Spec.XCmd.Legal (c : Cfg α) (X : XPool α) : Spec.XCmd α → Prop
  | .call cmd => cmd.Legal c X.pool ∧ ∀ x, cmd = .on x .clear → ∀ v, X.pool.vecs[x]? = some (some v) →
      ∀ l s, Vec.asSlice c ⟨v, X.pool.w⟩ = .ok l s → ∀ a ∈ l, c.dropPanics a = false
  | .retain x _ | .dedupBy x _ | .dedupByKey x _ | .intoIter x => ∃ v, X.pool.vecs[x]? = some (some v)
  | .next x | .rest x | .dropIter x => ∃ it, X.objs x = some (.iter it)
  | .nextBack x => ∃ it, X.objs x = some (.iter it) ∧ it.index < it.vec.len
  | .intoBoxed x => ∃ v, X.pool.vecs[x]? = some (some v) ∧ v.len ≠ 0
  | .readBox x | .fromBoxed x | .dropBox x => ∃ b, X.objs x = some (.box b)

/-- The outcome of a call as an event of the client's history. -/
inductive XHappens (c : Cfg α) (X : XPool α) (cmd : Spec.XCmd α) : Spec.Event α → XPool α → Prop
  | ret {o X'} : runX c cmd X = .ok o X' →
      XHappens c X cmd ⟨some o, X'.pool.w.refusals != X.pool.w.refusals⟩ X'
  | panic {X'} : runX c cmd X = .panic X' →
      XHappens c X cmd ⟨none, X'.pool.w.refusals != X.pool.w.refusals⟩ X'

/-- A client program that caught every panic and went on: the history it saw and the state it reached. -/
inductive XReaches (c : Cfg α) (X0 : XPool α) : Spec.XHistory α → XPool α → Prop
  | start : XReaches c X0 [] X0
  | step {h X cmd ev X'} : XReaches c X0 h X → cmd.Legal c X → XHappens c X cmd ev X' →
      XReaches c X0 (h ++ [(cmd, ev)]) X'

/-- The initial state: no vectors, no objects and no live blocks. -/
def XPool.Initial (X : XPool α) : Prop := X.pool.Initial ∧ ∀ x, X.objs x = none

/-- `Legal` as a test, to run examples. -/
def Spec.XCmd.legal (c : Cfg α) (X : XPool α) : Spec.XCmd α → Bool
  | .call cmd => cmd.legal c X.pool && match cmd with
    | .on x .clear => match X.pool.vecs[x]? with
      | some (some v) => match Vec.asSlice c ⟨v, X.pool.w⟩ with
        | .ok l _ => l.all fun a => !c.dropPanics a
        | _ => false
      | _ => false
    | _ => true
  | .retain x _ | .dedupBy x _ | .dedupByKey x _ | .intoIter x =>
    match X.pool.vecs[x]? with | some (some _) => true | _ => false
  | .next x | .rest x | .dropIter x => match X.objs x with | some (.iter _) => true | _ => false
  | .nextBack x => match X.objs x with | some (.iter it) => decide (it.index < it.vec.len) | _ => false
  | .intoBoxed x => match X.pool.vecs[x]? with | some (some v) => decide (v.len ≠ 0) | _ => false
  | .readBox x | .fromBoxed x | .dropBox x => match X.objs x with | some (.box _) => true | _ => false

theorem Spec.XCmd.legal_iff {c : Cfg α} {X : XPool α} {cmd : Spec.XCmd α} (h : cmd.legal c X = true) :
    cmd.Legal c X := by
  cases cmd with
  | call cmd =>
    simp only [Spec.XCmd.legal, Bool.and_eq_true] at h
    refine ⟨Spec.Cmd.legal_iff h.1, ?_⟩
    rintro x rfl v hv l s hl a ha
    have := h.2
    simp only [hv, hl, List.all_eq_true, Bool.not_eq_true'] at this
    exact this a ha
  | _ =>
    simp only [Spec.XCmd.legal] at h
    split at h <;> simp_all [Spec.XCmd.Legal]

/-- Run a list of calls, to get examples of `XReaches`. -/
def runXs (c : Cfg α) : List (Spec.XCmd α) → Spec.XHistory α → XPool α → Option (Spec.XHistory α × XPool α)
  | [], h, X => some (h, X)
  | cmd :: cmds, h, X =>
    if cmd.legal c X then
      match runX c cmd X with
      | .ok o X' => runXs c cmds (h ++ [(cmd, ⟨some o, X'.pool.w.refusals != X.pool.w.refusals⟩)]) X'
      | .panic X' => runXs c cmds (h ++ [(cmd, ⟨none, X'.pool.w.refusals != X.pool.w.refusals⟩)]) X'
      | _ => none
    else none

theorem runXs_reaches {c : Cfg α} {X0 : XPool α} (cmds : List (Spec.XCmd α)) {h h' : Spec.XHistory α}
    {X X' : XPool α} (hr : XReaches c X0 h X) (he : runXs c cmds h X = some (h', X')) :
    XReaches c X0 h' X' := by
  induction cmds generalizing h X with
  | nil => simp only [runXs, Option.some.injEq, Prod.mk.injEq] at he; obtain ⟨rfl, rfl⟩ := he; exact hr
  | cons cmd cmds ih =>
    unfold runXs at he
    split at he
    · rename_i hl
      split at he
      · rename_i o P1 h1
        exact ih (.step hr (Spec.XCmd.legal_iff hl) (.ret h1)) he
      · rename_i P1 h1
        exact ih (.step hr (Spec.XCmd.legal_iff hl) (.panic h1)) he
      · cases he
    · cases he

end Lokky
