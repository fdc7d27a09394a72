import Verif.Model.VecPrograms
import Verif.Model.SmallPoolPanic
import Verif.Spec.MixedPrograms

/-!
# Client programs that mix vectors, small vectors, by-value iterators and boxed slices

Not code of the crate: the way a client calls it. Each call runs the model of the corresponding function.
-/

namespace Lokky
open Spec (pad)
variable {α : Type}

/-- The vectors, iterators and boxed slices of a program, and its small vectors. -/
structure YPool (α : Type) where
  x : XPool α
  smalls : List (Option (SmallH α))

/-- The world. -/
abbrev YPool.w (Y : YPool α) : World α := Y.x.pool.w

/-- Small vector `x` becomes `v`. -/
def YPool.setSmall (x : Nat) (v : Option (SmallH α)) (Y : YPool α) : YPool α :=
  { Y with smalls := Y.smalls.set x v }

/-- The world becomes `w`. -/
def YPool.setW (w : World α) (Y : YPool α) : YPool α := { Y with x := Y.x.setW w }

/-- A call on vectors, iterators and boxed slices. -/
def onX {β : Type} (m : M (XPool α) β) : M (YPool α) β := fun Y =>
  match m Y.x with
  | .ok a X => .ok a ⟨X, pad X.pool.vecs.length Y.smalls⟩
  | .panic X => .panic ⟨X, pad X.pool.vecs.length Y.smalls⟩
  | .abort => .abort
  | .ub u => .ub u

/-- A call on small vectors. -/
def onS {β : Type} (m : M (SPool α) β) : M (YPool α) β := fun Y =>
  match m ⟨Y.smalls, Y.w⟩ with
  | .ok a P => .ok a ⟨{ Y.x with pool := ⟨pad P.vecs.length Y.x.pool.vecs, P.w⟩ }, P.vecs⟩
  | .panic P => .panic ⟨{ Y.x with pool := ⟨pad P.vecs.length Y.x.pool.vecs, P.w⟩ }, P.vecs⟩
  | .abort => .abort
  | .ub u => .ub u

/-- Calls of a client program (small_vec.rs 376-400, 532-550, 960-974; vec.rs 384-395, 1032-1040). -/
def runY (c : Cfg α) : Spec.YCmd α → M (YPool α) (Spec.Out α)
  | .vec cmd => onX (runX c cmd)
  | .small cmd => onS (runSCmd c cmd)
  | .retain x f => onS (onSmalls x (quiet (Small.retain c f)) .unit)
  | .dedupBy x same =>
    onS (onSmalls x (quiet (Small.dedupBy c fun k a b => (same k a b).map fun r => (r, a, b))) .unit)
  | .dedupByKey x key =>
    onS (onSmalls x (quiet (Small.dedupByKey c fun k a => (key k a).map fun q => (q, a))) .unit)
  | .intoVec x => fun Y =>
    match Y.smalls[x]? with
    | some (some v) =>
      match Small.intoVec c v Y.w with
      | .ok r w => .ok .unit ⟨(Y.x.setVec x (some r)).setW w, Y.smalls.set x none⟩
      | .panic w => .panic ((Y.setSmall x none).setW w)
      | .abort => .abort
      | .ub u => .ub u
    | _ => .ok .unit Y
  | .toSmall x n => fun Y =>
    match Y.x.pool.vecs[x]? with
    | some (some v) => .ok .unit ⟨Y.x.setVec x none, Y.smalls.set x (some (Small.fromVec n v))⟩
    | _ => .ok .unit Y
  | .intoBoxed x => fun Y =>
    match Y.smalls[x]? with
    | some (some v) =>
      match Small.intoBoxedSlice c v Y.w with
      | .ok b w => .ok .unit ⟨(Y.x.put x (some (.box b))).setW w, Y.smalls.set x none⟩
      | .panic w => .panic ((Y.setSmall x none).setW w)
      | .abort => .abort
      | .ub u => .ub u
    | _ => .ok .unit Y
  | .boxToSmall x n => fun Y =>
    match Y.x.objs x with
    | some (.box b) => .ok .unit ⟨Y.x.put x none, Y.smalls.set x (some (Small.ofBoxedSlice n b))⟩
    | _ => .ok .unit Y

/-- What a client must respect: the conditions of C124, C28 and C120; only small vectors with elements become
boxed slices (C22, C25); sizes stay within the byte limit of `Layout`. The objects named must be there and of
the right kind, which Rust guarantees. -/
def Spec.YCmd.Legal (c : Cfg α) (Y : YPool α) : Spec.YCmd α → Prop
  | .vec cmd => cmd.Legal c Y.x
  | .small cmd => cmd.Legal c ⟨Y.smalls, Y.w⟩ ∧ cmd.Mild c ⟨Y.smalls, Y.w⟩
  | .retain x _ | .dedupBy x _ | .dedupByKey x _ => ∃ v, Y.smalls[x]? = some (some v)
  | .intoVec x => ∃ v, Y.smalls[x]? = some (some v) ∧ c.Fits (Small.lenOf v + Vec.minNonZeroCap c)
  | .toSmall x n => (∃ v, Y.x.pool.vecs[x]? = some (some v)) ∧ c.Fits n
  | .intoBoxed x => ∃ v, Y.smalls[x]? = some (some v) ∧ c.Fits (Small.lenOf v + Vec.minNonZeroCap c) ∧
      Small.lenOf v ≠ 0
  | .boxToSmall x n => (∃ b, Y.x.objs x = some (.box b)) ∧ c.Fits n

/-- The outcome of a call as an event of the client's history. -/
inductive YHappens (c : Cfg α) (Y : YPool α) (cmd : Spec.YCmd α) : Spec.Event α → YPool α → Prop
  | ret {o Y'} : runY c cmd Y = .ok o Y' → YHappens c Y cmd ⟨some o, Y'.w.refusals != Y.w.refusals⟩ Y'
  | panic {Y'} : runY c cmd Y = .panic Y' → YHappens c Y cmd ⟨none, Y'.w.refusals != Y.w.refusals⟩ Y'

/-- A client program that caught every panic and went on: the history it saw and the state it reached. -/
inductive YReaches (c : Cfg α) (Y0 : YPool α) : Spec.YHistory α → YPool α → Prop
  | start : YReaches c Y0 [] Y0
  | step {h Y cmd ev Y'} : YReaches c Y0 h Y → cmd.Legal c Y → YHappens c Y cmd ev Y' →
      YReaches c Y0 (h ++ [(cmd, ev)]) Y'

/-- The initial state: no vectors, no objects and no live blocks. -/
def YPool.Initial (Y : YPool α) : Prop := Y.x.Initial ∧ Y.smalls = []

/-- `Legal` as a test, to run examples. -/
def Spec.YCmd.legal (c : Cfg α) (Y : YPool α) : Spec.YCmd α → Bool
  | .vec cmd => cmd.legal c Y.x
  | .small cmd => decide (cmd.Legal c ⟨Y.smalls, Y.w⟩) && mildly c ⟨Y.smalls, Y.w⟩ cmd
  | .retain x _ | .dedupBy x _ | .dedupByKey x _ => match Y.smalls[x]? with | some (some _) => true | _ => false
  | .intoVec x => match Y.smalls[x]? with
    | some (some v) => decide (c.Fits (Small.lenOf v + Vec.minNonZeroCap c))
    | _ => false
  | .toSmall x n => match Y.x.pool.vecs[x]? with | some (some _) => decide (c.Fits n) | _ => false
  | .intoBoxed x => match Y.smalls[x]? with
    | some (some v) => decide (c.Fits (Small.lenOf v + Vec.minNonZeroCap c) ∧ Small.lenOf v ≠ 0)
    | _ => false
  | .boxToSmall x n => match Y.x.objs x with | some (.box _) => decide (c.Fits n) | _ => false

theorem Spec.YCmd.legal_iff {c : Cfg α} {Y : YPool α} {cmd : Spec.YCmd α} (h : cmd.legal c Y = true) :
    cmd.Legal c Y := by
  cases cmd with
  | vec cmd => exact Spec.XCmd.legal_iff h
  | small cmd =>
    simp only [Spec.YCmd.legal, Bool.and_eq_true, decide_eq_true_eq] at h
    exact ⟨h.1, mildly_mild h.2⟩
  | _ =>
    simp only [Spec.YCmd.legal] at h
    split at h <;> simp_all [Spec.YCmd.Legal]

/-- Run a list of calls, to get examples of `YReaches`. -/
def runYs (c : Cfg α) : List (Spec.YCmd α) → Spec.YHistory α → YPool α → Option (Spec.YHistory α × YPool α)
  | [], h, Y => some (h, Y)
  | cmd :: cmds, h, Y =>
    if cmd.legal c Y then
      match runY c cmd Y with
      | .ok o Y' => runYs c cmds (h ++ [(cmd, ⟨some o, Y'.w.refusals != Y.w.refusals⟩)]) Y'
      | .panic Y' => runYs c cmds (h ++ [(cmd, ⟨none, Y'.w.refusals != Y.w.refusals⟩)]) Y'
      | _ => none
    else none

theorem runYs_reaches {c : Cfg α} {Y0 : YPool α} (cmds : List (Spec.YCmd α)) {h h' : Spec.YHistory α}
    {Y Y' : YPool α} (hr : YReaches c Y0 h Y) (he : runYs c cmds h Y = some (h', Y')) :
    YReaches c Y0 h' Y' := by
  induction cmds generalizing h Y with
  | nil => simp only [runYs, Option.some.injEq, Prod.mk.injEq] at he; obtain ⟨rfl, rfl⟩ := he; exact hr
  | cons cmd cmds ih =>
    unfold runYs at he
    split at he
    · rename_i hl
      split at he
      · rename_i o P1 h1
        exact ih (.step hr (Spec.YCmd.legal_iff hl) (.ret h1)) he
      · rename_i P1 h1
        exact ih (.step hr (Spec.YCmd.legal_iff hl) (.panic h1)) he
      · cases he
    · cases he

end Lokky
