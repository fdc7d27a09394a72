import Verif.Model.SmallVec
import Verif.Model.VecPool
import Verif.Spec.Small

/-!
# Client programs using any number of `SmallVec`s

Not code of the crate: the way a client calls it. Each call runs the model of the corresponding
function on the vector it names.
-/

namespace Lokky
variable {α : Type}

/-- The vectors of a client program (`none`: dropped or moved away) and the world. -/
structure SPool (α : Type) where
  vecs : List (Option (SmallH α))
  w : World α

/-- Calls on one vector (small_vec.rs, the functions named). -/
def runSOp (c : Cfg α) : Spec.Op α → M (SSt α) (Spec.Out α)
  | .push a => quiet (Small.push c a)
  | .pop => do pure (.opt (← Small.pop c))
  | .insert i a => quiet (Small.insert c i a)
  | .remove i => do pure (.val (← Small.remove c i))
  | .swapRemove i => do pure (.val (← Small.swapRemove c i))
  | .truncate k => quiet (Small.truncate c k)
  | .clear => quiet (Small.clear c)
  | .extendFromSlice xs => quiet (Small.extendFromSlice c xs)
  | .extendFromIter it => quiet (Small.extendFromIter c it.iter)
  | .resize k a => quiet (Small.resize c k a)
  | .resizeWith k f => quiet (Small.resizeWith c k f)
  | .reserve k => quiet (Small.reserve c k)
  | .reserveExact k => quiet (Small.reserveExact c k)
  | .tryReserve k => do pure (outRes (← Small.tryReserve c k))
  | .tryReserveExact k => do pure (outRes (← Small.tryReserveExact c k))
  | .shrinkTo k => quiet (Small.shrinkTo c k)
  | .shrinkToFit => quiet (Small.shrinkToFit c)
  | .get i => do pure (.val (← Small.index c i))
  | .set i a => quiet (Small.indexSet c i a)
  | .read => do pure (.list (← Small.asSlice c))
  | .len => do pure (.nat (← Small.len))

/-- Run code on vector `x` of the pool. A vector that is not there cannot be named by a client. -/
def onSmalls {β : Type} (x : Nat) (m : M (SSt α) β) (dflt : β) : M (SPool α) β := fun P =>
  match P.vecs[x]? with
  | some (some v) =>
    match m ⟨v, P.w⟩ with
    | .ok a s => .ok a ⟨P.vecs.set x (some s.self), s.w⟩
    | .panic s => .panic ⟨P.vecs.set x (some s.self), s.w⟩
    | .abort => .abort
    | .ub u => .ub u
  | _ => .ok dflt P

/-- Run a constructor; the new vector joins the pool. -/
def screating (m : M (World α) (SmallH α)) : M (SPool α) (Spec.Out α) := fun P =>
  match m P.w with
  | .ok v w => .ok .unit ⟨P.vecs ++ [some v], w⟩
  | .panic w => .panic ⟨P.vecs, w⟩
  | .abort => .abort
  | .ub u => .ub u

/-- Calls of a client program. -/
def runSCmd (c : Cfg α) : Spec.SCmd α → M (SPool α) (Spec.Out α)
  | .new n => screating (Small.new n)
  | .withCapacity n k => screating (Small.withCapacity c n k)
  | .fromArray n l => screating (Small.fromArray c n l)
  | .fromIter n it => screating (Small.fromIter c n it.iter)
  | .clone x => fun P =>
    match P.vecs[x]? with
    | some (some v) =>
      (do
        let l ← onSmalls x (Small.asSlice c) []
        screating (Small.fromSlice c v.n l)) P
    | _ => .ok .unit P
  | .on x o => onSmalls x (runSOp c o) .unit
  | .append x y => fun P =>
    match P.vecs[x]?, P.vecs[y]? with
    | some (some v), some (some v') =>
      match Small.append c ⟨(v, v'), P.w⟩ with
      | .ok _ s => .ok .unit ⟨(P.vecs.set x (some s.self.1)).set y (some s.self.2), s.w⟩
      | .panic s => .panic ⟨(P.vecs.set x (some s.self.1)).set y (some s.self.2), s.w⟩
      | .abort => .abort
      | .ub u => .ub u
    | _, _ => .ok .unit P
  | .drop x => fun P =>
    match P.vecs[x]? with
    | some (some v) =>
      match Small.drop c ⟨v, P.w⟩ with
      | .ok _ s => .ok .unit ⟨P.vecs.set x none, s.w⟩
      | .panic s => .panic ⟨P.vecs.set x none, s.w⟩
      | .abort => .abort
      | .ub u => .ub u
    | _ => .ok .unit P
  | .moveToHeap x => onSmalls x (quiet (Small.moveToHeap c)) .unit
  | .splitOff x n k => fun P =>
    match P.vecs[x]? with
    | some (some v) =>
      match Small.splitOffInto c n k ⟨v, P.w⟩ with
      | .ok r s => .ok .unit ⟨P.vecs.set x (some s.self) ++ [some r], s.w⟩
      | .panic s => .panic ⟨P.vecs.set x (some s.self), s.w⟩
      | .abort => .abort
      | .ub u => .ub u
    | _ => .ok .unit P
  | .viaVec x n => fun P =>
    match P.vecs[x]? with
    | some (some v) =>
      match Small.intoVec c v P.w with
      | .ok r w => .ok .unit ⟨P.vecs.set x none ++ [some (Small.fromVec n r)], w⟩
      | .panic w => .panic ⟨P.vecs.set x none, w⟩
      | .abort => .abort
      | .ub u => .ub u
    | _ => .ok .unit P

/-- What a client must respect when calling `o` on the vector `v` for C28 and C30. Sizes stay within
the byte limit of `Layout`; shrinking a heap vector to zero bytes is excluded (C22). The other
conditions exclude the cases in which an inline vector misbehaves: `remove` from a full one (C33),
`truncate` (C32) and `resize` (C35) to a smaller length, growing beyond the inline size by `resize_with`
or by a `resize` that does not spill (C35), `insert` beyond the end in release builds (C34), and
calls that break the letter of the contract of `get_unchecked` or `copy_nonoverlapping` where that
counts (C34, C79). -/
def Spec.Op.SLegal (c : Cfg α) (o : Spec.Op α) (v : SmallH α) : Prop :=
  match o with
  | .push _ => c.Fits (Small.lenOf v + 1 + Vec.minNonZeroCap c)
  | .insert i _ => c.Fits (Small.lenOf v + 1 + Vec.minNonZeroCap c) ∧
      (Small.isHeap v = false →
        Small.lenOf v + (max (Vec.minNonZeroCap c) (v.n + 1) - v.n) ≤ v.n →
        (c.debug = true ∨ i ≤ Small.lenOf v) ∧ (c.strict = true → i ≠ Small.lenOf v))
  | .remove i => Small.isHeap v = false → i < Small.lenOf v → Small.lenOf v < v.n
  | .swapRemove i => c.strict = true → i + 1 = Small.lenOf v →
      Small.isHeap v = true ∧ Small.lenOf v = 1
  | .truncate k => Small.isHeap v = false → Small.lenOf v ≤ k
  | .extendFromSlice xs => c.Fits (Small.lenOf v + xs.length + Vec.minNonZeroCap c)
  | .extendFromIter it => c.Fits (Small.lenOf v + it.items.length + Vec.minNonZeroCap c) ∧
      c.Fits (Small.lenOf v + it.hint + Vec.minNonZeroCap c)
  | .resize k _ => (Small.isHeap v = false → Small.lenOf v ≤ k ∧
        (v.n < k → v.n < Small.lenOf v + (max (Vec.minNonZeroCap c) k - v.n))) ∧
      c.Fits (Small.lenOf v + k + Vec.minNonZeroCap c)
  | .resizeWith k _ => (Small.isHeap v = false → Small.lenOf v ≤ k ∧ k ≤ v.n) ∧
      (Small.lenOf v < k → c.Fits k)
  | .reserve k => c.Fits (Small.lenOf v + k + Vec.minNonZeroCap c)
  | .reserveExact k => c.Fits (Small.lenOf v + k + Vec.minNonZeroCap c)
  | .tryReserve k => c.Fits (Small.lenOf v + k + Vec.minNonZeroCap c)
  | .tryReserveExact k => c.Fits (Small.lenOf v + k + Vec.minNonZeroCap c)
  | .shrinkTo k => Small.isHeap v = true → 0 < max (Small.lenOf v) k ∨ Small.capacity c v = 0
  | .shrinkToFit => Small.isHeap v = true → 0 < Small.lenOf v ∨ Small.capacity c v = 0
  | _ => True

/-- The same for all calls. Arrays that fit inline lose their elements (C37), and `split_off` at the
end panics (C38). -/
def Spec.SCmd.Legal (c : Cfg α) (P : SPool α) : Spec.SCmd α → Prop
  | .new n => c.Fits n
  | .withCapacity n k => c.Fits n ∧ c.Fits k
  | .fromArray n l => c.Fits n ∧ c.Fits l.length ∧ (n < l.length ∨ l.length = 0)
  | .fromIter n it => c.Fits n ∧ c.Fits (it.items.length + Vec.minNonZeroCap c) ∧
      c.Fits (it.hint + Vec.minNonZeroCap c)
  | .clone x => ∃ v, P.vecs[x]? = some (some v) ∧
      c.Fits (Small.lenOf v + Vec.minNonZeroCap c)
  | .on x o => ∃ v, P.vecs[x]? = some (some v) ∧ o.SLegal c v
  | .append x y => x ≠ y ∧ ∃ v, P.vecs[x]? = some (some v) ∧ ∃ v', P.vecs[y]? = some (some v') ∧
      c.Fits (Small.lenOf v + Small.lenOf v' + Vec.minNonZeroCap c)
  | .drop x => ∃ v, P.vecs[x]? = some (some v) ∧ True
  | .moveToHeap x => ∃ v, P.vecs[x]? = some (some v) ∧
      c.Fits (Small.lenOf v + Vec.minNonZeroCap c)
  | .splitOff x n k => c.Fits n ∧ ∃ v, P.vecs[x]? = some (some v) ∧ k ≠ Small.lenOf v
  | .viaVec x n => c.Fits n ∧ ∃ v, P.vecs[x]? = some (some v) ∧
      c.Fits (Small.lenOf v + Vec.minNonZeroCap c)

instance (c : Cfg α) (o : Spec.Op α) (v : SmallH α) : Decidable (o.SLegal c v) := by
  cases o <;> unfold Spec.Op.SLegal <;> infer_instance

instance (vecs : List (Option (SmallH α))) (x : Nat) (p : SmallH α → Prop)
    [∀ v, Decidable (p v)] : Decidable (∃ v, vecs[x]? = some (some v) ∧ p v) :=
  match h : vecs[x]? with
  | some (some v) =>
    if hp : p v then .isTrue ⟨v, rfl, hp⟩
    else .isFalse (by rintro ⟨v', e, h'⟩; cases e; exact hp h')
  | some none => .isFalse (by rintro ⟨_, e, _⟩; cases e)
  | none => .isFalse (by rintro ⟨_, e, _⟩; cases e)

instance (c : Cfg α) (P : SPool α) (cmd : Spec.SCmd α) : Decidable (cmd.Legal c P) := by
  cases cmd <;> unfold Spec.SCmd.Legal <;> infer_instance

/-- The outcome of a call as an event of the client's history. -/
inductive SHappens (c : Cfg α) (P : SPool α) (cmd : Spec.SCmd α) : Spec.Event α → SPool α → Prop
  | ret {o P'} : runSCmd c cmd P = .ok o P' →
      SHappens c P cmd ⟨some o, P'.w.refusals != P.w.refusals⟩ P'
  | panic {P'} : runSCmd c cmd P = .panic P' →
      SHappens c P cmd ⟨none, P'.w.refusals != P.w.refusals⟩ P'

/-- The initial state: no vectors and no live blocks; everything else is arbitrary. -/
def SPool.Initial (P : SPool α) : Prop :=
  P.vecs = [] ∧ (∀ p, P.w.heap p = none) ∧ P.w.log.drops = []

/-- A client program that caught every panic and went on: the history it saw and the state it
reached. -/
inductive SReaches (c : Cfg α) (P0 : SPool α) : Spec.SHistory α → SPool α → Prop
  | start : SReaches c P0 [] P0
  | step {h P cmd ev P'} : SReaches c P0 h P → cmd.Legal c P → SHappens c P cmd ev P' →
      SReaches c P0 (h ++ [(cmd, ev)]) P'

/-- Run a list of calls, to get examples of `SReaches`. -/
def srunAll (c : Cfg α) : List (Spec.SCmd α) → Spec.SHistory α → SPool α →
    Option (Spec.SHistory α × SPool α)
  | [], h, P => some (h, P)
  | cmd :: cmds, h, P =>
    if cmd.Legal c P then
      match runSCmd c cmd P with
      | .ok o P' => srunAll c cmds (h ++ [(cmd, ⟨some o, P'.w.refusals != P.w.refusals⟩)]) P'
      | .panic P' => srunAll c cmds (h ++ [(cmd, ⟨none, P'.w.refusals != P.w.refusals⟩)]) P'
      | _ => none
    else none

theorem srunAll_reaches {c : Cfg α} {P0 : SPool α} (cmds : List (Spec.SCmd α))
    {h h' : Spec.SHistory α} {P P' : SPool α} (hr : SReaches c P0 h P)
    (he : srunAll c cmds h P = some (h', P')) : SReaches c P0 h' P' := by
  induction cmds generalizing h P with
  | nil =>
    simp only [srunAll, Option.some.injEq, Prod.mk.injEq] at he
    obtain ⟨rfl, rfl⟩ := he; exact hr
  | cons cmd cmds ih =>
    unfold srunAll at he
    split at he
    · rename_i hl
      split at he
      · rename_i o P1 h1
        exact ih (.step hr hl (.ret h1)) he
      · rename_i P1 h1
        exact ih (.step hr hl (.panic h1)) he
      · cases he
    · cases he

/-- Calls on one vector, catching every panic: the calls, what was seen of each, and the states. -/
inductive SRun (c : Cfg α) : List (Spec.Op α) → SSt α → List (Spec.Event α) → SSt α → Prop
  | nil (s) : SRun c [] s [] s
  | ret {o os s out s1 evs s'} : o.SLegal c s.self → runSOp c o s = .ok out s1 →
      SRun c os s1 evs s' →
      SRun c (o :: os) s (⟨some out, s1.w.refusals != s.w.refusals⟩ :: evs) s'
  | panic {o os s s1 evs s'} : o.SLegal c s.self → runSOp c o s = .panic s1 →
      SRun c os s1 evs s' →
      SRun c (o :: os) s (⟨none, s1.w.refusals != s.w.refusals⟩ :: evs) s'

end Lokky
