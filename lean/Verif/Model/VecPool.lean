import Verif.Model.Vec
import Verif.Spec.Lists

/-!
# Client programs using any number of `Vec`s

Not code of the crate: the way a client calls it. Each call runs the model of the corresponding
function on the vector it names.
-/

namespace Lokky
variable {α : Type}

/-- The vectors of a client program (`none`: dropped or moved away) and the world. -/
structure Pool (α : Type) where
  vecs : List (Option VecH)
  w : World α

/-- Client iterators as arguments. -/
def Spec.Items.iter (it : Spec.Items α) : Iter α := ⟨it.items, it.hint, it.boom⟩

/-- What `Result<(), _>` shows to the client. -/
def outRes (r : Except AllocErr Unit) : Spec.Out α :=
  match r with
  | .ok _ => .unit
  | .error _ => .err

/-- A call that returns nothing. -/
def quiet {σ : Type} (m : M σ Unit) : M σ (Spec.Out α) := do m; pure .unit

/-- Calls on one vector (vec.rs, the functions named). -/
def runOp (c : Cfg α) : Spec.Op α → M (VSt α) (Spec.Out α)
  | .push a => quiet (Vec.push c a)
  | .pop => do pure (.opt (← Vec.pop c))
  | .insert i a => quiet (Vec.insert c i a)
  | .remove i => do pure (.val (← Vec.remove c i))
  | .swapRemove i => do pure (.val (← Vec.swapRemove c i))
  | .truncate k => quiet (Vec.truncate c k)
  | .clear => quiet (Vec.clear c)
  | .extendFromSlice xs => quiet (Vec.extendFromSlice c xs)
  | .extendFromIter it => quiet (Vec.extendFromIter c it.iter)
  | .resize k a => quiet (Vec.resize c k a)
  | .resizeWith k f => quiet (Vec.resizeWith c k f)
  | .reserve k => quiet (Vec.reserve c k)
  | .reserveExact k => quiet (Vec.reserveExact c k)
  | .tryReserve k => do pure (outRes (← Vec.tryReserve c k))
  | .tryReserveExact k => do pure (outRes (← Vec.tryReserveExact c k))
  | .shrinkTo k => quiet (Vec.shrinkTo c k)
  | .shrinkToFit => quiet (Vec.shrinkToFit c)
  | .get i => do pure (.val (← Vec.index c i))
  | .set i a => quiet (Vec.indexSet c i a)
  | .read => do pure (.list (← Vec.asSlice c))
  | .len => do pure (.nat (← Vec.len))

/-- Run code on vector `x` of the pool. A vector that is not there cannot be named by a client. -/
def onVecs {β : Type} (x : Nat) (m : M (VSt α) β) (dflt : β) : M (Pool α) β := fun P =>
  match P.vecs[x]? with
  | some (some v) =>
    match m ⟨v, P.w⟩ with
    | .ok a s => .ok a ⟨P.vecs.set x (some s.self), s.w⟩
    | .panic s => .panic ⟨P.vecs.set x (some s.self), s.w⟩
    | .abort => .abort
    | .ub u => .ub u
  | _ => .ok dflt P

/-- Run a constructor; the new vector joins the pool. -/
def creating (m : M (World α) VecH) : M (Pool α) (Spec.Out α) := fun P =>
  match m P.w with
  | .ok v w => .ok .unit ⟨P.vecs ++ [some v], w⟩
  | .panic w => .panic ⟨P.vecs, w⟩
  | .abort => .abort
  | .ub u => .ub u

/-- Calls of a client program. -/
def runCmd (c : Cfg α) : Spec.Cmd α → M (Pool α) (Spec.Out α)
  | .new => creating Vec.new
  | .withCapacity n => creating (Vec.withCapacity c n)
  | .fromArray l => creating (Vec.fromArray c l)
  | .fromIter it => creating (Vec.fromIter c it.iter)
  | .clone x => do
    let l ← onVecs x (Vec.asSlice c) []
    creating (Vec.cloneFrom c l)
  | .on x o => onVecs x (runOp c o) .unit
  | .append x y => fun P =>
    match P.vecs[x]?, P.vecs[y]? with
    | some (some v), some (some v') =>
      match Vec.append c ⟨(v, v'), P.w⟩ with
      | .ok _ s => .ok .unit ⟨(P.vecs.set x (some s.self.1)).set y (some s.self.2), s.w⟩
      | .panic s => .panic ⟨(P.vecs.set x (some s.self.1)).set y (some s.self.2), s.w⟩
      | .abort => .abort
      | .ub u => .ub u
    | _, _ => .ok .unit P
  | .drop x => fun P =>
    match P.vecs[x]? with
    | some (some v) =>
      match Vec.drop c ⟨v, P.w⟩ with
      | .ok _ s => .ok .unit ⟨P.vecs.set x none, s.w⟩
      | .panic s => .panic ⟨P.vecs.set x none, s.w⟩
      | .abort => .abort
      | .ub u => .ub u
    | _ => .ok .unit P

/-- What a client must respect when calling `o` on a vector of length `len` and capacity `cap`
for C01–C04: sizes within the byte limit of `Layout`, no shrinking to zero bytes (C22), and, where
breaking the letter of a contract counts, no `swap_remove` of the last of several elements (C79). -/
def Spec.Op.Legal (c : Cfg α) (o : Spec.Op α) (len cap : Nat) : Prop :=
  match o with
  | .push _ => c.Fits (len + 1)
  | .insert _ _ => c.Fits (len + 1)
  | .swapRemove i => c.strict = true → i + 1 = len → len = 1
  | .extendFromSlice xs => c.Fits (len + xs.length)
  | .extendFromIter it => c.Fits (len + it.items.length) ∧ c.Fits (len + it.hint)
  | .resize k _ => len < k → c.Fits k
  | .resizeWith k _ => len < k → c.Fits k
  | .reserve k => cap < len + k → c.Fits (max (max (len + k) (Vec.minNonZeroCap c)) (cap * 2))
  | .reserveExact k => c.Fits (len + k)
  | .tryReserve k => cap < len + k → c.Fits (max (max (len + k) (Vec.minNonZeroCap c)) (cap * 2))
  | .tryReserveExact k => c.Fits (len + k)
  | .shrinkTo k => 0 < max len k ∨ cap = 0
  | .shrinkToFit => 0 < len ∨ cap = 0
  | _ => True

/-- The same for all calls; the vectors named must exist (and be different for `append`), which
Rust's ownership rules guarantee. -/
def Spec.Cmd.Legal (c : Cfg α) (P : Pool α) : Spec.Cmd α → Prop
  | .new => True
  | .withCapacity n => c.Fits n
  | .fromArray l => c.Fits l.length
  | .fromIter it => c.Fits it.items.length ∧ c.Fits it.hint
  | .clone x => ∃ v, P.vecs[x]? = some (some v)
  | .on x o => ∃ v, P.vecs[x]? = some (some v) ∧ o.Legal c v.len v.cap
  | .append x y => x ≠ y ∧ ∃ v v', P.vecs[x]? = some (some v) ∧ P.vecs[y]? = some (some v') ∧
      c.Fits (v.len + v'.len)
  | .drop x => ∃ v, P.vecs[x]? = some (some v)

instance (c : Cfg α) (o : Spec.Op α) (len cap : Nat) : Decidable (o.Legal c len cap) := by
  cases o <;> unfold Spec.Op.Legal <;> infer_instance

instance (vecs : List (Option VecH)) (x : Nat) (p : VecH → Prop) [∀ v, Decidable (p v)] :
    Decidable (∃ v, vecs[x]? = some (some v) ∧ p v) :=
  match h : vecs[x]? with
  | some (some v) =>
    if hp : p v then .isTrue ⟨v, rfl, hp⟩
    else .isFalse (by rintro ⟨v', e, h'⟩; cases e; exact hp h')
  | some none => .isFalse (by rintro ⟨_, e, _⟩; cases e)
  | none => .isFalse (by rintro ⟨_, e, _⟩; cases e)

/-- `Legal` as a test, to run examples. -/
def Spec.Cmd.legal (c : Cfg α) (P : Pool α) : Spec.Cmd α → Bool
  | .new => true
  | .withCapacity n => decide (c.Fits n)
  | .fromArray l => decide (c.Fits l.length)
  | .fromIter it => decide (c.Fits it.items.length ∧ c.Fits it.hint)
  | .clone x => decide (∃ v, P.vecs[x]? = some (some v) ∧ True)
  | .on x o => decide (∃ v, P.vecs[x]? = some (some v) ∧ o.Legal c v.len v.cap)
  | .append x y => decide (x ≠ y) && decide (∃ v, P.vecs[x]? = some (some v) ∧
      ∃ v', P.vecs[y]? = some (some v') ∧ c.Fits (v.len + v'.len))
  | .drop x => decide (∃ v, P.vecs[x]? = some (some v) ∧ True)

theorem Spec.Cmd.legal_iff {c : Cfg α} {P : Pool α} {cmd : Spec.Cmd α} (h : cmd.legal c P = true) :
    cmd.Legal c P := by
  cases cmd <;> simp_all [Spec.Cmd.legal, Spec.Cmd.Legal]

/-- The outcome of a call as an event of the client's history. -/
inductive Happens (c : Cfg α) (P : Pool α) (cmd : Spec.Cmd α) : Spec.Event α → Pool α → Prop
  | ret {o P'} : runCmd c cmd P = .ok o P' →
      Happens c P cmd ⟨some o, P'.w.refusals != P.w.refusals⟩ P'
  | panic {P'} : runCmd c cmd P = .panic P' →
      Happens c P cmd ⟨none, P'.w.refusals != P.w.refusals⟩ P'

/-- The initial state: no vectors and no live blocks; everything else is arbitrary. -/
def Pool.Initial (P : Pool α) : Prop :=
  P.vecs = [] ∧ (∀ p, P.w.heap p = none) ∧ P.w.log.drops = []

/-- A client program that caught every panic and went on: the history it saw and the state it
reached. -/
inductive Reaches (c : Cfg α) (P0 : Pool α) : Spec.History α → Pool α → Prop
  | start : Reaches c P0 [] P0
  | step {h P cmd ev P'} : Reaches c P0 h P → cmd.Legal c P → Happens c P cmd ev P' →
      Reaches c P0 (h ++ [(cmd, ev)]) P'

/-- Run a list of calls, to get examples of `Reaches`. -/
def runAll (c : Cfg α) : List (Spec.Cmd α) → Spec.History α → Pool α → Option (Spec.History α × Pool α)
  | [], h, P => some (h, P)
  | cmd :: cmds, h, P =>
    if cmd.legal c P then
      match runCmd c cmd P with
      | .ok o P' => runAll c cmds (h ++ [(cmd, ⟨some o, P'.w.refusals != P.w.refusals⟩)]) P'
      | .panic P' => runAll c cmds (h ++ [(cmd, ⟨none, P'.w.refusals != P.w.refusals⟩)]) P'
      | _ => none
    else none

theorem runAll_reaches {c : Cfg α} {P0 : Pool α} (cmds : List (Spec.Cmd α)) {h h' : Spec.History α}
    {P P' : Pool α} (hr : Reaches c P0 h P) (he : runAll c cmds h P = some (h', P')) :
    Reaches c P0 h' P' := by
  induction cmds generalizing h P with
  | nil => simp only [runAll, Option.some.injEq, Prod.mk.injEq] at he; obtain ⟨rfl, rfl⟩ := he; exact hr
  | cons cmd cmds ih =>
    unfold runAll at he
    split at he
    · rename_i hl
      split at he
      · rename_i o P1 h1
        exact ih (.step hr (Spec.Cmd.legal_iff hl) (.ret h1)) he
      · rename_i P1 h1
        exact ih (.step hr (Spec.Cmd.legal_iff hl) (.panic h1)) he
      · cases he
    · cases he

end Lokky
