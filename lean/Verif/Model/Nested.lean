import Verif.Model.VecPool

/-!
# Client programs with vectors of vectors

Not code of the crate: a client that keeps vectors (`Vec<T>`, the inner ones) in vectors
(`Vec<Vec<T>>`, the outer ones). The elements of the outer vectors are the numbers of inner vectors.
When code of an outer vector drops an element (`drop_in_place` in `truncate`, vec.rs 439-460, in
`drop`, vec.rs 977-990, and so on), `drop` of the inner vector runs.

Simplifications. The destructors of the elements a call of an outer vector drops run in the order
of the call's log, after the call instead of within it: the inner vectors and the outer ones share
no block, so neither sees a difference as long as no destructor panics (the theorems assume so).
Blocks of inner vectors and of outer vectors are kept in two heaps, as if every element type had its
own allocator: the allocator is chosen by the element type (`AllocSelector::with_marker::<T>`, vec.rs 37).
-/

namespace Lokky
variable {α : Type}

/-- The inner vectors, the outer vectors, and the inner vectors the client itself holds by value. -/
structure Nest (α : Type) where
  inner : Pool α
  outer : Pool Nat
  held : List Nat

/-- Vector `x` exists. -/
def Pool.Alive (P : Pool α) (x : Nat) : Prop := ∃ v, P.vecs[x]? = some (some v)

/-- Vector `x` exists, as a test. -/
def Pool.alive (P : Pool α) (x : Nat) : Bool :=
  match P.vecs[x]? with
  | some (some _) => true
  | _ => false

/-- Run the destructors (`drop`, vec.rs 977-990) of the inner vectors `xs`. Dropping a vector that
does not exist any more would read and release memory that is not its own. -/
def dropEach (c : Cfg α) : List Nat → M (Pool α) Unit
  | [], P => .ok () P
  | x :: xs, P =>
    if P.alive x then
      match runCmd c (.drop x) P with
      | .ok _ P' => dropEach c xs P'
      | .panic P' => .panic P'
      | .abort => .abort
      | .ub u => .ub u
    else .ub .badFree

/-- What the client holds after a call on the inner vectors: a vector that was made is the
client's, one the client dropped is gone. -/
def heldAfter (cmd : Spec.Cmd α) (P P' : Pool α) (held : List Nat) : List Nat :=
  (match cmd with
    | .drop x => held.erase x
    | _ => held) ++ List.range' P.vecs.length (P'.vecs.length - P.vecs.length)

/-- What a call of outer vectors dropped. -/
def droppedBy (O O' : Pool Nat) : List Nat := O'.w.log.drops.drop O.w.log.drops.length

/-- Calls that neither clone elements nor make new ones through a callback. -/
def Spec.Op.Plain : Spec.Op α → Prop
  | .extendFromSlice _ => False
  | .resize _ _ => False
  | .resizeWith _ _ => False
  | _ => True

/-- Calls that neither clone elements nor make new ones through a callback. -/
def Spec.Cmd.Plain : Spec.Cmd α → Prop
  | .clone _ => False
  | .on _ o => o.Plain
  | _ => True

/-- The destructors of inner vectors as calls of their history. -/
def dropCalls (xs : List Nat) : Spec.History α := xs.map fun x => (.drop x, .ret .unit)

/-- A client program with vectors of vectors that caught every panic: the history of the inner
vectors, of the outer ones, and the state it reached. Inner vectors may be used anywhere they are
(`outer[i].push(a)`), but dropped only by their owner; the elements handed to an outer vector are
inner vectors the client holds (`rest`: those that remain). -/
inductive NReaches (c : Cfg α) (co : Cfg Nat) (N0 : Nest α) :
    Spec.History α → Spec.History Nat → Nest α → Prop
  | start : NReaches c co N0 [] [] N0
  | inner {hi ho N cmd ev I'} : NReaches c co N0 hi ho N → cmd.Legal c N.inner →
      (∀ x, cmd = .drop x → x ∈ N.held) → Happens c N.inner cmd ev I' →
      NReaches c co N0 (hi ++ [(cmd, ev)]) ho ⟨I', N.outer, heldAfter cmd N.inner I' N.held⟩
  | outer {hi ho N cmd ev O' I' rest} : NReaches c co N0 hi ho N → cmd.Legal co N.outer →
      cmd.Plain → N.held.Perm (cmd.given ++ rest) → Happens co N.outer cmd ev O' →
      dropEach c (droppedBy N.outer O') N.inner = .ok () I' →
      NReaches c co N0 (hi ++ dropCalls (droppedBy N.outer O')) (ho ++ [(cmd, ev)])
        ⟨I', O', rest ++ Spec.taken cmd ev⟩

/-- The vectors dropped in a history, in order. -/
def dropsOf (h : Spec.History α) : List Nat := h.filterMap fun e =>
  match e.1 with
  | .drop x => some x
  | _ => none

/-- The initial state. -/
def Nest.Initial (N : Nest α) : Prop := N.inner.Initial ∧ N.outer.Initial ∧ N.held = []

/-- A call of a program with vectors of vectors, to run examples. -/
inductive NCmd (α : Type) where
  | inner (cmd : Spec.Cmd α)
  | outer (cmd : Spec.Cmd Nat)

/-- `Plain` as a test. -/
def Spec.Cmd.plain : Spec.Cmd α → Bool
  | .clone _ => false
  | .on _ (.extendFromSlice _) => false
  | .on _ (.resize _ _) => false
  | .on _ (.resizeWith _ _) => false
  | _ => true

/-- The client may drop only what it holds, as a test. -/
def dropsHeld (held : List Nat) : Spec.Cmd α → Bool
  | .drop x => held.contains x
  | _ => true

/-- Run a list of calls, to get examples of `NReaches`. -/
def nestAll (c : Cfg α) (co : Cfg Nat) : List (NCmd α) → Nest α → Option (Nest α)
  | [], N => some N
  | .inner cmd :: cmds, N =>
    if cmd.legal c N.inner && dropsHeld N.held cmd then
      match runCmd c cmd N.inner with
      | .ok _ I' => nestAll c co cmds ⟨I', N.outer, heldAfter cmd N.inner I' N.held⟩
      | .panic I' => nestAll c co cmds ⟨I', N.outer, heldAfter cmd N.inner I' N.held⟩
      | _ => none
    else none
  | .outer cmd :: cmds, N =>
    if cmd.legal co N.outer && cmd.plain &&
        decide (N.held.Perm (cmd.given ++ cmd.given.foldl List.erase N.held)) then
      match runCmd co cmd N.outer with
      | .ok o O' =>
        match dropEach c (droppedBy N.outer O') N.inner with
        | .ok _ I' => nestAll c co cmds
            ⟨I', O', cmd.given.foldl List.erase N.held ++
              Spec.taken cmd ⟨some o, O'.w.refusals != N.outer.w.refusals⟩⟩
        | _ => none
      | .panic O' =>
        match dropEach c (droppedBy N.outer O') N.inner with
        | .ok _ I' => nestAll c co cmds
            ⟨I', O', cmd.given.foldl List.erase N.held ++
              Spec.taken cmd ⟨none, O'.w.refusals != N.outer.w.refusals⟩⟩
        | _ => none
      | _ => none
    else none

end Lokky
