import Verif.Model.Nested
import Verif.Model.Rc
import Verif.Model.Urc

/-!
# Client programs with handles in vectors

Not code of the crate: a client that keeps `Rc<T>`, `Urc<T>` and `Weak<T>` handles in vectors (`Vec<Rc<T>>` and so
on). The elements of the vectors are the numbers of handles. When code of a vector drops an element
(`drop_in_place` in `truncate`, vec.rs 439-460, in `drop`, vec.rs 977-990, and so on), `drop` of the handle runs.

Simplification: the destructors of the elements a call of a vector drops run in the order of the call's log, after
the call instead of within it. Vectors and handles share no memory, so neither sees a difference as long as no
destructor panics, and in the programs considered none does.
-/

namespace Lokky
variable {α σ : Type}

/-- Things a client can put into vectors: which exist, how many were made so far (they are numbered in the order
in which they were made, and numbers are not used again), what calls of the client can do, and the destructor. -/
structure Things (σ : Type) where
  alive : σ → Nat → Bool
  made : σ → Nat
  use : σ → σ → Prop
  drop : Nat → M σ Unit

/-- The things, the vectors that hold some of them, and the things the client itself holds by value. -/
structure Shelf (σ : Type) where
  things : σ
  vecs : Pool Nat
  held : List Nat

/-- Run the destructors of the things `xs`. Dropping one that does not exist any more would use memory that is
not its own. -/
def Things.dropEach (T : Things σ) : List Nat → M σ Unit
  | [], s => .ok () s
  | x :: xs, s =>
    if T.alive s x then
      match T.drop x s with
      | .ok _ s' => T.dropEach xs s'
      | .panic s' => .panic s'
      | .abort => .abort
      | .ub u => .ub u
    else .ub .badFree

/-- What the client holds after a call: what it held and still exists, and what the call made. -/
def Things.heldAfter (T : Things σ) (s s' : σ) (held : List Nat) : List Nat :=
  held.filter (T.alive s') ++ List.range' (T.made s) (T.made s' - T.made s)

/-- A client program that keeps things in vectors and caught every panic: the number of calls of things, with their
destructors, the history of the vectors, and the state reached. Things may be used anywhere they are
(`*vec[i]`, `Rc::get_mut(&mut vec[i])`), but consumed (dropped, unwrapped) only by their owner; the elements handed
to a vector are things the client holds (`rest`: those that remain). -/
inductive TReaches (T : Things σ) (co : Cfg Nat) (N0 : Shelf σ) : Nat → Spec.History Nat → Shelf σ → Prop
  | start : TReaches T co N0 0 [] N0
  | use {n ho N s'} : TReaches T co N0 n ho N → T.use N.things s' →
      (∀ x, T.alive N.things x = true → T.alive s' x = false → x ∈ N.held) →
      TReaches T co N0 (n + 1) ho ⟨s', N.vecs, T.heldAfter N.things s' N.held⟩
  | vec {n ho N cmd ev O' s' rest} : TReaches T co N0 n ho N → cmd.Legal co N.vecs → cmd.Plain →
      N.held.Perm (cmd.given ++ rest) → Happens co N.vecs cmd ev O' →
      T.dropEach (droppedBy N.vecs O') N.things = .ok () s' →
      TReaches T co N0 (n + (droppedBy N.vecs O').length) (ho ++ [(cmd, ev)])
        ⟨s', O', rest ++ Spec.taken cmd ev⟩

/-- Whether a handle is there. -/
def isThere {κ : Type} (H : List (Option κ)) (x : Nat) : Bool :=
  match H[x]? with
  | some (some _) => true
  | _ => false

/-- `Rc` and `Weak` handles (rc.rs 56, 248) as things. The calls are those of `runRc` that `ok` allows; the
destructors are rc.rs 161-175 and 344-355. -/
def rcThings (c : Cfg α) (ok : Spec.Hands → Spec.RcCmd α → Prop) : Things (RcPool α) where
  alive P x := isThere P.hands x
  made P := P.hands.length
  use P P' := ∃ cmd ev, ok P.hands cmd ∧ RcHappens c P cmd ev P'
  drop x := fun P => match runRc c (.drop x) P with
    | .ok _ P' => .ok () P'
    | .panic P' => .panic P'
    | .abort => .abort
    | .ub u => .ub u

/-- `Urc` and `Weak` handles, and fences taken out of them (urc.rs 119-131), as things. The calls are those of `runUrc`
that `ok` allows; the destructors are urc.rs 496-546. -/
def urcThings (c : Cfg α) (ok : UrcPool α → UrcCmd α → Prop) : Things (UrcPool α) where
  alive P x := isThere P.hands x
  made P := P.hands.length
  use P P' := ∃ cmd o, ok P cmd ∧ UrcHappens c P cmd o P'
  drop x := fun P => match runUrc c (.drop x) P with
    | .ok _ P' => .ok () P'
    | .panic P' => .panic P'
    | .abort => .abort
    | .ub u => .ub u

/-- One call of a client that keeps things in vectors; `κ`: the calls of things. -/
inductive ShelfCmd (κ : Type) where
  | use (k : κ)
  | vec (cmd : Spec.Cmd Nat)

/-- Whether everything that went away with a call was held by the client. -/
def Things.tookHeld (T : Things σ) (s s' : σ) (held : List Nat) : Bool :=
  (List.range (T.made s)).all fun x => !T.alive s x || T.alive s' x || held.contains x

/-- Run a list of calls, to get examples of `TReaches`; `n` counts the calls of things. -/
def storeAll {κ : Type} (T : Things σ) (step : κ → σ → Option σ) (co : Cfg Nat) :
    List (ShelfCmd κ) → Nat → Shelf σ → Option (Nat × Shelf σ)
  | [], n, N => some (n, N)
  | .use k :: cmds, n, N =>
    match step k N.things with
    | some s' =>
      if T.tookHeld N.things s' N.held then
        storeAll T step co cmds (n + 1) ⟨s', N.vecs, T.heldAfter N.things s' N.held⟩
      else none
    | none => none
  | .vec cmd :: cmds, n, N =>
    if cmd.legal co N.vecs && cmd.plain &&
        decide (N.held.Perm (cmd.given ++ cmd.given.foldl List.erase N.held)) then
      match runCmd co cmd N.vecs with
      | .ok o O' =>
        match T.dropEach (droppedBy N.vecs O') N.things with
        | .ok _ s' => storeAll T step co cmds (n + (droppedBy N.vecs O').length)
            ⟨s', O', cmd.given.foldl List.erase N.held ++
              Spec.taken cmd ⟨some o, O'.w.refusals != N.vecs.w.refusals⟩⟩
        | _ => none
      | .panic O' =>
        match T.dropEach (droppedBy N.vecs O') N.things with
        | .ok _ s' => storeAll T step co cmds (n + (droppedBy N.vecs O').length)
            ⟨s', O', cmd.given.foldl List.erase N.held ++
              Spec.taken cmd ⟨none, O'.w.refusals != N.vecs.w.refusals⟩⟩
        | _ => none
      | _ => none
    else none

/-- What the vectors show (`as_slice`, vec.rs 140-142), one vector after another. -/
def Shelf.kept (co : Cfg Nat) (N : Shelf σ) : List Nat :=
  N.vecs.vecs.flatMap fun o => match o with
    | some v => match Vec.asSlice co ⟨v, N.vecs.w⟩ with
      | .ok l _ => l
      | _ => []
    | none => []

/-- Nothing made yet. -/
def Shelf.Initial (s0 : σ) (N : Shelf σ) : Prop := N.things = s0 ∧ N.vecs.Initial ∧ N.held = []

end Lokky
