import Verif.Model.HandleClones
import Verif.Model.MixedPrograms

/-!
# Client programs with handles in containers of all kinds

Not code of the crate: a client that keeps things (`Rc`, `Urc` and `Weak` handles, vectors) in vectors, small vectors,
by-value iterators and boxed slices, and turns these into one another. As in Verif/Model/Handles.lean the elements are
the numbers of things, and when code of a container drops an element (`drop_in_place` in vec.rs 439-460,
977-990, 1112-1131, small_vec.rs 154-162, 725-731 and so on), the destructor of the thing runs.

Simplifications: the destructors of the elements a call drops run in the order of the call's log, after the call
instead of within it (no destructor panics here, and containers and things share no memory). The functions given to
`retain` and `dedup_by` may look at things and panic, but not change them.
-/

namespace Lokky
variable {α σ : Type}

/-- Calls that neither clone elements nor make new ones through a callback. -/
def Spec.YCmd.Plain : Spec.YCmd α → Prop
  | .vec (.call cmd) => cmd.Plain
  | .small (.clone _) => False
  | .small (.on _ o) => o.Plain
  | _ => True

/-- Calls of `retain` and `dedup` in all their forms (vec.rs 495-512, 801-866; small_vec.rs 376-400), after
which there may be elements that nobody owns (C09, C10). -/
def Spec.YCmd.Scans : Spec.YCmd α → Prop
  | .vec (.retain _ _) | .vec (.dedupBy _ _) | .vec (.dedupByKey _ _) => True
  | .retain _ _ | .dedupBy _ _ | .dedupByKey _ _ => True
  | _ => False

/-- The things, the containers that hold some of them, and the things the client itself holds by value. -/
structure Chest (σ : Type) where
  things : σ
  boxes : YPool Nat
  held : List Nat

/-- The elements a call dropped. -/
def droppedIn (Y Y' : YPool α) : List α := Y'.w.log.drops.drop Y.w.log.drops.length

/-- A client program that keeps things in containers and caught every panic: the number of calls of things, with
their destructors, the history of the containers, and the state reached. Things may be used anywhere they are, but
consumed only by their owner; the elements handed to a container are things the client holds (`rest`: those that
remain). -/
inductive CReaches (T : Things σ) (co : Cfg Nat) (N0 : Chest σ) : Nat → Spec.YHistory Nat → Chest σ → Prop
  | start : CReaches T co N0 0 [] N0
  | use {n ho N s'} : CReaches T co N0 n ho N → T.use N.things s' →
      (∀ x, T.alive N.things x = true → T.alive s' x = false → x ∈ N.held) →
      CReaches T co N0 (n + 1) ho ⟨s', N.boxes, T.heldAfter N.things s' N.held⟩
  | call {n ho N cmd ev Y' s' rest} : CReaches T co N0 n ho N → cmd.Legal co N.boxes → cmd.Plain →
      N.held.Perm (cmd.given ++ rest) → YHappens co N.boxes cmd ev Y' →
      T.dropEach (droppedIn N.boxes Y') N.things = .ok () s' →
      CReaches T co N0 (n + (droppedIn N.boxes Y').length) (ho ++ [(cmd, ev)])
        ⟨s', Y', rest ++ Spec.ytaken cmd ev⟩

/-- Vectors (vec.rs 11-14) as things. The calls are those a client may make; the destructor is vec.rs 977-990. -/
def vecThings (c : Cfg α) : Things (Pool α) := (vecClonables c).toThings

/-- What the vectors show (`as_slice`, vec.rs 140-142), one after another. -/
def YPool.vecsShow (c : Cfg α) (Y : YPool α) : List α :=
  Y.x.pool.vecs.flatMap fun o => match o with
    | some v => match Vec.asSlice c ⟨v, Y.w⟩ with
      | .ok l _ => l
      | _ => []
    | none => []

/-- What the small vectors show (`as_slice`, small_vec.rs 133-135, 365). -/
def YPool.smallsShow (c : Cfg α) (Y : YPool α) : List α :=
  Y.smalls.flatMap fun o => match o with
    | some v => match Small.asSlice c ⟨v, Y.w⟩ with
      | .ok l _ => l
      | _ => []
    | none => []

/-- What an iterator (`as_slice`, vec.rs 1134-1140) or a boxed slice (`deref`, ptr.rs 19-41) shows. -/
def ObjH.shown (c : Cfg α) (w : World α) : ObjH → List α
  | .iter it => match Vec.iterAsSlice c ⟨it, w⟩ with
    | .ok l _ => l
    | _ => []
  | .box b => match Vec.asSlice c ⟨Vec.ofBoxedSlice b, w⟩ with
    | .ok l _ => l
    | _ => []

/-- What the iterators and boxed slices show. -/
def YPool.objsShow (c : Cfg α) (Y : YPool α) : List α :=
  (List.range Y.x.pool.vecs.length).flatMap fun x => match Y.x.objs x with
    | some o => o.shown c Y.w
    | none => []

/-- What all containers show. -/
def Chest.kept (co : Cfg Nat) (N : Chest σ) : List Nat :=
  N.boxes.vecsShow co ++ N.boxes.objsShow co ++ N.boxes.smallsShow co

/-- Nothing made yet. -/
def Chest.Initial (s0 : σ) (N : Chest σ) : Prop := N.things = s0 ∧ N.boxes.Initial ∧ N.held = []

/-- No container is left. -/
def YPool.Empty (Y : YPool α) : Prop :=
  (∀ (x : Nat) v, Y.x.pool.vecs[x]? ≠ some (some v)) ∧ (∀ (x : Nat) v, Y.smalls[x]? ≠ some (some v)) ∧
    ∀ x, Y.x.objs x = none

/-- One call of a client that keeps things in containers; `κ`: the calls of things. -/
inductive ChestCmd (κ : Type) where
  | use (k : κ)
  | call (cmd : Spec.YCmd Nat)

/-- `Plain` as a test. -/
def Spec.YCmd.plain : Spec.YCmd α → Bool
  | .vec (.call cmd) => cmd.plain
  | .small (.clone _) => false
  | .small (.on _ (.extendFromSlice _)) => false
  | .small (.on _ (.resize _ _)) => false
  | .small (.on _ (.resizeWith _ _)) => false
  | _ => true

/-- Run a list of calls, to get examples of `CReaches`; `n` counts the calls of things. -/
def chestAll {κ : Type} (T : Things σ) (step : κ → σ → Option σ) (co : Cfg Nat) :
    List (ChestCmd κ) → Nat → Chest σ → Option (Nat × Chest σ)
  | [], n, N => some (n, N)
  | .use k :: cmds, n, N =>
    match step k N.things with
    | some s' =>
      if T.tookHeld N.things s' N.held then
        chestAll T step co cmds (n + 1) ⟨s', N.boxes, T.heldAfter N.things s' N.held⟩
      else none
    | none => none
  | .call cmd :: cmds, n, N =>
    if cmd.legal co N.boxes && cmd.plain &&
        decide (N.held.Perm (cmd.given ++ cmd.given.foldl List.erase N.held)) then
      match runY co cmd N.boxes with
      | .ok o Y' =>
        match T.dropEach (droppedIn N.boxes Y') N.things with
        | .ok _ s' => chestAll T step co cmds (n + (droppedIn N.boxes Y').length)
            ⟨s', Y', cmd.given.foldl List.erase N.held ++
              Spec.ytaken cmd ⟨some o, Y'.w.refusals != N.boxes.w.refusals⟩⟩
        | _ => none
      | .panic Y' =>
        match T.dropEach (droppedIn N.boxes Y') N.things with
        | .ok _ s' => chestAll T step co cmds (n + (droppedIn N.boxes Y').length)
            ⟨s', Y', cmd.given.foldl List.erase N.held ++
              Spec.ytaken cmd ⟨none, Y'.w.refusals != N.boxes.w.refusals⟩⟩
        | _ => none
      | _ => none
    else none

end Lokky
