import Verif.Model.Chests

/-!
# Client programs with containers nested to any depth

Not code of the crate: a client with vectors, small vectors, by-value iterators and boxed slices whose elements are again
such containers (`Vec<SmallVec<[Box<[T]>; 2]>>` and so on), to any depth. The elements of level 0 are values, those of
level `k + 1` the numbers of containers of level `k`. When code of a container drops an element (the citations are in
Verif/Model/Chests.lean), the destructor of that container runs, which drops its elements in turn.

Simplifications: as in Verif/Model/Chests.lean. The containers of one level have a memory of their own, which those of
other levels never touch.
-/

namespace Lokky
variable {α σ : Type}

/-- A client program that made `n` calls and reached a state. -/
inductive Things.Reaches (T : Things σ) (s0 : σ) : Nat → σ → Prop
  | start : T.Reaches s0 0 s0
  | step {n s s'} : T.Reaches s0 n s → T.use s s' → T.Reaches s0 (n + 1) s'

/-- Whether there is a container with number `x`. -/
def YPool.there (Y : YPool α) (x : Nat) : Bool :=
  (match Y.x.pool.vecs[x]? with | some (some _) => true | _ => false) ||
    (match Y.smalls[x]? with | some (some _) => true | _ => false) || (Y.x.objs x).isSome

/-- The destructor of container `x` as a call: of a small vector (small_vec.rs 725-731; for heap storage and for a vector
vec.rs 977-990), an iterator (vec.rs 1112-1131) or a boxed slice (boxed.rs 7, ptr.rs 19-41). -/
def YPool.dropCmd (Y : YPool α) (x : Nat) : Spec.YCmd α :=
  match Y.smalls[x]?, Y.x.objs x with
  | some (some _), _ => .small (.drop x)
  | _, some (.iter _) => .vec (.dropIter x)
  | _, some (.box _) => .vec (.dropBox x)
  | _, none => .vec (.call (.drop x))

/-- Containers of values as things: all calls of C127. -/
def yThings (c : Cfg α) : Things (YPool α) where
  alive Y x := Y.there x
  made Y := Y.x.pool.vecs.length
  use Y Y' := ∃ cmd ev, cmd.Legal c Y ∧ YHappens c Y cmd ev Y'
  drop x := fun Y => match runY c (Y.dropCmd x) Y with
    | .ok _ Y' => .ok () Y'
    | .panic Y' => .panic Y'
    | .abort => .abort
    | .ub u => .ub u

/-- A call of a client that keeps things in containers: of a thing, or of a container, of those calls that `A` allows. -/
inductive ChestStep (T : Things σ) (co : Cfg Nat) (A : Spec.YCmd Nat → Prop) (N : Chest σ) : Chest σ → Prop
  | use {s'} : T.use N.things s' → (∀ x, T.alive N.things x = true → T.alive s' x = false → x ∈ N.held) →
      ChestStep T co A N ⟨s', N.boxes, T.heldAfter N.things s' N.held⟩
  | call {cmd ev Y' s' rest} : A cmd → cmd.Legal co N.boxes → cmd.Plain → N.held.Perm (cmd.given ++ rest) →
      YHappens co N.boxes cmd ev Y' → T.dropEach (droppedIn N.boxes Y') N.things = .ok () s' →
      ChestStep T co A N ⟨s', Y', rest ++ Spec.ytaken cmd ev⟩

/-- Containers of things as things. The destructor of a container drops its elements. -/
def chestThings (T : Things σ) (co : Cfg Nat) (A : Spec.YCmd Nat → Prop) : Things (Chest σ) where
  alive N x := N.boxes.there x
  made N := N.boxes.x.pool.vecs.length
  use := ChestStep T co A
  drop x := fun N => match runY co (N.boxes.dropCmd x) N.boxes with
    | .ok _ Y' =>
      match T.dropEach (droppedIn N.boxes Y') N.things with
      | .ok _ s' => .ok () ⟨s', Y', N.held⟩
      | .panic s' => .panic ⟨s', Y', N.held⟩
      | .abort => .abort
      | .ub u => .ub u
    | .panic Y' =>
      match T.dropEach (droppedIn N.boxes Y') N.things with
      | .ok _ s' => .panic ⟨s', Y', N.held⟩
      | .panic _ => .abort
      | .abort => .abort
      | .ub u => .ub u
    | .abort => .abort
    | .ub u => .ub u

/-- The containers of the levels up to `k`. -/
def Nested (α : Type) : Nat → Type
  | 0 => YPool α
  | k + 1 => Chest (Nested α k)

/-- The containers of level `k` as things. The elements of level `k + 1` have the layout `co k`, and its calls are those `A k`
allows. -/
def nestThings (c : Cfg α) (co : Nat → Cfg Nat) (A : Nat → Spec.YCmd Nat → Prop) : (k : Nat) → Things (Nested α k)
  | 0 => yThings c
  | k + 1 => chestThings (nestThings c co A k) (co k) (A k)

/-- Nothing made yet, on any level. -/
def nest0 (Y0 : YPool α) (O0 : YPool Nat) : (k : Nat) → Nested α k
  | 0 => Y0
  | k + 1 => ⟨nest0 Y0 O0 k, O0, []⟩

/-- The containers of level 0. -/
def Nested.bottom : (k : Nat) → Nested α k → YPool α
  | 0, Y => Y
  | k + 1, N => Nested.bottom k (Chest.things N)

/-- The containers of the levels above 0. -/
def Nested.upper : (k : Nat) → Nested α k → List (YPool Nat)
  | 0, _ => []
  | k + 1, N => Nested.upper k (Chest.things N) ++ [Chest.boxes N]

/-- Whether there is a container of level `k` with number `x`. -/
def Nested.there : (k : Nat) → Nested α k → Nat → Bool
  | 0, Y => YPool.there Y
  | _ + 1, N => YPool.there (Chest.boxes N)

/-- On no level the client holds a container that could go into one of the next level. -/
def Nested.NoneHeld : (k : Nat) → Nested α k → Prop
  | 0, _ => True
  | k + 1, N => Nested.NoneHeld k (Chest.things N) ∧ Chest.held N = []

/-- On every level all memory is given back. -/
def Nested.Freed : (k : Nat) → Nested α k → Prop
  | 0, Y => ∀ p, (YPool.w Y).heap p = none
  | k + 1, N => Nested.Freed k (Chest.things N) ∧ ∀ p, (Chest.boxes N).w.heap p = none

/-- No container has two owners, on any level: those the client holds and those the containers of the next level
show (`as_slice`) are different, and exist. -/
def Nested.Once (co : Nat → Cfg Nat) : (k : Nat) → Nested α k → Prop
  | 0, _ => True
  | k + 1, N => Nested.Once co k (Chest.things N) ∧ (Chest.held N ++ Chest.kept (co k) N).Nodup ∧
      ∀ x ∈ Chest.held N ++ Chest.kept (co k) N, Nested.there k (Chest.things N) x = true

/-- Every container has an owner, on every level but the top: the client holds it, or a container of the next level
shows it. -/
def Nested.Owned (co : Nat → Cfg Nat) : (k : Nat) → Nested α k → Prop
  | 0, _ => True
  | k + 1, N => Nested.Owned co k (Chest.things N) ∧
      ∀ x, Nested.there k (Chest.things N) x = true → x ∈ Chest.held N ++ Chest.kept (co k) N

/-- On every level, all calls a client may make return or panic. The containers whose destructors then run are dropped
once, the destructors return, and exactly these containers of the level below are gone. -/
def Nested.Safe (c : Cfg α) (co : Nat → Cfg Nat) (A : Nat → Spec.YCmd Nat → Prop) : (k : Nat) → Nested α k → Prop
  | 0, Y => ∀ cmd : Spec.YCmd α, cmd.Legal c Y → ∃ ev Y', YHappens c Y cmd ev Y'
  | k + 1, N => Nested.Safe c co A k (Chest.things N) ∧
      ∀ (cmd : Spec.YCmd Nat) (rest : List Nat), cmd.Legal (co k) (Chest.boxes N) → cmd.Plain →
        (Chest.held N).Perm (cmd.given ++ rest) → (∃ ev Y', YHappens (co k) (Chest.boxes N) cmd ev Y') ∧
        ∀ ev Y', YHappens (co k) (Chest.boxes N) cmd ev Y' → (droppedIn (Chest.boxes N) Y').Nodup ∧ ∃ s',
          (nestThings c co A k).dropEach (droppedIn (Chest.boxes N) Y') (Chest.things N) = .ok () s' ∧
          ∀ y, Nested.there k s' y = true ↔
            Nested.there k (Chest.things N) y = true ∧ y ∉ droppedIn (Chest.boxes N) Y'

/-- The calls of a client on any level, to run examples. -/
def NestCmd (α : Type) : Nat → Type
  | 0 => Spec.YCmd α
  | k + 1 => ChestCmd (NestCmd α k)

/-- `Scans` as a test. -/
def Spec.YCmd.scanning : Spec.YCmd α → Bool
  | .vec (.retain _ _) | .vec (.dedupBy _ _) | .vec (.dedupByKey _ _) => true
  | .retain _ _ | .dedupBy _ _ | .dedupByKey _ _ => true
  | _ => false

/-- Whether `a` allows a call. -/
def ChestCmd.may {κ : Type} (a : Spec.YCmd Nat → Bool) : ChestCmd κ → Bool
  | .use _ => true
  | .call cmd => a cmd

/-- One call, of those `a` allows, to run examples. -/
def nestStep (c : Cfg α) (co : Nat → Cfg Nat) (a : Spec.YCmd Nat → Bool) :
    (k : Nat) → NestCmd α k → Nested α k → Option (Nested α k)
  | 0, cmd, Y =>
    if Spec.YCmd.legal c Y cmd then
      match runY c cmd Y with
      | .ok _ Y' => some Y'
      | .panic Y' => some Y'
      | _ => none
    else none
  | k + 1, cmd, N =>
    if ChestCmd.may a cmd then
      (chestAll (nestThings c co (fun _ cmd => a cmd = true) k) (nestStep c co a k) (co k) [cmd] 0 N).map Prod.snd
    else none

/-- Run a list of calls. -/
def nestRun (c : Cfg α) (co : Nat → Cfg Nat) (a : Spec.YCmd Nat → Bool) (k : Nat) :
    List (NestCmd α k) → Nested α k → Option (Nested α k)
  | [], N => some N
  | cmd :: cmds, N => match nestStep c co a k cmd N with
    | some N' => nestRun c co a k cmds N'
    | none => none

end Lokky
