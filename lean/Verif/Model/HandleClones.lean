import Verif.Model.Handles

/-!
# Client programs that clone things kept in vectors

Not code of the crate: a client as in Verif/Model/Handles.lean that also clones vectors of things (`Vec<Rc<T>>`,
`Vec<Urc<T>>`, `Vec<Vec<T>>`), extends them from slices and resizes them. The vectors' code then runs `clone` of the
things: `clone` (vec.rs 929-935), `extend_from_slice` (vec.rs 342-350), `resize` (vec.rs 484-489, 691-700).

Simplification: `clone` of the things runs as a whole after the call of the vector, and before the destructors of what
the call drops, instead of within it: in these functions no destructor runs before a clone, and vectors and things
share no memory. What the vectors are told about the clones (their numbers, and which panicked) is what running
them gives.
-/

namespace Lokky
variable {α σ : Type}

/-- Things that can be cloned: which can be, and `clone`, which returns the number of the new one. -/
structure Clonables (σ : Type) extends Things σ where
  clonable : σ → Nat → Bool
  clone : Nat → M σ Nat

/-- What the vectors show (`as_slice`, vec.rs 140-142). -/
def Pool.lists (c : Cfg α) (P : Pool α) : Spec.Lists α :=
  P.vecs.map fun o => o.map fun v => match Vec.asSlice c ⟨v, P.w⟩ with
    | .ok l _ => l
    | _ => []

/-- The elements a call on vectors with contents `L` is to clone, in order: `clone` (vec.rs 929-935) those of the vector,
`extend_from_slice` (vec.rs 342-350) those of the slice, `resize` (vec.rs 484-489, 691-700) the given one, as often as
elements are missing but one. -/
def Spec.Cmd.sources (L : Spec.Lists α) : Spec.Cmd α → List α
  | .clone x => match L[x]? with
    | some (some l) => l
    | _ => []
  | .on _ (.extendFromSlice xs) => xs
  | .on x (.resize k a) => match L[x]? with
    | some (some l) => List.replicate (k - l.length - 1) a
    | _ => []
  | _ => []

/-- Calls that make elements, if at all, by cloning. -/
def Spec.Cmd.CopiesOnly : Spec.Cmd α → Prop
  | .on _ (.resizeWith _ _) => False
  | _ => True

/-- `CopiesOnly` as a test. -/
def Spec.Cmd.copiesOnly : Spec.Cmd α → Bool
  | .on _ (.resizeWith _ _) => false
  | _ => true

/-- Clone the things `xs` one after the other, up to the first panic. Cloning one that does not exist would use memory
that is not its own. -/
def Clonables.cloneEach (K : Clonables σ) : List Nat → M σ (List Nat)
  | [], s => .ok [] s
  | x :: xs, s =>
    if K.clonable s x then
      match K.clone x s with
      | .ok y s' =>
        match K.cloneEach xs s' with
        | .ok ys s'' => .ok (y :: ys) s''
        | .panic s'' => .panic s''
        | .abort => .abort
        | .ub u => .ub u
      | .panic s' => .panic s'
      | .abort => .abort
      | .ub u => .ub u
    else .ub .badFree

/-- The configuration of the vectors for one call: `clone` of the elements, as a function of the number of the clone
and the element, gives what cloning the sources `xs` in order gives. A clone of anything else gives a number
that is not that of a thing. -/
def Clonables.during (K : Clonables σ) (co : Cfg Nat) (xs : List Nat) (s : σ) (k0 : Nat) : Cfg Nat :=
  { co with
    clone := fun k a =>
      if k0 ≤ k ∧ xs[k - k0]? = some a then
        match K.cloneEach (xs.take (k - k0 + 1)) s with
        | .ok ys _ => ys.getLast?
        | _ => none
      else some (K.made s + xs.length) }

/-- The sources of a call. -/
def Shelf.sources (co : Cfg Nat) (N : Shelf σ) (cmd : Spec.Cmd Nat) : List Nat := cmd.sources (N.vecs.lists co)

/-- The sources of a call that it cloned, or tried to: as many as it made clones. -/
def Shelf.cloned (co : Cfg Nat) (N : Shelf σ) (cmd : Spec.Cmd Nat) (O' : Pool Nat) : List Nat :=
  (N.sources co cmd).take (O'.w.log.calls - N.vecs.w.log.calls)

/-- The state after cloning, whether or not the last clone panicked. -/
def Clonables.afterClones (K : Clonables σ) (xs : List Nat) (s : σ) : Option σ :=
  match K.cloneEach xs s with
  | .ok _ s' => some s'
  | .panic s' => some s'
  | _ => none

/-- The outcome of a call of a vector. -/
def Shelf.Calls (K : Clonables σ) (co : Cfg Nat) (N : Shelf σ) (cmd : Spec.Cmd Nat) (ev : Spec.Event Nat)
    (O' : Pool Nat) : Prop :=
  Happens (K.during co (N.sources co cmd) N.things N.vecs.w.log.calls) N.vecs cmd ev O'

/-- What a client may call on its vectors: as for other vectors; what it hands over it holds (`rest`: what remains); what
is cloned can be. -/
structure Shelf.May (K : Clonables σ) (co : Cfg Nat) (N : Shelf σ) (cmd : Spec.Cmd Nat) (rest : List Nat) : Prop where
  legal : cmd.Legal co N.vecs
  copies : cmd.CopiesOnly
  held : N.held.Perm (cmd.given ++ rest)
  clonable : ∀ x ∈ N.sources co cmd, K.clonable N.things x = true

/-- A client program that keeps things in vectors, clones them too, and caught every panic: the number of calls of
things, with their clones and destructors, and the state reached. -/
inductive KReaches (K : Clonables σ) (co : Cfg Nat) (N0 : Shelf σ) : Nat → Shelf σ → Prop
  | start : KReaches K co N0 0 N0
  | use {n N s'} : KReaches K co N0 n N → K.use N.things s' →
      (∀ x, K.alive N.things x = true → K.alive s' x = false → x ∈ N.held) →
      KReaches K co N0 (n + 1) ⟨s', N.vecs, K.heldAfter N.things s' N.held⟩
  | vec {n N cmd ev O' s1 s' rest} : KReaches K co N0 n N → N.May K co cmd rest → N.Calls K co cmd ev O' →
      K.afterClones (N.cloned co cmd O') N.things = some s1 →
      K.dropEach (droppedBy N.vecs O') s1 = .ok () s' →
      KReaches K co N0 (n + (N.cloned co cmd O').length + (droppedBy N.vecs O').length)
        ⟨s', O', rest ++ Spec.taken cmd ev⟩

/-- The result of `clone` of things: the number of the new one is how many there were. -/
def cloneResult {β : Type} (n : Nat) : Res σ β → Res σ Nat
  | .ok _ s' => .ok n s'
  | .panic s' => .panic s'
  | .abort => .abort
  | .ub u => .ub u

/-- `Rc` and `Weak` handles (rc.rs 56, 248): both can be cloned (rc.rs 198-203, 313-322). -/
def rcClonables (c : Cfg α) (ok : Spec.Hands → Spec.RcCmd α → Prop) : Clonables (RcPool α) where
  toThings := rcThings c ok
  clonable P x := isThere P.hands x
  clone x := fun P => cloneResult P.hands.length (runRc c (.clone x) P)

/-- `Urc` and `Weak` handles: only `Urc` can be cloned (urc.rs 484-494). -/
def urcClonables (c : Cfg α) (ok : UrcPool α → UrcCmd α → Prop) : Clonables (UrcPool α) where
  toThings := urcThings c ok
  clonable P x := match P.hands[x]? with
    | some (some (.urc _)) => true
    | _ => false
  clone x := fun P => cloneResult P.hands.length (runUrc c (.clone x) P)

/-- Vectors (vec.rs 11-14) as elements of vectors. The calls are those a client may make; `clone` is vec.rs 929-935, the
destructor vec.rs 977-990. -/
def vecClonables (c : Cfg α) : Clonables (Pool α) where
  alive P x := P.alive x
  made P := P.vecs.length
  use P P' := ∃ cmd ev, cmd.Legal c P ∧ Happens c P cmd ev P'
  drop x := fun P => match runCmd c (.drop x) P with
    | .ok _ P' => .ok () P'
    | .panic P' => .panic P'
    | .abort => .abort
    | .ub u => .ub u
  clonable P x := P.alive x
  clone x := fun P => cloneResult P.vecs.length (runCmd c (.clone x) P)

/-- Run a list of calls, to get examples of `KReaches`; `n` counts the calls of things. -/
def keepAll {κ : Type} (K : Clonables σ) (step : κ → σ → Option σ) (co : Cfg Nat) :
    List (ShelfCmd κ) → Nat → Shelf σ → Option (Nat × Shelf σ)
  | [], n, N => some (n, N)
  | .use k :: cmds, n, N =>
    match step k N.things with
    | some s' =>
      if K.tookHeld N.things s' N.held then
        keepAll K step co cmds (n + 1) ⟨s', N.vecs, K.heldAfter N.things s' N.held⟩
      else none
    | none => none
  | .vec cmd :: cmds, n, N =>
    if cmd.legal co N.vecs && cmd.copiesOnly &&
        decide (N.held.Perm (cmd.given ++ cmd.given.foldl List.erase N.held)) &&
        (N.sources co cmd).all (K.clonable N.things) then
      let next (O' : Pool Nat) (o : Option (Spec.Out Nat)) : Option (Nat × Shelf σ) :=
        match K.afterClones (N.cloned co cmd O') N.things with
        | some s1 =>
          match K.dropEach (droppedBy N.vecs O') s1 with
          | .ok _ s' => some (n + (N.cloned co cmd O').length + (droppedBy N.vecs O').length,
              ⟨s', O', cmd.given.foldl List.erase N.held ++
                Spec.taken cmd ⟨o, O'.w.refusals != N.vecs.w.refusals⟩⟩)
          | _ => none
        | none => none
      match runCmd (K.during co (N.sources co cmd) N.things N.vecs.w.log.calls) cmd N.vecs with
      | .ok o O' => match next O' (some o) with
        | some r => keepAll K step co cmds r.1 r.2
        | none => none
      | .panic O' => match next O' none with
        | some r => keepAll K step co cmds r.1 r.2
        | none => none
      | _ => none
    else none

end Lokky
