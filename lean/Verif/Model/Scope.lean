import Verif.Model.Mem

/-!
# Markers, selectors and scopes (`scope.rs`, `marker.rs`)

A type name is a string in memory that stays there for ever. A scope is named by a number that stands for its
address; numbers are not used again. A reference to a scope is the number of the scope.

Simplifications: destructors of scopes do nothing; a scope is moved only by returning it from `scope_init`;
`ENV`, once set, gives the same `Env` each time.
-/

namespace Lokky

/-! ## Markers and selectors -/

/-- A `&'static str`: where it is, and its bytes. -/
structure Name where
  ptr : Nat
  text : List Nat
deriving DecidableEq, Repr

/-- `AllocMarker` (scope.rs 20-33). -/
inductive AllocMarker
  | none
  | type (name : Name)
deriving DecidableEq, Repr

namespace AllocMarker

/-- `PartialEq for AllocMarker` (scope.rs 35-43). -/
def eq : AllocMarker → AllocMarker → Bool
  | .none, .none => true
  | .type a, .type b => a.ptr == b.ptr
  | _, _ => false

/-- `Hash for AllocMarker` (scope.rs 45-52): the words given to the hasher. -/
def hash : AllocMarker → List Nat
  | .none => []
  | .type a => [a.ptr]

end AllocMarker

/-- `AllocSelector` (scope.rs 65-68). -/
structure AllocSelector where
  marker : AllocMarker
  ty : Name
deriving DecidableEq, Repr

namespace AllocSelector

/-- `PartialEq for AllocSelector` (scope.rs 70-74). -/
def eq (a b : AllocSelector) : Bool := a.marker.eq b.marker && a.ty.ptr == b.ty.ptr

/-- `Hash for AllocSelector` (scope.rs 76-81). -/
def hash (a : AllocSelector) : List Nat := a.marker.hash ++ [a.ty.ptr]

end AllocSelector

/-- What the compiler and the linker decide about `type_name::<T>()`: at each place `s` of the program (a
codegen unit) that asks for the name of the type `t`, the bytes of the name and where they are. -/
structure Linked (Site Ty : Type) where
  text : Ty → List Nat
  addr : Site → Ty → Nat

namespace Linked
variable {Site Ty : Type} (L : Linked Site Ty)

/-- `core::any::type_name::<T>()`. -/
def typeName (s : Site) (t : Ty) : Name := ⟨L.addr s t, L.text t⟩

/-- `AllocMarker::new` (scope.rs 57-59). -/
def marker (s : Site) (t : Ty) : AllocMarker := .type (L.typeName s t)

/-- `AllocSelector::with_marker` (scope.rs 93-98). -/
def selector (s : Site) (t : Ty) (m : AllocMarker) : AllocSelector := ⟨m, L.typeName s t⟩

/-- `AllocSelector::new` (scope.rs 85-90). -/
def plain (s : Site) (t : Ty) : AllocSelector := ⟨.none, L.typeName s t⟩

end Linked

/-! ## Scopes -/

/-- A value of a type `S: Scope`, as returned by `scope_init`: `size_of::<S>()`, and the reference to a scope
that its first 16 bytes make up, if they do. As the value is made before it gets to its place, that is never a
reference to itself. -/
structure ScopeVal where
  size : Nat
  head : Option Nat
deriving DecidableEq, Repr

/-- What programs can see.
* `looked k`: `current()` gave scope `k`
* `given k`: `scope_init` was called with scope `k`
* `entered k`: the body was called with scope `k`, the new one
* `made k`: a value was made, in memory from scope `k`
* `env k`: `Env::new` was called with scope `k` -/
inductive ScopeEv
  | looked (k : Nat)
  | given (k : Nat)
  | entered (k : Nat)
  | made (k : Nat)
  | env (k : Nat)
deriving DecidableEq, Repr

/-- `ENV` and `Env` (scope.rs 10-15): `cur` is the reference to the current scope, `none` if `ENV` is not set.
`live` are the scopes that exist, `next` is the next new one, `log` is what the program saw. -/
structure ScopeSt where
  cur : Option Nat
  live : List Nat
  next : Nat
  log : List ScopeEv
deriving DecidableEq, Repr

namespace Scope

/-- Note what is seen. -/
def note (e : ScopeEv) : M ScopeSt Unit := M.modify fun s => { s with log := s.log ++ [e] }

/-- `current` (scope.rs 156-163, 176-178): panics if `ENV` is not set; a reference to a scope that is gone must
not be used. -/
def current : M ScopeSt Nat := fun s =>
  match s.cur with
  | none => .panic s
  | some k => if k ∈ s.live then .ok k s else .ub .oob

/-- The new scope is on the stack of `spawn`. -/
def place : M ScopeSt Nat := fun s => .ok s.next { s with live := s.next :: s.live, next := s.next + 1 }

/-- It is gone. -/
def leave (k : Nat) : M ScopeSt Unit := M.modify fun s => { s with live := s.live.erase k }

/-- `transmute_copy::<S, &mut dyn Scope>(&new_scope)` (scope.rs 141): asserts that `S` has at least the size of a
reference to a scope, two words of 8 bytes; a reference that is not one to a scope must not be made. -/
def reinterpret (v : ScopeVal) : M ScopeSt Nat := fun s =>
  if v.size < 16 then .panic s
  else match v.head with
    | none => .ub .contract
    | some k => if k ∈ s.live then .ok k s else .ub .oob

/-- `spawn` (scope.rs 127-149, 180-185). `init prev` is `scope_init(&*prev)`, `f k` is `f(&mut new_scope)`. The
new scope goes away when `spawn` returns or unwinds. It gets its number after its bytes were read, as they
cannot contain it. -/
def spawn {β : Type} (init : Nat → M ScopeSt ScopeVal) (f : Nat → M ScopeSt β) : M ScopeSt β := do
  let prev ← current
  let v ← init prev
  let r ← reinterpret v
  let k ← place
  M.modify fun s => { s with cur := some r }
  let t ← M.onUnwind (f k) (leave k)
  M.modify fun s => { s with cur := some prev }
  leave k
  pure t

/-- `catch_unwind`. -/
def attempt (m : M ScopeSt Unit) : M ScopeSt Unit := fun s =>
  match m s with
  | .panic s' => .ok () s'
  | r => r

end Scope

/-- Client programs: they look at the current scope, spawn scopes (`init` is run in `scope_init`, which then
returns `v`), panic, and catch panics, with any nesting. -/
inductive ScopeProg
  | ret
  | panic
  | look (k : ScopeProg)
  | spawn (init : ScopeProg) (v : ScopeVal) (body k : ScopeProg)
  | attempt (body k : ScopeProg)
deriving DecidableEq, Repr

namespace ScopeProg

/-- Running a program. -/
def run : ScopeProg → M ScopeSt Unit
  | .ret => pure ()
  | .panic => M.boom
  | .look k => do
    let x ← Scope.current
    Scope.note (.looked x)
    run k
  | .spawn init v body k => do
    Scope.spawn (fun p => do Scope.note (.given p); run init; pure v) (fun n => do Scope.note (.entered n); run body)
    run k
  | .attempt body k => do
    Scope.attempt (run body)
    run k

end ScopeProg

/-! ## Things that refer to scopes -/

/-- Client programs that keep what they get, and use it when they like. As `ScopeProg`, and
* `look`: `current(&())`. The reference has the lifetime of the argument (scope.rs 156-163, 176-178), `'static` for a
  constant, so nothing keeps it in the body.
* `make`: a `Box`, `Vec`, … allocated in the current scope. It keeps the allocator as a `Scoped`, a `'static` reference
  (ptr.rs 12-17, 51-60), and `spawn` returns values of any type.
* `block body k`: `{ let mut scope = …; let env = Env::new(&mut scope); body }`. `env` has no lifetime (scope.rs 13-15,
  120-124).
* `use i`: what is done with the `i`-th of the references, values and `Env`s got so far: `alloc_for`; growing or dropping
  the value, which calls the allocator (ptr.rs 34-42, 242-246, 268-284); `Env::current`. It needs the scope. (The allocator is taken to be
  part of the scope. A program that gives a number too large does nothing.) -/
inductive ScopeUse
  | ret
  | panic
  | look (k : ScopeUse)
  | make (k : ScopeUse)
  | use (i : Nat) (k : ScopeUse)
  | block (body k : ScopeUse)
  | spawn (init : ScopeUse) (v : ScopeVal) (body k : ScopeUse)
  | attempt (body k : ScopeUse)
deriving DecidableEq, Repr

/-- The scope that a reference, value or `Env` depends on. -/
def ScopeEv.thing : ScopeEv → Option Nat
  | .looked k | .made k | .env k => some k
  | .given _ | .entered _ => none

/-- The scopes that the references, values and `Env`s got so far depend on. -/
def ScopeSt.things (s : ScopeSt) : List Nat := s.log.filterMap ScopeEv.thing

namespace ScopeUse

/-- Using the `i`-th thing. -/
def useIt (i : Nat) : M ScopeSt Unit := fun s =>
  match s.things[i]? with
  | none => .ok () s
  | some k => if k ∈ s.live then .ok () s else .ub .oob

/-- Running a program. -/
def run : ScopeUse → M ScopeSt Unit
  | .ret => pure ()
  | .panic => M.boom
  | .look k => do
    let x ← Scope.current
    Scope.note (.looked x)
    run k
  | .make k => do
    let x ← Scope.current
    Scope.note (.made x)
    run k
  | .use i k => do
    useIt i
    run k
  | .block body k => do
    let n ← Scope.place
    M.onUnwind (do Scope.note (.env n); run body) (Scope.leave n)
    Scope.leave n
    run k
  | .spawn init v body k => do
    Scope.spawn (fun p => do Scope.note (.given p); run init; pure v) (fun n => do Scope.note (.entered n); run body)
    run k
  | .attempt body k => do
    Scope.attempt (run body)
    run k

end ScopeUse

end Lokky
