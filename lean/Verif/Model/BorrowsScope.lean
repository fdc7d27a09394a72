import Verif.Model.Alias

/-!
# Scopes and the aliasing rules

`spawn` and `current`, reduced to the pointers to the environment that they make and use (see
Model/Alias.lean).

The block is the `Env` of the program, one slot: its field `cur` (scope.rs 13-15). Pointer 0 is what
the function in `ENV` (scope.rs 8-10) makes its results from. The function returns a `&'static mut
Env` whenever it is called, and this is a new reference each time. What `cur` points to, the scopes
themselves, are other blocks and left out here.
-/

namespace Lokky.Alias

variable {σ : Type} [Mach σ]

/-- Code of a program that works with scopes: the functions of scope.rs 175-185 it calls. -/
inductive EnvCode where
  /-- something that does not use the environment -/
  | skip
  /-- `current(..)` (scope.rs 175-178). Every allocation does this: `Box::new`, growing a vector, ...
  (`alloc_layout`, ptr.rs 188-189). -/
  | current
  /-- `spawn(scope_init, f)` (scope.rs 180-185) -/
  | spawn (init body : EnvCode)
  /-- one after the other -/
  | seq (a b : EnvCode)
  /-- a panic -/
  | panic
  /-- `catch_unwind` -/
  | caught (c : EnvCode)
deriving Repr

/-- `env_mut()` (scope.rs 166-169): a new `&mut Env`. -/
def envMut : M σ Nat := Mach.mutRef 0 0 1

/-- `env()` (scope.rs 161-164): a new `&mut Env`, and from that a `&Env`. -/
def envRef : M σ Nat := do
  let t ← Mach.mutRef 0 0 1
  Mach.shrRef t 0 1

/-- `current(..)` (scope.rs 175-178, 156-158): `transmute_copy(&self.cur)` reads `cur`. -/
def scCurrent : M σ Unit := do
  let t ← envRef
  Mach.readAt t 0 1

/-- `self.cur.as_mut()` (scope.rs 138; marker.rs 98-102): a `&mut` to the field `cur`, and reading
it. -/
def scPrev (self : Nat) : M σ Unit := do
  let t ← Mach.mutRef self 0 1
  Mach.readAt t 0 1

/-- `self.cur = ..` (scope.rs 141, 146). -/
def scSet (self : Nat) : M σ Unit := Mach.writeAt self 0 1

/-- `spawn` (scope.rs 180-185, 127-149) with `init` for `scope_init` and `body` for `f`. The result
says whether it unwinds; nothing restores `cur` then. -/
def scSpawn (init body : M σ Bool) : M σ Bool := do
  let self ← envMut
  scPrev self
  let p ← init
  if p then ret true else do
    scSet self
    let q ← body
    if q then ret true else do
      scSet self
      ret false

/-- Run code: the calls of scope.rs 175-185 in order. The result says whether it unwinds. -/
def EnvCode.run : EnvCode → M σ Bool
  | .skip => ret false
  | .current => do
    scCurrent
    ret false
  | .spawn i b => scSpawn i.run b.run
  | .seq a b => do
    let p ← a.run
    if p then ret true else b.run
  | .panic => ret true
  | .caught c => do
    let _ ← c.run
    ret false

end Lokky.Alias
