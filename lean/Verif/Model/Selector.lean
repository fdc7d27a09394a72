import Verif.Model.Scope

/-!
# Pointers, the allocators they belong to, and how these were selected (`ptr.rs`)

Scopes, allocators and pieces of memory are numbers; a piece of memory gets a new number each time an allocator gives
one. `choose k q` is what scope `k` answers to `alloc_for(q)`. Scopes give the same answer to the same selector, as long
as they live; allocators live as long as they are used (but see C126), and do not refuse memory (but see C135).

The contents of memory are left out here; they are in `Model/Boxed`, `Model/Array`, `Model/Urc`.
-/

namespace Lokky

/-- Types that pointers are to. -/
inductive PTy
  | base (n : Nat)
  | str
  | slice (t : PTy)
  | fence (t : PTy)
  | master (t : PTy)
deriving DecidableEq, Repr

/-- `ScopePtr<T>` (ptr.rs 12-17), with `T`. -/
structure SPtr where
  block : Nat
  alloc : Nat
  marker : AllocMarker
  ty : PTy
deriving DecidableEq, Repr

/-- What scopes and allocators see, and what programs see.
* `entered k`: scope `k` is the current one from here on
* `got k q a b`: scope `k` was asked with selector `q` and answered `a`; then `a` gave the memory `b`
* `regot a b b'`: `a` was called to enlarge `b` and gave `b'`
* `back a b`: `a` was called to take `b` back
* `told b q`: `alloc_selector` of a pointer to `b` gave `q` -/
inductive SelEv
  | entered (k : Nat)
  | got (k : Nat) (q : AllocSelector) (a b : Nat)
  | regot (a b b' : Nat)
  | back (a b : Nat)
  | told (b : Nat) (q : AllocSelector)
deriving DecidableEq, Repr

/-- `cur` is the current scope, `ptrs` the pointers the program made, `none` if they are gone; memory from `next` on is
new; `live` is the memory in use. -/
structure SelSt where
  cur : Nat
  ptrs : List (Option SPtr)
  next : Nat
  live : List Nat
  log : List SelEv
deriving DecidableEq, Repr

namespace SPtr
variable {Site : Type} (L : Linked Site PTy) (choose : Nat → AllocSelector → Nat)

/-- `alloc_layout` (ptr.rs 188-199) with `ScopePtr::new` (ptr.rs 51-60). -/
def allocLayout (t : PTy) (q : AllocSelector) : M SelSt SPtr := fun s =>
  let a := choose s.cur q
  .ok ⟨s.next, a, q.marker, t⟩
    { s with next := s.next + 1, live := s.next :: s.live, log := s.log ++ [.got s.cur q a s.next] }

/-- `alloc` (ptr.rs 181-185). -/
def make (t : PTy) (q : AllocSelector) : M SelSt SPtr := allocLayout choose t q

/-- `cast` (ptr.rs 67-76). -/
def cast (p : SPtr) (t : PTy) : SPtr := { p with ty := t }

/-- `cast_to_slice` (ptr.rs 83-95). -/
def castToSlice (p : SPtr) : SPtr := { p with ty := .slice p.ty }

/-- `cast_str_to_bytes` (ptr.rs 146-159); `u8` is `base 0`. -/
def castStrToBytes (p : SPtr) : SPtr := { p with ty := .slice (.base 0) }

/-- `clone` (ptr.rs 125-132). -/
def clone (p : SPtr) : SPtr := ⟨p.block, p.alloc, p.marker, p.ty⟩

/-- `marker` (ptr.rs 135-137). -/
def getMarker (p : SPtr) : AllocMarker := p.marker

/-- `alloc_selector` (ptr.rs 164-166), called at place `x` of the program. -/
def allocSelector (x : Site) (p : SPtr) : AllocSelector := L.selector x p.ty p.getMarker

/-- `alloc_array_uninit` (ptr.rs 251-262). -/
def allocArrayUninit (t : PTy) (q : AllocSelector) : M SelSt SPtr := do
  let p ← allocLayout choose t q
  pure p.castToSlice

/-- `realloc_array` (ptr.rs 268-284). -/
def reallocArray (p : SPtr) : M SelSt SPtr := fun s =>
  if p.block ∈ s.live then
    .ok { p with block := s.next }
      { s with next := s.next + 1, live := s.next :: s.live.erase p.block, log := s.log ++ [.regot p.alloc p.block s.next] }
  else .ub .oob

/-- `dealloc` (ptr.rs 242-246), and `drop` (ptr.rs 34-42). -/
def dealloc (p : SPtr) : M SelSt Unit := fun s =>
  if p.block ∈ s.live then
    .ok () { s with live := s.live.erase p.block, log := s.log ++ [.back p.alloc p.block] }
  else .ub .oob

/-- `Box::new` (boxed.rs 10-12), called at place `x`. -/
def boxNew (x : Site) (t : PTy) : M SelSt SPtr := make choose t (L.plain x t)

/-- `Box::new_with` (boxed.rs 14-16). -/
def boxNewWith (x : Site) (t : PTy) (m : AllocMarker) : M SelSt SPtr := make choose t (L.selector x t m)

/-- `Urc::new` (urc.rs 222-237), and `Urc::try_into_fence` (urc.rs 196-208) on the new handle, which gives the pointer
to the fence to the program. The pointer to the master, which is in the fence, is given too. -/
def urcFence (x : Site) (t : PTy) : M SelSt (SPtr × SPtr) := do
  let m ← make choose (.master t) (L.plain x (.master t))
  let f ← make choose (.fence t) (L.plain x t)
  pure (m, f)

end SPtr

/-- Calls of client programs; `i` is the number of a pointer.
* `enter k`: from here on `k` is the current scope
* `box`, `boxWith`, `alloc`, `array`, `fence`: new pointers
* `cast`, `castToSlice`, `bytes`, `clone`, `realloc`, `forget` (ptr.rs 140-142), `drop` of a pointer
* `selector`: `alloc_selector` -/
inductive SelOp (Site : Type)
  | enter (k : Nat)
  | box (x : Site) (t : PTy)
  | boxWith (x : Site) (t : PTy) (m : AllocMarker)
  | alloc (t : PTy) (q : AllocSelector)
  | array (t : PTy) (q : AllocSelector)
  | fence (x : Site) (t : PTy)
  | cast (i : Nat) (t : PTy)
  | castToSlice (i : Nat)
  | bytes (i : Nat)
  | clone (i : Nat)
  | realloc (i : Nat)
  | forget (i : Nat)
  | drop (i : Nat)
  | selector (x : Site) (i : Nat)

namespace SelOp
variable {Site : Type} (L : Linked Site PTy) (choose : Nat → AllocSelector → Nat)

/-- Keep a new pointer. -/
def keep (p : SPtr) : M SelSt Unit := M.modify fun s => { s with ptrs := s.ptrs ++ [some p] }

/-- Put a pointer in the place of another. -/
def put (i : Nat) (p : Option SPtr) : M SelSt Unit := M.modify fun s => { s with ptrs := s.ptrs.set i p }

/-- Do something with a pointer, if it is there (there is no source for this: a program cannot call a method of a pointer
that it does not have, and `cast_str_to_bytes` and `realloc_array` only of pointers to strings and arrays). -/
def onPtr (i : Nat) (f : SPtr → M SelSt Unit) : M SelSt Unit := fun s =>
  match s.ptrs[i]? with
  | some (some p) => f p s
  | _ => .ok () s

/-- One call. See `SPtr` for the lines of the functions. -/
def run : SelOp Site → M SelSt Unit
  | .enter k => M.modify fun s => { s with cur := k, log := s.log ++ [.entered k] }
  | .box x t => do keep (← SPtr.boxNew L choose x t)
  | .boxWith x t m => do keep (← SPtr.boxNewWith L choose x t m)
  | .alloc t q => do keep (← SPtr.make choose t q)
  | .array t q => do keep (← SPtr.allocArrayUninit choose t q)
  | .fence x t => do
    let (m, f) ← SPtr.urcFence L choose x t
    keep m
    keep f
  | .cast i t => onPtr i fun p => put i (some (p.cast t))
  | .castToSlice i => onPtr i fun p => put i (some p.castToSlice)
  | .bytes i => onPtr i fun p => if p.ty = .str then put i (some p.castStrToBytes) else pure ()
  | .clone i => onPtr i fun p => keep p.clone
  | .realloc i => onPtr i fun p => match p.ty with
    | .slice _ => do
      let q ← p.reallocArray
      put i (some q)
    | _ => pure ()
  | .forget i => onPtr i fun _ => put i none
  | .drop i => onPtr i fun p => do
    p.dealloc
    put i none
  | .selector x i => onPtr i fun p => M.modify fun s =>
    { s with log := s.log ++ [.told p.block (p.allocSelector L x)] }

/-- Programs. -/
def runAll : List (SelOp Site) → M SelSt Unit
  | [] => pure ()
  | o :: os => do
    run L choose o
    runAll os

end SelOp

/-- At the start there are no pointers. -/
def SelSt.start (k : Nat) : SelSt := ⟨k, [], 0, [], []⟩

end Lokky
