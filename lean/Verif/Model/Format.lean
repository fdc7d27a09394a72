import Verif.Model.Compare
import Verif.Model.SmallCmp
import Verif.Model.UrcData

/-!
# Formatting: `Debug`, `Display` and `Pointer`

`F` is the `Formatter`: its options and what was written. `Debug` of slices (core) is modelled from its
documentation, for `{:?}`; the rest is what the value's type does.
-/

namespace Lokky
variable {α F : Type}

/-- How a call of `fmt` ends: `Ok(())`, `Err(_)`, or a panic. -/
inductive FmtEnd
  | ok | err | panic
deriving DecidableEq, Repr

/-- Formatting of the value's type (`Debug`, `Display`), of raw pointers (`Pointer`), and `write_str` of the
formatter. -/
structure Fmts (α F : Type) where
  debug : α → F → F × FmtEnd
  display : α → F → F × FmtEnd
  pointer : Nat → F → F × FmtEnd
  writeStr : String → F → F × FmtEnd

/-- One call of `fmt` after another, as `?` does it. -/
def fmtThen (f g : F → F × FmtEnd) : F → F × FmtEnd := fun s =>
  match f s with
  | (s', .ok) => g s'
  | r => r

namespace Fmts
variable (d : Fmts α F)

/-- The elements after the first one. -/
def debugRest : List α → F → F × FmtEnd
  | [] => fun s => (s, .ok)
  | a :: l => fmtThen (d.writeStr ", ") (fmtThen (d.debug a) (debugRest l))

/-- `Debug` of slices (core): `f.debug_list().entries(self.iter()).finish()`. -/
def debugSlice (l : List α) : F → F × FmtEnd :=
  fmtThen (d.writeStr "[") (fmtThen
    (match l with
      | [] => fun s => (s, .ok)
      | a :: l => fmtThen (d.debug a) (debugRest d l))
    (d.writeStr "]"))

end Fmts

/-- What a call of `fmt` shows: the formatter, and whether it is `Ok`. A panic is one of the whole call. -/
def fmtEnd {σ : Type} (r : F × FmtEnd) : M σ (F × Bool) :=
  match r with
  | (f, .ok) => pure (f, true)
  | (f, .err) => pure (f, false)
  | (_, .panic) => M.boom

variable (c : Cfg α) (d : Fmts α F)

/-- `Debug` for `Box` (boxed.rs 57-61). -/
def Boxed.debug (f : F) : M (BSt α) (F × Bool) := do
  let a ← Boxed.read c
  fmtEnd (d.debug a f)

/-- `Display` for `Box` (boxed.rs 63-67). -/
def Boxed.display (f : F) : M (BSt α) (F × Bool) := do
  let a ← Boxed.read c
  fmtEnd (d.display a f)

/-- `Debug` for `Rc` (rc.rs 205-209). -/
def Rc.debug (p : Nat) (f : F) : M (RcWorld α) (F × Bool) := do
  let a ← Rc.asRef p
  fmtEnd (d.debug a f)

/-- `Display` for `Rc` (rc.rs 211-215). -/
def Rc.display (p : Nat) (f : F) : M (RcWorld α) (F × Bool) := do
  let a ← Rc.asRef p
  fmtEnd (d.display a f)

/-- `Debug` for `Arc` (arc.rs 404-408). -/
def Arc.debug (p : Nat) (f : F) : M (ArcSys α) (F × Bool) := do
  let a ← Arc.data p
  fmtEnd (d.debug a f)

/-- `Display` for `Arc` (arc.rs 398-402). -/
def Arc.display (p : Nat) (f : F) : M (ArcSys α) (F × Bool) := do
  let a ← Arc.data p
  fmtEnd (d.display a f)

/-- `Pointer` for `Arc` (arc.rs 410-414): the address of the value, which is that of the object here. `as_ref`
needs the memory of the object. -/
def Arc.pointer (p : Nat) (f : F) : M (ArcSys α) (F × Bool) := do
  let _ ← Arc.obj p
  fmtEnd (d.pointer p f)

/-- `Debug` for `Urc` (urc.rs 554-558). -/
def Urc.debug (i : Nat) (f : F) : M (UrcWorld α) (F × Bool) := do
  let a ← Urc.asRef i
  fmtEnd (d.debug a f)

/-- `Display` for `Urc` (urc.rs 548-552). -/
def Urc.display (i : Nat) (f : F) : M (UrcWorld α) (F × Bool) := do
  let a ← Urc.asRef i
  fmtEnd (d.display a f)

/-- `Pointer` for `Urc` (urc.rs 560-564): the address that handle `i` keeps. -/
def Urc.pointer (D : List Nat) (i : Nat) (f : F) : M (UrcWorld α) (F × Bool) := do
  let a ← Urc.asPtr D i
  fmtEnd (d.pointer a f)

/-- `Debug` for `Vec` (vec.rs 885-889). -/
def Vec.debug (f : F) : M (VSt α) (F × Bool) := do
  let l ← Vec.asSlice c
  fmtEnd (d.debugSlice l f)

/-- `Debug` for `SmallVec` (small_vec.rs 874-878). -/
def Small.debug (f : F) : M (SSt α) (F × Bool) := do
  let l ← Small.asSlice c
  fmtEnd (d.debugSlice l f)

end Lokky
