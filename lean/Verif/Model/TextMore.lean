import Verif.Model.Text

/-!
# Writing into parts of a `String`, printing it, and `Box<str>` as bytes
-/

namespace Lokky
open Utf8

/-- Where the part given by a range begins. -/
def StrRange.start : StrRange → Nat
  | .range a _ | .from a | .incl a _ => a
  | .to _ | .full | .toIncl _ => 0

namespace Str
variable (c : Cfg UInt8)

/-- `IndexMut` with the six kinds of ranges (string.rs 587-627), and `DerefMut`, `as_mut_str`, `borrow_mut` as the
full range (118-121, 336-354). A client changes the part in place by `f`; safe functions of `str` keep its length. -/
def indexMut (r : StrRange) (f : List UInt8 → List UInt8) : M (VSt UInt8) Unit := do
  let m ← index c r
  Vec.onBuf c (Buf.copyFrom c ((f m).map some) r.start (f m).length)

/-- `Display` (string.rs 398-403): that of `str` (core), which writes the text (no padding asked for). -/
def display : M (VSt UInt8) (List UInt8) := asStr c

/-- `Debug` (string.rs 405-410): calls `Display` of `str`. -/
def debug : M (VSt UInt8) (List UInt8) := asStr c

/-- `From<Box<str>> for Box<[u8]>` (boxed.rs 153-157), `cast_str_to_bytes` (ptr.rs 145-160): the same pointer,
length, allocator and marker; the old box is forgotten. -/
def boxToBytes (b : Vec.BoxSliceH) : M (World UInt8) Vec.BoxSliceH :=
  pure { ptr := b.ptr, len := b.len, alloc := b.alloc, marker := b.marker }

/-- `From<Box<str>> for Vec<u8>` (vec.rs 1041-1050): by way of the boxed bytes. -/
def vecOfBoxStr (b : Vec.BoxSliceH) : M (World UInt8) VecH := do
  let b ← boxToBytes b
  pure (Vec.ofBoxedSlice b)

end Str
end Lokky
