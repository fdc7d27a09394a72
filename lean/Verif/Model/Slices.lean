import Verif.Model.SmallVec
import Verif.Spec.Slices

/-!
# The elements as a slice

`Vec`, `SmallVec`, `Box<[T]>` and `IntoIter` hand out `&mut [T]`. What a client does with it is a
`Spec.SliceProg`; here it runs on the memory behind the slice.
-/

namespace Lokky
variable {α β : Type} (c : Cfg α)

open Spec

/-- Client code running on the slice of `n` elements that begins at slot `off`. Every index is checked against
`n` (core, slice indexing); `mem::replace` and `swap` read and write bits. If the index of a `replace` is bad the
value is dropped while unwinding. Simplification: values that the code holds when a destructor panics are
forgotten. -/
def runSlice (off n : Nat) : SliceProg α β → M (Buf α) β
  | .ret b => pure b
  | .panic => M.boom
  | .len k => runSlice off n (k n)
  | .look i k => do
    assert (i < n)
    let a ← Buf.read c (off + i)
    runSlice off n (k a)
  | .swap i j k => do
    assert (i < n)
    assert (j < n)
    let a ← Buf.read c (off + i)
    let b ← Buf.read c (off + j)
    Buf.write c (off + i) b
    Buf.write c (off + j) a
    runSlice off n k
  | .replace i a k => do
    (assert (i < n)).onUnwind (Buf.onLog (dropVal c a))
    let b ← Buf.read c (off + i)
    Buf.write c (off + i) a
    runSlice off n (k b)
  | .drop a k => do
    Buf.onLog (dropVal c a)
    runSlice off n k

/-- `slice[a..b]` of core on a slice of `n` elements: offset and length of the part, or a panic. -/
def partOf {σ : Type} (n a b : Nat) : M σ (Nat × Nat) := do
  assert (a ≤ b ∧ b ≤ n)
  pure (a, b - a)

/-- `slice[range]` of core for the six kinds of ranges. For the inclusive ranges core panics if the end is
`usize::MAX`. -/
def rangeOf {σ : Type} (r : Range) (n : Nat) : M σ (Nat × Nat) :=
  match r with
  | .range a b => partOf n a b
  | .to b => partOf n 0 b
  | .from a => partOf n a n
  | .full => pure (0, n)
  | .incl a b => do
    assert (b ≠ c.usizeMax)
    partOf n a (b + 1)
  | .toIncl b => do
    assert (b ≠ c.usizeMax)
    partOf n 0 (b + 1)

/-- Client code on a part of the elements of a buffer. -/
def sliceBuf (r : Range) (p : SliceProg α β) : M (Buf α) β := do
  let n ← Buf.getLen
  let (off, k) ← rangeOf c r n
  runSlice c off k p

/-- Client code on `&mut vec[range]`: `index_mut` (vec.rs 945-949) over `as_mut_slice` (vec.rs 145-147). With the
full range this is `deref_mut` (vec.rs 898-903), `borrow_mut` (910-914) or `as_mut` (922-926). -/
def Vec.sliced (r : Range) (p : SliceProg α β) : M (VSt α) β := onBuf c (sliceBuf c r p)

/-- Client code on `&mut small_vec.as_mut_slice()[range]`: `as_mut_slice` (small_vec.rs 366, 149-152), `deref_mut`
(small_vec.rs 825-829). -/
def Small.sliced (r : Range) (p : SliceProg α β) : M (SSt α) β := onAny c (sliceBuf c r p)

/-- Client code on `&mut boxed[range]` for a `Box<[T]>`: `deref_mut` (boxed.rs 77-81, ptr.rs 27-31). The box is
seen as a vector with `len = cap`. -/
def Vec.boxSliced (r : Range) (p : SliceProg α β) : M (St Vec.BoxSliceH α) β := fun s =>
  match onBuf c (sliceBuf c r p) ⟨ofBoxedSlice s.self, s.w⟩ with
  | .ok a s' => .ok a ⟨s.self, s'.w⟩
  | .panic s' => .panic ⟨s.self, s'.w⟩
  | .abort => .abort
  | .ub u => .ub u

/-- Client code on `&mut iter.as_slice_mut()[range]`: `IntoIter::as_slice_mut` (vec.rs 1142-1148). -/
def Vec.iterSliced (r : Range) (p : SliceProg α β) : M (St Vec.IntoIterH α) β := do
  let s ← M.get
  let n ← usub c s.self.vec.len s.self.index
  let (off, k) ← rangeOf c r n
  onVec (onBuf c (runSlice c (s.self.index + off) k p))

end Lokky
