import Verif.Model.SmallVec

/-!
# The spare capacity of `Vec` and `SmallVec`
-/

namespace Lokky
variable {α : Type} (c : Cfg α)

/-- `spare_len` (vec.rs 182-185; small_vec.rs 242-245, 373). -/
def Buf.spareLen : M (Buf α) Nat := do
  let b ← M.get
  usub c b.cap b.len

/-- `is_full` (vec.rs 413-416; small_vec.rs 163-166, 363). -/
def Buf.isFull : M (Buf α) Bool := M.gets fun b => b.len == b.cap

/-- `spare_capacity_mut()[i].write(a)` with `spare_capacity_mut` (vec.rs 173-180; small_vec.rs 600-607): the slice
begins behind the last element and has `spare_len` slots; `MaybeUninit::write` drops nothing. -/
def Buf.spareWrite (i : Nat) (a : α) : M (Buf α) Unit := do
  let n ← Buf.spareLen c
  assert (i < n)
  let k ← Buf.getLen
  Buf.write c (k + i) a

/-- A client writes several values, from slot `i` of the spare capacity on. -/
def Buf.spareWrites : Nat → List α → M (Buf α) Unit
  | _, [] => pure ()
  | i, a :: l => do
    Buf.spareWrite c i a
    spareWrites (i + 1) l

namespace Vec

/-- `spare_len` (vec.rs 182-185). -/
def spareLen : M (VSt α) Nat := onBuf c (Buf.spareLen c)

/-- `is_full` (vec.rs 413-416). -/
def isFull : M (VSt α) Bool := onBuf c Buf.isFull

/-- Writing into `spare_capacity_mut` (vec.rs 173-180). -/
def spareWrites (l : List α) : M (VSt α) Unit := onBuf c (Buf.spareWrites c 0 l)

/-- `set_len` (vec.rs 121-125). -/
def setLen (k : Nat) : M (VSt α) Unit := onBuf c (Buf.setLen c k)

end Vec

namespace Small

/-- `spare_len` (small_vec.rs 373). -/
def spareLen : M (SSt α) Nat := onAny c (Buf.spareLen c)

/-- `is_full` (small_vec.rs 363). -/
def isFull : M (SSt α) Bool := onAny c Buf.isFull

/-- Writing into `spare_capacity_mut` (small_vec.rs 600-607). -/
def spareWrites (l : List α) : M (SSt α) Unit := onAny c (Buf.spareWrites c 0 l)

end Small
end Lokky
