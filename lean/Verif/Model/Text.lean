import Verif.Model.VecCmp
import Verif.Model.Utf8

/-!
# `String` (/repo/src/string.rs)

A `String` is its `Vec<u8>` (string.rs 17-19 and 41-107: `new`, `with_capacity`, `reserve…`,
`shrink…`, `capacity`, `len`, `is_empty`, `as_bytes` forward to it), so the state is that of a vector
of `UInt8`. `&str` arguments are lists of bytes; that they are valid UTF-8 is a hypothesis of the
theorems. A `str` that is not valid UTF-8 is not undefined behaviour by itself, only decoding it is.
-/

namespace Lokky
open Utf8

/-- What the configuration must say about `u8`: one byte, no destructor, `clone` copies. -/
structure Bytes (c : Cfg UInt8) : Prop where
  size : c.size = 1
  noPanic : ∀ b, c.dropPanics b = false
  clone : ∀ k b, c.clone k b = some b

/-- The ranges a `String` can be indexed with (string.rs 533, 542, 551, 560, 569, 578): `a..b`, `..b`,
`a..`, `..`, `a..=b`, `..=b`. -/
inductive StrRange
  | range (a b : Nat)
  | to (b : Nat)
  | from (a : Nat)
  | full
  | incl (a b : Nat)
  | toIncl (b : Nat)
  deriving DecidableEq

namespace Str
variable (c : Cfg UInt8)

/-- `uninit_bits` (string.rs 660-664): four uninitialised bytes passed by value. By the letter this
is undefined behaviour (`strict`); otherwise it just gives arbitrary bytes, which the callers
overwrite before reading. -/
def uninitBits {σ : Type} : M σ Unit := fun s => if c.strict then .ub .uninit else .ok () s

/-- `as_str`/`deref` (string.rs 113-121, 328-342): the bytes. -/
def asStr : M (VSt UInt8) (List UInt8) := Vec.asSlice c

/-- `push` (string.rs 123-131); `write_char` (653-657) is the same. -/
def push (ch : Char) : M (VSt UInt8) Unit :=
  if lenUtf8 ch = 1 then Vec.push c (.ofNat ch.val.toNat)
  else do
    uninitBits c
    Vec.extendFromSlice c (String.utf8EncodeChar ch)

/-- `pop` (string.rs 134-139). -/
def pop : M (VSt UInt8) (Option Char) := do
  match nextBack (← asStr c) with
  | .fin => pure none
  | .bad => M.undef .contract
  | .ch x => do
    let n ← Vec.len
    let n ← usub c n (lenUtf8 x)
    Vec.onBuf c (Buf.setLen c n)
    pure (some x)

/-- `push_str` (string.rs 142-144); `+=` (639-644) and `write_str` (647-651) are the same. -/
def pushStr (l : List UInt8) : M (VSt UInt8) Unit := Vec.extendFromSlice c l

/-- `clear` (string.rs 147-149). -/
def clear : M (VSt UInt8) Unit := Vec.clear c

/-- `remove` (string.rs 152-169). Indexing `self[idx..]` panics unless `idx` is a boundary. -/
def remove (idx : Nat) : M (VSt UInt8) Char := do
  let l ← asStr c
  assert (isCharBoundary l idx = true)
  match next (l.drop idx) with
  | .fin => M.boom
  | .bad => M.undef .contract
  | .ch x => do
    let nxt ← uadd c idx (lenUtf8 x)
    let n ← Vec.len
    let k ← usub c n nxt
    let d ← usub c nxt idx
    let m ← usub c n d
    Vec.onBuf c do
      Buf.copy c nxt idx k
      Buf.setLen c m
    pure x

/-- `insert_bytes` (string.rs 187-199). -/
def insertBytes (idx : Nat) (bytes : List UInt8) : M (VSt UInt8) Unit := do
  let n ← Vec.len
  let amt := bytes.length
  Vec.reserve c amt
  let dst ← uadd c idx amt
  let k ← usub c n idx
  let m ← uadd c n amt
  Vec.onBuf c do
    Buf.copy c idx dst k
    Buf.copyFrom c (bytes.map some) idx amt
    Buf.setLen c m

/-- `insert` (string.rs 172-178). -/
def insert (idx : Nat) (ch : Char) : M (VSt UInt8) Unit := do
  let l ← asStr c
  assert (isCharBoundary l idx = true)
  uninitBits c
  insertBytes c idx (String.utf8EncodeChar ch)

/-- `insert_str` (string.rs 181-185). -/
def insertStr (idx : Nat) (bytes : List UInt8) : M (VSt UInt8) Unit := do
  let l ← asStr c
  assert (isCharBoundary l idx = true)
  insertBytes c idx bytes

/-- `truncate` (string.rs 202-207). -/
def truncate (k : Nat) : M (VSt UInt8) Unit := do
  let n ← Vec.len
  if k < n then do
    let l ← asStr c
    assert (isCharBoundary l k = true)
    Vec.truncate c k
  else pure ()

/-- `split_off` (string.rs 211-215). -/
def splitOff (k : Nat) : M (VSt UInt8) VecH := do
  let l ← asStr c
  assert (isCharBoundary l k = true)
  Vec.splitOff c k

/-- Dropping a `String` drops its vector. -/
def dropLocal (v : VecH) : M (World UInt8) Unit := do
  let _ ← withLocal v (pure ()) (Vec.drop c)
  pure ()

/-- `from_utf8` (string.rs 226-231); `none` is `Err`, which drops the vector. -/
def fromUtf8 (v : VecH) : M (World UInt8) (Option VecH) := do
  let (ok, v) ← withLocal v (Vec.drop c) (do
    let l ← asStr c
    pure (validate l) : M (VSt UInt8) Bool)
  if ok then pure (some v)
  else do
    dropLocal c v
    pure none

/-- `push` of every character (string.rs 237-243, 452-454, 487-489). -/
def pushAll : List Char → M (VSt UInt8) Unit
  | [] => pure ()
  | ch :: t => do
    push c ch
    pushAll t

/-- `from_utf16` (string.rs 233-245); `none` is `Err`, which drops the string built so far. -/
def fromUtf16 (units : List UInt16) : M (World UInt8) (Option VecH) := do
  let v ← Vec.withCapacity c units.length
  let (_, v) ← withLocal v (Vec.drop c) (pushAll c (decode16 units).1)
  if (decode16 units).2 then pure (some v)
  else do
    dropLocal c v
    pure none

/-- Dropping the guard `SetLenOnDrop` of `retain` (string.rs 258-264). -/
def setLenOnDrop (idx del : Nat) : M (VSt UInt8) Unit := do
  let k ← usub c idx del
  let n ← Vec.len
  debugAssert c (k ≤ n)
  Vec.onBuf c (Buf.setLen c k)

/-- Moving a kept character down over the deleted bytes (string.rs 283-296). -/
def moveDown (x : Char) (idx del : Nat) : M (VSt UInt8) Unit :=
  if 0 < del then do
    let dst ← usub c idx del
    Vec.onBuf c (Buf.copyFrom c ((String.utf8EncodeChar x).map some) dst (lenUtf8 x))
  else pure ()

/-- Loop of `retain` (string.rs 273-300). `f k` is the `k`-th call of the predicate, `none` = it
panics and unwinding drops the guard. Every round advances by at least one byte, so `fuel`, initially
the number of bytes, does not run out before `idx < len` fails. -/
def retainLoop (f : Nat → Char → Option Bool) (n : Nat) :
    (fuel k idx del : Nat) → M (VSt UInt8) Unit
  | 0, _, idx, del => setLenOnDrop c idx del
  | fuel + 1, k, idx, del =>
    if idx < n then do
      let l ← asStr c
      match next (l.drop idx) with
      | .ch x =>
        match f k x with
        | none => do
          setLenOnDrop c idx del
          M.boom
        | some false => do
          let del ← uadd c del (lenUtf8 x)
          let idx ← uadd c idx (lenUtf8 x)
          retainLoop f n fuel (k + 1) idx del
        | some true => do
          moveDown c x idx del
          let idx ← uadd c idx (lenUtf8 x)
          retainLoop f n fuel (k + 1) idx del
      | _ => M.undef .contract
    else setLenOnDrop c idx del

/-- `retain` (string.rs 248-303). -/
def retain (f : Nat → Char → Option Bool) : M (VSt UInt8) Unit := do
  let n ← Vec.len
  retainLoop c f n n 0 0 0

/-- `clone` (string.rs 370-376) of a string with these bytes. -/
def cloneFrom (l : List UInt8) : M (World UInt8) VecH := Vec.cloneFrom c l

/-- `==` (string.rs 378-382): that of the vectors. -/
def eq : M (St (VecH × VecH) UInt8) Bool := Vec.eq c (· == ·)

/-- `partial_cmp` and `cmp` (string.rs 386-396): that of the vectors. -/
def cmp : M (St (VecH × VecH) UInt8) (Option Ordering) :=
  Vec.cmp c fun a b => some (compare a.toNat b.toNat)

/-- `hash` (string.rs 356-360): that of `str` (core), which feeds all bytes, then `0xff`. -/
def hash {H : Type} (feed : H → UInt8 → H) (h : H) : M (VSt UInt8) H := do
  let l ← asStr c
  pure (feed (l.foldl feed h) 0xff)

/-- `as_mut_vec` (string.rs 108-111), a safe function: runs `m` on the vector of the string. -/
def asMutVec {β : Type} (m : M (VSt UInt8) β) : M (VSt UInt8) β := m

/-- Indexing a `str` with `a..b` (core): panics unless `a ≤ b` and both are character boundaries. -/
def slice (l : List UInt8) (a b : Nat) : M (VSt UInt8) (List UInt8) := do
  assert (a ≤ b ∧ isCharBoundary l a = true ∧ isCharBoundary l b = true)
  pure ((l.drop a).take (b - a))

/-- `Index` with the six kinds of ranges (string.rs 533-585); `IndexMut` (587-627) gives the same part
of the string. For the inclusive ranges core panics if the end is `usize::MAX`. -/
def index (r : StrRange) : M (VSt UInt8) (List UInt8) := do
  let l ← asStr c
  match r with
  | .range a b => slice l a b
  | .to b => slice l 0 b
  | .from a => do
    assert (isCharBoundary l a = true)
    pure (l.drop a)
  | .full => pure l
  | .incl a b => do
    assert (b ≠ c.usizeMax)
    slice l a (b + 1)
  | .toIncl b => do
    assert (b ≠ c.usizeMax)
    slice l 0 (b + 1)

/-- `From<&str>` (string.rs 421-426), `FromStr` (362-368), `From<&String>` (428-432). -/
def fromStr (l : List UInt8) : M (World UInt8) VecH := Vec.fromSlice c l

/-- `From<char>` (string.rs 412-419). -/
def fromChar (ch : Char) : M (World UInt8) VecH := do
  uninitBits c
  Vec.fromSlice c (String.utf8EncodeChar ch)

/-- `From<Box<str>>` (string.rs 434-438) with `From<Box<str>> for Vec<u8>` (vec.rs 1041-1050). -/
def ofBoxStr (b : Vec.BoxSliceH) : VecH := Vec.ofBoxedSlice b

/-- `Extend<char>` (string.rs 448-456) and `Extend<&char>` (483-491). -/
def extendChars (it : Iter Char) : M (VSt UInt8) Unit := do
  Vec.reserve c it.hint
  pushAll c it.items
  if it.boom then M.boom else pure ()

/-- `push_str` of every item (string.rs 469-471). -/
def pushStrs : List (List UInt8) → M (VSt UInt8) Unit
  | [] => pure ()
  | l :: ls => do
    pushStr c l
    pushStrs ls

/-- `Extend<&str>` (string.rs 466-473). -/
def extendStrs (it : Iter (List UInt8)) : M (VSt UInt8) Unit := do
  pushStrs c it.items
  if it.boom then M.boom else pure ()

/-- `FromIterator<char>` (string.rs 440-446) and `FromIterator<&char>` (475-481). -/
def fromChars (it : Iter Char) : M (World UInt8) VecH := do
  let v ← Vec.new
  let (_, v) ← withLocal v (Vec.drop c) (extendChars c it)
  pure v

/-- `FromIterator<&str>` (string.rs 458-464). -/
def fromStrs (it : Iter (List UInt8)) : M (World UInt8) VecH := do
  let v ← Vec.new
  let (_, v) ← withLocal v (Vec.drop c) (extendStrs c it)
  pure v

end Str
end Lokky
