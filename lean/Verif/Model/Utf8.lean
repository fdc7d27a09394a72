/-!
# The parts of `core::str` and `core::char` that `String` uses

These are not in /repo; they are modelled from the source of the Rust core library
(`core/src/str/validations.rs`, `core/src/str/mod.rs`, `core/src/char/methods.rs`,
`core/src/char/decode.rs`). Bit masks and shifts are written with `/` and `%`. /repo/src/string.rs
uses them in the lines cited below. `char::encode_utf8` (used in string.rs 129, 176, 289, 416) is
Lean's `String.utf8EncodeChar`.
-/

namespace Lokky.Utf8

/-- `char::len_utf8` (used in string.rs 125, 136, 158, 274, 291). -/
def lenUtf8 (ch : Char) : Nat :=
  let v := ch.val.toNat
  if v < 0x80 then 1 else if v < 0x800 then 2 else if v < 0x10000 then 3 else 4

/-- What a step of the `Chars` iterator gives: the end, a character, or - if the bytes are not valid
UTF-8 - undefined behaviour. -/
inductive Step
  | fin
  | ch (c : Char)
  | bad
deriving DecidableEq, Repr

/-- `char::from_u32_unchecked`: undefined unless the number is a Unicode scalar value. -/
def Step.ofNat (n : Nat) : Step :=
  if h : n.isValidChar then .ch (Char.ofNatAux n h) else .bad

/-- `chars().next()` (`next_code_point`; used in string.rs 153, 273). -/
def next : List UInt8 → Step
  | [] => .fin
  | x :: r =>
    let x := x.toNat
    if x < 128 then .ofNat x
    else match r with
      | [] => .bad
      | y :: r =>
        let y := y.toNat % 64
        if x < 0xe0 then .ofNat (x % 32 * 64 + y)
        else match r with
          | [] => .bad
          | z :: r =>
            let yz := y * 64 + z.toNat % 64
            if x < 0xf0 then .ofNat (x % 32 * 4096 + yz)
            else match r with
              | [] => .bad
              | w :: _ => .ofNat (x % 8 * 262144 + (yz * 64 + w.toNat % 64))

/-- `utf8_is_cont_byte`. -/
def isCont (b : UInt8) : Bool := 128 ≤ b.toNat && b.toNat < 192

/-- `next_code_point_reverse`, on the bytes in reverse order. -/
def nextBackRev : List UInt8 → Step
  | [] => .fin
  | w :: r =>
    if w.toNat < 128 then .ofNat w.toNat
    else match r with
      | [] => .bad
      | z :: r =>
        if !isCont z then .ofNat (z.toNat % 32 * 64 + w.toNat % 64)
        else match r with
          | [] => .bad
          | y :: r =>
            if !isCont y then
              .ofNat ((y.toNat % 16 * 64 + z.toNat % 64) * 64 + w.toNat % 64)
            else match r with
              | [] => .bad
              | x :: _ =>
                .ofNat (((x.toNat % 8 * 64 + y.toNat % 64) * 64 + z.toNat % 64) * 64
                  + w.toNat % 64)

/-- `chars().rev().next()` (used in string.rs 135). -/
def nextBack (l : List UInt8) : Step := nextBackRev l.reverse

/-- `str::is_char_boundary` (used in string.rs 173, 182, 204, 212 and by the indexing of 153). -/
def isCharBoundary (l : List UInt8) (i : Nat) : Bool :=
  if i = 0 then true
  else match l[i]? with
    | none => i = l.length
    | some b => b.toNat < 128 || 192 ≤ b.toNat

/-- `run_utf8_validation` (`str::from_utf8`, used in string.rs 227), byte by byte. -/
def validate : List UInt8 → Bool
  | [] => true
  | x :: r =>
    let x := x.toNat
    if x < 128 then validate r
    else if 0xc2 ≤ x ∧ x ≤ 0xdf then
      match r with
      | y :: r => isCont y && validate r
      | _ => false
    else if 0xe0 ≤ x ∧ x ≤ 0xef then
      match r with
      | y :: z :: r =>
        (if x = 0xe0 then 0xa0 ≤ y.toNat && y.toNat ≤ 0xbf
          else if x = 0xed then 0x80 ≤ y.toNat && y.toNat ≤ 0x9f
          else isCont y) && isCont z && validate r
      | _ => false
    else if 0xf0 ≤ x ∧ x ≤ 0xf4 then
      match r with
      | y :: z :: w :: r =>
        (if x = 0xf0 then 0x90 ≤ y.toNat && y.toNat ≤ 0xbf
          else if x = 0xf4 then 0x80 ≤ y.toNat && y.toNat ≤ 0x8f
          else isCont y) && isCont z && isCont w && validate r
      | _ => false
    else false

/-- `decode_utf16` (used in string.rs 237) up to its first error: the characters before it, and
whether there was none. -/
def decode16 : List UInt16 → List Char × Bool
  | [] => ([], true)
  | u :: r =>
    let u := u.toNat
    if h : u < 0xd800 ∨ (0xdfff < u ∧ u < 0x110000) then
      let (cs, ok) := decode16 r
      (Char.ofNatAux u h :: cs, ok)
    else if 0xdc00 ≤ u then ([], false)
    else match r with
      | [] => ([], false)
      | v :: r =>
        let v := v.toNat
        if v < 0xdc00 ∨ 0xdfff < v then ([], false)
        else
          let (cs, ok) := decode16 r
          (Char.ofNat (u % 0x400 * 0x400 + v % 0x400 + 0x10000) :: cs, ok)

end Lokky.Utf8
