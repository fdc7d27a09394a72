/-!
# Specification of texts

A text is a list of characters. `utf8 t` is its UTF-8 encoding (`String.utf8EncodeChar` is the
encoding of one character in Lean's core library), `utf16 t` its UTF-16 encoding.
-/

namespace Lokky.Spec

/-- The UTF-8 encoding of a text. -/
def utf8 (t : List Char) : List UInt8 := t.flatMap String.utf8EncodeChar

/-- The UTF-16 encoding of a character: one unit, or a pair of surrogates. -/
def utf16Char (ch : Char) : List UInt16 :=
  let v := ch.val.toNat
  if v < 0x10000 then [.ofNat v]
  else [.ofNat (0xd800 + (v - 0x10000) / 0x400), .ofNat (0xdc00 + (v - 0x10000) % 0x400)]

/-- The UTF-16 encoding of a text. -/
def utf16 (t : List Char) : List UInt16 := t.flatMap utf16Char

/-- Every surrogate is paired: high surrogates are directly followed by a low one, and low ones only
occur there. -/
inductive Paired : List UInt16 → Prop
  | nil : Paired []
  | plain {u us} : u.toNat < 0xd800 ∨ 0xe000 ≤ u.toNat → Paired us → Paired (u :: us)
  | pair {u v us} : 0xd800 ≤ u.toNat → u.toNat < 0xdc00 → 0xdc00 ≤ v.toNat → v.toNat < 0xe000 →
      Paired us → Paired (u :: v :: us)

/-- The text splits as `p ++ q` at byte offset `i`. -/
def SplitsAt (t : List Char) (i : Nat) (p q : List Char) : Prop :=
  t = p ++ q ∧ (utf8 p).length = i

/-- Byte offset `i` lies between two characters (or at an end) of the text. -/
def Boundary (t : List Char) (i : Nat) : Prop := ∃ p q, SplitsAt t i p q

end Lokky.Spec
