import Verif.Spec.Text
import Verif.Spec.Lists
import Verif.Spec.Scan

/-!
# Specification of programs using strings, on lists of characters

Nothing in this file refers to the model of the code.
-/

namespace Lokky.Spec

/-- Calls on one string. Offsets are in bytes; `retain f` calls `f k ch` the `k`-th time. -/
inductive TextOp where
  | push (ch : Char)
  | pushStr (x : List Char)
  | pop
  | insert (i : Nat) (ch : Char)
  | insertStr (i : Nat) (x : List Char)
  | remove (i : Nat)
  | truncate (k : Nat)
  | clear
  | retain (f : Nat → Char → Option Bool)
  | extendChars (it : Items Char)
  | extendStrs (it : Items (List Char))
  | reserve (k : Nat)
  | reserveExact (k : Nat)
  | read
  | len

/-- Calls of a client program; strings are numbered in the order of their creation. `add x y` is
`x + &y`, kept under the number of `x`; `extendStrings x ys` moves the strings `ys` into an iterator
that may panic at its end; `collectStrings` collects such an iterator into a new string. -/
inductive TextCmd where
  | new
  | withCapacity (n : Nat)
  | fromUtf8 (bytes : List UInt8)
  | fromUtf16 (units : List UInt16)
  | collectChars (it : Items Char)
  | collectStrs (it : Items (List Char))
  | clone (x : Nat)
  | on (x : Nat) (o : TextOp)
  | add (x y : Nat)
  | extendStrings (x : Nat) (ys : List Nat) (boom : Bool)
  | collectStrings (ys : List Nat) (boom : Bool)
  | drop (x : Nat)

/-- What a call returns. -/
inductive TextOut where
  | unit
  | opt (ch : Option Char)
  | char (ch : Char)
  | bytes (l : List UInt8)
  | nat (n : Nat)
  | err
deriving DecidableEq

/-- What the client sees of a call: the returned value (`none`: it panicked), and whether the
allocator refused a request during the call. -/
structure TextEvent where
  out : Option TextOut
  refused : Bool
deriving DecidableEq

/-- Normal return. -/
abbrev TextEvent.ret (o : TextOut) : TextEvent := ⟨some o, false⟩
/-- A panic not caused by the allocator. -/
abbrev TextEvent.panic : TextEvent := ⟨none, false⟩
/-- A panic caused by the allocator. -/
abbrev TextEvent.refuse : TextEvent := ⟨none, true⟩

/-- `TextEdit o ev t t'`: calling `o` on the text `t` may be seen as `ev`, leaving `t'`. -/
inductive TextEdit : TextOp → TextEvent → List Char → List Char → Prop
  | push (ch t) : TextEdit (.push ch) (.ret .unit) t (t ++ [ch])
  | pushRefused (ch t) : TextEdit (.push ch) .refuse t t
  | pushStr (x t) : TextEdit (.pushStr x) (.ret .unit) t (t ++ x)
  | pushStrRefused (x t) : TextEdit (.pushStr x) .refuse t t
  | pop (ch t) : TextEdit .pop (.ret (.opt (some ch))) (t ++ [ch]) t
  | popNone : TextEdit .pop (.ret (.opt none)) [] []
  | insert (i ch p q) : (utf8 p).length = i →
      TextEdit (.insert i ch) (.ret .unit) (p ++ q) (p ++ ch :: q)
  | insertBad (i ch t) : ¬ Boundary t i → TextEdit (.insert i ch) .panic t t
  | insertRefused (i ch t) : Boundary t i → TextEdit (.insert i ch) .refuse t t
  | insertStr (i x p q) : (utf8 p).length = i →
      TextEdit (.insertStr i x) (.ret .unit) (p ++ q) (p ++ x ++ q)
  | insertStrBad (i x t) : ¬ Boundary t i → TextEdit (.insertStr i x) .panic t t
  | insertStrRefused (i x t) : Boundary t i → TextEdit (.insertStr i x) .refuse t t
  | remove (i ch p q) : (utf8 p).length = i →
      TextEdit (.remove i) (.ret (.char ch)) (p ++ ch :: q) (p ++ q)
  | removeBad (i t) : ¬ Boundary t i ∨ (utf8 t).length ≤ i → TextEdit (.remove i) .panic t t
  | truncate (k p q) : (utf8 p).length = k → TextEdit (.truncate k) (.ret .unit) (p ++ q) p
  | truncateLong (k t) : (utf8 t).length ≤ k → TextEdit (.truncate k) (.ret .unit) t t
  | truncateBad (k t) : ¬ Boundary t k → k < (utf8 t).length → TextEdit (.truncate k) .panic t t
  | clear (t) : TextEdit .clear (.ret .unit) t []
  | retain (f t) : (answers f 0 t).length = t.length →
      TextEdit (.retain f) (.ret .unit) t (accepted (answers f 0 t))
  | retainPanic (f t) : (answers f 0 t).length < t.length →
      TextEdit (.retain f) .panic t (accepted (answers f 0 t))
  | extendChars (it t) : it.boom = false →
      TextEdit (.extendChars it) (.ret .unit) t (t ++ it.items)
  | extendCharsPanic (it t) : it.boom = true →
      TextEdit (.extendChars it) .panic t (t ++ it.items)
  | extendCharsRefused (it p q t) : it.items = p ++ q →
      TextEdit (.extendChars it) .refuse t (t ++ p)
  | extendStrs (it t) : it.boom = false →
      TextEdit (.extendStrs it) (.ret .unit) t (t ++ it.items.flatten)
  | extendStrsPanic (it t) : it.boom = true →
      TextEdit (.extendStrs it) .panic t (t ++ it.items.flatten)
  | extendStrsRefused (it p q t) : it.items = p ++ q →
      TextEdit (.extendStrs it) .refuse t (t ++ p.flatten)
  | reserve (k t) : TextEdit (.reserve k) (.ret .unit) t t
  | reserveRefused (k t) : TextEdit (.reserve k) .refuse t t
  | reserveExact (k t) : TextEdit (.reserveExact k) (.ret .unit) t t
  | reserveExactRefused (k t) : TextEdit (.reserveExact k) .refuse t t
  | read (t) : TextEdit .read (.ret (.bytes (utf8 t))) t t
  | len (t) : TextEdit .len (.ret (.nat (utf8 t).length)) t t

/-- The texts of all strings; `none`: dropped or moved away. -/
abbrev Texts := List (Option (List Char))

/-- Moving the strings `ys` away. -/
def Texts.takeAll (T : Texts) : List Nat → Texts
  | [] => T
  | y :: ys => Texts.takeAll (List.set T y none) ys

/-- `TextStep cmd ev T T'`: the call may be seen as `ev` and changes the texts from `T` to `T'`. -/
inductive TextStep : TextCmd → TextEvent → Texts → Texts → Prop
  | new (T) : TextStep .new (.ret .unit) T (T ++ [some []])
  | withCapacity (n T) : TextStep (.withCapacity n) (.ret .unit) T (T ++ [some []])
  | withCapacityRefused (n T) : TextStep (.withCapacity n) .refuse T T
  | fromUtf8 (t T) : TextStep (.fromUtf8 (utf8 t)) (.ret .unit) T (T ++ [some t])
  | fromUtf8Err (l T) : (∀ t, l ≠ utf8 t) → TextStep (.fromUtf8 l) (.ret .err) T T
  | fromUtf8Refused (l T) : TextStep (.fromUtf8 l) .refuse T T
  | fromUtf16 (t T) : TextStep (.fromUtf16 (utf16 t)) (.ret .unit) T (T ++ [some t])
  | fromUtf16Err (l T) : (∀ t, l ≠ utf16 t) → TextStep (.fromUtf16 l) (.ret .err) T T
  | fromUtf16Refused (l T) : TextStep (.fromUtf16 l) .refuse T T
  | collectChars (it T) : it.boom = false →
      TextStep (.collectChars it) (.ret .unit) T (T ++ [some it.items])
  | collectCharsPanic (it T) : it.boom = true → TextStep (.collectChars it) .panic T T
  | collectCharsRefused (it T) : TextStep (.collectChars it) .refuse T T
  | collectStrs (it T) : it.boom = false →
      TextStep (.collectStrs it) (.ret .unit) T (T ++ [some it.items.flatten])
  | collectStrsPanic (it T) : it.boom = true → TextStep (.collectStrs it) .panic T T
  | collectStrsRefused (it T) : TextStep (.collectStrs it) .refuse T T
  | clone (x t T) : T[x]? = some (some t) → TextStep (.clone x) (.ret .unit) T (T ++ [some t])
  | cloneRefused (x T) : TextStep (.clone x) .refuse T T
  | on (x o ev t t' T) : T[x]? = some (some t) → TextEdit o ev t t' →
      TextStep (.on x o) ev T (T.set x (some t'))
  | add (x y t u T) : T[x]? = some (some t) → T[y]? = some (some u) →
      TextStep (.add x y) (.ret .unit) T (T.set x (some (t ++ u)))
  | addRefused (x y T) : TextStep (.add x y) .refuse T (T.set x none)
  | extendStrings (x ys t) (us : List (List Char)) (T) : T[x]? = some (some t) →
      ys.map (T[·]?) = us.map (fun u => some (some u)) →
      TextStep (.extendStrings x ys false) (.ret .unit) T
        (Texts.takeAll (T.set x (some (t ++ us.flatten))) ys)
  | extendStringsPanic (x ys t) (us : List (List Char)) (T) : T[x]? = some (some t) →
      ys.map (T[·]?) = us.map (fun u => some (some u)) →
      TextStep (.extendStrings x ys true) .panic T
        (Texts.takeAll (T.set x (some (t ++ us.flatten))) ys)
  | extendStringsRefused (x ys boom t) (us p q : List (List Char)) (T) : T[x]? = some (some t) →
      ys.map (T[·]?) = us.map (fun u => some (some u)) → us = p ++ q →
      TextStep (.extendStrings x ys boom) .refuse T
        (Texts.takeAll (T.set x (some (t ++ p.flatten))) ys)
  | collectStrings (ys) (us : List (List Char)) (T : Texts) :
      ys.map (T[·]?) = us.map (fun u => some (some u)) →
      TextStep (.collectStrings ys false) (.ret .unit) T
        (Texts.takeAll (T ++ [some us.flatten]) ys)
  | collectStringsPanic (ys T) :
      TextStep (.collectStrings ys true) .panic T (Texts.takeAll (T ++ [none]) ys)
  | collectStringsRefused (ys boom T) :
      TextStep (.collectStrings ys boom) .refuse T (Texts.takeAll (T ++ [none]) ys)
  | drop (x t T) : T[x]? = some (some t) → TextStep (.drop x) (.ret .unit) T (T.set x none)

/-- The calls a client program made, with what it saw. -/
abbrev TextHistory := List (TextCmd × TextEvent)

/-- The texts a history may lead to, starting without strings. -/
inductive TextRuns : TextHistory → Texts → Prop
  | start : TextRuns [] []
  | step {h T cmd ev T'} : TextRuns h T → TextStep cmd ev T T' → TextRuns (h ++ [(cmd, ev)]) T'

end Lokky.Spec
