import Verif.Model.Text
import Verif.Model.VecPool
import Verif.Spec.TextPrograms

/-!
# Client programs using any number of `String`s

Not code of the crate, except for `Extend<String>`: the way a client calls it.
-/

namespace Lokky
open Spec

/-- A call that returns nothing. -/
def tquiet {σ : Type} (m : M σ Unit) : M σ TextOut := do m; pure .unit

/-- Calls on one string (string.rs, the functions named). -/
def runTextOp (c : Cfg UInt8) : TextOp → M (VSt UInt8) TextOut
  | .push ch => tquiet (Str.push c ch)
  | .pushStr x => tquiet (Str.pushStr c (utf8 x))
  | .pop => do pure (.opt (← Str.pop c))
  | .insert i ch => tquiet (Str.insert c i ch)
  | .insertStr i x => tquiet (Str.insertStr c i (utf8 x))
  | .remove i => do pure (.char (← Str.remove c i))
  | .truncate k => tquiet (Str.truncate c k)
  | .clear => tquiet (Str.clear c)
  | .retain f => tquiet (Str.retain c f)
  | .extendChars it => tquiet (Str.extendChars c ⟨it.items, it.hint, it.boom⟩)
  | .extendStrs it => tquiet (Str.extendStrs c ⟨it.items.map utf8, it.hint, it.boom⟩)
  | .reserve k => tquiet (Vec.reserve c k)
  | .reserveExact k => tquiet (Vec.reserveExact c k)
  | .read => do pure (.bytes (← Str.asStr c))
  | .len => do pure (.nat (← Vec.len))

/-- Run a constructor; the new string joins the pool. -/
def tcreating (m : M (World UInt8) VecH) : M (Pool UInt8) TextOut := fun P =>
  match m P.w with
  | .ok v w => .ok .unit ⟨P.vecs ++ [some v], w⟩
  | .panic w => .panic ⟨P.vecs, w⟩
  | .abort => .abort
  | .ub u => .ub u

/-- Run a constructor that returns a `Result`. -/
def tcreatingOpt (m : M (World UInt8) (Option VecH)) : M (Pool UInt8) TextOut := fun P =>
  match m P.w with
  | .ok (some v) w => .ok .unit ⟨P.vecs ++ [some v], w⟩
  | .ok none w => .ok .err ⟨P.vecs, w⟩
  | .panic w => .panic ⟨P.vecs, w⟩
  | .abort => .abort
  | .ub u => .ub u

/-- Drop string `x`. -/
def dropVec (c : Cfg UInt8) (x : Nat) : M (Pool UInt8) Unit := fun P =>
  match P.vecs[x]? with
  | some (some v) =>
    match Vec.drop c ⟨v, P.w⟩ with
    | .ok _ s => .ok () ⟨P.vecs.set x none, s.w⟩
    | .panic s => .panic ⟨P.vecs.set x none, s.w⟩
    | .abort => .abort
    | .ub u => .ub u
  | _ => .ok () P

/-- Drop strings, in order. -/
def dropAll (c : Cfg UInt8) : List Nat → M (Pool UInt8) Unit
  | [] => pure ()
  | y :: ys => do
    dropVec c y
    dropAll c ys

/-- `for s in iter { self.push_str(&s) }` (string.rs 512-514). Each item is dropped at the end of its
round; if the string cannot grow, unwinding drops it and the items still in the iterator. -/
def extendLoop (c : Cfg UInt8) (x : Nat) (boom : Bool) : List Nat → M (Pool UInt8) Unit
  | [] => if boom then M.boom else pure ()
  | y :: ys => do
    let l ← onVecs y (Str.asStr c) []
    (onVecs x (Str.pushStr c l) ()).onUnwind (dropAll c (y :: ys))
    dropVec c y
    extendLoop c x boom ys

/-- `self.vec = s.vec` (string.rs 508): the old vector is dropped, the other one moved in. -/
def takeVec (c : Cfg UInt8) (x y : Nat) : M (Pool UInt8) Unit := do
  dropVec c x
  M.modify fun P => ⟨(P.vecs.set x (P.vecs[y]?.getD none)).set y none, P.w⟩

/-- `Extend<String>` (string.rs 501-516). -/
def extendStrings (c : Cfg UInt8) (x : Nat) (ys : List Nat) (boom : Bool) : M (Pool UInt8) Unit := do
  let cap ← onVecs x (M.gets fun s => Vec.capacity c s.self) 0
  match ys with
  | [] => extendLoop c x boom []
  | y :: ys =>
    if cap = 0 then do
      takeVec c x y
      extendLoop c x boom ys
    else extendLoop c x boom (y :: ys)

/-- `FromIterator<String>` (string.rs 493-499): on unwinding the new string is dropped. -/
def collectStrings (c : Cfg UInt8) (ys : List Nat) (boom : Bool) : M (Pool UInt8) Unit := do
  let x ← M.gets fun P => P.vecs.length
  let _ ← tcreating Vec.new
  (extendStrings c x ys boom).onUnwind (dropVec c x)

/-- `x + &y` (string.rs 629-637): on unwinding `x`, owned by the call, is dropped. -/
def addStr (c : Cfg UInt8) (x y : Nat) : M (Pool UInt8) Unit := do
  let l ← onVecs y (Str.asStr c) []
  (onVecs x (Str.pushStr c l) ()).onUnwind (dropVec c x)

/-- A client makes a `Vec<u8>` and passes it to `String::from_utf8`. -/
def makeUtf8 (c : Cfg UInt8) (l : List UInt8) : M (World UInt8) (Option VecH) := do
  let v ← Vec.cloneFrom c l
  Str.fromUtf8 c v

/-- Calls of a client program. -/
def runText (c : Cfg UInt8) : TextCmd → M (Pool UInt8) TextOut
  | .new => tcreating Vec.new
  | .withCapacity n => tcreating (Vec.withCapacity c n)
  | .fromUtf8 l => tcreatingOpt (makeUtf8 c l)
  | .fromUtf16 l => tcreatingOpt (Str.fromUtf16 c l)
  | .collectChars it => tcreating (Str.fromChars c ⟨it.items, it.hint, it.boom⟩)
  | .collectStrs it => tcreating (Str.fromStrs c ⟨it.items.map utf8, it.hint, it.boom⟩)
  | .clone x => do
    let l ← onVecs x (Str.asStr c) []
    tcreating (Str.cloneFrom c l)
  | .on x o => onVecs x (runTextOp c o) .unit
  | .add x y => tquiet (addStr c x y)
  | .extendStrings x ys boom => tquiet (extendStrings c x ys boom)
  | .collectStrings ys boom => tquiet (collectStrings c ys boom)
  | .drop x => tquiet (dropVec c x)

/-- Where the letter of the rules for uninitialised memory counts, only one-byte characters may be
pushed (C82). -/
def PushOk (c : Cfg UInt8) (ch : Char) : Prop := c.strict = true → Utf8.lenUtf8 ch = 1

instance {c : Cfg UInt8} {ch : Char} : Decidable (PushOk c ch) := by unfold PushOk; infer_instance

/-- The room `reserve` asks for must be within the limits of `Layout`. -/
def RoomFits (c : Cfg UInt8) (cap len k : Nat) : Prop :=
  cap < len + k → c.Fits (max (max (len + k) (Vec.minNonZeroCap c)) (cap * 2))

instance {c : Cfg UInt8} {cap len k : Nat} : Decidable (RoomFits c cap len k) := by
  unfold RoomFits; infer_instance

/-- What a client must respect when calling `o` on a string of length `len` and capacity `cap`: sizes
within the byte limit of `Layout` and, where the letter of the rules for uninitialised memory counts,
no characters encoded through an uninitialised buffer (C82). -/
def Spec.TextOp.Legal (c : Cfg UInt8) (o : TextOp) (len cap : Nat) : Prop :=
  match o with
  | .push ch => PushOk c ch ∧ c.Fits (len + Utf8.lenUtf8 ch)
  | .pushStr x => c.Fits (len + (utf8 x).length)
  | .insert _ ch => c.strict = false ∧ RoomFits c cap len (Utf8.lenUtf8 ch)
  | .insertStr _ x => RoomFits c cap len (utf8 x).length
  | .extendChars it => (∀ ch ∈ it.items, PushOk c ch) ∧ RoomFits c cap len it.hint ∧
      c.Fits (len + (utf8 it.items).length)
  | .extendStrs it => c.Fits (len + (utf8 it.items.flatten).length)
  | .reserve k => RoomFits c cap len k
  | .reserveExact k => c.Fits (len + k)
  | _ => True

/-- The total length of some strings. -/
def totalLen (P : Pool UInt8) : List Nat → Nat
  | [] => 0
  | y :: ys => (match P.vecs[y]? with
    | some (some v) => v.len
    | _ => 0) + totalLen P ys

/-- The same for all calls; the strings named must exist (and be different where Rust's ownership
rules require it). -/
def Spec.TextCmd.Legal (c : Cfg UInt8) (P : Pool UInt8) : TextCmd → Prop
  | .new => True
  | .withCapacity n => c.Fits n
  | .fromUtf8 l => c.Fits l.length
  | .fromUtf16 l => c.Fits (3 * l.length) ∧ ∀ ch ∈ (Utf8.decode16 l).1, PushOk c ch
  | .collectChars it => (∀ ch ∈ it.items, PushOk c ch) ∧ RoomFits c 0 0 it.hint ∧
      c.Fits (utf8 it.items).length
  | .collectStrs it => c.Fits (utf8 it.items.flatten).length
  | .clone x => ∃ v, P.vecs[x]? = some (some v)
  | .on x o => ∃ v, P.vecs[x]? = some (some v) ∧ o.Legal c v.len v.cap
  | .add x y => x ≠ y ∧ ∃ v u, P.vecs[x]? = some (some v) ∧ P.vecs[y]? = some (some u) ∧
      c.Fits (v.len + u.len)
  | .extendStrings x ys _ => x ∉ ys ∧ ys.Nodup ∧ (∃ v, P.vecs[x]? = some (some v) ∧
      c.Fits (v.len + totalLen P ys)) ∧ ∀ y ∈ ys, ∃ v, P.vecs[y]? = some (some v)
  | .collectStrings ys _ => ys.Nodup ∧ c.Fits (totalLen P ys) ∧
      ∀ y ∈ ys, ∃ v, P.vecs[y]? = some (some v)
  | .drop x => ∃ v, P.vecs[x]? = some (some v)

/-- The outcome of a call as an event of the client's history. -/
inductive TextHappens (c : Cfg UInt8) (P : Pool UInt8) (cmd : TextCmd) :
    TextEvent → Pool UInt8 → Prop
  | ret {o P'} : runText c cmd P = .ok o P' →
      TextHappens c P cmd ⟨some o, P'.w.refusals != P.w.refusals⟩ P'
  | panic {P'} : runText c cmd P = .panic P' →
      TextHappens c P cmd ⟨none, P'.w.refusals != P.w.refusals⟩ P'

/-- A client program that caught every panic and went on: the history it saw and the state it
reached. -/
inductive TextReaches (c : Cfg UInt8) (P0 : Pool UInt8) : TextHistory → Pool UInt8 → Prop
  | start : TextReaches c P0 [] P0
  | step {h P cmd ev P'} : TextReaches c P0 h P → cmd.Legal c P → TextHappens c P cmd ev P' →
      TextReaches c P0 (h ++ [(cmd, ev)]) P'

/-- `Legal` as a test. -/
def Spec.TextOp.legal (c : Cfg UInt8) (o : TextOp) (len cap : Nat) : Bool :=
  match o with
  | .push ch => decide (PushOk c ch ∧ c.Fits (len + Utf8.lenUtf8 ch))
  | .pushStr x => decide (c.Fits (len + (utf8 x).length))
  | .insert _ ch => decide (c.strict = false ∧ RoomFits c cap len (Utf8.lenUtf8 ch))
  | .insertStr _ x => decide (RoomFits c cap len (utf8 x).length)
  | .extendChars it => decide ((∀ ch ∈ it.items, PushOk c ch) ∧ RoomFits c cap len it.hint ∧
      c.Fits (len + (utf8 it.items).length))
  | .extendStrs it => decide (c.Fits (len + (utf8 it.items.flatten).length))
  | .reserve k => decide (RoomFits c cap len k)
  | .reserveExact k => decide (c.Fits (len + k))
  | _ => true

theorem Spec.TextOp.legal_iff {c : Cfg UInt8} {o : TextOp} {len cap : Nat}
    (h : o.legal c len cap = true) : o.Legal c len cap := by
  cases o <;> simp only [TextOp.legal, decide_eq_true_eq] at h <;> first | exact h | trivial

/-- A client can name the string. -/
def Pool.has (P : Pool UInt8) (x : Nat) : Bool :=
  match P.vecs[x]? with
  | some (some _) => true
  | _ => false

theorem Pool.has_iff {P : Pool UInt8} {x : Nat} (h : P.has x = true) :
    ∃ v, P.vecs[x]? = some (some v) := by
  unfold Pool.has at h
  split at h
  · rename_i v e; exact ⟨v, e⟩
  · cases h

/-- `Legal` as a test. -/
def Spec.TextCmd.legal (c : Cfg UInt8) (P : Pool UInt8) : TextCmd → Bool
  | .new => true
  | .withCapacity n => decide (c.Fits n)
  | .fromUtf8 l => decide (c.Fits l.length)
  | .fromUtf16 l => decide (c.Fits (3 * l.length) ∧ ∀ ch ∈ (Utf8.decode16 l).1, PushOk c ch)
  | .collectChars it => decide ((∀ ch ∈ it.items, PushOk c ch) ∧ RoomFits c 0 0 it.hint ∧
      c.Fits (utf8 it.items).length)
  | .collectStrs it => decide (c.Fits (utf8 it.items.flatten).length)
  | .clone x => P.has x
  | .on x o => match P.vecs[x]? with
    | some (some v) => o.legal c v.len v.cap
    | _ => false
  | .add x y => match P.vecs[x]?, P.vecs[y]? with
    | some (some v), some (some u) => decide (x ≠ y ∧ c.Fits (v.len + u.len))
    | _, _ => false
  | .extendStrings x ys _ => match P.vecs[x]? with
    | some (some v) => decide (x ∉ ys ∧ ys.Nodup ∧ c.Fits (v.len + totalLen P ys) ∧
        ∀ y ∈ ys, P.has y = true)
    | _ => false
  | .collectStrings ys _ => decide (ys.Nodup ∧ c.Fits (totalLen P ys) ∧ ∀ y ∈ ys, P.has y = true)
  | .drop x => P.has x

theorem Spec.TextCmd.legal_iff {c : Cfg UInt8} {P : Pool UInt8} {cmd : TextCmd}
    (h : cmd.legal c P = true) : cmd.Legal c P := by
  cases cmd with
  | on x o =>
    simp only [TextCmd.legal] at h
    split at h
    · rename_i v e; exact ⟨v, e, TextOp.legal_iff h⟩
    · cases h
  | add x y =>
    simp only [TextCmd.legal] at h
    split at h
    · rename_i v u e e'
      have h := of_decide_eq_true h
      exact ⟨h.1, v, u, e, e', h.2⟩
    · cases h
  | extendStrings x ys boom =>
    simp only [TextCmd.legal] at h
    split at h
    · rename_i v e
      have h := of_decide_eq_true h
      exact ⟨h.1, h.2.1, ⟨v, e, h.2.2.1⟩, fun y hy => Pool.has_iff (h.2.2.2 y hy)⟩
    · cases h
  | collectStrings ys boom =>
    have h := of_decide_eq_true h
    exact ⟨h.1, h.2.1, fun y hy => Pool.has_iff (h.2.2 y hy)⟩
  | new => trivial
  | clone x => exact Pool.has_iff h
  | drop x => exact Pool.has_iff h
  | withCapacity n => have h := of_decide_eq_true h; exact h
  | fromUtf8 l => have h := of_decide_eq_true h; exact h
  | fromUtf16 l => have h := of_decide_eq_true h; exact h
  | collectChars it => have h := of_decide_eq_true h; exact h
  | collectStrs it => have h := of_decide_eq_true h; exact h

/-- Run calls, catching panics; `none`: an abort, undefined behaviour or a call not permitted. -/
def truns (c : Cfg UInt8) : List TextCmd → TextHistory → Pool UInt8 →
    Option (TextHistory × Pool UInt8)
  | [], h, P => some (h, P)
  | cmd :: cmds, h, P =>
    if cmd.legal c P then
      match runText c cmd P with
      | .ok o P' => truns c cmds (h ++ [(cmd, ⟨some o, P'.w.refusals != P.w.refusals⟩)]) P'
      | .panic P' => truns c cmds (h ++ [(cmd, ⟨none, P'.w.refusals != P.w.refusals⟩)]) P'
      | _ => none
    else none

theorem truns_reaches {c : Cfg UInt8} {P0 : Pool UInt8} (cmds : List TextCmd) {h h' : TextHistory}
    {P P' : Pool UInt8} (hr : TextReaches c P0 h P) (he : truns c cmds h P = some (h', P')) :
    TextReaches c P0 h' P' := by
  induction cmds generalizing h P with
  | nil =>
    simp only [truns, Option.some.injEq, Prod.mk.injEq] at he
    obtain ⟨rfl, rfl⟩ := he
    exact hr
  | cons cmd cmds ih =>
    unfold truns at he
    split at he
    · rename_i hl
      split at he
      · rename_i o P1 h1
        exact ih (.step hr (Spec.TextCmd.legal_iff hl) (.ret h1)) he
      · rename_i P1 h1
        exact ih (.step hr (Spec.TextCmd.legal_iff hl) (.panic h1)) he
      · cases he
    · cases he

end Lokky
