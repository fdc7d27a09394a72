import Verif.Model.UrcThreads

/-! What can be observed of the `Urc` system of threads (Model/UrcThreads.lean). -/

namespace Lokky
variable {α : Type}

/-- The fence of a handle. -/
def UrcHand.fen : UrcHand → Nat
  | .urc f | .weak f _ | .fence f => f

namespace UrcHold

/-- The fence of a handle. -/
def fen : UrcHold → Nat
  | .own _ k => k.fen
  | .env f => f

/-- Anything but a `Weak`: a `Urc`, one in an envelope, or a fence that was taken out. -/
def strong : UrcHold → Bool
  | .own _ (.weak _ _) => false
  | _ => true

/-- Anything but a `Weak`, of fence `f`. -/
def strongAt (f : Nat) : Option UrcHold → Bool
  | some x => x.strong && x.fen == f
  | none => false

/-- A `Weak` of fence `f`. -/
def weakAt (f : Nat) : Option UrcHold → Bool
  | some x => !x.strong && x.fen == f
  | none => false

end UrcHold

/-- The handle that a thread in the middle of a call has, with its fence and master. -/
def UrcOp.hand : UrcOp α → Option (Nat × Nat × Nat)
  | .get1 h f p | .get2 h f p | .held h f p | .unw1 h f p | .mm1 h f p | .mm2 h f p _ | .mv0 h f p
  | .mv1 h f p _ | .mmC h f p | .mmA h f p _ => some (h, f, p)
  | .fin _ k => k
  | .wfin _ => none

/-- Which thread it is that acts. -/
def UrcAct.thread : UrcAct α → Nat
  | .new t _ | .recv t _ | .call t _ _ _ | .run t _ => t

namespace UrcSys

/-- Thread `t` is in the middle of `op`. -/
def At (s : UrcSys α) (t : Nat) (op : UrcOp α) : Prop := s.threads[t]? = some (some op)

/-- The master of handle `h`: handles with the same master share a value. -/
def master (s : UrcSys α) (h : Nat) : Option Nat :=
  match s.hands[h]? with
  | some (some x) => match s.fences[x.fen]? with
    | some (some F) => some F.master
    | _ => none
  | _ => none

/-- The value that reading through handle `h` gives, if there is one. -/
def reads (s : UrcSys α) (h : Nat) : Option α :=
  match s.master h with
  | some p => match s.vals[p]? with
    | some (v, true) => some v
    | _ => none
  | none => none

/-- Handle `h` is there, and not a `Weak`. -/
def Strong (s : UrcSys α) (h : Nat) : Prop := ∃ x, s.hands[h]? = some (some x) ∧ x.strong = true

/-- How many handles of fence `f` there are, `Weak`s not counted. -/
def nU (s : UrcSys α) (f : Nat) : Nat := s.hands.countP (UrcHold.strongAt f)

/-- How many `Weak`s of fence `f` there are. -/
def nW (s : UrcSys α) (f : Nat) : Nat := s.hands.countP (UrcHold.weakAt f)

end UrcSys

/-- From `s`, `n` steps lead to `s'` while thread `t` is in the middle of a call; none of them is a fault of
`try_unwrap` or `make_mut`. -/
inductive UrcTDuring (dbg : Bool) (mx t : Nat) (s : UrcSys α) : Nat → UrcSys α → Prop
  | refl : UrcTDuring dbg mx t s 0 s
  | step {n : Nat} {s1 s2 : UrcSys α} (a : UrcAct α) : UrcTDuring dbg mx t s n s1 →
      (∃ op, s1.At t op ∧ ∀ h f p, op ≠ .held h f p) → a.enabled true s1 = true → a.faulty s1 = false →
      a.act dbg mx s1 = .ok () s2 → UrcTDuring dbg mx t s (n + 1) s2

end Lokky
