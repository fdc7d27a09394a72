import Verif.Model.Selector

/-!
# What pointers promise about their allocators

ptr.rs 44-50 (allocator and marker of a pointer are those used for the memory), 134-137 (`marker`), 162-166
(`alloc_selector`).
-/

namespace Lokky
variable {Site : Type}

/-- By what is in the log, allocator `a`, selected with `q`, gave the memory `b`, perhaps when it was asked to enlarge
memory that it had given for `q`. -/
inductive Given (log : List SelEv) : Nat → AllocSelector → Nat → Prop
  | got {k q a b} : .got k q a b ∈ log → Given log b q a
  | regot {q a b b'} : .regot a b b' ∈ log → Given log b q a → Given log b' q a

/-- The current scope after what is in the log, if `k` was the first one. -/
def scopeAfter (k : Nat) (log : List SelEv) : Nat :=
  log.foldl (fun c e => match e with | .entered k => k | _ => c) k

/-- Calls that make a pointer by `Box::new` or `Box::new_with`, or keep its type. -/
def SelOp.typed : SelOp Site → Prop
  | .alloc _ _ | .array _ _ | .fence _ _ | .cast _ _ | .castToSlice _ | .bytes _ => False
  | _ => True

/-- The call does not make a second pointer to the same memory. -/
def SelOp.single : SelOp Site → Prop
  | .clone _ => False
  | _ => True

/-- The call does not forget a pointer. -/
def SelOp.keeps : SelOp Site → Prop
  | .forget _ => False
  | _ => True

end Lokky
