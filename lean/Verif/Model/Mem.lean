/-!
# Outcomes, configuration and memory

The common ground of the whole model: what a call can result in, the parameters of the program
under study, heap blocks and the primitive operations of `core`/`alloc` that `lokky` is written in.
-/

namespace Lokky

/-! ## Outcomes -/

/-- Kinds of undefined behaviour that the model can observe.
* `oob`: access outside a live buffer (also through a dangling or released pointer)
* `uninit`: reading (or dropping, for a type with a destructor) a slot that was never written
* `badFree`: releasing or resizing something that is not a live block
* `wrongAlloc`: a block given back to another allocator than the one that supplied it
* `badLayout`: a size given back that differs from the block's, or a size above the limit
* `zeroSize`: a request for zero bytes, forbidden by the contract of `GlobalAlloc`
* `overlap`: `copy_nonoverlapping` on overlapping ranges
* `contract`: `get_unchecked` with an index beyond the slice
* `race`: two accesses by different threads of which neither happens before the other, at least one of them
  not atomic and at least one of them a write -/
inductive UB where
  | oob | uninit | badFree | wrongAlloc | badLayout | zeroSize | overlap | contract | race
deriving DecidableEq, Repr

/-- Result of running a piece of Rust code: it returns, unwinds, aborts the process
(panic while unwinding), or has undefined behaviour. A panic keeps the state, because it
can be caught and the surviving objects can be used afterwards. -/
inductive Res (σ β : Type) where
  | ok (val : β) (st : σ)
  | panic (st : σ)
  | abort
  | ub (why : UB)

/-- A piece of Rust code working on the state `σ`. -/
def M (σ β : Type) : Type := σ → Res σ β

namespace M
variable {σ β γ : Type}

/-- Returning a value. -/
def ret (a : β) : M σ β := fun s => .ok a s

/-- Sequencing: later code runs only if the earlier code returned. -/
def seq (m : M σ β) (f : β → M σ γ) : M σ γ := fun s =>
  match m s with
  | .ok a s' => f a s'
  | .panic s' => .panic s'
  | .abort => .abort
  | .ub u => .ub u

instance : Monad (M σ) where
  pure := ret
  bind := seq

/-- `panic!()`, `assert!(false)`, `unwrap` of an error. -/
def boom : M σ β := fun s => .panic s
/-- Undefined behaviour. -/
def undef (u : UB) : M σ β := fun _ => .ub u
/-- Reading the state. -/
def get : M σ σ := fun s => .ok s s
/-- Reading a part of the state. -/
def gets (f : σ → β) : M σ β := fun s => .ok (f s) s
/-- Changing the state. -/
def modify (f : σ → σ) : M σ Unit := fun s => .ok () (f s)

/-- `m`, and if it unwinds, `clean` is run during unwinding (destructors of locals).
A panic inside the cleanup aborts the process. -/
def onUnwind (m : M σ β) (clean : M σ Unit) : M σ β := fun s =>
  match m s with
  | .panic s' =>
    match clean s' with
    | .ok _ s'' => .panic s''
    | .panic _ => .abort
    | .abort => .abort
    | .ub u => .ub u
  | r => r

/-- `m` followed by `clean`, where `clean` is run also if `m` unwinds
(drop glue of a slice, fields of a struct with a destructor, scope end). -/
def andAlways (m : M σ Unit) (clean : M σ Unit) : M σ Unit :=
  (m.onUnwind clean).seq fun _ => clean

@[simp] theorem pure_apply (a : β) (s : σ) : (pure a : M σ β) s = .ok a s := rfl
@[simp] theorem ret_apply (a : β) (s : σ) : (ret a : M σ β) s = .ok a s := rfl
@[simp] theorem boom_apply (s : σ) : (boom : M σ β) s = .panic s := rfl
@[simp] theorem undef_apply (u : UB) (s : σ) : (undef u : M σ β) s = .ub u := rfl
@[simp] theorem get_apply (s : σ) : (get : M σ σ) s = .ok s s := rfl
@[simp] theorem gets_apply (f : σ → β) (s : σ) : gets f s = .ok (f s) s := rfl
@[simp] theorem modify_apply (f : σ → σ) (s : σ) : modify f s = .ok () (f s) := rfl

theorem seq_eq_bind (m : M σ β) (f : β → M σ γ) : m.seq f = m >>= f := rfl
theorem bind_apply (m : M σ β) (f : β → M σ γ) (s : σ) :
    (m >>= f) s = match m s with
      | .ok a s' => f a s'
      | .panic s' => .panic s'
      | .abort => .abort
      | .ub u => .ub u := rfl

theorem bind_ok {m : M σ β} {f : β → M σ γ} {s s' : σ} {a : β} (h : m s = .ok a s') :
    (m >>= f) s = f a s' := by rw [bind_apply, h]
theorem bind_panic {m : M σ β} {f : β → M σ γ} {s s' : σ} (h : m s = .panic s') :
    (m >>= f) s = .panic s' := by rw [bind_apply, h]
theorem bind_abort {m : M σ β} {f : β → M σ γ} {s : σ} (h : m s = .abort) :
    (m >>= f) s = .abort := by rw [bind_apply, h]
theorem bind_ub {m : M σ β} {f : β → M σ γ} {s : σ} {u : UB} (h : m s = .ub u) :
    (m >>= f) s = .ub u := by rw [bind_apply, h]

theorem onUnwind_ok {m : M σ β} {k : M σ Unit} {s s' : σ} {a : β} (h : m s = .ok a s') :
    m.onUnwind k s = .ok a s' := by simp [onUnwind, h]

end M

/-! ## Configuration -/

/-- Parameters of the program under study. Theorems hold for every value of them unless
they say otherwise.
* `size`, `align`: `size_of::<T>()`, `align_of::<T>()`
* `isizeMax`: `isize::MAX`
* `debug`: `debug_assert!` and arithmetic overflow checks are active
* `strict`: breaking a documented precondition of `get_unchecked`/`copy_nonoverlapping` counts
  as undefined behaviour even if the access itself stays inside the buffer
* `needsDrop`: `T` has a destructor
* `dropPanics a`: the destructor of `a` panics
* `zst`: the value obtained by reading a zero-sized `T`
* `clone k a`: what the `k`-th call of `Clone::clone` returns on `a`; `none` = it panics
* `grant t b`: whether the `t`-th allocator request, for `b` bytes, is granted -/
structure Cfg (α : Type) where
  size : Nat
  align : Nat
  isizeMax : Nat
  debug : Bool
  strict : Bool
  needsDrop : Bool
  dropPanics : α → Bool
  zst : α
  clone : Nat → α → Option α
  grant : Nat → Nat → Bool

namespace Cfg
variable {α : Type} (c : Cfg α)
/-- `usize::MAX`. -/
def usizeMax : Nat := 2 * c.isizeMax + 1
/-- Largest size of a `Layout` with the alignment of `T` (core, `Layout::max_size_for_align`). -/
def maxBytes : Nat := c.isizeMax - (c.align - 1)
/-- `n` elements fit into a `Layout` (core, `Layout::array::<T>(n)` is `Ok`). -/
def Fits (n : Nat) : Prop := n * c.size ≤ c.maxBytes
instance (n : Nat) : Decidable (c.Fits n) := inferInstanceAs (Decidable (_ ≤ _))
end Cfg

/-- Marker of an allocation, `AllocMarker` (scope.rs 20-33): absent or (the name of) a type. -/
abbrev Marker := Option Nat

/-- `ArrayAllocError` (ptr.rs 172-176). -/
inductive AllocErr where
  | capacityOverflow
  | allocError
deriving DecidableEq, Repr

/-! ## Memory -/

/-- What user code can observe besides memory: the elements whose destructor was run, in order,
and the number of calls of `clone` so far.
Elements of a type without destructor are logged too when they are dropped. -/
structure Log (α : Type) where
  drops : List α
  calls : Nat

/-- A heap block: the allocator that supplied it, its size, and its contents seen as slots of
type `T`; `none` marks a slot never written. Moving out of a slot (`ptr::read`) leaves the bits. -/
structure Block (α : Type) where
  alloc : Nat
  bytes : Nat
  slots : List (Option α)

/-- The state of the program outside the object an operation works on.
* `heap`: live blocks by address
* `next`: next fresh address; addresses are never reused
* `tick`: number of allocator requests made so far
* `refusals`: number of refused ones
* `allocFor`: allocator that the current scope selects for a marker (scope.rs 114, `alloc_for`);
  the element type is fixed, so it is not an argument
* `log`: see `Log` -/
structure World (α : Type) where
  heap : Nat → Option (Block α)
  next : Nat
  tick : Nat
  refusals : Nat
  allocFor : Marker → Nat
  log : Log α

/-- An object (or several) together with the world. -/
structure St (S α : Type) where
  self : S
  w : World α

namespace World
variable {α : Type}
/-- Slots reachable through a pointer; `none` is `NonNull::dangling()`. A released block has
no slots. -/
def slots (w : World α) (p : Option Nat) : List (Option α) :=
  match p with
  | none => []
  | some q => match w.heap q with
    | none => []
    | some b => b.slots
/-- Overwrite the contents of a live block. -/
def setSlots (w : World α) (p : Option Nat) (ss : List (Option α)) : World α :=
  match p with
  | none => w
  | some q => match w.heap q with
    | none => w
    | some b => { w with heap := fun r => if r = q then some { b with slots := ss } else w.heap r }
end World

/-! ## Lifting -/

section Lift
variable {α S T β : Type}

/-- Code that touches the world only. -/
def liftW (m : M (World α) β) : M (St S α) β := fun s =>
  match m s.w with
  | .ok a w' => .ok a { s with w := w' }
  | .panic w' => .panic { s with w := w' }
  | .abort => .abort
  | .ub u => .ub u

/-- Code that works on one part of the object. -/
def onPart (get : S → T) (set : T → S → S) (m : M (St T α) β) : M (St S α) β := fun s =>
  match m ⟨get s.self, s.w⟩ with
  | .ok a s' => .ok a ⟨set s'.self s.self, s'.w⟩
  | .panic s' => .panic ⟨set s'.self s.self, s'.w⟩
  | .abort => .abort
  | .ub u => .ub u

/-- Code with a local variable, initially `x`; if the code unwinds, the local is dropped.
Otherwise its final value is returned (moved out) along with the result. -/
def withLocal (x : S) (dropS : M (St S α) Unit) (m : M (St S α) β) : M (World α) (β × S) := fun w =>
  match m.onUnwind dropS ⟨x, w⟩ with
  | .ok a s' => .ok (a, s'.self) s'.w
  | .panic s' => .panic s'.w
  | .abort => .abort
  | .ub u => .ub u

end Lift

/-! ## Arithmetic -/

section Arith
variable {α σ : Type} (c : Cfg α)

/-- `a + b` on `usize`: overflow panics in debug builds and wraps in release builds. -/
def uadd (a b : Nat) : M σ Nat :=
  if a + b ≤ c.usizeMax then pure (a + b)
  else if c.debug then M.boom else pure ((a + b) % (c.usizeMax + 1))

/-- `a * b` on `usize`. -/
def umul (a b : Nat) : M σ Nat :=
  if a * b ≤ c.usizeMax then pure (a * b)
  else if c.debug then M.boom else pure (a * b % (c.usizeMax + 1))

/-- `a - b` on `usize`. -/
def usub (a b : Nat) : M σ Nat :=
  if b ≤ a then pure (a - b)
  else if c.debug then M.boom else pure (c.usizeMax + 1 + a - b)

/-- `assert!`. -/
def assert (p : Prop) [Decidable p] : M σ Unit := if p then pure () else M.boom

/-- `debug_assert!`. -/
def debugAssert (p : Prop) [Decidable p] : M σ Unit :=
  if c.debug && !decide p then M.boom else pure ()

/-- Precondition of `slice::get_unchecked(i)` on a slice of length `n`. -/
def uncheckedIndex (i n : Nat) : M σ Unit :=
  if c.strict && decide (n ≤ i) then M.undef .contract else pure ()

end Arith

/-! ## Buffers

A contiguous buffer of `T`: what both the heap buffer of a `Vec` and the inline array of a
`StackVec` look like to the code that moves elements around. -/

/-- Slots, `capacity()`, `len()` and the log. `cap` is what the owner believes; `slots.length`
is what is there. -/
structure Buf (α : Type) where
  slots : List (Option α)
  cap : Nat
  len : Nat
  log : Log α

section BufOps
variable {α : Type} (c : Cfg α)

/-- Dropping a value: its destructor runs, and may panic. -/
def dropVal (a : α) : M (Log α) Unit := fun g =>
  let g' := { g with drops := g.drops ++ [a] }
  if c.dropPanics a then .panic g' else .ok () g'

/-- Dropping the rest of a list of values (slice drop glue, arrays, by-value iterators): in order;
after a panic the remaining ones are dropped during unwinding. -/
def dropVals : List α → M (Log α) Unit
  | [] => pure ()
  | a :: l => (dropVal c a).andAlways (dropVals l)

/-- Run code on the log part of a buffer. -/
def Buf.onLog {β : Type} (m : M (Log α) β) : M (Buf α) β := fun s =>
  match m s.log with
  | .ok a g => .ok a { s with log := g }
  | .panic g => .panic { s with log := g }
  | .abort => .abort
  | .ub u => .ub u

/-- `ptr::read(buf.add(i))`. Reading a zero-sized value touches no memory. -/
def Buf.read (i : Nat) : M (Buf α) α := fun s =>
  if c.size = 0 then .ok c.zst s
  else match s.slots[i]? with
    | none => .ub .oob
    | some none => .ub .uninit
    | some (some a) => .ok a s

/-- `ptr::write(buf.add(i), a)`. -/
def Buf.write (i : Nat) (a : α) : M (Buf α) Unit := fun s =>
  if c.size = 0 then .ok () s
  else if i < s.slots.length then .ok () { s with slots := s.slots.set i (some a) }
  else .ub .oob

/-- `ptr::copy(buf.add(src), buf.add(dst), n)` (memmove). -/
def Buf.copy (src dst n : Nat) : M (Buf α) Unit := fun s =>
  if c.size = 0 ∨ n = 0 then .ok () s
  else if src + n ≤ s.slots.length ∧ dst + n ≤ s.slots.length then
    .ok () { s with
      slots := s.slots.take dst ++ (s.slots.drop src).take n ++ s.slots.drop (dst + n) }
  else .ub .oob

/-- `ptr::copy_nonoverlapping(buf.add(src), buf.add(dst), n)`. Overlap is undefined behaviour
in `strict` mode and acts as `ptr::copy` otherwise. -/
def Buf.copyNonoverlapping (src dst n : Nat) : M (Buf α) Unit := fun s =>
  if c.strict ∧ c.size ≠ 0 ∧ src < dst + n ∧ dst < src + n then .ub .overlap
  else Buf.copy c src dst n s

/-- `ptr::copy_nonoverlapping(src, buf.add(dst), n)` from another allocation whose first `n`
slots are `src`. -/
def Buf.copyFrom (src : List (Option α)) (dst n : Nat) : M (Buf α) Unit := fun s =>
  if c.size = 0 ∨ n = 0 then .ok () s
  else if n ≤ src.length ∧ dst + n ≤ s.slots.length then
    .ok () { s with slots := s.slots.take dst ++ src.take n ++ s.slots.drop (dst + n) }
  else .ub .oob

/-- `drop_in_place(buf.add(i))`. For a type without destructor this does nothing to memory,
hence an uninitialised slot is no error. -/
def Buf.dropAt (i : Nat) : M (Buf α) Unit := fun s =>
  if c.size = 0 then Buf.onLog (dropVal c c.zst) s
  else match s.slots[i]? with
    | none => .ub .oob
    | some none => if c.needsDrop then .ub .uninit else .ok () s
    | some (some a) => Buf.onLog (dropVal c a) s

/-- `drop_in_place` of the slice `buf[i..i+n]`: in order; after a panic the rest is dropped during
unwinding. -/
def Buf.dropSlice : (i n : Nat) → M (Buf α) Unit
  | _, 0 => pure ()
  | i, n + 1 => (Buf.dropAt c i).andAlways (Buf.dropSlice (i + 1) n)

/-- `for j in i..i+n { drop_in_place(buf.add(j)) }`: a panic ends the loop. -/
def Buf.dropLoop : (i n : Nat) → M (Buf α) Unit
  | _, 0 => pure ()
  | i, n + 1 => do Buf.dropAt c i; Buf.dropLoop (i + 1) n

/-- All elements `buf[i..i+n]`, read one by one without moving them (a slice the caller looks at). -/
def Buf.readSlice : (i n : Nat) → M (Buf α) (List α)
  | _, 0 => pure []
  | i, n + 1 => do
    let a ← Buf.read c i
    let l ← Buf.readSlice (i + 1) n
    pure (a :: l)

/-- `vec.set_len(n)` with its debug assertion (vec.rs 122-125; small_vec.rs 125-131). -/
def Buf.setLen (n : Nat) : M (Buf α) Unit := do
  let s ← M.get
  debugAssert c (n ≤ s.cap)
  M.modify fun s => { s with len := n }

/-- The current length. -/
def Buf.getLen : M (Buf α) Nat := M.gets (·.len)

end BufOps

/-! ## Allocator calls -/

section Alloc
variable {α : Type} (c : Cfg α)

/-- `GlobalAlloc::alloc(layout)` of allocator `a` for `bytes` bytes: a fresh block with
uninitialised contents, or a null pointer. -/
def rawAlloc (a bytes : Nat) : M (World α) (Option Nat) := fun w =>
  if bytes = 0 then .ub .zeroSize
  else if c.grant w.tick bytes then
    .ok (some w.next) { w with
      heap := fun p => if p = w.next
        then some ⟨a, bytes, List.replicate (bytes / c.size) none⟩ else w.heap p
      next := w.next + 1
      tick := w.tick + 1 }
  else .ok none { w with tick := w.tick + 1, refusals := w.refusals + 1 }

/-- `GlobalAlloc::dealloc(ptr, layout)` of allocator `a` with a layout of `bytes` bytes. -/
def rawDealloc (p : Option Nat) (a bytes : Nat) : M (World α) Unit := fun w =>
  match p with
  | none => .ub .badFree
  | some q => match w.heap q with
    | none => .ub .badFree
    | some b =>
      if b.alloc ≠ a then .ub .wrongAlloc
      else if b.bytes ≠ bytes then .ub .badLayout
      else .ok () { w with heap := fun r => if r = q then none else w.heap r }

/-- `GlobalAlloc::realloc(ptr, layout, new_size)` of allocator `a`: on success a fresh block with
the old contents up to the smaller size, the old block being released; on refusal a null pointer and
the old block stays. Simplification: a block always moves. -/
def rawRealloc (p : Option Nat) (a bytes newBytes : Nat) : M (World α) (Option Nat) := fun w =>
  match p with
  | none => .ub .badFree
  | some q => match w.heap q with
    | none => .ub .badFree
    | some b =>
      if b.alloc ≠ a then .ub .wrongAlloc
      else if b.bytes ≠ bytes then .ub .badLayout
      else if newBytes = 0 then .ub .zeroSize
      else if c.maxBytes < newBytes then .ub .badLayout
      else if c.grant w.tick newBytes then
        let n := newBytes / c.size
        .ok (some w.next) { w with
          heap := fun r => if r = w.next
              then some ⟨a, newBytes, b.slots.take n ++ List.replicate (n - b.slots.length) none⟩
            else if r = q then none else w.heap r
          next := w.next + 1
          tick := w.tick + 1 }
      else .ok none { w with tick := w.tick + 1, refusals := w.refusals + 1 }

end Alloc

end Lokky
