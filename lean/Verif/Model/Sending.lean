/-!
# Values that go to another thread

Threads hold handles of values. A handle goes to another thread if its type is `Send`, or in an `Envelope`. Here is
what the compiler accepts and which memory the calls touch. Objects, their counts and the allocators are the memory.

Simplifications. `Cell<i32>` stands for the types that can be changed through a shared reference and are therefore
not `Sync`; `i32` stands for plain data. There are no `Weak` handles. References are not sent, since a thread that
gets `&Arc<T>` can clone it and one that gets a clone can borrow it. The new object of a call is not known to
other threads, so writing to it is not recorded. The counts are exact (C55, C66, C73), so that a handle is the last
one if no other handle refers to the object.
-/

namespace Lokky

/-- Types of values: plain data, `Cell`, `Rc<T>` (rc.rs 57), `Arc<T>` (arc.rs 28), `Urc<T>` (urc.rs 119-125).
`Urc<T>` points to a `Fence<T>` (urc.rs 38-42), which points to the `Master<T>` (urc.rs 107-117). Fences refer to the
master as `Arc`s refer to their value: its count of fences is atomic. -/
inductive Ty where
  | int
  | cell
  | rc (t : Ty)
  | arc (t : Ty)
  | urc (t : Ty)
deriving DecidableEq

mutual
/-- `T: Send`. `Rc` and `Urc` have `ScopePtr` fields, which contain `NonNull` (ptr.rs 12-17), and no impl of their own;
`Arc<T>` is `Send` if `T` is `Send` and `Sync` (arc.rs 30). -/
def Ty.send : Ty → Bool
  | .int => true
  | .cell => true
  | .rc _ => false
  | .arc t => t.send && t.sync
  | .urc _ => false

/-- `T: Sync` (arc.rs 31). `Cell` is not `Sync`. -/
def Ty.sync : Ty → Bool
  | .int => true
  | .cell => false
  | .rc _ => false
  | .arc t => t.send && t.sync
  | .urc _ => false
end

/-- Values: plain data (also inside a `Cell`), or the address of an object. -/
inductive TVal where
  | num (n : Int)
  | ptr (a : Nat)
deriving DecidableEq

/-- An object on the heap: the value in it, and the thread whose scope's allocator it came from (ptr.rs 12-17). -/
structure TNode where
  content : TVal
  alloc : Nat
deriving DecidableEq

/-- A handle or other value in the hands of a thread. -/
structure THand where
  thread : Nat
  ty : Ty
  val : TVal
deriving DecidableEq

/-- All threads: the objects (`none`: given back), and what the threads hold (`none`: dropped or sent away). -/
structure TSys where
  heap : List (Option TNode)
  hands : List (Option THand)
deriving DecidableEq

/-- What a thread may do next with the value at place `i`. -/
inductive TCmd where
  /-- Make a number. -/
  | num (n : Int)
  /-- Make a `Cell`. -/
  | cell (n : Int)
  /-- `Rc::new(x)`. -/
  | newRc (i : Nat)
  /-- `Arc::new(x)`. -/
  | newArc (i : Nat)
  /-- `Urc::new(x)`. -/
  | newUrc (i : Nat)
  /-- `h.clone()`. -/
  | clone (i : Nat)
  /-- `(*h).clone()`, for a handle to a handle. -/
  | inner (i : Nat)
  /-- Read `*h`, for a handle of plain data. -/
  | get (i : Nat)
  /-- `h.set(n)`, for a handle of a `Cell`. -/
  | set (i : Nat) (n : Int)
  /-- `drop(h)`. -/
  | drop (i : Nat)
  /-- Move the value to thread `t`. -/
  | send (i t : Nat)
  /-- `h.envelop(scope)`, sent to thread `t` and opened there with `recv` (scope.rs 216-219). -/
  | envelop (i t : Nat)
deriving DecidableEq

/-- Parts of memory. -/
inductive TLoc where
  /-- Reference count of an object. -/
  | count (a : Nat)
  /-- The value in an object. -/
  | content (a : Nat)
  /-- The state of the allocator of a thread. -/
  | alloc (t : Nat)
deriving DecidableEq

/-- An access to memory. -/
structure TAcc where
  loc : TLoc
  write : Bool
  atomic : Bool
deriving DecidableEq

/-- How many handles and objects refer to object `a`. -/
def TSys.refs (P : TSys) (a : Nat) : Nat :=
  P.hands.countP (fun h => h.any (·.val == .ptr a)) + P.heap.countP (fun n => n.any (·.content == .ptr a))

/-- The object at `a`. -/
def TSys.node (P : TSys) (a : Nat) : Option TNode := P.heap[a]?.join

/-- The value that thread `t` holds at place `i`. -/
def TSys.hand (P : TSys) (t i : Nat) : Option (Ty × TVal) :=
  match P.hands[i]?.join with
  | some h => if h.thread = t then some (h.ty, h.val) else none
  | none => none

/-- The access of cloning or dropping a handle: the counts of `Rc` and `Fence` are `Cell`s (rc.rs 14-49, urc.rs 38-42),
those of `Arc` and `Master` are atomic (arc.rs 17-23, urc.rs 107-112). Dropping the last `Rc` only reads the count. -/
def countAcc : Ty → Nat → TAcc
  | .arc _, a => ⟨.count a, true, true⟩
  | _, a => ⟨.count a, true, false⟩

/-- The accesses to the allocator of thread `t`: `alloc` and `dealloc` of `GlobalAlloc` get `&self`
(ptr.rs 188-199, 241-245). `sa`: the allocators are `Sync`, so what they do with it is in order. -/
def allocAcc (sa : Bool) (t : Nat) : TAcc := ⟨.alloc t, true, sa⟩

/-- The value in the object at `a`. -/
def TSys.load (P : TSys) (a : Nat) : Option TVal := (P.node a).map (·.content)

/-- The object with the value that a handle gives access to, and the type of the value. An `Urc` keeps the address
of the value at hand (urc.rs 123-124): it is in the object that its fence points to. -/
def TSys.through (P : TSys) (T : Ty) (v : TVal) : Option (Nat × Ty) :=
  match T, v with
  | .rc t, .ptr a => some (a, t)
  | .arc t, .ptr a => some (a, t)
  | .urc t, .ptr f =>
    match P.load f with
    | some (.ptr a) => some (a, t)
    | _ => none
  | _, _ => none

/-- The memory that the next call of thread `t` touches.
`clone`: rc.rs 198-204, arc.rs 466-492, urc.rs 484-494. `drop`: the count; nothing more for the last `Rc`, since the
count stays 1 (rc.rs 161-174); the value and the memory for the last `Arc` (arc.rs 499-541, 349-358); the fence and
the count of fences for the last `Urc` of a fence, and nothing more for the last fence (urc.rs 496-524). Memory goes
back to the allocator that it came from, not to the one of the thread that drops (ptr.rs 33-41, 241-245). `envelop`
of an `Urc` allocates a fence and counts it (urc.rs 619-640), that of an `Arc` clones (arc.rs 546-550). `Urc::new`
allocates twice (urc.rs 218-236). -/
def TSys.accs (sa : Bool) (P : TSys) (t : Nat) : TCmd → List TAcc
  | .num _ => []
  | .cell _ => []
  | .newRc _ => [allocAcc sa t]
  | .newArc _ => [allocAcc sa t]
  | .newUrc _ => [allocAcc sa t, allocAcc sa t]
  | .clone i =>
    match P.hand t i with
    | some (T, .ptr a) => [countAcc T a]
    | _ => []
  | .inner i =>
    match P.hand t i with
    | some (T, v) =>
      match P.through T v with
      | some (a, T') =>
        ⟨.content a, false, false⟩ ::
          (match P.load a with
          | some (.ptr b) => [countAcc T' b]
          | _ => [])
      | none => []
    | none => []
  | .get i =>
    match P.hand t i with
    | some (T, v) =>
      match P.through T v with
      | some (a, _) => [⟨.content a, false, false⟩]
      | none => []
    | none => []
  | .set i _ =>
    match P.hand t i with
    | some (T, v) =>
      match P.through T v with
      | some (a, _) => [⟨.content a, true, false⟩]
      | none => []
    | none => []
  | .drop i =>
    match P.hand t i with
    | some (.rc T, .ptr a) => [countAcc (.rc T) a]
    | some (.arc T, .ptr a) =>
      countAcc (.arc T) a ::
        (if P.refs a = 1 then
          match P.node a with
          | some n => [⟨.content a, true, false⟩, allocAcc sa n.alloc]
          | none => []
        else [])
    | some (.urc T, .ptr f) =>
      countAcc (.urc T) f ::
        (if P.refs f = 1 then
          match P.node f with
          | some n => ⟨.content f, true, false⟩ :: allocAcc sa n.alloc ::
              (match n.content with
              | .ptr a => [countAcc (.arc T) a]
              | .num _ => [])
          | none => []
        else [])
    | _ => []
  | .send _ _ => []
  | .envelop i _ =>
    match P.hand t i with
    | some (.arc T, .ptr a) => [countAcc (.arc T) a]
    | some (.urc T, .ptr f) =>
      ⟨.content f, false, false⟩ :: allocAcc sa t ::
        (match P.load f with
        | some (.ptr a) => [countAcc (.arc T) a]
        | _ => [])
    | _ => []

/-- Put a value into the hands of a thread. -/
def TSys.give (P : TSys) (t : Nat) (T : Ty) (v : TVal) : TSys := { P with hands := P.hands ++ [some ⟨t, T, v⟩] }

/-- Take the value at place `i` away. -/
def TSys.take (P : TSys) (i : Nat) : TSys := { P with hands := P.hands.set i none }

/-- Make an object with memory from the allocator of thread `t`. -/
def TSys.make (P : TSys) (t : Nat) (v : TVal) : TSys := { P with heap := P.heap ++ [some ⟨v, t⟩] }

/-- The next call of thread `t`; `none` if the compiler rejects it. The value behind the last `Arc` goes to the thread that
drops the `Arc` and has to drop the value next. -/
def TSys.step (P : TSys) (t : Nat) : TCmd → Option TSys
  | .num n => some (P.give t .int (.num n))
  | .cell n => some (P.give t .cell (.num n))
  | .newRc i =>
    match P.hand t i with
    | some (T, v) => some (((P.take i).make t v).give t (.rc T) (.ptr P.heap.length))
    | none => none
  | .newArc i =>
    match P.hand t i with
    | some (T, v) => some (((P.take i).make t v).give t (.arc T) (.ptr P.heap.length))
    | none => none
  | .newUrc i =>
    match P.hand t i with
    | some (T, v) =>
      some ((((P.take i).make t v).make t (.ptr P.heap.length)).give t (.urc T) (.ptr (P.heap.length + 1)))
    | none => none
  | .clone i =>
    match P.hand t i with
    | some (T, .ptr a) => some (P.give t T (.ptr a))
    | _ => none
  | .inner i =>
    match P.hand t i with
    | some (T, v) =>
      match P.through T v with
      | some (a, T') =>
        match P.load a with
        | some (.ptr b) => some (P.give t T' (.ptr b))
        | _ => none
      | none => none
    | none => none
  | .get i =>
    match P.hand t i with
    | some (T, v) =>
      match P.through T v with
      | some (_, .int) => some P
      | _ => none
    | none => none
  | .set i n =>
    match P.hand t i with
    | some (T, v) =>
      match P.through T v with
      | some (a, .cell) =>
        match P.node a with
        | some nd => some { P with heap := P.heap.set a (some { nd with content := .num n }) }
        | none => none
      | _ => none
    | none => none
  | .drop i =>
    match P.hand t i with
    | some (.arc T, .ptr a) =>
      if P.refs a = 1 then
        match P.node a with
        | some nd => some ((({ P with heap := P.heap.set a none } : TSys).take i).give t T nd.content)
        | none => none
      else some (P.take i)
    | some (.urc _, .ptr f) =>
      if P.refs f = 1 then some (({ P with heap := P.heap.set f none } : TSys).take i) else some (P.take i)
    | some _ => some (P.take i)
    | none => none
  | .send i u =>
    match P.hand t i with
    | some (T, v) => if T.send then some ((P.take i).give u T v) else none
    | none => none
  | .envelop i u =>
    match P.hand t i with
    | some (.arc T, .ptr a) => some (P.give u (.arc T) (.ptr a))
    | some (.urc T, .ptr f) =>
      match P.load f with
      | some (.ptr a) => some ((P.make t (.ptr a)).give u (.urc T) (.ptr P.heap.length))
      | _ => none
    | _ => none

/-- Two accesses that make a data race if nothing orders them. -/
def TAcc.conflict (x y : TAcc) : Prop := x.loc = y.loc ∧ (x.write ∨ y.write) ∧ ¬ (x.atomic ∧ y.atomic)

/-- Two threads are both about to do something that the compiler accepts, and their accesses to `l` conflict. Nothing
orders them: either may come first, or both at once. -/
def TSys.RaceOn (sa : Bool) (P : TSys) (l : TLoc) : Prop :=
  ∃ t u c d, t ≠ u ∧ (P.step t c).isSome ∧ (P.step u d).isSome ∧
    ∃ x ∈ P.accs sa t c, ∃ y ∈ P.accs sa u d, x.loc = l ∧ x.conflict y

/-- A program: which thread does what, in order. -/
def TSys.run (P : TSys) : List (Nat × TCmd) → Option TSys
  | [] => some P
  | (t, c) :: cs =>
    match P.step t c with
    | some P' => P'.run cs
    | none => none

/-- Nothing was made yet. -/
def TSys.init : TSys := ⟨[], []⟩

end Lokky
