import Verif.Model.Arc

/-!
# The memory orderings of `Arc` (/repo/src/arc.rs)

`Model/Arc.lean` takes the memory to be sequentially consistent. Here every access carries the ordering
it has in the source, and the system knows of every thread which accesses happen before what it does next:

* Accesses are numbered in the order in which they are made. A *view* is a list of such numbers.
* Each thread has a view. Each counter of each object has a list of *messages*, the values stored
  there, oldest first, each with the view that reading it with `Acquire` adds to the reader's. A
  read-modify-write reads the latest message; its own message has the view of that one (release sequences),
  together with the view of the thread if the operation is `Release`.
* A load, or a compare-and-exchange that fails, reads *any* message such that the thread does not know of a
  later one, not only the latest.
* Handing handles around is safe code, and so brings the giver's view along: a handle has the view of the
  thread it came from; whoever takes it exclusively also gets the views of all whose use of it is over.

Simplifications: messages of a counter are ordered as the steps are; `SeqCst` loads are taken as
`Acquire`; the allocator never hands out the same address twice.
-/

namespace Lokky
variable {α : Type}

/-- Kinds of accesses: a new `ArcInner` is stored (arc.rs 135-150; ptr.rs 181-185), a counter is accessed
(arc.rs 18-20), the value is read (arc.rs 377-396, 208, 215), it is written, moved out or dropped (arc.rs
296-307, 219, 200, 237, 352), the memory is released (arc.rs 241, 356). -/
inductive ArcKind
  | init | atomic | read | write | free
deriving DecidableEq, Repr

/-- Two accesses of which one has to happen before the other. -/
def ArcKind.clash : ArcKind → ArcKind → Bool
  | .init, _ | _, .init | .free, _ | _, .free => true
  | .write, .write | .write, .read | .read, .write => true
  | _, _ => false

/-- The counters of `ArcInner` (arc.rs 18-20). -/
inductive ArcCtr
  | strong | weak
deriving DecidableEq, Repr

/-- A stored count, the access that stored it, and its view. -/
structure ArcMsg where
  val : Nat
  evt : Nat
  view : List Nat
deriving DecidableEq, Repr

/-- The accesses so far (object and kind), the views of threads, of handles, of the uses of handles that
are over, and the messages of the counters. -/
structure ArcMem where
  evts : List (Nat × ArcKind)
  thr : Nat → List Nat
  hnd : Nat → List Nat
  ret : Nat → List Nat
  msgs : ArcCtr → Nat → List ArcMsg

/-- Nothing has happened. -/
def ArcMem.start : ArcMem := ⟨[], fun _ => [], fun _ => [], fun _ => [], fun _ _ => []⟩

/-- What a step does to memory. `acq`, `rel`: `Acquire` and `Release`. -/
inductive ArcEff
  /-- nothing -/
  | none
  /-- a new object -/
  | init (p : Nat)
  /-- access to the value, or release of the memory -/
  | touch (p : Nat) (k : ArcKind)
  /-- a load, or a compare-and-exchange that fails -/
  | load (c : ArcCtr) (p : Nat) (acq : Bool)
  /-- a read-modify-write that stores `v` -/
  | rmw (c : ArcCtr) (p v : Nat) (acq rel : Bool)
  /-- a store of `v` -/
  | store (c : ArcCtr) (p v : Nat) (rel : Bool)
deriving DecidableEq, Repr

/-- The access, if any. -/
def ArcEff.access : ArcEff → Option (Nat × ArcKind)
  | .none => Option.none
  | .init p => some (p, .init)
  | .touch p k => some (p, k)
  | .load _ p _ | .rmw _ p _ _ _ | .store _ p _ _ => some (p, .atomic)

namespace ArcMem

/-- Thread `t` gets to know of the accesses in `v`. -/
def learn (t : Nat) (v : List Nat) (m : ArcMem) : ArcMem :=
  { m with thr := fun t' => if t' = t then m.thr t ++ v else m.thr t' }

/-- Thread `t` makes an access. -/
def note (t p : Nat) (k : ArcKind) (m : ArcMem) : ArcMem :=
  { m.learn t [m.evts.length] with evts := m.evts ++ [(p, k)] }

/-- A new message. -/
def post (c : ArcCtr) (p : Nat) (x : ArcMsg) (m : ArcMem) : ArcMem :=
  { m with msgs := fun c' p' => if c' = c ∧ p' = p then m.msgs c p ++ [x] else m.msgs c' p' }

/-- The view of a message; `j`: its position. -/
def viewAt (c : ArcCtr) (p j : Nat) (m : ArcMem) : List Nat :=
  match (m.msgs c p)[j]? with
  | some x => x.view
  | none => []

/-- The position of the latest message. -/
def latest (c : ArcCtr) (p : Nat) (m : ArcMem) : Nat := (m.msgs c p).length - 1

/-- What thread `t` knows after having read message `j`. -/
def acquire (t : Nat) (c : ArcCtr) (p j : Nat) (acq : Bool) (m : ArcMem) : ArcMem :=
  if acq then m.learn t (m.viewAt c p j) else m

/-- The effect of a step of thread `t`; a load reads message `j`. -/
def apply (t j : Nat) (e : ArcEff) (m : ArcMem) : ArcMem :=
  match e with
  | .none => m
  | .init p =>
    let i := m.evts.length
    ((m.note t p .init).post .strong p ⟨1, i, []⟩).post .weak p ⟨0, i, []⟩
  | .touch p k => m.note t p k
  | .load c p acq => (m.note t p .atomic).acquire t c p j acq
  | .rmw c p v acq rel =>
    let i := m.evts.length
    let w := m.viewAt c p (m.latest c p)
    let m' := (m.note t p .atomic).acquire t c p (m.latest c p) acq
    m'.post c p ⟨v, i, if rel then w ++ m'.thr t else w⟩
  | .store c p v rel =>
    let i := m.evts.length
    let m' := m.note t p .atomic
    m'.post c p ⟨v, i, if rel then m'.thr t else []⟩

/-- After a step of thread `t` that was doing `op`: if a use of a handle is over, its owner can get to know
of it; handles that the step gave to the client have the view of the thread. -/
def close (t : Nat) (op : ArcOp α) (s s' : ArcSys α) (m : ArcMem) : ArcMem :=
  { m with
    ret := fun h =>
      match s'.threads[t]? with
      | some none => if op.borrows h then m.ret h ++ m.thr t else m.ret h
      | _ => m.ret h
    hnd := fun h => if s.hands.length ≤ h ∧ h < s'.hands.length then m.thr t else m.hnd h }

/-- An access of thread `t` to object `p` that is not ordered with one made before. -/
def Race (m : ArcMem) (t p : Nat) (k : ArcKind) : Prop :=
  ∃ (i : Nat) (k' : ArcKind), m.evts[i]? = some (p, k') ∧ k'.clash k = true ∧ i ∉ m.thr t

/-- Thread `t` may read message `j`: it does not know of a later one. -/
def Readable (m : ArcMem) (t : Nat) (c : ArcCtr) (p j : Nat) : Prop :=
  ∀ (i : Nat) (x : ArcMsg), j < i → (m.msgs c p)[i]? = some x → x.evt ∉ m.thr t

end ArcMem

/-- The counts of an object. -/
def ArcObj.count (o : ArcObj α) : ArcCtr → Nat
  | .strong => o.strong
  | .weak => o.weak

/-- The counts of object `p`. -/
def ArcSys.count (s : ArcSys α) (c : ArcCtr) (p : Nat) : Nat :=
  match s.objs[p]? with
  | some o => o.count c
  | none => 0

namespace Arc
variable (mx : Nat)

/-- What a step of a thread that does `op` does to memory, with the orderings of the source. -/
def eff (ch : ArcChoice α) (s : ArcSys α) : ArcOp α → ArcEff
  -- `fetch_add(1, Relaxed)` (arc.rs 480)
  | .clone _ p => .rmw .strong p (incr mx (s.count .strong p)) false false
  -- `load_weak(Relaxed)` (arc.rs 260)
  | .down _ p => .load .weak p false
  -- `load(Relaxed)` (arc.rs 68), `compare_exchange_weak(_, _, Acquire, Relaxed)` (arc.rs 93-94, 263)
  | .down1 _ p v =>
    if v = lock mx then .load .weak p false
    else if s.count .weak p = v ∧ ch.fail = false then .rmw .weak p (v + 1) true false
    else .load .weak p false
  | .read _ p => .touch p .read
  -- `load(SeqCst)` (arc.rs 279)
  | .count _ p => .load .strong p true
  -- `load_weak(SeqCst)` (arc.rs 271)
  | .wcount _ p => .load .weak p true
  -- `compare_exchange(0, usize::MAX, Acquire, Relaxed)` (arc.rs 321-326)
  | .get0 p =>
    if s.count .weak p = 0 then .rmw .weak p (lock mx) true false else .load .weak p false
  -- `load(Acquire)` (arc.rs 330)
  | .get1 p => .load .strong p true
  -- `store(0, Release)` (arc.rs 335)
  | .get2 p _ => .store .weak p 0 true
  | .held p =>
    match ch.write with
    | some _ => .touch p .write
    | none => .none
  -- `fetch_sub(1, Release)`, then `fence(Acquire)` if it was 1 (arc.rs 505-538)
  | .drop0 p =>
    .rmw .strong p (decr mx (s.count .strong p)) (s.count .strong p == 1) true
  | .fin1 p _ => .touch p .write
  -- `load_weak(Acquire)` (arc.rs 355)
  | .fin2 p _ => .load .weak p true
  | .fin3 p _ => .touch p .free
  -- `compare_exchange(1, 0, Acquire, Relaxed)` (arc.rs 225-229)
  | .unw0 p =>
    if s.count .strong p = 1 then .rmw .strong p 0 true false else .load .strong p false
  | .unw1 p => .touch p .write
  -- `load(Acquire)` (arc.rs 240)
  | .unw2 p _ => .load .weak p true
  | .unw3 p _ => .touch p .free
  -- `load_strong(Acquire)` (arc.rs 176)
  | .mm0 p _ => .load .strong p true
  -- `load_weak(Acquire)` (arc.rs 177)
  | .mm1 p _ _ => .load .weak p true
  -- `compare_exchange_weak(_, _, Release, Relaxed)` (arc.rs 73-95, 193)
  | .mm2 p _ w =>
    if s.count .weak p = w ∧ ch.fail = false then .rmw .weak p (incr mx w) false true
    else .load .weak p false
  -- `compare_exchange_weak(_, 0, Acquire, Relaxed)` (arc.rs 104-109, 197)
  | .mm3 p _ =>
    if s.count .strong p = 1 ∧ ch.fail = false then .rmw .strong p 0 true false
    else .load .strong p false
  | .mm4 p _ => .touch p .write
  | .mmC p _ => .touch p .read
  | .mmA _ _ _ _ => if ch.grant then .init s.objs.length else .none
  -- `drop` of the old handle (arc.rs 499-541)
  | .mm5 p _ _ _ =>
    .rmw .strong p (decr mx (s.count .strong p)) (s.count .strong p == 1) true

/-- The load a step makes, or the compare-and-exchange that may fail: counter, object and whether
it is an `Acquire` load. Lines as for `eff`; all compare-and-exchanges are `Relaxed` where they fail. -/
def loads : ArcOp α → Option (ArcCtr × Nat × Bool)
  | .down _ p | .down1 _ p _ | .get0 p | .mm2 p _ _ => some (.weak, p, false)
  | .count _ p | .get1 p | .mm0 p _ => some (.strong, p, true)
  | .wcount _ p | .fin2 p _ | .unw2 p _ | .mm1 p _ _ => some (.weak, p, true)
  | .unw0 p | .mm3 p _ => some (.strong, p, false)
  | _ => none

/-- What a step of thread `t` does when that load reads `v`; `none` where a compare-and-exchange cannot
fail on `v`. Lines as for `step`. -/
def loaded (t v : Nat) : ArcOp α → Option (M (ArcSys α) Unit)
  | .down h p => some (goto t (.down1 h p v))
  | .down1 h p u => some (if u = lock mx then goto t (.down1 h p v) else pure ())
  | .count _ _ => some (done t (.nat v))
  | .wcount _ _ => some (done t (.nat (if v = lock mx then 0 else v)))
  | .get0 p => if v = 0 then none else some (do give p; done t .no)
  | .get1 p => some (goto t (.get2 p (v == 1)))
  | .fin2 p k => some (if v = 0 then goto t (.fin3 p k) else after t k)
  | .unw0 p => if v = 1 then none else some (do give p; done t .err)
  | .unw2 p x => some (if v = 0 then goto t (.unw3 p x) else done t (.val x))
  | .mm0 p d => some (goto t (.mm1 p d v))
  | .mm1 p d k =>
    some (if k = 1 then if v = 0 then goto t (.held p) else goto t (.mm2 p d v)
      else goto t (.mmC p d))
  | .mm2 p d _ => some (goto t (.mm2 p d v))
  | .mm3 p d => some (goto t (.mmC p d))
  | _ => none

end Arc

/-- What can happen: as `ArcStep`, and loads may read old messages. -/
inductive ArcWStep (mx : Nat) (calm : Prop) : ArcSys α × ArcMem → ArcSys α × ArcMem → Prop
  | new (t : Nat) (x : α) {s : ArcSys α} {m : ArcMem} : s.threads[t]? = some none →
      ArcWStep mx calm (s, m)
        ({ s with
            objs := s.objs ++ [⟨1, 0, x, true, 0, 0, false, 0, 0, false⟩]
            hands := s.hands ++ [some s.objs.length] },
          let m' := m.apply t 0 (.init s.objs.length)
          { m' with hnd := fun h => if h = s.hands.length then m'.thr t else m'.hnd h })
  | borrow (t : Nat) {s : ArcSys α} {m : ArcMem} (cmd : ArcCmd α) {h p : Nat} {f : Nat → ArcOp α} :
      s.threads[t]? = some none → cmd.borrows = some (h, f) → s.hands[h]? = some (some p) →
      ArcWStep mx calm (s, m)
        ({ s with threads := s.threads.set t (some (f p)) }, m.learn t (m.hnd h))
  | take (t : Nat) {s : ArcSys α} {m : ArcMem} (cmd : ArcCmd α) {h p : Nat} {o : ArcObj α}
      {f : Nat → α → ArcOp α} :
      s.threads[t]? = some none → cmd.takes = some (h, f) → s.hands[h]? = some (some p) →
      s.objs[p]? = some o → s.Unborrowed h →
      ArcWStep mx calm (s, m)
        ({ s with
            hands := s.hands.set h none
            threads := s.threads.set t (some (f p o.val)) }, m.learn t (m.hnd h ++ m.ret h))
  | dropWeak (p : Nat) {s : ArcSys α} {m : ArcMem} {o : ArcObj α} : s.objs[p]? = some o → 0 < o.wk →
      ArcWStep mx calm (s, m) ({ s with objs := s.objs.set p { o with wk := o.wk - 1 } }, m)
  /-- a step; where it loads, it reads the latest message -/
  | run (t : Nat) (ch : ArcChoice α) {s s' : ArcSys α} {m : ArcMem} {op : ArcOp α} :
      s.threads[t]? = some (some op) → Arc.step mx ch t op s = .ok () s' →
      (calm → ¬ ArcLoses ch op) →
      ArcWStep mx calm (s, m)
        (s', (m.apply t (m.latest ((Arc.loads op).elim .strong (·.1)) ((Arc.loads op).elim 0 (·.2.1)))
          (Arc.eff mx ch s op)).close t op s s')
  /-- a load, or a compare-and-exchange that fails, which reads message `j` -/
  | load (t j : Nat) {s s' : ArcSys α} {m : ArcMem} {op : ArcOp α} {c : ArcCtr} {p : Nat} {acq : Bool}
      {x : ArcMsg} {f : M (ArcSys α) Unit} :
      s.threads[t]? = some (some op) → Arc.loads op = some (c, p, acq) →
      (m.msgs c p)[j]? = some x → m.Readable t c p j →
      Arc.loaded mx t x.val op = some f → (do let _ ← Arc.obj p; f) s = .ok () s' →
      ArcWStep mx calm (s, m) (s', (m.apply t j (.load c p acq)).close t op s s')

/-- `n` steps. -/
inductive ArcWSteps (mx : Nat) (calm : Prop) (x : ArcSys α × ArcMem) : Nat → ArcSys α × ArcMem → Prop
  | refl : ArcWSteps mx calm x 0 x
  | tail {n : Nat} {y z : ArcSys α × ArcMem} : ArcWSteps mx calm x n y → ArcWStep mx calm y z →
      ArcWSteps mx calm x (n + 1) z

/-- The states that any number of idle threads can reach in `n` steps. -/
def ArcWReaches (mx : Nat) (calm : Prop) (n : Nat) (s : ArcSys α) (m : ArcMem) : Prop :=
  ∃ k, ArcWSteps mx calm (ArcSys.start k, ArcMem.start) n (s, m)

end Lokky
