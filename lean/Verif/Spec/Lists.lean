/-!
# Specification of vector programs on mathematical lists

Nothing in this file refers to the model of the code. It says what the calls of a client program
mean when every vector is just a list: what is returned, which list is left, which elements a call
creates through callbacks and which elements it drops, in which order.
-/

namespace Lokky.Spec
variable {α : Type}

/-- An iterator given by the client: the items it yields, the lower bound of its `size_hint` (which
may be wrong), and whether it panics at its end. -/
structure Items (α : Type) where
  items : List α
  hint : Nat
  boom : Bool

/-- Calls on one vector. -/
inductive Op (α : Type) where
  | push (a : α)
  | pop
  | insert (i : Nat) (a : α)
  | remove (i : Nat)
  | swapRemove (i : Nat)
  | truncate (k : Nat)
  | clear
  | extendFromSlice (xs : List α)
  | extendFromIter (it : Items α)
  | resize (k : Nat) (a : α)
  | resizeWith (k : Nat) (f : Nat → Option α)
  | reserve (k : Nat)
  | reserveExact (k : Nat)
  | tryReserve (k : Nat)
  | tryReserveExact (k : Nat)
  | shrinkTo (k : Nat)
  | shrinkToFit
  | get (i : Nat)
  | set (i : Nat) (a : α)
  | read
  | len

/-- Calls of a client program; vectors are numbered in the order of their creation. -/
inductive Cmd (α : Type) where
  | new
  | withCapacity (n : Nat)
  | fromArray (l : List α)
  | fromIter (it : Items α)
  | clone (x : Nat)
  | on (x : Nat) (o : Op α)
  | append (x y : Nat)
  | drop (x : Nat)

/-- What a call returns. -/
inductive Out (α : Type) where
  | unit
  | opt (a : Option α)
  | val (a : α)
  | list (l : List α)
  | nat (n : Nat)
  | err
deriving DecidableEq

/-- What the client sees of a call: the returned value (`none`: it panicked), and whether the
allocator refused a request during the call. -/
structure Event (α : Type) where
  out : Option (Out α)
  refused : Bool
deriving DecidableEq

/-- Normal return. -/
abbrev Event.ret (o : Out α) : Event α := ⟨some o, false⟩
/-- A panic not caused by the allocator. -/
abbrev Event.panic : Event α := ⟨none, false⟩
/-- A panic caused by the allocator. -/
abbrev Event.refuse : Event α := ⟨none, true⟩

/-- What cloning an element may result in; `none`: it panics. -/
abbrev CloneRel (α : Type) := α → Option α → Prop

/-- `ys` are clones of `xs`, one by one. -/
inductive Clones (cl : CloneRel α) : List α → List α → Prop
  | nil : Clones cl [] []
  | cons {a b : α} {xs ys : List α} : cl a (some b) → Clones cl xs ys →
      Clones cl (a :: xs) (b :: ys)

/-- `Edit cl o ev l l' made dropped`: calling `o` on the list `l` may be seen as `ev`, leaving `l'`;
the callbacks created `made`, and `dropped` was dropped, in this order. -/
inductive Edit (cl : CloneRel α) : Op α → Event α → List α → List α → List α → List α → Prop
  | push (a l) : Edit cl (.push a) (.ret .unit) l (l ++ [a]) [] []
  | pushRefused (a l) : Edit cl (.push a) .refuse l l [] [a]
  | pop (l) : Edit cl .pop (.ret (.opt l.getLast?)) l l.dropLast [] []
  | insert (i a l) : i ≤ l.length →
      Edit cl (.insert i a) (.ret .unit) l (l.take i ++ a :: l.drop i) [] []
  | insertBad (i a l) : l.length < i → Edit cl (.insert i a) .panic l l [] [a]
  | insertRefused (i a l) : i ≤ l.length → Edit cl (.insert i a) .refuse l l [] [a]
  | remove (i l) (h : i < l.length) :
      Edit cl (.remove i) (.ret (.val l[i])) l (l.take i ++ l.drop (i + 1)) [] []
  | removeBad (i l) : l.length ≤ i → Edit cl (.remove i) .panic l l [] []
  | swapRemove (i l) (h : i < l.length) :
      Edit cl (.swapRemove i) (.ret (.val l[i])) l
        ((l.set i (l.getLast (List.ne_nil_of_length_pos (Nat.zero_lt_of_lt h)))).dropLast) [] []
  | swapRemoveBad (i l) : l.length ≤ i → Edit cl (.swapRemove i) .panic l l [] []
  | truncate (k l) : Edit cl (.truncate k) (.ret .unit) l (l.take k) [] (l.drop k)
  | clear (l) : Edit cl .clear (.ret .unit) l [] [] l
  | extendFromSlice (xs ys l) : Clones cl xs ys →
      Edit cl (.extendFromSlice xs) (.ret .unit) l (l ++ ys) ys []
  | extendFromSliceRefused (xs l) : Edit cl (.extendFromSlice xs) .refuse l l [] []
  | extendFromSlicePanic (pre a post ys l) : Clones cl pre ys → cl a none →
      Edit cl (.extendFromSlice (pre ++ a :: post)) .panic l (l ++ ys) ys []
  | extendFromIter (it l) : it.boom = false →
      Edit cl (.extendFromIter it) (.ret .unit) l (l ++ it.items) [] []
  | extendFromIterRefused (it pre post l) : it.items = pre ++ post →
      Edit cl (.extendFromIter it) .refuse l (l ++ pre) [] post
  | extendFromIterPanic (it l) : it.boom = true →
      Edit cl (.extendFromIter it) .panic l (l ++ it.items) [] []
  | resizeDown (k a l) : k ≤ l.length →
      Edit cl (.resize k a) (.ret .unit) l (l.take k) [] (l.drop k ++ [a])
  | resizeUp (k a ys l) : l.length < k → Clones cl (List.replicate (k - l.length - 1) a) ys →
      Edit cl (.resize k a) (.ret .unit) l (l ++ ys ++ [a]) ys []
  | resizeRefused (k a l) : l.length < k → Edit cl (.resize k a) .refuse l l [] [a]
  | resizePanic (k a m ys l) : m < k - l.length - 1 → Clones cl (List.replicate m a) ys →
      cl a none → Edit cl (.resize k a) .panic l (l ++ ys) ys [a]
  | resizeWithDown (k f l) : k ≤ l.length →
      Edit cl (.resizeWith k f) (.ret .unit) l (l.take k) [] (l.drop k)
  | resizeWithUp (k f ys l) : l.length < k →
      (List.range (k - l.length)).map f = ys.map some →
      Edit cl (.resizeWith k f) (.ret .unit) l (l ++ ys) ys []
  | resizeWithRefused (k f l) : l.length < k → Edit cl (.resizeWith k f) .refuse l l [] []
  | resizeWithPanic (k f m ys l) : m < k - l.length → (List.range m).map f = ys.map some →
      f m = none → Edit cl (.resizeWith k f) .panic l (l ++ ys) ys []
  | reserve (k l) : Edit cl (.reserve k) (.ret .unit) l l [] []
  | reserveRefused (k l) : Edit cl (.reserve k) .refuse l l [] []
  | reserveExact (k l) : Edit cl (.reserveExact k) (.ret .unit) l l [] []
  | reserveExactRefused (k l) : Edit cl (.reserveExact k) .refuse l l [] []
  | tryReserve (k l) : Edit cl (.tryReserve k) (.ret .unit) l l [] []
  | tryReserveRefused (k l) : Edit cl (.tryReserve k) ⟨some .err, true⟩ l l [] []
  | tryReserveExact (k l) : Edit cl (.tryReserveExact k) (.ret .unit) l l [] []
  | tryReserveExactRefused (k l) : Edit cl (.tryReserveExact k) ⟨some .err, true⟩ l l [] []
  | shrinkTo (k l) : Edit cl (.shrinkTo k) (.ret .unit) l l [] []
  | shrinkToRefused (k l) : Edit cl (.shrinkTo k) .refuse l l [] []
  | shrinkToFit (l) : Edit cl .shrinkToFit (.ret .unit) l l [] []
  | shrinkToFitRefused (l) : Edit cl .shrinkToFit .refuse l l [] []
  | get (i l) (h : i < l.length) : Edit cl (.get i) (.ret (.val l[i])) l l [] []
  | getBad (i l) : l.length ≤ i → Edit cl (.get i) .panic l l [] []
  | set (i a l) (h : i < l.length) : Edit cl (.set i a) (.ret .unit) l (l.set i a) [] [l[i]]
  | setBad (i a l) : l.length ≤ i → Edit cl (.set i a) .panic l l [] [a]
  | read (l) : Edit cl .read (.ret (.list l)) l l [] []
  | len (l) : Edit cl .len (.ret (.nat l.length)) l l [] []

/-- Running calls on one vector from the empty list. `made` and `dropped` are the elements created by
callbacks and dropped on the way, in order. -/
inductive Edits (cl : CloneRel α) :
    List (Op α × Event α) → List α → List α → List α → Prop
  | start : Edits cl [] [] [] []
  | step {h l made dropped o ev l' made' dropped'} : Edits cl h l made dropped →
      Edit cl o ev l l' made' dropped' →
      Edits cl (h ++ [(o, ev)]) l' (made ++ made') (dropped ++ dropped')

/-- The vectors of a program as lists; `none`: dropped. -/
abbrev Lists (α : Type) := List (Option (List α))

/-- The same for all calls of a client program. -/
inductive Step (cl : CloneRel α) :
    Cmd α → Event α → Lists α → Lists α → List α → List α → Prop
  | new (L) : Step cl .new (.ret .unit) L (L ++ [some []]) [] []
  | withCapacity (n L) : Step cl (.withCapacity n) (.ret .unit) L (L ++ [some []]) [] []
  | withCapacityRefused (n L) : Step cl (.withCapacity n) .refuse L L [] []
  | fromArray (l L) : Step cl (.fromArray l) (.ret .unit) L (L ++ [some l]) [] []
  | fromArrayRefused (l L) : Step cl (.fromArray l) .refuse L L [] l
  | fromIter (it L) : it.boom = false →
      Step cl (.fromIter it) (.ret .unit) L (L ++ [some it.items]) [] []
  | fromIterPanic (it d L) : it.boom = true → d.Perm it.items →
      Step cl (.fromIter it) .panic L L [] d
  | fromIterRefused (it d L) : d.Perm it.items → Step cl (.fromIter it) .refuse L L [] d
  | clone (x l ys L) : L[x]? = some (some l) → Clones cl l ys →
      Step cl (.clone x) (.ret .unit) L (L ++ [some ys]) ys []
  | cloneRefused (x L) : Step cl (.clone x) .refuse L L [] []
  | clonePanic (x pre a post ys L) : L[x]? = some (some (pre ++ a :: post)) → Clones cl pre ys →
      cl a none → Step cl (.clone x) .panic L L ys ys
  | on (x o ev l l' made dropped L) : L[x]? = some (some l) → Edit cl o ev l l' made dropped →
      Step cl (.on x o) ev L (L.set x (some l')) made dropped
  | append (x y l l' L) : x ≠ y → L[x]? = some (some l) → L[y]? = some (some l') →
      Step cl (.append x y) (.ret .unit) L ((L.set x (some (l ++ l'))).set y (some [])) [] []
  | appendRefused (x y L) : Step cl (.append x y) .refuse L L [] []
  | drop (x l L) : L[x]? = some (some l) → Step cl (.drop x) (.ret .unit) L (L.set x none) [] l

/-- A history of calls as seen by the client. -/
abbrev History (α : Type) := List (Cmd α × Event α)

/-- Running a history on lists from the empty state. `made` and `dropped` are the elements created
by callbacks and dropped during the whole history, in order. -/
inductive Runs (cl : CloneRel α) : History α → Lists α → List α → List α → Prop
  | start : Runs cl [] [] [] []
  | step {h L made dropped cmd ev L' made' dropped'} : Runs cl h L made dropped →
      Step cl cmd ev L L' made' dropped' →
      Runs cl (h ++ [(cmd, ev)]) L' (made ++ made') (dropped ++ dropped')

/-- Elements the client hands over by value in a call. -/
def Op.given : Op α → List α
  | .push a => [a]
  | .insert _ a => [a]
  | .extendFromIter it => it.items
  | .resize _ a => [a]
  | .set _ a => [a]
  | _ => []

/-- Elements the client hands over by value in a call. -/
def Cmd.given : Cmd α → List α
  | .fromArray l => l
  | .fromIter it => it.items
  | .on _ o => o.given
  | _ => []

/-- Elements the client gets back by value from a call. -/
def taken (cmd : Cmd α) (ev : Event α) : List α :=
  match cmd, ev.out with
  | .on _ .pop, some (.opt (some a)) => [a]
  | .on _ (.remove _), some (.val a) => [a]
  | .on _ (.swapRemove _), some (.val a) => [a]
  | _, _ => []

/-- All elements handed over in a history. -/
def History.given (h : History α) : List α := h.flatMap fun e => e.1.given
/-- All elements given back in a history. -/
def History.taken (h : History α) : List α := h.flatMap fun e => Spec.taken e.1 e.2
/-- All elements stored in the vectors. -/
def Lists.contents (L : Lists α) : List α := L.flatMap fun l => l.getD []

end Lokky.Spec
