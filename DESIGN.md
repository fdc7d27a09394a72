# Design

Machine-checked model (Lean 4.33.0, Mathlib where useful) of the `lokky` crate in `/repo/src`.
`properties.jsonl` lists the properties, `MANIFEST.json` maps each to theorems,
`lean/Verif/` holds the model, the specifications and the proofs.

## Layout

* `Verif/Model/*`  – the code, function by function, every definition citing file and lines.
* `Verif/Spec/*`   – specifications, written without reference to the model's helpers
  (lists, permutations, character sequences, abstract handle pools).
* `Verif/Proofs/*` – helper lemmas.
* `Verif/Props/*`  – one file per area with the property theorems named in `MANIFEST.json`,
  each followed by an `example` showing that its hypotheses can be met by a non-trivial case.

## How code is modelled

*Outcomes.* A call returns `ok`, `panic`, `abort` or `ub`.
`panic` keeps the state (Rust unwinding can be caught), `ub` names the kind of undefined behaviour.
"Memory safe" means: the outcome is never `ub`.

*Configuration* (`Cfg`). Element size and alignment, `isize::MAX`, debug or release arithmetic,
whether the element type has a destructor, which destructors panic, what `clone` does (it may
panic), which allocator requests are granted. Theorems quantify over all of these.

*Memory* (`World`). Heap blocks with an owner allocator, a byte size and typed slots
(`none` = never written); a log of dropped elements; a request counter.
Blocks never get their address reused, so use-after-free and double free are always visible.
`ptr::read` leaves the bits in place, as in Rust; ownership is a separate conservation theorem.

*Collections.* `Vec`, `StackVec`, `SmallVec`, `String`, their iterators, `RetainIter`,
`ResizeWith`, `DrainInner` are modelled on this memory statement by statement.

*Reference counts.* `Rc`/`Weak` as a sequential machine over handles and counted boxes;
`Arc` as a small-step machine: one transition per atomic operation, any number of threads, any
interleaving, spurious failures of `compare_exchange_weak` included; `Urc` at the level of whole
operations over fences and a master (each fence is single threaded; see limits below).

*Scopes.* `Env` and `spawn` as an operation on the current-scope cell; type names as addresses.

## What is proved per property, and how

| Id | Modelled | Method / verdict on the code |
|----|----------|------------------------------|
| C01–C04 | pool of Vecs on the memory model | simulation invariant by induction over histories |
| C05 | reserve/shrink family | symbolic execution of the model |
| C06 | push | code **violates** it: `push` calls `reserve_exact(1)`; refuted for every n (n requests for n pushes); partial: reserved pushes ask nothing, `reserve`-based growth is amortised |
| C07 | refusals | symbolic execution |
| C08 | overflow paths | code **violates** it (`len + additional` panics instead of `Err`; `realloc_array` multiplies unchecked); refuted with witnesses, partial for the checked range |
| C09 | retain | code **violates** it (element 1 is skipped and lost for len ≥ 2); refuted, partial |
| C10 | dedup family | code **violates** it (element 1 is skipped and lost for len ≥ 2); refuted, partial by induction over the scan |
| C11 | Vec::split_off | **violated** (lengths never set); refuted for every proper split, partial |
| C12 | Vec::drain | **violated** (non-empty range panics); refuted, partial |
| C13 | Vec from slice | **violated** (panics unless empty); refuted, partial |
| C14 | IntoIter::next, drop | induction |
| C15 | next + next_back | **violated** (re-yields); refuted, partial |
| C16 | size_hint | **violated** (ignores yielded fronts); refuted; as_slice proved |
| C17 | leak | **violated** (buffer is freed); refuted |
| C18 | zero-sized elements | **violated** (drop deallocates a dangling pointer); refuted, partial |
| C19, C20 | marker / creating scope | **violated**; refuted, partial |
| C21 | panicking destructors | clear **violates** it; without clear, whole programs satisfy it (`Spec/ListsPanic`, ghost vectors stand for those whose destruction was cut short) |
| C22 | shrink to zero | **violated** (zero-size realloc breaks the `GlobalAlloc` contract) |
| C23 | Eq/Ord/Hash | proved on representations |
| C24 | callback panics | proved per operation |
| C25 | boxed slices | proved for non-empty; empty refuted |
| C26 | Box | types with destructors: `alloc` drops uninitialised memory, **violated**; partial for types without |
| C27 | Box::into_inner | **violated** (double drop, double free) |
| C28, C30 | pools of SmallVecs | simulation invariant over all histories of permitted calls; **violated** by `remove` on a full inline vector (reads past the array) and `split_off` at the end |
| C29 | two SmallVecs with equal contents | determinism of the specification; **violated** by `truncate` |
| C31 | push | **violated** for small inline sizes (`reserve(1)` asks for at least the minimal heap capacity); induction for the others |
| C32 | truncate | **violated** inline (`old_len..len` is an empty range) |
| C33, C34 | remove, insert | **violated** inline (full; release builds) |
| C35 | resize, resize_with | **violated** inline when growing past N or shrinking |
| C36 | try_move_to_stack | **violated** whenever the elements fit (buffer released twice) |
| C37 | From<[T; L]> | **violated** when it fits inline (length stays 0) |
| C38 | split_off | **violated** at the end only |
| C39 | marker of spilled vectors | proved over all programs |
| C40, C41 | pools of Strings | simulation invariant over all histories of permitted calls; specification on lists of characters |
| C42, C43, C83 | offsets, retain, ranges | proved per call |
| C44, C45 | decoding | the validators of core, modelled byte by byte, accept exactly the encodings |
| C46 | Eq/Ord/Hash | byte order of UTF-8 is code point order |
| C47 | String from &str, char | **violated** (panics unless empty) |
| C48 | split_off | **violated** before the end (as C11) |
| C49 | byte access | **violated** (`as_mut_vec` is safe) |
| C50 | extend, collect | proved per call, also for moved strings |
| C51–C57 | client programs over Rc and Weak handles | simulation invariants over all histories; all **violated**: values are never dropped and boxes never released (C53), the count stays 1 after the last drop (C54, C55), `try_unwrap` and `make_mut` with a `Weak` leave a second way to the moved-out value (C51, C56, C57), in release builds or after a refusal also `get_mut` (C52); partial for programs without those two calls |
| C58–C66 | threads sharing Arcs, one step per atomic operation | inductive invariant over all interleavings; C60, C61 proved. C63 **violated** (a `Weak` is never taken off the count), C64 **violated** (`try_increment` does not load the count again), C58, C59, C62, C65, C66 **violated** after `make_mut` was refused memory between setting the count to zero and storing the new handle; partial: everything at objects where that did not happen |
| C91–C97 | the same runs: what the calls achieve | same invariant, plus a bound on the steps to go; C94 proved. C92, C95, C97 **violated** once a `Weak` was made (it is never taken off the count), C96 **violated** by `downgrade` (C64), C91, C93 **violated** after a refused `make_mut`; partial otherwise |
| C67–C73, C84–C87, C98 | client programs over Urc, Weak and fence handles of any number of threads | simulation invariant over all histories of permitted calls; C73, C85 proved. **Violated**: `make_mut` with a clone moves the value away (C67, C72), for the only handle it decrements a weak count of zero (C72); a failed `try_unwrap` leaves `strong_fences` at 0, which lets `get_mut` succeed elsewhere (C68, C71), a successful one without `Weak` reads the fence after releasing it (C71); a failed `get_mut` leaves `weak_fences` locked (C69); nothing is ever dropped (C70); `into_inner` releases the fence twice (C84); the count of fences is not given up by a fence taken out (C86) or kept by a `Weak` (C87) |
| C74–C78, C88–C90 | programs that spawn scopes, look, panic and catch, of any nesting; names placed by the linker | induction on programs; C74, C77, C88, C89 proved. C75 **violated** always and C90 mostly (`transmute_copy(&new_scope)` reads the scope, not its address; it panics below 16 bytes), C76 **violated** (restored only when the body returns), C78 **violated** (names may be stored twice or shared) |
| C79 | Vec::swap_remove of the last | **violated** in `strict` mode (`copy_nonoverlapping` with source = destination) |
| C80 | Box comparisons | proved |
| C82 | encoding characters | **violated** in `strict` mode (`uninit_bits` returns uninitialised bytes by value) |
| C81 | SmallVec: reservation when moving to the heap | **violated** in release builds (`len + additional` wraps); refuted, partial |
| C99 | SmallVec: capacity | proved per call |
| C100, C101 | SmallVec: requests to the allocator | **violated**: `reserve` asks for the minimal heap capacity (C100) and does not grow geometrically (C101) |
| C102 | SmallVec: comparison | proved on representations |
| C103–C105 | SmallVec: retain, dedup, drain | the same functions on slices as `Vec` (C09, C10, C12), **violated** in the same way |
| C106 | SmallVec and boxed slices | **violated** for empty vectors only |
| C107, C108 | the runs of C58–C66 with a release-acquire memory: views of threads, handles and stored counts; loads may read any count not known to be outdated | second inductive invariant (who knows of which access) on top of that of C58–C66; **violated** after a refused `make_mut`, and for a `T` such as `Cell`, which an `Envelope` takes to other threads (scope.rs 211) |
| C109 | comparison and hashing of `Box`, `Rc`, `Arc`, `Urc` as functions of the value(s) found through the handles | by the invariants of the handles; **violated** only where the handles themselves are broken (C58, C67) |
| C110 | `ptr_eq` of `Rc`, `Arc`, `Urc` as a comparison of addresses; `UrcHolds` adds to a history the address that each `Urc` keeps beside its fence (Model/UrcData.lean) | all histories: no call on `Urc` frees a master or lets a fence lead elsewhere (`UrcGrow`), so every kept address is that of allocated memory |
| C111 | `Debug` of `rc::Weak` | **violated**: a dropped value is shown |
| C112 | `Rc::from(Box)` | **violated** for every box, by C27 |
| C113 | `Box` as iterator and hasher: arbitrary methods run on the slot behind the pointer | equal to running them on the value, by induction over the calls |
| C114, C115 | `IndexMut`, `Display`, `Debug` of `String` | C83 plus the copy into the buffer; **violated**: `Debug` writes no quotation marks |
| C116 | `Box<str>` as `Box<[u8]>` and `Vec<u8>` | **violated** for empty boxes only, as C25 |
| C117 | spare capacity | proved |
| C118 (and C67, C68, C71, C72, C87 again) | `Urc` handles of any number of threads, one access to shared memory per step, memory as in C107 (Model/UrcThreads.lean) | inductive invariant over handles, fences, counts and what threads know of; **violated** because `Envelope` is `Send` for every `T` (scope.rs 211), so that a `Urc<Cell<_>>` gets to two threads, and after the failed `try_unwrap` of C71 |
| C119 | dedup_by and dedup_by_key with tests that change the elements | **violated**: `keeped` stays at the slot the element was read from (vec.rs 822-823), so changes to kept elements other than the first go to a stale copy, and a swapping test causes a double drop; refuted for both vectors, exact description for every test, partial |
| C120 | small vectors with panicking destructors, whole programs | clear of a spilled vector **violates** it (as C21; 7 dropped twice in a three-call program); inline clear sets the length first and is fine; all other calls of C28 satisfy it (`Spec/SmallPanic`, `Proofs/SmallPoolPanic`) |
| C121 | retain and dedup with panicking destructors and tests | holds: `RetainIter::new` sets the length to what is kept before anything is dropped; the elements not reached leak (`Spec/ScanPanic`, `Proofs/VecScanPanic`) |
| C122, C123 | arrays: `ScopePtr<[T]>` with `alloc_array_uninit`, `realloc_array`, access and destructor (`Model/Array`, `Spec/Array`) | **violated**: `alloc_array_uninit` is safe but its result must not be read or dropped; zero-byte requests; unchecked product in `realloc_array`. Programs that initialise first follow the specification |
| C124 | whole programs with vectors, `retain`/`dedup`, by-value iterators and boxed slices (`Model/VecPrograms`, `Spec/VecPrograms`); destructors and callbacks may panic | **violated** through `next_back` on an exhausted iterator (C15); otherwise every element is in one place and every block has one owner |
| C125, C126 | programs that keep references to scopes, values allocated in them and `Env`s, and use them anywhere (`ScopeUse` in `Model/Scope`) | **violated**: `current(&())` gives a `'static` reference, `Env::new` and `ScopePtr` forget the lifetime of the scope; local use is fine |
| C127 | whole programs with vectors, small vectors, iterators and boxed slices and the conversions between them (`Model/MixedPrograms`, `Spec/MixedPrograms`); destructors and callbacks may panic | **violated** through the calls that are wrong by themselves (C15, C37, …); otherwise every element is in one place and every block has one owner |
| C128 | clones without end, by induction over their number, in the models of `Rc`, `Urc` and `Arc` | **violated**: counts wrap around in release builds; `Arc::clone` panics (the comment says: aborts) after the count was raised, so catching panics makes its count wrap as well |
| C129 | client code on slices as trees of looks, swaps and replacements, run on the memory behind the slice | by induction over the tree |
| C130, C131 | threads with nested handles; what the compiler lets them send, and which memory their calls touch; an invariant says which objects belong to one thread and which to all | **violated**: `Envelop` lacks `T: Send + Sync`; memory is freed on other threads through allocators that need not be `Sync` |
| C132 | objects whose values are lists of handles; a thread has a stack of things still to drop; invariant: counts are the handles in hands, values and stacks | safe and complete; **violated**: a refused `Arc::new` forgets the value and the handles in it, a panicking destructor leaves the memory behind |
| C133 | the threads of C130; invariant: no handle in hands or objects refers to an object that was given back | **violated** when two threads clone one `Urc` at once (`Model/FenceRace`: the count is read and written in two steps); if calls are single steps, objects stay as long as they have handles and are given back by the last |
| C134 | the calls of C31 on inline vectors of size-0 elements, against the list specification; the heap case by computation | **violated** (on the heap `try_reserve` overflows, drop deallocates a dangling pointer); refuted; inline part proved |
| C135 | constructors and `envelop` of the existing models in every state, with a refused request | **violated** by `Rc`, `Arc`, `Urc` (value never dropped, master leaked, fence count one too high); holds for `Box` |
| C136 | programs of `ScopePtr` calls in changing scopes, with a log of what scopes and allocators see (`Model/Selector`, `Spec/Selector`) | **violated** for `alloc_selector` (arrays, fences, other selectors, type names with two addresses); allocators and markers proved |
| C137 | vectors inside vectors: one owner each, dropped once, nothing left | Props/Nested.lean: the pool model of C01–C04 on two levels, elements of the outer level are the vectors of the inner one |
| C138 | aliasing rules: vectors | code **violates** it (`push` and most functions that move elements use a pointer made for too few slots, or one that a newer `&mut` has invalidated); Props/Borrows.lean: a Stacked Borrows machine (Model/Borrows.lean) runs the pointers the functions make and use (Model/BorrowsVec.lean); refuted for every reachable state, partial: all programs of the calls that keep to the rules |
| C139 | aliasing rules: counters | `Rc` and `Arc` keep to the rules; `Urc` **violates** them: every `Urc` stores a `&T` (`data`) made when the value was, and `get_mut`, `make_mut` and dropping the last handle of a fence make a `&mut Master`, after which `*u` of every other handle (also on other threads; the repository's own test `manually_share_urc` may do this) breaks the rules; Props/BorrowsRc.lean, on the machine of C138. Freeing of blocks is left out |
| C140 | Tree Borrows: vectors | code **violates** it in two places: `dedup_by` keeps a raw pointer to the element kept last while it makes new `&mut`s to the whole slice, so a closure that writes that element twice writes through a pointer that has become read-only; `StackVec::unchecked_remove` copies `len - index` elements from `index + 1` on, one too many (small_vec.rs 222), which for a full one is past the end. Props/TreeBorrows.lean: the same pointer code as C138 (Model/BorrowsVec.lean, written over any rules, Model/Alias.lean) on a second machine (Model/TreeBorrows.lean); all other calls proved, in any order |
| C141 | Tree Borrows: counters | `Rc` and `Arc` keep to the rules (Proofs/AliasRc.lean proves the programs once, from laws of the rules that both machines meet); `Urc` **violates** them: after a write through the `&mut T` of `get_mut` or `make_mut` the stored reference `data` must not be used, and `*u` uses it. Without writes all programs keep to the rules, also those that C139 refutes for Stacked Borrows; Props/TreeRc.lean |
| C142 | formatting as a function from the value (or the slice) and the formatter's state to that state and `Ok`, `Err` or a panic (Model/Format.lean) | by reading through the handle; `Debug` of slices is modelled from the documentation of `core`; **violated** where the handles themselves are broken (C58, C67) |
| C143 | `Rc`, `Urc` and `Weak` handles as elements of vectors: one owner each, destructors find them alive, counts count them wherever they are | Props/Handles.lean: the pool models of vectors (C01–C04) and of handles (C51–C57, C67–C73) side by side, elements are the numbers of handles; one composition theorem for both kinds of handle |
| C144 | vectors of handles or of vectors that are cloned, extended from slices, resized: every clone has one owner and refers to the same value (or has the same contents) as its source, also when a clone panics | Props/HandleClones.lean: as C143, with the clone function of the outer vectors given by running the clones of the elements; one composition theorem for `Rc`, `Urc` and `Vec` |
| C145 | handles and vectors in vectors, small vectors, iterators and boxed slices that are turned into one another: owners, destructors, counts, leaks | the programs of C127 on numbers of things, with their destructors; one invariant for all kinds of things; **violated** by `retain` and `dedup` only, which lose an element (C09, C10) |
| C146 | containers nested to any depth: owners, destructors, leaks on every level | containers of things are again things, so that the invariant of C145 carries over to every depth by induction; **violated** by `retain` and `dedup` only, which lose an element (C09, C10) |
| C147 | trees of `Arc`s changed through `make_mut`, `get_mut`, `try_unwrap` on many threads: value semantics | refinement: each handle stands for a tree of its own (`Spec.playTrees`); invariant over objects, handles and steps of calls; between calls the nodes that exist are those that can be reached (`C147_left_partial`); **violated** after `make_mut` is refused memory for a node it moved out (`C147_refuted`) |
| C148 | `Arc`s in vectors, small vectors, iterators and boxed slices, on any number of threads | the containers of C145 over the threads of C58 (`arcThings`); a `drop` that a container begins is a thread of its own, so its steps interleave with all others; **violated** by `retain`/`dedup` (`C148_refuted`) |
| C149 | `clone`, `extend_from_slice` and `resize` of vectors of `Arc`s, on any number of threads | the programs of C144 over the threads of C58 (`arcClonables`); a clone shows the same object and value as its source |
| C150 | programs with any number of boxes, held or kept in containers | `BoxReaches` over `runBox`, specification `Spec.BoxRun`; boxes as things of C145 (`boxThings`); refuted for destructors, zero-sized types, `into_inner`, and `retain` on containers |
| C151 | `downcast` of `Box`, `Rc`, `Arc` and `Urc` | `Model/Downcast.lean`; refuted for `Rc` (the handle is dropped as well, counts go wrong) and `Urc` (a `Fence<dyn Any>` is larger than a `Fence<T>`) |
| C152 | aliasing rules: boxes | `Model/BorrowsBox.lean` on the machines of C138 and C140; the programs are proved once (Proofs/AliasBox.lean), from laws that both machines meet (Proofs/BorrowsBox.lean, Proofs/TreeBox.lean); Props/BorrowsBox.lean |
| C153 | aliasing rules: scopes | code **violates** it (`Env::spawn` restores `cur` through its `&mut Env` after the function it ran has made another one: every allocation in a spawned scope does); `Model/BorrowsScope.lean` on the machines of C138 and C140, for the block of `Env`; Props/BorrowsScope.lean: refuted for both rules, and exactly which programs keep to them, without protectors, and for Stacked Borrows also with them (Model/BorrowsScopeProtect.lean) |

A violated property is recorded as `partial`: a `…_refuted` theorem gives the counterexample
(as general as possible), a `…_partial` theorem states what does hold.

## Trusted base

* The Lean kernel. Axioms used: at most `propext`, `Classical.choice`, `Quot.sound`.
* The reading of the Rust source as the model; each definition cites its lines.
* The modelled behaviour of `core`: `ptr::{read,write,copy,copy_nonoverlapping,drop_in_place}`,
  slice drop glue (drops the rest when one destructor panics), `Layout`, `GlobalAlloc`'s contract,
  `str` functions used (`chars`, `is_char_boundary`, `from_utf8`), `decode_utf16`, atomics.

## Functions without a definition of their own

These only pass on to a function that is modelled, or are not reachable from outside the crate.

| Functions | Stand for |
|---|---|
| arc.rs 40-131 (`load_weak`, `load_strong`, `AtomicCounter`) | the accesses to the counters, one step each, in `Arc.step` |
| arc.rs 153-171, urc.rs 239-257 (`new_uninit`, `pin` and the `try_` forms) | `try_new`, of a value that is not written yet or is not moved again |
| arc.rs 416-420, urc.rs 566-570, rc.rs 338-342, string.rs 310-314 (`Default`) | `new` |
| urc.rs 48-60 (`is_strong`, `is_weak`) | written out where they are used |
| rc.rs 70, 95, 252-305 (`as_ptr`, `ptr_eq`, and of `Weak`: `new`, counts, `ptr_eq`, `as_ptr`) | cases of `runRc`; `ptr_eq` is C110 |
| marker.rs 20-195 (`ExpectSurvive`, `ExpectSurviveMut`, `MaybeDropped`, `UnsafeFrom`) | the reference or value inside; that `MaybeDropped` runs no destructor is in the definitions that use it |
| scope.rs 101-109, 167 (`marker`, `ty`, `env_mut`) | fields |
| small_vec.rs 641-684, 767-808, vec.rs 1157-1207 (`Vecx`) | the methods of the same name; what is written against `Vecx` is modelled on `Buf` |
| small_vec.rs 820-866, vec.rs 906-920, 1152, string.rs 317-327 (`Deref`, `Borrow`, `AsRef`, `AsMut`) | the slice of the contents, C129 |
| small_vec.rs 698-765 (traits of `StackVec`) | not public and not used |
| small_vec.rs 977-985, string.rs 517-531 (`Extend<&T>`, and of `Box<str>`) | `extend` with the items copied, or turned into strings |
| string.rs 21-39, 221 (`with_capacity`, `with_marker`, `from_utf8_unchecked`) | the functions of `Vec` |
| vec.rs 557, 599, 626-645 (`as_slice`, `size_hint` of drains) | a drain never has anything left to yield (`C12_drain_never_yields`) |
| vec.rs 744-760 (`RetainIter::peek` and others) | reads of the buffer in `retain` and `dedup` |
| vec.rs 873, ptr.rs 231 (`From<ArrayAllocError>`, `dangling_in`) | written out where they are used |

## Not modelled

* Weak memory effects of `Arc` and `Urc` beyond release-acquire (C107, C108, C118): load buffering, stores to one counter in
  another order than that of the steps, addresses handed out again by the allocator.
* `Arc`: histories of more than `isize::MAX` steps (but see C128); destructors of the value that panic outside C132; `T::clone` that
  returns something else.
  A value that a refused `make_mut` has copied out counts as being in its place again, as the copy is
  forgotten (`MaybeDropped`): this is the reading most favourable to the code.
* `Urc`: in C67–C73, C84–C87 and C98 operations are atomic with respect to each other; C118 and the `_threads_`
  theorems have one step per access to shared memory. "Permitted" calls are those that do not run into the faults refuted under
  C71, C72, C84; the partial theorems quantify over all programs of permitted calls.
  Reading goes by way of the fence in that model; the code reads at an address kept in the handle. The two agree
  while the fence is there (`C67_kept_partial`), and no refutation rests on reading through a fence given back.
* Scopes: destructors of scopes; aliasing of the scopes themselves (C153 is about the `Env`); a scope's own address inside its bytes.
* `Rc`, outside C128: more calls than `usize::MAX`.
* `{:#?}` of vectors (C142 is about `{:?}`), `Unsize`/`CoerceUnsized`, `Send`/`Sync` impls outside C130.
* `dyn Any` handles outside C151. The crate cannot make them, as it has no unsizing conversion; C151 takes them as given.
* Aliasing rules outside C138 to C141, C152 and C153; there: protectors of function arguments (but for C153 by Stacked Borrows), reborrows of the same range
  when a reference is passed on. Provenance, alignment of addresses.
* Address reuse by the allocator.
* Vectors and handles inside containers (C137, C143, C144, C145, C146) when a destructor panics. There clones and destructors of the
  elements run after the call of the outer vector, not within it (no code of these functions can tell).
