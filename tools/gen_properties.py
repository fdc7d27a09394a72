#!/usr/bin/env python3
"""Generates /verif/properties.jsonl from the table below (one place to edit wording)."""
import json, os
P = []
def p(id, title, statement, quantifier, why, *anchors):
    P.append(dict(id=id, title=title, statement=statement, quantifier=quantifier,
                  why_tests_cant=why, anchors=list(anchors)))

HIST = "A test runs a few fixed call sequences; the claim is about every sequence of calls, every length and every content."
ALLOC = "Tests run with an allocator that never fails and with small sizes; the claim covers every pattern of allocator refusals and every size."
SCHED = "Thread interleavings cannot be enumerated by tests; a test run observes one schedule per execution."

# ---------------------------------------------------------------- Vec
p("C01", "Vec behaves like a list under every call history",
  "For any program that creates any number of Vec values (new, with_capacity, clone, from an array, from an iterator) and calls push, pop, insert, remove, swap_remove, truncate, clear, append, extend_from_slice, extend_from_iter, resize, resize_with, reserve, reserve_exact, shrink_to, shrink_to_fit, element read and element overwrite on them, every returned value and every observable content equals what the same calls produce on mathematical lists; a call whose index is out of range panics and changes nothing.",
  "all element types of non-zero size, all histories of calls on any pool of Vecs, all allocator grant/refuse patterns (a refusal panics and leaves the content unchanged, except that a refused extend_from_iter keeps the items appended before the refusal)", HIST,
  "src/vec.rs: Vec::{new,with_capacity,push,pop,insert,remove,swap_remove,truncate,clear,append,extend_from_slice,extend_from_iter,resize,resize_with,reserve,reserve_exact,shrink_to,shrink_to_fit}", "src/vec.rs: impl From<[T; N]>, impl FromIterator, impl Clone, impl Index, impl IndexMut")
p("C02", "Vec is memory safe under every call history",
  "No such history (C01) ever reads a slot that was never written, touches memory outside the current buffer, touches a released buffer, releases a buffer twice, or hands the allocator a size or an owner different from the one the buffer was obtained with.",
  "all histories as in C01, provided capacities stay within the isize::MAX byte limit, no buffer is shrunk to zero bytes (C22) and, if overlapping copies count as an error, swap_remove is not called on the last of several elements (C79)", HIST,
  "src/vec.rs: impl Vec, impl Drop for Vec", "src/ptr.rs: ScopePtr::{alloc_array_uninit,realloc_array,dealloc}")
p("C03", "Every element is owned exactly once",
  "At every moment of every such history each element handed to a Vec is in exactly one place: still inside one Vec, returned to the caller, or dropped; nothing is duplicated, dropped twice or lost, also when a call panics.",
  "all histories as in C01, element types with a destructor", HIST,
  "src/vec.rs: impl Vec, impl Drop for Vec, ResizeWith::do_resize")
p("C04", "Vec returns all its memory",
  "The live heap blocks are at every moment exactly the buffers of the live Vecs with non-zero capacity, one each; once every Vec is dropped no block is left, and each block was released once, to the allocator that supplied it, with its own size.",
  "all histories as in C01", HIST, "src/vec.rs: impl Drop for Vec", "src/ptr.rs: ScopePtr::dealloc")
p("C05", "Capacity contract",
  "with_capacity(n) yields capacity exactly n (n > 0) and length 0; a successful reserve_exact(k) yields capacity max(old, len+k); a successful reserve(k) yields at least len+k and, if it grew, at least twice the old capacity and at least the minimal non-zero capacity; shrink_to(m) yields min(old, max(len, m)); none of them changes the content.",
  "all vectors, all requested sizes within the byte limit", ALLOC,
  "src/vec.rs: Vec::{with_capacity,try_reserve,try_reserve_exact,grow_amortized,grow_exact,shrink,shrink_to,shrink_to_fit,MIN_NON_ZERO_CAP}")
p("C06", "Pushing is amortised",
  "Building a Vec of n elements by push asks the allocator a number of times that grows logarithmically in n.",
  "all n", "Tests do not count allocator calls and use n <= 4.",
  "src/vec.rs: Vec::push, Vec::reserve_exact")
p("C07", "A refused allocation is reported and harmless",
  "When the allocator refuses, try_reserve, try_reserve_exact and try_with_capacity return an error, the panicking variants and push panic, and in all cases content, length, capacity and every other Vec are unchanged, no block is leaked, and the pushed element is dropped exactly once.",
  "all vectors, all requests, all refusal patterns", ALLOC,
  "src/vec.rs: Vec::{try_reserve,try_reserve_exact,push}", "src/ptr.rs: ScopePtr::{alloc_layout,realloc_array}")
p("C08", "Capacity overflow is an error, never corruption",
  "try_reserve and try_reserve_exact called with an amount that cannot be represented return Err(CapacityOverflow) and leave the vector usable, in debug and in release builds.",
  "all vectors, all additional amounts, debug and release arithmetic", ALLOC,
  "src/vec.rs: Vec::{try_reserve,try_reserve_exact,grow_exact}, OverflowGuardedAdd", "src/ptr.rs: ScopePtr::realloc_array")
p("C09", "retain keeps exactly the accepted elements",
  "v.retain(f) calls f once on every element in order and leaves exactly the elements for which f returned true, in order; the others are dropped exactly once.",
  "all vectors, all (stateful, possibly panicking) predicates", HIST,
  "src/vec.rs: Vec::retain, RetainIter::{new,retain,keep_next,discard_next}")
p("C10", "dedup removes exactly the consecutive repetitions",
  "dedup, dedup_by and dedup_by_key keep the first element of every run of equivalent neighbours, in order, and drop every other element exactly once.",
  "all vectors, all equivalence tests and keys", HIST,
  "src/vec.rs: Vec::{dedup,dedup_by,dedup_by_key}, RetainIter::{new,dedup_by,dedup_by_key}")
p("C11", "split_off partitions the vector",
  "v.split_off(at) leaves the first `at` elements in v and returns a vector with the remaining ones.",
  "all vectors, all split points", HIST, "src/vec.rs: Vec::split_off")
p("C12", "drain removes and yields the range",
  "v.drain(a..b) yields the elements a..b in order, and once the drain is dropped v holds the elements before a followed by those from b on; an invalid range panics and leaves v unchanged.",
  "all vectors, all ranges", HIST, "src/vec.rs: Vec::drain, DrainInner::{new,next,next_back,drop}")
p("C13", "A Vec built from a slice holds the slice",
  "Vec::from(&[T]) and Vec::from(&mut [T]) return a vector with clones of all elements in order.",
  "all slices", HIST, "src/vec.rs: impl From<&[T]> for Vec<T>, impl From<&mut [T]> for Vec<T>")
p("C14", "By-value iteration yields every element once, in order",
  "Calling next on v.into_iter() any number of times yields the elements in order and then None for ever; dropping the iterator at any point drops exactly the elements not yet yielded, once each, and releases the buffer.",
  "all vectors, all numbers of next calls", HIST, "src/vec.rs: IntoIter::{next,drop}")
p("C15", "By-value iteration from both ends never yields an element twice",
  "Any interleaving of next and next_back on an IntoIter yields each element at most once: the fronts in order, the backs in reverse order, and None once all are out.",
  "all vectors, all interleavings of next and next_back", HIST, "src/vec.rs: IntoIter::{next,next_back,drop}")
p("C16", "IntoIter reports its exact remaining length",
  "After any sequence of next/next_back calls size_hint and len return exactly the number of elements still to be yielded, and as_slice returns exactly those elements.",
  "all vectors, all call sequences", HIST, "src/vec.rs: IntoIter::{size_hint,as_slice,as_slice_mut}, impl ExactSizeIterator")
p("C17", "leak gives a permanently valid slice",
  "v.leak() returns a slice with the elements of v that is never deallocated and whose elements are not dropped.",
  "all vectors", "The slice is valid right after the call in a test only by luck of the allocator.", "src/vec.rs: Vec::leak")
p("C18", "Vec works for zero-sized element types",
  "For element types of size zero a Vec never touches the allocator, has unlimited capacity, counts its elements correctly, and can be dropped.",
  "all histories over a zero-sized type", "No test uses a zero-sized type.", "src/vec.rs: Vec::{capacity,shrink}, impl Drop for Vec, Vec::into_boxed_slice")
p("C19", "A Vec remembers its allocation marker",
  "A Vec created with marker m reports marker() = m and obtains every buffer it ever uses from the allocator that the scope selects for m.",
  "all markers, all scopes, all later histories", "No test uses a marker.", "src/vec.rs: Vec::{with_marker,with_capacity_and_marker,marker,grow_exact}", "src/ptr.rs: ScopePtr::dangling")
p("C20", "A Vec allocates in the scope that created it",
  "All buffers of a Vec come from the allocator of the scope that was current when the Vec was created, even if it first grows inside an inner scope.",
  "all scope changes between creation and growth", "Tests have one scope only.", "src/vec.rs: Vec::{with_marker,grow_exact,try_with_capacity_and_marker}")
p("C21", "A panicking destructor never causes a double drop",
  "If the destructor of an element panics inside clear, truncate or the destructor of the Vec, every element is dropped at most once over the rest of the program, and the Vec left behind contains only elements that were not dropped.",
  "all vectors, all sets of panicking elements", "Needs every position of the panicking element and the later history.", "src/vec.rs: Vec::{clear,truncate}, impl Drop for Vec")
p("C22", "Shrinking an empty vector is safe",
  "shrink_to_fit (and shrink_to(0), into_boxed_slice) on an empty Vec with spare capacity is well defined and releases the buffer.",
  "all empty vectors with non-zero capacity", "Depends on the allocator contract for zero sized requests.", "src/vec.rs: Vec::{shrink,shrink_to_fit,into_boxed_slice}", "src/ptr.rs: ScopePtr::realloc_array")
p("C23", "Comparison and hashing see the content only",
  "==, partial_cmp/cmp and hash of Vec depend only on the element sequence: two vectors with equal contents but different capacity, buffer address, marker or history are equal, compare Equal and hash equally; cmp is the lexicographic order.",
  "all pairs of vectors, all representations of the same content", "Representations are unbounded in number.", "src/vec.rs: impl PartialEq, PartialOrd, Ord, Hash for Vec")
p("C24", "User callbacks may panic",
  "If T::clone panics inside extend_from_slice, clone or resize, or the callback of resize_with or retain panics, the vector is left with valid elements only, each owned once.",
  "all vectors, all panic positions", "Every panic position and every later history matter.", "src/vec.rs: Vec::{extend_from_slice,resize,resize_with,retain}, impl Clone")
p("C25", "Vec and boxed slice convert without loss",
  "v.into_boxed_slice() holds exactly the elements of v in a buffer of exactly that size, Vec::from of it gives back a Vec with the same content and capacity = length, and dropping the box drops every element once and releases the buffer.",
  "all vectors of a non-zero-sized type", HIST, "src/vec.rs: Vec::into_boxed_slice, impl From<Box<[T]>> for Vec<T>", "src/ptr.rs: impl Drop for ScopePtr")
# ---------------------------------------------------------------- Box / ScopePtr
p("C26", "Box owns its value",
  "Box::new(x) allocates one block, dereferences to x (or to what was last assigned through it), and dropping the box drops the value once and releases the block once to its allocator.",
  "all values, all element types, all assignments", "Only manual inspection shows what the assignment into fresh memory does.", "src/boxed.rs: Box::new", "src/ptr.rs: ScopePtr::{alloc,deref,deref_mut,drop,dealloc}")
p("C27", "Box::into_inner moves the value out",
  "Box::into_inner returns the value, releases the block exactly once and does not drop the value.",
  "all values", "A double free is not observable in an assertion.", "src/boxed.rs: Box::into_inner", "src/ptr.rs: ScopePtr::into_inner")
# ---------------------------------------------------------------- SmallVec
p("C28", "SmallVec behaves like a list under every call history",
  "For every history of push, pop, insert, remove, swap_remove, clear, append, extend_from_slice, extend, reserve, reserve_exact, move_to_heap, split_off, clone, into_vec on SmallVecs of any inline size N, outputs and contents equal those of lists.",
  "all N, all histories, all element types of non-zero size", HIST, "src/small_vec.rs: SmallVec, StackVec")
p("C29", "Stack or heap storage is invisible",
  "Two SmallVecs with the same content, one stored inline and one on the heap, return the same results and keep the same content under the same calls.",
  "all contents, all N, all further calls", HIST, "src/small_vec.rs: redirect_fn!, Storage")
p("C30", "SmallVec stays memory safe and owns every element once",
  "In the histories of C28 no memory error happens, every element is in exactly one place, and the heap holds exactly the buffers of heap-stored SmallVecs.",
  "all N, all histories", HIST, "src/small_vec.rs: SmallVec, StackVec, impl Drop for StackVec")
p("C31", "A SmallVec stays on the stack while it fits",
  "As long as a SmallVec<T, N> never holds more than N elements, pushing does not allocate.",
  "all N, all element sizes, all lengths up to N", "Tests check N = 4 for one size.", "src/small_vec.rs: SmallVec::{push,try_reserve,try_reserve_exact}")
p("C32", "SmallVec::truncate drops the removed elements",
  "truncate(k) keeps the first k elements and drops the others exactly once, for inline and for heap storage.",
  "all contents, all k, both storages", "Leaks are invisible to assertions on integers.", "src/small_vec.rs: StackVec::truncate")
p("C33", "SmallVec::remove stays inside its storage",
  "remove(i) with i < len returns element i, closes the gap, and touches no memory outside the inline array.",
  "all N, all lengths, all i", "Reading one element past the array goes unnoticed in a test.", "src/small_vec.rs: StackVec::{remove,unchecked_remove}")
p("C34", "SmallVec::insert rejects bad indices",
  "insert(i, x) with i > len panics and changes nothing; with i <= len it inserts x at i, in debug and release builds.",
  "all lengths, all i, debug and release", "Tests run with debug assertions.", "src/small_vec.rs: SmallVec::insert, StackVec::unchecked_insert")
p("C35", "SmallVec::resize reaches every length",
  "resize(n, x) and resize_with(n, f) leave the first min(len, n) elements followed by n - len new ones, for every n.",
  "all N, all lengths, all n", "The test only resizes a full inline vector.", "src/small_vec.rs: SmallVec::{resize,resize_with}, StackVec::resize", "src/vec.rs: ResizeWith::do_resize")
p("C36", "try_move_to_stack moves the elements inline",
  "If len <= N, try_move_to_stack leaves the same content stored inline and releases the heap buffer once, without dropping elements; otherwise it returns an error and changes nothing.",
  "all contents, all N", "Double frees are not visible to assertions.", "src/small_vec.rs: SmallVec::try_move_to_stack", "src/vec.rs: Vec::dealloc_without_drop")
p("C37", "SmallVec built from an array holds the array",
  "SmallVec::from([x1..xL]) has length L and exactly these elements.",
  "all L, all N", "No test converts an array.", "src/small_vec.rs: impl From<[T; L]> for SmallVec<T, N>")
p("C38", "SmallVec::split_off partitions the vector",
  "split_off(at) and split_off_into leave the first `at` elements and return the others, for every at <= len; at > len panics and changes nothing.",
  "all contents, all at, all target inline sizes", HIST, "src/small_vec.rs: SmallVec::{split_off,split_off_into}")
p("C39", "SmallVec spills with its own marker",
  "When a SmallVec created with marker m moves to the heap, the buffer comes from the allocator selected for m and the heap vector keeps marker m.",
  "all markers, all N, all contents", "No test uses a marker.", "src/small_vec.rs: SmallVec::{with_marker,try_move_to_heap_and_reserve_exact,try_with_capacity_and_marker}")
# ---------------------------------------------------------------- String
p("C40", "String is always valid UTF-8",
  "Every String reachable through push, push_str, pop, insert, insert_str, remove, truncate, clear, retain, extend, clone, from_utf8, from_utf16, += and concatenation holds valid UTF-8, including after a call that panicked.",
  "all histories, all characters, all indices, all panicking callbacks", "UTF-8 validity quantifies over all strings and byte offsets.", "src/string.rs: String")
p("C41", "String behaves like a sequence of characters",
  "In such histories as_str is always the UTF-8 encoding of the character list obtained by the same edits on lists of characters, and pop/remove return the removed character; len is the number of bytes.",
  "all histories", HIST, "src/string.rs: String::{push,pop,push_str,insert,insert_str,remove,truncate,clear,len}")
p("C42", "Byte offsets inside a character are rejected",
  "insert, insert_str, remove, truncate and split_off with an offset that is not a character boundary (or is beyond the end, where truncate just does nothing) panic and leave the string unchanged; offsets on a boundary are accepted.",
  "all strings, all offsets", "All offsets of all strings.", "src/string.rs: String::{insert,insert_str,remove,truncate,split_off}")
p("C43", "String::retain keeps the accepted characters",
  "retain(f) calls f once per character in order and keeps exactly those with f = true; if f panics, the string is the kept characters among those already visited, and is valid UTF-8.",
  "all strings, all stateful or panicking predicates", "All mixes of character widths and panic positions.", "src/string.rs: String::retain")
p("C44", "from_utf8 accepts exactly valid UTF-8",
  "String::from_utf8(bytes) succeeds iff bytes is the UTF-8 encoding of some character sequence, and then the string holds exactly these bytes.",
  "all byte sequences", "256^n inputs.", "src/string.rs: String::from_utf8")
p("C45", "from_utf16 decodes exactly well-formed UTF-16",
  "String::from_utf16(units) succeeds iff every surrogate is paired, and then holds the decoded characters; in particular decoding the UTF-16 encoding of any text gives the text.",
  "all sequences of 16-bit units", "65536^n inputs.", "src/string.rs: String::from_utf16")
p("C46", "String order is code point order",
  "Comparing two Strings gives the lexicographic order of their code points, equality is equality of characters, and hash depends on characters only.",
  "all pairs of strings", "All pairs of strings.", "src/string.rs: impl PartialEq, PartialOrd, Ord, Hash for String")
p("C47", "String::from(&str) holds the text",
  "String::from(&str), FromStr, From<&String> and From<char> return a String with that text.",
  "all texts", "No test in string.rs.", "src/string.rs: impl From<&str>, From<char>, From<&String>, FromStr for String", "src/vec.rs: impl From<&[T]> for Vec<T>")
p("C48", "String::split_off partitions the text",
  "split_off(at) at a boundary leaves the text before `at` and returns the rest.",
  "all strings, all boundaries", HIST, "src/string.rs: String::split_off", "src/vec.rs: Vec::split_off")
p("C49", "Safe code cannot break a String",
  "No sequence of safe calls makes a String hold invalid UTF-8.",
  "all safe histories including byte-level access", "Existence of one bad history is enough; tests cannot exclude it.", "src/string.rs: String::as_mut_vec")
p("C50", "Collecting and extending concatenates",
  "Extending a String with an iterator of chars, &chars, &strs, Strings or boxed strs, and collecting from one, appends all items in order.",
  "all iterators (any length, any size hint that is a possible size), all initial strings", HIST, "src/string.rs: impl Extend<...> for String, impl FromIterator<...> for String")
# ---------------------------------------------------------------- Rc
p("C51", "Rc: a live handle always reads its value",
  "While an Rc handle exists, dereferencing it reads the value it was created with (or last written through get_mut/make_mut), never a moved-out or released one.",
  "all histories of new, clone, drop, downgrade, upgrade, Weak clone/drop, get_mut, make_mut, try_unwrap on any number of Rcs", HIST, "src/rc.rs: Rc, Weak")
p("C52", "Rc: get_mut is exclusive",
  "get_mut returns a reference only if no other Rc or Weak handle refers to the value.",
  "all histories as in C51", HIST, "src/rc.rs: Rc::get_mut, RcBox::is_single_ref")
p("C53", "Rc: the value is dropped exactly once, when the last handle goes",
  "The value is dropped when the last Rc handle is dropped and never before or again; the memory is released when the last Weak is gone too.",
  "all histories as in C51", HIST, "src/rc.rs: impl Drop for Rc, impl Drop for Weak")
p("C54", "Rc: upgrade fails once the value is gone",
  "Weak::upgrade returns Some iff an Rc handle to the value exists at that moment.",
  "all histories as in C51", HIST, "src/rc.rs: Weak::upgrade, impl Drop for Rc")
p("C55", "Rc: counts are exact",
  "strong_count and weak_count return the number of existing Rc and Weak handles of the value.",
  "all histories as in C51", HIST, "src/rc.rs: Rc::{strong_count,weak_count}, Weak::{strong_count,weak_count}")
p("C56", "Rc: try_unwrap moves the value out once",
  "try_unwrap succeeds iff the handle is the only Rc, returns the value, and no other handle can reach it afterwards; otherwise it returns the handle unchanged.",
  "all histories as in C51", HIST, "src/rc.rs: Rc::try_unwrap")
p("C57", "Rc: make_mut never disturbs others",
  "make_mut gives access to the current value, unshared: other Rc handles keep reading the old value, Weak handles are detached, no panic, in debug and release.",
  "all histories as in C51, debug and release", HIST, "src/rc.rs: Rc::make_mut, RcBox::{set_zero_strong,dec_strong}")
# ---------------------------------------------------------------- Arc
p("C58", "Arc: a live handle always reads its value",
  "Under every interleaving of clone, drop, downgrade, get_mut, make_mut, try_unwrap and reads by any number of threads, a read through a live handle reads a value that is neither dropped, moved out nor released.",
  "all numbers of threads, all schedules of the individual atomic steps (sequentially consistent), all spurious compare-exchange failures", SCHED, "src/arc.rs: Arc, AtomicCounter")
p("C59", "Arc: the value is dropped exactly once",
  "Under every interleaving the value is dropped or moved out at most once, and when all handles are gone and no operation is pending it was dropped or moved out exactly once.",
  "all threads, all schedules", SCHED, "src/arc.rs: impl Drop for Arc, Arc::{drop_slow,try_unwrap,make_mut}")
p("C60", "Arc: memory is released exactly once and not too early",
  "The block is released at most once, only after the value is gone and no handle can reach it; if no Weak was ever created it is released once all handles are gone.",
  "all threads, all schedules", SCHED, "src/arc.rs: Arc::{drop_slow,try_unwrap}")
p("C61", "Arc: get_mut is exclusive",
  "If get_mut returns Some, no other Arc or Weak handle to the value exists for as long as the returned reference lives.",
  "all threads, all schedules", SCHED, "src/arc.rs: Arc::{get_mut,is_unique,downgrade}")
p("C62", "Arc: at most one try_unwrap wins",
  "Among concurrent try_unwrap calls on handles of one value at most one returns the value; a failed one returns a working handle.",
  "all threads, all schedules", SCHED, "src/arc.rs: Arc::try_unwrap")
p("C63", "Arc: memory is returned after the last Weak",
  "When all Arc and Weak handles are gone the block is released.",
  "all histories with Weak handles", SCHED, "src/arc.rs: Weak")
p("C64", "Arc: downgrade terminates",
  "A downgrade call completes if its thread keeps running and other threads stop interfering.",
  "all threads, all schedules", SCHED, "src/arc.rs: Arc::downgrade, AtomicCounter::{sync_lock,try_increment}")
p("C65", "Arc: make_mut gives unshared access to the same value",
  "After make_mut the handle refers to a value equal to the old one that no other handle refers to; other handles keep the old value; nothing is dropped twice or lost.",
  "all threads, all schedules, all spurious failures", SCHED, "src/arc.rs: Arc::make_mut")
p("C66", "Arc: strong_count is exact",
  "In every quiescent state (no operation pending) strong_count equals the number of Arc handles of the value.",
  "all threads, all schedules", SCHED, "src/arc.rs: Arc::strong_count")
# ---------------------------------------------------------------- Urc
p("C67", "Urc: a live handle always reads its value",
  "While a Urc handle exists in any thread, reading through it reads a value that was not moved out or released.",
  "all histories of new, clone, drop, downgrade, Weak drop, envelop, get_mut, try_unwrap, make_mut over any number of fences (threads)", SCHED, "src/urc.rs: Urc, Fence, Master")
p("C68", "Urc: get_mut is exclusive",
  "If get_mut returns Some, no other Urc or Weak of the same value exists in any thread.",
  "all histories as in C67", SCHED, "src/urc.rs: Urc::{get_mut,is_unique}")
p("C69", "Urc: get_mut succeeds for a sole owner",
  "If a handle is the only Urc of its value and no Weak exists, get_mut returns Some.",
  "all histories as in C67", SCHED, "src/urc.rs: Urc::is_unique")
p("C70", "Urc: the value is dropped exactly once and the memory released",
  "When the last Urc in all threads is dropped the value is dropped once; master and fence memory are released when the last Weak is gone too.",
  "all histories as in C67", SCHED, "src/urc.rs: impl Drop for Urc, impl Drop for Weak")
p("C71", "Urc: try_unwrap moves the value out only for a sole owner",
  "try_unwrap returns the value iff the handle is the only Urc in all threads, touches no released memory, and otherwise returns the handle with all counts unchanged.",
  "all histories as in C67", SCHED, "src/urc.rs: Urc::try_unwrap")
p("C72", "Urc: make_mut never disturbs others",
  "make_mut gives unshared access to an equal value; other handles keep reading the old one; no panic in debug or release.",
  "all histories as in C67, debug and release", SCHED, "src/urc.rs: Urc::make_mut")
p("C73", "Urc: per-fence counts are exact",
  "fence_strong_count and fence_weak_count equal the number of Urc and Weak handles of that fence.",
  "all histories of new, clone, drop, downgrade, Weak drop, envelop, get_mut", HIST, "src/urc.rs: Fence::{inc_strong,dec_strong,inc_weak,dec_weak}, impl Clone for Urc, impl Drop for Urc, impl Drop for Weak")
# ---------------------------------------------------------------- Scope
p("C74", "Nested scopes restore the outer scope",
  "After spawn returns, the current scope is the one before the call, for any nesting depth.",
  "all nesting depths and orders", "Depth is unbounded; no test spawns a scope.", "src/scope.rs: Env::{spawn,current}")
p("C75", "Inside spawn the new scope is current",
  "During the callback of spawn, current() is the scope produced by scope_init.",
  "all scope types and values", "No test spawns a scope.", "src/scope.rs: Env::spawn")
p("C76", "A panicking scope body still restores the outer scope",
  "If the callback of spawn panics and the panic is caught outside, current() is again the outer scope.",
  "all nesting depths", "Needs unwinding at every depth.", "src/scope.rs: Env::spawn")
p("C77", "Markers and selectors are usable as map keys",
  "Equality of AllocMarker and of AllocSelector is an equivalence relation and equal values hash equally.",
  "all markers and selectors", "Quantifies over all triples.", "src/scope.rs: impl PartialEq, Hash for AllocMarker; impl PartialEq, Hash for AllocSelector")
p("C78", "A marker identifies its type",
  "AllocMarker::new::<A>() == AllocMarker::new::<B>() iff A and B are the same type.",
  "all pairs of types, all ways the linker places type names", "String placement is decided by the compiler and linker.", "src/scope.rs: AllocMarker::new, impl PartialEq for AllocMarker")
p("C79", "swap_remove of the last element is well defined",
  "v.swap_remove(v.len() - 1) on a vector with several elements stays within the contracts of the copy primitives it uses.",
  "all vectors with at least two elements", "An overlapping copy_nonoverlapping of one element to itself usually works when compiled, so a test passes.", "src/vec.rs: Vec::swap_remove")
p("C80", "Box equality and order are those of the values",
  "Two boxes are equal, or ordered, exactly as the values they own; where the values are stored, which allocator owns them and which markers the boxes carry make no difference; comparing changes nothing.",
  "all pairs of boxes, all element comparisons", "Quantifies over all placements and comparison functions.", "src/boxed.rs: impl PartialEq for Box, impl Ord for Box")
p("C81", "SmallVec: impossible reservations when moving to the heap are rejected",
  "try_move_to_heap_and_reserve_exact with an amount that overflows usize report an error or panic; no memory outside the new buffer is written.",
  "all contents, all amounts, debug and release", "Needs amounts close to usize::MAX in a release build.", "src/small_vec.rs: SmallVec::{try_move_to_heap_and_reserve_exact,move_to_heap}")
p("C82", "Strings encode characters without touching uninitialised memory",
  "Pushing, inserting and converting a character never makes a value out of uninitialised memory.",
  "all characters, all strings, all offsets", "Compiled code usually behaves as if the bytes were arbitrary, so a test passes.", "src/string.rs: String::{push,insert}, impl From<char> for String, uninit_bits")
p("C83", "Range indexing of String selects the text between two offsets",
  "s[a..b], s[..b], s[a..], s[..], s[a..=b] and s[..=b] give exactly the characters between the two byte offsets when both are character boundaries in order, panic for every other pair of offsets, and change nothing.",
  "all strings, all ranges of all six kinds", "All pairs of offsets of all strings.", "src/string.rs: impl Index<Range*> for String")
# ---------------------------------------------------------------- Urc fences
p("C84", "Urc: a fence that was taken out can be put back",
  "A fence that try_into_fence gave can be turned into a Urc again that reads the same value, without releasing any memory twice.",
  "all histories as in C67 that took a fence out", "No test takes a fence out; releasing twice need not show.", "src/urc.rs: Urc::try_into_fence, Fence::into_urc; src/ptr.rs: ScopePtr::into_inner")
p("C85", "Urc: try_into_fence succeeds exactly for the only handle of a fence",
  "try_into_fence gives the fence iff no other Urc and no Weak of the same fence exists; otherwise it returns the handle and changes nothing.",
  "all histories as in C67", HIST, "src/urc.rs: Urc::try_into_fence")
p("C86", "Urc: dropping a fence that was taken out gives up its share of the value",
  "After a fence that try_into_fence gave is dropped, the remaining handles behave as if it had never been made.",
  "all histories as in C67", HIST, "src/urc.rs: Urc::try_into_fence, Fence")
p("C87", "Urc: is_sole_strong_fence tells whether other threads have the value",
  "is_sole_strong_fence is true iff no Urc of the value exists in another thread.",
  "all histories as in C67", SCHED, "src/urc.rs: Urc::is_sole_strong_fence")
# ---------------------------------------------------------------- more on scopes
p("C88", "scope_init gets the surrounding scope",
  "spawn calls scope_init with the scope that is current at the call, and that scope stays current while scope_init runs.",
  "all programs of any nesting, also scopes spawned inside scope_init", "Depth is unbounded; no test spawns a scope.", "src/scope.rs: Env::spawn")
p("C89", "Scopes panic before the environment is set",
  "Before ENV is set, current and spawn panic without calling their arguments and without undefined behaviour.",
  "all programs", "Quantifies over all programs.", "src/scope.rs: env, env_mut, current, spawn")
p("C90", "Scopes are memory safe",
  "No program that spawns scopes, looks at the current scope, panics and catches panics has undefined behaviour.",
  "all scope types, all nestings, all places of panics", "Undefined behaviour need not show; no test spawns a scope.", "src/scope.rs: Env::{spawn,current}")
# ---------------------------------------------------------------- what Arc gives
p("C91", "Arc::clone gives a handle",
  "clone of a live Arc does not panic; it gives one more handle of the same value and leaves every value as it was.",
  "all interleavings of calls by any number of threads", SCHED, "src/arc.rs: impl Clone for Arc")
p("C92", "Arc: get_mut on the only handle gives access",
  "If there is no other Arc and no Weak of the value, get_mut gives Some, whatever other threads do with other values.",
  "all interleavings of calls by any number of threads, after any history", SCHED, "src/arc.rs: Arc::{get_mut,is_unique}, impl Drop for Weak")
p("C93", "Arc: try_unwrap on the only handle gives the value",
  "If there is no other Arc of the value, try_unwrap gives Ok with the value.",
  "all interleavings of calls by any number of threads, after any history", SCHED, "src/arc.rs: Arc::{try_unwrap,make_mut}")
p("C94", "Arc: writes through &mut T are seen, and nothing else changes the value",
  "What a client writes through the &mut T from get_mut or make_mut is the value of the handle from then on; no call changes the value of an Arc in any other way; and the handle is usable again when the reference ends.",
  "all interleavings of calls by any number of threads", SCHED, "src/arc.rs: Arc::{get_mut,make_mut}, impl Deref for Arc")
p("C95", "Arc: weak_count is the number of Weak handles",
  "When no call is running, weak_count equals the number of Weak handles that were made and not dropped.",
  "all histories", HIST, "src/arc.rs: Arc::{weak_count,downgrade}, impl Drop for Weak")
p("C96", "Arc: calls end after a bounded number of steps",
  "Every call on an Arc ends after a bounded number of steps of its own thread, whatever the other threads do, unless compare_exchange_weak keeps failing spuriously.",
  "all interleavings of calls by any number of threads", SCHED, "src/arc.rs: impl Clone for Arc, impl Drop for Arc, Arc::{get_mut,make_mut,try_unwrap,downgrade}")
p("C97", "Arc: make_mut on the only handle works in place",
  "If there is no other Arc and no Weak of the value, make_mut gives access to the value where it is: it does not clone, allocate or panic.",
  "all interleavings of calls by any number of threads, after any history", SCHED, "src/arc.rs: Arc::make_mut")
p("C98", "Urc: no call panics without reason",
  "No call on a Urc or Weak panics unless memory is refused or T::clone panics.",
  "all histories as in C67, debug and release", HIST, "src/urc.rs: all functions")

# ---------------------------------------------------------------- more on SmallVec
p("C99", "SmallVec: reserving gives the requested capacity",
  "After with_capacity, reserve, reserve_exact, move_to_heap or a successful try_ variant, capacity() is at least what was asked for, and exactly the documented amount for the exact variants; contents are unchanged; a refused request leaves the vector as it was; shrinking keeps all elements and at least the requested capacity.",
  "all contents, inline sizes, amounts, allocator answers", "Inline size, length, amount and refusals vary together.", "src/small_vec.rs: SmallVec::{with_capacity,reserve,reserve_exact,try_reserve,try_reserve_exact,move_to_heap,shrink_to,shrink_to_fit}")
p("C100", "SmallVec: no memory is requested while the capacity suffices",
  "reserve(k) and push make no request to an allocator if the capacity already suffices.",
  "all contents, inline sizes, amounts", "Requests are not observable in the results.", "src/small_vec.rs: SmallVec::{reserve,push}")
p("C101", "SmallVec: pushing is amortised",
  "Pushing n elements onto a vector makes O(log n) requests to the allocator.",
  "all vectors, all n", "n is unbounded; requests do not show in the results.", "src/small_vec.rs: SmallVec::push, Heap::try_reserve")
p("C102", "SmallVec: comparison and hashing depend on the contents only",
  "==, cmp and hash of small vectors are those of the slices of their elements, whatever the storage, inline size, capacity and marker, and equal those of a Vec with the same contents.",
  "all pairs of contents, storages, inline sizes", "Pairs of arbitrary contents and storages.", "src/small_vec.rs: impl PartialEq, PartialOrd, Ord, Hash for SmallVec")
p("C103", "SmallVec::retain keeps exactly the accepted elements",
  "retain shows each element to the predicate once, in order; accepted elements stay in order and rejected ones are dropped once, also if the predicate panics.",
  "all contents, inline and heap storage, all predicates including stateful and panicking ones", "Quantifies over all predicates and lengths.", "src/small_vec.rs: SmallVec::retain, StackVec::retain")
p("C104", "SmallVec::dedup removes consecutive duplicates",
  "dedup, dedup_by and dedup_by_key keep the first element of each run of equal elements and drop the others once.",
  "all contents, inline and heap storage, all tests and keys", "Quantifies over all tests and lengths.", "src/small_vec.rs: SmallVec::{dedup,dedup_by,dedup_by_key}")
p("C105", "SmallVec::drain removes exactly the range",
  "drain yields the elements of the range in order and leaves the others in order; invalid ranges panic and leave the vector unchanged.",
  "all contents, inline and heap storage, all ranges", "All ranges of all lengths.", "src/small_vec.rs: SmallVec::drain; src/slice.rs: Drain")
p("C106", "SmallVec converts to and from boxed slices without losing elements",
  "into_boxed_slice gives a box with exactly the elements, released correctly when dropped; From<Box<[T]>> gives them back; nothing else is touched, and a refused request drops each element once.",
  "all contents, inline and heap storage, all allocator answers", "Memory errors need not show.", "src/small_vec.rs: SmallVec::into_boxed_slice, impl From<Box<[T]>> for SmallVec")

# ---------------------------------------------------------------- Arc with its memory orderings
p("C107", "Arc: no data races",
  "Of two accesses to the same ArcInner that conflict (one stores the value, moves it out, drops it, initialises or releases the memory) one happens before the other, by the memory orderings in the source and the hand-over of handles.",
  "all numbers of threads, all schedules, all counts that a load may read under release-acquire memory", "x86 hardware hides missing orderings; a race need not show.", "src/arc.rs: Arc, AtomicCounter; all Ordering arguments")
p("C108", "Arc: values are safe under weak memory",
  "Also where loads return outdated counts as the orderings allow, reads through handles find the value, it is dropped or moved out exactly once, at most one try_unwrap wins, memory is released once and not early, and &mut from get_mut and make_mut is exclusive.",
  "all numbers of threads, all schedules, all counts that a load may read under release-acquire memory", "Outdated loads are rare and depend on the hardware.", "src/arc.rs: Arc, AtomicCounter; all Ordering arguments")

# ---------------------------------------------------------------- comparison, hashing, ptr_eq, conversions
p("C109", "Box, Rc, Arc and Urc compare and hash like their values",
  "==, <, <=, >, >=, partial_cmp, cmp and hash of boxes and shared handles give what they give for the values inside, and change nothing.",
  "all pairs of handles after any history, all element types and their comparisons", "Quantifies over all comparisons and histories.", "src/boxed.rs: impl PartialOrd, Hash for Box", "src/rc.rs: impl PartialEq, PartialOrd, Ord, Hash for Rc", "src/arc.rs: impl PartialEq, PartialOrd, Ord, Hash for Arc", "src/urc.rs: impl PartialEq, PartialOrd, Ord, Hash for Urc")
p("C110", "ptr_eq tells whether two handles share the value",
  "Rc, Arc and Urc: ptr_eq is true exactly for handles of the same value: a clone, and for Urc a handle received by another thread, shares the value with the original; a new handle shares it with no other one.",
  "all pairs of handles after any history", HIST, "src/rc.rs: Rc::ptr_eq", "src/arc.rs: Arc::ptr_eq", "src/urc.rs: Urc::ptr_eq")
p("C111", "Rc: Debug output of a Weak tells whether the value is there",
  "A Weak shows the value while an Rc of it exists, that it was deallocated when there is no Rc left, and null if it was made by Weak::new.",
  "all histories", HIST, "src/rc.rs: impl Debug for Weak")
p("C112", "Rc from a Box keeps the value",
  "Rc::from(box) gives a handle with the value of the box; the memory of the box is released once and the value is not dropped.",
  "all boxes", "Memory errors need not show.", "src/rc.rs: impl From<Box<T>> for Rc<T>", "src/ptr.rs: ScopePtr::into_inner")

p("C113", "Boxed iterators and hashers behave like the ones inside",
  "next, nth, next_back, nth_back, size_hint, len, finish and write on a Box return what they return on the value, and change it alike; nothing is dropped and no other memory is touched.",
  "all iterators and hashers, all sequences of calls, also with panics that are caught", "Quantifies over all implementations and call sequences.", "src/boxed.rs: impl Iterator, DoubleEndedIterator, ExactSizeIterator, Hasher for Box")
p("C114", "Writing through a range of a String changes exactly that part",
  "Changing the text given by an IndexMut range (or as_mut_str) in place changes that part of the string and nothing else; a range that does not lie on character boundaries panics and changes nothing.",
  "all texts, all ranges of all six kinds, all changes that keep the length", "All texts and ranges.", "src/string.rs: impl IndexMut, DerefMut for String")
p("C115", "Strings print as usual",
  "Display writes the text. Debug writes it as a quoted literal, so that the output tells where a string begins and ends.",
  "all texts", "All texts.", "src/string.rs: impl Display, Debug for String")
p("C116", "Box<str> converts to bytes in place",
  "Box<[u8]> and Vec<u8> made from a Box<str> have its bytes, in the same memory and with the same marker; the memory is released once.",
  "all texts", "Double releases need not show.", "src/boxed.rs: impl From<Box<str>> for Box<[u8]>", "src/ptr.rs: ScopePtr::cast_str_to_bytes", "src/vec.rs: impl From<Box<str>> for Vec<u8>")

p("C117", "The spare capacity can be filled from outside",
  "spare_len is capacity - len and is_full tells whether it is zero. Values written into spare_capacity_mut do not change the vector (nothing is dropped, no memory is requested); for a Vec, set_len(len + k) after writing the first k slots appends exactly the values written. Slots beyond spare_len are refused by a panic. The same holds for SmallVec, on the stack and on the heap, except that its set_len is private.",
  "all vectors, all values written", "Whether the slice really is the free part of the buffer shows only through later memory errors.", "src/vec.rs: Vec::{spare_capacity_mut,spare_len,is_full,set_len}", "src/small_vec.rs: SmallVec::{spare_capacity_mut,spare_len,is_full}, StackVec::{spare_len,is_full}")
# ---------------------------------------------------------------- Urc under weak memory
p("C118", "Urc: no data races",
  "Of two accesses to the same value or Master that conflict (one of them writes the value, moves it out or initialises it) one happens before the other, by the memory orderings in the source and the sending of envelopes; no thread touches a value that was moved out.",
  "all numbers of threads, all interleavings of atomic steps, all counts that a load may read under release-acquire memory, all types T", "x86 hardware hides missing orderings; a race need not show.", "src/urc.rs: Urc, Weak, Master, impl Envelop for Urc; src/scope.rs: Envelope; all Ordering arguments")
p("C119", "dedup_by and dedup_by_key keep the changes that the test makes",
  "The test of dedup_by and the key function of dedup_by_key get the elements by mutable reference. What they change in an element that is kept is there afterwards, what they change in an element that is dropped is what is dropped; a test that swaps its two arguments makes nothing be dropped that stays in the vector.",
  "all contents, all tests and key functions, Vec and SmallVec (inline and heap)", "Tests of dedup use tests that only compare; the lost change is a write to memory that is no longer part of the vector.", "src/vec.rs: RetainIter::{dedup_by,dedup_by_key,keep_next}, Vec::{dedup_by,dedup_by_key}", "src/small_vec.rs: SmallVec::{dedup_by,dedup_by_key}")
p("C120", "SmallVec: a panicking destructor never causes a double drop",
  "If destructors of elements panic inside clear, truncate, resize, resize_with, an index assignment or the destructor of a SmallVec and the program catches the panics and goes on, every element is dropped at most once over the whole program, vectors contain only elements that were not dropped, and only vectors whose own destructor panicked leak memory.",
  "all client programs, all sets of panicking elements, all inline sizes", "Needs every position of the panicking element, both storages and the later history.", "src/small_vec.rs: SmallVec::{clear,truncate,resize,resize_with}, StackVec::clear, impl Drop for StackVec", "src/vec.rs: Vec::clear, impl Drop for Vec")
p("C121", "retain and dedup are safe when destructors panic",
  "If the destructor of an element, or the test, panics inside retain, dedup, dedup_by or dedup_by_key, the vector that is left holds some of its elements in their order, other elements were dropped once each, and no element is both in the vector and dropped. The panicking destructor is the last one that runs. If the call returns, no destructor panicked.",
  "all contents, all tests (for dedup_by and dedup_by_key: that do not change the elements), all sets of panicking elements and all panicking calls of the test, Vec and SmallVec (inline and heap)", "Needs every position of the panicking element; a second drop need not show.", "src/vec.rs: RetainIter::{new,keep_next,discard_next,retain,dedup_by,dedup_by_key}, Vec::{retain,dedup,dedup_by,dedup_by_key}", "src/small_vec.rs: SmallVec::{retain,dedup,dedup_by,dedup_by_key}")
# ---------------------------------------------------------------- Arrays
p("C122", "Arrays of ScopePtr are safe to use",
  "ScopePtr::alloc_array_uninit, access to the elements through Deref and DerefMut, and dropping the pointer are safe calls, so no program of them has undefined behaviour. Elements are what was last written to them, dropping the array drops each element once and gives the memory back to the allocator it came from; sizes that are too large and refusals of the allocator are reported.",
  "all element types, all lengths, all programs of reads, writes, assignments and resizes", "The undefined behaviour of safe calls need not show in a test; needs all programs.", "src/ptr.rs: ScopePtr::{alloc_array_uninit,alloc_layout,cast_to_slice}, impl Deref, DerefMut, Drop for ScopePtr")
p("C123", "realloc_array changes the size of an array and nothing else",
  "After realloc_array(n) the array has length n and the elements that fit are as before; a size that does not fit is reported as CapacityOverflow, a refusal as AllocError, both with the array as before.",
  "all arrays, all new sizes", "Needs sizes near usize::MAX.", "src/ptr.rs: ScopePtr::realloc_array")
# ---------------------------------------------------------------- Programs with vectors, iterators, boxes
p("C124", "Programs that mix vectors, their iterators and boxed slices own every element once and are memory safe",
  "A program that makes vectors, works on them (also with retain and dedup), turns them into iterators and boxed slices and back, uses and drops these in any order, and catches panics, has no undefined behaviour. At any time every element it handed over or had made is in exactly one place: given back, dropped, in one vector, iterator or boxed slice, or left behind by a panic. Vectors, iterators and boxed slices show what the calls made of them. If no destructor panics every live block of memory belongs to exactly one of them.",
  "all element types of non-zero size, all programs, all destructors, clones and callbacks that panic, all allocators that refuse", "Unboundedly many programs and places for panics; needs an invariant over all live handles.", "src/vec.rs: Vec, IntoIter, into_boxed_slice, From<Box<[T]>>, retain, dedup_by, dedup_by_key", "src/ptr.rs: impl Drop for ScopePtr")
# ---------------------------------------------------------------- What refers to scopes
p("C125", "A reference to a scope cannot be used when the scope is gone",
  "The reference that current() gives is limited to the local execution, as its documentation says, and an Env is limited to the lifetime of the scope it was made of: safe programs that keep references and Envs and use them anywhere never use a scope that is gone.",
  "all nestings of scopes, all programs that keep and use references and Envs", "Depends on what is done after a scope has ended; a dangling reference mostly goes unnoticed.", "src/scope.rs: Env::{new,current,spawn}, current, spawn")
p("C126", "A value allocated in a scope cannot be used when the scope is gone",
  "Boxes, vectors and the like that were allocated in a scope do not outlive it: no safe program grows or drops such a value, which calls the allocator of the scope, after the scope has ended, even if spawn returns the value.",
  "all nestings of scopes, all programs that allocate values and use or drop them anywhere", "Depends on what is done after a scope has ended; a dangling allocator mostly goes unnoticed.", "src/ptr.rs: ScopePtr::{new,alloc}, impl Drop for ScopePtr", "src/scope.rs: Env::spawn")
p("C127", "Programs that mix vectors, small vectors, iterators and boxed slices own every element once and are memory safe",
  "A program that makes vectors and small vectors, works on them (also with retain and dedup), turns vectors into small vectors, iterators and boxed slices, small vectors into vectors and boxed slices, and boxed slices into vectors and small vectors, uses and drops all of these in any order, and catches panics, has no undefined behaviour. At any time every element it handed over or had made is in exactly one place: given back, dropped, in one of these objects, or left behind by a panic. All objects show what the calls made of them. If no destructor panics every live block of memory belongs to exactly one of them.",
  "all element types of non-zero size, all inline capacities, all programs, all destructors, clones and callbacks that panic, all allocators that refuse", "Unboundedly many programs and places for panics; needs an invariant over all live handles of all kinds.", "src/vec.rs: Vec, IntoIter, into_boxed_slice, From<Box<[T]>>", "src/small_vec.rs: SmallVec, into_vec, into_boxed_slice, From<Vec>, From<Box<[T]>>, retain, dedup_by, dedup_by_key", "src/ptr.rs: impl Drop for ScopePtr")
p("C128", "Handles that are forgotten do no harm",
  "mem::forget is safe, so a program can make any number of handles of one value with Rc::clone, Arc::clone or Urc::clone and forget them, catching the panics of clone if there are any. Dropping a handle or calling get_mut on it afterwards never disturbs a handle that is still there: the count never gets below the number of handles.",
  "all numbers of clones, debug and release builds", "Needs more clones than any test can make.", "src/arc.rs: MAX_REFCOUNT, impl Clone for Arc", "src/rc.rs: RcBox::inc_strong, impl Clone for Rc", "src/urc.rs: Fence::inc_strong, impl Clone for Urc")
p("C129", "Elements can be changed in place through slices",
  "Client code that gets a mutable slice of a part of a vector, small vector, non-empty boxed slice or of what a by-value iterator has left, and looks at, swaps and replaces elements there, changes exactly that part of the list in exactly that way, also if it panics halfway. Nothing else changes: not the other elements, the capacity, where the elements are, or the other memory blocks, and no memory is requested. The only values dropped are those the code itself drops. A range that does not lie within the elements is a panic without effect. Code that only swaps leaves a permutation.",
  "all element types of non-zero size, all lists, all six kinds of ranges, all client code", "Unboundedly many programs on slices.", "src/vec.rs: DerefMut, IndexMut, as_mut_slice, IntoIter::as_slice_mut", "src/small_vec.rs: DerefMut, as_mut_slice", "src/boxed.rs: DerefMut", "src/ptr.rs: as_mut")
p("C130", "Handles sent to other threads cause no data races",
  "Threads of a safe program may send each other values whose types are Send, and Arc and Urc handles in envelopes. Whatever they do then, two threads never access the same Cell, reference count or value at the same time in conflicting ways.",
  "all programs of any number of threads, all nestings of Rc, Arc and Urc", "Data races show up only in rare schedules, and there are unboundedly many programs and types.", "src/scope.rs: Envelope, Envelop, ScopeRecv", "src/arc.rs: impl Envelop for Arc, impl Send for Arc, impl Sync for Arc", "src/urc.rs: impl Envelop for Urc", "src/rc.rs: RcBox")
p("C131", "Allocators are not used by several threads at once",
  "An allocator that a scope provides is a &dyn GlobalAlloc, which need not be Sync. In a safe program two threads never call the same allocator at the same time.",
  "all programs of any number of threads", "Needs a program in which one thread frees while another allocates.", "src/scope.rs: Scope::alloc_for", "src/ptr.rs: ScopePtr::dealloc, impl Drop for ScopePtr", "src/arc.rs: impl Send for Arc, drop_slow", "src/urc.rs: impl Envelop for Urc, impl Drop for Urc")
p("C132", "Arc: values that hold handles are kept and released with them",
  "Values of Arcs may hold further Arcs, be shared by several values, and be taken apart by several threads at once. Everything that can be reached from a handle of the program is there. When all calls are over, every value that cannot be reached any more has been dropped or moved out exactly once, and its memory released, unless handles were forgotten or form a circle. A destructor has its value for itself and may use and drop what the value holds. Every call ends.",
  "all programs of any number of threads, all interleavings of atomic steps, all graphs of objects", "There are unboundedly many graphs, and the order of releases depends on the schedule.", "src/arc.rs: Arc::new, impl Clone for Arc, impl Drop for Arc, drop_slow, Arc::try_unwrap, Arc::downgrade")
p("C133", "Values stay as long as some thread has a handle",
  "Threads may hold handles inside handles, of Rc, Arc and Urc, clone them, take inner ones out, send them and put them into envelopes. The object of every handle, whether a thread holds it or it is inside another object, is there with its value. Memory is given back by one call only, the drop of the last Arc of a value or the last Urc of a fence; the value of the last Arc is then left to the thread that drops it.",
  "all programs of any number of threads and all orders of their calls", "There are unboundedly many nestings of handles and orders of calls of the threads.", "src/arc.rs: impl Clone for Arc, impl Drop for Arc", "src/rc.rs: impl Clone for Rc, impl Drop for Rc", "src/urc.rs: impl Clone for Urc, impl Drop for Urc, impl Envelop for Urc")
p("C134", "SmallVec works for zero-sized element types",
  "A SmallVec of zero-sized elements behaves like a list: every call answers as the list specification says and drops what it says, never calls the allocator, whether the elements lie inline or on the heap, and dropping the vector drops exactly the elements left.",
  "all zero-sized element types, inline sizes and histories of calls", "The inline size, the number of elements and the history of calls are unbounded, and the heap case needs counts above the inline size of each instance.", "src/small_vec.rs: SmallVec::try_reserve, SmallVec::try_reserve_exact, SmallVec::try_move_to_heap_and_reserve_exact, SmallVec::push, SmallVec::try_with_capacity_and_marker, StackVec", "src/vec.rs: Vec::capacity, OverflowGuardedAdd, impl Drop for Vec")
p("C135", "A handle that cannot be made for want of memory leaves nothing behind",
  "If the allocator refuses memory while a Box, Rc, Arc or Urc is made, or while a Urc is sent to another thread, then the value that was to be stored is dropped exactly once, no memory stays allocated for it, and the handles that exist already behave as if the call had not been made.",
  "all values, all states of the heap and the handles, and every request at which the allocator refuses", "Each request of each constructor would have to be refused in every reachable state; tests run on allocators that do not refuse, and a leak or a counter one too high is not seen in a result.", "src/ptr.rs: ScopePtr::alloc", "src/boxed.rs: Box::new_with", "src/rc.rs: Rc::new", "src/arc.rs: Arc::try_new", "src/urc.rs: Urc::try_new, impl Envelop for Urc")
p("C136", "A pointer knows its allocator and the selector it was chosen by",
  "The memory of a ScopePtr comes from the allocator that the scope current at the call selects for the selector, and goes back to that allocator, whatever scope is current then and whatever the pointer was cast to in between. marker() is the marker of that selector, and alloc_selector() equals that selector, as its documentation says.",
  "all programs that make pointers (Box::new, Box::new_with, ScopePtr::alloc, alloc_array_uninit, the fences of a Urc), cast, clone, enlarge, forget and drop them and change the current scope, all scopes' choices of allocators and all placements of type names", "The sequences of calls, the scopes' answers and the linker's placement of type names are unbounded; one wrong allocator at the end of a long history frees foreign memory, and the addresses of type names differ only between some builds.", "src/ptr.rs: ScopePtr::alloc, ScopePtr::alloc_array_uninit, ScopePtr::cast, ScopePtr::cast_to_slice, ScopePtr::cast_str_to_bytes, ScopePtr::clone, ScopePtr::marker, ScopePtr::alloc_selector, ScopePtr::realloc_array, impl Drop for ScopePtr", "src/boxed.rs: Box::new, Box::new_with", "src/urc.rs: Urc::try_new, Urc::try_into_fence")
p("C137", "Vectors inside vectors are owned, dropped and released exactly once",
  "In a program that keeps Vec<T>s inside Vec<Vec<T>>s, every inner vector that exists is either held by the client or is exactly one element of exactly one outer vector, and everything an outer vector shows is an inner vector that exists. Every call on either level returns or panics, and the destructors of inner vectors run by calls of outer vectors always find their vector alive. Every inner vector ever made either exists or was dropped exactly once. Once the outer vectors are dropped and the client holds none, no block of either level is left and every element handed to an inner vector was dropped or given back exactly once.",
  "for all programs with any number of inner and outer vectors, moving inner vectors in and out and using them in place, with panics caught and allocations refused at any time; element types of non-zero size whose destructors do not panic; calls of outer vectors that do not clone elements",
  "the owner of an inner vector depends on the whole history of both levels; tests follow a few histories and see a double drop or a leak only by accident",
  "vec.rs: push, insert, remove, swap_remove, truncate, clear, append, Drop")
p("C138", "Calls on a vector keep to the aliasing rules of Rust",
  "A program that makes only safe calls on a Vec, a SmallVec or a String, and uses the references it gets from them for as long as the borrow checker lets it, never makes a reference from, reads through or writes through a pointer that the aliasing rules of Rust (Stacked Borrows) do not allow for the place concerned. In particular every element is written through a pointer made for its place, and no pointer is used after a newer &mut to the same place was made.",
  "for all sequences of calls and uses of references, all lengths and capacities, with and without debug assertions; elements of non-zero size",
  "no test can observe a broken aliasing rule: the program usually does what was meant, until a compiler makes use of the rule; the tools that check the rules see only the histories that are run",
  "vec.rs: push, append, insert, remove, swap_remove, split_off, spare_capacity, spare_capacity_mut, IntoIter, RetainIter, From<[T; N]>",
  "small_vec.rs: StackVec, try_move_to_heap_and_reserve_exact, try_move_to_stack",
  "string.rs: remove, insert_bytes, retain")
p("C139", "Handles of a shared value keep to the aliasing rules of Rust",
  "A program that makes only safe calls on Rcs, Arcs or Urcs of one value and on their Weaks, and uses the references it gets from them for as long as the borrow checker lets it, never makes a reference from, reads through or writes through a pointer that the aliasing rules of Rust (Stacked Borrows) do not allow. In particular a reference got from one handle stays usable while other handles are cloned, dropped, asked for a &mut or sent to other threads, and a handle can be dereferenced after its get_mut or make_mut.",
  "for all sequences of calls on any number of handles, Weaks and fences and all uses of the references got from them; calls one after the other",
  "no test can observe a broken aliasing rule: the program usually does what was meant, until a compiler makes use of the rule; the tools that check the rules see only the histories that are run",
  "rc.rs: deref, get_mut, as_mut, make_mut, try_unwrap, Drop, Weak::upgrade",
  "arc.rs: deref, get_mut, get_mut_unchecked, make_mut, try_unwrap, drop_slow",
  "urc.rs: data, master_mut, fence_mut, get_mut, make_mut, Drop for Urc, Weak::fence, envelop")
p("C140", "Calls on a vector keep to Tree Borrows",
  "A program that makes only safe calls on a Vec, a SmallVec or a String, and uses the references it gets from them for as long as the borrow checker lets it, never makes a reference from, reads through or writes through a pointer that Tree Borrows, the more permissive of the two proposals for the aliasing rules of Rust, does not allow for the place concerned, and never touches memory outside the block. So a compiler that relies on no more than Tree Borrows may not break such a program.",
  "for all sequences of calls and uses of references, all lengths and capacities, all answers of the closures of retain and dedup_by and all choices of what they write, with and without debug assertions; elements of non-zero size",
  "no test can observe a broken aliasing rule: the program usually does what was meant, until a compiler makes use of the rule; the tools that check the rules see only the histories that are run",
  "vec.rs: push, append, insert, remove, swap_remove, split_off, spare_capacity, spare_capacity_mut, dedup_by, retain, IntoIter, From<[T; N]>",
  "small_vec.rs: StackVec, try_move_to_heap_and_reserve_exact, try_move_to_stack",
  "string.rs: remove, insert_bytes, retain")
p("C141", "Handles of a shared value keep to Tree Borrows",
  "A program that only makes safe calls on Rc, Arc or Urc handles never uses a reference or raw pointer in a way that Tree Borrows forbids, whatever it does with the references the calls gave it while the borrow checker lets it.",
  "for all programs of calls on handles and Weaks of one value (clone, deref, counts, downgrade, upgrade, get_mut, make_mut, try_unwrap, envelop, drop) with reads and writes through the references in between",
  "undefined behaviour by aliasing shows in no test result; a run under an interpreter checks one program, and the sequences of calls are infinitely many",
  "rc.rs: deref, get_mut, as_mut, make_mut, try_unwrap, Drop, Weak::upgrade",
  "arc.rs: deref, get_mut, get_mut_unchecked, make_mut, try_unwrap, drop_slow",
  "urc.rs: data, master_mut, fence_mut, get_mut, make_mut, try_unwrap, Drop for Urc, Drop for Weak, envelop")
p("C142", "Formatting shows the value",
  "Box, Rc, Arc, Urc: {:?} and {} do to the formatter exactly what they do for the value, with the same result, and change nothing else. {:p} of Arc and Urc shows the address of the value, which is the same for two handles exactly if ptr_eq is true. Vec and SmallVec: {:?} shows the elements as a slice with the same content, [a, b, c].",
  "all histories; all formatters, also ones that fail or panic midway", "Quantifies over all histories and all implementations of the formatting traits.", "src/boxed.rs: impl Debug, Display for Box", "src/rc.rs: impl Debug, Display for Rc", "src/arc.rs: impl Debug, Display, Pointer for Arc", "src/urc.rs: impl Debug, Display, Pointer for Urc", "src/vec.rs: impl Debug for Vec", "src/small_vec.rs: impl Debug for SmallVec")
p("C143", "Handles kept in vectors are owned, dropped and counted once",
  "In a program that keeps Rc, Urc and Weak handles inside Vecs, every handle that exists is either held by the client or is exactly one element of exactly one vector, and everything a vector shows is a handle that exists. Calls of vectors return or panic, and the destructors of handles they run always find their handle alive and return. The counts of a value (weak_count and strong_count of Rc, fence_weak_count and fence_strong_count of Urc) count its handles wherever they are kept; for strong_count of Rc up to the one it is off by when the value once had no Rc handle (C55). Whatever holds of programs that keep handles outside vectors holds of these programs too. Once the vectors are dropped and the client holds no handle, no handle exists and the vectors left no memory behind.",
  "for all programs with any number of handles, values and vectors, moving handles in and out and using them in place, with panics caught and allocations refused at any time; calls of vectors that do not clone elements; calls of handles that do not run into the known faults of Rc::make_mut (C57) and of Urc (C67 to C73); fewer calls than a count can hold",
  "who owns a handle depends on the whole history of vectors and handles; a handle dropped twice or forgotten by a vector only shows in the counts, much later, or as a use after release",
  "vec.rs: push, insert, remove, swap_remove, truncate, clear, append, Drop",
  "rc.rs: Rc, Weak, Drop, strong_count, weak_count",
  "urc.rs: Urc, Weak, Drop, fence_strong_count, fence_weak_count")
p("C144", "Cloning vectors of handles or vectors gives every clone one owner",
  "In a program that keeps Rc, Urc and Weak handles, or vectors, inside Vecs and clones those vectors, extends them from slices or resizes them, every handle and every inner vector that exists, clones included, is either held by the client or is exactly one element of exactly one vector. A clone made by a vector is a new handle of the same kind to the same value as its source, or a new inner vector with the same contents. Cloning a vector of handles panics only if memory is refused, and then nothing changed; cloning a vector of vectors may also panic because a clone of an inner vector does, and then the inner vectors cloned before are dropped and all others are as they were. The counts of a value count its handles wherever they are kept, clones included (strong_count of Rc up to the one of C55). Once the vectors are dropped and the client holds nothing, no handle and no inner vector exists and no memory of vectors is left.",
  "for all programs with any number of handles, values and vectors on both levels, with panics caught, allocations refused at any time and clones of elements of inner vectors panicking at any time; calls of handles that do not run into the known faults of Rc::make_mut (C57) and of Urc (C67 to C73); fewer calls than a count can hold; destructors of elements do not panic",
  "a clone that is counted but has no owner, or has an owner but is not counted, shows only when the last handle is dropped; which clone panics and what had been cloned before it depends on data and allocator",
  "vec.rs: impl Clone for Vec, extend_from_slice, resize, Drop",
  "rc.rs: impl Clone for Rc, impl Clone for Weak, strong_count, weak_count",
  "urc.rs: impl Clone for Urc, fence_strong_count")
p("C145","Handles and vectors kept in containers of any kind have one owner",
  "Store `Rc`, `Urc` or `Weak` handles, or vectors, in vectors, small vectors, by-value iterators and boxed slices, and turn these containers into one another. Every stored handle or vector then has exactly one owner: the client, or one place in one container. Whatever a container shows or gives back exists; whatever a container drops is destroyed once, while it exists. The counts of an `Rc` or `Urc` are the numbers of handles held and stored. When everything is dropped, nothing is left.",
  "for every sequence of calls on the handles or inner vectors and on the containers that makes no new elements by cloning or callbacks, with every panic caught",
  "A handle lost or destroyed twice in one of many conversions shows only as a count that is off by one, a value that is never dropped or a use after free much later; the number of sequences of conversions is unbounded.",
  "src/vec.rs:384-395", "src/vec.rs:495-512", "src/vec.rs:977-990", "src/vec.rs:1032-1131", "src/small_vec.rs:532-550", "src/small_vec.rs:960-974", "src/rc.rs:161-175", "src/urc.rs:496-546")
p("C146","Containers nested to any depth are owned and destroyed once, on every level",
  "Nest vectors, small vectors, by-value iterators and boxed slices in one another to any depth, and use, move, convert and drop the containers of all levels. On every level a container has exactly one owner: the client, or one place in one container of the next level. Every call on any level returns or panics; the containers it drops exist, are dropped once, and their destructors return together with those of everything inside. When the client holds nothing and the outermost containers are gone, no container of any level is left and all memory of all levels is given back.",
  "for every depth and every sequence of calls on containers of all levels that makes no new containers by cloning or callbacks, with every panic caught and no destructor that panics",
  "Tests have a fixed depth, mostly one or two, and a fixed order of moves between the levels. A container destroyed twice or never, several levels down, shows as a use after free or a leak at a place far from the call that caused it.",
  "src/vec.rs:384-395", "src/vec.rs:495-512", "src/vec.rs:977-990", "src/vec.rs:1032-1131", "src/small_vec.rs:532-550", "src/small_vec.rs:725-731", "src/small_vec.rs:960-974", "src/boxed.rs:7", "src/ptr.rs:19-41")
p("C147","Trees of Arcs changed through make_mut behave as if every handle had a tree of its own",
  "Let nodes hold a value and Arcs of further nodes, and let any number of threads build such trees, clone, drop and forget handles, read along any path, make Weaks, take nodes apart with try_unwrap, and change nodes through the &mut T of make_mut and get_mut: write the value, put handles in and take handles out. What the program reads, gets and is given is what it would be if no node were shared and clone copied the whole tree: a change through one handle is never seen through another, and a tree that nobody changes stays as it is. Every such call returns, no step of it accesses a node that is gone, and while there is a &mut T of a node there is no other access to the node. Between calls the nodes that exist are exactly those the program can get at through its handles and forgotten ones; when these are gone every node has been destroyed.",
  "for any number of threads, every tree, every interleaving of the atomic steps, spurious failures of compare_exchange_weak, panics of T::clone and refused memory, in histories of at most isize::MAX steps; memory sequentially consistent",
  "Tests of copy-on-write check a few shapes of sharing on one thread. Whether make_mut copies, moves or changes in place depends on counts that other threads change between its steps, at every level of the tree; a change that leaks into another handle's tree shows as a wrong value far away.",
  "src/arc.rs:135-150", "src/arc.rs:172-220", "src/arc.rs:224-249", "src/arc.rs:259-267", "src/arc.rs:296-358", "src/arc.rs:377-384", "src/arc.rs:466-541")
p("C148","Arcs kept in containers have one owner on any number of threads",
  "Let threads keep Arc<T> handles in vectors, small vectors, by-value iterators and boxed slices, move them in and out, turn the containers into one another and drop them, while other threads clone, read, count, get_mut, make_mut, try_unwrap and drop handles of the same values. Every handle that exists has exactly one owner: a thread, or one place in one container, and its value is there. A container that is truncated, cleared or dropped drops each of its handles once; every step of these drops and of all other calls can be made, in any interleaving. While nothing is under way, strong_count is the number of handles held and kept in containers. When the containers are gone and no thread has a handle, every value has been dropped or moved out exactly once, and all memory of containers and of values that never had a Weak has been given back.",
  "for any number of threads and handles, every interleaving of the atomic steps of drop, get_mut, make_mut and try_unwrap with each other and with calls on containers, every sequence of calls on the containers that makes no new elements by cloning or callbacks, with every panic caught, in histories of at most isize::MAX/3 calls; memory sequentially consistent",
  "Tests of containers use plain elements, and tests of Arc keep a fixed handful of handles in local variables; a handle that a container drops twice or not at all shows only as a count that is off by one, seen by another thread at an unrelated time.",
  "src/arc.rs:135-150", "src/arc.rs:172-249", "src/arc.rs:259-358", "src/arc.rs:466-541", "src/vec.rs:439-460", "src/vec.rs:977-990", "src/vec.rs:1032-1131", "src/small_vec.rs:154-162", "src/small_vec.rs:532-550", "src/small_vec.rs:725-731")
p("C149","Cloning a vector of Arcs clones every handle once",
  "Let threads keep Arc<T> handles in vectors, and clone these vectors, extend them from slices of handles and resize them with a handle, while other threads clone, read, get_mut, make_mut, try_unwrap and drop handles of the same values. clone of a vector returns a vector of as many new handles, the i-th of the same object as the i-th handle of the original, or is refused memory and changes nothing; no clone panics. The original, all other handles and all values stay as they are. Every handle that exists has exactly one owner, and its value is there. While nothing is under way, strong_count is the number of handles held and kept, clones included. When the vectors are gone and no thread has a handle, every value has been dropped or moved out exactly once, and all memory of vectors and of values that never had a Weak has been given back.",
  "for any number of threads, handles and vectors of any length, every interleaving of the steps of drop, get_mut, make_mut and try_unwrap with each other and with calls on vectors, with every panic caught and every allocation of a vector possibly refused, in histories of at most isize::MAX/3 calls in which make_mut is not refused memory after it has moved a value out (C58); the clones of one call are not interleaved with other threads; memory sequentially consistent",
  "Tests clone short vectors of plain values; whether the clones of handles and the count of the shared value agree for every vector, while other threads give up their handles, needs all lengths and all schedules.",
  "src/arc.rs:466-541", "src/arc.rs:172-249", "src/vec.rs:342-350", "src/vec.rs:484-489", "src/vec.rs:691-700", "src/vec.rs:929-935", "src/vec.rs:977-990")
p("C150","Any number of boxes own their values, in containers too",
  "Let a program use any number of Box<T> values: make them with and without marker in changing scopes, read and assign them, compare them, unwrap them with into_inner, and drop them in any order, and keep them in vectors, small vectors, by-value iterators and boxed slices. Every box reads the value last stored in it, whatever is done to the others; comparisons compare these values. Every value handed over is in exactly one box, or was moved out or dropped, once. The memory in use is one block per box, of the allocator the scope chose for it, which the box keeps to its end. A box has one owner, and once all boxes are gone no memory is in use. A refused request changes nothing but dropping the value that was handed over.",
  "for all element types, all numbers of boxes and all histories of calls, in any scopes, with every panic caught and every allocation possibly refused, with boxes held by the client or kept in containers",
  "Tests make one box at a time. That boxes never get at each other's memory, and that each is freed once through its own allocator wherever it was kept, needs all orders of calls of all lengths.",
  "src/boxed.rs:10-20", "src/boxed.rs:69-81", "src/boxed.rs:117-121", "src/ptr.rs:33-41", "src/ptr.rs:181-208", "src/ptr.rs:241-245", "src/vec.rs:439-460", "src/vec.rs:977-990")
p("C151","downcast gives a handle of the type of the value and changes nothing else",
  "downcast of a Box, Rc, Arc or Urc of dyn Any to a type T succeeds exactly if the value is of type T. It then returns a handle of the same value, in place of the one handed over; otherwise it returns that handle. Either way the value, its memory, all other handles and all counts are as before: whatever the handle allowed or ruled out before (reading the value, exclusive access through get_mut, being dropped once, memory given back as it was requested) it does after.",
  "for all handles of dyn Any, however many there are of the value, all types and all values, in every state that programs reach",
  "Tests downcast a fresh handle and read it, which works even if the count has gone wrong; that counts, layouts and exclusive access are right afterwards needs every number of handles and all later calls.",
  "src/boxed.rs:23-31", "src/ptr.rs:68-77", "src/rc.rs:151-159", "src/arc.rs:361-375", "src/urc.rs:421-438")
p("C152","Boxes keep to the aliasing rules of Rust",
  "A program that makes a Box of a value, or has one of a slice or a str, and only makes safe calls on it (dereferencing it either way, comparing, iterating, assigning, turning a Box<str> into a Box<[u8]>, dropping it or taking the value out) never uses a pointer that it must not use, by Stacked Borrows or by Tree Borrows (both taken without protectors, the extra rules for references that are arguments of a running function): every &T stays usable until the box is borrowed mutably, every &mut T until the box is used again, and the box may be used and its memory be given back after any of this. (That into_inner runs the destructor afterwards is the subject of C27.)",
  "for all sizes of the value, all programs of any length, in any order of calls and uses of references that the borrow checker accepts, under both sets of rules",
  "Tests run compiled code, which does not check aliasing rules; Miri checks them for the programs that are run, with Stacked Borrows or with Tree Borrows.",
  "src/boxed.rs:9-20", "src/boxed.rs:33-157", "src/ptr.rs:22-41", "src/ptr.rs:147-158", "src/ptr.rs:181-208", "src/ptr.rs:241-245")
p("C153","Scopes keep to the aliasing rules of Rust",
  "A program that only makes safe calls to spawn scopes, ask for the current scope and allocate, in any nesting, never uses a reference to the environment that it must not use, by Stacked Borrows or by Tree Borrows: the reference that spawn holds is still usable when the function it was given has returned, whatever this function did.",
  "for all programs of spawns, allocations, calls of current, panics and catch_unwind, of any length and nested to any depth, under both sets of rules",
  "Tests run compiled code, which does not check aliasing rules, and a compiler that makes use of the violation may do so in one version and not in another; Miri checks them for the programs that are run only.",
  "src/scope.rs:8-15", "src/scope.rs:126-149", "src/scope.rs:156-158", "src/scope.rs:161-185", "src/marker.rs:98-102", "src/ptr.rs:187-189")

with open(os.path.join(os.path.dirname(__file__), "..", "properties.jsonl"), "w") as f:
    for x in P: f.write(json.dumps(x, ensure_ascii=False) + "\n")
print(len(P))
