{"id": "C01", "title": "Vec behaves like a list under every call history", "statement": "For any program that creates any number of Vec values (new, with_capacity, clone, from an array, from an iterator) and calls push, pop, insert, remove, swap_remove, truncate, clear, append, extend_from_slice, extend_from_iter, resize, resize_with, reserve, reserve_exact, shrink_to, shrink_to_fit, element read and element overwrite on them, every returned value and every observable content equals what the same calls produce on mathematical lists; a call whose index is out of range panics and changes nothing.", "quantifier": "all element types of non-zero size, all histories of calls on any pool of Vecs, all allocator grant/refuse patterns (a refusal panics and leaves the content unchanged, except that a refused extend_from_iter keeps the items appended before the refusal)", "why_tests_cant": "A test runs a few fixed call sequences; the claim is about every sequence of calls, every length and every content.", "anchors": ["src/vec.rs: Vec::{new,with_capacity,push,pop,insert,remove,swap_remove,truncate,clear,append,extend_from_slice,extend_from_iter,resize,resize_with,reserve,reserve_exact,shrink_to,shrink_to_fit}", "src/vec.rs: impl From<[T; N]>, impl FromIterator, impl Clone, impl Index, impl IndexMut"]}
{"id": "C02", "title": "Vec is memory safe under every call history", "statement": "No such history (C01) ever reads a slot that was never written, touches memory outside the current buffer, touches a released buffer, releases a buffer twice, or hands the allocator a size or an owner different from the one the buffer was obtained with.", "quantifier": "all histories as in C01, provided capacities stay within the isize::MAX byte limit, no buffer is shrunk to zero bytes (C22) and, if overlapping copies count as an error, swap_remove is not called on the last of several elements (C79)", "why_tests_cant": "A test runs a few fixed call sequences; the claim is about every sequence of calls, every length and every content.", "anchors": ["src/vec.rs: impl Vec, impl Drop for Vec", "src/ptr.rs: ScopePtr::{alloc_array_uninit,realloc_array,dealloc}"]}
{"id": "C03", "title": "Every element is owned exactly once", "statement": "At every moment of every such history each element handed to a Vec is in exactly one place: still inside one Vec, returned to the caller, or dropped; nothing is duplicated, dropped twice or lost, also when a call panics.", "quantifier": "all histories as in C01, element types with a destructor", "why_tests_cant": "A test runs a few fixed call sequences; the claim is about every sequence of calls, every length and every content.", "anchors": ["src/vec.rs: impl Vec, impl Drop for Vec, ResizeWith::do_resize"]}
{"id": "C04", "title": "Vec returns all its memory", "statement": "The live heap blocks are at every moment exactly the buffers of the live Vecs with non-zero capacity, one each; once every Vec is dropped no block is left, and each block was released once, to the allocator that supplied it, with its own size.", "quantifier": "all histories as in C01", "why_tests_cant": "A test runs a few fixed call sequences; the claim is about every sequence of calls, every length and every content.", "anchors": ["src/vec.rs: impl Drop for Vec", "src/ptr.rs: ScopePtr::dealloc"]}
{"id": "C05", "title": "Capacity contract", "statement": "with_capacity(n) yields capacity exactly n (n > 0) and length 0; a successful reserve_exact(k) yields capacity max(old, len+k); a successful reserve(k) yields at least len+k and, if it grew, at least twice the old capacity and at least the minimal non-zero capacity; shrink_to(m) yields min(old, max(len, m)); none of them changes the content.", "quantifier": "all vectors, all requested sizes within the byte limit", "why_tests_cant": "Tests run with an allocator that never fails and with small sizes; the claim covers every pattern of allocator refusals and every size.", "anchors": ["src/vec.rs: Vec::{with_capacity,try_reserve,try_reserve_exact,grow_amortized,grow_exact,shrink,shrink_to,shrink_to_fit,MIN_NON_ZERO_CAP}"]}
{"id": "C06", "title": "Pushing is amortised", "statement": "Building a Vec of n elements by push asks the allocator a number of times that grows logarithmically in n.", "quantifier": "all n", "why_tests_cant": "Tests do not count allocator calls and use n <= 4.", "anchors": ["src/vec.rs: Vec::push, Vec::reserve_exact"]}
{"id": "C07", "title": "A refused allocation is reported and harmless", "statement": "When the allocator refuses, try_reserve, try_reserve_exact and try_with_capacity return an error, the panicking variants and push panic, and in all cases content, length, capacity and every other Vec are unchanged, no block is leaked, and the pushed element is dropped exactly once.", "quantifier": "all vectors, all requests, all refusal patterns", "why_tests_cant": "Tests run with an allocator that never fails and with small sizes; the claim covers every pattern of allocator refusals and every size.", "anchors": ["src/vec.rs: Vec::{try_reserve,try_reserve_exact,push}", "src/ptr.rs: ScopePtr::{alloc_layout,realloc_array}"]}
{"id": "C08", "title": "Capacity overflow is an error, never corruption", "statement": "try_reserve and try_reserve_exact called with an amount that cannot be represented return Err(CapacityOverflow) and leave the vector usable, in debug and in release builds.", "quantifier": "all vectors, all additional amounts, debug and release arithmetic", "why_tests_cant": "Tests run with an allocator that never fails and with small sizes; the claim covers every pattern of allocator refusals and every size.", "anchors": ["src/vec.rs: Vec::{try_reserve,try_reserve_exact,grow_exact}, OverflowGuardedAdd", "src/ptr.rs: ScopePtr::realloc_array"]}
{"id": "C09", "title": "retain keeps exactly the accepted elements", "statement": "v.retain(f) calls f once on every element in order and leaves exactly the elements for which f returned true, in order; the others are dropped exactly once.", "quantifier": "all vectors, all (stateful, possibly panicking) predicates", "why_tests_cant": "A test runs a few fixed call sequences; the claim is about every sequence of calls, every length and every content.", "anchors": ["src/vec.rs: Vec::retain, RetainIter::{new,retain,keep_next,discard_next}"]}
{"id": "C10", "title": "dedup removes exactly the consecutive repetitions", "statement": "dedup, dedup_by and dedup_by_key keep the first element of every run of equivalent neighbours, in order, and drop every other element exactly once.", "quantifier": "all vectors, all equivalence tests and keys", "why_tests_cant": "A test runs a few fixed call sequences; the claim is about every sequence of calls, every length and every content.", "anchors": ["src/vec.rs: Vec::{dedup,dedup_by,dedup_by_key}, RetainIter::{new,dedup_by,dedup_by_key}"]}
{"id": "C11", "title": "split_off partitions the vector", "statement": "v.split_off(at) leaves the first `at` elements in v and returns a vector with the remaining ones.", "quantifier": "all vectors, all split points", "why_tests_cant": "A test runs a few fixed call sequences; the claim is about every sequence of calls, every length and every content.", "anchors": ["src/vec.rs: Vec::split_off"]}
{"id": "C12", "title": "drain removes and yields the range", "statement": "v.drain(a..b) yields the elements a..b in order, and once the drain is dropped v holds the elements before a followed by those from b on; an invalid range panics and leaves v unchanged.", "quantifier": "all vectors, all ranges", "why_tests_cant": "A test runs a few fixed call sequences; the claim is about every sequence of calls, every length and every content.", "anchors": ["src/vec.rs: Vec::drain, DrainInner::{new,next,next_back,drop}"]}
{"id": "C13", "title": "A Vec built from a slice holds the slice", "statement": "Vec::from(&[T]) and Vec::from(&mut [T]) return a vector with clones of all elements in order.", "quantifier": "all slices", "why_tests_cant": "A test runs a few fixed call sequences; the claim is about every sequence of calls, every length and every content.", "anchors": ["src/vec.rs: impl From<&[T]> for Vec<T>, impl From<&mut [T]> for Vec<T>"]}
{"id": "C14", "title": "By-value iteration yields every element once, in order", "statement": "Calling next on v.into_iter() any number of times yields the elements in order and then None for ever; dropping the iterator at any point drops exactly the elements not yet yielded, once each, and releases the buffer.", "quantifier": "all vectors, all numbers of next calls", "why_tests_cant": "A test runs a few fixed call sequences; the claim is about every sequence of calls, every length and every content.", "anchors": ["src/vec.rs: IntoIter::{next,drop}"]}
{"id": "C15", "title": "By-value iteration from both ends never yields an element twice", "statement": "Any interleaving of next and next_back on an IntoIter yields each element at most once: the fronts in order, the backs in reverse order, and None once all are out.", "quantifier": "all vectors, all interleavings of next and next_back", "why_tests_cant": "A test runs a few fixed call sequences; the claim is about every sequence of calls, every length and every content.", "anchors": ["src/vec.rs: IntoIter::{next,next_back,drop}"]}
{"id": "C16", "title": "IntoIter reports its exact remaining length", "statement": "After any sequence of next/next_back calls size_hint and len return exactly the number of elements still to be yielded, and as_slice returns exactly those elements.", "quantifier": "all vectors, all call sequences", "why_tests_cant": "A test runs a few fixed call sequences; the claim is about every sequence of calls, every length and every content.", "anchors": ["src/vec.rs: IntoIter::{size_hint,as_slice,as_slice_mut}, impl ExactSizeIterator"]}
{"id": "C17", "title": "leak gives a permanently valid slice", "statement": "v.leak() returns a slice with the elements of v that is never deallocated and whose elements are not dropped.", "quantifier": "all vectors", "why_tests_cant": "The slice is valid right after the call in a test only by luck of the allocator.", "anchors": ["src/vec.rs: Vec::leak"]}
{"id": "C18", "title": "Vec works for zero-sized element types", "statement": "For element types of size zero a Vec never touches the allocator, has unlimited capacity, counts its elements correctly, and can be dropped.", "quantifier": "all histories over a zero-sized type", "why_tests_cant": "No test uses a zero-sized type.", "anchors": ["src/vec.rs: Vec::{capacity,shrink}, impl Drop for Vec, Vec::into_boxed_slice"]}
{"id": "C19", "title": "A Vec remembers its allocation marker", "statement": "A Vec created with marker m reports marker() = m and obtains every buffer it ever uses from the allocator that the scope selects for m.", "quantifier": "all markers, all scopes, all later histories", "why_tests_cant": "No test uses a marker.", "anchors": ["src/vec.rs: Vec::{with_marker,with_capacity_and_marker,marker,grow_exact}", "src/ptr.rs: ScopePtr::dangling"]}
{"id": "C20", "title": "A Vec allocates in the scope that created it", "statement": "All buffers of a Vec come from the allocator of the scope that was current when the Vec was created, even if it first grows inside an inner scope.", "quantifier": "all scope changes between creation and growth", "why_tests_cant": "Tests have one scope only.", "anchors": ["src/vec.rs: Vec::{with_marker,grow_exact,try_with_capacity_and_marker}"]}
{"id": "C21", "title": "A panicking destructor never causes a double drop", "statement": "If the destructor of an element panics inside clear, truncate or the destructor of the Vec, every element is dropped at most once over the rest of the program, and the Vec left behind contains only elements that were not dropped.", "quantifier": "all vectors, all sets of panicking elements", "why_tests_cant": "Needs every position of the panicking element and the later history.", "anchors": ["src/vec.rs: Vec::{clear,truncate}, impl Drop for Vec"]}
{"id": "C22", "title": "Shrinking an empty vector is safe", "statement": "shrink_to_fit (and shrink_to(0), into_boxed_slice) on an empty Vec with spare capacity is well defined and releases the buffer.", "quantifier": "all empty vectors with non-zero capacity", "why_tests_cant": "Depends on the allocator contract for zero sized requests.", "anchors": ["src/vec.rs: Vec::{shrink,shrink_to_fit,into_boxed_slice}", "src/ptr.rs: ScopePtr::realloc_array"]}
{"id": "C23", "title": "Comparison and hashing see the content only", "statement": "==, partial_cmp/cmp and hash of Vec depend only on the element sequence: two vectors with equal contents but different capacity, buffer address, marker or history are equal, compare Equal and hash equally; cmp is the lexicographic order.", "quantifier": "all pairs of vectors, all representations of the same content", "why_tests_cant": "Representations are unbounded in number.", "anchors": ["src/vec.rs: impl PartialEq, PartialOrd, Ord, Hash for Vec"]}
{"id": "C24", "title": "User callbacks may panic", "statement": "If T::clone panics inside extend_from_slice, clone or resize, or the callback of resize_with or retain panics, the vector is left with valid elements only, each owned once.", "quantifier": "all vectors, all panic positions", "why_tests_cant": "Every panic position and every later history matter.", "anchors": ["src/vec.rs: Vec::{extend_from_slice,resize,resize_with,retain}, impl Clone"]}
{"id": "C25", "title": "Vec and boxed slice convert without loss", "statement": "v.into_boxed_slice() holds exactly the elements of v in a buffer of exactly that size, Vec::from of it gives back a Vec with the same content and capacity = length, and dropping the box drops every element once and releases the buffer.", "quantifier": "all vectors of a non-zero-sized type", "why_tests_cant": "A test runs a few fixed call sequences; the claim is about every sequence of calls, every length and every content.", "anchors": ["src/vec.rs: Vec::into_boxed_slice, impl From<Box<[T]>> for Vec<T>", "src/ptr.rs: impl Drop for ScopePtr"]}
{"id": "C26", "title": "Box owns its value", "statement": "Box::new(x) allocates one block, dereferences to x (or to what was last assigned through it), and dropping the box drops the value once and releases the block once to its allocator.", "quantifier": "all values, all element types, all assignments", "why_tests_cant": "Only manual inspection shows what the assignment into fresh memory does.", "anchors": ["src/boxed.rs: Box::new", "src/ptr.rs: ScopePtr::{alloc,deref,deref_mut,drop,dealloc}"]}
{"id": "C27", "title": "Box::into_inner moves the value out", "statement": "Box::into_inner returns the value, releases the block exactly once and does not drop the value.", "quantifier": "all values", "why_tests_cant": "A double free is not observable in an assertion.", "anchors": ["src/boxed.rs: Box::into_inner", "src/ptr.rs: ScopePtr::into_inner"]}
{"id": "C28", "title": "SmallVec behaves like a list under every call history", "statement": "For every history of push, pop, insert, remove, swap_remove, clear, append, extend_from_slice, extend, reserve, reserve_exact, move_to_heap, split_off, clone, into_vec on SmallVecs of any inline size N, outputs and contents equal those of lists.", "quantifier": "all N, all histories, all element types of non-zero size", "why_tests_cant": "A test runs a few fixed call sequences; the claim is about every sequence of calls, every length and every content.", "anchors": ["src/small_vec.rs: SmallVec, StackVec"]}
{"id": "C29", "title": "Stack or heap storage is invisible", "statement": "Two SmallVecs with the same content, one stored inline and one on the heap, return the same results and keep the same content under the same calls.", "quantifier": "all contents, all N, all further calls", "why_tests_cant": "A test runs a few fixed call sequences; the claim is about every sequence of calls, every length and every content.", "anchors": ["src/small_vec.rs: redirect_fn!, Storage"]}
{"id": "C30", "title": "SmallVec stays memory safe and owns every element once", "statement": "In the histories of C28 no memory error happens, every element is in exactly one place, and the heap holds exactly the buffers of heap-stored SmallVecs.", "quantifier": "all N, all histories", "why_tests_cant": "A test runs a few fixed call sequences; the claim is about every sequence of calls, every length and every content.", "anchors": ["src/small_vec.rs: SmallVec, StackVec, impl Drop for StackVec"]}
{"id": "C31", "title": "A SmallVec stays on the stack while it fits", "statement": "As long as a SmallVec<T, N> never holds more than N elements, pushing does not allocate.", "quantifier": "all N, all element sizes, all lengths up to N", "why_tests_cant": "Tests check N = 4 for one size.", "anchors": ["src/small_vec.rs: SmallVec::{push,try_reserve,try_reserve_exact}"]}
{"id": "C32", "title": "SmallVec::truncate drops the removed elements", "statement": "truncate(k) keeps the first k elements and drops the others exactly once, for inline and for heap storage.", "quantifier": "all contents, all k, both storages", "why_tests_cant": "Leaks are invisible to assertions on integers.", "anchors": ["src/small_vec.rs: StackVec::truncate"]}
{"id": "C33", "title": "SmallVec::remove stays inside its storage", "statement": "remove(i) with i < len returns element i, closes the gap, and touches no memory outside the inline array.", "quantifier": "all N, all lengths, all i", "why_tests_cant": "Reading one element past the array goes unnoticed in a test.", "anchors": ["src/small_vec.rs: StackVec::{remove,unchecked_remove}"]}
{"id": "C34", "title": "SmallVec::insert rejects bad indices", "statement": "insert(i, x) with i > len panics and changes nothing; with i <= len it inserts x at i, in debug and release builds.", "quantifier": "all lengths, all i, debug and release", "why_tests_cant": "Tests run with debug assertions.", "anchors": ["src/small_vec.rs: SmallVec::insert, StackVec::unchecked_insert"]}
{"id": "C35", "title": "SmallVec::resize reaches every length", "statement": "resize(n, x) and resize_with(n, f) leave the first min(len, n) elements followed by n - len new ones, for every n.", "quantifier": "all N, all lengths, all n", "why_tests_cant": "The test only resizes a full inline vector.", "anchors": ["src/small_vec.rs: SmallVec::{resize,resize_with}, StackVec::resize", "src/vec.rs: ResizeWith::do_resize"]}
{"id": "C36", "title": "try_move_to_stack moves the elements inline", "statement": "If len <= N, try_move_to_stack leaves the same content stored inline and releases the heap buffer once, without dropping elements; otherwise it returns an error and changes nothing.", "quantifier": "all contents, all N", "why_tests_cant": "Double frees are not visible to assertions.", "anchors": ["src/small_vec.rs: SmallVec::try_move_to_stack", "src/vec.rs: Vec::dealloc_without_drop"]}
{"id": "C37", "title": "SmallVec built from an array holds the array", "statement": "SmallVec::from([x1..xL]) has length L and exactly these elements.", "quantifier": "all L, all N", "why_tests_cant": "No test converts an array.", "anchors": ["src/small_vec.rs: impl From<[T; L]> for SmallVec<T, N>"]}
{"id": "C38", "title": "SmallVec::split_off partitions the vector", "statement": "split_off(at) and split_off_into leave the first `at` elements and return the others, for every at <= len; at > len panics and changes nothing.", "quantifier": "all contents, all at, all target inline sizes", "why_tests_cant": "A test runs a few fixed call sequences; the claim is about every sequence of calls, every length and every content.", "anchors": ["src/small_vec.rs: SmallVec::{split_off,split_off_into}"]}
{"id": "C39", "title": "SmallVec spills with its own marker", "statement": "When a SmallVec created with marker m moves to the heap, the buffer comes from the allocator selected for m and the heap vector keeps marker m.", "quantifier": "all markers, all N, all contents", "why_tests_cant": "No test uses a marker.", "anchors": ["src/small_vec.rs: SmallVec::{with_marker,try_move_to_heap_and_reserve_exact,try_with_capacity_and_marker}"]}
{"id": "C40", "title": "String is always valid UTF-8", "statement": "Every String reachable through push, push_str, pop, insert, insert_str, remove, truncate, clear, retain, extend, clone, from_utf8, from_utf16, += and concatenation holds valid UTF-8, including after a call that panicked.", "quantifier": "all histories, all characters, all indices, all panicking callbacks", "why_tests_cant": "UTF-8 validity quantifies over all strings and byte offsets.", "anchors": ["src/string.rs: String"]}
{"id": "C41", "title": "String behaves like a sequence of characters", "statement": "In such histories as_str is always the UTF-8 encoding of the character list obtained by the same edits on lists of characters, and pop/remove return the removed character; len is the number of bytes.", "quantifier": "all histories", "why_tests_cant": "A test runs a few fixed call sequences; the claim is about every sequence of calls, every length and every content.", "anchors": ["src/string.rs: String::{push,pop,push_str,insert,insert_str,remove,truncate,clear,len}"]}
{"id": "C42", "title": "Byte offsets inside a character are rejected", "statement": "insert, insert_str, remove, truncate and split_off with an offset that is not a character boundary (or is beyond the end, where truncate just does nothing) panic and leave the string unchanged; offsets on a boundary are accepted.", "quantifier": "all strings, all offsets", "why_tests_cant": "All offsets of all strings.", "anchors": ["src/string.rs: String::{insert,insert_str,remove,truncate,split_off}"]}
{"id": "C43", "title": "String::retain keeps the accepted characters", "statement": "retain(f) calls f once per character in order and keeps exactly those with f = true; if f panics, the string is the kept characters among those already visited, and is valid UTF-8.", "quantifier": "all strings, all stateful or panicking predicates", "why_tests_cant": "All mixes of character widths and panic positions.", "anchors": ["src/string.rs: String::retain"]}
{"id": "C44", "title": "from_utf8 accepts exactly valid UTF-8", "statement": "String::from_utf8(bytes) succeeds iff bytes is the UTF-8 encoding of some character sequence, and then the string holds exactly these bytes.", "quantifier": "all byte sequences", "why_tests_cant": "256^n inputs.", "anchors": ["src/string.rs: String::from_utf8"]}
{"id": "C45", "title": "from_utf16 decodes exactly well-formed UTF-16", "statement": "String::from_utf16(units) succeeds iff every surrogate is paired, and then holds the decoded characters; in particular decoding the UTF-16 encoding of any text gives the text.", "quantifier": "all sequences of 16-bit units", "why_tests_cant": "65536^n inputs.", "anchors": ["src/string.rs: String::from_utf16"]}
{"id": "C46", "title": "String order is code point order", "statement": "Comparing two Strings gives the lexicographic order of their code points, equality is equality of characters, and hash depends on characters only.", "quantifier": "all pairs of strings", "why_tests_cant": "All pairs of strings.", "anchors": ["src/string.rs: impl PartialEq, PartialOrd, Ord, Hash for String"]}
{"id": "C47", "title": "String::from(&str) holds the text", "statement": "String::from(&str), FromStr, From<&String> and From<char> return a String with that text.", "quantifier": "all texts", "why_tests_cant": "No test in string.rs.", "anchors": ["src/string.rs: impl From<&str>, From<char>, From<&String>, FromStr for String", "src/vec.rs: impl From<&[T]> for Vec<T>"]}
{"id": "C48", "title": "String::split_off partitions the text", "statement": "split_off(at) at a boundary leaves the text before `at` and returns the rest.", "quantifier": "all strings, all boundaries", "why_tests_cant": "A test runs a few fixed call sequences; the claim is about every sequence of calls, every length and every content.", "anchors": ["src/string.rs: String::split_off", "src/vec.rs: Vec::split_off"]}
{"id": "C49", "title": "Safe code cannot break a String", "statement": "No sequence of safe calls makes a String hold invalid UTF-8.", "quantifier": "all safe histories including byte-level access", "why_tests_cant": "Existence of one bad history is enough; tests cannot exclude it.", "anchors": ["src/string.rs: String::as_mut_vec"]}
{"id": "C50", "title": "Collecting and extending concatenates", "statement": "Extending a String with an iterator of chars, &chars, &strs, Strings or boxed strs, and collecting from one, appends all items in order.", "quantifier": "all iterators (any length, any size hint that is a possible size), all initial strings", "why_tests_cant": "A test runs a few fixed call sequences; the claim is about every sequence of calls, every length and every content.", "anchors": ["src/string.rs: impl Extend<...> for String, impl FromIterator<...> for String"]}
{"id": "C51", "title": "Rc: a live handle always reads its value", "statement": "While an Rc handle exists, dereferencing it reads the value it was created with (or last written through get_mut/make_mut), never a moved-out or released one.", "quantifier": "all histories of new, clone, drop, downgrade, upgrade, Weak clone/drop, get_mut, make_mut, try_unwrap on any number of Rcs", "why_tests_cant": "A test runs a few fixed call sequences; the claim is about every sequence of calls, every length and every content.", "anchors": ["src/rc.rs: Rc, Weak"]}
{"id": "C52", "title": "Rc: get_mut is exclusive", "statement": "get_mut returns a reference only if no other Rc or Weak handle refers to the value.", "quantifier": "all histories as in C51", "why_tests_cant": "A test runs a few fixed call sequences; the claim is about every sequence of calls, every length and every content.", "anchors": ["src/rc.rs: Rc::get_mut, RcBox::is_single_ref"]}
{"id": "C53", "title": "Rc: the value is dropped exactly once, when the last handle goes", "statement": "The value is dropped when the last Rc handle is dropped and never before or again; the memory is released when the last Weak is gone too.", "quantifier": "all histories as in C51", "why_tests_cant": "A test runs a few fixed call sequences; the claim is about every sequence of calls, every length and every content.", "anchors": ["src/rc.rs: impl Drop for Rc, impl Drop for Weak"]}
{"id": "C54", "title": "Rc: upgrade fails once the value is gone", "statement": "Weak::upgrade returns Some iff an Rc handle to the value exists at that moment.", "quantifier": "all histories as in C51", "why_tests_cant": "A test runs a few fixed call sequences; the claim is about every sequence of calls, every length and every content.", "anchors": ["src/rc.rs: Weak::upgrade, impl Drop for Rc"]}
{"id": "C55", "title": "Rc: counts are exact", "statement": "strong_count and weak_count return the number of existing Rc and Weak handles of the value.", "quantifier": "all histories as in C51", "why_tests_cant": "A test runs a few fixed call sequences; the claim is about every sequence of calls, every length and every content.", "anchors": ["src/rc.rs: Rc::{strong_count,weak_count}, Weak::{strong_count,weak_count}"]}
{"id": "C56", "title": "Rc: try_unwrap moves the value out once", "statement": "try_unwrap succeeds iff the handle is the only Rc, returns the value, and no other handle can reach it afterwards; otherwise it returns the handle unchanged.", "quantifier": "all histories as in C51", "why_tests_cant": "A test runs a few fixed call sequences; the claim is about every sequence of calls, every length and every content.", "anchors": ["src/rc.rs: Rc::try_unwrap"]}
{"id": "C57", "title": "Rc: make_mut never disturbs others", "statement": "make_mut gives access to the current value, unshared: other Rc handles keep reading the old value, Weak handles are detached, no panic, in debug and release.", "quantifier": "all histories as in C51, debug and release", "why_tests_cant": "A test runs a few fixed call sequences; the claim is about every sequence of calls, every length and every content.", "anchors": ["src/rc.rs: Rc::make_mut, RcBox::{set_zero_strong,dec_strong}"]}
{"id": "C58", "title": "Arc: a live handle always reads its value", "statement": "Under every interleaving of clone, drop, downgrade, get_mut, make_mut, try_unwrap and reads by any number of threads, a read through a live handle reads a value that is neither dropped, moved out nor released.", "quantifier": "all numbers of threads, all schedules of the individual atomic steps (sequentially consistent), all spurious compare-exchange failures", "why_tests_cant": "Thread interleavings cannot be enumerated by tests; a test run observes one schedule per execution.", "anchors": ["src/arc.rs: Arc, AtomicCounter"]}
{"id": "C59", "title": "Arc: the value is dropped exactly once", "statement": "Under every interleaving the value is dropped or moved out at most once, and when all handles are gone and no operation is pending it was dropped or moved out exactly once.", "quantifier": "all threads, all schedules", "why_tests_cant": "Thread interleavings cannot be enumerated by tests; a test run observes one schedule per execution.", "anchors": ["src/arc.rs: impl Drop for Arc, Arc::{drop_slow,try_unwrap,make_mut}"]}
{"id": "C60", "title": "Arc: memory is released exactly once and not too early", "statement": "The block is released at most once, only after the value is gone and no handle can reach it; if no Weak was ever created it is released once all handles are gone.", "quantifier": "all threads, all schedules", "why_tests_cant": "Thread interleavings cannot be enumerated by tests; a test run observes one schedule per execution.", "anchors": ["src/arc.rs: Arc::{drop_slow,try_unwrap}"]}
{"id": "C61", "title": "Arc: get_mut is exclusive", "statement": "If get_mut returns Some, no other Arc or Weak handle to the value exists for as long as the returned reference lives.", "quantifier": "all threads, all schedules", "why_tests_cant": "Thread interleavings cannot be enumerated by tests; a test run observes one schedule per execution.", "anchors": ["src/arc.rs: Arc::{get_mut,is_unique,downgrade}"]}
{"id": "C62", "title": "Arc: at most one try_unwrap wins", "statement": "Among concurrent try_unwrap calls on handles of one value at most one returns the value; a failed one returns a working handle.", "quantifier": "all threads, all schedules", "why_tests_cant": "Thread interleavings cannot be enumerated by tests; a test run observes one schedule per execution.", "anchors": ["src/arc.rs: Arc::try_unwrap"]}
{"id": "C63", "title": "Arc: memory is returned after the last Weak", "statement": "When all Arc and Weak handles are gone the block is released.", "quantifier": "all histories with Weak handles", "why_tests_cant": "Thread interleavings cannot be enumerated by tests; a test run observes one schedule per execution.", "anchors": ["src/arc.rs: Weak"]}
{"id": "C64", "title": "Arc: downgrade terminates", "statement": "A downgrade call completes if its thread keeps running and other threads stop interfering.", "quantifier": "all threads, all schedules", "why_tests_cant": "Thread interleavings cannot be enumerated by tests; a test run observes one schedule per execution.", "anchors": ["src/arc.rs: Arc::downgrade, AtomicCounter::{sync_lock,try_increment}"]}
{"id": "C65", "title": "Arc: make_mut gives unshared access to the same value", "statement": "After make_mut the handle refers to a value equal to the old one that no other handle refers to; other handles keep the old value; nothing is dropped twice or lost.", "quantifier": "all threads, all schedules, all spurious failures", "why_tests_cant": "Thread interleavings cannot be enumerated by tests; a test run observes one schedule per execution.", "anchors": ["src/arc.rs: Arc::make_mut"]}
{"id": "C66", "title": "Arc: strong_count is exact", "statement": "In every quiescent state (no operation pending) strong_count equals the number of Arc handles of the value.", "quantifier": "all threads, all schedules", "why_tests_cant": "Thread interleavings cannot be enumerated by tests; a test run observes one schedule per execution.", "anchors": ["src/arc.rs: Arc::strong_count"]}
{"id": "C67", "title": "Urc: a live handle always reads its value", "statement": "While a Urc handle exists in any thread, reading through it reads a value that was not moved out or released.", "quantifier": "all histories of new, clone, drop, downgrade, Weak drop, envelop, get_mut, try_unwrap, make_mut over any number of fences (threads)", "why_tests_cant": "Thread interleavings cannot be enumerated by tests; a test run observes one schedule per execution.", "anchors": ["src/urc.rs: Urc, Fence, Master"]}
{"id": "C68", "title": "Urc: get_mut is exclusive", "statement": "If get_mut returns Some, no other Urc or Weak of the same value exists in any thread.", "quantifier": "all histories as in C67", "why_tests_cant": "Thread interleavings cannot be enumerated by tests; a test run observes one schedule per execution.", "anchors": ["src/urc.rs: Urc::{get_mut,is_unique}"]}
{"id": "C69", "title": "Urc: get_mut succeeds for a sole owner", "statement": "If a handle is the only Urc of its value and no Weak exists, get_mut returns Some.", "quantifier": "all histories as in C67", "why_tests_cant": "Thread interleavings cannot be enumerated by tests; a test run observes one schedule per execution.", "anchors": ["src/urc.rs: Urc::is_unique"]}
{"id": "C70", "title": "Urc: the value is dropped exactly once and the memory released", "statement": "When the last Urc in all threads is dropped the value is dropped once; master and fence memory are released when the last Weak is gone too.", "quantifier": "all histories as in C67", "why_tests_cant": "Thread interleavings cannot be enumerated by tests; a test run observes one schedule per execution.", "anchors": ["src/urc.rs: impl Drop for Urc, impl Drop for Weak"]}
{"id": "C71", "title": "Urc: try_unwrap moves the value out only for a sole owner", "statement": "try_unwrap returns the value iff the handle is the only Urc in all threads, touches no released memory, and otherwise returns the handle with all counts unchanged.", "quantifier": "all histories as in C67", "why_tests_cant": "Thread interleavings cannot be enumerated by tests; a test run observes one schedule per execution.", "anchors": ["src/urc.rs: Urc::try_unwrap"]}
{"id": "C72", "title": "Urc: make_mut never disturbs others", "statement": "make_mut gives unshared access to an equal value; other handles keep reading the old one; no panic in debug or release.", "quantifier": "all histories as in C67, debug and release", "why_tests_cant": "Thread interleavings cannot be enumerated by tests; a test run observes one schedule per execution.", "anchors": ["src/urc.rs: Urc::make_mut"]}
{"id": "C73", "title": "Urc: per-fence counts are exact", "statement": "fence_strong_count and fence_weak_count equal the number of Urc and Weak handles of that fence.", "quantifier": "all histories of new, clone, drop, downgrade, Weak drop, envelop, get_mut", "why_tests_cant": "A test runs a few fixed call sequences; the claim is about every sequence of calls, every length and every content.", "anchors": ["src/urc.rs: Fence::{inc_strong,dec_strong,inc_weak,dec_weak}, impl Clone for Urc, impl Drop for Urc, impl Drop for Weak"]}
{"id": "C74", "title": "Nested scopes restore the outer scope", "statement": "After spawn returns, the current scope is the one before the call, for any nesting depth.", "quantifier": "all nesting depths and orders", "why_tests_cant": "Depth is unbounded; no test spawns a scope.", "anchors": ["src/scope.rs: Env::{spawn,current}"]}
{"id": "C75", "title": "Inside spawn the new scope is current", "statement": "During the callback of spawn, current() is the scope produced by scope_init.", "quantifier": "all scope types and values", "why_tests_cant": "No test spawns a scope.", "anchors": ["src/scope.rs: Env::spawn"]}
{"id": "C76", "title": "A panicking scope body still restores the outer scope", "statement": "If the callback of spawn panics and the panic is caught outside, current() is again the outer scope.", "quantifier": "all nesting depths", "why_tests_cant": "Needs unwinding at every depth.", "anchors": ["src/scope.rs: Env::spawn"]}
{"id": "C77", "title": "Markers and selectors are usable as map keys", "statement": "Equality of AllocMarker and of AllocSelector is an equivalence relation and equal values hash equally.", "quantifier": "all markers and selectors", "why_tests_cant": "Quantifies over all triples.", "anchors": ["src/scope.rs: impl PartialEq, Hash for AllocMarker; impl PartialEq, Hash for AllocSelector"]}
{"id": "C78", "title": "A marker identifies its type", "statement": "AllocMarker::new::<A>() == AllocMarker::new::<B>() iff A and B are the same type.", "quantifier": "all pairs of types, all ways the linker places type names", "why_tests_cant": "String placement is decided by the compiler and linker.", "anchors": ["src/scope.rs: AllocMarker::new, impl PartialEq for AllocMarker"]}
{"id": "C79", "title": "swap_remove of the last element is well defined", "statement": "v.swap_remove(v.len() - 1) on a vector with several elements stays within the contracts of the copy primitives it uses.", "quantifier": "all vectors with at least two elements", "why_tests_cant": "An overlapping copy_nonoverlapping of one element to itself usually works when compiled, so a test passes.", "anchors": ["src/vec.rs: Vec::swap_remove"]}
{"id": "C80", "title": "Box equality and order are those of the values", "statement": "Two boxes are equal, or ordered, exactly as the values they own; where the values are stored, which allocator owns them and which markers the boxes carry make no difference; comparing changes nothing.", "quantifier": "all pairs of boxes, all element comparisons", "why_tests_cant": "Quantifies over all placements and comparison functions.", "anchors": ["src/boxed.rs: impl PartialEq for Box, impl Ord for Box"]}
{"id": "C81", "title": "SmallVec: impossible reservations when moving to the heap are rejected", "statement": "try_move_to_heap_and_reserve_exact with an amount that overflows usize report an error or panic; no memory outside the new buffer is written.", "quantifier": "all contents, all amounts, debug and release", "why_tests_cant": "Needs amounts close to usize::MAX in a release build.", "anchors": ["src/small_vec.rs: SmallVec::{try_move_to_heap_and_reserve_exact,move_to_heap}"]}
{"id": "C82", "title": "Strings encode characters without touching uninitialised memory", "statement": "Pushing, inserting and converting a character never makes a value out of uninitialised memory.", "quantifier": "all characters, all strings, all offsets", "why_tests_cant": "Compiled code usually behaves as if the bytes were arbitrary, so a test passes.", "anchors": ["src/string.rs: String::{push,insert}, impl From<char> for String, uninit_bits"]}
{"id": "C83", "title": "Range indexing of String selects the text between two offsets", "statement": "s[a..b], s[..b], s[a..], s[..], s[a..=b] and s[..=b] give exactly the characters between the two byte offsets when both are character boundaries in order, panic for every other pair of offsets, and change nothing.", "quantifier": "all strings, all ranges of all six kinds", "why_tests_cant": "All pairs of offsets of all strings.", "anchors": ["src/string.rs: impl Index<Range*> for String"]}
{"id": "C84", "title": "Urc: a fence that was taken out can be put back", "statement": "A fence that try_into_fence gave can be turned into a Urc again that reads the same value, without releasing any memory twice.", "quantifier": "all histories as in C67 that took a fence out", "why_tests_cant": "No test takes a fence out; releasing twice need not show.", "anchors": ["src/urc.rs: Urc::try_into_fence, Fence::into_urc; src/ptr.rs: ScopePtr::into_inner"]}
{"id": "C85", "title": "Urc: try_into_fence succeeds exactly for the only handle of a fence", "statement": "try_into_fence gives the fence iff no other Urc and no Weak of the same fence exists; otherwise it returns the handle and changes nothing.", "quantifier": "all histories as in C67", "why_tests_cant": "A test runs a few fixed call sequences; the claim is about every sequence of calls, every length and every content.", "anchors": ["src/urc.rs: Urc::try_into_fence"]}
{"id": "C86", "title": "Urc: dropping a fence that was taken out gives up its share of the value", "statement": "After a fence that try_into_fence gave is dropped, the remaining handles behave as if it had never been made.", "quantifier": "all histories as in C67", "why_tests_cant": "A test runs a few fixed call sequences; the claim is about every sequence of calls, every length and every content.", "anchors": ["src/urc.rs: Urc::try_into_fence, Fence"]}
{"id": "C87", "title": "Urc: is_sole_strong_fence tells whether other threads have the value", "statement": "is_sole_strong_fence is true iff no Urc of the value exists in another thread.", "quantifier": "all histories as in C67", "why_tests_cant": "Thread interleavings cannot be enumerated by tests; a test run observes one schedule per execution.", "anchors": ["src/urc.rs: Urc::is_sole_strong_fence"]}
{"id": "C88", "title": "scope_init gets the surrounding scope", "statement": "spawn calls scope_init with the scope that is current at the call, and that scope stays current while scope_init runs.", "quantifier": "all programs of any nesting, also scopes spawned inside scope_init", "why_tests_cant": "Depth is unbounded; no test spawns a scope.", "anchors": ["src/scope.rs: Env::spawn"]}
{"id": "C89", "title": "Scopes panic before the environment is set", "statement": "Before ENV is set, current and spawn panic without calling their arguments and without undefined behaviour.", "quantifier": "all programs", "why_tests_cant": "Quantifies over all programs.", "anchors": ["src/scope.rs: env, env_mut, current, spawn"]}
{"id": "C90", "title": "Scopes are memory safe", "statement": "No program that spawns scopes, looks at the current scope, panics and catches panics has undefined behaviour.", "quantifier": "all scope types, all nestings, all places of panics", "why_tests_cant": "Undefined behaviour need not show; no test spawns a scope.", "anchors": ["src/scope.rs: Env::{spawn,current}"]}
{"id": "C91", "title": "Arc::clone gives a handle", "statement": "clone of a live Arc does not panic; it gives one more handle of the same value and leaves every value as it was.", "quantifier": "all interleavings of calls by any number of threads", "why_tests_cant": "Thread interleavings cannot be enumerated by tests; a test run observes one schedule per execution.", "anchors": ["src/arc.rs: impl Clone for Arc"]}
{"id": "C92", "title": "Arc: get_mut on the only handle gives access", "statement": "If there is no other Arc and no Weak of the value, get_mut gives Some, whatever other threads do with other values.", "quantifier": "all interleavings of calls by any number of threads, after any history", "why_tests_cant": "Thread interleavings cannot be enumerated by tests; a test run observes one schedule per execution.", "anchors": ["src/arc.rs: Arc::{get_mut,is_unique}, impl Drop for Weak"]}
{"id": "C93", "title": "Arc: try_unwrap on the only handle gives the value", "statement": "If there is no other Arc of the value, try_unwrap gives Ok with the value.", "quantifier": "all interleavings of calls by any number of threads, after any history", "why_tests_cant": "Thread interleavings cannot be enumerated by tests; a test run observes one schedule per execution.", "anchors": ["src/arc.rs: Arc::{try_unwrap,make_mut}"]}
{"id": "C94", "title": "Arc: writes through &mut T are seen, and nothing else changes the value", "statement": "What a client writes through the &mut T from get_mut or make_mut is the value of the handle from then on; no call changes the value of an Arc in any other way; and the handle is usable again when the reference ends.", "quantifier": "all interleavings of calls by any number of threads", "why_tests_cant": "Thread interleavings cannot be enumerated by tests; a test run observes one schedule per execution.", "anchors": ["src/arc.rs: Arc::{get_mut,make_mut}, impl Deref for Arc"]}
{"id": "C95", "title": "Arc: weak_count is the number of Weak handles", "statement": "When no call is running, weak_count equals the number of Weak handles that were made and not dropped.", "quantifier": "all histories", "why_tests_cant": "A test runs a few fixed call sequences; the claim is about every sequence of calls, every length and every content.", "anchors": ["src/arc.rs: Arc::{weak_count,downgrade}, impl Drop for Weak"]}
{"id": "C96", "title": "Arc: calls end after a bounded number of steps", "statement": "Every call on an Arc ends after a bounded number of steps of its own thread, whatever the other threads do, unless compare_exchange_weak keeps failing spuriously.", "quantifier": "all interleavings of calls by any number of threads", "why_tests_cant": "Thread interleavings cannot be enumerated by tests; a test run observes one schedule per execution.", "anchors": ["src/arc.rs: impl Clone for Arc, impl Drop for Arc, Arc::{get_mut,make_mut,try_unwrap,downgrade}"]}
{"id": "C97", "title": "Arc: make_mut on the only handle works in place", "statement": "If there is no other Arc and no Weak of the value, make_mut gives access to the value where it is: it does not clone, allocate or panic.", "quantifier": "all interleavings of calls by any number of threads, after any history", "why_tests_cant": "Thread interleavings cannot be enumerated by tests; a test run observes one schedule per execution.", "anchors": ["src/arc.rs: Arc::make_mut"]}
{"id": "C98", "title": "Urc: no call panics without reason", "statement": "No call on a Urc or Weak panics unless memory is refused or T::clone panics.", "quantifier": "all histories as in C67, debug and release", "why_tests_cant": "A test runs a few fixed call sequences; the claim is about every sequence of calls, every length and every content.", "anchors": ["src/urc.rs: all functions"]}
{"id": "C99", "title": "SmallVec: reserving gives the requested capacity", "statement": "After with_capacity, reserve, reserve_exact, move_to_heap or a successful try_ variant, capacity() is at least what was asked for, and exactly the documented amount for the exact variants; contents are unchanged; a refused request leaves the vector as it was; shrinking keeps all elements and at least the requested capacity.", "quantifier": "all contents, inline sizes, amounts, allocator answers", "why_tests_cant": "Inline size, length, amount and refusals vary together.", "anchors": ["src/small_vec.rs: SmallVec::{with_capacity,reserve,reserve_exact,try_reserve,try_reserve_exact,move_to_heap,shrink_to,shrink_to_fit}"]}
{"id": "C100", "title": "SmallVec: no memory is requested while the capacity suffices", "statement": "reserve(k) and push make no request to an allocator if the capacity already suffices.", "quantifier": "all contents, inline sizes, amounts", "why_tests_cant": "Requests are not observable in the results.", "anchors": ["src/small_vec.rs: SmallVec::{reserve,push}"]}
{"id": "C101", "title": "SmallVec: pushing is amortised", "statement": "Pushing n elements onto a vector makes O(log n) requests to the allocator.", "quantifier": "all vectors, all n", "why_tests_cant": "n is unbounded; requests do not show in the results.", "anchors": ["src/small_vec.rs: SmallVec::push, Heap::try_reserve"]}
{"id": "C102", "title": "SmallVec: comparison and hashing depend on the contents only", "statement": "==, cmp and hash of small vectors are those of the slices of their elements, whatever the storage, inline size, capacity and marker, and equal those of a Vec with the same contents.", "quantifier": "all pairs of contents, storages, inline sizes", "why_tests_cant": "Pairs of arbitrary contents and storages.", "anchors": ["src/small_vec.rs: impl PartialEq, PartialOrd, Ord, Hash for SmallVec"]}
{"id": "C103", "title": "SmallVec::retain keeps exactly the accepted elements", "statement": "retain shows each element to the predicate once, in order; accepted elements stay in order and rejected ones are dropped once, also if the predicate panics.", "quantifier": "all contents, inline and heap storage, all predicates including stateful and panicking ones", "why_tests_cant": "Quantifies over all predicates and lengths.", "anchors": ["src/small_vec.rs: SmallVec::retain, StackVec::retain"]}
{"id": "C104", "title": "SmallVec::dedup removes consecutive duplicates", "statement": "dedup, dedup_by and dedup_by_key keep the first element of each run of equal elements and drop the others once.", "quantifier": "all contents, inline and heap storage, all tests and keys", "why_tests_cant": "Quantifies over all tests and lengths.", "anchors": ["src/small_vec.rs: SmallVec::{dedup,dedup_by,dedup_by_key}"]}
{"id": "C105", "title": "SmallVec::drain removes exactly the range", "statement": "drain yields the elements of the range in order and leaves the others in order; invalid ranges panic and leave the vector unchanged.", "quantifier": "all contents, inline and heap storage, all ranges", "why_tests_cant": "All ranges of all lengths.", "anchors": ["src/small_vec.rs: SmallVec::drain; src/slice.rs: Drain"]}
{"id": "C106", "title": "SmallVec converts to and from boxed slices without losing elements", "statement": "into_boxed_slice gives a box with exactly the elements, released correctly when dropped; From<Box<[T]>> gives them back; nothing else is touched, and a refused request drops each element once.", "quantifier": "all contents, inline and heap storage, all allocator answers", "why_tests_cant": "Memory errors need not show.", "anchors": ["src/small_vec.rs: SmallVec::into_boxed_slice, impl From<Box<[T]>> for SmallVec"]}
{"id": "C107", "title": "Arc: no data races", "statement": "Of two accesses to the same ArcInner that conflict (one stores the value, moves it out, drops it, initialises or releases the memory) one happens before the other, by the memory orderings in the source and the hand-over of handles.", "quantifier": "all numbers of threads, all schedules, all counts that a load may read under release-acquire memory", "why_tests_cant": "x86 hardware hides missing orderings; a race need not show.", "anchors": ["src/arc.rs: Arc, AtomicCounter; all Ordering arguments"]}
{"id": "C108", "title": "Arc: values are safe under weak memory", "statement": "Also where loads return outdated counts as the orderings allow, reads through handles find the value, it is dropped or moved out exactly once, at most one try_unwrap wins, memory is released once and not early, and &mut from get_mut and make_mut is exclusive.", "quantifier": "all numbers of threads, all schedules, all counts that a load may read under release-acquire memory", "why_tests_cant": "Outdated loads are rare and depend on the hardware.", "anchors": ["src/arc.rs: Arc, AtomicCounter; all Ordering arguments"]}
{"id": "C109", "title": "Box, Rc, Arc and Urc compare and hash like their values", "statement": "==, <, <=, >, >=, partial_cmp, cmp and hash of boxes and shared handles give what they give for the values inside, and change nothing.", "quantifier": "all pairs of handles after any history, all element types and their comparisons", "why_tests_cant": "Quantifies over all comparisons and histories.", "anchors": ["src/boxed.rs: impl PartialOrd, Hash for Box", "src/rc.rs: impl PartialEq, PartialOrd, Ord, Hash for Rc", "src/arc.rs: impl PartialEq, PartialOrd, Ord, Hash for Arc", "src/urc.rs: impl PartialEq, PartialOrd, Ord, Hash for Urc"]}
{"id": "C110", "title": "ptr_eq tells whether two handles share the value", "statement": "Rc, Arc and Urc: ptr_eq is true exactly for handles of the same value: a clone, and for Urc a handle received by another thread, shares the value with the original; a new handle shares it with no other one.", "quantifier": "all pairs of handles after any history", "why_tests_cant": "A test runs a few fixed call sequences; the claim is about every sequence of calls, every length and every content.", "anchors": ["src/rc.rs: Rc::ptr_eq", "src/arc.rs: Arc::ptr_eq", "src/urc.rs: Urc::ptr_eq"]}
{"id": "C111", "title": "Rc: Debug output of a Weak tells whether the value is there", "statement": "A Weak shows the value while an Rc of it exists, that it was deallocated when there is no Rc left, and null if it was made by Weak::new.", "quantifier": "all histories", "why_tests_cant": "A test runs a few fixed call sequences; the claim is about every sequence of calls, every length and every content.", "anchors": ["src/rc.rs: impl Debug for Weak"]}
{"id": "C112", "title": "Rc from a Box keeps the value", "statement": "Rc::from(box) gives a handle with the value of the box; the memory of the box is released once and the value is not dropped.", "quantifier": "all boxes", "why_tests_cant": "Memory errors need not show.", "anchors": ["src/rc.rs: impl From<Box<T>> for Rc<T>", "src/ptr.rs: ScopePtr::into_inner"]}
{"id": "C113", "title": "Boxed iterators and hashers behave like the ones inside", "statement": "next, nth, next_back, nth_back, size_hint, len, finish and write on a Box return what they return on the value, and change it alike; nothing is dropped and no other memory is touched.", "quantifier": "all iterators and hashers, all sequences of calls, also with panics that are caught", "why_tests_cant": "Quantifies over all implementations and call sequences.", "anchors": ["src/boxed.rs: impl Iterator, DoubleEndedIterator, ExactSizeIterator, Hasher for Box"]}
{"id": "C114", "title": "Writing through a range of a String changes exactly that part", "statement": "Changing the text given by an IndexMut range (or as_mut_str) in place changes that part of the string and nothing else; a range that does not lie on character boundaries panics and changes nothing.", "quantifier": "all texts, all ranges of all six kinds, all changes that keep the length", "why_tests_cant": "All texts and ranges.", "anchors": ["src/string.rs: impl IndexMut, DerefMut for String"]}
{"id": "C115", "title": "Strings print as usual", "statement": "Display writes the text. Debug writes it as a quoted literal, so that the output tells where a string begins and ends.", "quantifier": "all texts", "why_tests_cant": "All texts.", "anchors": ["src/string.rs: impl Display, Debug for String"]}
{"id": "C116", "title": "Box<str> converts to bytes in place", "statement": "Box<[u8]> and Vec<u8> made from a Box<str> have its bytes, in the same memory and with the same marker; the memory is released once.", "quantifier": "all texts", "why_tests_cant": "Double releases need not show.", "anchors": ["src/boxed.rs: impl From<Box<str>> for Box<[u8]>", "src/ptr.rs: ScopePtr::cast_str_to_bytes", "src/vec.rs: impl From<Box<str>> for Vec<u8>"]}
{"id": "C117", "title": "The spare capacity can be filled from outside", "statement": "spare_len is capacity - len and is_full tells whether it is zero. Values written into spare_capacity_mut do not change the vector (nothing is dropped, no memory is requested); for a Vec, set_len(len + k) after writing the first k slots appends exactly the values written. Slots beyond spare_len are refused by a panic. The same holds for SmallVec, on the stack and on the heap, except that its set_len is private.", "quantifier": "all vectors, all values written", "why_tests_cant": "Whether the slice really is the free part of the buffer shows only through later memory errors.", "anchors": ["src/vec.rs: Vec::{spare_capacity_mut,spare_len,is_full,set_len}", "src/small_vec.rs: SmallVec::{spare_capacity_mut,spare_len,is_full}, StackVec::{spare_len,is_full}"]}
{"id": "C118", "title": "Urc: no data races", "statement": "Of two accesses to the same value or Master that conflict (one of them writes the value, moves it out or initialises it) one happens before the other, by the memory orderings in the source and the sending of envelopes; no thread touches a value that was moved out.", "quantifier": "all numbers of threads, all interleavings of atomic steps, all counts that a load may read under release-acquire memory, all types T", "why_tests_cant": "x86 hardware hides missing orderings; a race need not show.", "anchors": ["src/urc.rs: Urc, Weak, Master, impl Envelop for Urc; src/scope.rs: Envelope; all Ordering arguments"]}
{"id": "C119", "title": "dedup_by and dedup_by_key keep the changes that the test makes", "statement": "The test of dedup_by and the key function of dedup_by_key get the elements by mutable reference. What they change in an element that is kept is there afterwards, what they change in an element that is dropped is what is dropped; a test that swaps its two arguments makes nothing be dropped that stays in the vector.", "quantifier": "all contents, all tests and key functions, Vec and SmallVec (inline and heap)", "why_tests_cant": "Tests of dedup use tests that only compare; the lost change is a write to memory that is no longer part of the vector.", "anchors": ["src/vec.rs: RetainIter::{dedup_by,dedup_by_key,keep_next}, Vec::{dedup_by,dedup_by_key}", "src/small_vec.rs: SmallVec::{dedup_by,dedup_by_key}"]}
{"id": "C120", "title": "SmallVec: a panicking destructor never causes a double drop", "statement": "If destructors of elements panic inside clear, truncate, resize, resize_with, an index assignment or the destructor of a SmallVec and the program catches the panics and goes on, every element is dropped at most once over the whole program, vectors contain only elements that were not dropped, and only vectors whose own destructor panicked leak memory.", "quantifier": "all client programs, all sets of panicking elements, all inline sizes", "why_tests_cant": "Needs every position of the panicking element, both storages and the later history.", "anchors": ["src/small_vec.rs: SmallVec::{clear,truncate,resize,resize_with}, StackVec::clear, impl Drop for StackVec", "src/vec.rs: Vec::clear, impl Drop for Vec"]}
{"id": "C121", "title": "retain and dedup are safe when destructors panic", "statement": "If the destructor of an element, or the test, panics inside retain, dedup, dedup_by or dedup_by_key, the vector that is left holds some of its elements in their order, other elements were dropped once each, and no element is both in the vector and dropped. The panicking destructor is the last one that runs. If the call returns, no destructor panicked.", "quantifier": "all contents, all tests (for dedup_by and dedup_by_key: that do not change the elements), all sets of panicking elements and all panicking calls of the test, Vec and SmallVec (inline and heap)", "why_tests_cant": "Needs every position of the panicking element; a second drop need not show.", "anchors": ["src/vec.rs: RetainIter::{new,keep_next,discard_next,retain,dedup_by,dedup_by_key}, Vec::{retain,dedup,dedup_by,dedup_by_key}", "src/small_vec.rs: SmallVec::{retain,dedup,dedup_by,dedup_by_key}"]}
{"id": "C122", "title": "Arrays of ScopePtr are safe to use", "statement": "ScopePtr::alloc_array_uninit, access to the elements through Deref and DerefMut, and dropping the pointer are safe calls, so no program of them has undefined behaviour. Elements are what was last written to them, dropping the array drops each element once and gives the memory back to the allocator it came from; sizes that are too large and refusals of the allocator are reported.", "quantifier": "all element types, all lengths, all programs of reads, writes, assignments and resizes", "why_tests_cant": "The undefined behaviour of safe calls need not show in a test; needs all programs.", "anchors": ["src/ptr.rs: ScopePtr::{alloc_array_uninit,alloc_layout,cast_to_slice}, impl Deref, DerefMut, Drop for ScopePtr"]}
{"id": "C123", "title": "realloc_array changes the size of an array and nothing else", "statement": "After realloc_array(n) the array has length n and the elements that fit are as before; a size that does not fit is reported as CapacityOverflow, a refusal as AllocError, both with the array as before.", "quantifier": "all arrays, all new sizes", "why_tests_cant": "Needs sizes near usize::MAX.", "anchors": ["src/ptr.rs: ScopePtr::realloc_array"]}
{"id": "C124", "title": "Programs that mix vectors, their iterators and boxed slices own every element once and are memory safe", "statement": "A program that makes vectors, works on them (also with retain and dedup), turns them into iterators and boxed slices and back, uses and drops these in any order, and catches panics, has no undefined behaviour. At any time every element it handed over or had made is in exactly one place: given back, dropped, in one vector, iterator or boxed slice, or left behind by a panic. Vectors, iterators and boxed slices show what the calls made of them. If no destructor panics every live block of memory belongs to exactly one of them.", "quantifier": "all element types of non-zero size, all programs, all destructors, clones and callbacks that panic, all allocators that refuse", "why_tests_cant": "Unboundedly many programs and places for panics; needs an invariant over all live handles.", "anchors": ["src/vec.rs: Vec, IntoIter, into_boxed_slice, From<Box<[T]>>, retain, dedup_by, dedup_by_key", "src/ptr.rs: impl Drop for ScopePtr"]}
{"id": "C125", "title": "A reference to a scope cannot be used when the scope is gone", "statement": "The reference that current() gives is limited to the local execution, as its documentation says, and an Env is limited to the lifetime of the scope it was made of: safe programs that keep references and Envs and use them anywhere never use a scope that is gone.", "quantifier": "all nestings of scopes, all programs that keep and use references and Envs", "why_tests_cant": "Depends on what is done after a scope has ended; a dangling reference mostly goes unnoticed.", "anchors": ["src/scope.rs: Env::{new,current,spawn}, current, spawn"]}
{"id": "C126", "title": "A value allocated in a scope cannot be used when the scope is gone", "statement": "Boxes, vectors and the like that were allocated in a scope do not outlive it: no safe program grows or drops such a value, which calls the allocator of the scope, after the scope has ended, even if spawn returns the value.", "quantifier": "all nestings of scopes, all programs that allocate values and use or drop them anywhere", "why_tests_cant": "Depends on what is done after a scope has ended; a dangling allocator mostly goes unnoticed.", "anchors": ["src/ptr.rs: ScopePtr::{new,alloc}, impl Drop for ScopePtr", "src/scope.rs: Env::spawn"]}
{"id": "C127", "title": "Programs that mix vectors, small vectors, iterators and boxed slices own every element once and are memory safe", "statement": "A program that makes vectors and small vectors, works on them (also with retain and dedup), turns vectors into small vectors, iterators and boxed slices, small vectors into vectors and boxed slices, and boxed slices into vectors and small vectors, uses and drops all of these in any order, and catches panics, has no undefined behaviour. At any time every element it handed over or had made is in exactly one place: given back, dropped, in one of these objects, or left behind by a panic. All objects show what the calls made of them. If no destructor panics every live block of memory belongs to exactly one of them.", "quantifier": "all element types of non-zero size, all inline capacities, all programs, all destructors, clones and callbacks that panic, all allocators that refuse", "why_tests_cant": "Unboundedly many programs and places for panics; needs an invariant over all live handles of all kinds.", "anchors": ["src/vec.rs: Vec, IntoIter, into_boxed_slice, From<Box<[T]>>", "src/small_vec.rs: SmallVec, into_vec, into_boxed_slice, From<Vec>, From<Box<[T]>>, retain, dedup_by, dedup_by_key", "src/ptr.rs: impl Drop for ScopePtr"]}
{"id": "C128", "title": "Handles that are forgotten do no harm", "statement": "mem::forget is safe, so a program can make any number of handles of one value with Rc::clone, Arc::clone or Urc::clone and forget them, catching the panics of clone if there are any. Dropping a handle or calling get_mut on it afterwards never disturbs a handle that is still there: the count never gets below the number of handles.", "quantifier": "all numbers of clones, debug and release builds", "why_tests_cant": "Needs more clones than any test can make.", "anchors": ["src/arc.rs: MAX_REFCOUNT, impl Clone for Arc", "src/rc.rs: RcBox::inc_strong, impl Clone for Rc", "src/urc.rs: Fence::inc_strong, impl Clone for Urc"]}
{"id": "C129", "title": "Elements can be changed in place through slices", "statement": "Client code that gets a mutable slice of a part of a vector, small vector, non-empty boxed slice or of what a by-value iterator has left, and looks at, swaps and replaces elements there, changes exactly that part of the list in exactly that way, also if it panics halfway. Nothing else changes: not the other elements, the capacity, where the elements are, or the other memory blocks, and no memory is requested. The only values dropped are those the code itself drops. A range that does not lie within the elements is a panic without effect. Code that only swaps leaves a permutation.", "quantifier": "all element types of non-zero size, all lists, all six kinds of ranges, all client code", "why_tests_cant": "Unboundedly many programs on slices.", "anchors": ["src/vec.rs: DerefMut, IndexMut, as_mut_slice, IntoIter::as_slice_mut", "src/small_vec.rs: DerefMut, as_mut_slice", "src/boxed.rs: DerefMut", "src/ptr.rs: as_mut"]}
{"id": "C130", "title": "Handles sent to other threads cause no data races", "statement": "Threads of a safe program may send each other values whose types are Send, and Arc and Urc handles in envelopes. Whatever they do then, two threads never access the same Cell, reference count or value at the same time in conflicting ways.", "quantifier": "all programs of any number of threads, all nestings of Rc, Arc and Urc", "why_tests_cant": "Data races show up only in rare schedules, and there are unboundedly many programs and types.", "anchors": ["src/scope.rs: Envelope, Envelop, ScopeRecv", "src/arc.rs: impl Envelop for Arc, impl Send for Arc, impl Sync for Arc", "src/urc.rs: impl Envelop for Urc", "src/rc.rs: RcBox"]}
{"id": "C131", "title": "Allocators are not used by several threads at once", "statement": "An allocator that a scope provides is a &dyn GlobalAlloc, which need not be Sync. In a safe program two threads never call the same allocator at the same time.", "quantifier": "all programs of any number of threads", "why_tests_cant": "Needs a program in which one thread frees while another allocates.", "anchors": ["src/scope.rs: Scope::alloc_for", "src/ptr.rs: ScopePtr::dealloc, impl Drop for ScopePtr", "src/arc.rs: impl Send for Arc, drop_slow", "src/urc.rs: impl Envelop for Urc, impl Drop for Urc"]}
{"id": "C132", "title": "Arc: values that hold handles are kept and released with them", "statement": "Values of Arcs may hold further Arcs, be shared by several values, and be taken apart by several threads at once. Everything that can be reached from a handle of the program is there. When all calls are over, every value that cannot be reached any more has been dropped or moved out exactly once, and its memory released, unless handles were forgotten or form a circle. A destructor has its value for itself and may use and drop what the value holds. Every call ends.", "quantifier": "all programs of any number of threads, all interleavings of atomic steps, all graphs of objects", "why_tests_cant": "There are unboundedly many graphs, and the order of releases depends on the schedule.", "anchors": ["src/arc.rs: Arc::new, impl Clone for Arc, impl Drop for Arc, drop_slow, Arc::try_unwrap, Arc::downgrade"]}
{"id": "C133", "title": "Values stay as long as some thread has a handle", "statement": "Threads may hold handles inside handles, of Rc, Arc and Urc, clone them, take inner ones out, send them and put them into envelopes. The object of every handle, whether a thread holds it or it is inside another object, is there with its value. Memory is given back by one call only, the drop of the last Arc of a value or the last Urc of a fence; the value of the last Arc is then left to the thread that drops it.", "quantifier": "all programs of any number of threads and all orders of their calls", "why_tests_cant": "There are unboundedly many nestings of handles and orders of calls of the threads.", "anchors": ["src/arc.rs: impl Clone for Arc, impl Drop for Arc", "src/rc.rs: impl Clone for Rc, impl Drop for Rc", "src/urc.rs: impl Clone for Urc, impl Drop for Urc, impl Envelop for Urc"]}
{"id": "C134", "title": "SmallVec works for zero-sized element types", "statement": "A SmallVec of zero-sized elements behaves like a list: every call answers as the list specification says and drops what it says, never calls the allocator, whether the elements lie inline or on the heap, and dropping the vector drops exactly the elements left.", "quantifier": "all zero-sized element types, inline sizes and histories of calls", "why_tests_cant": "The inline size, the number of elements and the history of calls are unbounded, and the heap case needs counts above the inline size of each instance.", "anchors": ["src/small_vec.rs: SmallVec::try_reserve, SmallVec::try_reserve_exact, SmallVec::try_move_to_heap_and_reserve_exact, SmallVec::push, SmallVec::try_with_capacity_and_marker, StackVec", "src/vec.rs: Vec::capacity, OverflowGuardedAdd, impl Drop for Vec"]}
{"id": "C135", "title": "A handle that cannot be made for want of memory leaves nothing behind", "statement": "If the allocator refuses memory while a Box, Rc, Arc or Urc is made, or while a Urc is sent to another thread, then the value that was to be stored is dropped exactly once, no memory stays allocated for it, and the handles that exist already behave as if the call had not been made.", "quantifier": "all values, all states of the heap and the handles, and every request at which the allocator refuses", "why_tests_cant": "Each request of each constructor would have to be refused in every reachable state; tests run on allocators that do not refuse, and a leak or a counter one too high is not seen in a result.", "anchors": ["src/ptr.rs: ScopePtr::alloc", "src/boxed.rs: Box::new_with", "src/rc.rs: Rc::new", "src/arc.rs: Arc::try_new", "src/urc.rs: Urc::try_new, impl Envelop for Urc"]}
{"id": "C136", "title": "A pointer knows its allocator and the selector it was chosen by", "statement": "The memory of a ScopePtr comes from the allocator that the scope current at the call selects for the selector, and goes back to that allocator, whatever scope is current then and whatever the pointer was cast to in between. marker() is the marker of that selector, and alloc_selector() equals that selector, as its documentation says.", "quantifier": "all programs that make pointers (Box::new, Box::new_with, ScopePtr::alloc, alloc_array_uninit, the fences of a Urc), cast, clone, enlarge, forget and drop them and change the current scope, all scopes' choices of allocators and all placements of type names", "why_tests_cant": "The sequences of calls, the scopes' answers and the linker's placement of type names are unbounded; one wrong allocator at the end of a long history frees foreign memory, and the addresses of type names differ only between some builds.", "anchors": ["src/ptr.rs: ScopePtr::alloc, ScopePtr::alloc_array_uninit, ScopePtr::cast, ScopePtr::cast_to_slice, ScopePtr::cast_str_to_bytes, ScopePtr::clone, ScopePtr::marker, ScopePtr::alloc_selector, ScopePtr::realloc_array, impl Drop for ScopePtr", "src/boxed.rs: Box::new, Box::new_with", "src/urc.rs: Urc::try_new, Urc::try_into_fence"]}
{"id": "C137", "title": "Vectors inside vectors are owned, dropped and released exactly once", "statement": "In a program that keeps Vec<T>s inside Vec<Vec<T>>s, every inner vector that exists is either held by the client or is exactly one element of exactly one outer vector, and everything an outer vector shows is an inner vector that exists. Every call on either level returns or panics, and the destructors of inner vectors run by calls of outer vectors always find their vector alive. Every inner vector ever made either exists or was dropped exactly once. Once the outer vectors are dropped and the client holds none, no block of either level is left and every element handed to an inner vector was dropped or given back exactly once.", "quantifier": "for all programs with any number of inner and outer vectors, moving inner vectors in and out and using them in place, with panics caught and allocations refused at any time; element types of non-zero size whose destructors do not panic; calls of outer vectors that do not clone elements", "why_tests_cant": "the owner of an inner vector depends on the whole history of both levels; tests follow a few histories and see a double drop or a leak only by accident", "anchors": ["vec.rs: push, insert, remove, swap_remove, truncate, clear, append, Drop"]}
{"id": "C138", "title": "Calls on a vector keep to the aliasing rules of Rust", "statement": "A program that makes only safe calls on a Vec, a SmallVec or a String, and uses the references it gets from them for as long as the borrow checker lets it, never makes a reference from, reads through or writes through a pointer that the aliasing rules of Rust (Stacked Borrows) do not allow for the place concerned. In particular every element is written through a pointer made for its place, and no pointer is used after a newer &mut to the same place was made.", "quantifier": "for all sequences of calls and uses of references, all lengths and capacities, with and without debug assertions; elements of non-zero size", "why_tests_cant": "no test can observe a broken aliasing rule: the program usually does what was meant, until a compiler makes use of the rule; the tools that check the rules see only the histories that are run", "anchors": ["vec.rs: push, append, insert, remove, swap_remove, split_off, spare_capacity, spare_capacity_mut, IntoIter, RetainIter, From<[T; N]>", "small_vec.rs: StackVec, try_move_to_heap_and_reserve_exact, try_move_to_stack", "string.rs: remove, insert_bytes, retain"]}
{"id": "C139", "title": "Handles of a shared value keep to the aliasing rules of Rust", "statement": "A program that makes only safe calls on Rcs, Arcs or Urcs of one value and on their Weaks, and uses the references it gets from them for as long as the borrow checker lets it, never makes a reference from, reads through or writes through a pointer that the aliasing rules of Rust (Stacked Borrows) do not allow. In particular a reference got from one handle stays usable while other handles are cloned, dropped, asked for a &mut or sent to other threads, and a handle can be dereferenced after its get_mut or make_mut.", "quantifier": "for all sequences of calls on any number of handles, Weaks and fences and all uses of the references got from them; calls one after the other", "why_tests_cant": "no test can observe a broken aliasing rule: the program usually does what was meant, until a compiler makes use of the rule; the tools that check the rules see only the histories that are run", "anchors": ["rc.rs: deref, get_mut, as_mut, make_mut, try_unwrap, Drop, Weak::upgrade", "arc.rs: deref, get_mut, get_mut_unchecked, make_mut, try_unwrap, drop_slow", "urc.rs: data, master_mut, fence_mut, get_mut, make_mut, Drop for Urc, Weak::fence, envelop"]}
{"id": "C140", "title": "Calls on a vector keep to Tree Borrows", "statement": "A program that makes only safe calls on a Vec, a SmallVec or a String, and uses the references it gets from them for as long as the borrow checker lets it, never makes a reference from, reads through or writes through a pointer that Tree Borrows, the more permissive of the two proposals for the aliasing rules of Rust, does not allow for the place concerned, and never touches memory outside the block. So a compiler that relies on no more than Tree Borrows may not break such a program.", "quantifier": "for all sequences of calls and uses of references, all lengths and capacities, all answers of the closures of retain and dedup_by and all choices of what they write, with and without debug assertions; elements of non-zero size", "why_tests_cant": "no test can observe a broken aliasing rule: the program usually does what was meant, until a compiler makes use of the rule; the tools that check the rules see only the histories that are run", "anchors": ["vec.rs: push, append, insert, remove, swap_remove, split_off, spare_capacity, spare_capacity_mut, dedup_by, retain, IntoIter, From<[T; N]>", "small_vec.rs: StackVec, try_move_to_heap_and_reserve_exact, try_move_to_stack", "string.rs: remove, insert_bytes, retain"]}
{"id": "C141", "title": "Handles of a shared value keep to Tree Borrows", "statement": "A program that only makes safe calls on Rc, Arc or Urc handles never uses a reference or raw pointer in a way that Tree Borrows forbids, whatever it does with the references the calls gave it while the borrow checker lets it.", "quantifier": "for all programs of calls on handles and Weaks of one value (clone, deref, counts, downgrade, upgrade, get_mut, make_mut, try_unwrap, envelop, drop) with reads and writes through the references in between", "why_tests_cant": "undefined behaviour by aliasing shows in no test result; a run under an interpreter checks one program, and the sequences of calls are infinitely many", "anchors": ["rc.rs: deref, get_mut, as_mut, make_mut, try_unwrap, Drop, Weak::upgrade", "arc.rs: deref, get_mut, get_mut_unchecked, make_mut, try_unwrap, drop_slow", "urc.rs: data, master_mut, fence_mut, get_mut, make_mut, try_unwrap, Drop for Urc, Drop for Weak, envelop"]}
{"id": "C142", "title": "Formatting shows the value", "statement": "Box, Rc, Arc, Urc: {:?} and {} do to the formatter exactly what they do for the value, with the same result, and change nothing else. {:p} of Arc and Urc shows the address of the value, which is the same for two handles exactly if ptr_eq is true. Vec and SmallVec: {:?} shows the elements as a slice with the same content, [a, b, c].", "quantifier": "all histories; all formatters, also ones that fail or panic midway", "why_tests_cant": "Quantifies over all histories and all implementations of the formatting traits.", "anchors": ["src/boxed.rs: impl Debug, Display for Box", "src/rc.rs: impl Debug, Display for Rc", "src/arc.rs: impl Debug, Display, Pointer for Arc", "src/urc.rs: impl Debug, Display, Pointer for Urc", "src/vec.rs: impl Debug for Vec", "src/small_vec.rs: impl Debug for SmallVec"]}
{"id": "C143", "title": "Handles kept in vectors are owned, dropped and counted once", "statement": "In a program that keeps Rc, Urc and Weak handles inside Vecs, every handle that exists is either held by the client or is exactly one element of exactly one vector, and everything a vector shows is a handle that exists. Calls of vectors return or panic, and the destructors of handles they run always find their handle alive and return. The counts of a value (weak_count and strong_count of Rc, fence_weak_count and fence_strong_count of Urc) count its handles wherever they are kept; for strong_count of Rc up to the one it is off by when the value once had no Rc handle (C55). Whatever holds of programs that keep handles outside vectors holds of these programs too. Once the vectors are dropped and the client holds no handle, no handle exists and the vectors left no memory behind.", "quantifier": "for all programs with any number of handles, values and vectors, moving handles in and out and using them in place, with panics caught and allocations refused at any time; calls of vectors that do not clone elements; calls of handles that do not run into the known faults of Rc::make_mut (C57) and of Urc (C67 to C73); fewer calls than a count can hold", "why_tests_cant": "who owns a handle depends on the whole history of vectors and handles; a handle dropped twice or forgotten by a vector only shows in the counts, much later, or as a use after release", "anchors": ["vec.rs: push, insert, remove, swap_remove, truncate, clear, append, Drop", "rc.rs: Rc, Weak, Drop, strong_count, weak_count", "urc.rs: Urc, Weak, Drop, fence_strong_count, fence_weak_count"]}
{"id": "C144", "title": "Cloning vectors of handles or vectors gives every clone one owner", "statement": "In a program that keeps Rc, Urc and Weak handles, or vectors, inside Vecs and clones those vectors, extends them from slices or resizes them, every handle and every inner vector that exists, clones included, is either held by the client or is exactly one element of exactly one vector. A clone made by a vector is a new handle of the same kind to the same value as its source, or a new inner vector with the same contents. Cloning a vector of handles panics only if memory is refused, and then nothing changed; cloning a vector of vectors may also panic because a clone of an inner vector does, and then the inner vectors cloned before are dropped and all others are as they were. The counts of a value count its handles wherever they are kept, clones included (strong_count of Rc up to the one of C55). Once the vectors are dropped and the client holds nothing, no handle and no inner vector exists and no memory of vectors is left.", "quantifier": "for all programs with any number of handles, values and vectors on both levels, with panics caught, allocations refused at any time and clones of elements of inner vectors panicking at any time; calls of handles that do not run into the known faults of Rc::make_mut (C57) and of Urc (C67 to C73); fewer calls than a count can hold; destructors of elements do not panic", "why_tests_cant": "a clone that is counted but has no owner, or has an owner but is not counted, shows only when the last handle is dropped; which clone panics and what had been cloned before it depends on data and allocator", "anchors": ["vec.rs: impl Clone for Vec, extend_from_slice, resize, Drop", "rc.rs: impl Clone for Rc, impl Clone for Weak, strong_count, weak_count", "urc.rs: impl Clone for Urc, fence_strong_count"]}
{"id": "C145", "title": "Handles and vectors kept in containers of any kind have one owner", "statement": "Store `Rc`, `Urc` or `Weak` handles, or vectors, in vectors, small vectors, by-value iterators and boxed slices, and turn these containers into one another. Every stored handle or vector then has exactly one owner: the client, or one place in one container. Whatever a container shows or gives back exists; whatever a container drops is destroyed once, while it exists. The counts of an `Rc` or `Urc` are the numbers of handles held and stored. When everything is dropped, nothing is left.", "quantifier": "for every sequence of calls on the handles or inner vectors and on the containers that makes no new elements by cloning or callbacks, with every panic caught", "why_tests_cant": "A handle lost or destroyed twice in one of many conversions shows only as a count that is off by one, a value that is never dropped or a use after free much later; the number of sequences of conversions is unbounded.", "anchors": ["src/vec.rs:384-395", "src/vec.rs:495-512", "src/vec.rs:977-990", "src/vec.rs:1032-1131", "src/small_vec.rs:532-550", "src/small_vec.rs:960-974", "src/rc.rs:161-175", "src/urc.rs:496-546"]}
{"id": "C146", "title": "Containers nested to any depth are owned and destroyed once, on every level", "statement": "Nest vectors, small vectors, by-value iterators and boxed slices in one another to any depth, and use, move, convert and drop the containers of all levels. On every level a container has exactly one owner: the client, or one place in one container of the next level. Every call on any level returns or panics; the containers it drops exist, are dropped once, and their destructors return together with those of everything inside. When the client holds nothing and the outermost containers are gone, no container of any level is left and all memory of all levels is given back.", "quantifier": "for every depth and every sequence of calls on containers of all levels that makes no new containers by cloning or callbacks, with every panic caught and no destructor that panics", "why_tests_cant": "Tests have a fixed depth, mostly one or two, and a fixed order of moves between the levels. A container destroyed twice or never, several levels down, shows as a use after free or a leak at a place far from the call that caused it.", "anchors": ["src/vec.rs:384-395", "src/vec.rs:495-512", "src/vec.rs:977-990", "src/vec.rs:1032-1131", "src/small_vec.rs:532-550", "src/small_vec.rs:725-731", "src/small_vec.rs:960-974", "src/boxed.rs:7", "src/ptr.rs:19-41"]}
{"id": "C147", "title": "Trees of Arcs changed through make_mut behave as if every handle had a tree of its own", "statement": "Let nodes hold a value and Arcs of further nodes, and let any number of threads build such trees, clone, drop and forget handles, read along any path, make Weaks, take nodes apart with try_unwrap, and change nodes through the &mut T of make_mut and get_mut: write the value, put handles in and take handles out. What the program reads, gets and is given is what it would be if no node were shared and clone copied the whole tree: a change through one handle is never seen through another, and a tree that nobody changes stays as it is. Every such call returns, no step of it accesses a node that is gone, and while there is a &mut T of a node there is no other access to the node. Between calls the nodes that exist are exactly those the program can get at through its handles and forgotten ones; when these are gone every node has been destroyed.", "quantifier": "for any number of threads, every tree, every interleaving of the atomic steps, spurious failures of compare_exchange_weak, panics of T::clone and refused memory, in histories of at most isize::MAX steps; memory sequentially consistent", "why_tests_cant": "Tests of copy-on-write check a few shapes of sharing on one thread. Whether make_mut copies, moves or changes in place depends on counts that other threads change between its steps, at every level of the tree; a change that leaks into another handle's tree shows as a wrong value far away.", "anchors": ["src/arc.rs:135-150", "src/arc.rs:172-220", "src/arc.rs:224-249", "src/arc.rs:259-267", "src/arc.rs:296-358", "src/arc.rs:377-384", "src/arc.rs:466-541"]}
{"id": "C148", "title": "Arcs kept in containers have one owner on any number of threads", "statement": "Let threads keep Arc<T> handles in vectors, small vectors, by-value iterators and boxed slices, move them in and out, turn the containers into one another and drop them, while other threads clone, read, count, get_mut, make_mut, try_unwrap and drop handles of the same values. Every handle that exists has exactly one owner: a thread, or one place in one container, and its value is there. A container that is truncated, cleared or dropped drops each of its handles once; every step of these drops and of all other calls can be made, in any interleaving. While nothing is under way, strong_count is the number of handles held and kept in containers. When the containers are gone and no thread has a handle, every value has been dropped or moved out exactly once, and all memory of containers and of values that never had a Weak has been given back.", "quantifier": "for any number of threads and handles, every interleaving of the atomic steps of drop, get_mut, make_mut and try_unwrap with each other and with calls on containers, every sequence of calls on the containers that makes no new elements by cloning or callbacks, with every panic caught, in histories of at most isize::MAX/3 calls; memory sequentially consistent", "why_tests_cant": "Tests of containers use plain elements, and tests of Arc keep a fixed handful of handles in local variables; a handle that a container drops twice or not at all shows only as a count that is off by one, seen by another thread at an unrelated time.", "anchors": ["src/arc.rs:135-150", "src/arc.rs:172-249", "src/arc.rs:259-358", "src/arc.rs:466-541", "src/vec.rs:439-460", "src/vec.rs:977-990", "src/vec.rs:1032-1131", "src/small_vec.rs:154-162", "src/small_vec.rs:532-550", "src/small_vec.rs:725-731"]}
{"id": "C149", "title": "Cloning a vector of Arcs clones every handle once", "statement": "Let threads keep Arc<T> handles in vectors, and clone these vectors, extend them from slices of handles and resize them with a handle, while other threads clone, read, get_mut, make_mut, try_unwrap and drop handles of the same values. clone of a vector returns a vector of as many new handles, the i-th of the same object as the i-th handle of the original, or is refused memory and changes nothing; no clone panics. The original, all other handles and all values stay as they are. Every handle that exists has exactly one owner, and its value is there. While nothing is under way, strong_count is the number of handles held and kept, clones included. When the vectors are gone and no thread has a handle, every value has been dropped or moved out exactly once, and all memory of vectors and of values that never had a Weak has been given back.", "quantifier": "for any number of threads, handles and vectors of any length, every interleaving of the steps of drop, get_mut, make_mut and try_unwrap with each other and with calls on vectors, with every panic caught and every allocation of a vector possibly refused, in histories of at most isize::MAX/3 calls in which make_mut is not refused memory after it has moved a value out (C58); the clones of one call are not interleaved with other threads; memory sequentially consistent", "why_tests_cant": "Tests clone short vectors of plain values; whether the clones of handles and the count of the shared value agree for every vector, while other threads give up their handles, needs all lengths and all schedules.", "anchors": ["src/arc.rs:466-541", "src/arc.rs:172-249", "src/vec.rs:342-350", "src/vec.rs:484-489", "src/vec.rs:691-700", "src/vec.rs:929-935", "src/vec.rs:977-990"]}
{"id": "C150", "title": "Any number of boxes own their values, in containers too", "statement": "Let a program use any number of Box<T> values: make them with and without marker in changing scopes, read and assign them, compare them, unwrap them with into_inner, and drop them in any order, and keep them in vectors, small vectors, by-value iterators and boxed slices. Every box reads the value last stored in it, whatever is done to the others; comparisons compare these values. Every value handed over is in exactly one box, or was moved out or dropped, once. The memory in use is one block per box, of the allocator the scope chose for it, which the box keeps to its end. A box has one owner, and once all boxes are gone no memory is in use. A refused request changes nothing but dropping the value that was handed over.", "quantifier": "for all element types, all numbers of boxes and all histories of calls, in any scopes, with every panic caught and every allocation possibly refused, with boxes held by the client or kept in containers", "why_tests_cant": "Tests make one box at a time. That boxes never get at each other's memory, and that each is freed once through its own allocator wherever it was kept, needs all orders of calls of all lengths.", "anchors": ["src/boxed.rs:10-20", "src/boxed.rs:69-81", "src/boxed.rs:117-121", "src/ptr.rs:33-41", "src/ptr.rs:181-208", "src/ptr.rs:241-245", "src/vec.rs:439-460", "src/vec.rs:977-990"]}
{"id": "C151", "title": "downcast gives a handle of the type of the value and changes nothing else", "statement": "downcast of a Box, Rc, Arc or Urc of dyn Any to a type T succeeds exactly if the value is of type T. It then returns a handle of the same value, in place of the one handed over; otherwise it returns that handle. Either way the value, its memory, all other handles and all counts are as before: whatever the handle allowed or ruled out before (reading the value, exclusive access through get_mut, being dropped once, memory given back as it was requested) it does after.", "quantifier": "for all handles of dyn Any, however many there are of the value, all types and all values, in every state that programs reach", "why_tests_cant": "Tests downcast a fresh handle and read it, which works even if the count has gone wrong; that counts, layouts and exclusive access are right afterwards needs every number of handles and all later calls.", "anchors": ["src/boxed.rs:23-31", "src/ptr.rs:68-77", "src/rc.rs:151-159", "src/arc.rs:361-375", "src/urc.rs:421-438"]}
{"id": "C152", "title": "Boxes keep to the aliasing rules of Rust", "statement": "A program that makes a Box of a value, or has one of a slice or a str, and only makes safe calls on it (dereferencing it either way, comparing, iterating, assigning, turning a Box<str> into a Box<[u8]>, dropping it or taking the value out) never uses a pointer that it must not use, by Stacked Borrows or by Tree Borrows (both taken without protectors, the extra rules for references that are arguments of a running function): every &T stays usable until the box is borrowed mutably, every &mut T until the box is used again, and the box may be used and its memory be given back after any of this. (That into_inner runs the destructor afterwards is the subject of C27.)", "quantifier": "for all sizes of the value, all programs of any length, in any order of calls and uses of references that the borrow checker accepts, under both sets of rules", "why_tests_cant": "Tests run compiled code, which does not check aliasing rules; Miri checks them for the programs that are run, with Stacked Borrows or with Tree Borrows.", "anchors": ["src/boxed.rs:9-20", "src/boxed.rs:33-157", "src/ptr.rs:22-41", "src/ptr.rs:147-158", "src/ptr.rs:181-208", "src/ptr.rs:241-245"]}
{"id": "C153", "title": "Scopes keep to the aliasing rules of Rust", "statement": "A program that only makes safe calls to spawn scopes, ask for the current scope and allocate, in any nesting, never uses a reference to the environment that it must not use, by Stacked Borrows or by Tree Borrows: the reference that spawn holds is still usable when the function it was given has returned, whatever this function did.", "quantifier": "for all programs of spawns, allocations, calls of current, panics and catch_unwind, of any length and nested to any depth, under both sets of rules", "why_tests_cant": "Tests run compiled code, which does not check aliasing rules, and a compiler that makes use of the violation may do so in one version and not in another; Miri checks them for the programs that are run only.", "anchors": ["src/scope.rs:8-15", "src/scope.rs:126-149", "src/scope.rs:156-158", "src/scope.rs:161-185", "src/marker.rs:98-102", "src/ptr.rs:187-189"]}
