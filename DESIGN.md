# Formal model of modern_stl — design

Source under study: `/repo` (read as text only; never built or run). Model and proofs: `lean/Verif/**` (Lean 4.33.0,
single Mathlib modules). Properties: `properties.jsonl`. Status of each: `MANIFEST.json`. Wrong programs tried:
`seeded/LOG.jsonl`.

## 1. Layout

| directory | contents |
|---|---|
| `lean/Verif/Base/` | outcome monad (`Out`, `Prog`), 64-bit word arithmetic |
| `lean/Verif/Model/` | executable model, one file per header; every definition cites file and lines |
| `lean/Verif/Spec/` | small independent specifications (ideal lists, RFC 3629 grammar, what a client can see) |
| `lean/Verif/Proof/` | helper lemmas and invariants |
| `lean/Verif/Props/` | the property theorems, each with a non-vacuity `example` or a counterexample beside it |

Read a property as follows: `properties.jsonl` for the English, the theorem in `Props/`, the `Spec/` file it mentions. `Proof/`
is needed only to check that the kernel accepts it.

## 2. Outcomes

A C++ call is modelled as a function `σ → Out (β × σ)`. `Out` has the distinct outcomes

* `ok` — the call returned;
* `panic` — `MSTL_PANIC`: the process exits with code 101 (global.h);
* `oom` — the allocator returned null. The library never tests for null, so in C++ this ends in undefined behaviour or in a
  container that announces storage it does not have; it is kept apart from `ub` so that every theorem says "or the allocator had
  refused a request". Theorems stated with `SafeIf (Refuses cfg)` allow `oom` only if the
  allocator is one that refuses something;
* `ub` — undefined behaviour: access outside a block, to freed or raw storage, double destruction, release with another size or
  through another allocator, reading the inactive union member, flowing off the end of a non-void function, ...;
* `div` — the call never returns.

Loops that follow pointers are defined with `partial_fixpoint` (least fixed point, `div` is bottom), loops bounded by a counter
by structural recursion. Nothing is totalised: reading a missing cell is `ub`, not a default.

Elements: an element type is an arbitrary Lean type `α` with an arbitrary function `mv : α → α` giving the value left behind by a
move. Theorems are for every `α` and `mv`.

Histories: a *world* is the heap and any number of named containers. `Reach cfg w` says that a client arrived in `w` by some
finite sequence of calls. `specRun full …` runs the same sequence on ideal lists. `full = true` allows every call the
documentation allows; `full = false` leaves out exactly the calls marked `only` in the `Spec/` file. For each `only` there is
a `_fails` theorem showing that the call goes wrong in the code. Theorems over `full = false` histories carry the suffix
`_partial`.

## 3. Plan per property

| id | what is modelled | how it is proved |
|---|---|---|
| C01 | `Vector` over a heap of blocks of slots (raw/live), len/cap/ptr, all mutating members, several named vectors in one world | refinement to `List α`: per-operation triple with an explicit frame, then induction over histories |
| C02 | ghost tallies: elements constructed/destroyed, bytes requested/returned | heap invariant preserved by every primitive; part of the refinement invariant |
| C03 | same model | per-operation capacity equations |
| C04 | construction tally | potential-function invariant over push sequences |
| C05 | `at/front/back/[]` | case analysis under the representation predicate |
| C06 | `emplace/insert/move_elements_back` with 2^64 wrap of `hi--` | loop invariant; negation at position 0 and on empty vectors |
| C07 | `erase` | loop invariants of std::move and pop_back |
| C08–C10, C13 | copy/move/assign/resize | triples; C10 negation for initializer_list assignment |
| C11 | `operator==`, `operator<=>` | induction; order laws |
| C12 | `VectorIter`, `VectorIntoIter` | induction on remaining elements |
| C14 | aliasing arguments passed as references into the vector's own block | negation witnesses and the guard under which it holds |
| C15 | byte computation modulo 2^64 in `Allocator::allocate` | arithmetic; negation for explicit huge counts |
| C16–C20 | node heap with prev/next/data, head and tail sentinels, one model for both list kinds | segment predicates, triples with frame, induction over histories |
| C21–C27 | sort/merge/splice/reverse/unique/remove_if as pointer programs | loop invariants; negations for the cases the code gets wrong |
| C28–C34 | remaining list members | triples, negations |
| C35–C39 | encoders as functions on byte lists | grammar equivalence by induction, finite tables by kernel evaluation lifted to all bytes |
| C40–C45 | `BasicString` with the inline/heap union | refinement to byte lists |
| C46–C49 | `Option` with payload lifetime tallies | state-machine invariant over histories |
| C50–C52 | `Result` with tag and payload union | the same; negation for mixed assignment |
| C53–C55, C67 | iterators as `σ → Out (Option α × σ)` with effects | induction on the number of produced elements |
| C56–C60 | Range, Array, Slice iterators | induction |
| C61–C62 | Layout, Allocator | bit arithmetic on 64-bit words |
| C63–C64 | Match chains | induction over the chain |
| C65–C66 | Tuple (heterogeneous list), TypeList | structural induction |
| C68 | operator<< | induction |
| C69–C70 | `VectorIter` as a triple of addresses with its arithmetic; moves outside the block are `ub` | the address is `begin + position`; induction over moves; C70 negation for `==` |
| C71 | `Result<T&, E>` over a memory of client objects, one configuration of the tagged storage | simulation of ideal reference variables, induction over histories |
| C72 | array and owning-iterator variables, every constructor and assignment | simulation of lists of cells, induction over histories; C72 negations for the iterator assignments |
| C73 | the same model; `need` in Spec/VectorNeed.lean says which calls need storage and how much | per call, every `oom` is traced to a refused request no larger than `need`; induction over histories |
| C74 | Model/VectorFault.lean, `…N`: the null pointer is stored and used | negations from any reachable vector; equality with the main model when nothing is refused |
| C75 | Model/VectorFault.lean, `…T`: copying a value with `bad x` throws | negations from any reachable vector; equality with the main model when nothing throws; strong guarantee of `insert(pos, value)`; whole programs that catch the exceptions (Model/VectorThrow.lean `stepT`/`runT`, Spec/VectorThrow.lean): the calls that survive a throw keep the state the specification gives, every other throwing call leaves a damaged state (`C75_throw_exact`) |
| C76 | Spec/LinkedListNeed.lean `nodesFor`, `mayGrow`; request counter `heap.next` and `refuse` of the list model | per-function: no request (`NoMem`), or parametricity in `refuse` (same run under a granting allocator until the first refusal) |
| C77 | Model/LinkedListFault.lean, `…N`: the allocator's null pointer followed through the code | each call equals the main model unless refused, and then is undefined |
| C78 | Model/LinkedListFault.lean, `…T thr`: the k-th construction of the history throws if `thr k` | negations from any reachable state; single insertions leave `view` and `cells` unchanged; equality with the main model when nothing throws |
| C79 | Model/LinkedListIter.lean: the operators of `ListIterSTL`, clients as lists of moves; Spec/LinkedListIter.lean: positions 0 to n + 1 | an iterator is the k-th node of the chain; induction on the moves |
| C80 | `RangeCursor` as a position of an integer type: the four steps, `+`, `-`, `==`, `<=>`, `begin`/`end`; `Range ==` (`Model/RangeCursor.lean`) | induction over operation sequences against unbounded integer arithmetic; congruence argument for wrapping types |
| C81 | `sort`, `merge`, `unique` with a predicate that throws at arbitrary calls (`Model/LinkedListThrow.lean`) | the loops again, by induction: they either go on like the loops without exceptions or stop in a state whose chains are described (every node leads to one of the two ends); counting nodes for `merge`; invariant of the histories for `unique` |
| C82 | `CharsWrap`, the literal suffixes with their static assertions, `BasicChar` of both encodings: construction, `get_len`, `operator<<` (`Model/Literal.lean`) | the copying loops as list equations; validation by C35, C38 |
| C83 | nothing new; strings as sequences of characters (`Spec/Literal.lean`) | UTF-8 is a prefix code (the first byte determines the length), so the characters of a text are unique; boundaries are the partial sums of their lengths; histories of C40 |
| C84 | nothing new; the counters of the string model's allocator (`Spec/BStringNeed.lean`: which call asks for what) | case analysis of every operation for the exact request; amortised bound by an invariant over growing calls (capacity at least 1.5 times the previous one) |
| C85 | the string members that allocate once more, with the null pointer followed through (`Model/BStringFault.lean`) | agreement with the first model unless a request is refused; a refused request always reaches a copy through null |
| C86 | the members of `Option` that copy, with copies that throw, and `map` with a function that throws (`Model/OptThrow.lean`) | the refinement of C46 again with an answer "threw" |
| C87 | the unchecked accessors of `Option`, `Result`, `Vector`; writing through `ok_ref`/`err_ref` (`Model/Unchecked.lean`) | state invariants of C46, C50, C71, C01 |
| C88 | adapters and terminals once more with function objects that have a state (`Model/IterState.lean`) | one call of `next` related to a scan of the source list, by induction on the pipeline and the list |
| C89 | struct layout, node and vector requests, element addresses (`Model/Storage.lean`) | arithmetic on multiples and powers of two |
| C90 | vectors and owning iterators as objects of one program (`Model/VectorOwn.lean`) | refinement: the vectors hidden in iterators are further variables of the vector invariant; a call on visible vectors commutes with adding hidden ones |
| C91 | the full and the restricted specification of vectors, and the same model | for each call left out, what the code does instead: never returns (underflowing index, released or raw argument), uncounted elements, raw slots among the elements, another element copied |
| C92 | the full and the restricted specification of lists, and the same model | one direction is the refinement theorem; the other uses the `_fails` theorem of each call left out |
| C93 | the full and the restricted specification of strings, and the same model | one direction is the refinement theorem; the other uses the `_fails` theorem of each call left out, and for strict copy assignment a case split on the room of the target |
| C94 | the model of C81, where the comparison throws at chosen calls | induction over the merge and over the sort, with the recurrence cost(n) = cost(⌈n/2⌉) + cost(⌊n/2⌋) + n − 1 and cost(n) ≤ n·e for n ≤ 2^e |
| C95 | `Model/IterThrow.lean`: the functions of include/mstl/iter as calls that return or throw, with `noexcept` turning an exception into termination; specification: the list programs of C53–C55 in the same monad, where `do` stops at the first exception | `noexcept` is a monad morphism; fixpoint induction in both directions, then induction over the list of elements |
| C96 | result.h members that copy a payload, with copies that throw (Model/ResultThrow.lean) | refinement of histories against a small specification; the difference between the specification and the property is characterised exactly |
| C97 | the tallies of constructions, destructions and allocations kept by the heap (Model/Mem.lean), against a separate table of the work of each call (Spec/VectorWork.lean) | a Hoare-style calculus of work for each member, then a case analysis over the calls and induction over histories |
| C98 | iterators of vectors and lists in memory as sources of pipelines, `from_iter` of vectors and lists in memory as their end, interleaved as in the code (Model/Collect.lean) | invariant of the loop: the container read is intact and apart from the one being filled; the rest is the pipeline theorem of C54-C58 and the history theorems of vectors and lists |
| C99 | iterators that hand out references into the block or node, functions that read and write through them, interleaved with everything else they do (Model/InPlace.lean) | simulation between the loop on memory and the same loop on a list of values; every write is the call `c[i] = x` of the histories, so the invariants of vectors and lists carry over |
| C100 | `ListIntoIter` objects as list variables that the expression creates, moves, copies and destroys, the consuming `next`, and the pipeline and `from_iter` loops of C98 (Model/Consume.lean) | taking the elements commutes with filling the new container, so the loop equals the construction from the survivors followed by taking all elements; the calls before and after are a history of C16 |
| C101 | the tallies of constructions, destructions and allocations that the heap of Model/LinkedList.lean keeps | the step lemmas of C16 carry what each call adds to the tallies; `work` (Spec/LinkedListWork.lean) is a function of the ideal contents, and histories follow by induction |
| C102 | `next()` of sources, `map` and `filter`, and `find`, `fold`, `for_each`, `from_iter`, `reduce`, `last` with every `Option` local variable, temporary and result as an object of Model/Opt.lean (Model/IterOpt.lean) | every operation on an object is run against the contents the objects should have; the loops are compared with the loops over values by fixpoint induction in both directions, so that runs that do not end agree too; pipelines by induction on the stages |
| C103 | the iterator objects of the expression as variables of Model/VectorOwn.lean, the loops of `fold`, `for_each`, `from_iter`, `find`, `last` over them, with client functions that have their own state and may call vectors (Model/VectorConsume.lean) | the loop equals the list of calls it makes (induction on the elements still to come); C90 says what such a list does; for functions without calls the final state is computed |
| C104 | the iterator objects of the expression as list variables (Model/Consume.lean), the loops of `fold`, `for_each`, `reduce`, `find`, `last` over them, with client functions that have their own state and may call lists (Model/ListConsume.lean) | `next()` is `pop_front()` on the iterator object's list; induction on the elements still to come; the calls that make and destroy the objects are computed with C16/C17, their cost and their requests for memory with the exact cost theorems for lists |
| C105 | vectors and iterator variables of one program (Model/VectorLive.lean on top of Model/VectorHist.lean and Model/VectorIter.lean); an iterator is three pointers | each member either keeps the block or takes one newer than the call (Proof/VectorFlow.lean); the exact number of blocks requested (C97) and the capacity decide which (Proof/VectorMoved.lean); then refinement to positions |
| C106 | strings and `chars()` iterator variables of one program (Model/BStringLive.lean on top of Model/BString.lean); an iterator is two pointers, either into a string object or into a buffer | each member keeps the bytes where they are or takes a newer buffer (Proof/BStringMoved.lean); the room decides which; then refinement to positions in the ideal text |
| C107 | for every call on vectors, owning vector iterators, lists and strings, the list of what happens to the allocator objects: constructed, used, destroyed, storage left (Model/AllocLife.lean) | an invariant (existing objects have live allocators, and the tallies agree) kept by every list of events that kills an allocator only together with its object; exact tallies for the others |
| C108 | the members of vectors that take `T&&`, with an element of the same or another vector as argument, and elements moved out by the client, between any calls of C01 (Model/VectorGive.lean) | moving out acts on the heap like assigning the moved-from value, so every call is a sequence of calls whose simulation C01 has |
| C109 | the members of lists that take `T&&` or forward it, with an element of the same or another list as argument, and elements moved out by the client, between any calls of C16 and C17 (Model/LinkedListGive.lean) | looking up a position and moving an element out commute, because the links do not change; so every call equals a call of C16 in the state with the moved-from value assigned |
| C110 | `Slice` and `SliceRefIter` as pointers into the storage of vectors, kept in variables across any calls of C01 (Model/VectorSlice.lean) | invariant relating every slice and iterator to a stretch of positions, transported by the same lemma as for iterators (C105); dead storage is never allocated again |
| C111 | schedules: the calls of any number of threads on vectors, lists and strings in any order, call by call (Spec/Threads.lean); memory accesses inside a call are not interleaved | frame lemma for every call of the three specifications (outcome determined by, and change confined to, the objects it names); induction on the schedule; then C01, C16, C17, C40 for the interleaved history |
| C112 | the members of Option and Result that move a payload, with moves that throw and leave any value behind (Model/MoveThrow.lean); a throw in a `noexcept` member is `std::terminate` | refinement of the lists-of-variables specification with throwing answers, on top of C86 and C96; induction on the history |
| C113 | reference iterators, slices and iterators over slices as pairs of pointers into array objects, kept in variables beside the arrays of C72 (Model/ArrayLive.lean) | simulation of positions of arrays, on top of C72; no call but destruction changes the length of an array; induction on the program |
| C114 | the members of Vector that move elements, with moves that throw and leave the source as it was (Model/VectorMoveThrow.lean); a throw inside the `noexcept` `allocate_reserve` is `std::terminate` | `fate` gives the outcome of every call; per-member lemmas for the loops stopped halfway; refinement of the history specification of C01 with throwing answers; induction on the history |
| C115 | programs over lists in which construction number m of a call throws and the caller catches the exception (Model/LinkedListCatch.lean over the members of Model/LinkedListFault.lean) | the invariant of C16 extended by the nodes that belong to no list, with what they hold; `fateC` gives the outcome of every call; refinement and induction on the history; the counters balance up to the lost nodes |
| C116 | programs over arrays and owning array iterators in which copy or move number n of a call throws and the caller catches the exception (Model/ArrayThrow.lean) | the loops with a number of the first throwing copy; a loop that is not reached by it is the loop of C72, one that is stops with the first n cells done; refinement of `fate` and induction on the history |
| C117 | programs over variables and tuples of any length in which copy, move or function call number n of a call throws and the caller catches the exception (Model/TupleHist.lean) | loops with the number of the first throwing copy; one lemma per loop for the case that it is not reached and one for the case that it is; specification by positions (`received`, `argValue`); induction on the history |
| C118 | programs over variables, `Match` and `MatchMid` objects, with comparisons and branch functions that may throw and targets that change or go out of scope (Model/MatchHist.lean) | specification without objects: what a chain is worth is found in the list of past events; a relation between past and objects, kept by every call; induction on the program; consistency with C63 (`C118_expression`) |
| C119 | `Range` and its `for` loop over an index type with arbitrary operators, an increment of which may be undefined; loops that may not end (Model/RangeAny.lean) | specification by counting increments; induction on the list handed out, fixpoint induction for loops that do not end |
| C120 | the constructor, `insert_after` and `insert` with a pair of list iterators, reading the nodes while new ones are linked (Model/LinkedListRange.lean) | loop equivalence with the call given values, as long as the node written is not read later; fixpoint induction for the loop that chases its own nodes |
| C121 | the constructor and `insert` with a pair of vector iterators, reading the slots while the buffer is replaced, moved and filled (Model/VectorRange.lean) | equivalence of the copying loop with the loop over given values, where a slot that is read holds its element already or was written earlier by the same loop; a case split on room, range and insertion point |
| C122 | classes of objects with constructors, assignments, destructor and members that run on a state of their own; `Vector<T>`, `List<T>`, `ForwardList<T>` and `Option<T>` as functions from the class `T` to a class, applied in any order any number of times to vectors of values, linked lists of values or strings (Model/Nested.lean) | laws a class satisfies (an invariant linking its objects to their values, one promise per operation); a vector of lawful objects is lawful, by loops over owned buffers and their elements; recursion over the depth, induction over programs |
| C123 | the model of C122 with strings (Model/BString.lean) as elements | C122 for the cases that work; for the others, the loops of `erase` and `operator=` run correctly up to the first assignment from or to a string of 16 bytes, which is undefined |
| C124 | the members of `BaseList<T>` for a class `T` of objects: nodes that know whether they hold an element, elements that live in the state of `T`, temporaries (Model/Nested.lean) | every member simulates the same member of a list of values (Model/LinkedList.lean), step by step, with the elements' invariant carried along; so the invariant of lists of values holds and a list of lawful objects is lawful |
| C125 | `Option<T>` for a class `T` of objects: the flag, the object in the union, temporaries (Model/Nested.lean) | an option of lawful objects is lawful: the objects alive are exactly those of the full options; one step lemma per construction, move, assignment and destruction |
| C126 | `Result<T, E>` for a class `T` of objects: the tag, the member of the union that is alive, temporaries (Model/NestedResult.lean), and results, vectors, lists and options of each other to any depth | a result of lawful objects is lawful; for assignments between kinds, the exact state they leave, and that destroying an object that ended is undefined in every class |
| C127 | `==` and `<=>` of nested vectors and results as programs that run the operator of the elements at their addresses (Model/NestedCmp.lean) | a comparison that reads lawful objects gives one that reads vectors, and results, of them; the order laws by induction on the nesting |
| C128 | `operator<<` of nested vectors and linked lists as programs that run `<<` of the elements at their addresses (Model/NestedShow.lean); the stream is the text written | printing that reads lawful objects gives one that reads vectors, and lists, of them; induction on the nesting |
| C129 | `remove_if` and `unique` of linked lists of objects as programs on the nodes and the objects in them (Model/NestedSift.lean) | each loop follows the loop of a list of values, by fixpoint induction; a predicate that reads lawful objects answers as it does on values |
| C130 | `sort` of linked lists of objects as a program on the links that runs `<=>` of the elements in their nodes (Model/NestedSift.lean) | it follows the sort of a list of values, by fixpoint induction; the order laws of C127 make `<` a strict weak order |
| C131 | `swap`, the four `splice`s and `merge` of two linked lists of objects as programs on links and list members (Model/NestedJoin.lean); `merge` runs `<=>` of the elements in their nodes | they follow the same members of lists of values, which C22-C24 settle |
| C132 | `Array<T, N>` as a class built from the class `T` (Model/NestedArray.lean): elements in place, default-constructed, then assigned | loop invariants over the elements; the class law of Proof/Nested.lean, so arrays can be elements themselves |

## 4. Trusted base

* Lean 4.33.0's kernel.
* Axioms: at most `propext`, `Classical.choice`, `Quot.sound`. No axiom of our own, no `sorry`, no `native_decide`, no `bv_decide`.
  Section 9 lists the axioms of every theorem named in the manifest. `decide +kernel` is used on closed finite goals only
  (examples, counterexamples, tables over all 256 bytes that are then lifted by a proof); it is kernel evaluation.
* The reading of the C++ source recorded in the comments of `Model/`, file by file below. No tool connects `/repo` to the model:
  the correspondence is by hand, function by function.
* The C++ semantics assumed: section 6.

## 5. What is modelled, per header

| header | modelled | not modelled |
|---|---|---|
| `collection/vector.h` | `Vector`: all constructors, destructor, assignment (copy, move, initializer_list), `assign`, `at`, `[]`, `front`, `back`, `empty`, `size`, `capacity`, `reserve`, `clear`, `insert` (all overloads), `emplace`, `erase`, `push_back`, `emplace_back`, `pop_back`, `resize`, `swap`, `==`, `<=>`, `into_iter(_reversed)`, `VectorIter`, `VectorIntoIter`, `operator<<` | `data()` (a raw pointer leaves the model); iterator tags |
| `collection/linked_list.h` | `BaseList` for `List` and `ForwardList`, both node types, sentinels, every constructor and member, `ListIterSTL` (also reversed), `ListIter`, `ListIntoIter`, merge/sort helpers, `operator<<` | node layout arithmetic (`get_offset`): a node is a record with a data cell; concept checks |
| `collection/array.h` | `Array`, `ArrayIter`, `ArrayIterRef`, `from_iter`, comparison | — |
| `slice.h` | `Slice`, `SliceRefIter` | — |
| `ops/range.h` | `Range`, `RangeCursor` for integer index types; `Range` and `for` loops over it for any index type (C119) | cursors of index types that are not integers outside `for` loops |
| `option/option.h` | `Option<T>`, `Option<T&>` | deleted overloads (compile-time only) |
| `result/result.h` | `ResultBase`, `Result<T,E>`, `Result<T&,E>` | overload resolution |
| `iter/*` | `map`, `filter`, `combine`, `collect`, `fold`, `reduce`, `for_each`, `find`, `last`, pipelines of them, with elements as values (C53-C56), in option objects (C102), in the memory of containers (C98-C100), with functions that keep state (C88) or throw (C95) | concepts; branch hints; functions that do not compile (section 8) |
| `memory/layout.h`, `allocators/allocator.h` | `Layout`, `Allocator::allocate/deallocate` with wrap modulo 2^64 | constant-evaluation branches |
| `str/encoding/utf8.h`, `ascii.h` | `validate`, `next_char`, `last` (Ascii), `is_char_boundary`, character width | `UTF8::last` (does not compile) |
| `str/basic_char.h` | `BasicChar` as its bytes | `bit_cast` from wide character literals (compile-time only) |
| `str/basic_string.h` | `BasicString` with both representations, all members that compile, `operator<<`, `chars()` | `reserve` (does not compile), `shrink_to_fit` (empty body) |
| `utility/match.h` | `Match`, `MatchMid` with and without value, the pipe form | — |
| `utility/tuple.h` | `Tuple`, `Unit`, `Pair`, `get`, `tie`, comparison, `for_each` | — |
| `utility/type_list.h`, `type_traits.h` | `TypeListImpl`, `append`, `prepend`, `map`, `filter`, `ArgAt` | `static_assert` messages |
| `global.h` | panic as an outcome | which message is printed |
| `utility/variant.h`, `utility/slice.h` | — | empty classes |
| `utility/print.h` | — | `to_string` is a wrapper of `ostringstream << x`; its content is that of `operator<<` (C68, C45) |
| `ops/{callable,cmp,arithmetical,deref}.h`, `basic_concepts.h`, `iter_concepts.h`, `*_concepts.h`, `concepts/*` | — | C++ concepts: they decide which programs compile, not what they do |
| `intrinsics.h`, `mstl.h`, `memory.h`, `ops.h`, ... | — | macros and includes |
| `test/` | — | tests and benchmarks |

## 6. Simplifications and assumptions

1. *Addresses are never reused.* A released block keeps its number forever, so any later use is detected as `ub`. This can only
   make more programs wrong, except that pointer *comparison* with a stale pointer is never accidentally equal; the code
   compares only live pointers.
2. *Element operations terminate and do not throw*, except in the models made for it: copying chosen values of a vector
   (Model/VectorFault.lean, C75), constructors (C78) and comparisons (C81) of list elements, payload copies of options (C86) and results (C96), functions of
   pipelines (C95). Copying an element gives an equal one, and elements own no memory, except in Model/Nested.lean (C122, C123, C124, C125) and
   Model/NestedResult.lean (C126), where vectors, linked lists, options and results hold vectors, linked lists, options, results or strings;
   Model/NestedCmp.lean (C127) and Model/NestedShow.lean (C128) compare and print them,
   Model/NestedSift.lean (C129, C130) removes elements of linked lists by a predicate and sorts them; Model/NestedJoin.lean (C131) swaps, splices and merges two of them. Model/NestedArray.lean (C132) has arrays of objects. The library is compiled with most members `noexcept` or without exception handling of its own.
3. *Iterators of a vector* are indices into the current block. `emplace` computes `pos.pos()` from the pointers stored in the
   iterator after a reallocation; the subtraction of two stale pointers is what every implementation computes and is read as
   the index.
4. *Release build* (`MSTL_DEBUG` off) is the default; where debug and release differ the model has a flag (`pop_back` of a list,
   C34).
5. *Lengths of lists and strings* are natural numbers (an object is smaller than 2^63 bytes). For vectors, layouts and the
   allocator byte counts wrap modulo 2^64, because a client can request any count.
6. *Several allocators*: every container has an allocator number; blocks remember theirs; releasing through another is `ub`. Two
   allocators are `==` iff they have the same number.
7. *A refused request* ends the call with the outcome `oom`; what the code does after it is followed for vectors (C74), lists
   (C77) and strings (C85). *Which requests are refused* is arbitrary: the allocator is a parameter `refuse : Nat → Nat → Bool` of request
   number and size.
8. *Strings*: `Allocate::operator=` has no `return` statement. Strictly every call of it is undefined (`C42_…_fails` with
   `lenient = false`). With `lenient = true` the function is read as returning normally, so that the rest of the code can be judged.
9. *Types.* Overload resolution, `requires` clauses, templates that are never instantiated and constant evaluation are not
   modelled.
10. *Concurrency.* The library has no threads, locks or atomics; the "schedules" a property ranges over are call histories. C111 covers threads that call it, in any order of the calls; a call takes place as a whole, so interleavings of memory accesses inside two calls, and with them data races, are not modelled.
11. *Allocator objects.* Everywhere except in Model/AllocLife.lean (C107) an allocator is a number, and constructing, destroying or
   assigning one has no effect of its own: an empty class like the default allocator. There the explicit destructor calls in list
   assignment (linked_list.h:606, 616) and in `~Allocate` (basic_string.h:430), undefined strictly read, are harmless; C107 is
   about allocators for which they are not.

## 7. Findings

The code violates the documented behaviour in these places. Each is a theorem (name in the right column); the guard under
which the property does hold is the `_partial` theorem of the same property.

| where | what goes wrong | theorem |
|---|---|---|
| vector.h `insert`/`emplace` at `begin()` of a non-empty vector | the shifting loop counts down past 0 and leaves the block | `C06_insert_begin_fails` |
| vector.h `insert` into an empty vector | constructs an element that is never counted nor destroyed; the vector stays empty | `C06_insert_empty_fails`, `C02_vector_memory_fails` |
| vector.h `insert(pos, 0, x)` | the elements from `pos` on are destroyed but still counted | `C06_insert_none_fails` |
| vector.h `erase(it, it)` | `std::move` onto its own source range, undefined before the end | `C07_erase_empty_range_fails` |
| vector.h `operator=(initializer_list)` | no `return`; and what it writes is wrong: `[1] = {5,6,7}` gives `[5,5,6]` | `C10_list_assign_fails` |
| vector.h `push_back(v[i])` when full, `assign(n, v[i])`, `resize(n, v[i])` beyond the capacity | reads an element after it was destroyed or its block released | `C14_alias_fails` |
| vector.h `reserve`, counted constructors | `n * sizeof(T)` wraps; a small block is used as a large one | `C15_explicit_request_fails`, `C62_fails` |
| linked_list.h reverse iterators | `++` and `--` call each other forever | `C33_reverse_iterators_fails` |
| linked_list.h `sort` of exactly one element | dereferences null | `C21_sort_single_fails` |
| linked_list.h `sort`, `merge` | not stable: `sort` reverses every group of equivalent elements | `C22_sort_fails`, `C22_sort_reverses_ties` |
| linked_list.h `merge(list&)` into an empty list, `merge(list&&)` with elements | the result cannot be traversed | `C23_merge_into_empty_fails`, `C23_merge_rvalue_fails` |
| linked_list.h `splice`, `splice_after` of an empty list | the target cannot be traversed any more | `C24_splice_empty_fails` |
| linked_list.h move construction with another allocator | undefined, or leaks if empty | `C30_move_alloc_fails`, `C18_lists_memory_fails` |
| linked_list.h `front_unchecked() const` | returns the last element | `C29_const_front_fails` |
| linked_list.h `pop_front` on an empty list | returns; then `size()` is 2^64-1 and any access is undefined, also in debug builds | `C34_pop_front_fails` |
| linked_list.h `remove(x)` with `x` in the list | reads `x` after destroying it | `C27_remove_own_element_fails` |
| utf8.h `next_char` | `< 0x7F` instead of `<= 0x7F`: U+007F is decoded as a longer character | `C37_fails`, `C40_chars_utf8_fails`, `C41_fails` |
| ascii.h `validate` | `> 128` instead of `>= 128`: accepts 0x80 | `C38_fails` |
| basic_string.h assignment when a length is exactly 16 | wrong union member / missing buffer | `C42_copy_assign_fails`, `C42_move_assign_fails` |
| basic_string.h `operator<<` at length 16 | reads the inactive union member | `C45_print_fails` |
| basic_string.h `pop_back` from 17 to 16 bytes | the text becomes unreadable and the buffer leaks | `C43_pop_back_fails`, `C44_memory_fails` |
| basic_string.h `Allocate::operator=` | no `return`: every move and assignment of a string is undefined, strictly read | `C42_move_construct_fails` |
| option.h move assignment between engaged options | the source stays engaged | `C47_fails` |
| result.h assignment between different variants | the tag is never updated | `C51_fails` |
| range.h `prev`, array.h `ArrayIter::prev` | hands out `hi` instead of `hi - 1`; reads past the array | `C57_range_fails`, `C57_array_into_iter_fails` |
| allocator.h `allocate` | the product `size * n` is not checked | `C62_fails` |
| match.h void chains | a range or rest branch does not record that it ran: a later branch runs too | `C64_fails_rest`, `C64_fails_twice` |
| vector.h `VectorIter::operator==` | compares the stored `end` too: after a push_back without reallocation an old iterator equals no fresh one, not even `end()` | `C70_append_fails` |
| array.h `ArrayIter::operator=(const ArrayIter&)` | copies the elements but not the position | `C72_iterator_copy_assign_fails` |
| array.h `ArrayIter::operator=(ArrayIter&&)` | no return statement | `C72_iterator_move_assign_fails` |
| vector.h `allocate`, `allocate_reserve` | the null pointer of a refused request is stored and used: undefined behaviour at once, or a vector that claims capacity it does not have | `C74_reserve_refused_fails`, `C74_reserve_empty_refused_fails`, `C74_push_refused_fails`, `C74_new_refused_fails` |
| vector.h `push_back`, `assign`, `insert(pos, first, last)`, `operator=` | elements are counted before they are constructed; a throwing copy leaves a vector whose destruction is undefined | `C75_push_throw_fails`, `C75_assign_throw_fails`, `C75_insert_range_throw_fails`, `C75_copy_assign_other_fails` |
| vector.h constructors, `operator=` with equal allocators | a throwing copy leaks the elements made so far (constructors: the storage too) | `C75_construct_leak_fails`, `C75_copy_assign_leak_fails` |
| linked_list.h `alloc_node_with_data`, `build_virtual_node` | the null pointer of a refused request is dereferenced | `C77_refused_fails`, `C77_push_refused_fails`, `C77_new_refused_fails` |
| linked_list.h `insert_after` and `insert` with a range or count, `operator=` | nodes are linked one by one, the rest of the list only at the end; a throwing constructor leaves a list that can be neither traversed nor destroyed | `C78_range_throw_fails`, `C78_fill_throw_fails`, `C78_insert_range_throw_fails`, `C78_list_assign_throw_fails`, `C78_copy_assign_throw_fails` |
| linked_list.h `construct_node`, constructors | a throwing constructor leaks the node (constructors of the list: all nodes and elements) | `C78_leak_fails`, `C78_construct_leak_fails` |
| linked_list.h `push_front`, `push_back`, `emplace_front`, `emplace_back` | declared `noexcept` although they construct elements: a throw ends the program | `C78_push_throw_fails` |
| linked_list.h `sort`, `mergeSort` | the chain is cut into pieces and reassembled only at the end; if the predicate throws the list keeps a piece that ends in null: traversing or destroying it is undefined | `C81_sort_throw_fails` |
| linked_list.h `merge` | sizes are added before the chains are merged; if the predicate throws elements are lost, or the list runs into the other list's tail | `C81_merge_throw_fails` |
| basic_char.h `BasicChar(ValidBytes<N>)` | checks the number of bytes, not that they are one character: `"ab"_utf8` is accepted as a character | `C82_one_character_fails` |
| basic_string.h constructors, `operator=`, `push_back`, `insert` | the result of `allocate` is never tested: a refused request is written through | `C85_refused_fails` |
| option.h copy assignment | `hold_value` is set before the payload is copied; if the copy throws the option claims a value that does not exist | `C86_assign_throw_fails` |
| filter.h `FilterIter::next` | passes its predicate by value: a predicate with a state starts anew after every element it lets through | `C88_filter_fails` |
| vector.h `VectorIntoIter(VectorIntoIter&&)` | resets the source's position but not its length: `next()` of a moved-from iterator dereferences null | `C90_moved_next_fails` |
| map.h, filter.h `next()`; find.h, for_each.h, collect.h; utility.h `combine` | declared `noexcept` although they call user functions: an exception of such a function terminates the program; only `fold` and `reduce` let it through, and not when called through `combine` | `C95_terminals_fails`, `C95_stage_fails`, `C95_combine_fails`, `C95_no_exception_leaves_fails` |
| linked_list.h `remove_if`, `remove` | declared `noexcept` although they call the predicate or `operator==`: an exception of it terminates the program | `C81_remove_if_throw_fails` |
| linked_list.h `resize` | declared `noexcept` although it constructs elements: a throwing constructor terminates the program | `C78_resize_throw_fails` |
| linked_list.h `from_iter` | the new nodes are linked to the end only after the loop: when a constructor throws, the destructor of the half-built list runs past its last node | `C78_from_iter_throw_fails` |
| linked_list.h constructors (`count`, `count, value`, copy) | a throwing element constructor leaks both virtual nodes and everything built so far | `C78_construct_fill_copy_leak_fails` |
| result.h copy constructor and copy assignment | declared `noexcept` although they copy the payload: an exception of the copy terminates the program | `C96_copy_throw_fails` |
| map.h:27, filter.h:28, 50, collect.h:24-28 | `l.into_iter() \| ... \| collect<C>()` copies all elements of the list once per adapter and once more for `collect`, although the list was moved into the expression | `Consumes.C100_consume_is_calls` |
| reduce.h:22 | `l.into_iter() \| ... \| reduce(f)` copies all elements behind the first survivor once more, although the iterator is not used afterwards | `ListConsumes.C104_reduce` |
| basic_string.h move constructor, move assignment | an iterator over a string follows the bytes of a moved string only if it is longer than 16 bytes; over a shorter one it is left in the moved-from object | `C106_moved_short_fails` |
| linked_list.h:606, 616 `operator=` | calls `this->~BaseList()` and goes on with the object: the allocator member has been destroyed, is assigned and called, and is destroyed again with the list | `C107_list_assign_fails`, `C107_list_destructions` |
| basic_string.h:430 `~Allocate() { this->~Allocator(); }` | the destructor of the base class runs again after the body: the allocator of every string is destroyed twice | `C107_string_fails`, `C107_string_destructions` |
| vector.h:685-704 `push_back(T&&)`, `emplace_back` | an own element as argument of a full vector is moved from after the storage it is in was released | `C108_push_own_fails` |
| option.h:44-48 `unwrap_unchecked` | the payload is destroyed (`reset()`) before `return res;`: if the compiler does not construct `res` in place of the result, which the language allows, a second move can throw after the option was emptied, and the value is gone | `C112_unelided_fails` |
| C114 | vector.h:805 `allocate_reserve` is `noexcept` but moves elements: if a move throws while the vector grows (`reserve`, `resize`, `push_back`, `insert`, `emplace`, copy assignment) the program is terminated, the caller cannot catch the exception (`C114_growing_ends_fails`). |
| C114 | vector.h `push_back(T&&)` counts the element before it is constructed: if its move throws, the vector counts an element that does not exist and destroying it is undefined (`C114_push_damage_fails`). |
| C114 | vector.h `move_elements_back` destroys each element it has moved back and changes `len` only at the end: if a later move throws, counted positions hold no element and the elements moved so far are not counted, so insertion before an element that cannot be moved damages the vector, and destroying it is undefined (`C114_insert_damage_fails`). |
| C115 | Every exception of an element constructor that a list survives loses at least the node obtained for the element; a constructor or copy constructor also loses two virtual nodes and all elements made so far (`C115_loses_fails`, `C115_exact`). |
| C115 | linked_list.h:601-610: copy assignment to a moved-from list whose copying throws leaves a moved-from list that claims to have elements (`C115_each_fate_fails`). |
| C116 | array.h:186-196, 28-38: copy assignment whose element copy throws leaves the first elements of the source followed by old ones (`C116_copy_assign_fails`, `C116_iterator_copy_assign_fails`). |
| C116 | array.h:21-25: `into_iter` whose element move throws loses all elements moved before it (`C116_into_iter_fails`). |
| C116 | array.h:67-72: `next` advances before it moves the element out, so an element whose move throws is never handed out (`C116_next_fails`). |
| C116 | array.h:43-51, 201-218: moves of arrays and owning iterators are `noexcept` whatever the element type, so a throwing element move ends the program; a moved iterator also moves the cells it has already handed out (`C116_move_fails`, `C116_iterator_move_fails`). |
| C117 | tuple.h:49-80: the constructors and assignments are `noexcept` whatever the component types, so a component whose copy or move throws ends the program (`C117_construct_fails`, `C117_copy_fails`, `C117_assign_fails`). |
| C117 | tuple.h:82-88: assignment to `tie(...)` (not `noexcept`) leaves the variables before the throwing one assigned and the others not (`C117_tie_fails`). |
| C117 | tuple.h:283-287, 321-324: `make_tuple` and `make_pair` copy arguments passed with `std::move` (`C117_make_copies`). |
| C118 | match.h:194-196: `finale` takes the result out of the chain (option.h:35-48), so a second `finale` panics and a branch added afterwards is evaluated (`C118_finale_fails`); so does moving a chain (`C118_move_fails`). |
| C118 | match.h:48, 122, 260-263: matches and chains keep a reference to the argument of `match`, also to a temporary (`C118_temporary_fails`). |
| C119 | range.h `next`, `RangeCursor::operator!=`: a range ends only at an index equal to `high`, so a range of floating point numbers that steps over `high`, one with bounds the wrong way round and one up to a NaN never end, although `is_empty()` may hold (`C119_overshoot_fails`, `C119_backwards_fails`, `C119_unordered_fails`). |
| C120 | linked_list.h:970-988, 1183-1201: `l.insert_after(pos, first, last)` with a range of `l` in which `pos` lies (not as its first node) never returns; the loop follows the nodes it links itself (`C120_chase_fails`). |
| C121 | vector.h:649-666: `v.insert(pos, first, last)` with a range of `v` that is not empty reads released memory when the vector grows (`C121_grow_fails`); with enough room it reads moved-away places (`C121_hole_fails`) or silently inserts other elements than those of the range (`C121_overlap_fails`, `C121_behind_fails`), except for ranges that end before `pos`. |
| C122 | vector.h:674-680: `v.push_back(v[k])` on a full vector of vectors copies the element after `extend_space` destroyed it, at every depth and after every program (`C122_own_element_fails`); `insert` at the front of a vector of vectors is undefined (`C122_insert_front_fails`). With assertions, copying a vector or list that holds, at any depth, a linked list that was moved from aborts in `copy_impl` (linked_list.h:1828-1830, `C122_copy_moved_fails`). |
| C123 | basic_string.h:92-213: the assignments of strings do not work when a length is exactly 16 (C42), and `Vector::erase` and `Vector::operator=` assign: erasing from a vector of strings is undefined when a string from the erased one on has 16 bytes (`C123_erase_fails`), assigning vectors with equal allocators when a string of 16 bytes stands at a common index (`C123_assign_fails`); at any depth `C122_assign_fails`. |
| C125 | option.h:115-118: `a = std::move(b)` with two full options leaves `b` full, with a moved-from object, although move construction and move assignment to an empty option leave it empty (`C125_move_assign_fails`); option.h:82-89: so does `map` (`C125_map_fails`). |
| C126 | result.h:67-73, 89-95: assignment between a value and an error does not write `type` (C51). With values that own memory: assigning an error to a value destroys the object, and the destructor of the result destroys it again, which is undefined (`C126_assign_err_fails`); assigning a value to an error constructs an object that is never destroyed (`C126_assign_ok_fails`). |
| C128 | linked_list.h:1947-1981: `operator<<` follows the head of the list, which is null after a move: printing a vector or list that holds a moved-from list, at any depth, is undefined (`C128_moved_fails`). |
| C130 | linked_list.h:1729-1737: as in C21, `sort` of a list with exactly one element cuts off the end of the list; the theorems exclude it. Without assertions, sorting a list that was moved from follows a null pointer (`C130_moved_fails`). |
| C131 | linked_list.h:1535-1587, 1465-1487: as in C23 and C24, splicing an empty list and merging into an empty list damage the list; the theorems exclude them. |

## 8. Code that does not compile when instantiated

Templates are checked only when used, and these have no use in the repository. They have no behaviour and no model.

* `BasicString::reserve` (no member `cap`), `pop_back` for UTF-8, `insert`/`is_char_boundary` for Ascii.
* `Reduce::get_terminal_func`, `Last::get_terminal_func`, `LastHolder::call`. (`reduce` and `last` themselves are modelled.)
* `Match::rest` as the first branch; `finale` through the pipe form of a void chain (`MatchMid<T, void>` lacks the friend).
* the reversed `VectorIntoIter` move constructor (uses a member `pos` that does not exist).
* `UTF8::last` (utf8.h:64-94): tests `byte.is_none` without calling it.
* `Vector::at() const`, `front() const`, `back() const` (vector.h:256-262, 303-309, 343-349) and `Result::ok_ref() const` (result.h:314-320): they return an `Option<T&>` where an `Option<const T&>` is declared, and there is no conversion. Only the non-const versions are modelled.
* `make_tuple` and `make_pair` (tuple.h:283-287, 321-324) with an argument whose type can only be moved: the arguments are passed on as lvalues (`{v, vs...}`), so they are copied; other arguments are copied too, never moved.
* `match(x) | when(p, f) | finale()` with a single branch (match.h:317-320): `operator|(MatchMid&, Finale)` needs an lvalue, and the first branch gives a temporary. With two or more branches the later ones return `MatchMid&` and the chain compiles.
* `v.into_iter() | map(..)`, `| filter(..)`, `| collect<C>()` for a vector `v`: `VectorIntoIter` cannot be copied (vector.h:1000, 1035), but the constructors of `MapIter` and `FilterIter` copy the iterator into their member (map.h:26, filter.h) and `CollectHolder::call` passes it as an lvalue (collect.h:27). Only `collect<C>(v.into_iter())` and `C::from_iter(v.into_iter())` remain.
* `reduce` over an iterator of references (reduce.h:14-26): the function must return `T&` for `reduce` and `T` for the `fold` it calls (both ask for the exact type), so no ordinary function fits. Over values `reduce` is modelled.
* `l.into_iter() | map(..)`, `| filter(..)`, `| collect<C>()` for a list `l` of elements that can be moved but not copied: the adapters and `CollectHolder::call` copy the iterator object and with it the list. Only `collect<C>(l.into_iter())` and `C::from_iter(l.into_iter())` remain.

## 9. Testing the theorems against wrong programs

`seeded/LOG.jsonl` has one line per edit of the model: the definition, the edit, the claim it should break, the theorems whose
proofs failed directly and the manifest theorems that no longer hold (those that depend on a failed proof). Procedure: copy
`lean/`, apply one edit to a file of `Model/`, rebuild; replace each failing proof by `sorry` and rebuild until everything
elaborates; a manifest theorem counts as failed if `sorryAx` is among its axioms. "Equivalent" entries are controls: edits
that do not change the behaviour, which must leave the claims standing or be explained.

## 10. Axioms of the manifest theorems

**none** (4):
C38_fails, C56_reversed_range, C80_empty_ranges_differ, Strings.C82_default

**`propext`** (24):
C02_misuse_detected, C119_equal, C119_prev_fails, C132_elements, C38_ascii_last, C49_ref_copy_move, C50_all_without_assign,
C60_slice_into_iter, C62_enough_room_partial, C62_fails, C62_release_matches_request, C65_convert, C65_copy_move, C65_ext,
C65_get_make, C65_pair, C65_tie, C65_tie_swap_fails, C65_tie_tie, C74_granted_partial, C87_option_ref, Lists.C26_unique_spec,
Strings.C40_documented, Strings.C84_growing_documented

**`Quot.sound`, `propext`** (82):
C107_list_assign_fails, C107_string_fails, C112_options_partial, C112_results_partial, C112_unelided_fails, C116_no_throw,
C117_decided, C117_self_assign, C118_decided, C118_decided_evaluates_nothing, C118_expression, C118_finale_fails,
C118_history_partial, C118_move_fails, C118_result_kept, C118_temporary_fails, C118_throw_decides_nothing, C122_copy_same,
C127_less, C128_written_copy, C128_written_iff, C38_ascii_chars, C46_option_history, C46_unwrap, C47_fails,
C47_move_assign_partial, C47_move_ctor, C48_map, C48_map_once, C49_after_any_history, C49_histories, C49_ref_alias,
C49_ref_unwrap, C50_result_history, C51_assign_partial, C51_fails, C52_equality, C52_equality_ref, C57_array_into_iter_fails,
C57_array_len_fails, C57_range_interleaved_partial, C57_range_prev_partial, C58_index, C58_init_list, C59_from_iter_long,
C59_from_iter_short, C60_slice_last, C62_room_iff, C63_first_branch_wins, C64_fails_rest, C64_fails_twice, C64_void_partial,
C65_equal, C65_for_each, C65_set, C65_size, C66_laws, C68_join, C71_reference_results, C74_new_refused_fails, C80_cursor_walk,
C80_distance, C86_assign_throw_fails, C86_restriction, C86_throwing_copies_partial, C87_option, C87_result, C87_result_borrow,
C87_result_ref, C89_vector_wrap_fails, C96_copy_throw_fails, C96_restriction, C96_throwing_copies_partial,
Lists.C18_misuse_detected, Lists.C77_new_refused_fails, Lists.C77_push_refused_fails, Lists.C78_push_throw_fails,
Strings.C82_ascii_literal_fails, Strings.C82_ascii_literal_partial, Strings.C82_character, Strings.C82_every_ascii_character,
Strings.C83_characters_unique

**`Classical.choice`, `Quot.sound`, `propext`** (450):
C01_vector_history_continued_partial, C01_vector_history_fails, C01_vector_history_partial, C02_nothing_outstanding_partial,
C02_vector_memory_fails, C02_vector_memory_partial, C03_capacity_kept, C03_push, C03_push_keeps_block, C03_reserve_partial,
C03_size_le_capacity_partial, C04_append_amortised, C05_checked_access, C05_size, C06_insert_begin_fails,
C06_insert_count_partial, C06_insert_empty_fails, C06_insert_many_begin_fails, C06_insert_none_fails, C06_insert_nothing_fails,
C06_insert_partial, C06_insert_range_partial, C07_erase, C07_erase_empty_range_fails, C07_erase_range_partial, C08_copy_assign,
C08_copy_construct, C08_independent, C08_self_assign, C09_move_assign, C09_move_construct, C09_swap, C105_equal_fails,
C105_erase_outside, C105_history_partial, C105_use_exact, C106_delete_fails, C106_history_partial, C106_moved_short_fails,
C106_stale, C107_list_destructions, C107_list_partial, C107_string_destructions, C107_string_partial, C107_vector,
C108_give_partial, C108_insert_begin_fails, C108_push_own_fails, C10_assign_count_partial, C10_assign_list_partial,
C10_construct_partial, C10_list_assign_fails, C10_list_assign_general_fails, C110_history_partial, C110_use_exact,
C111_lists_partial, C111_strings_partial, C111_vectors_partial, C112_options_cover, C113_history_partial, C113_use_exact,
C113_use_exact_iff, C114_erase, C114_exact, C114_growing_ends_fails, C114_history_partial, C114_insert_damage_fails,
C114_push_damage_fails, C116_copy_assign_fails, C116_exact, C116_history_partial, C116_into_iter_fails,
C116_iterator_copy_assign_fails, C116_iterator_move_fails, C116_move_fails, C116_next_fails, C116_untouched,
C117_access_untouched, C117_assign_fails, C117_construct_fails, C117_copy_fails, C117_for_each_throw, C117_frame,
C117_history_partial, C117_make_copies, C117_tie_fails, C119_backwards_fails, C119_contains_partial, C119_for_loop, C119_next,
C119_otherwise, C119_overshoot_fails, C119_unordered_fails, C11_compare, C11_equal, C11_equal_pointwise, C11_total_order,
C121_behind_fails, C121_cases, C121_grow_fails, C121_history_partial, C121_hole_fails, C121_overlap_fails, C121_same,
C122_assign_fails, C122_continue_partial, C122_copy_moved_fails, C122_elements_end, C122_history_partial, C122_insert_front_fails,
C122_own_element_fails, C123_assign_fails, C123_assign_partial, C123_erase_fails, C123_erase_partial, C124_elements_end,
C124_erase, C124_history_partial, C124_push_own, C124_reverse, C125_empty_panics, C125_history_partial, C125_map_fails,
C125_move_assign_fails, C125_move_assign_partial, C125_objects_end, C125_unwrap, C126_assign_err_fails, C126_assign_ok_fails,
C126_history_partial, C126_nested_partial, C126_objects_end, C126_ok_copies, C126_take, C126_wrong_kind_panics, C127_assign_equal,
C127_compare, C127_copy_equal, C127_equal, C127_equal_pointwise, C127_total_order, C128_copy_prints_same, C128_moved_fails,
C128_print_partial, C129_moved, C129_remove_if, C129_removed_end, C129_unique, C129_unique_pointwise, C12_into_iter,
C12_into_iter_reversed, C12_iter, C130_moved_fails, C130_sort_any_partial, C130_sort_partial, C131_merge_partial, C131_merge_self,
C131_splice_partial, C131_swap, C132_arrays_of_arrays_partial, C132_equal, C132_history_partial, C132_index_panics,
C132_too_long_panics, C132_vectors_of_arrays_partial, C13_resize_partial, C14_alias_fails, C14_alias_partial,
C15_automatic_growth_partial, C15_constructor_partial, C15_explicit_request_exact, C15_explicit_request_fails,
C15_explicit_request_partial, C35_validate_iff_encoded, C35_validate_iff_wellFormed, C36_error_offset, C37_chars_lossless_partial,
C37_fails, C37_fails', C38_ascii_accepts, C38_ascii_validate_iff, C38_ascii_validate_partial, C39_boundary, C53_collect,
C53_exhausted, C54_find, C54_fold, C54_fold_pure, C54_for_each, C54_last, C54_reduce, C55_collect, C55_elementwise, C55_find,
C55_terminals, C56_range_contains, C56_range_for, C56_range_next, C56_reversed_overflows_fails, C56_reversed_wraps_fails,
C57_range_fails, C58_equality, C58_into_iter, C60_array_iter, C60_slice_iter, C61_from_size_align, C66_type_list, C67_combine,
C68_vector_printed, C69_for, C69_two, C69_walk, C70_append_fails, C70_append_partial, C72_array_history_partial, C72_exact_iff,
C72_iterator_copy_assign_fails, C72_iterator_move_assign_fails, C73_history_completes_partial, C73_memory_needed_partial,
C74_push_refused_fails, C74_reserve_empty_refused_fails, C74_reserve_refused_fails, C75_assign_throw_fails,
C75_construct_leak_fails, C75_copy_assign_leak_fails, C75_copy_assign_other_fails, C75_history_partial, C75_insert_partial,
C75_insert_range_throw_fails, C75_no_bad_copy, C75_no_throw_partial, C75_push_throw_fails, C75_throw_exact, C80_compare,
C80_range_eq, C80_signed_overflow, C80_unsigned_wraps, C87_vector, C87_vector_write, C88_collect_partial, C88_collect_resets,
C88_filter_fails, C88_terminals_partial, C89_list_element, C89_sentinel, C89_vector_slots, C90_moved_next_fails, C90_own_partial,
C91_exact, C91_exact_iff, C95_calm_partial, C95_combine_fails, C95_fold_partial, C95_no_exception_leaves_fails, C95_stage_fails,
C95_terminals_fails, C97_linear_partial, C97_work_partial, C97_work_run_partial, Collects.C98_collect,
Collects.C98_collect_function_fails, Collects.C98_collect_is_from_iter, Collects.C98_collect_pure, Consumes.C100_consume,
Consumes.C100_consume_cost, Consumes.C100_consume_function_fails, Consumes.C100_consume_is_calls, Consumes.C100_consume_pure,
InPlace.C99_find, InPlace.C99_for_each, InPlace.C99_list, InPlace.C99_list_function_fails, InPlace.C99_map, InPlace.C99_vector,
InPlace.C99_vector_function_fails, IterOpts.C102_any_source, IterOpts.C102_collect, IterOpts.C102_fold, IterOpts.C102_for_each,
IterOpts.C102_last, IterOpts.C102_next, IterOpts.C102_reduce, ListConsumes.C104_find, ListConsumes.C104_find_variable,
ListConsumes.C104_fold, ListConsumes.C104_fold_is_calls, ListConsumes.C104_for_each, ListConsumes.C104_last_variable,
ListConsumes.C104_reduce, Lists.C101_linear_partial, Lists.C101_relinking_partial, Lists.C101_work_partial,
Lists.C101_work_run_partial, Lists.C109_calls, Lists.C109_give_partial, Lists.C115_each_fate_fails, Lists.C115_exact,
Lists.C115_goes_on_partial, Lists.C115_history_partial, Lists.C115_loses_fails, Lists.C115_not_reached, Lists.C120_chase_fails,
Lists.C120_history_partial, Lists.C120_returns, Lists.C120_same, Lists.C16_call_partial, Lists.C16_documented,
Lists.C16_history_continued_partial, Lists.C16_list_history_fails, Lists.C16_list_history_partial, Lists.C16_observers,
Lists.C17_forward_list_history_partial, Lists.C18_lists_memory_fails, Lists.C18_lists_memory_partial,
Lists.C18_nothing_outstanding_partial, Lists.C19_backward_is_reverse_partial, Lists.C20_designates, Lists.C20_erase_keeps_rest,
Lists.C20_iterators_kept, Lists.C20_other_lists, Lists.C21_sort_any_predicate_partial, Lists.C21_sort_partial,
Lists.C21_sort_single_fails, Lists.C22_merge_argument_first, Lists.C22_sort_fails, Lists.C22_sort_nonstrict_partial,
Lists.C22_sort_reverses_ties, Lists.C23_merge_into_empty_fails, Lists.C23_merge_nothing, Lists.C23_merge_partial,
Lists.C23_merge_rvalue_fails, Lists.C24_splice_empty_fails, Lists.C24_splice_partial, Lists.C25_reverse, Lists.C26_unique,
Lists.C27_evaluated_once, Lists.C27_remove_if, Lists.C27_remove_own_element_fails, Lists.C27_remove_partial, Lists.C28_erase,
Lists.C28_erase_after, Lists.C28_insert, Lists.C28_insert_after, Lists.C28_pop, Lists.C28_push, Lists.C29_const_front_fails,
Lists.C29_const_front_partial, Lists.C29_front_back, Lists.C30_assign, Lists.C30_copy, Lists.C30_independent, Lists.C30_move,
Lists.C30_move_alloc_fails, Lists.C30_move_alloc_partial, Lists.C31_constructors, Lists.C31_resize, Lists.C32_into_iter,
Lists.C33_reverse_iterators_fails, Lists.C33_reverse_iterators_partial, Lists.C33_reverse_step_fails, Lists.C34_pop_back_fails,
Lists.C34_pop_back_partial, Lists.C34_pop_front_fails, Lists.C68_list_print, Lists.C76_history_completes_partial,
Lists.C76_no_memory, Lists.C76_nodes_needed_partial, Lists.C77_refused_fails, Lists.C78_construct_fill_copy_leak_fails,
Lists.C78_construct_leak_fails, Lists.C78_copy_assign_throw_fails, Lists.C78_fill_throw_fails, Lists.C78_first_throw_partial,
Lists.C78_from_iter_first_partial, Lists.C78_from_iter_throw_fails, Lists.C78_insert_fill_throw_fails, Lists.C78_insert_partial,
Lists.C78_insert_range_throw_fails, Lists.C78_leak_fails, Lists.C78_list_assign_throw_fails, Lists.C78_no_lost_node,
Lists.C78_no_throw_partial, Lists.C78_range_throw_fails, Lists.C78_resize_throw_fails, Lists.C79_equal, Lists.C79_other_list,
Lists.C79_walk, Lists.C79_write, Lists.C81_merge_throw_fails, Lists.C81_remove_if_throw_fails, Lists.C81_sort_throw_fails,
Lists.C81_unique_throw_partial, Lists.C92_exact, Lists.C92_exact_iff, Lists.C94_merge_comparisons, Lists.C94_sort_comparisons,
Lists.C94_unique_comparisons, Strings.C40_append_insert, Strings.C40_boundary_meaning, Strings.C40_chars_utf8_fails,
Strings.C40_chars_utf8_partial, Strings.C40_history_continued_partial, Strings.C40_history_partial, Strings.C40_insert,
Strings.C40_insert_panics, Strings.C40_push_back, Strings.C41_fails, Strings.C41_insert_anywhere,
Strings.C41_strings_stay_valid_partial, Strings.C42_copy_assign_fails, Strings.C42_copy_assign_partial,
Strings.C42_copy_assign_strict, Strings.C42_copy_construct, Strings.C42_move_assign_fails, Strings.C42_move_assign_partial,
Strings.C42_move_construct_fails, Strings.C42_move_construct_partial, Strings.C43_pop_back_fails, Strings.C43_pop_back_partial,
Strings.C44_all_released_partial, Strings.C44_memory_fails, Strings.C44_memory_partial, Strings.C45_print_fails,
Strings.C45_print_partial, Strings.C82_every_character_partial, Strings.C82_one_character_fails, Strings.C82_string_from_literal,
Strings.C82_utf8_literal, Strings.C83_boundary, Strings.C83_chars_partial, Strings.C83_insert, Strings.C83_print_partial,
Strings.C83_push_back, Strings.C83_rebuild_fails, Strings.C83_rebuild_partial, Strings.C84_amortised,
Strings.C84_requests_partial, Strings.C84_short_strings_partial, Strings.C85_granted_partial, Strings.C85_refused_fails,
Strings.C93_exact_iff, VectorConsumes.C103_collect, VectorConsumes.C103_find, VectorConsumes.C103_fold,
VectorConsumes.C103_fold_is_calls, VectorConsumes.C103_for_each, VectorConsumes.C103_function_fails, VectorConsumes.C103_last,
VectorConsumes.C103_reached
