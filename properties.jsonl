{"id": "C01", "title": "Vector behaves as a mathematical sequence over any history", "statement": "After any history of construction, push_back, emplace_back, pop_back (non-empty), insert, erase, resize, reserve, assign, clear, element write, copy, move, swap and destruction on any number of Vectors, each call succeeds (or the allocator reports out of memory), nothing undefined happens, and reading every live Vector gives exactly the sequence obtained by applying the same operations to an ideal list.", "quantifier": "all element types (with any moved-from behaviour), all finite operation histories over any number of vectors, all values", "why_tests_cant": "histories are unbounded and interleave several vectors that share one heap; a test fixes one history", "anchors": ["include/mstl/collection/vector.h: class Vector", "include/mstl/collection/vector.h: push_back", "include/mstl/collection/vector.h: pop_back", "include/mstl/collection/vector.h: insert", "include/mstl/collection/vector.h: erase", "include/mstl/collection/vector.h: resize", "include/mstl/collection/vector.h: reserve", "include/mstl/collection/vector.h: assign", "include/mstl/collection/vector.h: clear", "include/mstl/collection/vector.h: swap", "include/mstl/collection/vector.h: operator="]}
{"id": "C02", "title": "Vector never leaks, never double frees, never double destroys", "statement": "In any history, every element that is constructed is destroyed exactly once, every storage block obtained from the allocator is returned exactly once with the same size it was requested with, no element is touched outside its lifetime, and when all vectors are gone nothing is outstanding.", "quantifier": "all histories, all element types, all allocator addresses", "why_tests_cant": "a leak or double destroy depends on the exact interleaving of growth, erase, move and destruction", "anchors": ["include/mstl/collection/vector.h: ~Vector", "include/mstl/collection/vector.h: clear", "include/mstl/collection/vector.h: deallocate", "include/mstl/collection/vector.h: allocate_reserve", "include/mstl/collection/vector.h: destroy_all", "test/TrackingAllocator.h: get_beholding_memory"]}
{"id": "C03", "title": "Vector capacity contract", "statement": "size() <= capacity() always; reserve(n) makes capacity() at least n, never lowers it and never changes the contents; push_back reallocates only when size()==capacity(); pop_back, erase and element writes never change capacity; clear makes it 0.", "quantifier": "all vectors, all n, all histories", "why_tests_cant": "capacity depends on the whole history of growth", "anchors": ["include/mstl/collection/vector.h: reserve", "include/mstl/collection/vector.h: capacity", "include/mstl/collection/vector.h: extend_space", "include/mstl/collection/vector.h: clear"]}
{"id": "C04", "title": "Vector append is amortised constant", "statement": "Building a vector by n push_backs starting from any vector constructed without elements performs at most a constant times n element constructions in total, and a logarithmic number of reallocations.", "quantifier": "all n", "why_tests_cant": "tests time a few sizes; the bound is for every n", "anchors": ["include/mstl/collection/vector.h: push_back", "include/mstl/collection/vector.h: extend_space", "include/mstl/collection/vector.h: allocate_reserve"]}
{"id": "C05", "title": "Vector checked access is total and exact", "statement": "at(i), front() and back() return none exactly when the index does not exist and otherwise refer to that very element; they never touch memory outside the vector.", "quantifier": "all vectors, all indices of type usize", "why_tests_cant": "the index domain is 2^64 values and all lengths", "anchors": ["include/mstl/collection/vector.h: at", "include/mstl/collection/vector.h: front", "include/mstl/collection/vector.h: back", "include/mstl/collection/vector.h: operator[]", "include/mstl/collection/vector.h: at_unchecked"]}
{"id": "C06", "title": "Vector insert/emplace puts the new elements at the position and keeps the others in order", "statement": "insert(pos, x), insert(pos, n, x), insert(pos, first, last) and emplace(pos, ...) make the contents prefix ++ new ++ suffix for every valid position including begin() and for empty vectors, and the returned iterator designates the first inserted element.", "quantifier": "all vectors, all positions 0..size(), all inserted sequences", "why_tests_cant": "shifting bugs appear only at boundary positions and particular size/capacity relations", "anchors": ["include/mstl/collection/vector.h: emplace", "include/mstl/collection/vector.h: insert", "include/mstl/collection/vector.h: move_elements_back"]}
{"id": "C07", "title": "Vector erase removes exactly the designated elements", "statement": "erase(pos) and erase(first,last) remove exactly the designated elements, keep the order of all others, destroy exactly the removed number of elements, never reallocate, and return the position following the last removed element.", "quantifier": "all vectors, all positions and ranges", "why_tests_cant": "needs every position, and moved-from values must never surface", "anchors": ["include/mstl/collection/vector.h: erase", "include/mstl/collection/vector.h: pop_back"]}
{"id": "C08", "title": "Vector copies are equal and independent", "statement": "Copy construction and copy assignment yield a vector with the same contents, leave the source unchanged, and later changes to either never show in the other; self assignment is a no-op; both allocator-equal and allocator-unequal paths.", "quantifier": "all pairs of vectors in all states, all later histories", "why_tests_cant": "independence quantifies over later histories", "anchors": ["include/mstl/collection/vector.h: Vector(const Vector&)", "include/mstl/collection/vector.h: operator=(const Vector&)", "include/mstl/collection/vector.h: copy_impl"]}
{"id": "C09", "title": "Vector move and swap transfer contents without touching elements", "statement": "Move construction/assignment gives the target exactly the source's contents, leaves the source empty and reusable, constructs no element; swap exchanges contents and capacity; the previous contents of the target of a move assignment are released.", "quantifier": "all pairs of vectors in all states", "why_tests_cant": "ownership errors only show later, at destruction or reuse", "anchors": ["include/mstl/collection/vector.h: Vector(Vector&&)", "include/mstl/collection/vector.h: operator=(Vector&&)", "include/mstl/collection/vector.h: move_impl", "include/mstl/collection/vector.h: swap"]}
{"id": "C10", "title": "Vector assignment from literals/counts replaces the contents", "statement": "assign(n,x), assign(list) and operator=(initializer_list) make the contents exactly the given sequence whatever the previous contents and capacity were.", "quantifier": "all previous states, all lists and counts", "why_tests_cant": "depends on the relation of old length, new length and capacity", "anchors": ["include/mstl/collection/vector.h: assign", "include/mstl/collection/vector.h: operator=(std::initializer_list<T>)"]}
{"id": "C11", "title": "Vector comparison is lexicographic", "statement": "== holds exactly when the two sequences are equal; <=> is the lexicographic order on sequences with shorter prefix first, consistent with ==; if the element order is total the vector order is a total order.", "quantifier": "all pairs/triples of vectors", "why_tests_cant": "order laws quantify over triples of arbitrary length sequences", "anchors": ["include/mstl/collection/vector.h: operator==", "include/mstl/collection/vector.h: operator<=>"]}
{"id": "C12", "title": "Vector iteration visits every element once in order", "statement": "begin()..end(), iter(), into_iter() and into_iter_reversed() produce all elements exactly once in (reverse) order and then none for ever; into_iter leaves the vector empty and releases all storage, even if iteration is abandoned midway.", "quantifier": "all vectors, every number of next() calls", "why_tests_cant": "abandonment point and length are unbounded", "anchors": ["include/mstl/collection/vector.h: VectorIter", "include/mstl/collection/vector.h: VectorIntoIter", "include/mstl/collection/vector.h: into_iter", "include/mstl/collection/vector.h: into_iter_reversed"]}
{"id": "C13", "title": "Vector resize keeps the prefix and fills the rest", "statement": "resize(n) and resize(n,x) produce the first min(n,size()) old elements followed by n-size() default or x elements.", "quantifier": "all vectors, all n", "why_tests_cant": "all sizes relative to length and capacity", "anchors": ["include/mstl/collection/vector.h: resize"]}
{"id": "C14", "title": "Vector operations accept arguments that alias their own elements", "statement": "push_back(v[i]), resize(n, v[i]), assign(n, v[i]) and insert(pos, v[i]) behave as if the argument had been copied first.", "quantifier": "all vectors, indices and positions", "why_tests_cant": "aliasing plus reallocation only at particular size/capacity relations", "anchors": ["include/mstl/collection/vector.h: push_back(const T&)", "include/mstl/collection/vector.h: assign", "include/mstl/collection/vector.h: resize", "include/mstl/collection/vector.h: insert"]}
{"id": "C15", "title": "Vector growth never requests a wrapped byte count", "statement": "Automatic growth never makes the allocator's size computation overflow, so the block always has room for the announced capacity; explicit requests (reserve, resize, assign, count constructor) with any count either succeed with enough room or fail cleanly.", "quantifier": "all capacities, all element sizes, all counts of type usize", "why_tests_cant": "overflow needs astronomically large counts", "anchors": ["include/mstl/collection/vector.h: extend_space", "include/mstl/collection/vector.h: reserve", "include/mstl/collection/vector.h: allocate", "include/mstl/memory/allocators/allocator.h: allocate"]}
{"id": "C16", "title": "List behaves as a mathematical sequence over any history", "statement": "After any history of construction, push/emplace/pop at both ends, insert, insert_after, erase, erase_after, resize, clear, copy, move, swap, splice, merge, sort, reverse, unique, remove_if and destruction on any number of Lists, nothing undefined happens and size(), traversal, front() and back() agree with an ideal list.", "quantifier": "all finite histories over any number of lists, all element values", "why_tests_cant": "pointer structures over unbounded histories", "anchors": ["include/mstl/collection/linked_list.h: class BaseList", "include/mstl/collection/linked_list.h: push_back", "include/mstl/collection/linked_list.h: push_front", "include/mstl/collection/linked_list.h: insert", "include/mstl/collection/linked_list.h: erase", "include/mstl/collection/linked_list.h: clear", "include/mstl/collection/linked_list.h: swap"]}
{"id": "C17", "title": "ForwardList behaves as a mathematical sequence over any history", "statement": "The same for ForwardList and the operations it offers (push_front, pop_front, insert_after, erase_after, splice_after, merge, sort, reverse, unique, remove_if...).", "quantifier": "all finite histories", "why_tests_cant": "pointer structures over unbounded histories", "anchors": ["include/mstl/collection/linked_list.h: ForwardListNode", "include/mstl/collection/linked_list.h: insert_after", "include/mstl/collection/linked_list.h: erase_after", "include/mstl/collection/linked_list.h: splice_after"]}
{"id": "C18", "title": "Lists never leak or double free nodes or elements", "statement": "Every node and element allocated by any list operation is released exactly once, nothing freed is read, and after destroying all lists nothing is outstanding.", "quantifier": "all histories", "why_tests_cant": "depends on interleavings of splice/merge/erase/move and destruction", "anchors": ["include/mstl/collection/linked_list.h: construct_node", "include/mstl/collection/linked_list.h: destroy_node", "include/mstl/collection/linked_list.h: ~BaseList", "include/mstl/collection/linked_list.h: clear", "test/TrackingAllocator.h: get_beholding_memory"]}
{"id": "C19", "title": "List links are consistent in both directions", "statement": "Traversing a List backwards yields exactly the reverse of traversing it forwards, after every operation.", "quantifier": "all states reachable by any history", "why_tests_cant": "a stale prev link is invisible to forward traversal tests", "anchors": ["include/mstl/collection/linked_list.h: ListNode", "include/mstl/collection/linked_list.h: set_next", "include/mstl/collection/linked_list.h: real_tail"]}
{"id": "C20", "title": "List iterators stay valid", "statement": "Inserting elements never changes which element an existing iterator designates; erasing invalidates only iterators to the erased elements; splice, merge, sort and reverse keep every iterator designating the same element value.", "quantifier": "all lists, all iterators, all operations", "why_tests_cant": "quantifies over all held iterators", "anchors": ["include/mstl/collection/linked_list.h: insert", "include/mstl/collection/linked_list.h: erase", "include/mstl/collection/linked_list.h: splice", "include/mstl/collection/linked_list.h: merge", "include/mstl/collection/linked_list.h: sort"]}
{"id": "C21", "title": "sort yields a sorted permutation", "statement": "sort(pred) leaves a permutation of the previous elements in which pred never orders a later element strictly before an earlier one; the list remains well-formed for further operations and no element is copied.", "quantifier": "all lists of all lengths (0, 1, 2, ...), all strict weak orders", "why_tests_cant": "all lengths and permutations", "anchors": ["include/mstl/collection/linked_list.h: sort", "include/mstl/collection/linked_list.h: mergeSort", "include/mstl/collection/linked_list.h: merge"]}
{"id": "C22", "title": "sort and merge are stable", "statement": "Elements that compare equivalent keep their relative order under sort; merge puts equivalent elements of *this before those of the argument.", "quantifier": "all lists, all orders", "why_tests_cant": "needs equivalent-but-distinguishable elements everywhere", "anchors": ["include/mstl/collection/linked_list.h: mergeSort", "include/mstl/collection/linked_list.h: merge"]}
{"id": "C23", "title": "merge interleaves two sorted lists and empties the other", "statement": "x.merge(y) of two sorted lists gives a sorted list holding exactly the elements of both, y becomes empty and usable; merging with itself or with an empty list changes nothing; the rvalue overload behaves the same.", "quantifier": "all pairs of sorted lists including empty ones", "why_tests_cant": "all length combinations, both overloads", "anchors": ["include/mstl/collection/linked_list.h: merge(BaseList&)", "include/mstl/collection/linked_list.h: merge(BaseList&&)"]}
{"id": "C24", "title": "splice moves a whole list in constant time", "statement": "splice(pos, other)/splice_after(pos, other) insert all of other's elements at the position in order, leave other empty and usable, allocate and copy nothing.", "quantifier": "all lists, all positions, all other lists including empty", "why_tests_cant": "empty/edge positions", "anchors": ["include/mstl/collection/linked_list.h: splice", "include/mstl/collection/linked_list.h: splice_after"]}
{"id": "C25", "title": "reverse reverses", "statement": "reverse() makes the traversal order the reverse of the previous one; doing it twice restores the list; nothing is allocated or copied.", "quantifier": "all lists of both kinds", "why_tests_cant": "all lengths", "anchors": ["include/mstl/collection/linked_list.h: reverse"]}
{"id": "C26", "title": "unique removes exactly consecutive duplicates", "statement": "unique()/unique(pred) keep the first element of each run of elements equivalent to the run's first and erase the rest; the returned count is the number erased.", "quantifier": "all lists, all predicates", "why_tests_cant": "all run structures", "anchors": ["include/mstl/collection/linked_list.h: unique"]}
{"id": "C27", "title": "remove_if removes exactly the matching elements", "statement": "remove_if(p)/remove(v) erase exactly the elements satisfying p, keep the order of the rest, return the number removed, evaluate p once per element.", "quantifier": "all lists, all predicates; values that may live inside the list", "why_tests_cant": "all subsets", "anchors": ["include/mstl/collection/linked_list.h: remove", "include/mstl/collection/linked_list.h: remove_if"]}
{"id": "C28", "title": "List insertion and erasure at iterators", "statement": "insert/emplace (before), insert_after/emplace_after, erase, erase_after at any valid iterator modify exactly that place and return the documented iterator.", "quantifier": "all lists, all positions, all counts and source ranges", "why_tests_cant": "all positions", "anchors": ["include/mstl/collection/linked_list.h: insert", "include/mstl/collection/linked_list.h: insert_after", "include/mstl/collection/linked_list.h: emplace", "include/mstl/collection/linked_list.h: erase", "include/mstl/collection/linked_list.h: erase_after"]}
{"id": "C29", "title": "List front/back access", "statement": "front()/back() are none exactly for the empty list and otherwise designate the first/last element; the const and unchecked versions agree with them.", "quantifier": "all lists", "why_tests_cant": "const overloads are separate code paths", "anchors": ["include/mstl/collection/linked_list.h: front", "include/mstl/collection/linked_list.h: back", "include/mstl/collection/linked_list.h: front_unchecked", "include/mstl/collection/linked_list.h: back_unchecked"]}
{"id": "C30", "title": "List copies are independent, moves transfer", "statement": "Copies have equal contents in fresh nodes and are independent; moves transfer all nodes, report moved() on the source, also with a different allocator.", "quantifier": "all lists, allocators equal or not", "why_tests_cant": "independence over later histories", "anchors": ["include/mstl/collection/linked_list.h: copy_impl", "include/mstl/collection/linked_list.h: BaseList(BaseList&&)", "include/mstl/collection/linked_list.h: operator=", "include/mstl/collection/linked_list.h: moved"]}
{"id": "C31", "title": "List resize and count constructors", "statement": "resize(n), resize(n,x), BaseList(n,x) and range/initializer-list constructors and assignments give the documented contents.", "quantifier": "all lists, all n", "why_tests_cant": "all lengths", "anchors": ["include/mstl/collection/linked_list.h: resize", "include/mstl/collection/linked_list.h: extend", "include/mstl/collection/linked_list.h: shorten", "include/mstl/collection/linked_list.h: BaseList(usize, const T&)"]}
{"id": "C32", "title": "List into_iter consumes from both ends", "statement": "Any interleaving of next() and prev() on into_iter() yields each element at most once, fronts in order and backs in reverse order, then none; abandoning it releases everything.", "quantifier": "all lists, all interleavings", "why_tests_cant": "interleavings unbounded", "anchors": ["include/mstl/collection/linked_list.h: ListIntoIter", "include/mstl/collection/linked_list.h: ListIter"]}
{"id": "C33", "title": "Reverse iterators traverse backwards", "statement": "rbegin()..rend() visits exactly the elements in reverse order.", "quantifier": "all lists", "why_tests_cant": "all lengths", "anchors": ["include/mstl/collection/linked_list.h: ListIterSTL", "include/mstl/collection/linked_list.h: rbegin", "include/mstl/collection/linked_list.h: rend"]}
{"id": "C34", "title": "Popping an empty list is detected", "statement": "pop_front/pop_back on an empty list never corrupts the list.", "quantifier": "all empty lists in any history", "why_tests_cant": "emptiness reached through any history", "anchors": ["include/mstl/collection/linked_list.h: pop_front", "include/mstl/collection/linked_list.h: pop_back"]}
{"id": "C35", "title": "UTF-8 validation accepts exactly well-formed UTF-8", "statement": "Validating a byte string succeeds if and only if it is a concatenation of well-formed sequences of RFC 3629 (no overlong forms, no surrogates, nothing above U+10FFFF).", "quantifier": "all byte strings of all lengths", "why_tests_cant": "2^(8n) inputs for every n", "anchors": ["include/mstl/str/encoding/utf8.h: validate", "include/mstl/str/encoding/utf8.h: UTF8_CHAR_WIDTH", "include/mstl/str/encoding/utf8.h: utf8_is_cont_byte"]}
{"id": "C36", "title": "UTF-8 validation error position", "statement": "When validation fails the reported offset lies inside the input and everything before the sequence containing it is well-formed; it is the first offending byte, or the last byte for input cut off in the middle of a sequence.", "quantifier": "all invalid byte strings", "why_tests_cant": "all byte strings", "anchors": ["include/mstl/str/encoding/utf8.h: validate", "include/mstl/str/string.h: DecodeError"]}
{"id": "C37", "title": "chars() decodes losslessly", "statement": "For a valid UTF-8 string chars() yields its characters in order, each one a single well-formed sequence, whose concatenation is the string; it never reads past the end.", "quantifier": "all valid UTF-8 strings", "why_tests_cant": "all strings", "anchors": ["include/mstl/str/encoding/utf8.h: next", "include/mstl/str/basic_string.h: chars"]}
{"id": "C38", "title": "ASCII validation", "statement": "A byte string validates as ASCII exactly when all bytes are below 0x80, and the reported offset is the first offending byte.", "quantifier": "all byte strings", "why_tests_cant": "all lengths and bytes", "anchors": ["include/mstl/str/encoding/ascii.h: validate"]}
{"id": "C39", "title": "Character boundaries", "statement": "is_char_boundary(i) holds exactly when i is 0, the length, or the start of a character of a valid string.", "quantifier": "all valid strings, all indices", "why_tests_cant": "all strings and positions", "anchors": ["include/mstl/str/basic_string.h: is_char_boundary", "include/mstl/str/encoding/utf8.h: is_char_boundary"]}
{"id": "C40", "title": "String append and insert act on the byte sequence", "statement": "push_back(c) appends and insert(c, i) splices the encoding of c at byte i (panicking when i is not a boundary), whatever the current length and wherever the bytes are stored (inline or heap), never reading or writing out of bounds.", "quantifier": "all histories of append and insert starting from any literal", "why_tests_cant": "the inline/heap switch at 16 bytes can be crossed in any way", "anchors": ["include/mstl/str/basic_string.h: push_back", "include/mstl/str/basic_string.h: insert", "include/mstl/str/basic_string.h: try_allocate_new_space"]}
{"id": "C41", "title": "Strings stay valid", "statement": "A UTF-8 string built from valid literals by push_back and insert always contains valid UTF-8.", "quantifier": "all histories", "why_tests_cant": "all histories", "anchors": ["include/mstl/str/basic_string.h: push_back", "include/mstl/str/basic_string.h: insert"]}
{"id": "C42", "title": "String copy, move and assignment preserve contents", "statement": "Copy/move construction and assignment give the target the source's bytes, for every pair of lengths.", "quantifier": "all pairs of strings, all lengths", "why_tests_cant": "all length pairs around the inline limit", "anchors": ["include/mstl/str/basic_string.h: BasicString(const BasicString&)", "include/mstl/str/basic_string.h: operator=", "include/mstl/str/basic_string.h: BasicString(BasicString&&)"]}
{"id": "C43", "title": "String pop_back removes the last character", "statement": "pop_back returns the last character and removes exactly its bytes; none on the empty string.", "quantifier": "all strings", "why_tests_cant": "crossing the inline limit downwards", "anchors": ["include/mstl/str/basic_string.h: pop_back", "include/mstl/str/encoding/utf8.h: last", "include/mstl/str/encoding/ascii.h: last"]}
{"id": "C44", "title": "Strings never leak or double free", "statement": "Every heap buffer a string obtains is released exactly once with its own size.", "quantifier": "all histories", "why_tests_cant": "histories", "anchors": ["include/mstl/str/basic_string.h: ~BasicString", "include/mstl/str/basic_string.h: Allocate", "include/mstl/str/basic_string.h: try_allocate_new_space"]}
{"id": "C45", "title": "Printing a string writes its bytes", "statement": "Streaming a string outputs exactly its bytes.", "quantifier": "all strings", "why_tests_cant": "all lengths", "anchors": ["include/mstl/str/basic_string.h: operator<<"]}
{"id": "C46", "title": "Option holds at most one live value and unwrap consumes it", "statement": "is_some/is_none are opposite; unwrap returns the stored value and leaves none, panics exactly on none; the payload is constructed/destroyed exactly once over any history of construction, unwrap, copy, move, assignment and destruction.", "quantifier": "all histories over any number of options, all payload types", "why_tests_cant": "lifetime errors depend on histories", "anchors": ["include/mstl/option/option.h: Option", "include/mstl/option/option.h: unwrap", "include/mstl/option/option.h: reset", "include/mstl/option/option.h: ~Option"]}
{"id": "C47", "title": "Moving from an Option leaves none", "statement": "After moving out of an Option by construction or assignment the source is none and the target holds the value.", "quantifier": "all pairs of option states", "why_tests_cant": "all state pairs and payloads", "anchors": ["include/mstl/option/option.h: Option(Option&&)", "include/mstl/option/option.h: operator=(Option&&)"]}
{"id": "C48", "title": "Option::map is functorial", "statement": "map applies the function to a held value exactly once and yields none on none; mapping identity and composition behave as expected.", "quantifier": "all options and functions", "why_tests_cant": "functions are an infinite domain", "anchors": ["include/mstl/option/option.h: map"]}
{"id": "C49", "title": "Option of reference aliases its referent", "statement": "Option<T&> designates the original object: writes through it are visible, copying keeps both designating the same object, moving or unwrapping leaves none.", "quantifier": "all objects and histories", "why_tests_cant": "aliasing over histories", "anchors": ["include/mstl/option/option.h: Option<T&>"]}
{"id": "C50", "title": "Result is exactly one of ok or err", "statement": "A Result made from a value is ok with that value and from an error is err with that error; unwrap/unwrap_err return the payload or panic exactly on the wrong variant; ok()/err() convert accordingly.", "quantifier": "all payloads and histories without assignment", "why_tests_cant": "all payloads", "anchors": ["include/mstl/result/result.h: ResultBase", "include/mstl/result/result.h: unwrap", "include/mstl/result/result.h: unwrap_err", "include/mstl/result/result.h: ok", "include/mstl/result/result.h: err"]}
{"id": "C51", "title": "Result assignment takes the variant and payload of the source", "statement": "After r = s (copy or move), r is ok/err like s with equal payload, the old payload is destroyed once, the destructor destroys the right payload.", "quantifier": "all pairs of variants and histories", "why_tests_cant": "four variant combinations over histories", "anchors": ["include/mstl/result/result.h: operator="]}
{"id": "C52", "title": "Result equality", "statement": "Two Results are equal exactly when they are the same variant with equal payloads.", "quantifier": "all pairs", "why_tests_cant": "all payloads", "anchors": ["include/mstl/result/result.h: operator=="]}
{"id": "C53", "title": "Iterator pipelines compute the corresponding list functions", "statement": "Any composition of map and filter over any source iterator followed by collect gives the list obtained by mapping/filtering the source's elements in order; once exhausted they stay exhausted if the source does.", "quantifier": "all source iterators producing finitely many elements, all function pipelines of any depth", "why_tests_cant": "infinite families of pipelines", "anchors": ["include/mstl/iter/adapters/map.h: MapIter", "include/mstl/iter/adapters/filter.h: FilterIter", "include/mstl/iter/termnals/collect.h: collect"]}
{"id": "C54", "title": "Iterator terminals compute the corresponding list functions", "statement": "fold, reduce, find, for_each, last agree with left fold, left fold of a non-empty list (none on empty), first match, in-order visit and last element; find leaves the iterator just after the match.", "quantifier": "all source iterators, all functions", "why_tests_cant": "all lengths and functions", "anchors": ["include/mstl/iter/termnals/fold.h: fold", "include/mstl/iter/termnals/reduce.h: reduce", "include/mstl/iter/termnals/find.h: find", "include/mstl/iter/termnals/for_each.h: for_each", "include/mstl/iter/termnals/last.h: last"]}
{"id": "C55", "title": "Pipelines evaluate user functions once per element, in order, lazily", "statement": "In a pipeline each user function is called once per element that reaches it, stages interleave element by element, and a short-circuiting terminal evaluates nothing beyond the first match.", "quantifier": "all sources and side-effecting functions", "why_tests_cant": "effects traces are unbounded", "anchors": ["include/mstl/iter/adapters/map.h: MapIter::next", "include/mstl/iter/adapters/filter.h: FilterIter::next", "include/mstl/iter/termnals/find.h: find"]}
{"id": "C56", "title": "Range iterates the half-open interval", "statement": "Iterating Range(lo,hi) with lo<=hi by next() or a for loop yields lo, lo+1, ..., hi-1 exactly; contains(x) holds exactly for those values.", "quantifier": "all bounds", "why_tests_cant": "all bounds of the integer type", "anchors": ["include/mstl/ops/range.h: Range", "include/mstl/ops/range.h: next", "include/mstl/ops/range.h: contains", "include/mstl/ops/range.h: RangeCursor"]}
{"id": "C57", "title": "Range and owning array iterators can be consumed from the back", "statement": "prev() yields the last remaining element: for Range(lo,hi) hi-1, hi-2, ...; for an Array's into_iter() the last element; mixed with next() each element appears exactly once.", "quantifier": "all bounds, all arrays, all interleavings", "why_tests_cant": "interleavings", "anchors": ["include/mstl/ops/range.h: prev", "include/mstl/collection/array.h: ArrayIter::prev"]}
{"id": "C58", "title": "Array indexing is checked and iteration exact", "statement": "operator[] returns the element or panics exactly when the index is out of range; construction from a list longer than N panics; iter()/into_iter() yield the N elements in order.", "quantifier": "all N, arrays and indices", "why_tests_cant": "all N and indices", "anchors": ["include/mstl/collection/array.h: Array", "include/mstl/collection/array.h: operator[]", "include/mstl/collection/array.h: ArrayIter", "include/mstl/collection/array.h: ArrayIterRef"]}
{"id": "C59", "title": "Array collect takes the first N elements", "statement": "Collecting an iterator into Array<T,N> stores its first N elements (defaults if fewer) and never writes past N.", "quantifier": "all iterators and N", "why_tests_cant": "all lengths relative to N", "anchors": ["include/mstl/collection/array.h: from_iter"]}
{"id": "C60", "title": "Borrowing iterators are correct from both ends", "statement": "Slice and Array borrowing iterators: any interleaving of next() and prev() yields each element exactly once, len() is the number left, is_empty() iff none left.", "quantifier": "all slices and interleavings", "why_tests_cant": "interleavings unbounded", "anchors": ["include/mstl/slice.h: SliceRefIter", "include/mstl/collection/array.h: ArrayIterRef"]}
{"id": "C61", "title": "Layout accepts exactly powers of two", "statement": "from_size_align(size, align) is ok exactly when align is a power of two and then stores both values unchanged.", "quantifier": "all 2^128 pairs", "why_tests_cant": "domain size", "anchors": ["include/mstl/memory/layout.h: from_size_align"]}
{"id": "C62", "title": "Allocator releases with the same size and alignment class it allocated with", "statement": "deallocate(p, n) after allocate(n) uses the same byte count and the same aligned/unaligned form; storage is large enough for n objects.", "quantifier": "all sizes, alignments and counts", "why_tests_cant": "all counts incl. overflow", "anchors": ["include/mstl/memory/allocators/allocator.h: allocate, deallocate"]}
{"id": "C63", "title": "match: first matching branch wins", "statement": "A match chain returns the value of the first branch whose pattern (value or range) fits, evaluates no other branch function, the rest branch applies only when nothing else did, finale panics exactly when nothing fit.", "quantifier": "all chains of any length, all patterns, all targets", "why_tests_cant": "chains unbounded", "anchors": ["include/mstl/utility/match.h: Match, MatchMid"]}
{"id": "C64", "title": "match with void branches runs exactly one branch", "statement": "A match chain whose branches return nothing runs exactly the first fitting branch, and finale panics only when nothing fit.", "quantifier": "all chains", "why_tests_cant": "chains unbounded", "anchors": ["include/mstl/utility/match.h: MatchMid<T, void>"]}
{"id": "C65", "title": "Tuple stores and returns its components", "statement": "get<i> returns the i-th stored value, assignment and tie copy componentwise, == is componentwise equality, for_each visits in order, writes to one component do not affect others. Assigning a tie to a tie goes from left to right: it is the simultaneous assignment if no variable is read after it is written, and tie(x, y) = tie(y, x) does not exchange x and y.", "quantifier": "all tuple arities and component types", "why_tests_cant": "all arities", "anchors": ["include/mstl/utility/tuple.h: Tuple, get, tie, make_tuple"]}
{"id": "C66", "title": "TypeList algebra", "statement": "append, prepend, map, filter, at and count over type lists satisfy the list laws (order preserving, filter keeps exactly matches, at indexes).", "quantifier": "all type lists", "why_tests_cant": "all lists", "anchors": ["include/mstl/utility/type_list.h: TypeListConst"]}
{"id": "C67", "title": "combine and | build the same pipeline", "statement": "combine(it, A, f, B, g, ...) and it | a(f) | b(g) | ... produce the same result.", "quantifier": "all pipelines", "why_tests_cant": "all depths", "anchors": ["include/mstl/iter/utility.h: combine, operator|"]}
{"id": "C68", "title": "Printed form of containers", "statement": "Streaming a Vector/List/ForwardList prints the name, an opening bracket, the elements in order separated by comma and blank, and a closing bracket; no separator dangling.", "quantifier": "all containers and element printers", "why_tests_cant": "all lengths", "anchors": ["include/mstl/collection/vector.h: operator<<", "include/mstl/collection/linked_list.h: operator<<"]}
{"id": "C69", "title": "Vector iterators are random access positions", "statement": "An iterator obtained from begin() or end() and moved by ++, --, (prefix or postfix), + n and - n designates the element at the corresponding index; a move is undefined exactly when it leaves the vector's storage; the difference of two iterators is the difference of their indices, they are equal iff the indices are and ordered as the indices are; a range-for over the vector sees every element once in order.", "quantifier": "all reachable vectors, all finite sequences of iterator moves from begin() or end(), all pairs of such iterators", "why_tests_cant": "unboundedly many move sequences and vector histories", "anchors": ["include/mstl/collection/vector.h: VectorIter operators, begin, end"]}
{"id": "C70", "title": "Appending within capacity keeps iterators usable", "statement": "An iterator obtained before a push_back that finds spare capacity still designates the same element afterwards: it reads the same value, and compares equal to a freshly obtained iterator to that element.", "quantifier": "all reachable vectors with spare capacity, all positions, all appended values", "why_tests_cant": "must hold for every history and position", "anchors": ["include/mstl/collection/vector.h: VectorIter::operator==, push_back"]}
{"id": "C71", "title": "A result that refers to an object behaves as a re-seatable reference", "statement": "For any history over objects and Result<T&, E> variables: reading and writing through a result reads and writes exactly the object it was made from; copies refer to the same object; assignment re-seats the target and touches no object; == compares the objects referred to; unwrap of an error panics.", "quantifier": "all histories of objects and reference results, all element and error types, all comparison functions", "why_tests_cant": "aliasing patterns and histories are unbounded", "anchors": ["include/mstl/result/result.h: Result<T&, E>, ResultBase"]}
{"id": "C72", "title": "Arrays and their owning iterators behave as fixed-length lists over any history", "statement": "For any history of Array construction, copy, move, assignment, self-assignment, indexing, ==, size, range-for and of owning iterators (into_iter, next, is_empty, copy, move, assignment), the calls answer as lists of fixed length do; a panic happens exactly for a bad index or an over-long initialiser list; reading is undefined only for elements never given a value.", "quantifier": "all histories, lengths, element types and inequalities", "why_tests_cant": "unboundedly many histories and lengths", "anchors": ["include/mstl/collection/array.h: Array, ArrayIter"]}
{"id": "C73", "title": "A vector fails for lack of memory only when storage it needs is refused", "statement": "A vector call runs out of memory only if it needs new storage (it does not fit the capacity, or it constructs or copies) and the allocator refuses a request no larger than the elements it needs room for. With an allocator that grants everything below 2^63 bytes, every history of modest calls runs to its end.", "quantifier": "all histories, all calls, all element sizes and all allocators", "why_tests_cant": "all refusal patterns of the allocator and all histories", "anchors": ["include/mstl/collection/vector.h: reserve, push_back, allocate, copy_impl, move_elements_back", "include/mstl/memory/allocators/allocator.h: allocate"]}
{"id": "C74", "title": "A vector that is refused memory stays usable or says so", "statement": "If the allocator refuses a request made by Vector(), reserve, or push_back, the call reports the failure or leaves the vector as it was, so that later calls are defined.", "quantifier": "all reachable vectors, element types, requests and refusals", "why_tests_cant": "refusals happen at any allocation of any history", "anchors": ["include/mstl/collection/vector.h: allocate, allocate_reserve, reserve, extend_space, push_back", "include/mstl/memory/allocators/allocator.h: allocate"]}
{"id": "C75", "title": "A throwing element copy leaves the vector usable and loses nothing", "statement": "If copying an element throws during push_back, assign, insert, construction or copy assignment, the vector can still be used and destroyed, and every element constructed is destroyed and all memory returned.", "quantifier": "all reachable vectors, all sets of values whose copy throws, all positions of the throw", "why_tests_cant": "the throw may happen at any copy of any history", "anchors": ["include/mstl/collection/vector.h: push_back, assign, insert, operator=, copy_impl, Vector(initializer_list)"]}
{"id": "C76", "title": "Lists ask for memory only for the nodes they add", "statement": "A call on a list requests exactly one node for each element it adds (and two more for each new list), has its documented effect if these requests are granted, and calls that add nothing (reading, erasing, moving, swapping, sorting, merging, splicing, reversing, destroying) never request memory and so cannot fail for lack of it.", "quantifier": "all reachable states of all lists, all calls, all allocator behaviours", "why_tests_cant": "the allocator may refuse any request at any moment of any history", "anchors": ["include/mstl/collection/linked_list.h: alloc_node, alloc_node_with_data, build_virtual_node, push_back, insert_after, resize, operator=, sort, merge, splice_after"]}
{"id": "C77", "title": "A list that is refused memory stays usable or says so", "statement": "If the allocator refuses a node requested by a constructor, push, insert, emplace, assignment or resize, the call reports the failure or leaves the list as it was.", "quantifier": "all lists, arguments, heaps and refusals", "why_tests_cant": "a refusal may happen at any request of any history", "anchors": ["include/mstl/collection/linked_list.h: alloc_node_with_data, build_virtual_node, construct_node, push_front, push_back, insert_after, emplace, resize, operator=, copy_impl"]}
{"id": "C78", "title": "A throwing element constructor leaves the list usable and loses nothing", "statement": "If constructing an element throws during insert, insert_after, emplace, push, resize, assignment, from_iter or construction of a list, the exception reaches the caller, the list can still be used and destroyed, and no element and no node is lost.", "quantifier": "all reachable states, positions, arguments, and every place in the sequence of constructions where the throw may happen", "why_tests_cant": "the throw may happen at any construction of any history", "anchors": ["include/mstl/collection/linked_list.h: construct_node, emplace_after, insert_after, emplace, insert, push_front, push_back, resize, extend, operator=, copy_impl, from_iter, BaseList(count, value), BaseList(first, last), BaseList(const BaseList&), BaseList(initializer_list)"]}
{"id": "C79", "title": "List iterators are positions", "statement": "Moving an iterator of a list with ++ and (doubly linked) --, prefix or postfix, any number of times from before_begin(), begin() or end() is moving a position: it is undefined only if an iterator that left the list is moved again, reading gives the element at the position and is undefined at before_begin() and end(), writing replaces that element and nothing else, two iterators of a list are equal exactly at the same position, and iterators of different lists are never equal.", "quantifier": "all reachable lists, all starting points, all sequences of moves", "why_tests_cant": "unbounded walks over lists built by unbounded histories", "anchors": ["include/mstl/collection/linked_list.h: ListIterSTL, before_begin, begin, end"]}
{"id": "C80", "title": "Range cursors are integer positions", "statement": "For every integer index type, every starting position and every sequence of ++c, c++, --c, c--, c + d and c - d whose intermediate results are values of the index type, a range cursor hands out and ends on exactly the numbers of ordinary integer arithmetic (postfix forms hand out the number from before the step). Leaving the type is undefined for signed types, exactly at the first result outside, and wraps modulo the number of values for unsigned types. Cursors are compared (==, <=>) as their numbers are, end() - begin() is the number of elements iteration visits, begin() + (end() - begin()) equals end(), and two ranges are == exactly when both bounds agree.", "quantifier": "all integer index types, all positions of the type, all finite sequences of cursor operations, all pairs of ranges", "why_tests_cant": "the statement ranges over every position up to the extremes of every index type and over all operation sequences", "anchors": ["include/mstl/ops/range.h:RangeCursor", "include/mstl/ops/range.h:Range::begin", "include/mstl/ops/range.h:Range::operator==", "include/mstl/ops/arithmetical.h:Add"]}
{"id": "C81", "title": "Lists survive a comparison function that throws", "statement": "If the predicate given to sort, merge, unique or remove_if throws, at whichever of its calls, then the exception leaves the member, and afterwards every list of the program can still be traversed, used and destroyed, size() agrees with the number of elements, and no element is lost except those that unique had already found to be repetitions or remove_if had already been told to remove.", "quantifier": "all list contents, both list types, all predicates, all calls of the predicate at which it may throw, all later histories", "why_tests_cant": "The state left behind depends on the contents, on the order of comparisons and on which comparison throws; a test throws at a few chosen comparisons of a few lists.", "anchors": ["include/mstl/collection/linked_list.h: BaseList::sort, BaseList::merge, BaseList::unique, BaseList::remove_if, _private::mergeSort, _private::merge"]}
{"id": "C82", "title": "Literals are checked and denote their bytes", "statement": "A literal with the suffix _utf8 (_ascii) compiles exactly when it is not empty and valid UTF-8 (ASCII), and then it denotes exactly the bytes written, embedded zeros included and without the terminator; a string made from it holds these bytes. A character is made from such a literal exactly when it is one character of the encoding, and printing it, push_back and insert use exactly its bytes.", "quantifier": "all byte sequences a literal may consist of, both encodings, all states of the program", "why_tests_cant": "Compile-time acceptance is a property of every possible literal; a test can only list some that compile and cannot even contain those that must not.", "anchors": ["include/mstl/str/encoding/utility/compile_time_validation.h: define_str_suffix, CharsWrap, ValidBytes", "include/mstl/str/basic_char.h: BasicChar, operator<<"]}
{"id": "C83", "title": "UTF-8 strings are sequences of characters", "statement": "The characters of a valid string are determined by its bytes. push_back appends one character to this sequence; is_char_boundary is true exactly at the starts of characters and at the end; insert accepts exactly these indices and puts the character between the characters it separates; chars() hands out the sequence; appending these characters one after another to another string appends the text, and printing them one after another writes what printing the string writes.", "quantifier": "all valid UTF-8 strings of any length in any reachable program state, all characters, all indices", "why_tests_cant": "It relates byte offsets and characters for all texts and all positions, on both sides of the inline/heap boundary.", "anchors": ["include/mstl/str/basic_string.h: push_back, insert, is_char_boundary, chars, operator<<", "include/mstl/str/encoding/utf8.h: UTF8::next, UTF8::is_char_boundary"]}
{"id": "C84", "title": "Strings ask for memory only when they need it; appending is amortised constant", "statement": "A call asks the allocator for at most one block, and only when the resulting text is longer than 16 bytes and does not fit the memory the string already has; it cannot fail for lack of memory otherwise. While a string only grows (push_back, insert), the memory obtained altogether is at most 4.5 times its final length, in a number of requests logarithmic in it.", "quantifier": "all reachable program states, all calls, all finite sequences of growing calls with characters of any length", "why_tests_cant": "The bounds hold for sequences of calls of any length, from every state and on both sides of the inline/heap boundary.", "anchors": ["include/mstl/str/basic_string.h: push_back, insert, try_allocate_new_space, operator=, the constructors", "include/mstl/memory/allocators/allocator.h: allocate"]}
{"id": "C85", "title": "A string that is refused memory says so or stays usable", "statement": "If the allocator cannot provide the block a string call asks for, the call reports it or has no effect; no undefined behaviour follows.", "quantifier": "all reachable program states, all calls that ask for memory, all allocators", "why_tests_cant": "Which request fails is up to the environment; a test would have to make each request of each history fail.", "anchors": ["include/mstl/str/basic_string.h: push_back, insert, try_allocate_new_space, operator=, the constructors", "include/mstl/memory/allocators/allocator.h: allocate"]}
{"id": "C86", "title": "An option survives payload copies that throw", "statement": "If copying a payload throws while an option is constructed or assigned (or a function given to map throws), at whichever calls of a program, every option keeps its content (a failed assignment to a held value leaves a held value), can still be used and destroyed, and every payload is destroyed exactly once.", "quantifier": "all payload types, all sets of values whose copy throws, all histories over any number of options", "why_tests_cant": "Which copies throw and what is done with the options afterwards is unbounded.", "anchors": ["include/mstl/option/option.h: Option copy constructor, copy assignment, some(const T&), map"]}
{"id": "C87", "title": "Unchecked accessors agree with the checked ones", "statement": "Wherever the checked accessor of Option, Option<T&>, Result, Result<T&,E> or Vector succeeds, the unchecked one answers the same and has the same effect; it is undefined only where the checked one answers none or panics. Writing through ok_ref()/err_ref() or an unchecked reference changes exactly that payload or element.", "quantifier": "all reachable states, all indices, all values", "why_tests_cant": "Undefined accesses cannot be observed by tests, and agreement is needed in every state and for every index.", "anchors": ["include/mstl/option/option.h: unwrap_unchecked, as_ref_uncheck", "include/mstl/result/result.h: unwrap_unchecked, unwrap_err_unchecked, ok_unchecked, err_unchecked, ok_ref, err_ref, ok_ref_unchecked, err_ref_unchecked", "include/mstl/collection/vector.h: at_unchecked, front_unchecked, back_unchecked, data"]}
{"id": "C88", "title": "Function objects in pipelines keep their state from call to call", "statement": "A map, filter, fold, for_each, reduce or find given a function object with a state of its own (a mutable lambda) calls it once per element that reaches it, in order, each call seeing the state the previous call left.", "quantifier": "all pipelines of maps and filters of any depth with any function objects and states, all sources, all terminals, all effects of the functions", "why_tests_cant": "whether an object is copied between calls shows only for objects whose answers depend on earlier calls; a test fixes one object and one source", "anchors": ["include/mstl/iter/adapters/map.h: MapIter::next", "include/mstl/iter/adapters/filter.h: FilterIter::next", "include/mstl/iter/termnals/find.h: find", "include/mstl/iter/termnals/fold.h: fold", "include/mstl/iter/termnals/reduce.h: reduce", "include/mstl/iter/termnals/for_each.h: for_each"]}
{"id": "C89", "title": "Elements lie in their memory, aligned and clear of each other", "statement": "Whatever the element type, an element of a list is placed at a properly aligned address, after the node's links and within the memory asked for; a sentinel's links are at the same offsets as those of a node with an element; every element slot of a vector is aligned, within the memory asked for, and overlaps no other slot; every node is given back with the size and alignment it was asked for.", "quantifier": "all sizes and power-of-two alignments of the element type, single and doubly linked lists, all default new alignments, all addresses the allocator may return, all capacities whose byte count fits in a word", "why_tests_cant": "Tests instantiate a few element types and see the addresses one allocator happened to return; placement must be right for every size and alignment, including over-aligned types, and every address.", "anchors": ["include/mstl/memory/layout.h: Layout::from_type", "include/mstl/memory/allocators/allocator.h: allocate, deallocate", "include/mstl/collection/linked_list.h: NodeAllocHelper, alloc_node, alloc_node_with_data, dealloc_node, dealloc_node_with_data", "include/mstl/collection/vector.h: Vector"]}
{"id": "C90", "title": "Owning iterators of vectors live independently of the vectors", "statement": "An iterator obtained by into_iter() or into_iter_reversed() gives the vector's elements one after the other, from the front or the back, each exactly once and then none forever, no matter what the program meanwhile does with the vector it came from or with other vectors and iterators; moving the iterator carries on where it was, and a moved-from iterator has nothing left; when an iterator is destroyed the elements it did not give are destroyed and its memory is returned.", "quantifier": "all programs that interleave calls on any number of vectors with making, advancing, moving and destroying any number of owning iterators, all element types and contents", "why_tests_cant": "A test drains one iterator in one go; interleavings of partial draining, moves, reuse of the emptied vector and destruction are unbounded.", "anchors": ["include/mstl/collection/vector.h: Vector::into_iter, Vector::into_iter_reversed, VectorIntoIter"]}
{"id": "C91", "title": "The list of vector calls that go wrong is exact", "statement": "In any program that has used vectors correctly so far, a call whose byte counts fit a machine word does what the sequence model of a vector says if and only if it is not one of: assignment from an initializer list; insertion of anything at begin() of a vector with elements, or of at least one element into an empty vector; insertion of zero elements in front of an element; erasure of an empty range in front of an element; push_back of an own element into a full vector, assign(n, own element) with n > 0, resize beyond the capacity with an own element; insert(pos, n, own element) with n > 0 that reallocates or whose argument is at or behind the position (except where the element n places in front of the argument happens to equal it).", "quantifier": "all reachable states of any number of vectors, all calls of the modelled API that return, all element types and contents", "why_tests_cant": "Tests can show single calls wrong; that nothing else goes wrong, and that each listed call never does the right thing, ranges over all states and arguments.", "anchors": ["include/mstl/collection/vector.h: Vector::insert, Vector::emplace, Vector::move_elements_back, Vector::erase, Vector::push_back, Vector::assign, Vector::resize, Vector::operator="]}
{"id": "C92", "title": "The list of list calls that go wrong is exact", "statement": "In any program that has used linked lists correctly so far, and with an allocator that does not refuse memory, a call gives the results that the sequence model of a list asks for, and so do traversals of any lists afterwards, if and only if the call is not one of: sort of a list with one element; merge of a non-empty list into an empty one; merge of a non-empty list passed as an rvalue; any splice of an empty list; a reverse traversal of a non-empty list; remove of an element of the list itself that is not the last one; the const front_unchecked of a doubly linked list with several elements; move construction with another allocator. (The last two give no wrong result when first and last element are equal, or the source is empty.)", "quantifier": "all reachable states of any number of singly or doubly linked lists, all calls of the modelled API, all comparison functions allowed by the specification, all element types and contents", "why_tests_cant": "Tests can show single calls wrong; that nothing else goes wrong, and that each listed call never does the right thing, ranges over all states and arguments.", "anchors": ["include/mstl/collection/linked_list.h: sort, merge, splice, splice_after, remove, front_unchecked, rbegin, LinkedList(LinkedList&&, Allocator)"]}
{"id": "C93", "title": "The list of string calls that go wrong is exact", "statement": "In any program that has used strings correctly so far, and with an allocator that does not refuse memory, a call returns the documented result and leaves every string with the documented bytes if and only if it is not one of: move construction and assignment under the strict reading of the allocator's assignment (which lacks a return statement); copy or move assignment with a length of exactly 16 on either side; copy assignment under the strict reading that has to change between the object and the heap, or to a target whose block is too small; pop_back of 17 bytes; printing 16 bytes.", "quantifier": "all reachable states of any number of strings, all modelled calls, both encodings, both readings of Allocate::operator=", "why_tests_cant": "That nothing else goes wrong, and that each listed call never does the right thing, ranges over all states and arguments; whether one assignment works depends on the capacity left by the history.", "anchors": ["include/mstl/str/basic_string.h: BasicString, operator=, pop_back, operator<<, Allocate::operator="]}
{"id": "C94", "title": "List sort, merge and unique bound their calls of the comparison", "statement": "Sorting a list of n elements, 1 <= n <= 2^e, calls the comparison at most n*e times; merging lists of n and m elements (both non-empty) calls it at most n+m-1 times, sorted or not; unique of n >= 1 elements calls the predicate exactly n-1 times. This holds whatever the comparison answers.", "quantifier": "all reachable states, all list contents and lengths, all comparison functions (also inconsistent ones), both node types", "why_tests_cant": "A worst-case bound ranges over all inputs, all lengths and all behaviours of the comparison; a test only sees the counts of its own inputs.", "anchors": ["include/mstl/collection/linked_list.h: sort, merge_sort, merge, unique"]}
{"id": "C95", "title": "Exceptions thrown by the functions of a pipeline reach the caller", "statement": "When a function passed to map, filter, find, for_each, fold or reduce throws, the exception ends the operation and reaches the caller of the terminal operation, after exactly the effects of the calls made before it; elements behind the one it was thrown for are not touched. combine(...) and the same chain written with | behave alike.", "quantifier": "all pipelines of any depth, all sources and lists of elements, all functions, all places where an exception can be thrown", "why_tests_cant": "The place of the exception ranges over all stages and all elements of all inputs.", "anchors": ["include/mstl/iter/adapters/map.h: MapIter::next", "include/mstl/iter/adapters/filter.h: FilterIter::next", "include/mstl/iter/termnals/find.h: find", "include/mstl/iter/termnals/for_each.h: for_each", "include/mstl/iter/termnals/fold.h: fold", "include/mstl/iter/termnals/reduce.h: reduce", "include/mstl/iter/termnals/collect.h: collect", "include/mstl/iter/utility.h: combine"]}
{"id": "C96", "title": "An exception thrown by copying a Result's payload reaches the caller", "statement": "If copying the value or the error of a Result throws, while a Result is constructed from a value, an error or another Result, is assigned, or is asked for ok() or err(), then the exception reaches the caller, every Result keeps what it held, and every payload is destroyed exactly once.", "quantifier": "all histories of calls over any number of results, all payload types, all payloads whose copy throws", "why_tests_cant": "Which copy throws, and what the program does afterwards, ranges over all histories; a test makes one copy throw in one state.", "anchors": ["include/mstl/result/result.h: ResultBase(const T&), ResultBase(const E&), ResultBase(const ResultBase&), operator=(const ResultBase&), copy_impl, ok, err, ResultRef"]}
{"id": "C97", "title": "Every vector call does exactly the work its sizes call for", "statement": "The number of elements a call on a vector constructs in vector storage, the number it destroys there, and the number of memory blocks it asks for are determined by the sizes, capacities and allocators of the vectors involved and by the call's arguments: appending within the capacity constructs one element; growing moves every element once into one new block; insert shifts only the elements behind the position; erase, pop_back, clear and assignment destroy exactly the elements removed; moving, swapping and reading do nothing at all. So every call other than from_iter allocates at most once and constructs at most twice the elements the vector had plus the elements asked for.", "quantifier": "all element types, all reachable states of any number of vectors, all calls and all histories of calls", "why_tests_cant": "The count is exact for every size, capacity and history; a test counts the constructions of a few calls.", "anchors": ["include/mstl/collection/vector.h: Vector (constructors, reserve, push_back, pop_back, insert, emplace, erase, resize, assign, operator=, swap, clear, into_iter, from_iter)"]}
{"id": "C98", "title": "Collecting a pipeline over a container gives exactly the surviving elements, and touches nothing else", "statement": "For a vector or list c, `D d = c.iter() | map(f) | filter(p) | ... | collect<D>()` with D a vector or list (of the same or another element type) calls the functions on the elements of c from first to last, each element passing through all stages before the next one is read, and initialises d with exactly the survivors in order. c keeps its contents, and no other container of the program changes, although d grows while c is being read. If a function panics or does not return, so does the whole expression.", "quantifier": "all reachable states of any number of vectors and lists of two element types, all sources, all pipelines of any length with functions that have effects, all four kinds of result container", "why_tests_cant": "It concerns every content, every pipeline and every memory layout: growing the new container reallocates while the iterator of the other one points into the same heap.", "anchors": ["include/mstl/iter/termnals/collect.h: collect, CollectHolder", "include/mstl/collection/vector.h: Vector::iter, VectorIter::next, Vector::from_iter", "include/mstl/collection/linked_list.h: BaseList::iter, ListIter::next, BaseList::from_iter", "include/mstl/iter/adapters/map.h: MapIter", "include/mstl/iter/adapters/filter.h: FilterIter", "include/mstl/iter/utility.h: operator|"]}
{"id": "C99", "title": "Functions of a pipeline change the elements of the container in place", "statement": "The iterators of vectors and lists hand out references. In `c.iter() | filter(p) | ... | for_each(f)`, `fold`, `find`, or `| map(f) | ...` a predicate or function that takes its argument by reference changes exactly the element it is called with: it is called at most once per element, in order, each stage sees the changes of the stages before it, the changes stay in c at the same position, and size, capacity and every other container are as before. `find` answers a reference to the first element that satisfies the predicate and looks at no later one. The call itself never fails: it panics or does not return only if a function does.", "quantifier": "all reachable states of any number of vectors or lists, all contents, all chains of filters and maps of any length, all functions with arbitrary other effects and changes of the elements", "why_tests_cant": "It must hold for every content, chain and function, including functions that fail on some later element and predicates that change what they test.", "anchors": ["include/mstl/collection/vector.h: VectorIter::next, Vector::iter", "include/mstl/collection/linked_list.h: ListIter::next, BaseList::iter", "include/mstl/iter/adapters/filter.h: FilterIter::next", "include/mstl/iter/adapters/map.h: MapIter::next", "include/mstl/iter/termnals/for_each.h: for_each", "include/mstl/iter/termnals/fold.h: fold", "include/mstl/iter/termnals/find.h: find", "include/mstl/option/option.h: Option<T&>"]}
{"id": "C100", "title": "A pipeline that consumes a list takes every element exactly once", "statement": "`Container d = l.into_iter() | map(f) | filter(p) | ... | collect<Container>()`, or the same with `collect<Container>(...)` around it, calls the functions on the elements of l from first to last, at most once per stage and element, and d holds the survivors in order. Afterwards l is moved-from with its allocator unchanged, every other container is as before, and the iterator objects of the expression, each of which owns a list, are gone. The calls on containers are exactly: one move of l, per adapter one copy of the whole list, one more copy for `| collect`, the construction of d from the survivors, taking all elements from the last iterator object, destroying the iterator objects. A function that panics, does not return or is undefined makes the expression do the same. So with n elements and s copies of the list (one per adapter and one for `| collect`) the expression constructs n*s elements besides those of d and destroys n*s + n.", "quantifier": "all reachable states of any number of vectors and lists, all contents of l, all chains of adapters of any length, all functions with arbitrary effects and failures, vectors and lists of the same or of another element type as destination", "why_tests_cant": "It must hold for every content, chain and function and for every other container in memory, whose nodes lie between those that the iterator objects copy and release.", "anchors": ["include/mstl/collection/linked_list.h: BaseList::into_iter, ListIntoIter", "include/mstl/iter/utility.h: operator|", "include/mstl/iter/adapters/map.h: MapIter, MapHolder", "include/mstl/iter/adapters/filter.h: FilterIter, FilterHolder", "include/mstl/iter/termnals/collect.h: collect, CollectHolder"]}
{"id": "C101", "title": "The work of every list call is exactly determined", "statement": "How many elements a call on a list constructs, how many it destroys, and how many nodes it asks the allocator for depends only on the contents and the arguments, and is as small as the call's meaning allows: building a list of n elements constructs n elements and asks for n + 2 nodes, adding n elements constructs n and asks for n, removing n elements destroys n. `sort`, `merge`, `splice`, `reverse`, `swap` and move construction neither construct nor destroy an element nor ask for memory. `copy assignment` destroys the old elements and builds a new list. No call copies or moves elements that are already in a list, and each call is linear in the number of elements it is asked to add or finds.", "quantifier": "all histories of list calls on any number of lists, all contents and arguments, all element types, comparison functions and predicates", "why_tests_cant": "The counts must be right for every content and after every history; a needless copy on one branch of one call is invisible in the results.", "anchors": ["include/mstl/collection/linked_list.h: BaseList, ListNode"]}
{"id": "C102", "title": "Options that carry elements through pipelines leak nothing", "statement": "The Option objects that next() returns, that adapters keep and that terminals refill are always valid: no empty or dead option is unwrapped, none is used after its lifetime, and every element constructed in one is destroyed exactly once. After a terminal all of them are gone, except the one that holds the result, and results, effects, panics and non-termination are those of handing the elements over as plain values.", "quantifier": "every source (also infinite or panicking ones), every pipeline of map and filter stages of any depth with arbitrary effectful functions, every terminal (fold, for_each, collect, reduce, find, last) and next() itself, every move constructor, every population of other option objects", "why_tests_cant": "The number and nesting of option objects follows the pipeline and the elements; tests see one pipeline and cannot see every double destruction or leak.", "anchors": ["include/mstl/iter/adapters/map.h: MapIter::next", "include/mstl/iter/adapters/filter.h: FilterIter::next", "include/mstl/iter/termnals/find.h: find", "include/mstl/iter/termnals/fold.h: fold", "include/mstl/iter/termnals/for_each.h: for_each", "include/mstl/iter/termnals/reduce.h: reduce", "include/mstl/iter/termnals/last.h: last", "include/mstl/option/option.h: Option"]}
{"id": "C103", "title": "Terminals over an owning vector iterator take every element exactly once", "statement": "fold(v.into_iter(), init, f), fold(v.into_iter_reversed(), init, f), v.into_iter() | fold(init, f), the same for for_each, and collect<Vector>(v.into_iter()) hand every element of v, in order (or in reverse), exactly once to the function or to the new vector, whatever the function does and also if it calls vectors itself; v is left empty, all other vectors and iterators are untouched, nothing undefined happens and nothing leaks. find(it, p) and last(it) for an iterator variable leave exactly the elements behind the match, or none. If the function panics or does not return, so does the call.", "quantifier": "all histories of vectors and owning iterators before the call, all contents, all element types, all client functions with their own state, results and further calls on vectors (also on v), both directions, all ways to write the call", "why_tests_cant": "The iterator object is moved through parameters while its buffer is half consumed; a double destruction or leak shows only for particular contents, functions or histories.", "anchors": ["include/mstl/collection/vector.h: Vector::into_iter, Vector::into_iter_reversed, VectorIntoIter, VectorIntoIterReversed, Vector::from_iter", "include/mstl/iter/termnals/fold.h: fold", "include/mstl/iter/termnals/for_each.h: for_each", "include/mstl/iter/termnals/collect.h: collect", "include/mstl/iter/termnals/find.h: find", "include/mstl/iter/termnals/last.h: last"]}
{"id": "C104", "title": "Terminals over a pipeline that consumes a list take every element exactly once", "statement": "fold(l.into_iter() | map(f) | filter(p) | ..., init, g), l.into_iter() | ... | fold(init, g), the same for for_each and reduce, and l.into_iter() | ... | find(q) give the result, and have the effects on the client's state, of the functions applied to the elements of l one by one from first to last; find stops at the match, reduce uses the first survivor as the initial value and gives nothing if there is none. l is moved-from afterwards and keeps its allocator, every other list is untouched, nothing undefined happens, every element constructed on the way is destroyed again and no iterator object is left. The functions may call lists themselves, also l. If a function panics or does not return, so does the expression; if memory is refused, no client function has run (except for reduce). find(it, q) and last(it) for an iterator variable leave exactly the elements behind the match, or none.", "quantifier": "all histories of lists before the call, singly and doubly linked, all contents and allocators, all pipelines of maps and filters of any length, all client functions with their own state and results, all memory resources that may refuse requests, both ways to write the call", "why_tests_cant": "The list is moved and copied through one parameter and member per adapter while client code runs in between; a leak, a double destruction or a lost element shows only for particular pipelines, contents, functions or refusals.", "anchors": ["include/mstl/collection/linked_list.h: BasicLinkedList::into_iter, ListIntoIter", "include/mstl/iter/adapters/map.h: MapIter", "include/mstl/iter/adapters/filter.h: FilterIter", "include/mstl/iter/termnals/fold.h: fold", "include/mstl/iter/termnals/for_each.h: for_each", "include/mstl/iter/termnals/reduce.h: reduce", "include/mstl/iter/termnals/find.h: find", "include/mstl/iter/termnals/last.h: last", "include/mstl/iter/utility.h: operator|"]}
{"id": "C105", "title": "Vector iterators stay valid until their storage is replaced, and follow it", "statement": "An iterator kept across calls goes on designating its position: through appending, inserting, erasing, assigning and resizing that fit the capacity it reads and writes whatever element is at that position now; when the vector's contents are swapped or moved to another vector it designates the position there; insert and erase accept it and return the iterator to the inserted element or to the element after the erased ones; two valid iterators into the same vector have the distance, order and equality of their positions. Only a call that needs more room than the capacity, or clears, drains, destroys or overwrites the vector's storage, makes it invalid; it is then invalid for ever, and using it never silently reaches another element.", "quantifier": "all programs that interleave calls on any number of vectors with taking, copying, moving, reading, writing and comparing any number of iterators, all element types and contents", "why_tests_cant": "Whether an iterator survives depends on sizes, capacities and allocators after an unbounded history; a test of an invalid iterator is undefined behaviour and may pass by luck.", "anchors": ["include/mstl/collection/vector.h: VectorIter, Vector::begin, Vector::end, Vector::insert, Vector::erase, Vector::swap, Vector::allocate_reserve"]}
{"id": "C106", "title": "Character iterators of strings stay valid until the bytes of the string move", "statement": "An iterator from chars() kept across calls goes on through the current bytes of its string, one whole character of the encoding at a time, up to the length the string had when the iterator was taken; this holds through appending, inserting, removing and assigning as long as the string has room (16 bytes inside the string, then its buffer), and copies of an iterator are independent. When a string of more than 16 bytes is moved to another one its iterators go along. Only a call that needs more room, moves a short string, or destroys or overwrites the bytes makes an iterator invalid; next() on it is then undefined unless it had reached its end, in which case it goes on saying so.", "quantifier": "all programs that interleave calls on any number of strings with taking, copying and advancing any number of chars() iterators, all contents, both encodings, all memory resources that may refuse requests", "why_tests_cant": "Whether an iterator survives depends on lengths, room and where the bytes are stored after an unbounded history; a test of an invalid iterator is undefined behaviour and may pass by luck.", "anchors": ["include/mstl/str/basic_string.h: BasicString::chars, BasicString::push_back, BasicString::insert, BasicString::remove, BasicString::operator=", "include/mstl/str/basic_string.h: Chars::next", "include/mstl/str/encoding/utf8.h: UTF8::next", "include/mstl/str/encoding/ascii.h: Ascii::next"]}
{"id": "C107", "title": "The allocator inside a container lives as long as the container and is destroyed once", "statement": "A container holds an allocator object of the client's type. Whatever a program does with its containers (construct, copy, move, assign, swap, turn into an owning iterator, destroy), the library uses an allocator only while it is alive, every existing container has a live allocator, and the destructor of every allocator the library has constructed runs exactly once, when its container is destroyed. Found to fail for lists (assigning one list to another destroys the allocator of the target and goes on using it; it is destroyed again with the list) and for strings (the destructor of a string destroys its allocator twice).", "quantifier": "all programs: all sequences of calls on any number of vectors and owning vector iterators, of lists, of strings, with any allocator type", "why_tests_cant": "The default allocator is an empty class whose destructor does nothing, so that destroying it twice or using it afterwards has no visible effect; only an allocator that owns something shows it, and only for some sequences of calls. Exactly-once is a claim about all of them.", "anchors": ["include/mstl/collection/vector.h: Vector (alloc, move_impl, swap, ~Vector)", "include/mstl/collection/vector.h: VectorIntoIter", "include/mstl/collection/linked_list.h: BaseList::operator=, ~BaseList, swap", "include/mstl/str/basic_string.h: BasicString::Allocate", "include/mstl/memory/allocators/allocator_concept.h: Allocator"]}
{"id": "C108", "title": "Moving an element out of a vector takes that element's value and disturbs nothing else", "statement": "A client may move any element out of any of its vectors: into a value of its own, over another element, or as the rvalue argument of push_back, emplace_back, insert or emplace of the same or another vector. The destination gets the value the element had, the element moved from stays in its place with its moved-from value, no other element of any vector changes, positions and sizes are as if the value had been given directly, and every element is still destroyed exactly once. Found to fail for push_back and emplace_back of an own element onto a full vector (the element is moved from after its storage was released), and for insertion at begin() (as for any other value).", "quantifier": "all programs: all sequences of the modelled calls on any number of vectors, with elements moved out between and in them; all element types (any size, any value left behind by a move); all allocators", "why_tests_cant": "Whether the source and the destination overlap, whether the vector is full and what happened before are up to the client; a test sees single cases, and reads of released memory often still give the old value.", "anchors": ["include/mstl/collection/vector.h: push_back(T&&), emplace_back, insert(Iter, T&&), emplace, operator[], extend_space"]}
{"id": "C109", "title": "Moving an element out of a list takes that element's value and disturbs nothing else", "statement": "A client may move any element out of any of its lists: into a value of its own, over another element, or as the rvalue argument of push_front, push_back, insert_after, insert or their emplace forms of the same or another list. The destination gets the value the element had, the element moved from stays in its place with its moved-from value, no other element of any list changes, the returned positions and sizes are as if the value had been given directly, and every element is still destroyed exactly once. An element of the list itself may always be given.", "quantifier": "all programs: all sequences of the modelled calls on any number of Lists or ForwardLists, with elements moved out between and in them; all element types and allocators", "why_tests_cant": "Source, destination and position, whether they are in the same list, and what happened before are up to the client.", "anchors": ["include/mstl/collection/linked_list.h: push_front(T&&), push_back(T&&), insert_after(const_iterator, T&&), insert(const_iterator, T&&), emplace, emplace_after, emplace_front, emplace_back, ListIterSTL::operator*"]}
{"id": "C110", "title": "A slice over a vector shows and changes the vector as it is now, until its storage is replaced", "statement": "A client may take slices of a vector's storage, copy them, make iterators of them, and keep slices and iterators while calling the vectors. As long as the storage is neither replaced nor released, an iterator gives, from the front and from the back, each position of its stretch once, showing the element the vector holds there at that moment; assigning through it is assigning to the vector; and slice and iterator follow the storage when it is swapped or moved to another vector. A slice consumed by into_iter is empty. Using an iterator is undefined exactly if the position is beyond the vector's size or the storage is gone; making one is undefined if the slice is longer than the storage. It never shows another element.", "quantifier": "all programs: all sequences of calls on any number of vectors, slices and iterators over slices; all offsets and lengths; all element types and allocators", "why_tests_cant": "Which calls come between taking a slice and using it is up to the client, and a stale slice often still shows the old bytes in a test.", "anchors": ["include/mstl/slice.h: Slice::from_raw, Slice::iter, Slice::into_iter, SliceRefIter::next, prev, last, len, is_empty", "include/mstl/collection/vector.h: Vector::data"]}
{"id": "C111", "title": "Threads that use different containers do not affect each other, whatever the schedule", "statement": "After some set-up, several threads call vectors, lists or strings. Every container belongs to one thread, or to nobody, in which case the threads only look at it (const calls, copying from it, passing its elements by const reference). Then in every order in which the calls can take place, every thread gets exactly the answers it would get if it ran alone, its containers end up as they would alone, containers that are nobody's are unchanged, and nothing undefined happens. So no state is shared behind the client's back between different containers, or between a container and its copies or moved-to containers, and looking changes nothing.", "quantifier": "all set-up programs, all numbers of threads, all programs of the threads, all interleavings of their calls (a call takes place as a whole), all element types and allocators", "why_tests_cant": "The number of schedules is unbounded and the scheduler picks few of them; interference shows only under some.", "anchors": ["include/mstl/collection/vector.h: Vector", "include/mstl/collection/linked_list.h: List, ForwardList", "include/mstl/str/basic_string.h: BasicString"]}
{"id": "C112", "title": "An exception thrown by moving a payload damages no Option or Result", "statement": "If moving a payload throws, then: an Option or Result is not constructed from the value and the exception reaches the caller; unwrap() and unwrap_err() hand the exception to the caller and the Option or Result still holds what the failed move left of the payload, so that it can be read, overwritten, unwrapped again and destroyed; moving a whole Option or Result by construction or assignment, which is declared not to throw, ends the program at once. All other Options and Results are as they were, nothing undefined happens, and every payload is destroyed exactly once. This also holds when copies of payloads throw in the same program.", "quantifier": "all histories of calls over any number of options and results, all payload types, all payloads whose move or copy throws, all values a failed move leaves behind", "why_tests_cant": "Which move throws, and what the program does afterwards, ranges over all histories; a test makes one move throw in one state.", "anchors": ["include/mstl/option/option.h: Option::some, emplace, unwrap, unwrap_unchecked, Option(Option&&), operator=(Option&&)", "include/mstl/result/result.h: ResultBase(T&&), ResultBase(E&&), ResultBase(ResultBase&&), operator=(ResultBase&&), unwrap, unwrap_err, move_impl"]}
{"id": "C113", "title": "Iterators and slices over arrays show the array as it is until it is destroyed", "statement": "A program may keep reference iterators (iter()), slices made from begin() and a length, and iterators over those slices while it goes on using the arrays. Each of them always covers the same positions of the same array: what next(), prev() and last() give is what the array holds there at that moment, whatever has been assigned to the array, moved out of it or consumed from it since, and assigning through a slice assigns the array's element. len() and is_empty() count the positions still to come, and no call on arrays other than destroying the array changes that. Asking for an element is undefined exactly if it was never given a value, making an iterator of a slice is undefined exactly if the slice is longer than the array, and every use is undefined once the array is destroyed, even if another array is made in its place.", "quantifier": "all programs over any number of arrays of any lengths, owning iterators, reference iterators, slices and iterators over slices, all element types", "why_tests_cant": "The view is used after an arbitrary sequence of other calls on the array and on other arrays; tests try a few sequences, and a view of a destroyed array often seems to work.", "anchors": ["include/mstl/collection/array.h: ArrayIterRef, Array::iter, Array::begin, Array::end, Array::operator=, Array::into_iter", "include/mstl/slice.h: Slice::from_raw, Slice::iter, Slice::into_iter, SliceRefIter"]}
{"id": "C114", "title": "An exception thrown by moving an element reaches the caller and costs a vector nothing", "statement": "If moving an element throws during a call on a vector, the exception reaches the caller; afterwards all vectors can be read, changed and destroyed, every position a vector counts holds an element, and no element and no memory is lost. The vector the call was working on then holds, exactly: after a failed erase, the old number of elements, those up to the one that could not be moved shifted, the rest in place; after a failed insertion or append, what it held before; after a failed drain, nothing; a failed collection leaves no vector. All other vectors are as they were.", "quantifier": "all histories of calls over any number of vectors, in which exceptions are caught and the vectors used further; all element types; all sets of values whose move throws; all positions of such values", "why_tests_cant": "Which element cannot be moved, where it is, whether the vector has to grow and what the program does afterwards range over all histories; a test makes one move throw in one state.", "anchors": ["include/mstl/collection/vector.h: allocate_reserve, extend_space, reserve, push_back, emplace, insert, move_elements_back, erase, resize, operator=(const Vector&), from_iter, VectorIntoIter::next"]}
{"id": "C115", "title": "A program that catches the exceptions of element constructors goes on with the lists it had", "statement": "If constructing an element throws during a call on a list, the exception reaches the caller, who can catch it and go on; all lists are as they were before the call, can be used and destroyed, and no element and no memory is lost. For each call and each construction that throws it is known whether the exception is survived, which lists the program then has, and what is lost; once all lists of a program that survived its exceptions are destroyed, exactly the sum of these losses is missing.", "quantifier": "all programs of calls over any number of lists in which exceptions are caught and the lists used further; both list types; all element types; all calls; all numbers m of the construction that throws", "why_tests_cant": "Which call throws, at which of its constructions, in which state and what the program does afterwards range over all histories; a test makes one constructor throw once.", "anchors": ["include/mstl/collection/linked_list.h: construct_node, copy_impl, BaseList constructors, operator=, insert_after, insert, emplace_after, emplace, push_front, push_back, resize, from_iter"]}
{"id": "C116", "title": "An exception thrown by copying or moving an element leaves arrays and owning array iterators as they were", "statement": "If copying or moving an element throws during a call on an array or on an owning array iterator, the exception reaches the caller, who can catch it and go on; every array has the elements it had and every iterator still hands out what it would have handed out. For each call and each copy or move that throws in it it is known whether the exception reaches the caller and what the arrays hold and the iterators hand out afterwards.", "quantifier": "all programs of calls over any number of arrays and owning iterators in which exceptions are caught and the arrays used further; all element types and lengths; for each call all choices of the copy or move of an element that throws", "why_tests_cant": "Which call throws, at which of its copies and moves, in which state and what the program does afterwards range over all histories; a test makes one element throw once.", "anchors": ["include/mstl/collection/array.h: Array constructors, operator=, into_iter, operator[], ArrayIter constructors, operator=, next", "include/mstl/option/option.h: Option::map, Option::some"]}
{"id": "C117", "title": "Programs over tuples: independence, and what a throwing component does", "statement": "In every program over variables and tuples (construction, make_tuple, make_pair, copy, move, assignment, self-assignment, tie, get, first, second, ==, for_each) every call gives the documented answer and writes only the tuples and variables it is documented to write; an exception thrown by copying or moving a component, or by the function given to for_each, reaches the caller, and a call that throws has changed nothing. For each call and each copy or move that throws in it it is known whether the exception reaches the caller and what variables and tuples hold afterwards.", "quantifier": "all programs of calls over any number of variables and tuples of all lengths, in which exceptions are caught and the tuples used further; all component values; for each call all choices of the copy, move or function call that throws", "why_tests_cant": "The history, the lengths, the aliasing of arguments (the same variable copied and moved in one call) and the place of the exception range over infinitely many cases.", "anchors": ["include/mstl/utility/tuple.h: Tuple constructors, operator=, operator==, get, first, second, for_each, make_tuple, make_pair, tie"]}
{"id": "C118", "title": "Match chains that are kept: results, exceptions, copies and the lifetime of the target", "statement": "In every program that keeps matches and match chains in variables and adds branches in any order: a chain's result is that of the first branch that fits the target's value at that moment and whose function returns; once a chain has a result nothing more is compared or evaluated and finale() returns that result, however often it is called and whatever else the program does; a branch function or comparison that throws passes its exception on and decides nothing; copies are independent, and a chain can be used as long as it exists.", "quantifier": "all programs over any number of variables, matches and chains (when with values and ranges, rest, finale, copy, move, changes and end of the targets); all target types and operators, result types and branch functions, which may have effects and may throw", "why_tests_cant": "The order of the calls, the operators, the functions' effects and the points at which comparisons or functions throw range over infinitely many cases.", "anchors": ["include/mstl/utility/match.h: Match::when, MatchMid::when, rest, finale, match", "include/mstl/option/option.h: Option::unwrap, copy and move constructors"]}
{"id": "C119", "title": "Ranges over any index type hand out what lies between their bounds", "statement": "For every index type a Range accepts - floating point numbers, iterators, classes with their own operators - a loop over next(), and a for loop, hand out low and its increments up to the first one equal to high, in order and once each, and end there; what is handed out is what contains() accepts, and is_empty() holds exactly if nothing is handed out; prev() hands out what lies before high.", "quantifier": "all index types and all behaviours of their operators (also orders that are not linear, increments that leave values out, that stay where they are or that are undefined); all bounds", "why_tests_cant": "The index types, their operators and the bounds range over infinitely many cases, and that a loop never ends cannot be observed.", "anchors": ["include/mstl/ops/range.h: Range::next, prev, contains, is_empty, begin, end, RangeCursor"]}
{"id": "C120", "title": "A range of a list given to a list stands for the elements that lie in it", "statement": "Constructing a List or ForwardList from two iterators of a list, and inserting such a range into a list, does exactly what the same call does with copies of the elements that lie in the range when the call is made - also when the range is a part of the list that is inserted into - and the call returns.", "quantifier": "all reachable states of any number of lists, all ranges and positions, all element types, all allocators (also refusing ones); all programs of such calls and those of C16 and C17", "why_tests_cant": "The contents, positions and ranges range over infinitely many cases, and that a call never returns cannot be observed.", "anchors": ["include/mstl/collection/linked_list.h: BaseList(first, last, allocator), insert_after(pos, first, last), insert(pos, first, last)"]}
{"id": "C121", "title": "A range of a vector given to a vector stands for the elements that lie in it", "statement": "Constructing a Vector from two iterators of a vector, and inserting such a range into a vector, does exactly what the same call does with copies of the elements that lie in the range when the call is made, also when the range is a part of the vector that is inserted into.", "quantifier": "all reachable states of any number of vectors, all ranges, insertion points, sizes and capacities, all element types, all allocators (also refusing ones); all programs of such calls and those of C01", "why_tests_cant": "The outcome depends on contents, capacity and the relative position of range and insertion point, infinitely many cases; reading released memory or a place without an element often goes unnoticed in a test.", "anchors": ["include/mstl/collection/vector.h: Vector(first, last, alloc), insert(pos, first, last), move_elements_back, allocate_reserve"]}
{"id": "C122", "title": "Vectors, linked lists and options of vectors, linked lists, options or strings, to any depth, behave as nested lists and leak nothing at any level", "statement": "A program over vectors, linked lists or options whose elements are vectors, linked lists, options or strings (or vectors of vectors, lists of options of vectors of lists, and so on) gives the same results as the same program over nested lists: copies are deep and independent, copy assignment makes the contents equal at every depth, growing, erasing, resizing, assigning and moving keep the elements with all they hold, a call on an element at any depth changes that element alone. When all vectors are empty, every element was destroyed and has returned its memory. When all objects are destroyed, every element was destroyed once and every byte returned, at every level.", "quantifier": "all depths of nesting, vectors of values, doubly and singly linked lists and ASCII and UTF-8 strings at the bottom, all programs over any number of nested vectors and lists, all element values, sizes and allocators (also refusing ones) of every level", "why_tests_cant": "The depth is unbounded, and every member of a vector calls members of its elements which allocate, move and release memory themselves; tests cover one or two depths and a few interleavings.", "anchors": ["include/mstl/collection/vector.h: Vector, copy_impl, operator=, allocate_reserve, push_back, pop_back, erase, resize, assign, clear, destroy_all", "include/mstl/collection/linked_list.h: BaseList (as element type), copy_impl, operator=, clear", "include/mstl/str/basic_string.h: BasicString (as element type)", "include/mstl/option/option.h: Option (as element type)"]}
{"id": "C123", "title": "Strings in vectors survive erasing and assigning", "statement": "Erasing a string from a vector of strings removes exactly that string: the strings before it, the strings behind it, in order and byte for byte, and all other vectors are as before, whatever the program does next. Assigning one vector of strings to another makes their strings equal and independent of each other. Neither is undefined, whatever the lengths of the strings.", "quantifier": "all programs over any number of vectors of ASCII or UTF-8 strings, all strings of all lengths, all positions, all allocators (also refusing ones) of vectors and strings", "why_tests_cant": "Whether it works depends on the lengths of all the strings behind the position, or at common indices, relative to the size of the buffer inside a string object; there are unboundedly many strings, lengths and histories that led to the capacities and allocations at hand.", "anchors": ["include/mstl/collection/vector.h: Vector, erase, operator=", "include/mstl/str/basic_string.h: BasicString, operator="]}
{"id": "C124", "title": "Linked lists of vectors, strings and linked lists keep, hand over and end their elements", "statement": "A program over doubly or singly linked lists whose elements are vectors, strings or linked lists, to any depth, gives the same results as the same program over lists of the elements' values. Inserting an element leaves the others as they are; erasing removes exactly the erased elements, whatever they hold; appending a copy of an element of the same list works; copies are deep and independent; a moved list hands over all elements. An element is destroyed, and its memory returned, when it is removed: once all lists are empty or moved from, no element is left, and once all lists are destroyed, no node and no byte.", "quantifier": "all programs over any number of doubly or singly linked lists of objects of any depth of nesting, all element values, positions, ranges and counts, all allocators (also refusing ones) of every level", "why_tests_cant": "Every member of a list calls constructors, assignments and the destructor of its elements, which allocate and release memory themselves, to any depth; which nodes and elements are alive depends on the whole history.", "anchors": ["include/mstl/collection/linked_list.h: BaseList, List, ForwardList, copy_impl, operator=, push_front, push_back, insert_after, insert, erase_after, erase, resize, clear", "include/mstl/collection/vector.h: Vector (as element type)", "include/mstl/str/basic_string.h: BasicString (as element type)"]}
{"id": "C125", "title": "Options of vectors, strings and linked lists hand over and end what they hold", "statement": "A program over options whose objects own memory (vectors, strings, linked lists, options, to any depth) gives the same results as the same program over optional values: copies are deep and independent, unwrap() hands over the object and leaves the option empty, unwrap() and as_ref() on an empty option panic and nothing else does, moving from an option leaves it empty. The object ends, and its memory is returned, when the option becomes empty or ends; nothing is destroyed twice and nothing leaks.", "quantifier": "all programs over any number of options of objects of any depth of nesting, also inside vectors and lists, all values, all allocators (also refusing ones) of every level", "why_tests_cant": "The object lives in a union and is constructed and destroyed by hand in every constructor, assignment and unwrap, in each of the four combinations of full and empty; whether each is matched depends on the whole history, and the objects allocate and release memory themselves to any depth.", "anchors": ["include/mstl/option/option.h: Option, some, none, emplace, unwrap, as_ref, map, operator=, reset, ~Option", "include/mstl/collection/vector.h: Vector (as object and as container of options)", "include/mstl/str/basic_string.h: BasicString (as object)"]}
{"id": "C126", "title": "Results of vectors, strings and linked lists take the kind of what is assigned and end what they hold", "statement": "A program over results whose values own memory (vectors, strings, linked lists, options, results, to any depth) gives the same results as the same program over values and errors: copies are deep and independent, assignment takes the value or the error of the source, unwrap() refers to the value in place, ok() gives a copy, constructing from unwrap() leaves the result ok with a moved-from value, accessors of the other kind panic. The object ends, and its memory is returned, when the result becomes an error or ends; nothing is destroyed twice and nothing leaks.", "quantifier": "all programs over any number of results of objects of any depth of nesting, also inside vectors, lists, options and results, all values and errors, all allocators (also refusing ones) of every level", "why_tests_cant": "The value and the error share a union and are constructed and destroyed by hand in every constructor and assignment; whether the tag and the living member agree depends on the whole history, and the objects allocate and release memory themselves to any depth.", "anchors": ["include/mstl/result/result.h: ResultBase, operator=, unwrap, ok, err, copy_impl, move_impl, ~ResultBase", "include/mstl/collection/vector.h: Vector (as value and as container of results)", "include/mstl/option/option.h: Option (returned by ok and err)"]}
{"id": "C127", "title": "Comparing vectors of vectors, and results of vectors, compares what is in them, at every depth", "statement": "== between two nested vectors, or results of them, answers true exactly if the nested lists of values, and the errors, in them are equal, whatever their capacities, allocators and histories; a copy, and the target of an assignment, is == to its source. <=> between nested vectors is the lexicographic order at every depth: its answer is 'equal' exactly for equal nested lists, it is antisymmetric, total if the values at the bottom are, and transitive. Comparing changes nothing, also if both operands are the same object.", "quantifier": "all programs that lead to the two objects, all depths of nesting of vectors and results (for <=>: vectors), all lengths, all value types with == or <=>", "why_tests_cant": "The operators of the elements are called at addresses which depend on every earlier growth, copy and move of every level; order laws range over all pairs and triples of nested lists of any depth and length.", "anchors": ["include/mstl/collection/vector.h: operator==, operator<=>", "include/mstl/result/result.h: ResultBase::operator=="]}
{"id": "C128", "title": "Printing vectors and linked lists of vectors and linked lists writes every level", "statement": "os << a for a vector or linked list whose elements are vectors or linked lists, to any depth, writes the name of the container and the elements in order, in brackets, separated by ', ', each element being written in the same way; nothing changes. Copies and targets of assignments are written like their source.", "quantifier": "all programs that lead to the object, all depths of nesting and mixtures of vectors, lists and forward lists, all lengths, whatever is written for the values at the bottom", "why_tests_cant": "Whether the separator is written depends on the index and the length at every level, and the elements are read at addresses which depend on the history of the object; the claim is for every depth and every history.", "anchors": ["include/mstl/collection/vector.h: operator<<", "include/mstl/collection/linked_list.h: operator<<"]}
{"id": "C129", "title": "remove_if and unique on linked lists of objects remove exactly the elements asked for, and end them", "statement": "x.remove_if(p) on a list whose elements own memory (vectors, results, options, lists of each other), with a predicate that asks the element a question and does not change it, removes exactly the elements for which p holds, keeps the others in order and returns how many were removed. x.unique() leaves the first of every run of neighbours with equal contents, whatever their capacities and allocators. The removed elements end at once and return all their memory; the list and the other objects go on working, and everything is returned when all objects end. On a list that was moved from, both abort with assertions and otherwise return 0.", "quantifier": "all programs before and after the call, all depths of nesting, all lengths, all positions of the removed elements, all predicates with an answer for the elements", "why_tests_cant": "The loops unlink and destroy nodes while they go on reading the neighbours; whether a destroyed element is read again, or memory of an element at some depth is lost, depends on which elements are removed, in every combination and after every history.", "anchors": ["include/mstl/collection/linked_list.h: remove_if, unique"]}
{"id": "C130", "title": "Sorting a linked list of vectors, to any depth, orders the same elements lexicographically", "statement": "x.sort() on a linked list whose elements are vectors, or vectors of vectors, to any depth, leaves the same elements, with their contents, capacities and allocators, in lexicographic order. It ends for every comparison of the values at the bottom, also an inconsistent one, and then leaves the same elements in some order. The list and all objects go on working, and everything is returned when they end.", "quantifier": "all programs before and after the call, all depths of nesting, all lengths, all contents, all orders of the values", "why_tests_cant": "The sort splits and relinks chains of nodes in an order that depends on the answers of the nested comparisons; that no element is lost or read after it was cut off must hold for all lists of all lengths and for all comparison functions.", "anchors": ["include/mstl/collection/linked_list.h: sort, _private::mergeSort, _private::merge", "include/mstl/collection/vector.h: operator<=>"]}
{"id": "C131", "title": "Swapping, splicing and merging linked lists of vectors, results and lists moves the elements as they are", "statement": "For linked lists whose elements own memory, to any depth: x.swap(y) exchanges the two lists; x.splice(pos, y) and x.splice_after(pos, y) put all elements of y in order in front of or behind pos and leave y empty, or moved from when it is passed by std::move; x.merge(y) of two sorted lists leaves x with the elements of both in order and y empty, and x.merge(x) changes nothing. The elements keep their contents, capacities and allocators, are neither copied nor ended, and everything goes on working and is returned when the objects end.", "quantifier": "all programs before and after the call, all element types built from vectors, strings, lists, options and results to any depth, all lengths, contents and positions, singly and doubly linked lists", "why_tests_cant": "The members relink nodes of two lists that own objects; that no element is lost, ended twice or left behind must hold for all lengths, positions and element types, and for every program that uses the lists afterwards.", "anchors": ["include/mstl/collection/linked_list.h: swap, splice, splice_after, merge, _private::merge"]}
{"id": "C132", "title": "Arrays of vectors and lists hold N objects of their own; every element ends exactly once", "statement": "For Array<T, N> whose elements own memory, to any depth: any program of construction (default, from a list, from a C array), copy, move, assignment, self-assignment, a[k] and destruction gives the results of the same program over N values; copies share nothing with the original; a == b answers whether the elements are equal at every depth; an index of N or more and a list of more than N elements abort; when all arrays are destroyed, every element has ended once and all memory is returned. The same holds for arrays of arrays and for vectors of arrays.", "quantifier": "all programs, all N, all element types built from vectors and linked lists of vectors, strings, lists, options and results to any depth", "why_tests_cant": "Elements are constructed, assigned and destroyed in place in loops, with temporaries in between; that each object ends exactly once and none is shared must hold for every N, depth and interleaving of calls.", "anchors": ["include/mstl/collection/array.h: Array, operator[], operator=, operator=="]}
