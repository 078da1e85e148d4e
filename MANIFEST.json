{
 "claims": [
  {
   "property": "C01",
   "status": "partial",
   "theorems": [
    "Verif.Props.C01_vector_history_partial",
    "Verif.Props.C01_vector_history_continued_partial",
    "Verif.Props.C01_vector_history_fails"
   ],
   "note": "Proved for all histories except the calls marked `only` in Spec/Vector.lean; those are refuted (C06, C07, C10, C14, C15 _fails)."
  },
  {
   "property": "C02",
   "status": "partial",
   "theorems": [
    "Verif.Props.C02_vector_memory_partial",
    "Verif.Props.C02_nothing_outstanding_partial",
    "Verif.Props.C02_misuse_detected",
    "Verif.Props.C02_vector_memory_fails"
   ],
   "note": "Restricted histories; inserting into an empty vector leaks (refuted)."
  },
  {
   "property": "C03",
   "status": "partial",
   "theorems": [
    "Verif.Props.C03_size_le_capacity_partial",
    "Verif.Props.C03_reserve_partial",
    "Verif.Props.C03_push_keeps_block",
    "Verif.Props.C03_push",
    "Verif.Props.C03_capacity_kept"
   ],
   "note": "Missing: reserve with n*sizeof(T) >= 2^64 (C15_explicit_request_fails)."
  },
  {
   "property": "C04",
   "status": "proved",
   "theorems": [
    "Verif.Props.C04_append_amortised"
   ],
   "note": "At most 3n constructions and log2(2n) allocations from any reachable vector without elements."
  },
  {
   "property": "C05",
   "status": "proved",
   "theorems": [
    "Verif.Props.C05_checked_access",
    "Verif.Props.C05_size"
   ],
   "note": ""
  },
  {
   "property": "C06",
   "status": "partial",
   "theorems": [
    "Verif.Props.C06_insert_partial",
    "Verif.Props.C06_insert_count_partial",
    "Verif.Props.C06_insert_range_partial",
    "Verif.Props.C06_insert_begin_fails",
    "Verif.Props.C06_insert_empty_fails",
    "Verif.Props.C06_insert_none_fails",
    "Verif.Props.C06_insert_nothing_fails",
    "Verif.Props.C06_insert_many_begin_fails"
   ],
   "note": "Holds after at least one element; at begin(), on empty vectors and for count 0 the code is wrong (refuted)."
  },
  {
   "property": "C07",
   "status": "partial",
   "theorems": [
    "Verif.Props.C07_erase",
    "Verif.Props.C07_erase_range_partial",
    "Verif.Props.C07_erase_empty_range_fails"
   ],
   "note": "Empty range before the end is undefined (refuted)."
  },
  {
   "property": "C08",
   "status": "proved",
   "theorems": [
    "Verif.Props.C08_copy_construct",
    "Verif.Props.C08_copy_assign",
    "Verif.Props.C08_self_assign",
    "Verif.Props.C08_independent"
   ],
   "note": ""
  },
  {
   "property": "C09",
   "status": "proved",
   "theorems": [
    "Verif.Props.C09_move_construct",
    "Verif.Props.C09_move_assign",
    "Verif.Props.C09_swap",
    "Verif.Props.C08_self_assign"
   ],
   "note": ""
  },
  {
   "property": "C10",
   "status": "partial",
   "theorems": [
    "Verif.Props.C10_assign_list_partial",
    "Verif.Props.C10_assign_count_partial",
    "Verif.Props.C10_construct_partial",
    "Verif.Props.C10_list_assign_fails",
    "Verif.Props.C10_list_assign_general_fails"
   ],
   "note": "operator=(initializer_list) refuted; byte counts >= 2^64 excluded."
  },
  {
   "property": "C11",
   "status": "proved",
   "theorems": [
    "Verif.Props.C11_equal",
    "Verif.Props.C11_equal_pointwise",
    "Verif.Props.C11_compare",
    "Verif.Props.C11_total_order"
   ],
   "note": ""
  },
  {
   "property": "C12",
   "status": "proved",
   "theorems": [
    "Verif.Props.C12_iter",
    "Verif.Props.C12_into_iter",
    "Verif.Props.C12_into_iter_reversed"
   ],
   "note": ""
  },
  {
   "property": "C13",
   "status": "partial",
   "theorems": [
    "Verif.Props.C13_resize_partial"
   ],
   "note": "Excludes byte counts >= 2^64 (C15) and arguments inside the vector when it grows beyond its capacity (C14)."
  },
  {
   "property": "C14",
   "status": "partial",
   "theorems": [
    "Verif.Props.C14_alias_partial",
    "Verif.Props.C14_alias_fails"
   ],
   "note": "Refuted wherever the element is read after destruction or reallocation."
  },
  {
   "property": "C15",
   "status": "partial",
   "theorems": [
    "Verif.Props.C15_automatic_growth_partial",
    "Verif.Props.C15_explicit_request_partial",
    "Verif.Props.C15_constructor_partial",
    "Verif.Props.C15_explicit_request_fails",
    "Verif.Props.C15_explicit_request_exact"
   ],
   "note": "Automatic growth proved. Explicit requests: proved for every count whose number of bytes fits in a word, refuted for every other count on every reachable vector (C15_explicit_request_exact)."
  },
  {
   "property": "C16",
   "status": "partial",
   "theorems": [
    "Verif.Props.Lists.C16_list_history_partial",
    "Verif.Props.Lists.C16_history_continued_partial",
    "Verif.Props.Lists.C16_call_partial",
    "Verif.Props.Lists.C16_documented",
    "Verif.Props.Lists.C16_observers",
    "Verif.Props.Lists.C16_list_history_fails"
   ],
   "note": "All histories over any number of lists except the calls marked `only` in Spec/LinkedList.lean, each refuted by a _fails theorem; C16_documented: within them the documented behaviour, when equivalent elements are equal."
  },
  {
   "property": "C17",
   "status": "partial",
   "theorems": [
    "Verif.Props.Lists.C17_forward_list_history_partial",
    "Verif.Props.Lists.C16_history_continued_partial",
    "Verif.Props.Lists.C16_call_partial",
    "Verif.Props.Lists.C16_observers",
    "Verif.Props.Lists.C16_list_history_fails"
   ],
   "note": "As C16; the theorems for any Cfg cover both kinds of list."
  },
  {
   "property": "C18",
   "status": "partial",
   "theorems": [
    "Verif.Props.Lists.C18_lists_memory_partial",
    "Verif.Props.Lists.C18_nothing_outstanding_partial",
    "Verif.Props.Lists.C18_misuse_detected",
    "Verif.Props.Lists.C18_lists_memory_fails"
   ],
   "note": "Restricted histories; moving an empty list to another allocator leaks (refuted)."
  },
  {
   "property": "C19",
   "status": "partial",
   "theorems": [
    "Verif.Props.Lists.C19_backward_is_reverse_partial"
   ],
   "note": "In every state reached by a restricted history; outside see the _fails of C21, C23, C24, C30, C34."
  },
  {
   "property": "C20",
   "status": "proved",
   "theorems": [
    "Verif.Props.Lists.C20_designates",
    "Verif.Props.Lists.C20_other_lists",
    "Verif.Props.Lists.C20_iterators_kept",
    "Verif.Props.Lists.C20_erase_keeps_rest"
   ],
   "note": "For every call of the restricted histories; other calls are undefined anyway."
  },
  {
   "property": "C21",
   "status": "partial",
   "theorems": [
    "Verif.Props.Lists.C21_sort_partial",
    "Verif.Props.Lists.C21_sort_any_predicate_partial",
    "Verif.Props.Lists.C21_sort_single_fails"
   ],
   "note": "Holds for length other than 1; length 1 refuted."
  },
  {
   "property": "C22",
   "status": "partial",
   "theorems": [
    "Verif.Props.Lists.C22_sort_reverses_ties",
    "Verif.Props.Lists.C22_sort_fails",
    "Verif.Props.Lists.C22_sort_nonstrict_partial",
    "Verif.Props.Lists.C22_merge_argument_first"
   ],
   "note": "Refuted: sort reverses every group of equivalent elements; merge puts the argument's first. Stable when given the non-strict order."
  },
  {
   "property": "C23",
   "status": "partial",
   "theorems": [
    "Verif.Props.Lists.C23_merge_partial",
    "Verif.Props.Lists.C23_merge_nothing",
    "Verif.Props.Lists.C23_merge_into_empty_fails",
    "Verif.Props.Lists.C23_merge_rvalue_fails"
   ],
   "note": "Holds for non-empty target and lvalue argument, and when the argument is empty; the rest refuted."
  },
  {
   "property": "C24",
   "status": "partial",
   "theorems": [
    "Verif.Props.Lists.C24_splice_partial",
    "Verif.Props.Lists.C24_splice_empty_fails"
   ],
   "note": "Holds for a non-empty argument; an empty one refuted for every position."
  },
  {
   "property": "C25",
   "status": "proved",
   "theorems": [
    "Verif.Props.Lists.C25_reverse"
   ],
   "note": ""
  },
  {
   "property": "C26",
   "status": "proved",
   "theorems": [
    "Verif.Props.Lists.C26_unique",
    "Verif.Props.Lists.C26_unique_spec"
   ],
   "note": ""
  },
  {
   "property": "C27",
   "status": "partial",
   "theorems": [
    "Verif.Props.Lists.C27_remove_if",
    "Verif.Props.Lists.C27_evaluated_once",
    "Verif.Props.Lists.C27_remove_partial",
    "Verif.Props.Lists.C27_remove_own_element_fails"
   ],
   "note": "remove_if proved; remove(v) with v an element of the list that is removed and not last refuted."
  },
  {
   "property": "C28",
   "status": "proved",
   "theorems": [
    "Verif.Props.Lists.C28_insert_after",
    "Verif.Props.Lists.C28_insert",
    "Verif.Props.Lists.C28_push",
    "Verif.Props.Lists.C28_erase_after",
    "Verif.Props.Lists.C28_erase",
    "Verif.Props.Lists.C28_pop"
   ],
   "note": ""
  },
  {
   "property": "C29",
   "status": "partial",
   "theorems": [
    "Verif.Props.Lists.C29_front_back",
    "Verif.Props.Lists.C29_const_front_partial",
    "Verif.Props.Lists.C29_const_front_fails"
   ],
   "note": "const front_unchecked of List returns the last element (refuted)."
  },
  {
   "property": "C30",
   "status": "partial",
   "theorems": [
    "Verif.Props.Lists.C30_copy",
    "Verif.Props.Lists.C30_independent",
    "Verif.Props.Lists.C30_move",
    "Verif.Props.Lists.C30_move_alloc_partial",
    "Verif.Props.Lists.C30_move_alloc_fails",
    "Verif.Props.Lists.C30_assign"
   ],
   "note": "Moving to a different allocator refuted."
  },
  {
   "property": "C31",
   "status": "proved",
   "theorems": [
    "Verif.Props.Lists.C31_constructors",
    "Verif.Props.Lists.C31_resize"
   ],
   "note": ""
  },
  {
   "property": "C32",
   "status": "proved",
   "theorems": [
    "Verif.Props.Lists.C32_into_iter"
   ],
   "note": ""
  },
  {
   "property": "C33",
   "status": "partial",
   "theorems": [
    "Verif.Props.Lists.C33_reverse_iterators_partial",
    "Verif.Props.Lists.C33_reverse_iterators_fails",
    "Verif.Props.Lists.C33_reverse_step_fails"
   ],
   "note": "Refuted: ++ and -- of reverse iterators call each other forever; only the empty list can be traversed."
  },
  {
   "property": "C34",
   "status": "partial",
   "theorems": [
    "Verif.Props.Lists.C34_pop_front_fails",
    "Verif.Props.Lists.C34_pop_back_partial",
    "Verif.Props.Lists.C34_pop_back_fails"
   ],
   "note": "pop_back is detected in debug builds only; pop_front never."
  },
  {
   "property": "C35",
   "status": "proved",
   "theorems": [
    "Verif.Props.C35_validate_iff_wellFormed",
    "Verif.Props.C35_validate_iff_encoded"
   ],
   "note": "both against the RFC 3629 grammar and against Lean's own scalar-value encoder"
  },
  {
   "property": "C36",
   "status": "proved",
   "theorems": [
    "Verif.Props.C36_error_offset"
   ],
   "note": ""
  },
  {
   "property": "C37",
   "status": "partial",
   "theorems": [
    "Verif.Props.C37_chars_lossless_partial",
    "Verif.Props.C37_fails",
    "Verif.Props.C37_fails'"
   ],
   "note": "exact iff: lossless iff no 0x7F byte; the code mis-decodes U+007F (utf8.h:34 compares x < 0x7F), proved by counterexample"
  },
  {
   "property": "C38",
   "status": "partial",
   "theorems": [
    "Verif.Props.C38_ascii_validate_partial",
    "Verif.Props.C38_fails",
    "Verif.Props.C38_ascii_accepts",
    "Verif.Props.C38_ascii_validate_iff",
    "Verif.Props.C38_ascii_chars",
    "Verif.Props.C38_ascii_last"
   ],
   "note": "exact if and only if the first byte that is not ASCII is not 0x80 (C38_ascii_validate_iff); the code accepts 0x80 (ascii.h:54 compares > 128), proved by counterexample, and what it accepts and reports is proved for every byte string (C38_ascii_accepts)"
  },
  {
   "property": "C39",
   "status": "proved",
   "theorems": [
    "Verif.Props.C39_boundary"
   ],
   "note": "for UTF-8; the Ascii instance of is_char_boundary does not compile (see DESIGN)"
  },
  {
   "property": "C40",
   "status": "proved",
   "theorems": [
    "Verif.Props.Strings.C40_append_insert",
    "Verif.Props.Strings.C40_push_back",
    "Verif.Props.Strings.C40_insert",
    "Verif.Props.Strings.C40_insert_panics",
    "Verif.Props.Strings.C40_boundary_meaning",
    "Verif.Props.Strings.C40_history_partial",
    "Verif.Props.Strings.C40_history_continued_partial",
    "Verif.Props.Strings.C40_documented",
    "Verif.Props.Strings.C40_chars_utf8_partial",
    "Verif.Props.Strings.C40_chars_utf8_fails"
   ],
   "note": "The property itself is C40_append_insert, C40_push_back, C40_insert and C40_insert_panics. The _partial theorems extend it to histories that also move, assign, pop and print."
  },
  {
   "property": "C41",
   "status": "partial",
   "theorems": [
    "Verif.Props.Strings.C41_strings_stay_valid_partial",
    "Verif.Props.Strings.C41_insert_anywhere",
    "Verif.Props.Strings.C41_fails"
   ],
   "note": "Proved for valid literals and characters; refuted for characters cut out by chars() from a text with U+007F."
  },
  {
   "property": "C42",
   "status": "partial",
   "theorems": [
    "Verif.Props.Strings.C42_copy_construct",
    "Verif.Props.Strings.C42_move_construct_partial",
    "Verif.Props.Strings.C42_move_construct_fails",
    "Verif.Props.Strings.C42_copy_assign_partial",
    "Verif.Props.Strings.C42_copy_assign_fails",
    "Verif.Props.Strings.C42_copy_assign_strict",
    "Verif.Props.Strings.C42_move_assign_partial",
    "Verif.Props.Strings.C42_move_assign_fails"
   ],
   "note": "Copy construction proved for all lengths. Assignment with a length of exactly 16 refuted; all use of Allocate::operator= (no return statement) refuted under the strict reading."
  },
  {
   "property": "C43",
   "status": "partial",
   "theorems": [
    "Verif.Props.Strings.C43_pop_back_partial",
    "Verif.Props.Strings.C43_pop_back_fails"
   ],
   "note": "Refuted for strings of 17 bytes. For UTF8 pop_back does not compile."
  },
  {
   "property": "C44",
   "status": "partial",
   "theorems": [
    "Verif.Props.Strings.C44_memory_partial",
    "Verif.Props.Strings.C44_all_released_partial",
    "Verif.Props.Strings.C44_memory_fails"
   ],
   "note": "Refuted: pop_back from 17 to 16 bytes leaks the buffer."
  },
  {
   "property": "C45",
   "status": "partial",
   "theorems": [
    "Verif.Props.Strings.C45_print_partial",
    "Verif.Props.Strings.C45_print_fails"
   ],
   "note": "Refuted for strings of 16 bytes."
  },
  {
   "property": "C46",
   "status": "proved",
   "theorems": [
    "Verif.Props.C46_option_history",
    "Verif.Props.C46_unwrap"
   ],
   "note": "histories of any length over any number of options, against ideal variables; ghost counters of payload constructions/destructions balance"
  },
  {
   "property": "C47",
   "status": "partial",
   "theorems": [
    "Verif.Props.C47_move_ctor",
    "Verif.Props.C47_move_assign_partial",
    "Verif.Props.C47_fails"
   ],
   "note": "move construction proved; move assignment exact: source becomes none unless both were engaged, in which case it stays engaged (option.h:114-117), proved by counterexample"
  },
  {
   "property": "C48",
   "status": "proved",
   "theorems": [
    "Verif.Props.C48_map",
    "Verif.Props.C48_map_once"
   ],
   "note": ""
  },
  {
   "property": "C49",
   "status": "proved",
   "theorems": [
    "Verif.Props.C49_ref_alias",
    "Verif.Props.C49_ref_copy_move",
    "Verif.Props.C49_ref_unwrap",
    "Verif.Props.C49_histories",
    "Verif.Props.C49_after_any_history"
   ],
   "note": ""
  },
  {
   "property": "C50",
   "status": "proved",
   "theorems": [
    "Verif.Props.C50_result_history",
    "Verif.Props.C50_all_without_assign"
   ],
   "note": "histories of any length over any number of results; C50_all_without_assign shows every history without assignment is covered"
  },
  {
   "property": "C51",
   "status": "partial",
   "theorems": [
    "Verif.Props.C51_assign_partial",
    "Verif.Props.C50_result_history",
    "Verif.Props.C51_fails"
   ],
   "note": "holds exactly for assignment between equal variants; between different variants `type` is never updated (result.h:63-104), proved wrong for every such assignment"
  },
  {
   "property": "C52",
   "status": "proved",
   "theorems": [
    "Verif.Props.C52_equality",
    "Verif.Props.C52_equality_ref"
   ],
   "note": ""
  },
  {
   "property": "C53",
   "status": "proved",
   "theorems": [
    "Verif.Props.C53_collect",
    "Verif.Props.C53_exhausted"
   ],
   "note": ""
  },
  {
   "property": "C54",
   "status": "proved",
   "theorems": [
    "Verif.Props.C54_fold",
    "Verif.Props.C54_fold_pure",
    "Verif.Props.C54_for_each",
    "Verif.Props.C54_reduce",
    "Verif.Props.C54_last",
    "Verif.Props.C54_find"
   ],
   "note": "last needs a source that stays exhausted, since it asks an empty source twice"
  },
  {
   "property": "C55",
   "status": "proved",
   "theorems": [
    "Verif.Props.C55_elementwise",
    "Verif.Props.C55_collect",
    "Verif.Props.C55_find",
    "Verif.Props.C55_terminals"
   ],
   "note": "equalities of programs with arbitrary effects"
  },
  {
   "property": "C56",
   "status": "proved",
   "theorems": [
    "Verif.Props.C56_range_next",
    "Verif.Props.C56_range_for",
    "Verif.Props.C56_range_contains",
    "Verif.Props.C56_reversed_range",
    "Verif.Props.C56_reversed_wraps_fails",
    "Verif.Props.C56_reversed_overflows_fails"
   ],
   "note": ""
  },
  {
   "property": "C57",
   "status": "partial",
   "theorems": [
    "Verif.Props.C57_range_prev_partial",
    "Verif.Props.C57_range_interleaved_partial",
    "Verif.Props.C57_range_fails",
    "Verif.Props.C57_array_into_iter_fails",
    "Verif.Props.C57_array_len_fails"
   ],
   "note": "false of the code: Range::prev hands out hi instead of hi-1, so ArrayIter::prev reads past the array; the part that holds (which range remains) is proved"
  },
  {
   "property": "C58",
   "status": "proved",
   "theorems": [
    "Verif.Props.C58_index",
    "Verif.Props.C58_init_list",
    "Verif.Props.C58_into_iter",
    "Verif.Props.C58_equality"
   ],
   "note": ""
  },
  {
   "property": "C59",
   "status": "proved",
   "theorems": [
    "Verif.Props.C59_from_iter_long",
    "Verif.Props.C59_from_iter_short"
   ],
   "note": ""
  },
  {
   "property": "C60",
   "status": "proved",
   "theorems": [
    "Verif.Props.C60_slice_iter",
    "Verif.Props.C60_array_iter",
    "Verif.Props.C60_slice_into_iter",
    "Verif.Props.C60_slice_last"
   ],
   "note": ""
  },
  {
   "property": "C61",
   "status": "proved",
   "theorems": [
    "Verif.Props.C61_from_size_align"
   ],
   "note": ""
  },
  {
   "property": "C62",
   "status": "partial",
   "theorems": [
    "Verif.Props.C62_release_matches_request",
    "Verif.Props.C62_enough_room_partial",
    "Verif.Props.C62_fails",
    "Verif.Props.C62_room_iff"
   ],
   "note": "matching release proved for all; the size part holds exactly when size*n < 2^64 (the product is not checked)"
  },
  {
   "property": "C63",
   "status": "proved",
   "theorems": [
    "Verif.Props.C63_first_branch_wins"
   ],
   "note": "equality of programs, so effects, panics and divergence of branch functions are covered"
  },
  {
   "property": "C64",
   "status": "partial",
   "theorems": [
    "Verif.Props.C64_void_partial",
    "Verif.Props.C64_fails_rest",
    "Verif.Props.C64_fails_twice"
   ],
   "note": "holds when the first fitting branch is the first of the chain or a value pattern; range and rest branches do not record that they ran (match.h:223-239)"
  },
  {
   "property": "C65",
   "status": "proved",
   "theorems": [
    "Verif.Props.C65_get_make",
    "Verif.Props.C65_size",
    "Verif.Props.C65_ext",
    "Verif.Props.C65_set",
    "Verif.Props.C65_copy_move",
    "Verif.Props.C65_equal",
    "Verif.Props.C65_for_each",
    "Verif.Props.C65_tie",
    "Verif.Props.C65_tie_tie",
    "Verif.Props.C65_tie_swap_fails",
    "Verif.Props.C65_convert",
    "Verif.Props.C65_pair"
   ],
   "note": ""
  },
  {
   "property": "C66",
   "status": "proved",
   "theorems": [
    "Verif.Props.C66_type_list",
    "Verif.Props.C66_laws"
   ],
   "note": ""
  },
  {
   "property": "C67",
   "status": "proved",
   "theorems": [
    "Verif.Props.C67_combine"
   ],
   "note": ""
  },
  {
   "property": "C68",
   "status": "proved",
   "theorems": [
    "Verif.Props.C68_vector_printed",
    "Verif.Props.C68_join",
    "Verif.Props.Lists.C68_list_print"
   ],
   "note": ""
  },
  {
   "property": "C69",
   "status": "proved",
   "theorems": [
    "Verif.Props.C69_walk",
    "Verif.Props.C69_two",
    "Verif.Props.C69_for"
   ],
   "note": "Every sequence of moves from begin() or end(), on every reachable vector."
  },
  {
   "property": "C70",
   "status": "partial",
   "theorems": [
    "Verif.Props.C70_append_partial",
    "Verif.Props.C70_append_fails"
   ],
   "note": "Refuted for ==: an iterator also compares the end it stored when it was made, so after the push it equals no fresh iterator. Reading, distance and order are proved."
  },
  {
   "property": "C71",
   "status": "proved",
   "theorems": [
    "Verif.Props.C71_reference_results"
   ],
   "note": "Assignments between a reference and an error are left out of the histories: they are the defect of C51."
  },
  {
   "property": "C72",
   "status": "partial",
   "theorems": [
    "Verif.Props.C72_array_history_partial",
    "Verif.Props.C72_iterator_copy_assign_fails",
    "Verif.Props.C72_iterator_move_assign_fails",
    "Verif.Props.C72_exact_iff"
   ],
   "note": "C72_exact_iff: which calls are wrong, exactly. Refuted for assigning owning iterators: copy assignment does not copy the position, move assignment has no return statement."
  },
  {
   "property": "C73",
   "status": "partial",
   "theorems": [
    "Verif.Props.C73_memory_needed_partial",
    "Verif.Props.C73_history_completes_partial"
   ],
   "note": "Proved for the calls allowed by the restricted specification of C01; the remaining calls are the defects recorded under C06, C07, C10, C14, C15."
  },
  {
   "property": "C74",
   "status": "partial",
   "theorems": [
    "Verif.Props.C74_granted_partial",
    "Verif.Props.C74_reserve_refused_fails",
    "Verif.Props.C74_reserve_empty_refused_fails",
    "Verif.Props.C74_push_refused_fails",
    "Verif.Props.C74_new_refused_fails"
   ],
   "note": "Refuted: the null pointer of the allocator is stored and used. As long as memory is granted the calls are those of the other properties."
  },
  {
   "property": "C75",
   "status": "partial",
   "theorems": [
    "Verif.Props.C75_no_throw_partial",
    "Verif.Props.C75_insert_partial",
    "Verif.Props.C75_push_throw_fails",
    "Verif.Props.C75_assign_throw_fails",
    "Verif.Props.C75_insert_range_throw_fails",
    "Verif.Props.C75_construct_leak_fails",
    "Verif.Props.C75_copy_assign_leak_fails",
    "Verif.Props.C75_copy_assign_other_fails",
    "Verif.Props.C75_history_partial",
    "Verif.Props.C75_no_bad_copy",
    "Verif.Props.C75_throw_exact"
   ],
   "note": "Refuted for every copying call except insert(pos, value) and element assignment, which change nothing when the copy throws, and copy assignment between equal allocators while the copies made fit in the target. C75_throw_exact: from every state programs reach, a throwing call leaves the state intact exactly in these cases."
  },
  {
   "property": "C76",
   "status": "partial",
   "theorems": [
    "Verif.Props.Lists.C76_nodes_needed_partial",
    "Verif.Props.Lists.C76_no_memory",
    "Verif.Props.Lists.C76_history_completes_partial"
   ],
   "note": "Exact number of requests for every allowed call. Missing: the calls excluded by the guard full = false (see C20 to C30), for which only C76_no_memory applies."
  },
  {
   "property": "C77",
   "status": "partial",
   "theorems": [
    "Verif.Props.Lists.C77_refused_fails",
    "Verif.Props.Lists.C77_push_refused_fails",
    "Verif.Props.Lists.C77_new_refused_fails"
   ],
   "note": "Refuted: the null pointer of the allocator is dereferenced at once. As long as memory is granted the calls are those of the other properties."
  },
  {
   "property": "C78",
   "status": "partial",
   "theorems": [
    "Verif.Props.Lists.C78_no_throw_partial",
    "Verif.Props.Lists.C78_insert_partial",
    "Verif.Props.Lists.C78_first_throw_partial",
    "Verif.Props.Lists.C78_no_lost_node",
    "Verif.Props.Lists.C78_leak_fails",
    "Verif.Props.Lists.C78_range_throw_fails",
    "Verif.Props.Lists.C78_fill_throw_fails",
    "Verif.Props.Lists.C78_insert_range_throw_fails",
    "Verif.Props.Lists.C78_insert_fill_throw_fails",
    "Verif.Props.Lists.C78_list_assign_throw_fails",
    "Verif.Props.Lists.C78_copy_assign_throw_fails",
    "Verif.Props.Lists.C78_construct_leak_fails",
    "Verif.Props.Lists.C78_construct_fill_copy_leak_fails",
    "Verif.Props.Lists.C78_from_iter_first_partial",
    "Verif.Props.Lists.C78_from_iter_throw_fails",
    "Verif.Props.Lists.C78_resize_throw_fails",
    "Verif.Props.Lists.C78_push_throw_fails"
   ],
   "note": "Refuted for every call that constructs; single insertions leave all lists unchanged but lose a node."
  },
  {
   "property": "C79",
   "status": "proved",
   "theorems": [
    "Verif.Props.Lists.C79_walk",
    "Verif.Props.Lists.C79_equal",
    "Verif.Props.Lists.C79_other_list",
    "Verif.Props.Lists.C79_write"
   ],
   "note": "Iterators and const iterators; the reverse iterators are C33."
  },
  {
   "property": "C80",
   "status": "proved",
   "theorems": [
    "Verif.Props.C80_cursor_walk",
    "Verif.Props.C80_signed_overflow",
    "Verif.Props.C80_unsigned_wraps",
    "Verif.Props.C80_compare",
    "Verif.Props.C80_distance",
    "Verif.Props.C80_range_eq",
    "Verif.Props.C80_empty_ranges_differ"
   ],
   "note": "Cursors hand out the numbers of integer arithmetic for every program whose results are values of the type; exactly-when undefined for signed types, congruent modulo the type for unsigned ones; comparison, distance, range equality."
  },
  {
   "property": "C81",
   "status": "partial",
   "theorems": [
    "Verif.Props.Lists.C81_unique_throw_partial",
    "Verif.Props.Lists.C81_sort_throw_fails",
    "Verif.Props.Lists.C81_merge_throw_fails",
    "Verif.Props.Lists.C81_remove_if_throw_fails"
   ],
   "note": "unique keeps all promises, whichever comparison throws and whatever is done afterwards.  Refuted for sort (every throw, on every list, leaves a list that can neither be traversed nor destroyed) and for merge (every throw leaves a size that is too large, and elements that are lost or a list that can neither be traversed nor destroyed), and for remove_if (noexcept: a throwing predicate ends the program, exactly if it throws at one of its calls).  Missing: merge of an rvalue list, which is undefined already without exceptions (C23)."
  },
  {
   "property": "C82",
   "status": "partial",
   "theorems": [
    "Verif.Props.Strings.C82_utf8_literal",
    "Verif.Props.Strings.C82_ascii_literal_partial",
    "Verif.Props.Strings.C82_ascii_literal_fails",
    "Verif.Props.Strings.C82_string_from_literal",
    "Verif.Props.Strings.C82_character",
    "Verif.Props.Strings.C82_every_character_partial",
    "Verif.Props.Strings.C82_every_ascii_character",
    "Verif.Props.Strings.C82_one_character_fails",
    "Verif.Props.Strings.C82_default"
   ],
   "note": "Everything holds for UTF-8 literals and strings.  Refuted: ASCII literals with the byte 0x80 compile; a UTF-8 character may be made from any valid text of 1 to 4 bytes, for instance \"ab\"."
  },
  {
   "property": "C83",
   "status": "partial",
   "theorems": [
    "Verif.Props.Strings.C83_characters_unique",
    "Verif.Props.Strings.C83_push_back",
    "Verif.Props.Strings.C83_boundary",
    "Verif.Props.Strings.C83_insert",
    "Verif.Props.Strings.C83_chars_partial",
    "Verif.Props.Strings.C83_rebuild_partial",
    "Verif.Props.Strings.C83_rebuild_fails",
    "Verif.Props.Strings.C83_print_partial"
   ],
   "note": "push_back, insert and is_char_boundary act on the sequence of characters, without exception.  Refuted for chars() on texts with U+007F (C37, C40).  Printing excludes strings of 16 bytes (C45)."
  },
  {
   "property": "C84",
   "status": "partial",
   "theorems": [
    "Verif.Props.Strings.C84_requests_partial",
    "Verif.Props.Strings.C84_short_strings_partial",
    "Verif.Props.Strings.C84_amortised",
    "Verif.Props.Strings.C84_growing_documented"
   ],
   "note": "Exact: which call asks for how many bytes in which state; the growing calls are covered without exception.  Missing: the calls C40-C45 exclude because they are undefined (assignments between strings of certain lengths around 16 bytes, pop_back at 17 bytes, printing at 16)."
  },
  {
   "property": "C85",
   "status": "partial",
   "theorems": [
    "Verif.Props.Strings.C85_granted_partial",
    "Verif.Props.Strings.C85_refused_fails"
   ],
   "note": "Refuted for every call that asks for memory, in every state: the null pointer is written through.  Calls that ask for nothing, or whose request is granted, are as documented."
  },
  {
   "property": "C86",
   "status": "partial",
   "theorems": [
    "Verif.Props.C86_throwing_copies_partial",
    "Verif.Props.C86_restriction",
    "Verif.Props.C86_assign_throw_fails"
   ],
   "note": "Holds for all histories except those with the one refuted call: assigning a value whose copy throws to an option that holds none leaves an option that claims a value and cannot be used or destroyed, in every state."
  },
  {
   "property": "C87",
   "status": "proved",
   "theorems": [
    "Verif.Props.C87_option",
    "Verif.Props.C87_option_ref",
    "Verif.Props.C87_result",
    "Verif.Props.C87_result_borrow",
    "Verif.Props.C87_result_ref",
    "Verif.Props.C87_vector",
    "Verif.Props.C87_vector_write"
   ],
   "note": "Exact: same answer and effect where the checked accessor succeeds, undefined exactly elsewhere.  (The unchecked accessors of lists are in C29, one of them is wrong.)"
  },
  {
   "property": "C88",
   "status": "partial",
   "theorems": [
    "Verif.Props.C88_collect_partial",
    "Verif.Props.C88_terminals_partial",
    "Verif.Props.C88_collect_resets",
    "Verif.Props.C88_filter_fails"
   ],
   "note": "Holds for maps and all terminals, and for filters whose object is back in its first state when it accepts.  Refuted for filters: FilterIter::next hands a copy of its predicate to find, so the state is lost whenever an element is let through; the exact behaviour is C88_collect_resets."
  },
  {
   "property": "C89",
   "status": "proved",
   "theorems": [
    "Verif.Props.C89_list_element",
    "Verif.Props.C89_sentinel",
    "Verif.Props.C89_vector_slots",
    "Verif.Props.C89_vector_wrap_fails"
   ],
   "note": "For every element type, both list kinds and every granted address.  Struct layout follows the platform ABI (members in order, each at the next multiple of its alignment).  Byte counts that wrap around the word are C15's subject; C89_vector_wrap_fails shows the guard is needed."
  },
  {
   "property": "C90",
   "status": "partial",
   "theorems": [
    "Verif.Props.C90_own_partial",
    "Verif.Props.C90_moved_next_fails"
   ],
   "note": "Holds for all histories in which a moved-from iterator is not asked for elements (it may be moved again and destroyed).  Refuted otherwise: the move constructor leaves the source its old length, so next() on it reads element 0 of a vector without memory."
  },
  {
   "property": "C91",
   "status": "proved",
   "theorems": [
    "Verif.Props.C91_exact",
    "Verif.Props.C91_exact_iff"
   ],
   "note": "For calls that return; the byte-count hypothesis is `fits`, the coincidence exception is `coincidence` (Spec/VectorExact.lean).  The if-direction is the refinement theorem behind C01."
  },
  {
   "property": "C92",
   "status": "proved",
   "theorems": [
    "Verif.Props.Lists.C92_exact",
    "Verif.Props.Lists.C92_exact_iff"
   ],
   "note": "The two calls whose mistake no result shows are named by `unseen` (Spec/LinkedListExact.lean).  What a caller sees: the result of the call and of any traversals after it (`LooksRight`)."
  },
  {
   "property": "C93",
   "status": "proved",
   "theorems": [
    "Verif.Props.Strings.C93_exact_iff"
   ],
   "note": "`byRoom` (Spec/BStringExact.lean) is the one case that depends on capacity, decided by C42_copy_assign_strict."
  },
  {
   "property": "C94",
   "status": "proved",
   "theorems": [
    "Verif.Props.Lists.C94_sort_comparisons",
    "Verif.Props.Lists.C94_merge_comparisons",
    "Verif.Props.Lists.C94_unique_comparisons"
   ],
   "note": "The number of calls is observed through a comparison that throws at its k-th call."
  },
  {
   "property": "C95",
   "status": "partial",
   "theorems": [
    "Verif.Props.C95_fold_partial",
    "Verif.Props.C95_calm_partial",
    "Verif.Props.C95_terminals_fails",
    "Verif.Props.C95_stage_fails",
    "Verif.Props.C95_no_exception_leaves_fails",
    "Verif.Props.C95_combine_fails"
   ],
   "note": "Holds for the functions of fold and reduce when no stage throws. Everywhere else next(), find, for_each, collect and combine are declared noexcept, so the program is terminated; proved for every pipeline and every place of the exception."
  },
  {
   "property": "C96",
   "status": "partial",
   "theorems": [
    "Verif.Props.C96_throwing_copies_partial",
    "Verif.Props.C96_restriction",
    "Verif.Props.C96_copy_throw_fails"
   ],
   "note": "Refuted for the copy constructor and copy assignment, which are noexcept and end the program; the exact behaviour of all histories is proved, and these two calls are proved to be the only difference from the property.  Moves that throw: C112.  Missing: assignment between different variants, which is wrong without exceptions (C51)."
  },
  {
   "property": "C97",
   "status": "partial",
   "theorems": [
    "Verif.Props.C97_work_partial",
    "Verif.Props.C97_work_run_partial",
    "Verif.Props.C97_linear_partial"
   ],
   "note": "Exact tallies for every call of the restricted specification and for whole histories.  Missing: the calls the code does wrong, which C91 characterises."
  },
  {
   "property": "C98",
   "status": "proved",
   "theorems": [
    "Verif.Props.Collects.C98_collect",
    "Verif.Props.Collects.C98_collect_pure",
    "Verif.Props.Collects.C98_collect_is_from_iter",
    "Verif.Props.Collects.C98_collect_function_fails"
   ],
   "note": "Functions receive elements as values: a function that writes into the container being read through the reference it is given is not modelled."
  },
  {
   "property": "C99",
   "status": "proved",
   "theorems": [
    "Verif.Props.InPlace.C99_vector",
    "Verif.Props.InPlace.C99_list",
    "Verif.Props.InPlace.C99_vector_function_fails",
    "Verif.Props.InPlace.C99_list_function_fails",
    "Verif.Props.InPlace.C99_for_each",
    "Verif.Props.InPlace.C99_map",
    "Verif.Props.InPlace.C99_find"
   ],
   "note": "The functions reach the container only through the reference they are given."
  },
  {
   "property": "C100",
   "status": "proved",
   "theorems": [
    "Verif.Props.Consumes.C100_consume",
    "Verif.Props.Consumes.C100_consume_pure",
    "Verif.Props.Consumes.C100_consume_is_calls",
    "Verif.Props.Consumes.C100_consume_cost",
    "Verif.Props.Consumes.C100_consume_function_fails"
   ],
   "note": "Functions receive elements as values.  A function that fails ends the expression; what it leaves behind is not described."
  },
  {
   "property": "C101",
   "status": "partial",
   "theorems": [
    "Verif.Props.Lists.C101_work_partial",
    "Verif.Props.Lists.C101_work_run_partial",
    "Verif.Props.Lists.C101_linear_partial",
    "Verif.Props.Lists.C101_relinking_partial"
   ],
   "note": "Missing: the calls that the code does wrong, which the partial specification of C16 excludes.  Arguments and results passed by value are not counted."
  },
  {
   "property": "C102",
   "status": "proved",
   "theorems": [
    "Verif.Props.IterOpts.C102_next",
    "Verif.Props.IterOpts.C102_any_source",
    "Verif.Props.IterOpts.C102_fold",
    "Verif.Props.IterOpts.C102_for_each",
    "Verif.Props.IterOpts.C102_collect",
    "Verif.Props.IterOpts.C102_reduce",
    "Verif.Props.IterOpts.C102_last"
   ],
   "note": "Items of one type; items that are references have options without payload (C49). Functions that throw exceptions are C95."
  },
  {
   "property": "C103",
   "status": "proved",
   "theorems": [
    "Verif.Props.VectorConsumes.C103_fold",
    "Verif.Props.VectorConsumes.C103_for_each",
    "Verif.Props.VectorConsumes.C103_fold_is_calls",
    "Verif.Props.VectorConsumes.C103_collect",
    "Verif.Props.VectorConsumes.C103_find",
    "Verif.Props.VectorConsumes.C103_last",
    "Verif.Props.VectorConsumes.C103_function_fails",
    "Verif.Props.VectorConsumes.C103_reached"
   ],
   "note": "The state before is one the calls covered by C90 lead to. What a call on a vector returns is not visible to the client's function in C103_fold_is_calls. A refused request for memory is a separate outcome throughout."
  },
  {
   "property": "C104",
   "status": "proved",
   "theorems": [
    "Verif.Props.ListConsumes.C104_fold",
    "Verif.Props.ListConsumes.C104_for_each",
    "Verif.Props.ListConsumes.C104_fold_is_calls",
    "Verif.Props.ListConsumes.C104_reduce",
    "Verif.Props.ListConsumes.C104_find",
    "Verif.Props.ListConsumes.C104_find_variable",
    "Verif.Props.ListConsumes.C104_last_variable"
   ],
   "note": "What a call on a list returns is not visible to the client's function in C104_fold_is_calls. Copying a function object has no effect. A refused request for memory is a separate outcome throughout, and C104 says which requests can be refused."
  },
  {
   "property": "C105",
   "status": "partial",
   "theorems": [
    "Verif.Props.C105_history_partial",
    "Verif.Props.C105_use_exact",
    "Verif.Props.C105_equal_fails",
    "Verif.Props.C105_erase_outside"
   ],
   "note": "Missing in C105_history_partial: the calls on vectors C01 excludes. Refuted: iterators to the same position taken at different sizes compare unequal (also C70)."
  },
  {
   "property": "C106",
   "status": "partial",
   "theorems": [
    "Verif.Props.C106_history_partial",
    "Verif.Props.C106_stale",
    "Verif.Props.C106_moved_short_fails",
    "Verif.Props.C106_delete_fails"
   ],
   "note": "Missing in C106_history_partial: the calls on strings C40 to C43 exclude, and the character U+007F. Refuted: an iterator over a string of at most 16 bytes does not go along when the string is moved; U+007F takes the byte after it along (also C37)."
  },
  {
   "property": "C107",
   "status": "partial",
   "theorems": [
    "Verif.Props.C107_vector",
    "Verif.Props.C107_list_partial",
    "Verif.Props.C107_list_assign_fails",
    "Verif.Props.C107_list_destructions",
    "Verif.Props.C107_string_partial",
    "Verif.Props.C107_string_fails",
    "Verif.Props.C107_string_destructions"
   ],
   "note": "Proved for all programs over vectors and owning vector iterators. False for lists: assigning a list to a different one calls the destructor explicitly, which destroys the allocator member, and goes on using it; proved without such assignments, and the exact number of surplus destructor runs with them. False for strings: `~Allocate()` calls the destructor of its base class, which then runs again; proved up to the destruction of a string, and the exact number of runs."
  },
  {
   "property": "C108",
   "status": "partial",
   "theorems": [
    "Verif.Props.C108_give_partial",
    "Verif.Props.C108_push_own_fails",
    "Verif.Props.C108_insert_begin_fails"
   ],
   "note": "Missing in C108_give_partial: the calls on vectors C01 excludes. Refuted: push_back or emplace_back of an own element onto a full vector moves from released memory; insertion at begin() is undefined as for any value (C06)."
  },
  {
   "property": "C109",
   "status": "partial",
   "theorems": [
    "Verif.Props.Lists.C109_give_partial",
    "Verif.Props.Lists.C109_calls"
   ],
   "note": "Missing in C109_give_partial: the calls on lists C16 and C17 exclude. The calls that move an element are covered without restriction (C109_calls)."
  },
  {
   "property": "C110",
   "status": "partial",
   "theorems": [
    "Verif.Props.C110_history_partial",
    "Verif.Props.C110_use_exact"
   ],
   "note": "Missing in C110_history_partial: the calls on vectors C01 excludes. C110_use_exact: exactly which uses are undefined."
  },
  {
   "property": "C111",
   "status": "partial",
   "theorems": [
    "Verif.Props.C111_vectors_partial",
    "Verif.Props.C111_lists_partial",
    "Verif.Props.C111_strings_partial"
   ],
   "note": "Missing: the calls on vectors, lists and strings that C01, C16, C17 and C40 exclude. Calls take place as a whole; interleavings of the memory accesses inside calls are not modelled."
  },
  {
   "property": "C112",
   "status": "partial",
   "theorems": [
    "Verif.Props.C112_options_partial",
    "Verif.Props.C112_options_cover",
    "Verif.Props.C112_unelided_fails",
    "Verif.Props.C112_results_partial"
   ],
   "note": "Missing: the copy assignment to an empty Option that C86 refutes, Result assignments between variants (C51), and unwrap() of Option on a compiler that does not construct the result in place, where the value is lost (C112_unelided_fails). With moves as the only source of exceptions the option theorem covers every call (C112_options_cover)."
  },
  {
   "property": "C113",
   "status": "partial",
   "theorems": [
    "Verif.Props.C113_history_partial",
    "Verif.Props.C113_use_exact_iff",
    "Verif.Props.C113_use_exact"
   ],
   "note": "Missing: the assignments of owning array iterators that C72 refutes; all calls on reference iterators and slices are covered, and C113_use_exact_iff says exactly when each is undefined."
  },
  {
   "property": "C114",
   "status": "partial",
   "theorems": [
    "Verif.Props.C114_history_partial",
    "Verif.Props.C114_exact",
    "Verif.Props.C114_erase",
    "Verif.Props.C114_growing_ends_fails",
    "Verif.Props.C114_push_damage_fails",
    "Verif.Props.C114_insert_damage_fails"
   ],
   "note": "The code does not keep the promise: a vector that has to grow ends the program, push_back(T&&) and insertions before an element that cannot be moved leave damage. C114_exact says for every call from every reachable state which of the four outcomes it has, with the exact vectors where the exception is survived; C114_history_partial covers all programs made of survived calls."
  },
  {
   "property": "C115",
   "status": "partial",
   "theorems": [
    "Verif.Props.Lists.C115_history_partial",
    "Verif.Props.Lists.C115_exact",
    "Verif.Props.Lists.C115_goes_on_partial",
    "Verif.Props.Lists.C115_not_reached",
    "Verif.Props.Lists.C115_loses_fails",
    "Verif.Props.Lists.C115_each_fate_fails"
   ],
   "note": "The code does not keep the promise: every survived exception costs at least a node (C115_loses_fails), and others end the program, damage a list or are undefined. C115_exact says for every call from every state such a program reaches, and every construction that throws, which outcome it has; C115_history_partial covers all programs made of survived calls, with the exact total of what is lost. A moved-from list that a failed copy assignment left with a wrong count is described but not followed further."
  },
  {
   "property": "C116",
   "status": "partial",
   "theorems": [
    "Verif.Props.C116_history_partial",
    "Verif.Props.C116_no_throw",
    "Verif.Props.C116_untouched",
    "Verif.Props.C116_copy_assign_fails",
    "Verif.Props.C116_into_iter_fails",
    "Verif.Props.C116_next_fails",
    "Verif.Props.C116_move_fails",
    "Verif.Props.C116_iterator_move_fails",
    "Verif.Props.C116_iterator_copy_assign_fails",
    "Verif.Props.C116_exact"
   ],
   "note": "The code does not keep the promise: copy assignment leaves a mixture, into_iter and next lose elements, moving an array or an owning iterator ends the program (the _fails theorems). C116_history_partial and C116_exact say for every program, every call and every copy or move that throws what happens; C116_untouched that constructions and element assignment do keep it. Elements whose default constructor or destructor throws are not modelled."
  },
  {
   "property": "C117",
   "status": "partial",
   "theorems": [
    "Verif.Props.C117_history_partial",
    "Verif.Props.C117_decided",
    "Verif.Props.C117_frame",
    "Verif.Props.C117_access_untouched",
    "Verif.Props.C117_self_assign",
    "Verif.Props.C117_for_each_throw",
    "Verif.Props.C117_make_copies",
    "Verif.Props.C117_construct_fails",
    "Verif.Props.C117_copy_fails",
    "Verif.Props.C117_assign_fails",
    "Verif.Props.C117_tie_fails"
   ],
   "note": "Answers and independence are proved for every program. The promise about exceptions is not kept: construction, copying and assignment are noexcept whatever the component types, so a throwing component ends the program, and tie leaves the variables half assigned (the _fails theorems). C117_history_partial says for every program and every copy or move that throws what happens. tie(...) = tie(...) is covered where no variable is read after it is written (else C65_tie_swap_fails)."
  },
  {
   "property": "C118",
   "status": "partial",
   "theorems": [
    "Verif.Props.C118_history_partial",
    "Verif.Props.C118_decided",
    "Verif.Props.C118_result_kept",
    "Verif.Props.C118_decided_evaluates_nothing",
    "Verif.Props.C118_throw_decides_nothing",
    "Verif.Props.C118_expression",
    "Verif.Props.C118_finale_fails",
    "Verif.Props.C118_move_fails",
    "Verif.Props.C118_temporary_fails"
   ],
   "note": "Which branch is evaluated, what finale returns, what exceptions do and what copies are is proved for every program. Not kept by the code: finale and a move take the result away, so that a second finale panics and later branches are evaluated again, and a match of a temporary cannot be kept (the _fails theorems); C118_history_partial says exactly what happens then."
  },
  {
   "property": "C119",
   "status": "partial",
   "theorems": [
    "Verif.Props.C119_next",
    "Verif.Props.C119_otherwise",
    "Verif.Props.C119_for_loop",
    "Verif.Props.C119_contains_partial",
    "Verif.Props.C119_equal",
    "Verif.Props.C119_overshoot_fails",
    "Verif.Props.C119_backwards_fails",
    "Verif.Props.C119_unordered_fails",
    "Verif.Props.C119_prev_fails"
   ],
   "note": "What a loop over a range does is proved exactly, for every index type. That what is handed out is what the range contains holds for index types whose increment is the successor and bounds in order. Not kept by the code: increments that step over high, bounds the wrong way round and unordered bounds make the loop endless, and prev() hands out high (the _fails theorems)."
  },
  {
   "property": "C120",
   "status": "partial",
   "theorems": [
    "Verif.Props.Lists.C120_same",
    "Verif.Props.Lists.C120_history_partial",
    "Verif.Props.Lists.C120_returns",
    "Verif.Props.Lists.C120_chase_fails"
   ],
   "note": "Proved for every range and position, including ranges of the list itself, except where the node behind which is inserted lies inside the range without being its first: there the loop copies its own new nodes for ever (C120_chase_fails), and nowhere else (C120_returns)."
  },
  {
   "property": "C121",
   "status": "partial",
   "theorems": [
    "Verif.Props.C121_same",
    "Verif.Props.C121_history_partial",
    "Verif.Props.C121_grow_fails",
    "Verif.Props.C121_hole_fails",
    "Verif.Props.C121_overlap_fails",
    "Verif.Props.C121_behind_fails",
    "Verif.Props.C121_cases"
   ],
   "note": "Proved for ranges of other vectors, empty ranges and own ranges that end before the insertion point of a vector with room for them. For every other own range the claim is false, and what happens instead is proved: released memory is read (C121_grow_fails), a place without an element is read (C121_hole_fails), or other elements are inserted silently (C121_overlap_fails, C121_behind_fails); C121_cases shows that these are all cases."
  },
  {
   "property": "C122",
   "status": "partial",
   "theorems": [
    "Verif.Props.C122_history_partial",
    "Verif.Props.C122_continue_partial",
    "Verif.Props.C122_copy_same",
    "Verif.Props.C122_elements_end",
    "Verif.Props.C122_own_element_fails",
    "Verif.Props.C122_insert_front_fails",
    "Verif.Props.C122_copy_moved_fails",
    "Verif.Props.C122_assign_fails"
   ],
   "note": "Proved for every depth of nesting of vectors, linked lists and options, with vectors of values, List, ForwardList or BasicString at the bottom, and every program except four uses, for which the claim is false: assigning from or to strings of 16 bytes is undefined (C122_assign_fails, C123), with assertions, copying what holds a linked list that was moved from aborts (C122_copy_moved_fails), push_back of an own element on a full vector copies the element after it was destroyed (C122_own_element_fails), and inserting at the front of a vector that is not empty is undefined (C122_insert_front_fails). Inserting into an empty vector or inserting 0 elements is excluded too. Ranges of and iterators over nested vectors are not modelled. Strings are modelled under the reading that Allocate::operator=, which lacks its return, does its job; otherwise strings cannot be moved at all (C42)."
  },
  {
   "property": "C123",
   "status": "partial",
   "theorems": [
    "Verif.Props.C123_erase_partial",
    "Verif.Props.C123_erase_fails",
    "Verif.Props.C123_assign_partial",
    "Verif.Props.C123_assign_fails"
   ],
   "note": "False in general: erasing a string that is not the last is undefined if a string from there on has 16 bytes, and so is assigning vectors of strings with equal allocators if a string of 16 bytes stands at a common index. The claim is proved, after any program, for exactly the other cases."
  },
  {
   "property": "C124",
   "status": "partial",
   "theorems": [
    "Verif.Props.C124_history_partial",
    "Verif.Props.C124_elements_end",
    "Verif.Props.C124_push_own",
    "Verif.Props.C124_erase",
    "Verif.Props.C124_reverse"
   ],
   "note": "Proved for every depth of nesting and every program, except copying what holds a linked list that was moved from, which aborts with assertions (C122_copy_moved_fails), and what does not work on the elements themselves (C122, C123). Swap, splice and merge are in C131. Not modelled for elements that own memory: merge with std::move, emplace, ranges given by iterators, and reading elements through iterators other than by calls on them."
  },
  {
   "property": "C125",
   "status": "partial",
   "theorems": [
    "Verif.Props.C125_history_partial",
    "Verif.Props.C125_objects_end",
    "Verif.Props.C125_unwrap",
    "Verif.Props.C125_empty_panics",
    "Verif.Props.C125_move_assign_partial",
    "Verif.Props.C125_move_assign_fails",
    "Verif.Props.C125_map_fails"
   ],
   "note": "Proved for every depth of nesting and every program, except that moving does not always leave the option empty: move assignment between two full options and map leave it full, with what a move leaves of the object (C125_move_assign_fails, C125_map_fails); and except copying what holds a linked list that was moved from and assigning strings of 16 bytes (C122_copy_moved_fails, C122_assign_fails). The result of unwrap() is modelled without a further move (return value optimisation). Functions given to map are single calls on the object."
  },
  {
   "property": "C126",
   "status": "partial",
   "theorems": [
    "Verif.Props.C126_nested_partial",
    "Verif.Props.C126_history_partial",
    "Verif.Props.C126_objects_end",
    "Verif.Props.C126_take",
    "Verif.Props.C126_ok_copies",
    "Verif.Props.C126_wrong_kind_panics",
    "Verif.Props.C126_assign_err_fails",
    "Verif.Props.C126_assign_ok_fails"
   ],
   "note": "Proved for every depth of nesting and every program, except that assignment between a value and an error does not take the kind of the source: the destructor then destroys an object twice (C126_assign_err_fails) or never (C126_assign_ok_fails); and except what C122 leaves out on the objects. Error types of class type with constructors and destructors of their own are not modelled."
  },
  {
   "property": "C127",
   "status": "proved",
   "theorems": [
    "Verif.Props.C127_equal",
    "Verif.Props.C127_equal_pointwise",
    "Verif.Props.C127_copy_equal",
    "Verif.Props.C127_assign_equal",
    "Verif.Props.C127_compare",
    "Verif.Props.C127_total_order",
    "Verif.Props.C127_less"
   ],
   "note": "Both operands have the same type. Linked lists, strings and options are left out: the library has no comparison for them."
  },
  {
   "property": "C128",
   "status": "partial",
   "theorems": [
    "Verif.Props.C128_print_partial",
    "Verif.Props.C128_moved_fails",
    "Verif.Props.C128_written_iff",
    "Verif.Props.C128_written_copy",
    "Verif.Props.C128_copy_prints_same"
   ],
   "note": "Proved for every depth and program, except that printing an object in which a linked list was moved from is undefined (C128_moved_fails). Strings as elements are not modelled here."
  },
  {
   "property": "C129",
   "status": "proved",
   "theorems": [
    "Verif.Props.C129_remove_if",
    "Verif.Props.C129_removed_end",
    "Verif.Props.C129_moved",
    "Verif.Props.C129_unique",
    "Verif.Props.C129_unique_pointwise"
   ],
   "note": "The predicate of remove_if calls one member of the element and tests the result; it must have an answer for every element in the list and leave it what it is. unique uses == of the elements, so they are vectors and results (C127)."
  },
  {
   "property": "C130",
   "status": "partial",
   "theorems": [
    "Verif.Props.C130_sort_partial",
    "Verif.Props.C130_sort_any_partial",
    "Verif.Props.C130_moved_fails"
   ],
   "note": "Proved for lists of every length but one; a list with exactly one element loses its end (C21_sort_single_fails, for elements that own no memory). Sorting a list that was moved from aborts or is undefined (C130_moved_fails)."
  },
  {
   "property": "C131",
   "status": "partial",
   "theorems": [
    "Verif.Props.C131_swap",
    "Verif.Props.C131_splice_partial",
    "Verif.Props.C131_merge_self",
    "Verif.Props.C131_merge_partial"
   ],
   "note": "Proved for lists with the same allocator. Missing, because the code damages the list (for elements that own no memory: C24_splice_empty_fails, C23_merge_into_empty_fails, C23_merge_rvalue_fails): splicing an empty list, merging into an empty list, and merging with std::move."
  },
  {
   "property": "C132",
   "status": "partial",
   "theorems": [
    "Verif.Props.C132_history_partial",
    "Verif.Props.C132_vectors_of_arrays_partial",
    "Verif.Props.C132_arrays_of_arrays_partial",
    "Verif.Props.C132_index_panics",
    "Verif.Props.C132_too_long_panics",
    "Verif.Props.C132_equal",
    "Verif.Props.C132_elements"
   ],
   "note": "Proved for all element types with a default constructor whose default-constructed objects may be move-assigned to: vectors and linked lists of anything, and arrays of these (C132_elements). Not strings as elements: moving an array move-assigns, and assigning strings of 16 bytes is undefined (C123). Not modelled for elements that own memory: iterators and from_iter."
  }
 ]
}