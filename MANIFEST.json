{
 "claims": [
  {
   "property": "C01",
   "status": "proved",
   "theorems": [
    "Eus.Num.C01_boxing_roundtrip",
    "Eus.Num.C01_boxed_is_integer",
    "Eus.Num.C01_boxing_injective",
    "Eus.Num.C01_fixnum_immediate",
    "Eus.Num.C01_two_representations"
   ],
   "note": "Round trip, injectivity, immediate in range; all 64-bit words."
  },
  {
   "property": "C02",
   "status": "partial",
   "theorems": [
    "Eus.Num.C02_minus_fixnums",
    "Eus.Num.C02_plus_fixnums_partial",
    "Eus.Num.C02_plus_two",
    "Eus.Num.C02_plus_same_sign_partial",
    "Eus.Num.C02_plus_undefined",
    "Eus.Num.C02_add1_sub1"
   ],
   "note": "MINUS exact and canonical for any list of fixnums. PLUS exact and canonical or undefined behaviour; defined for two arguments and for one sign. C02_plus_undefined: four fixnums on which + is undefined."
  },
  {
   "property": "C03",
   "status": "proved",
   "theorems": [
    "Eus.Num.C03_bignum_plus_fixnum"
   ],
   "note": "Any limb count; plus and minus, both orders."
  },
  {
   "property": "C04",
   "status": "proved",
   "theorems": [
    "Eus.Num.C04_bignum_plus_bignum",
    "Eus.Num.C04_minus_mixed"
   ],
   "note": "Any limb counts and signs."
  },
  {
   "property": "C05",
   "status": "proved",
   "theorems": [
    "Eus.Num.C05_negate",
    "Eus.Num.C05_negate_twice",
    "Eus.Num.C05_abs"
   ],
   "note": "Negation exact; twice is the identity on canonical bignums; abs exact."
  },
  {
   "property": "C06",
   "status": "partial",
   "theorems": [
    "Eus.Num.C06_fixnum_times_fixnum",
    "Eus.Num.C06_fixnum_product_partial",
    "Eus.Num.C06_bignum_product_partial",
    "Eus.Num.C06_fixnum_times_bignum_partial",
    "Eus.Num.C06_fixnum_times_bignum_wrong_sign",
    "Eus.Num.C06_fixnum_product_wrong_sign",
    "Eus.Num.C06_bignum_times_bignum_wrong"
   ],
   "note": "Fixnum*fixnum full. Longer products and fixnum*bignum off word boundaries. Wrong-sign and bignum*bignum results refuted by witnesses."
  },
  {
   "property": "C07",
   "status": "partial",
   "theorems": [
    "Eus.Num.C07_div_int_big",
    "Eus.Num.C07_bignum_quotient",
    "Eus.Num.C07_fixnum_quotient",
    "Eus.Num.C07_fixnum_by_bignum_partial",
    "Eus.Num.C07_fixnum_by_bignum_wrong",
    "Eus.Num.C07_divide_by_zero"
   ],
   "note": "Bignum and fixnum dividends by fixnum divisors full; fixnum by bignum except -2^61/2^61, refuted; division by zero undefined."
  },
  {
   "property": "C08",
   "status": "partial",
   "theorems": [
    "Eus.Num.C08_canonical_unique",
    "Eus.Num.C08_normalize_partial",
    "Eus.Num.C08_minus_canonical_partial",
    "Eus.Num.C08_not_canonical"
   ],
   "note": "Uniqueness of canonical form; normalization; closure of minus on fixnums, bignum minus fixnums and negation. Counterexamples for + * 1+ and two-word cancellation."
  },
  {
   "property": "C09",
   "status": "partial",
   "theorems": [
    "Eus.Num.C09_equal",
    "Eus.Num.C09_order_partial",
    "Eus.Num.C09_bad_pairs",
    "Eus.Num.C09_bad_pair_exists"
   ],
   "note": "= full on canonical integers; < > <= >= outside BadPair; every BadPair shown wrong."
  },
  {
   "property": "C10",
   "status": "partial",
   "theorems": [
    "Eus.Rd.C10_print",
    "Eus.Rd.C10_read_partial",
    "Eus.Rd.C10_roundtrip_partial",
    "Eus.Rd.C10_roundtrip_small_base_partial",
    "Eus.Rd.C10_base36_wrong",
    "Eus.Rd.C10_too_long_wrong"
   ],
   "note": "Printing gives the usual numeral for every integer and base; reading back for numerals of fewer than 1024 characters. Refuted: longer ones are an error; in bases above 21 short numerals are truncated to 32 bits."
  },
  {
   "property": "C11",
   "status": "proved",
   "theorems": [
    "Eus.Rd.C11_hex",
    "Eus.Rd.C11_limit"
   ],
   "note": "All digit strings up to 64 digits, both cases, through the whole reader; the 65th digit is left unread (C11_limit)."
  },
  {
   "property": "C12",
   "status": "partial",
   "theorems": [
    "Eus.Num.C12_ash_right_fixnum",
    "Eus.Num.C12_ash_left_word_partial",
    "Eus.Num.C12_ash_left_bignum_partial",
    "Eus.Num.C12_ash_bignum_left_partial",
    "Eus.Num.C12_ash_bignum_right_partial",
    "Eus.Num.C12_ash_left_wrong",
    "Eus.Num.C12_ash_undefined",
    "Eus.Num.C12_ash_malformed",
    "Eus.Num.C12_ash_bignum_right_defects"
   ],
   "note": "Right shifts: fixnums full for counts below 64, bignums floor-exact for counts leaving a word. Left shifts exact when the result fits a word, and into bignums for counts not divisible by 63 with the boundary bit clear. Wrong, malformed and undefined cases characterised."
  },
  {
   "property": "C13",
   "status": "partial",
   "theorems": [
    "Eus.Num.C13_logand_bignum",
    "Eus.Num.C13_logand_fixnums_partial",
    "Eus.Num.C13_logand_wrong",
    "Eus.Num.C13_logior_partial",
    "Eus.Num.C13_logior_wrong",
    "Eus.Num.C13_logxor",
    "Eus.Num.C13_lognand",
    "Eus.Num.C13_lognot",
    "Eus.Num.C13_logbitp",
    "Eus.Num.C13_logtest"
   ],
   "note": "logand exact when the first argument is a bignum; on fixnums exact iff the result fits 32 bits. logior exact on word-size integers. logxor, logeqv, lognand, lognor, lognot, logbitp, logtest exact on fixnums. Refutations for the rest."
  },
  {
   "property": "C14",
   "status": "proved",
   "theorems": [
    "Eus.Num.C14_ldb",
    "Eus.Num.C14_dpb",
    "Eus.Num.C14_ldb_dpb",
    "Eus.Num.C14_field_undefined"
   ],
   "note": "ldb for 1<=w<=63, p+w<=64; dpb for w>=1, p+w<=63; round trip. Other field bounds are undefined behaviour in C (C14_field_undefined)."
  },
  {
   "property": "C15",
   "status": "proved",
   "theorems": [
    "Eus.Lst.C15_expt"
   ],
   "note": "In any monoid; exactness of * on bignums is C06."
  },
  {
   "property": "C16",
   "status": "partial",
   "theorems": [
    "Eus.Rt.C16_gcd_partial",
    "Eus.Rt.C16_gcd_wrong",
    "Eus.Rt.C16_plus_partial",
    "Eus.Rt.C16_truncated_wrong",
    "Eus.Rt.C16_overflow_wrong",
    "Eus.Rt.C16_minus_partial",
    "Eus.Rt.C16_times_partial",
    "Eus.Rt.C16_quotient_partial",
    "Eus.Rt.C16_quotient_wrong",
    "Eus.Rt.C16_equal"
   ],
   "note": "Sums, differences, products, quotients (n-ary, mixed with fixnums) and = for all ratios whose steps fit a 32-bit int; outside that range refuted (C16_truncated_wrong, C16_overflow_wrong), as are integer quotients, the quotient of one ratio and division by zero (C16_quotient_wrong). = is proved without any range."
  },
  {
   "property": "C17",
   "status": "partial",
   "theorems": [
    "Eus.Mem.C17_disjoint_partial",
    "Eus.Mem.C17_fresh_partial",
    "Eus.Mem.C17_no_ub_partial",
    "Eus.Mem.C17_out_of_memory_wrong",
    "Eus.Mem.C17_overrun_wrong",
    "Eus.Mem.C17_huge_wrong"
   ],
   "note": "Full allocator (newchunk, splitheap, root_alloc_big/small, thread-local lists, gc, sweep, merge) for every history of allowed operations; requests up to buddysize[38] words, no closures. Refuted beyond: C17_huge_wrong (same block handed out twice), C17_overrun_wrong (undefined behaviour), C17_out_of_memory_wrong (runs for ever when malloc fails)."
  },
  {
   "property": "C18",
   "status": "partial",
   "theorems": [
    "Eus.Mem.C18_split_merge",
    "Eus.Mem.C18_merge_partial",
    "Eus.Mem.C18_unmerged_wrong",
    "Eus.Mem.C18_live_partial"
   ],
   "note": "Split/merge inverse on headers; all-free chunk becomes one block when the merge limit is reached before it is swept; live blocks never absorbed. Refuted with the default merge limit: C18_unmerged_wrong."
  },
  {
   "property": "C19",
   "status": "partial",
   "theorems": [
    "Eus.Mem.C19_figures_partial",
    "Eus.Mem.C19_lost_wrong",
    "Eus.Mem.C19_collected_partial"
   ],
   "note": "Accounting identity after any history; free lists never exceed the free figure, equal right after a collection. Refuted between collections: C19_lost_wrong."
  },
  {
   "property": "C20",
   "status": "partial",
   "theorems": [
    "Eus.Mem.C20_mark_partial",
    "Eus.Mem.C20_closure_wrong",
    "Eus.Mem.C20_terminates_partial",
    "Eus.Mem.C20_kept_partial"
   ],
   "note": "Marked = accessible (or in a local free list), termination for every object graph, blocks kept = accessible or hooked. Closures refuted: C20_closure_wrong."
  },
  {
   "property": "C21",
   "status": "partial",
   "theorems": [
    "Eus.Mem.C21_invisible_partial",
    "Eus.Mem.C21_freed_partial",
    "Eus.Mem.C21_dispose_wrong"
   ],
   "note": "Contents, roots, sizes, accessibility unchanged; freed block not accessible in any execution until handed out again. Disposal hooks refuted: C21_dispose_wrong."
  },
  {
   "property": "C22",
   "status": "proved",
   "theorems": [
    "Eus.Hash.C22_hash_table_is_map"
   ],
   "note": "Any hash function compatible with the test, any operation sequence, any initial size for which the table keeps a free slot (size/rehash+1 < size; sizes >= 3 with the default rehash size). For smaller sizes the operations hang: see C24."
  },
  {
   "property": "C23",
   "status": "proved",
   "theorems": [
    "Eus.Hash.C23_enumeration"
   ],
   "note": "Enumeration visits every live entry exactly once, under the same size condition as C22."
  },
  {
   "property": "C24",
   "status": "partial",
   "theorems": [
    "Eus.Hash.C24_operations_terminate_partial",
    "Eus.Hash.C24_full_table_never_returns",
    "Eus.Hash.C24_small_table_hangs"
   ],
   "note": "Every operation terminates for tables that keep a free slot; refuted for make-hash-table :size 1 and 2 (C24_small_table_hangs) and for any full table (C24_full_table_never_returns)."
  },
  {
   "property": "C25",
   "status": "partial",
   "theorems": [
    "Eus.Eql.C25_equal_hash_partial",
    "Eus.Eql.C25_object_wrong",
    "Eus.Eql.C25_range"
   ],
   "note": "Same hash for equal objects made of numbers, symbols, conses, strings and vectors (any heap); refuted for other equal objects such as ratios, big integers and instances, which hash by address (C25_object_wrong)."
  },
  {
   "property": "C26",
   "status": "proved",
   "theorems": [
    "Eus.Pkg.C26_history_refines_maps",
    "Eus.Pkg.C26_intern_gives_name",
    "Eus.Pkg.C26_different_names_different_symbols",
    "Eus.Pkg.C26_same_name_same_symbol",
    "Eus.Pkg.C26_interns_same_name_same_symbol",
    "Eus.Pkg.C26_present_symbol_stays",
    "Eus.Pkg.C26_unintern_other_symbol_wrong",
    "Eus.Pkg.C26_use_package_wrong",
    "Eus.Pkg.C26_shadow_fills_table_wrong"
   ],
   "note": "All histories of intern and make-package; also of export, use, unuse, unintern, import and shadow where the specification promises something. Refuted: unintern of a foreign symbol of the same name, two used packages exporting one name, 60 imports or shadowings filling the table."
  },
  {
   "property": "C27",
   "status": "partial",
   "theorems": [
    "Eus.Pkg.C27_export_then_use",
    "Eus.Pkg.C27_use_then_export",
    "Eus.Pkg.C27_unintern_only_that_name",
    "Eus.Pkg.C27_export_only_that_name",
    "Eus.Pkg.C27_unexport_wrong",
    "Eus.Pkg.C27_import_then_unintern_wrong",
    "Eus.Pkg.C27_export_again_wrong"
   ],
   "note": "use-package, export and unintern, all histories; unexport is refuted (breaks probe chains), as are import of a present symbol and repeated export followed by unintern."
  },
  {
   "property": "C28",
   "status": "partial",
   "theorems": [
    "Eus.Cls.C28_subclassp_partial",
    "Eus.Cls.C28_derivedp_partial",
    "Eus.Cls.C28_builtin_predicate_partial",
    "Eus.Cls.C28_redefine_wrong"
   ],
   "note": "Any sequence of definitions of new classes and instantiations, with renumbering; redefining a class with another superclass keeps its number (refuted)."
  },
  {
   "property": "C29",
   "status": "partial",
   "theorems": [
    "Eus.Cls.C29_lookup_partial",
    "Eus.Cls.C29_send_partial",
    "Eus.Cls.C29_nearest_unique",
    "Eus.Cls.C29_delete_other_thread_wrong",
    "Eus.Cls.C29_redefine_wrong",
    "Eus.Cls.C29_race_wrong",
    "Eus.Cls.C29_send_if_found_wrong",
    "Eus.Cls.C29_send_if_found_partial"
   ],
   "note": "Any history of defmethod, method-cache and sends by any threads, delete-method by the looking thread; refuted for delete-method by another thread, redefined superclass, a defmethod racing with a lookup, and send-if-found with forwarding."
  },
  {
   "property": "C30",
   "status": "partial",
   "theorems": [
    "Eus.Cpy.C30_copy_partial",
    "Eus.Cpy.C30_copy_enough_stack_partial",
    "Eus.Cpy.C30_one_slot_wrong",
    "Eus.Cpy.C30_empty_vector_wrong"
   ],
   "note": "Any heap, sharing and cycles, any stack size; objects that fill their second word. Records of at most one slot and empty vectors of pointers are refuted (NULL is followed)."
  },
  {
   "property": "C31",
   "status": "partial",
   "theorems": [
    "Eus.Seq.C31_remove_list",
    "Eus.Seq.C31_remove_default_list",
    "Eus.Seq.C31_remove_default_limit",
    "Eus.Seq.C31_remove_end_error",
    "Eus.Seq.C31_remove_vector_result",
    "Eus.Seq.C31_remove_vector_iff_partial",
    "Eus.Seq.C31_remove_vector_partial",
    "Eus.Seq.C31_remove_vector_count_wrong",
    "Eus.Seq.C31_remove_fill_pointer_wrong"
   ],
   "note": "Lists: full (every test, key-free predicate, start, end, count; an end beyond the list signals an error, the default end is 1000000). Vectors: exact iff characterised; wrong when :count stops early and when a fill pointer is set."
  },
  {
   "property": "C32",
   "status": "partial",
   "theorems": [
    "Eus.Cons.C32_delete_list",
    "Eus.Cons.C32_delete_list_default",
    "Eus.Cons.C32_delete_list_start_result",
    "Eus.Cons.C32_delete_list_start_partial",
    "Eus.Cons.C32_delete_start_wrong",
    "Eus.Seq.C32_delete_vector_result",
    "Eus.Seq.C32_delete_vector_iff_partial",
    "Eus.Seq.C32_delete_vector_partial",
    "Eus.Seq.C32_delete_vector_wrong"
   ],
   "note": "Lists in the cons-cell heap: destructive result, cells reused and no other cell touched, for :start 0; with :start > 0 the result is characterised and refuted (prefix lost). Vectors: exact iff characterised and refuted."
  },
  {
   "property": "C33",
   "status": "partial",
   "theorems": [
    "Eus.Seq.C33_substitute_list",
    "Eus.Seq.C33_nsubstitute_list",
    "Eus.Seq.C33_nsubstitute_vector",
    "Eus.Seq.C33_nsubstitute_length",
    "Eus.Seq.C33_substitute_all",
    "Eus.Seq.C33_substitute_vector_iff_partial",
    "Eus.Seq.C33_substitute_vector_partial",
    "Eus.Seq.C33_substitute_vector_count_wrong"
   ],
   "note": "Lists and the destructive versions full; substitute on vectors with :count characterised by an iff and refuted."
  },
  {
   "property": "C34",
   "status": "partial",
   "theorems": [
    "Eus.Seq.C34_find_list",
    "Eus.Seq.C34_find_vector",
    "Eus.Seq.C34_position_list",
    "Eus.Seq.C34_position_vector",
    "Eus.Seq.C34_find_position",
    "Eus.Seq.C34_count_vector",
    "Eus.Seq.C34_count_list_partial",
    "Eus.Seq.C34_count_at_end_is_nil"
   ],
   "note": "find and position full; count full on vectors; count on lists when the range does not touch the end, otherwise nil is returned instead of a number (refuted)."
  },
  {
   "property": "C35",
   "status": "partial",
   "theorems": [
    "Eus.Seq.C35_reverse_list",
    "Eus.Seq.C35_reverse_vector",
    "Eus.Seq.C35_reverse_displaced",
    "Eus.Seq.C35_nreverse_list",
    "Eus.Seq.C35_nreverse_vector",
    "Eus.Seq.C35_reverse_involutive",
    "Eus.Seq.C35_nreverse_displaced_wrong"
   ],
   "note": "reverse full on lists, vectors and displaced arrays; nreverse full on lists and simple vectors, refuted on displaced arrays."
  },
  {
   "property": "C36",
   "status": "partial",
   "theorems": [
    "Eus.Seq.C36_subseq_list_partial",
    "Eus.Seq.C36_subseq_list_tail_partial",
    "Eus.Seq.C36_subseq_at_end_error",
    "Eus.Seq.C36_subseq_vector",
    "Eus.Seq.C36_concatenate",
    "Eus.Seq.C36_split_join",
    "Eus.Seq.C36_split_join_list_partial"
   ],
   "note": "Vectors and concatenate full; list subseq whose start equals the length signals an error (refuted), otherwise full."
  },
  {
   "property": "C37",
   "status": "proved",
   "theorems": [
    "Eus.Seq.C37_remove_duplicates_list",
    "Eus.Seq.C37_remove_duplicates_vector",
    "Eus.Seq.C37_remove_duplicates_meaning",
    "Eus.Seq.C37_unique"
   ],
   "note": "Result keeps the last of each class of duplicates, in order, nothing added or lost; equivalence of list and vector versions."
  },
  {
   "property": "C38",
   "status": "partial",
   "theorems": [
    "Eus.Lst.C38_merge",
    "Eus.Lst.C38_merge_list_partial",
    "Eus.Lst.C38_merge_list_dominated_partial",
    "Eus.Lst.C38_merge_list_error",
    "Eus.Lst.C38_merge_list_wrong",
    "Eus.Lst.C38_merge_unstable"
   ],
   "note": "merge of vectors (or to a class other than cons) full. merge-list: full for predicates that accept NIL, and for others when list1 has one element or its last element precedes no element of list2; otherwise it signals an error (C38_merge_list_error, C38_merge_list_wrong). Order of equal elements is reversed (C38_merge_unstable)."
  },
  {
   "property": "C39",
   "status": "proved",
   "theorems": [
    "Eus.Lst.C39_adjoin",
    "Eus.Lst.C39_union",
    "Eus.Lst.C39_union_mem",
    "Eus.Lst.C39_intersection",
    "Eus.Lst.C39_set_difference",
    "Eus.Lst.C39_set_exclusive_or",
    "Eus.Lst.C39_subsetp"
   ],
   "note": "Any test; union, intersection and set-difference also with any key; see C68 for keys of the others."
  },
  {
   "property": "C40",
   "status": "partial",
   "theorems": [
    "Eus.Cons.C40_append",
    "Eus.Cons.C40_nconc",
    "Eus.Cons.C40_nconc_ignores_atom",
    "Eus.Cons.C40_butlast",
    "Eus.Cons.C40_nbutlast_partial",
    "Eus.Cons.C40_nbutlast_undefined",
    "Eus.Cons.C40_nthcdr"
   ],
   "note": "append, butlast, nthcdr full with sharing; nconc full on proper lists (an atom argument is dropped: C40_nconc_ignores_atom); nbutlast for n below the length, undefined behaviour otherwise."
  },
  {
   "property": "C41",
   "status": "partial",
   "theorems": [
    "Eus.Eql.C41_structural_partial",
    "Eus.Eql.C41_refl",
    "Eus.Eql.C41_symm",
    "Eus.Eql.C41_trans",
    "Eus.Eql.C41_padding_wrong"
   ],
   "note": "Equivalence relation on all objects; on finite objects it decides equality of trees (class, numbers, symbols, elements) when the padding of packed vectors is zero. Refuted otherwise: C41_padding_wrong, (equal (bit-not #*1) #*0)."
  },
  {
   "property": "C42",
   "status": "partial",
   "theorems": [
    "Eus.Arr.C42_aref",
    "Eus.Arr.C42_aset_aref",
    "Eus.Arr.C42_error_partial",
    "Eus.Arr.C42_negative_subscript_wrong",
    "Eus.Arr.C42_large_subscript_wrong",
    "Eus.Arr.C42_vector"
   ],
   "note": "Valid subscripts in full; errors for invalid non-negative subscripts; negative subscripts and those of 2^32 and more are not checked (refuted)."
  },
  {
   "property": "C43",
   "status": "partial",
   "theorems": [
    "Eus.Arr.C43_setbit_bit",
    "Eus.Arr.C43_aset_bit_partial",
    "Eus.Arr.C43_aset_bit_wrong"
   ],
   "note": "bit and setbit in full; (setf aref) on bit vectors characterised exactly, refuted for the last 33 bits of each 64-bit word."
  },
  {
   "property": "C44",
   "status": "partial",
   "theorems": [
    "Eus.Arr.C44_stack_partial",
    "Eus.Arr.C44_dimension_zero_wrong",
    "Eus.Arr.C44_displaced_wrong"
   ],
   "note": "Arrays of dimension at least 1 that are not displaced, any operation sequence; refuted for dimension 0 and displaced arrays."
  },
  {
   "property": "C45",
   "status": "partial",
   "theorems": [
    "Eus.Str.C45_order_partial",
    "Eus.Str.C45_eq_partial",
    "Eus.Str.C45_trichotomy_partial",
    "Eus.Str.C45_bounds_partial",
    "Eus.Str.C45_equal_partial",
    "Eus.Str.C45_nul_wrong",
    "Eus.Str.C45_long_wrong",
    "Eus.Str.C45_start_wrong"
   ],
   "note": "Order on strings without zero bytes; string= and string-equal on strings up to 100000000 bytes and valid positions. Refuted: zero bytes (C45_nul_wrong), longer strings (C45_long_wrong), positions outside the string (C45_start_wrong)."
  },
  {
   "property": "C46",
   "status": "proved",
   "theorems": [
    "Eus.Cons.C46_queue_step",
    "Eus.Cons.C46_queue_fifo"
   ],
   "note": "Queue on the cons-cell heap refines a FIFO for every operation sequence."
  },
  {
   "property": "C47",
   "status": "partial",
   "theorems": [
    "Eus.Lst.C47_plist",
    "Eus.Lst.C47_put_message_partial",
    "Eus.Lst.C47_put_message_wrong"
   ],
   "note": "putprop, remprop and get for any operation sequence. The message :put, which the property does not name but users use, works for new attributes only and signals an error for existing ones (C47_put_message_wrong)."
  },
  {
   "property": "C48",
   "status": "partial",
   "theorems": [
    "Eus.Ctl.C48_target",
    "Eus.Ctl.C48_refines_partial",
    "Eus.Ctl.C48_frames_partial",
    "Eus.Ctl.C48_notag_wrong",
    "Eus.Ctl.C48_cleanup_specials_wrong",
    "Eus.Ctl.C48_noblock_wrong",
    "Eus.Ctl.C48_zero_wrong"
   ],
   "note": "For every program of the modelled forms, in the interpreter: the frame machine refines a structural reference semantics (C48_refines_partial) and leaves all chains as they were (C48_frames_partial). Excluded, each with a witness: cleanup forms using outer special variables (C48_cleanup_specials_wrong), return-from without its block (C48_noblock_wrong), go without its tag (C48_notag_wrong), 0.0 (C48_zero_wrong), return-from over both a catch and an unwind-protect (C49_twice_wrong). Lexical variables, flet and compiled code are not modelled."
  },
  {
   "property": "C49",
   "status": "partial",
   "theorems": [
    "Eus.Ctl.C49_once_partial",
    "Eus.Ctl.C49_twice_wrong",
    "Eus.Ctl.C49_return_wrong"
   ],
   "note": "The journal of entries and cleanups is balanced for every program of C48_refines_partial. Refuted for return-from over both a catch and an unwind-protect (C49_twice_wrong) and for return-from in cleanup forms (C49_return_wrong)."
  },
  {
   "property": "C50",
   "status": "partial",
   "theorems": [
    "Eus.Lam.C50_value",
    "Eus.Lam.C50_known_partial",
    "Eus.Lam.C50_allow_partial",
    "Eus.Lam.C50_allow_wrong",
    "Eus.Lam.C50_compiled_partial",
    "Eus.Lam.C50_many_wrong"
   ],
   "note": "Interpreted functions with any lambda list, and the keyword tables of compiled ones up to 32 keywords. :allow-other-keys works only when it comes before the unknown keywords (C50_allow_wrong); more than 32 keywords in compiled code is undefined behaviour (C50_many_wrong)."
  },
  {
   "property": "C51",
   "status": "partial",
   "theorems": [
    "Eus.Lam.C51_lambda_partial",
    "Eus.Lam.C51_positions",
    "Eus.Lam.C51_aux_wrong"
   ],
   "note": "Interpreted functions, every lambda list of required, optional, rest (C51_positions), keyword and auxiliary parameters (C51_lambda_partial); with &aux and no &rest or &key, surplus arguments are accepted (C51_aux_wrong). Default forms are functions of the parameters bound before; special variables as parameters are not modelled."
  },
  {
   "property": "C52",
   "status": "proved",
   "theorems": [
    "Eus.Rd.C52_string"
   ],
   "note": "All byte strings, wherever they stand."
  },
  {
   "property": "C53",
   "status": "partial",
   "theorems": [
    "Eus.Rd.C53_symbol_partial",
    "Eus.Rd.C53_keyword_partial",
    "Eus.Rd.C53_wrong"
   ],
   "note": "Names the token syntax allows, and keywords; refuted for names like +1 and 1E, names with a backslash or a rejected control character, and very long names with bars."
  },
  {
   "property": "C54",
   "status": "partial",
   "theorems": [
    "Eus.Rd.C54_tree_partial",
    "Eus.Rd.C54_long_wrong",
    "Eus.Rd.C54_dot_wrong"
   ],
   "note": "All trees of good atoms with lists up to 65536 elements nested up to 32767 deep; refuted for longer lists and for the symbol named by a dot."
  },
  {
   "property": "C55",
   "status": "partial",
   "theorems": [
    "Eus.Rd.C55_comment_partial",
    "Eus.Rd.C55_unclosed_partial",
    "Eus.Rd.C55_in_list_partial",
    "Eus.Rd.C55_overlap_wrong",
    "Eus.Rd.C55_byte255_wrong",
    "Eus.Rd.C55_toplevel_wrong"
   ],
   "note": "All comments without a closing mark directly followed by a bar and without byte 255, both refuted; at top level read returns NIL for a comment (refuted)."
  },
  {
   "property": "C56",
   "status": "partial",
   "theorems": [
    "Eus.Io.C56_file_partial",
    "Eus.Io.C56_string_partial",
    "Eus.Io.C56_short_wrong",
    "Eus.Io.C56_error_wrong",
    "Eus.Io.C56_size_wrong"
   ],
   "note": "Any sequence of byte and string writes and flushes, any buffer size: nothing lost when every write takes all it is offered (C56_file_partial), string streams up to 1000000 bytes (C56_string_partial). A short write loses the rest (C56_short_wrong), a failed write drops characters silently (C56_error_wrong), an empty buffer hangs or overruns (C56_size_wrong). Message queues and sockets are not modelled."
  },
  {
   "property": "C57",
   "status": "partial",
   "theorems": [
    "Eus.Io.C57_input",
    "Eus.Io.C57_all",
    "Eus.Io.C57_unread",
    "Eus.Io.C57_unread_wrong",
    "Eus.Io.C57_string_wrong"
   ],
   "note": "C57_input: refinement of the byte sequence for every sequence of read, peek and unread of the character just read, every buffer state and every chunking; C57_all, C57_unread. More than one unread, or one before reading, may be dropped (C57_unread_wrong); unreading another character changes the program's string (C57_string_wrong). A failing read is retried for ever in the code and is not modelled."
  },
  {
   "property": "C58",
   "status": "partial",
   "theorems": [
    "Eus.Par.C58_result_partial",
    "Eus.Par.C58_port_partial",
    "Eus.Par.C58_rest_partial",
    "Eus.Par.C58_again_wrong"
   ],
   "note": "All schedules of any number of calls and threads, for programs that call wait-thread once per port: results, at most one run, one owner per port, and nothing lost when everything has come to rest (C58_rest_partial). A second wait-thread with the same port steals another call's result (C58_again_wrong)."
  },
  {
   "property": "C59",
   "status": "proved",
   "theorems": [
    "Eus.Par.C59_channel",
    "Eus.Par.C59_writers",
    "Eus.Par.C59_waiting"
   ],
   "note": "All schedules, any number of readers and writers."
  },
  {
   "property": "C60",
   "status": "partial",
   "theorems": [
    "Eus.Par.C60_before_partial",
    "Eus.Par.C60_last_partial",
    "Eus.Par.C60_count_partial",
    "Eus.Par.C60_two_partial",
    "Eus.Par.C60_wrong",
    "Eus.Par.C60_left_wrong",
    "Eus.Par.C60_spurious_wrong"
   ],
   "note": "No thread goes through before its round is complete if threads wake up only when signalled; exactly n-2 threads of every round are left waiting (C60_count_partial), so with n >= 3 the property is false (C60_wrong, C60_left_wrong); spurious wakeups break it too. The model takes cond-wait and make-cond as meant; see the comment of Barrier.step."
  },
  {
   "property": "C61",
   "status": "partial",
   "theorems": [
    "Eus.Par.C61_count",
    "Eus.Par.C61_zero_wrong",
    "Eus.Par.C61_interval_wrong"
   ],
   "note": "Positive, unchanged intervals: exact after every history (C61_count). Intervals <= 0 never fire, a changed interval counts only after the current one has run out."
  },
  {
   "property": "C62",
   "status": "proved",
   "theorems": [
    "Eus.Num.C62_mod",
    "Eus.Num.C62_mod_bignum_wrong"
   ],
   "note": "All integers that fit in a machine word, which is what the property ranges over; wider bignums are refuted (C62_mod_bignum_wrong)."
  },
  {
   "property": "C63",
   "status": "proved",
   "theorems": [
    "Eus.Num.C63_max_min"
   ],
   "note": "Any number of fixnums."
  },
  {
   "property": "C64",
   "status": "partial",
   "theorems": [
    "Eus.Arr.C64_fill_bits_partial",
    "Eus.Arr.C64_fill_bits_wrong",
    "Eus.Seq.C64_fill_list",
    "Eus.Seq.C64_fill_vector",
    "Eus.Seq.C64_fill_elements"
   ],
   "note": "Lists and word-element vectors in full; bit vectors for item 0 or odd, refuted for other even items."
  },
  {
   "property": "C65",
   "status": "proved",
   "theorems": [
    "Eus.Seq.C65_map",
    "Eus.Seq.C65_map_single"
   ],
   "note": "Any number of sequences."
  },
  {
   "property": "C66",
   "status": "proved",
   "theorems": [
    "Eus.Cons.C66_list_insert",
    "Eus.Cons.C66_list_delete"
   ],
   "note": "On the cons-cell heap with frame conditions."
  },
  {
   "property": "C67",
   "status": "partial",
   "theorems": [
    "Eus.Lst.C67_reduce",
    "Eus.Lst.C67_reduce_from_end_partial",
    "Eus.Lst.C67_reduce_from_end_wrong",
    "Eus.Lst.C67_reduce_from_end_range_wrong"
   ],
   "note": "From the left full. :from-end for commutative functions on the whole sequence; refuted otherwise."
  },
  {
   "property": "C68",
   "status": "partial",
   "theorems": [
    "Eus.Lst.C68_adjoin_key_wrong",
    "Eus.Lst.C68_set_exclusive_or_key_wrong",
    "Eus.Lst.C68_set_exclusive_or_result",
    "Eus.Lst.C68_subsetp_key_wrong",
    "Eus.Lst.C68_keys_partial"
   ],
   "note": "union, intersection, set-difference; refuted for adjoin, subsetp, set-exclusive-or."
  },
  {
   "property": "C69",
   "status": "partial",
   "theorems": [
    "Eus.Lst.C69_mapcar",
    "Eus.Lst.C69_mapcar_single",
    "Eus.Lst.C69_mapcan",
    "Eus.Lst.C69_mapcan_single",
    "Eus.Lst.C69_maplist",
    "Eus.Lst.C69_mapcon_result",
    "Eus.Lst.C69_mapcon_partial",
    "Eus.Lst.C69_mapcon_wrong",
    "Eus.Lst.C69_collect_if"
   ],
   "note": "mapcar, mapcan, collect-if full; maplist for one list; mapcon for results of at most one element, refuted otherwise."
  },
  {
   "property": "C70",
   "status": "proved",
   "theorems": [
    "Eus.Lst.C70_some",
    "Eus.Lst.C70_every",
    "Eus.Lst.C70_every_list",
    "Eus.Lst.C70_short_argument_error"
   ],
   "note": "Other arguments at least as long as the first; shorter ones are an error (C70_short_argument_error)."
  },
  {
   "property": "C71",
   "status": "partial",
   "theorems": [
    "Eus.Arr.C71_vectors",
    "Eus.Arr.C71_vectors_coerced",
    "Eus.Arr.C71_vectors_wrong",
    "Eus.Lst.C71_replace"
   ],
   "note": "Lists (no shared cells) and vectors of equal or different element type; overlapping ranges of one vector and ranges outside the vectors are undefined (refuted)."
  },
  {
   "property": "C72",
   "status": "proved",
   "theorems": [
    "Eus.Lst.C72_member",
    "Eus.Lst.C72_assoc",
    "Eus.Lst.C72_rassoc",
    "Eus.Lst.C72_pairlis"
   ],
   "note": "All lists, tests, keys."
  },
  {
   "property": "C73",
   "status": "proved",
   "theorems": [
    "Eus.Lst.C73_subst",
    "Eus.Lst.C73_copy_tree",
    "Eus.Lst.C73_flatten"
   ],
   "note": "subst for any equality test; copy-tree for structural equality."
  },
  {
   "property": "C74",
   "status": "proved",
   "theorems": [
    "Eus.Lst.C74_transpose"
   ],
   "note": "Any dimensions."
  },
  {
   "property": "C75",
   "status": "partial",
   "theorems": [
    "Eus.Arr.C75_integer_vector",
    "Eus.Arr.C75_integer_vector_wrong",
    "Eus.Arr.C75_string"
   ],
   "note": "Integers of 64 bits in integer-vectors, fixnums in strings; larger integers are truncated silently (refuted)."
  },
  {
   "property": "C76",
   "status": "proved",
   "theorems": [
    "Eus.Arr.C76_bitwise",
    "Eus.Arr.C76_size_error",
    "Eus.Arr.C76_bit_not",
    "Eus.Arr.C76_padding_wrong"
   ],
   "note": "All lengths; padding bits of the last word are not cleared (C76_padding_wrong)."
  },
  {
   "property": "C77",
   "status": "proved",
   "theorems": [
    "Eus.Arr.C77_initial_contents",
    "Eus.Arr.C77_short_row_wrong"
   ],
   "note": "Contents of the right shape; a short row is accepted (C77_short_row_wrong)."
  },
  {
   "property": "C78",
   "status": "partial",
   "theorems": [
    "Eus.Rd.C78_octal_partial",
    "Eus.Rd.C78_big_wrong"
   ],
   "note": "Values below 2^61 in at most 31 digits; larger values are refuted."
  },
  {
   "property": "C79",
   "status": "partial",
   "theorems": [
    "Eus.Rd.C79_field_partial",
    "Eus.Rd.C79_bignum_wrong"
   ],
   "note": "All integers but negative bignums with more places than digits, which are refuted."
  },
  {
   "property": "C80",
   "status": "partial",
   "theorems": [
    "Eus.Rt.C80_read_partial",
    "Eus.Rt.C80_roundtrip_partial",
    "Eus.Rt.C80_read_wrong"
   ],
   "note": "All texts whose two numbers fit an int, every base, through the whole reader; zero denominators and wider numbers refuted (C80_read_wrong)."
  },
  {
   "property": "C81",
   "status": "proved",
   "theorems": [
    "Eus.Eql.C81_superequal",
    "Eus.Eql.C81_sound",
    "Eus.Eql.C81_circular_wrong"
   ],
   "note": "Termination on every closed heap, marks restored, answers agree with equal and, on finite objects, with the trees. A circularity report does not mean a circular object: C81_circular_wrong."
  },
  {
   "property": "C82",
   "status": "partial",
   "theorems": [
    "Eus.Str.C82_trim_partial",
    "Eus.Str.C82_left_right_partial",
    "Eus.Str.C82_nul_wrong"
   ],
   "note": "Every string and every bag without the zero byte; with it C82_nul_wrong."
  },
  {
   "property": "C83",
   "status": "partial",
   "theorems": [
    "Eus.Str.C83_case_partial",
    "Eus.Str.C83_whole",
    "Eus.Str.C83_end_wrong"
   ],
   "note": "All strings and ends inside them (C83_whole without positions); beyond them C83_end_wrong."
  },
  {
   "property": "C84",
   "status": "partial",
   "theorems": [
    "Eus.Str.C84_substringp_partial"
   ],
   "note": "All strings whose first is at most 100000000 bytes long."
  },
  {
   "property": "C85",
   "status": "partial",
   "theorems": [
    "Eus.Str.C85_roundtrip_partial",
    "Eus.Str.C85_safe_partial",
    "Eus.Str.C85_return_wrong"
   ],
   "note": "All byte strings without a Return; with it C85_return_wrong."
  },
  {
   "property": "C86",
   "status": "partial",
   "theorems": [
    "Eus.Str.C86_digits_partial",
    "Eus.Str.C86_distinct",
    "Eus.Str.C86_base_wrong"
   ],
   "note": "Base 10; other bases refuted by C86_base_wrong."
  },
  {
   "property": "C87",
   "status": "partial",
   "theorems": [
    "Eus.Str.C87_namestring_partial",
    "Eus.Str.C87_parse_partial",
    "Eus.Str.C87_components_partial",
    "Eus.Str.C87_merge",
    "Eus.Str.C87_host_wrong"
   ],
   "note": "All texts without a colon that do not start with a tilde; with a colon C87_host_wrong. Tilde expansion reads the environment and is not modelled."
  },
  {
   "property": "C88",
   "status": "partial",
   "theorems": [
    "Eus.Ctl.Race.C88_alone_partial",
    "Eus.Ctl.Race.C88_single_partial",
    "Eus.Ctl.Race.C88_race_wrong"
   ],
   "note": "Refuted: setjmp_val is one variable for all threads (C88_race_wrong). Proved for a single thread, and for several when no other thread runs between a longjmp and its arrival."
  },
  {
   "property": "C89",
   "status": "partial",
   "theorems": [
    "Eus.Lam.C89_compiled_partial",
    "Eus.Lam.C89_same_partial",
    "Eus.Lam.C89_scope_wrong",
    "Eus.Lam.C89_aux_wrong",
    "Eus.Lam.C89_count_wrong"
   ],
   "note": "Holds for lambda lists without &aux after &key, with some keyword after &key, with at most 32 keywords, and defaults that do not look at keyword parameters; each exclusion has a witness (C89_aux_wrong, C89_count_wrong, C50_many_wrong, C89_scope_wrong)."
  },
  {
   "property": "C90",
   "status": "partial",
   "theorems": [
    "Eus.Io.C90_readline",
    "Eus.Io.C90_return",
    "Eus.Io.C90_lines_partial",
    "Eus.Io.C90_return_wrong",
    "Eus.Io.C90_file_partial"
   ],
   "note": "C90_readline: exact for all inputs; C90_lines_partial and C90_file_partial: round trip for lines that do not end in a Return; a line that does loses it (C90_return_wrong)."
  },
  {
   "property": "C91",
   "status": "partial",
   "theorems": [
    "Eus.Io.C91_bytes_partial",
    "Eus.Io.C91_eof",
    "Eus.Io.C91_offset_wrong"
   ],
   "note": "C91_bytes_partial: exact without an offset; C91_eof; with an offset the buffered bytes go to the wrong place, and a short string is overrun (C91_offset_wrong)."
  },
  {
   "property": "C92",
   "status": "partial",
   "theorems": [
    "Eus.Par.C92_partial",
    "Eus.Par.C92_wrong"
   ],
   "note": "If no tick falls between reading and clearing the semaphore's count; otherwise false (C92_wrong)."
  },
  {
   "property": "C93",
   "status": "partial",
   "theorems": [
    "Eus.Par.C93_bindings_partial",
    "Eus.Par.C93_nowait_wrong"
   ],
   "note": "If all calls are of thread; false with thread-no-wait (C93_nowait_wrong)."
  },
  {
   "property": "C94",
   "status": "partial",
   "theorems": [
    "Eus.Lex.C94_scoping_partial",
    "Eus.Lex.C94_shadow_wrong",
    "Eus.Lex.C94_flet_wrong",
    "Eus.Lex.C94_function_wrong",
    "Eus.Lex.C94_lambda_wrong",
    "Eus.Lex.C94_seqlet_wrong",
    "Eus.Lex.C94_and_wrong",
    "Eus.Lex.C94_upward_wrong",
    "Eus.Lex.C94_popped_wrong"
   ],
   "note": "For programs of the class Plain (see Spec) as long as no function is called after the form it was made in has been left; outside the class the interpreter differs from lexical scoping: C94_shadow_wrong, C94_flet_wrong, C94_function_wrong, C94_lambda_wrong, C94_seqlet_wrong, C94_upward_wrong, C94_popped_wrong, C94_and_wrong."
  },
  {
   "property": "C95",
   "status": "proved",
   "theorems": [
    "Eus.Lex.C95_let",
    "Eus.Lex.C95_seqlet",
    "Eus.Lex.C95_call",
    "Eus.Lex.C95_balanced"
   ],
   "note": "For every form that returns normally; exits through errors and throw are C48."
  },
  {
   "property": "C96",
   "status": "partial",
   "theorems": [
    "Eus.Cmp.C96_compiled_partial",
    "Eus.Cmp.C96_unused_wrong",
    "Eus.Cmp.C96_parallel_wrong",
    "Eus.Cmp.C96_closure_wrong",
    "Eus.Cmp.C96_global_wrong",
    "Eus.Cmp.C96_flet_wrong",
    "Eus.Cmp.C96_inner_wrong",
    "Eus.Cmp.C96_and_wrong",
    "Eus.Cmp.C96_upward_wrong"
   ],
   "note": "For files of the class CPlain (see Cmp/Spec), calls that end, and no function called after the form it was made in has been left; outside the class compiled code differs from lexical scoping: C96_unused_wrong, C96_parallel_wrong, C96_closure_wrong, C96_global_wrong, C96_flet_wrong, C96_inner_wrong, C96_and_wrong, C96_upward_wrong."
  },
  {
   "property": "C97",
   "status": "partial",
   "theorems": [
    "Eus.Cmp.C97_same_partial",
    "Eus.Cmp.C97_function_wrong",
    "Eus.Cmp.C97_flet_wrong"
   ],
   "note": "For files that are both Plain (C94) and CPlain (C96) and calls that end; otherwise they differ: C97_function_wrong, C97_flet_wrong and the theorems C96_*_wrong."
  },
  {
   "property": "C98",
   "status": "partial",
   "theorems": [
    "Eus.Bq.C98_backquote_partial",
    "Eus.Bq.C98_nested_wrong",
    "Eus.Bq.C98_dotted_wrong",
    "Eus.Bq.C98_vector_wrong"
   ],
   "note": "Templates of conses and atoms without inner backquotes and without commas in vectors (C98_backquote_partial); inner backquotes with ,,@, dotted ,@ and vectors are wrong: C98_nested_wrong, C98_dotted_wrong, C98_vector_wrong."
  },
  {
   "property": "C99",
   "status": "partial",
   "theorems": [
    "Eus.Lib.C99_encode",
    "Eus.Lib.C99_decode_partial",
    "Eus.Lib.C99_round_trip_partial",
    "Eus.Lib.C99_round_trip_wrong"
   ],
   "note": "Encoding is proved in full (C99_encode). Decoding gives s with one zero byte added unless the length is a multiple of 3 (C99_decode_partial, C99_round_trip_wrong)."
  },
  {
   "property": "C100",
   "status": "proved",
   "theorems": [
    "Eus.Lib.C100_qsort",
    "Eus.Lib.C100_not_strict_wrong"
   ],
   "note": "For strict orders, pure predicates and keys; with a predicate like <= it does not end (C100_not_strict_wrong)."
  },
  {
   "property": "C101",
   "status": "partial",
   "theorems": [
    "Eus.Lib.C101_list_permutation",
    "Eus.Lib.C101_generator",
    "Eus.Lib.C101_combi_partial",
    "Eus.Lib.C101_combi_zero_wrong",
    "Eus.Lib.C101_empty_wrong"
   ],
   "note": "Non-empty lists and r >= 1; for the empty list and r = 0 the result is nil instead of (nil) (C101_empty_wrong, C101_combi_zero_wrong)."
  },
  {
   "property": "C102",
   "status": "partial",
   "theorems": [
    "Eus.Lib.C102_init_partial",
    "Eus.Lib.C102_moment_unique",
    "Eus.Lib.C102_make_partial",
    "Eus.Lib.C102_round_trip_partial",
    "Eus.Lib.C102_2101_wrong",
    "Eus.Lib.C102_before_wrong",
    "Eus.Lib.C102_clock_wrong",
    "Eus.Lib.C102_weekday_wrong"
   ],
   "note": "From seconds: 1970 to 2100 (C102_init_partial), wrong before and after (C102_before_wrong, C102_2101_wrong). From a date: seconds right to 2099 if the present year is a leap year just when the given one is (C102_make_partial, C102_clock_wrong); the weekday is wrong (C102_weekday_wrong)."
  },
  {
   "property": "C103",
   "status": "partial",
   "theorems": [
    "Eus.Mat.C103_product_partial",
    "Eus.Mat.C103_chain_partial",
    "Eus.Mat.C103_square_wrong",
    "Eus.Mat.C103_chain_wrong"
   ],
   "note": "Any rounding. Not for (m* a a a) (C103_square_wrong), and m** for square matrices only, other products are errors (C103_chain_wrong)."
  },
  {
   "property": "C104",
   "status": "partial",
   "theorems": [
    "Eus.Mat.C104_sum",
    "Eus.Mat.C104_scale",
    "Eus.Mat.C104_transform",
    "Eus.Mat.C104_transpose",
    "Eus.Mat.C104_cross_partial",
    "Eus.Mat.C104_cross_wrong"
   ],
   "note": "In full except for v* stored into an argument, which is wrong (C104_cross_wrong)."
  },
  {
   "property": "C105",
   "status": "partial",
   "theorems": [
    "Eus.Mat.C105_solve_partial",
    "Eus.Mat.C105_inverse_partial",
    "Eus.Mat.C105_equation_partial",
    "Eus.Mat.C105_small_wrong",
    "Eus.Mat.C105_overwrite_wrong"
   ],
   "note": "Over an ordered field, that is without rounding. A matrix with small elements is called degenerated (C105_small_wrong); lu-solve into b itself is wrong (C105_overwrite_wrong)."
  },
  {
   "property": "C106",
   "status": "partial",
   "theorems": [
    "Eus.Mat.C106_rotate",
    "Eus.Mat.C106_about",
    "Eus.Mat.C106_two_partial",
    "Eus.Mat.C106_local_wrong"
   ],
   "note": "Over a field. The axes of 3 by 3 matrices and rotation about a vector in full; 2 by 2 matrices in local coordinates are wrong (C106_local_wrong)."
  },
  {
   "property": "C107",
   "status": "partial",
   "theorems": [
    "Eus.Mat.C107_determinant_partial",
    "Eus.Mat.C107_sign_wrong"
   ],
   "note": "The determinant times the sign of the permutation (C107_determinant_partial), so not the determinant (C107_sign_wrong)."
  },
  {
   "property": "C108",
   "status": "partial",
   "theorems": [
    "Eus.Mat.C108_less_partial",
    "Eus.Mat.C108_min_max",
    "Eus.Mat.C108_less_wrong"
   ],
   "note": "v< is <=, v> is >= (C108_less_wrong); vmin, vmax and minimal-box in full."
  },
  {
   "property": "C109",
   "status": "partial",
   "theorems": [
    "Eus.Mat.C109_inner_partial",
    "Eus.Mat.C109_abs_partial",
    "Eus.Mat.C109_inner_wrong",
    "Eus.Mat.C109_abs_wrong"
   ],
   "note": "If the sum is of 64 bits and the distances less than 2^31 (C109_inner_wrong, C109_abs_wrong). The reading of the uninitialised variable isf in VMINUS_ABS is not modelled."
  },
  {
   "property": "C110",
   "status": "partial",
   "theorems": [
    "Eus.Crd.C110_world_partial",
    "Eus.Crd.C110_spec",
    "Eus.Crd.C110_replace_wrong",
    "Eus.Crd.C110_shared_wrong",
    "Eus.Crd.C110_cycle_wrong",
    "Eus.Crd.C110_descendant_wrong"
   ],
   "note": "For every history without cycles and without moves relative to the object's own descendants; those are C110_cycle_wrong and C110_descendant_wrong. Storing without :changed leaves old world coordinates (C110_replace_wrong), :newcoords with an object shares storage (C110_shared_wrong). C110_spec: the specification is a total function."
  },
  {
   "property": "C111",
   "status": "proved",
   "theorems": [
    "Eus.Crd.C111_attach"
   ],
   "note": ""
  },
  {
   "property": "C112",
   "status": "proved",
   "theorems": [
    "Eus.Crd.C112_relative"
   ],
   "note": ":transform relative to the object's own descendants is left out, see C110_descendant_wrong."
  },
  {
   "property": "C113",
   "status": "partial",
   "theorems": [
    "Eus.Crd.C113_transform_coords_partial",
    "Eus.Crd.C113_inverse",
    "Eus.Crd.C113_self_wrong",
    "Eus.Crd.C113_plane_wrong"
   ],
   "note": "Over a commutative ring. Not when all three are the same object (C113_self_wrong); :inverse-transformation of a cascaded-coords in two dimensions is an error (C113_plane_wrong)."
  },
  {
   "property": "C114",
   "status": "partial",
   "theorems": [
    "Eus.Crd.C114_rigid_partial",
    "Eus.Crd.C114_spec",
    "Eus.Crd.C114_argument_wrong"
   ],
   "note": "Like C110, over a commutative ring, for orthogonal matrices and the methods of three dimensions. The matrix given to :rotate may be overwritten (C114_argument_wrong)."
  },
  {
   "property": "C115",
   "status": "proved",
   "theorems": [
    "Eus.Crd.C115_vectors"
   ],
   "note": "Over a commutative ring, for orthogonal matrices."
  },
  {
   "property": "C116",
   "status": "partial",
   "theorems": [
    "Eus.Srch.C116_search",
    "Eus.Srch.C116_graph",
    "Eus.Srch.C116_depth_first_infinite"
   ],
   "note": "In full for evaluators that accept NIL in place of a path (merge-list may call best-first's evaluator with NIL, see C118_best_first_wrong). C116_depth_first_infinite: depth-first need not end in an infinite graph."
  },
  {
   "property": "C117",
   "status": "proved",
   "theorems": [
    "Eus.Srch.C117_breadth_first",
    "Eus.Srch.C117_shortest"
   ],
   "note": "C117_breadth_first for any extension function, C117_shortest for graphs."
  },
  {
   "property": "C118",
   "status": "partial",
   "theorems": [
    "Eus.Srch.C118_branch_and_bound",
    "Eus.Srch.C118_best_first_partial",
    "Eus.Srch.C118_best_first_wrong"
   ],
   "note": "branch-and-bound in full, best-first for evaluators that accept NIL in place of a path; with others it signals an error (C118_best_first_wrong). That the C library sorts is a hypothesis."
  },
  {
   "property": "C119",
   "status": "partial",
   "theorems": [
    "Eus.Srch.C119_sort_partial",
    "Eus.Srch.C119_sort_after_exit_wrong",
    "Eus.Srch.C119_nested_sort_wrong"
   ],
   "note": "If every call of the predicate returns. After a throw or an error out of the predicate no sort ever returns (C119_sort_after_exit_wrong); nor does a sort whose predicate sorts (C119_nested_sort_wrong)."
  },
  {
   "property": "C120",
   "status": "partial",
   "theorems": [
    "Eus.Qua.C120_product",
    "Eus.Qua.C120_norm",
    "Eus.Qua.C120_inverse_transform",
    "Eus.Qua.C120_rotation_partial",
    "Eus.Qua.C120_negative_angle_wrong",
    "Eus.Qua.C120_inverse_quaternion_partial",
    "Eus.Qua.C120_inverse_quaternion_wrong",
    "Eus.Qua.C120_transform_partial",
    "Eus.Qua.C120_transform_wrong"
   ],
   "note": "Over the real numbers. :rotation for angles from 0 to 2 pi; the sign of the angle is lost (C120_negative_angle_wrong). :inverse-quaternion only for norm 1 (C120_inverse_quaternion_wrong). :transform-vector calls v++, which is not defined (C120_transform_wrong)."
  },
  {
   "property": "C121",
   "status": "proved",
   "theorems": [
    "Eus.Mac.C121_prog1",
    "Eus.Mac.C121_unless",
    "Eus.Mac.C121_until",
    "Eus.Mac.C121_pop",
    "Eus.Mac.C121_push",
    "Eus.Mac.C121_push_pop",
    "Eus.Mac.C121_incf",
    "Eus.Mac.C121_inc",
    "Eus.Mac.C121_decf"
   ],
   "note": "Places other than variables: C126."
  },
  {
   "property": "C122",
   "status": "proved",
   "theorems": [
    "Eus.Mac.C122_psetq",
    "Eus.Mac.C122_psetq_swap",
    "Eus.Mac.C122_do",
    "Eus.Mac.C122_doStar",
    "Eus.Mac.C122_steps"
   ],
   "note": ""
  },
  {
   "property": "C123",
   "status": "partial",
   "theorems": [
    "Eus.Mac.C123_dolist_partial",
    "Eus.Mac.C123_dotimes_partial",
    "Eus.Mac.C123_dotimes_times",
    "Eus.Mac.C123_dolist_return_wrong",
    "Eus.Mac.C123_dotimes_return_wrong"
   ],
   "note": "All but return: (return v) ends only the loop inside, v is lost and the result form is evaluated (C123_dolist_return_wrong, C123_dotimes_return_wrong)."
  },
  {
   "property": "C124",
   "status": "proved",
   "theorems": [
    "Eus.Mac.C124_tagbody",
    "Eus.Mac.C124_loop",
    "Eus.Mac.C124_loop_exits",
    "Eus.Mac.C124_prog",
    "Eus.Mac.C124_progStar"
   ],
   "note": "go out of functions and closures is not modelled."
  },
  {
   "property": "C125",
   "status": "proved",
   "theorems": [
    "Eus.Mac.C125_case"
   ],
   "note": ""
  },
  {
   "property": "C126",
   "status": "partial",
   "theorems": [
    "Eus.Mac.C126_setf",
    "Eus.Mac.C126_read_back",
    "Eus.Mac.C126_only",
    "Eus.Mac.C126_push_twice_wrong",
    "Eus.Mac.C126_incf_pop_wrong"
   ],
   "note": "setf in full. push, pop and incf evaluate the parts of the place two or three times (C126_push_twice_wrong, C126_incf_pop_wrong)."
  },
  {
   "property": "C127",
   "status": "proved",
   "theorems": [
    "Eus.Fmt.C127_text"
   ],
   "note": ""
  },
  {
   "property": "C128",
   "status": "proved",
   "theorems": [
    "Eus.Fmt.C128_pieces",
    "Eus.Fmt.C128_unfinished",
    "Eus.Fmt.C128_every"
   ],
   "note": "What prinx and sprintf of a float write is a parameter of the model. Control strings with more than ten parameters in a directive, or a parameter of 2^31 or more, are undefined behaviour: C133."
  },
  {
   "property": "C129",
   "status": "proved",
   "theorems": [
    "Eus.Fmt.C129_extra",
    "Eus.Fmt.C129_count",
    "Eus.Fmt.C129_few"
   ],
   "note": ""
  },
  {
   "property": "C130",
   "status": "proved",
   "theorems": [
    "Eus.Fmt.C130_append"
   ],
   "note": ""
  },
  {
   "property": "C131",
   "status": "partial",
   "theorems": [
    "Eus.Fmt.C131_field_partial",
    "Eus.Fmt.C131_wrong"
   ],
   "note": "Objects whose print method does not call format. With one that does, the field is too wide (C131_wrong)."
  },
  {
   "property": "C132",
   "status": "partial",
   "theorems": [
    "Eus.Fmt.C132_partial",
    "Eus.Fmt.C132_wrong"
   ],
   "note": "For calls that return. A call of ~A left by a throw or an error leaves the flag set, and ~S no longer quotes (C132_wrong)."
  },
  {
   "property": "C133",
   "status": "partial",
   "theorems": [
    "Eus.Fmt.C133_safe_partial",
    "Eus.Fmt.C133_parameters_wrong",
    "Eus.Fmt.C133_overlong_wrong",
    "Eus.Fmt.C133_float_wrong"
   ],
   "note": "With at most ten parameters, no V, and number texts below 256 bytes. An eleventh parameter and ~300F write outside the arrays (C133_parameters_wrong, C133_float_wrong)."
  },
  {
   "property": "C134",
   "status": "proved",
   "theorems": [
    "Eus.Fmt.C134_integer"
   ],
   "note": ""
  },
  {
   "property": "C135",
   "status": "partial",
   "theorems": [
    "Eus.Fmt.C135_newline_partial",
    "Eus.Fmt.C135_newlines_wrong",
    "Eus.Fmt.C135_omitted_wrong"
   ],
   "note": "~% alone. ~n% writes n+1 newlines (C135_newlines_wrong); ~,2F writes '2F' and uses no argument (C135_omitted_wrong)."
  },
  {
   "property": "C136",
   "status": "partial",
   "theorems": [
    "Eus.Syn.C136_semaphore_atomic",
    "Eus.Syn.C136_acquired_le_posts",
    "Eus.Syn.C136_wrap_wrong"
   ],
   "note": "For fewer than 2^32 posts. The count has 32 bits: after 2^32 posts a wait blocks (C136_wrap_wrong). The mutex and the condition variables of the thread library are taken as POSIX describes them."
  },
  {
   "property": "C137",
   "status": "partial",
   "theorems": [
    "Eus.Syn.C137_semaphore_no_lost_wakeup"
   ],
   "note": "For fewer than 2^32 posts."
  },
  {
   "property": "C138",
   "status": "partial",
   "theorems": [
    "Eus.Syn.C138_rwlock_exclusive",
    "Eus.Syn.C138_foreign_unlock_wrong",
    "Eus.Syn.C138_unlock_free_wrong"
   ],
   "note": "When rw_unlock is called only by threads that have the lock, and with fewer than 2^32-1 calls of rw_rdlock. Nothing checks the first: C138_foreign_unlock_wrong, C138_unlock_free_wrong."
  },
  {
   "property": "C139",
   "status": "partial",
   "theorems": [
    "Eus.Syn.C139_rwlock_no_lost_wakeup",
    "Eus.Syn.C139_writer_starves_wrong"
   ],
   "note": "No wake-up is lost, under the hypotheses of C138; but readers that overlap keep a writer out for ever (C139_writer_starves_wrong)."
  },
  {
   "property": "C140",
   "status": "partial",
   "theorems": [
    "Eus.Syn.C140_alloc_in_collector_wrong"
   ],
   "note": "False of the code: C140_alloc_in_collector_wrong, a thread that asks for the lock for reading while it has it for writing is never answered. That gc has the lock while it runs the :dispose methods is by reading."
  },
  {
   "property": "C141",
   "status": "proved",
   "theorems": [
    "Eus.Geo.C141_line",
    "Eus.Geo.C141_reverse_wrong"
   ],
   "note": "Integers are not bounded in the model. C141_reverse_wrong records that the points depend on the direction."
  },
  {
   "property": "C142",
   "status": "partial",
   "theorems": [
    "Eus.Geo.C142_intersection",
    "Eus.Geo.C142_overlap_wrong"
   ],
   "note": "With exact numbers. Of parallel lines NIL is returned also if they overlap (C142_overlap_wrong)."
  },
  {
   "property": "C143",
   "status": "partial",
   "theorems": [
    "Eus.Geo.C143_feet",
    "Eus.Geo.C143_meet",
    "Eus.Geo.C143_parallel_wrong",
    "Eus.Geo.C143_perpendicular"
   ],
   "note": "With exact numbers, for lines that are not parallel. Parallel lines without a tolerance give quotients by zero (C143_parallel_wrong)."
  },
  {
   "property": "C144",
   "status": "partial",
   "theorems": [
    "Eus.Geo.C144_viewport_partial",
    "Eus.Geo.C144_behind_wrong",
    "Eus.Geo.C144_zero_wrong"
   ],
   "note": "For ends with z >= 0, exact numbers. With an end behind the eye points that are not on the segment are returned (C144_behind_wrong), or there is a quotient by zero (C144_zero_wrong)."
  },
  {
   "property": "C145",
   "status": "proved",
   "theorems": [
    "Eus.Geo.C145_homo"
   ],
   "note": "With exact numbers."
  },
  {
   "property": "C146",
   "status": "partial",
   "theorems": [
    "Eus.Geo.C146_points",
    "Eus.Geo.C146_union",
    "Eus.Geo.C146_tolerance_wrong",
    "Eus.Geo.C146_grow_wrong"
   ],
   "note": "bounding-box-union ignores its tolerance (C146_tolerance_wrong); :grow is relative and applies to both sides (C146_grow_wrong)."
  },
  {
   "property": "C147",
   "status": "partial",
   "theorems": [
    "Eus.Geo.C147_common",
    "Eus.Geo.C147_intersection",
    "Eus.Geo.C147_line",
    "Eus.Geo.C147_compound_wrong",
    "Eus.Geo.C147_boxtest_wrong"
   ],
   "note": "Without a tolerance. With one: C147_compound_wrong, and :boxtest of a polygon changes the box it is given (C147_boxtest_wrong)."
  },
  {
   "property": "C148",
   "status": "proved",
   "theorems": [
    "Eus.Geo.C148_extreme",
    "Eus.Geo.C148_below",
    "Eus.Geo.C148_corners"
   ],
   "note": "With exact numbers."
  },
  {
   "property": "C149",
   "status": "partial",
   "theorems": [
    "Eus.Geo.C149_foot",
    "Eus.Geo.C149_distance",
    "Eus.Geo.C149_degenerate_wrong",
    "Eus.Geo.C149_end_wrong"
   ],
   "note": "Over the real numbers, for lines whose ends differ; else the distance is not a number (C149_degenerate_wrong). :end-point returns the end it is given (C149_end_wrong)."
  },
  {
   "property": "C150",
   "status": "partial",
   "theorems": [
    "Eus.Geo.C150_distance_partial",
    "Eus.Geo.C150_short_wrong"
   ],
   "note": "Over the real numbers, for lines that are parallel, or whose cross product squared is above 0.0001. Below, lines that cross are said to be apart (C150_short_wrong)."
  },
  {
   "property": "C151",
   "status": "partial",
   "theorems": [
    "Eus.Geo.C151_intersection",
    "Eus.Geo.C151_foot",
    "Eus.Geo.C151_tolerance_wrong",
    "Eus.Geo.C151_parallel_wrong"
   ],
   "note": "With exact numbers. :on-plane-p adds *epsilon* to the tolerance (C151_tolerance_wrong); a parallel line gives a quotient by zero (C151_parallel_wrong)."
  },
  {
   "property": "C152",
   "status": "proved",
   "theorems": [
    "Eus.Geo.C152_area",
    "Eus.Geo.C152_shoelace",
    "Eus.Geo.C152_positive",
    "Eus.Geo.C152_volume"
   ],
   "note": "With exact numbers."
  },
  {
   "property": "C153",
   "status": "proved",
   "theorems": [
    "Eus.Geo.C153_centroid",
    "Eus.Geo.C153_triangle"
   ],
   "note": "With exact numbers."
  },
  {
   "property": "C154",
   "status": "partial",
   "theorems": [
    "Eus.Geo.C154_convexp_partial",
    "Eus.Geo.C154_star_wrong",
    "Eus.Geo.C154_insidep"
   ],
   "note": ":insidep is proved for convex polygons over the real numbers (the branch for others, with angles, is not modelled). A star counts as convex (C154_star_wrong)."
  },
  {
   "property": "C155",
   "status": "partial",
   "theorems": [
    "Eus.Geo.C155_eliminate",
    "Eus.Geo.C155_hull_wrong"
   ],
   "note": "eliminate-concave-vertex is proved; the claim about grahamhull is false (C155_hull_wrong)."
  },
  {
   "property": "C156",
   "status": "proved",
   "theorems": [
    "Eus.Geo.C156_maxindex",
    "Eus.Geo.C156_farthest",
    "Eus.Geo.C156_pair"
   ],
   "note": "Over the real numbers."
  },
  {
   "property": "C157",
   "status": "partial",
   "theorems": [
    "Eus.Geo.C157_compare_partial",
    "Eus.Geo.C157_boundary_wrong"
   ],
   "note": "Unless the numbers differ by exactly epsilon (C157_boundary_wrong)."
  },
  {
   "property": "C158",
   "status": "proved",
   "theorems": [
    "Eus.Geo.C158_transform"
   ],
   "note": "With exact numbers."
  },
  {
   "property": "C159",
   "status": "proved",
   "theorems": [
    "Eus.Inf.C159_value"
   ],
   "note": "For formulas without negative literal exponents (C160_negative_wrong) and without chains of powers (an error). Values in an arbitrary ring with an arbitrary division; functions without side effects."
  },
  {
   "property": "C160",
   "status": "partial",
   "theorems": [
    "Eus.Inf.C160_answers",
    "Eus.Inf.C160_extra",
    "Eus.Inf.C160_dropped_wrong",
    "Eus.Inf.C160_forms_wrong",
    "Eus.Inf.C160_negative_wrong",
    "Eus.Inf.C160_calls_wrong"
   ],
   "note": "Proved: an answer for every input; two or more tokens too many are an error. Refuted: one token too many is dropped, so %(a -2) is a; f() is the variable f; a sign inside a product is taken for a variable; x ** -2 is 1; a call under a power is made as often as the exponent says."
  },
  {
   "property": "C161",
   "status": "proved",
   "theorems": [
    "Eus.Inf.C161_setq",
    "Eus.Inf.C161_setf"
   ],
   "note": "The symbol after % (a place read in two steps) is left out."
  },
  {
   "property": "C162",
   "status": "partial",
   "theorems": [
    "Eus.Circ.C162_print_circle_partial",
    "Eus.Circ.C162_quote_shared_wrong",
    "Eus.Circ.C162_quoted_label_wrong"
   ],
   "note": "For heaps without forms (quote x) and when nothing is cut off. Refuted: a shared list after QUOTE is printed as its number; in #1=(a '#1#) the label itself stays in the form. Instances and arrays of more dimensions are not modelled."
  },
  {
   "property": "C163",
   "status": "partial",
   "theorems": [
    "Eus.Circ.C163_restored_partial",
    "Eus.Circ.C163_length_cut_wrong",
    "Eus.Circ.C163_level_cut_wrong",
    "Eus.Circ.C163_quote_shared_wrong"
   ],
   "note": "Same conditions. Refuted: a shared object that is cut off by *print-length* or *print-level*, or that occurs only after QUOTE, is left with a number in the place of its first element."
  },
  {
   "property": "C164",
   "status": "partial",
   "theorems": [
    "Eus.Flt.C164_tag",
    "Eus.Flt.C164_value_partial",
    "Eus.Flt.C164_relative_partial",
    "Eus.Flt.C164_monotone",
    "Eus.Flt.C164_exact_iff",
    "Eus.Flt.C164_integers",
    "Eus.Flt.C164_again",
    "Eus.Flt.C164_cut_wrong",
    "Eus.Flt.C164_nan_wrong"
   ],
   "note": "The tag, the sign, the order, infinities, integers up to 2^51 and everything whose low two bits are zero are kept; the value in general only up to less than four units in the last place (relative 2^-50). Refuted: the double nearest to 0.1 is changed; a NaN can become an infinity."
  },
  {
   "property": "C165",
   "status": "partial",
   "theorems": [
    "Eus.Flt.C165_floor_partial",
    "Eus.Flt.C165_ceiling_partial",
    "Eus.Flt.C165_round_partial",
    "Eus.Flt.C165_truncate_partial",
    "Eus.Flt.C165_short",
    "Eus.Flt.C165_undefined",
    "Eus.Flt.C165_large_wrong",
    "Eus.Flt.C165_floor_wrong",
    "Eus.Flt.C165_truncate_wrong"
   ],
   "note": "floor, ceiling and round are right up to 2^24 in magnitude, and below 2^31 exactly when the result has at most 24 significant bits; truncate below 2^23 unless the float is within 2^-24 of the next integer. Refuted: (floor 16777217.5), (truncate 0.99999999) = 1; from 2^31 on the behaviour is undefined."
  },
  {
   "property": "C166",
   "status": "partial",
   "theorems": [
    "Eus.Flt.C166_fixed_partial",
    "Eus.Flt.C166_scientific",
    "Eus.Flt.C166_zero",
    "Eus.Flt.C166_lost_wrong",
    "Eus.Flt.C166_small_wrong"
   ],
   "note": "Relative error at most 5e-6 from 1 on and 5e-7 in scientific notation; from 0.0001 to 1 only the absolute error 5e-7 is bounded. Refuted: different floats print alike; 1053/2^23 prints as 0.000126, off by 0.4 percent. Infinities and NaN are not modelled."
  },
  {
   "property": "C167",
   "status": "partial",
   "theorems": [
    "Eus.Mix.C167_plus_partial",
    "Eus.Mix.C167_minus_partial",
    "Eus.Mix.C167_times_partial",
    "Eus.Mix.C167_quotient_partial",
    "Eus.Mix.C167_errors",
    "Eus.Mix.C167_plus_bignum_wrong",
    "Eus.Mix.C167_plus_back_wrong",
    "Eus.Mix.C167_minus_ratio_wrong",
    "Eus.Mix.C167_minus_bignum_wrong",
    "Eus.Mix.C167_times_zero_wrong",
    "Eus.Mix.C167_reciprocal_wrong"
   ],
   "note": "For fixnums, ratios and floats with fixnum intermediate results; - without a ratio before the first float, * without a zero before a float, / with a ratio or float among the first two. Refuted: after a bignum + passes over floats, ratios and non-numbers; a float subtracted from a ratio is dropped, from a bignum undefined; (* 0 1 x) ignores x; (/ 1/2) is 1/2; (/ 2) divides by 8*2^-1074; (*) reads an argument that is not there."
  },
  {
   "property": "C168",
   "status": "partial",
   "theorems": [
    "Eus.Mix.C168_order_partial",
    "Eus.Mix.C168_equal_partial",
    "Eus.Mix.C168_chain_wrong",
    "Eus.Mix.C168_nan_wrong",
    "Eus.Mix.C168_equal_order_wrong",
    "Eus.Mix.C168_not_number_wrong"
   ],
   "note": "For fixnums and floats (and ratios for =) on which the conversion keeps the order. Refuted: (> 1.0 5.0 -BIG) is true; NaN is greater and less than everything; = between a float and a bignum depends on the order; a non-number next to a bignum is passed over."
  },
  {
   "property": "C169",
   "status": "proved",
   "theorems": [
    "Eus.Fgn.C169_layout",
    "Eus.Fgn.C169_declared",
    "Eus.Fgn.C169_tight"
   ],
   "note": "For all declarations. The slot list of an inner structure is any list."
  },
  {
   "property": "C170",
   "status": "partial",
   "theorems": [
    "Eus.Fgn.C170_integer",
    "Eus.Fgn.C170_same",
    "Eus.Fgn.C170_double",
    "Eus.Fgn.C170_float",
    "Eus.Fgn.C170_other",
    "Eus.Fgn.C170_error",
    "Eus.Fgn.C170_negative_wrong",
    "Eus.Fgn.C170_types_wrong"
   ],
   "note": "Little endian, 64 bit. Conversions between float, double and integers are arbitrary functions of the bit patterns. Refuted: a negative index is not noticed and changes another slot; slots of type :int, :word and :character can be declared but not used."
  },
  {
   "property": "C171",
   "status": "partial",
   "theorems": [
    "Eus.Fgn.C171_layout_partial",
    "Eus.Fgn.C171_size_partial",
    "Eus.Fgn.C171_nested_wrong",
    "Eus.Fgn.C171_size_wrong"
   ],
   "note": "Proved if every inner structure begins with a member of its largest alignment and needs no filling, so for all structures without inner ones; the size up to the filling at the end. Refuted: inner structures that begin with a smaller member; the size."
  },
  {
   "property": "C172",
   "status": "partial",
   "theorems": [
    "Eus.Fgn.C172_places_partial",
    "Eus.Fgn.C172_get_partial",
    "Eus.Fgn.C172_set_partial",
    "Eus.Fgn.C172_chars_partial",
    "Eus.Fgn.C172_nested_wrong",
    "Eus.Fgn.C172_char_wrong",
    "Eus.Fgn.C172_overflow_wrong"
   ],
   "note": "Places for declarations without arrays in inner structures; values for structures without pointers and inner structures with different names. Refuted: accessors of slots behind an inner array reach into it; setting one character of an array of characters writes to an absolute address; a string too long runs over the next slots."
  },
  {
   "property": "C173",
   "status": "partial",
   "theorems": [
    "Eus.Ppr.C173_pprint_partial",
    "Eus.Ppr.C173_print_size",
    "Eus.Ppr.C173_name_wrong",
    "Eus.Ppr.C173_quote_wrong",
    "Eus.Ppr.C173_setq_wrong",
    "Eus.Ppr.C173_dotted_wrong",
    "Eus.Ppr.C173_overflow_wrong"
   ],
   "note": "For every print-size and fboundp, so for every choice of line breaks; trees that prin1 prints readably (C10), with special forms in their syntax. The print-size of the code is shown to be defined without fixnums of 16 characters or more. Refuted: names that need bars lose them in defun; quote with two arguments, setq with an odd number lose the last; dotted parameter lists that do not fit are an error; print-size overruns its buffer on long fixnums. Vectors and arrays are not modelled."
  },
  {
   "property": "C174",
   "status": "proved",
   "theorems": [
    "Eus.Ppr.Tab.C174_table",
    "Eus.Ppr.Tab.C174_print_size"
   ],
   "note": "Objects are the texts princ writes, with print-size their length (proved for symbols and strings)."
  },
  {
   "property": "C175",
   "status": "partial",
   "theorems": [
    "Eus.Ppr.C175_print_size_partial",
    "Eus.Ppr.C175_print_size_wrong"
   ],
   "note": "Base 10. Refuted for strings (quotes), keywords (colon), names with bars and (function x)."
  },
  {
   "property": "C176",
   "status": "proved",
   "theorems": [
    "Eus.Arg.C176_parse",
    "Eus.Arg.C176_valued",
    "Eus.Arg.C176_one",
    "Eus.Arg.C176_read_wrong",
    "Eus.Arg.C176_negative_wrong"
   ],
   "note": "For arguments without :read on flags that take no value, where using the flag is an error (C176_read_wrong). A negative number on its own is a flag (C176_negative_wrong). read-from-string is any partial function on strings. Not modelled: help texts, and that destinations named as methods of the parser (:plist, :parse-args) redefine those methods."
  },
  {
   "property": "C177",
   "status": "proved",
   "theorems": [
    "Eus.Arg.C177_declare",
    "Eus.Arg.C177_default"
   ],
   "note": "With fresh lists of flags: add-argument sorts the list it is given in place for the help text, so a second call with the same constant sees another first flag."
  },
  {
   "property": "C178",
   "status": "partial",
   "theorems": [
    "Eus.Cex.C178_refines_partial",
    "Eus.Cex.C178_interpreter_partial",
    "Eus.Cex.C178_flush_wrong",
    "Eus.Cex.C178_go_wrong",
    "Eus.Cex.C178_specials_wrong",
    "Eus.Cex.C178_closure_wrong"
   ],
   "note": "For exits in the same function or cleanup form that leave no catch lying just where the block begins: the frame of such a catch stays in force and is overwritten, as in (defun f () (catch 'a (return-from f 1))) (C178_flush_wrong, C178_go_wrong). Cleanup forms end with a value and use only special variables they bind themselves (C178_specials_wrong); exits in them are refused or run into C179_twice_wrong. C178_interpreter_partial compares with the interpreter of Verif/Ctl."
  },
  {
   "property": "C179",
   "status": "partial",
   "theorems": [
    "Eus.Cex.C179_once_partial",
    "Eus.Cex.C179_twice_wrong",
    "Eus.Cex.C179_error_wrong"
   ],
   "note": "For the programs of C178. A cleanup form that is left by an exit or an error runs twice: its frame is removed after it ends (C179_twice_wrong, C179_error_wrong)."
  },
  {
   "property": "C180",
   "status": "partial",
   "theorems": [
    "Eus.Cnd.C180_reads_partial",
    "Eus.Cnd.C180_flag",
    "Eus.Cnd.C180_comment_wrong",
    "Eus.Cnd.C180_vector_wrong",
    "Eus.Cnd.C180_quote_wrong",
    "Eus.Cnd.C180_tail_wrong",
    "Eus.Cnd.C180_chain_wrong",
    "Eus.Cnd.C180_toplevel_wrong",
    "Eus.Cnd.C180_excluded_eval_wrong",
    "Eus.Cnd.C180_flag_wrong"
   ],
   "note": "Conditionals and block comments between the elements of lists; elsewhere the code is wrong: a comment after the flag takes the place of the form (C180_comment_wrong), vectors and quotes get the null pointer (C180_vector_wrong, C180_quote_wrong), the dotted end (C180_tail_wrong), two conditionals in a row (C180_chain_wrong), nil at the top level (C180_toplevel_wrong), a comment before the flag crashes (C180_flag_wrong), #. in excluded forms is evaluated (C180_excluded_eval_wrong). Tokens are given; Verif/Rd has the characters."
  },
  {
   "property": "C181",
   "status": "partial",
   "theorems": [
    "Eus.Cnd.C181_wrong",
    "Eus.Cnd.C181_eof_partial",
    "Eus.Cnd.C181_tail_partial"
   ],
   "note": "False for lists: a list cut by the end of the file is read as if it were closed (C181_wrong, for every list). It holds for empty texts, quotes and dotted ends (C181_eof_partial, C181_tail_partial)."
  },
  {
   "property": "C182",
   "status": "partial",
   "theorems": [
    "Eus.Ldr.C182_required",
    "Eus.Ldr.C182_kept",
    "Eus.Ldr.C182_once_partial",
    "Eus.Ldr.C182_first_partial",
    "Eus.Ldr.C182_cycle_wrong",
    "Eus.Ldr.C182_diverges_wrong",
    "Eus.Ldr.C182_failed"
   ],
   "note": "At most once and termination for dependencies without cycles, at most once for any dependencies when module files begin with provide. In a cycle without that a module is loaded twice (C182_cycle_wrong) or require never returns (C182_diverges_wrong), since provide comes after the load. Package, versions and unloading are not modelled."
  },
  {
   "property": "C183",
   "status": "proved",
   "theorems": [
    "Eus.Ldr.C183_search",
    "Eus.Ldr.C183_none",
    "Eus.Ldr.C183_neighbour"
   ],
   "note": "File names are directory lists and base names; the extension search is that of try-load."
  },
  {
   "property": "C184",
   "status": "partial",
   "theorems": [
    "Eus.Opn.C184_output_partial",
    "Eus.Opn.C184_wrong",
    "Eus.Opn.C184_input"
   ],
   "note": "Proved for every combination of options outside a list, with every file, data, division into writes and buffer size; for each combination in the list it is proved that the session ends in another way than it should, for every file and data (C184_wrong). Input is complete."
  },
  {
   "property": "C185",
   "status": "partial",
   "theorems": [
    "Eus.Opn.C185_output_partial",
    "Eus.Opn.C185_io_wrong",
    "Eus.Opn.C185_io_partial"
   ],
   "note": "Proved for :direction :output. False for :io (C185_io_wrong: every text up to the buffer size is lost and close gives nil); proved for :io when finish-output is the last thing before close."
  },
  {
   "property": "C186",
   "status": "proved",
   "theorems": [
    "Eus.Osz.C186_objects",
    "Eus.Osz.C186_immediate"
   ],
   "note": "For every closed heap, object and option: the visited objects are a list without repetition of exactly the reachable ones, the three sums are over it, the marks are all off afterwards, and the recursion is at most as deep as the heap has objects. The limit of the C stack and the race between threads for the counters are not modelled."
  },
  {
   "property": "C187",
   "status": "proved",
   "theorems": [
    "Eus.Dda.C187_line"
   ],
   "note": "For all integers (without overflow). The generator for ellipses uses floats and is not modelled."
  },
  {
   "property": "C188",
   "status": "partial",
   "theorems": [
    "Eus.Hst.C188_shows",
    "Eus.Hst.C188_number",
    "Eus.Hst.C188_back",
    "Eus.Hst.C188_pattern_partial",
    "Eus.Hst.C188_oldest_wrong"
   ],
   "note": "Shown entries, numbers and steps back in full; patterns for all entries but the oldest, which is never found (C188_oldest_wrong). That replace copies an array onto itself upwards is taken as it works in practice (the C code is a memcpy, see C71)."
  },
  {
   "property": "C189",
   "status": "partial",
   "theorems": [
    "Eus.Hst.C189_key",
    "Eus.Hst.C189_edit_partial",
    "Eus.Hst.C189_empty_wrong",
    "Eus.Hst.C189_key_wrong"
   ],
   "note": "All keys; an empty line gives nil like ^C (C189_empty_wrong), keys above 127 are an error (C189_key_wrong). The screen is not modelled."
  },
  {
   "property": "C190",
   "status": "partial",
   "theorems": [
    "Eus.Hul.C190_quickhull_partial",
    "Eus.Hul.C190_vertical_wrong"
   ],
   "note": "For every ordered ring, non-empty list with two different x's: the result is the hull, with recursion no deeper than the list is long. Missing: points that all have the same x, for which C190_vertical_wrong proves that the result is one point twice. Rounding is not modelled; the normal is the default one."
  },
  {
   "property": "C191",
   "status": "proved",
   "theorems": [
    "Eus.Brp.C191_faces",
    "Eus.Brp.C191_closed",
    "Eus.Brp.C191_body"
   ],
   "note": "For every list of fitting faces: the making succeeds and the store is the boundary representation of them (C191_faces), closed if they are (C191_closed), and a body of the faces in any order has each edge and corner once (C191_body). Coordinates, normals and angles are not modelled."
  },
  {
   "property": "C192",
   "status": "proved",
   "theorems": [
    "Eus.Brp.C192_prism",
    "Eus.Brp.C192_needs_three",
    "Eus.Brp.C192_cone",
    "Eus.Brp.C192_torus",
    "Eus.Brp.C192_revolution"
   ],
   "note": "For all sizes from three on and pairwise different vertices. C192_needs_three shows that with two points a face overwrites another. The turning of the points (rotate-vertices) is not modelled: rings are arbitrary lists of vertices; a contour that touches the axis in between is outside the code's own conditions."
  },
  {
   "property": "C193",
   "status": "partial",
   "theorems": [
    "Eus.Trc.C193_session_partial",
    "Eus.Trc.C193_transparent_partial",
    "Eus.Trc.C193_restored_partial",
    "Eus.Trc.C193_untrace_all",
    "Eus.Trc.C193_macro_wrong",
    "Eus.Trc.C193_redefine_wrong",
    "Eus.Trc.C193_again_wrong",
    "Eus.Trc.C193_untime_wrong",
    "Eus.Trc.C193_special_wrong",
    "Eus.Trc.C193_loop_wrong"
   ],
   "note": "Refinement to an evaluator that knows nothing of wrappers, in both directions, and equality of results with the session without the commands, for sessions given with care (Spec.OkCmd). For each condition a theorem ending in _wrong shows that the code breaks the claim without it."
  },
  {
   "property": "C194",
   "status": "partial",
   "theorems": [
    "Eus.Rgc.C194_kept_partial",
    "Eus.Rgc.C194_freed_partial",
    "Eus.Rgc.C194_region_wrong",
    "Eus.Rgc.C194_chunk_wrong",
    "Eus.Rgc.C194_stale_wrong",
    "Eus.Rgc.C194_dispose_wrong"
   ],
   "note": "Transition system with one step per shared access, invariant (snapshot at the beginning) kept by all 27 kinds of step; safety and one-cycle completeness for histories of careful steps. For each condition of careful a theorem ending in _wrong gives a history, careful otherwise, that frees an object in use."
  },
  {
   "property": "C195",
   "status": "partial",
   "theorems": [
    "Eus.Top.C195_session_partial",
    "Eus.Top.C195_bindings",
    "Eus.Top.C195_resume",
    "Eus.Top.C195_stars",
    "Eus.Top.C195_plus_partial",
    "Eus.Top.C195_reset_wrong",
    "Eus.Top.C195_eof_wrong",
    "Eus.Top.C195_plus_wrong",
    "Eus.Top.C195_blank_wrong",
    "Eus.Top.C195_symbol_wrong"
   ],
   "note": "Refinement of the levels, catch tags and value cells to a specification with a stack of interrupted computations and a list of lets. Partial: with the selector, sessions with comma-symbol lines are excluded (C195_symbol_wrong), and + needs sessions without interrupts and empty lines (C195_plus_wrong, C195_blank_wrong). No unwind-protect and no user catch in the computations."
  },
  {
   "property": "C196",
   "status": "partial",
   "theorems": [
    "Eus.Utt.C196_escape",
    "Eus.Utt.C196_counts",
    "Eus.Utt.C196_error",
    "Eus.Utt.C196_error_passed_wrong",
    "Eus.Utt.C196_suite_partial",
    "Eus.Utt.C196_suite_wrong",
    "Eus.Utt.C196_xml_partial",
    "Eus.Utt.C196_quote_wrong",
    "Eus.Utt.C196_name_wrong",
    "Eus.Utt.C196_file_partial",
    "Eus.Utt.C196_file_wrong"
   ],
   "note": "Counts, exit status, order and escaping in full. The document for names without < and double quote and messages without double quote and backslash; the suite for names defined once; the file for names that do not begin with a character of the option. Each restriction has a theorem ending in _wrong."
  },
  {
   "property": "C197",
   "status": "partial",
   "theorems": [
    "Eus.Pnm.C197_pgm",
    "Eus.Pnm.C197_pgm_short",
    "Eus.Pnm.C197_size",
    "Eus.Pnm.C197_ascii_pgm",
    "Eus.Pnm.C197_ascii_ppm",
    "Eus.Pnm.C197_ppm_partial",
    "Eus.Pnm.C197_ppm_read_wrong",
    "Eus.Pnm.C197_ppm_short_wrong",
    "Eus.Pnm.C197_ppm_more_wrong",
    "Eus.Pnm.C197_ppm_buffer_wrong",
    "Eus.Pnm.C197_next_wrong",
    "Eus.Pnm.C197_comment_wrong",
    "Eus.Pnm.C197_round",
    "Eus.Pnm.C197_write",
    "Eus.Pnm.C197_write_wrong",
    "Eus.Pnm.C197_single_wrong",
    "Eus.Pnm.C197_depth_wrong"
   ],
   "note": "Gray pictures and pictures in decimal in full. Binary color pictures for files with nothing behind the picture and no one-byte reads. The restrictions are needed: each has a theorem ending in _wrong."
  },
  {
   "property": "C198",
   "status": "partial",
   "theorems": [
    "Eus.Prc.C198_connect_partial",
    "Eus.Prc.C198_enough",
    "Eus.Prc.C198_rebound_wrong",
    "Eus.Prc.C198_routing",
    "Eus.Prc.C198_input_end",
    "Eus.Prc.C198_output_end",
    "Eus.Prc.C198_close_partial",
    "Eus.Prc.C198_inherit_wrong",
    "Eus.Prc.C198_popen_wrong",
    "Eus.Prc.C198_twice_wrong",
    "Eus.Prc.C198_quiet_partial",
    "Eus.Prc.C198_flush_wrong",
    "Eus.Prc.C198_limit_wrong",
    "Eus.Prc.C198_fork_wrong",
    "Eus.Prc.C198_xfork_partial",
    "Eus.Prc.C198_xfork_wrong"
   ],
   "note": "Connections, ends of input and output for every history. Conditions of the _partial theorems are needed: each has a theorem ending in _wrong. Programs are modelled as holders of descriptors; data on the pipes is not modelled."
  },
  {
   "property": "C199",
   "status": "partial",
   "theorems": [
    "Eus.Spv.C199_dynamic_partial",
    "Eus.Spv.C199_isolated",
    "Eus.Spv.C199_threads_wrong",
    "Eus.Spv.C199_symbol_value_wrong",
    "Eus.Spv.C199_makunbound_wrong",
    "Eus.Spv.C199_declare_wrong",
    "Eus.Spv.C199_declare_others",
    "Eus.Spv.C199_declare_global_wrong",
    "Eus.Spv.C199_redeclare_wrong",
    "Eus.Spv.C199_initial_wrong",
    "Eus.Spv.C199_limit_wrong"
   ],
   "note": "Shallow binding refines deep binding for every history that keeps to Spec.Ok. For each condition a theorem ending in _wrong shows what happens without it."
  },
  {
   "property": "C200",
   "status": "partial",
   "theorems": [
    "Eus.Rpy.C200_rpy_matrix",
    "Eus.Rpy.C200_euler_matrix",
    "Eus.Rpy.C200_rpy",
    "Eus.Rpy.C200_rpy_back",
    "Eus.Rpy.C200_euler_partial",
    "Eus.Rpy.C200_euler_wrong",
    "Eus.Rpy.C200_euler_near",
    "Eus.Rpy.C200_euler_back",
    "Eus.Rpy.C200_axis_partial",
    "Eus.Rpy.C200_axis_wrong",
    "Eus.Rpy.C200_axis_nil",
    "Eus.Rpy.C200_plane"
   ],
   "note": "Real numbers without rounding. C200_axis_wrong: 0/0 for every rotation about (1,1,0) or (1,-1,0). C200_euler_wrong: near the poles the Euler angles are not exact, C200_euler_near bounds the error."
  },
  {
   "property": "C201",
   "status": "partial",
   "theorems": [
    "Eus.Sgn.C201_handled_partial",
    "Eus.Sgn.C201_at_most",
    "Eus.Sgn.C201_threads",
    "Eus.Sgn.C201_code_wrong",
    "Eus.Sgn.C201_semaphore",
    "Eus.Sgn.C201_overwrite_wrong",
    "Eus.Sgn.C201_semaphore_wrong",
    "Eus.Sgn.C201_race_wrong",
    "Eus.Sgn.C201_child_wrong",
    "Eus.Sgn.C201_child_erases_wrong",
    "Eus.Sgn.C201_default_wrong",
    "Eus.Sgn.C201_default",
    "Eus.Sgn.C201_restore_wrong",
    "Eus.Sgn.C201_old",
    "Eus.Sgn.C201_pipe_wrong",
    "Eus.Sgn.C201_pipe"
   ],
   "note": "C201_handled_partial: the handler that was installed last is run at the thread's next look, with the number and (if nothing else arrives anywhere) the code; missing: more than one signal before the look, which the code loses (C201_overwrite_wrong, C201_race_wrong, C201_child_erases_wrong, C201_semaphore_wrong). C201_at_most: no handler runs more often than its signal arrived, for every history with looks cut in two. C201_threads: projection of every history to one thread. C201_semaphore: no arrival lost. C201_old, C201_default, C201_pipe. Disproved with witnesses: C201_code_wrong, C201_child_wrong (never run in any history), C201_default_wrong, C201_restore_wrong, C201_pipe_wrong."
  },
  {
   "property": "C202",
   "status": "partial",
   "theorems": [
    "Eus.Ary.C202_array_partial",
    "Eus.Ary.C202_integer_array_partial",
    "Eus.Ary.C202_vector_partial",
    "Eus.Ary.C202_integer_vector_partial",
    "Eus.Ary.C202_bits",
    "Eus.Ary.C202_empty_wrong",
    "Eus.Ary.C202_list_wrong",
    "Eus.Ary.C202_type_wrong",
    "Eus.Ary.C202_no_bits_wrong",
    "Eus.Ary.C202_long_wrong"
   ],
   "note": "On top of the printer and reader of C54. C202_array_partial, C202_integer_array_partial: any rank up to seven, any offset and fill pointer; missing: zero dimensions (C202_empty_wrong), a first element that is a list (C202_list_wrong), other element types (C202_type_wrong), elements outside C54, the smallest word. C202_vector_partial, C202_integer_vector_partial (longer than *print-length*: C202_long_wrong), C202_bits (empty at the end: C202_no_bits_wrong). Floats are not modelled."
  },
  {
   "property": "C203",
   "status": "partial",
   "theorems": [
    "Eus.Bdv.C203_quotient_partial",
    "Eus.Bdv.C203_one_word",
    "Eus.Bdv.C203_fixnum_divisors",
    "Eus.Bdv.C203_int_wrong",
    "Eus.Bdv.C203_zero_wrong",
    "Eus.Bdv.C203_guess_wrong",
    "Eus.Bdv.C203_short_wrong",
    "Eus.Bdv.C203_negative_wrong",
    "Eus.Bdv.C203_rest_wrong",
    "Eus.Bdv.C203_rest_ignored"
   ],
   "note": "C203_quotient_partial: divisors and quotients inside the limits the comment of div_big_big asks for (2^31 instead of its 2^30 for the highest word); C203_one_word: no limits when both have one word and the divisor is positive. Outside: C203_int_wrong, C203_zero_wrong, C203_guess_wrong, C203_short_wrong, C203_negative_wrong, C203_rest_wrong, C203_rest_ignored. C203_fixnum_divisors: the model extends the one of C07. Floats are not modelled."
  },
  {
   "property": "C204",
   "status": "partial",
   "theorems": [
    "Eus.Slt.C204_slot_partial",
    "Eus.Slt.C204_accessor_partial",
    "Eus.Slt.C204_negative_wrong",
    "Eus.Slt.C204_wild_wrong",
    "Eus.Slt.C204_redefine_wrong",
    "Eus.Slt.C204_redefine_super_wrong",
    "Eus.Slt.C204_accessor_wrong"
   ],
   "note": "On top of the class numbering of C28. C204_slot_partial: all histories in which no class is defined twice and no slot is set by a negative or huge index; C204_accessor_partial: access macros whose name is not shared. Missing: C204_negative_wrong, C204_wild_wrong, C204_redefine_wrong, C204_redefine_super_wrong, C204_accessor_wrong. Objects of vector classes, unbound slots and slot types are not modelled."
  },
  {
   "property": "C205",
   "status": "partial",
   "theorems": [
    "Eus.Kna.C205_euc2sjis_partial",
    "Eus.Kna.C205_sjis2euc_partial",
    "Eus.Kna.C205_roundtrip_partial",
    "Eus.Kna.C205_euc_kept",
    "Eus.Kna.C205_jis_partial",
    "Eus.Kna.C205_even_wrong",
    "Eus.Kna.C205_row81_wrong",
    "Eus.Kna.C205_half_wrong",
    "Eus.Kna.C205_euc_wrong",
    "Eus.Kna.C205_jis_wrong"
   ],
   "note": "C205_euc2sjis_partial (rows 1-80), C205_sjis2euc_partial (all but even rows from 66), C205_roundtrip_partial, C205_euc_kept, C205_jis_partial (ESC $ B or ESC $ @ and ESC ( J). Missing: C205_even_wrong (all even rows from 66 on), C205_row81_wrong, C205_half_wrong, C205_euc_wrong, C205_jis_wrong."
  },
  {
   "property": "C206",
   "status": "proved",
   "theorems": [
    "Eus.Dtr.C206_distance",
    "Eus.Dtr.C206_border",
    "Eus.Dtr.C206_removed_wrong"
   ],
   "note": "C206_distance: the whole statement, with the distance written as a minimum over obstacles (IsDist). C206_border. C206_removed_wrong is the remark on obstacles that have gone. The rest of disttrans.l (map-distance, map-occupation) is unfinished text; calc-distance-all calls its functions without arguments."
  },
  {
   "property": "C207",
   "status": "partial",
   "theorems": [
    "Eus.Sgp.C207_sign",
    "Eus.Sgp.C207_parity_partial",
    "Eus.Sgp.C207_signum_fixnum_partial",
    "Eus.Sgp.C207_signum_bignum",
    "Eus.Sgp.C207_parity_wrong",
    "Eus.Sgp.C207_signum_wrong"
   ],
   "note": "C207_sign: zerop, plusp, minusp of all canonical integers. C207_parity_partial: oddp and evenp right from -2^126 to 2^64-1, an error outside, for every integer. C207_signum_bignum: all bignums; C207_signum_fixnum_partial: all fixnums but -2^61. Missing: C207_parity_wrong, C207_signum_wrong. Ratios and floats are not modelled here."
  },
  {
   "property": "C208",
   "status": "partial",
   "theorems": [
    "Eus.Pix.C208_halve",
    "Eus.Pix.C208_double",
    "Eus.Pix.C208_double_halve",
    "Eus.Pix.C208_subimage",
    "Eus.Pix.C208_patch_in",
    "Eus.Pix.C208_patch_subimage",
    "Eus.Pix.C208_subimage_patch",
    "Eus.Pix.C208_subimage_wrong",
    "Eus.Pix.C208_pixel_wrong",
    "Eus.Pix.C208_look_up",
    "Eus.Pix.C208_look_up_twice",
    "Eus.Pix.C208_rgb",
    "Eus.Pix.C208_merge_wrong",
    "Eus.Pix.C208_convolve_wrong",
    "Eus.Pix.C208_median_wrong",
    "Eus.Pix.C208_median_partial"
   ],
   "note": "Proved for all pictures: C208_halve, C208_double, C208_double_halve, C208_subimage, C208_patch_in, C208_patch_subimage, C208_subimage_patch, C208_look_up, C208_look_up_twice, C208_rgb. C208_median_partial: windows of one pixel. Missing because the code is wrong: C208_pixel_wrong, C208_subimage_wrong, C208_merge_wrong (all such lengths), C208_convolve_wrong (all pictures), C208_median_wrong (all windows of 2 to 10)."
  },
  {
   "property": "C209",
   "status": "partial",
   "theorems": [
    "Eus.Psl.C209_fds",
    "Eus.Psl.C209_select_partial",
    "Eus.Psl.C209_removed_wrong",
    "Eus.Psl.C209_refused"
   ],
   "note": "C209_fds and C209_refused: full. C209_select_partial: all histories and handlers that leave alone the ready ports that come later. Missing: C209_removed_wrong. The OS call select is modelled as keeping the bits of readable descriptors."
  },
  {
   "property": "C210",
   "status": "partial",
   "theorems": [
    "Eus.Brd.C210_every",
    "Eus.Brd.C210_finish",
    "Eus.Brd.C210_added_wrong",
    "Eus.Brd.C210_close_wrong"
   ],
   "note": "C210_every and C210_finish: all histories. Missing: C210_added_wrong (destinations added later), C210_close_wrong (:close, all texts of up to 256 bytes). Errors of destinations are not modelled."
  },
  {
   "property": "C211",
   "status": "partial",
   "theorems": [
    "Eus.Rnd.C211_range",
    "Eus.Rnd.C211_negative",
    "Eus.Rnd.C211_every_partial",
    "Eus.Rnd.C211_large_wrong"
   ],
   "note": "C211_range and C211_negative: all n and all random numbers, with both roundings to 53 bits. C211_every_partial: n up to 2^47. Missing: C211_large_wrong. The sequence of erand48 (C library) and floating-point limits are not modelled."
  },
  {
   "property": "C212",
   "status": "partial",
   "theorems": [
    "Eus.Bec.C212_class",
    "Eus.Bec.C212_bits",
    "Eus.Bec.C212_bytes",
    "Eus.Bec.C212_back",
    "Eus.Bec.C212_refused",
    "Eus.Bec.C212_address_wrong",
    "Eus.Bec.C212_resize",
    "Eus.Bec.C212_negative_wrong",
    "Eus.Bec.C212_replace",
    "Eus.Bec.C212_replace_wrong"
   ],
   "note": "C212_class, C212_bits, C212_bytes, C212_back, C212_refused, C212_resize, C212_replace: full for vectors below 2^31 bits. Missing: C212_address_wrong, C212_negative_wrong, C212_replace_wrong. Foreign strings are not modelled."
  },
  {
   "property": "C213",
   "status": "partial",
   "theorems": [
    "Eus.Kol.C213_keys",
    "Eus.Kol.C213_get_partial",
    "Eus.Kol.C213_round",
    "Eus.Kol.C213_remove_nil_wrong",
    "Eus.Kol.C213_skip_wrong"
   ],
   "note": "C213_keys and C213_round: all histories (with :reset-try to 0). C213_get_partial: histories that remove by key. Missing: C213_remove_nil_wrong, C213_skip_wrong."
  },
  {
   "property": "C214",
   "status": "partial",
   "theorems": [
    "Eus.Asy.C214_exclusive",
    "Eus.Asy.C214_refused",
    "Eus.Asy.C214_sync_wrong",
    "Eus.Asy.C214_two_wrong",
    "Eus.Asy.C214_reached_wrong",
    "Eus.Asy.C214_concurrent_wrong",
    "Eus.Asy.C214_accepted"
   ],
   "note": "C214_exclusive, C214_refused and C214_accepted: all threads and schedules. Missing: C214_sync_wrong and C214_two_wrong (for every continuation), C214_reached_wrong, C214_concurrent_wrong. lock-slots and unlock-slots within methods are not modelled."
  },
  {
   "property": "C215",
   "status": "partial",
   "theorems": [
    "Eus.Plg.C215_unifier",
    "Eus.Plg.C215_no_unifier",
    "Eus.Plg.C215_undo",
    "Eus.Plg.C215_sound_partial",
    "Eus.Plg.C215_fails_partial",
    "Eus.Plg.C215_variable_wrong",
    "Eus.Plg.C215_loop_wrong",
    "Eus.Plg.C215_occurs_wrong"
   ],
   "note": "C215_unifier, C215_no_unifier and C215_undo: all terms and stores. C215_sound_partial and C215_fails_partial: all programs and queries whose goals name their predicates and that end; sound for the finite values that agree with the bindings. Missing: C215_variable_wrong, C215_loop_wrong, C215_occurs_wrong. Built-in predicates are not modelled."
  },
  {
   "property": "C216",
   "status": "partial",
   "theorems": [
    "Eus.Htm.C216_comment_partial",
    "Eus.Htm.C216_comment_wrong",
    "Eus.Htm.C216_extract_partial",
    "Eus.Htm.C216_nested_wrong",
    "Eus.Htm.C216_remove_tags",
    "Eus.Htm.C216_tilda",
    "Eus.Htm.C216_transpose",
    "Eus.Htm.C216_transpose_twice_partial",
    "Eus.Htm.C216_transpose_wrong"
   ],
   "note": "C216_remove_tags, C216_tilda, C216_transpose: full. C216_comment_partial: comments without three dashes in a row. C216_extract_partial: elements that are not nested. C216_transpose_twice_partial: rows of equal length. Missing: C216_comment_wrong, C216_nested_wrong, C216_transpose_wrong. The HTML reader itself (readtable, tags, Japanese codes) is not modelled."
  },
  {
   "property": "C217",
   "status": "partial",
   "theorems": [
    "Eus.Txw.C217_paper",
    "Eus.Txw.C217_scroll_partial",
    "Eus.Txw.C217_scroll_wrong",
    "Eus.Txw.C217_putstring_partial",
    "Eus.Txw.C217_putstring_wrong"
   ],
   "note": "C217_paper: full, for :putch and the stream. C217_scroll_partial: up by no more than the height, down by any amount; C217_scroll_wrong. C217_putstring_partial: a string that fits in the line; C217_putstring_wrong: a longer one never ends. Pixels and the X protocol are not modelled."
  },
  {
   "property": "C218",
   "status": "partial",
   "theorems": [
    "Eus.Txw.C218_insert_string",
    "Eus.Txw.C218_type_partial",
    "Eus.Txw.C218_type_wrong",
    "Eus.Txw.C218_delete_partial",
    "Eus.Txw.C218_rubout",
    "Eus.Txw.C218_delete_wrong",
    "Eus.Txw.C218_shared_wrong",
    "Eus.Txw.C218_tab",
    "Eus.Txw.C218_tabs_gone",
    "Eus.Txw.C218_selection"
   ],
   "note": "C218_insert_string, C218_rubout, C218_tab, C218_tabs_gone, C218_selection: full. C218_type_partial: as long as the cursor stays left of the last column. C218_delete_partial: no more behind the cursor than is taken away. Missing: C218_type_wrong, C218_delete_wrong (undefined), C218_shared_wrong."
  },
  {
   "property": "C219",
   "status": "partial",
   "theorems": [
    "Eus.Txw.C219_scroll_partial",
    "Eus.Txw.C219_scroll_wrong",
    "Eus.Txw.C219_locate"
   ],
   "note": "C219_locate: full. C219_scroll_partial: by no more than the height. Missing: C219_scroll_wrong, an error beyond that. Amounts given as a float fraction and the horizontal scroll are not modelled."
  },
  {
   "property": "C220",
   "status": "partial",
   "theorems": [
    "Eus.Pnl.C220_items",
    "Eus.Pnl.C220_inside",
    "Eus.Pnl.C220_given_wrong",
    "Eus.Pnl.C220_bar_partial",
    "Eus.Pnl.C220_bar_wrong"
   ],
   "note": "C220_items, C220_inside: full, for items without given places. C220_bar_partial: menu bars, items not higher than the item height. Missing: C220_given_wrong, C220_bar_wrong. Window borders are not counted."
  },
  {
   "property": "C221",
   "status": "partial",
   "theorems": [
    "Eus.Rms.C221_history_partial",
    "Eus.Rms.C221_follows_wrong",
    "Eus.Rms.C221_sound",
    "Eus.Rms.C221_closed",
    "Eus.Rms.C221_retract_partial",
    "Eus.Rms.C221_open_wrong",
    "Eus.Rms.C221_reason_wrong",
    "Eus.Rms.C221_contradiction_wrong"
   ],
   "note": "C221_sound, C221_closed: full, for assertions in any order. C221_retract_partial: retracting the only clause of a node. C221_history_partial: assertions and retractions in any order, as long as no retraction fails: no label outlives its reasons. Missing: C221_follows_wrong (every retraction of a clause from whose node another label follows fails), C221_open_wrong, C221_reason_wrong, C221_contradiction_wrong. Messages are not modelled."
  },
  {
   "property": "C222",
   "status": "partial",
   "theorems": [
    "Eus.Sie.C222_primes_partial",
    "Eus.Sie.C222_small_wrong"
   ],
   "note": "C222_primes_partial: all n from 4 on. Missing: C222_small_wrong. The square root is exact in the model, a float in the program."
  },
  {
   "property": "C223",
   "status": "partial",
   "theorems": [
    "Eus.Psr.C223_sound",
    "Eus.Psr.C223_complete_partial",
    "Eus.Psr.C223_ends_partial",
    "Eus.Psr.C223_unit_wrong",
    "Eus.Psr.C223_alternatives_wrong",
    "Eus.Psr.C223_empty_wrong"
   ],
   "note": "C223_sound: all grammars and words. C223_complete_partial: one alternative, not empty, in each rule. C223_ends_partial: no rule from one category to one. Missing: C223_unit_wrong, C223_alternatives_wrong, C223_empty_wrong. generate (random sentences) is not modelled."
  },
  {
   "property": "C224",
   "status": "partial",
   "theorems": [
    "Eus.Itm.C224_slider_range",
    "Eus.Itm.C224_slider_follow",
    "Eus.Itm.C224_slider_drag",
    "Eus.Itm.C224_slider_idle",
    "Eus.Itm.C224_slider_set_wrong",
    "Eus.Itm.C224_slider_integer_wrong",
    "Eus.Itm.C224_choice_partial",
    "Eus.Itm.C224_choice_click",
    "Eus.Itm.C224_choice_wrong",
    "Eus.Itm.C224_stick_range",
    "Eus.Itm.C224_stick_follow",
    "Eus.Itm.C224_stick_return"
   ],
   "note": "C224_slider_range, C224_slider_follow, C224_slider_drag, C224_slider_idle, C224_choice_click, C224_stick_range, C224_stick_follow, C224_stick_return: full. C224_choice_partial: labels at least as wide as a button. Missing: C224_slider_set_wrong, C224_slider_integer_wrong, C224_choice_wrong. Values are exact in the model, floats in the program."
  },
  {
   "property": "C225",
   "status": "partial",
   "theorems": [
    "Eus.Seg.C225_segments",
    "Eus.Seg.C225_paths",
    "Eus.Seg.C225_closed",
    "Eus.Seg.C225_simple_partial",
    "Eus.Seg.C225_simple_wrong"
   ],
   "note": "C225_segments, C225_paths, C225_closed: full. C225_simple_partial: at most two segments end at each point. Missing: C225_simple_wrong. Points are equal or farther apart than the tolerances; holes and directions are not modelled."
  },
  {
   "property": "C226",
   "status": "proved",
   "theorems": [
    "Eus.Hid.C226_perspective",
    "Eus.Hid.C226_parts"
   ],
   "note": "C226_perspective, C226_parts. Exact numbers; both ends in front of the viewpoint (positive weights). Finding the intersections, the intersection of a face with the line of sight, and clipping are parameters."
  },
  {
   "property": "C227",
   "status": "partial",
   "theorems": [
    "Eus.Gtm.C227_fresh_partial",
    "Eus.Gtm.C227_history_partial",
    "Eus.Gtm.C227_inherited_wrong"
   ],
   "note": "C227_fresh_partial, C227_history_partial: no used package exports a symbol of the form asked for. Missing: C227_inherited_wrong. The counter is an unbounded number; imported and uninterned symbols are not modelled."
  },
  {
   "property": "C228",
   "status": "partial",
   "theorems": [
    "Eus.Itv.C228_parts_partial",
    "Eus.Itv.C228_days_wrong",
    "Eus.Itv.C228_total",
    "Eus.Itv.C228_add_wrong"
   ],
   "note": "C228_parts_partial: the total, and what is shown of intervals shorter than a day; C228_total. Missing: C228_days_wrong (all longer intervals), C228_add_wrong (all additions and subtractions). Printing is not modelled."
  }
 ]
}