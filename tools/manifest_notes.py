N["C01"] = ("proved", "Round trip, injectivity, immediate in range; all 64-bit words.")
N["C02"] = ("partial", "MINUS exact and canonical for any list of fixnums. PLUS exact and canonical or undefined behaviour; defined for two arguments and for one sign. C02_plus_undefined: four fixnums on which + is undefined.")
N["C03"] = ("proved", "Any limb count; plus and minus, both orders.")
N["C04"] = ("proved", "Any limb counts and signs.")
N["C05"] = ("proved", "Negation exact; twice is the identity on canonical bignums; abs exact.")
N["C06"] = ("partial", "Fixnum*fixnum full. Longer products and fixnum*bignum off word boundaries. Wrong-sign and bignum*bignum results refuted by witnesses.")
N["C07"] = ("partial", "Bignum and fixnum dividends by fixnum divisors full; fixnum by bignum except -2^61/2^61, refuted; division by zero undefined.")
N["C08"] = ("partial", "Uniqueness of canonical form; normalization; closure of minus on fixnums, bignum minus fixnums and negation. Counterexamples for + * 1+ and two-word cancellation.")
N["C09"] = ("partial", "= full on canonical integers; < > <= >= outside BadPair; every BadPair shown wrong.")
N["C12"] = ("partial", "Right shifts: fixnums full for counts below 64, bignums floor-exact for counts leaving a word. Left shifts exact when the result fits a word, and into bignums for counts not divisible by 63 with the boundary bit clear. Wrong, malformed and undefined cases characterised.")
N["C13"] = ("partial", "logand exact when the first argument is a bignum; on fixnums exact iff the result fits 32 bits. logior exact on word-size integers. logxor, logeqv, lognand, lognor, lognot, logbitp, logtest exact on fixnums. Refutations for the rest.")
N["C14"] = ("proved", "ldb for 1<=w<=63, p+w<=64; dpb for w>=1, p+w<=63; round trip. Other field bounds are undefined behaviour in C (C14_field_undefined).")
N["C62"] = ("proved", "All integers that fit in a machine word, which is what the property ranges over; wider bignums are refuted (C62_mod_bignum_wrong).")
N["C63"] = ("proved", "Any number of fixnums.")
N["C22"] = ("proved", "Any hash function compatible with the test, any operation sequence, any initial size for which the table keeps a free slot (size/rehash+1 < size; sizes >= 3 with the default rehash size). For smaller sizes the operations hang: see C24.")
N["C23"] = ("proved", "Enumeration visits every live entry exactly once, under the same size condition as C22.")
N["C24"] = ("partial", "Every operation terminates for tables that keep a free slot; refuted for make-hash-table :size 1 and 2 (C24_small_table_hangs) and for any full table (C24_full_table_never_returns).")
N["C31"] = ("partial", "Lists: full (every test, key-free predicate, start, end, count; an end beyond the list signals an error, the default end is 1000000). Vectors: exact iff characterised; wrong when :count stops early and when a fill pointer is set.")
N["C32"] = ("partial", "Lists in the cons-cell heap: destructive result, cells reused and no other cell touched, for :start 0; with :start > 0 the result is characterised and refuted (prefix lost). Vectors: exact iff characterised and refuted.")
N["C33"] = ("partial", "Lists and the destructive versions full; substitute on vectors with :count characterised by an iff and refuted.")
N["C34"] = ("partial", "find and position full; count full on vectors; count on lists when the range does not touch the end, otherwise nil is returned instead of a number (refuted).")
N["C35"] = ("partial", "reverse full on lists, vectors and displaced arrays; nreverse full on lists and simple vectors, refuted on displaced arrays.")
N["C36"] = ("partial", "Vectors and concatenate full; list subseq whose start equals the length signals an error (refuted), otherwise full.")
N["C37"] = ("proved", "Result keeps the last of each class of duplicates, in order, nothing added or lost; equivalence of list and vector versions.")
N["C40"] = ("partial", "append, butlast, nthcdr full with sharing; nconc full on proper lists (an atom argument is dropped: C40_nconc_ignores_atom); nbutlast for n below the length, undefined behaviour otherwise.")
N["C46"] = ("proved", "Queue on the cons-cell heap refines a FIFO for every operation sequence.")
N["C64"] = ("partial", "Lists and word-element vectors in full; bit vectors for item 0 or odd, refuted for other even items.")
N["C65"] = ("proved", "Any number of sequences.")
N["C66"] = ("proved", "On the cons-cell heap with frame conditions.")
N["C15"] = ("proved", "In any monoid; exactness of * on bignums is C06.")
N["C38"] = ("partial", "merge of vectors (or to a class other than cons) full. merge-list: full for predicates that accept NIL, and for others when list1 has one element or its last element precedes no element of list2; otherwise it signals an error (C38_merge_list_error, C38_merge_list_wrong). Order of equal elements is reversed (C38_merge_unstable).")
N["C39"] = ("proved", "Any test; union, intersection and set-difference also with any key; see C68 for keys of the others.")
N["C47"] = ("partial", "putprop, remprop and get for any operation sequence. The message :put, which the property does not name but users use, works for new attributes only and signals an error for existing ones (C47_put_message_wrong).")
N["C67"] = ("partial", "From the left full. :from-end for commutative functions on the whole sequence; refuted otherwise.")
N["C68"] = ("partial", "union, intersection, set-difference; refuted for adjoin, subsetp, set-exclusive-or.")
N["C69"] = ("partial", "mapcar, mapcan, collect-if full; maplist for one list; mapcon for results of at most one element, refuted otherwise.")
N["C70"] = ("proved", "Other arguments at least as long as the first; shorter ones are an error (C70_short_argument_error).")
N["C71"] = ("partial", "Lists (no shared cells) and vectors of equal or different element type; overlapping ranges of one vector and ranges outside the vectors are undefined (refuted).")
N["C72"] = ("proved", "All lists, tests, keys.")
N["C73"] = ("proved", "subst for any equality test; copy-tree for structural equality.")
N["C74"] = ("proved", "Any dimensions.")
N["C42"] = ("partial", "Valid subscripts in full; errors for invalid non-negative subscripts; negative subscripts and those of 2^32 and more are not checked (refuted).")
N["C43"] = ("partial", "bit and setbit in full; (setf aref) on bit vectors characterised exactly, refuted for the last 33 bits of each 64-bit word.")
N["C44"] = ("partial", "Arrays of dimension at least 1 that are not displaced, any operation sequence; refuted for dimension 0 and displaced arrays.")
N["C75"] = ("partial", "Integers of 64 bits in integer-vectors, fixnums in strings; larger integers are truncated silently (refuted).")
N["C76"] = ("proved", "All lengths; padding bits of the last word are not cleared (C76_padding_wrong).")
N["C77"] = ("proved", "Contents of the right shape; a short row is accepted (C77_short_row_wrong).")
N["C28"] = ("partial", "Any sequence of definitions of new classes and instantiations, with renumbering; redefining a class with another superclass keeps its number (refuted).")
N["C29"] = ("partial", "Any history of defmethod, method-cache and sends by any threads, delete-method by the looking thread; refuted for delete-method by another thread, redefined superclass, a defmethod racing with a lookup, and send-if-found with forwarding.")
N["C30"] = ("partial", "Any heap, sharing and cycles, any stack size; objects that fill their second word. Records of at most one slot and empty vectors of pointers are refuted (NULL is followed).")
N["C26"] = ("proved", "All histories of intern and make-package; also of export, use, unuse, unintern, import and shadow where the specification promises something. Refuted: unintern of a foreign symbol of the same name, two used packages exporting one name, 60 imports or shadowings filling the table.")
N["C27"] = ("partial", "use-package, export and unintern, all histories; unexport is refuted (breaks probe chains), as are import of a present symbol and repeated export followed by unintern.")
N["C10"] = ("partial", "Printing gives the usual numeral for every integer and base; reading back for numerals of fewer than 1024 characters. Refuted: longer ones are an error; in bases above 21 short numerals are truncated to 32 bits.")
N["C11"] = ("proved", "All digit strings up to 64 digits, both cases, through the whole reader; the 65th digit is left unread (C11_limit).")
N["C52"] = ("proved", "All byte strings, wherever they stand.")
N["C53"] = ("partial", "Names the token syntax allows, and keywords; refuted for names like +1 and 1E, names with a backslash or a rejected control character, and very long names with bars.")
N["C54"] = ("partial", "All trees of good atoms with lists up to 65536 elements nested up to 32767 deep; refuted for longer lists and for the symbol named by a dot.")
N["C55"] = ("partial", "All comments without a closing mark directly followed by a bar and without byte 255, both refuted; at top level read returns NIL for a comment (refuted).")
N["C78"] = ("partial", "Values below 2^61 in at most 31 digits; larger values are refuted.")
N["C79"] = ("partial", "All integers but negative bignums with more places than digits, which are refuted.")
N["C17"] = ("partial", "Full allocator (newchunk, splitheap, root_alloc_big/small, thread-local lists, gc, sweep, merge) for every history of allowed operations; requests up to buddysize[38] words, no closures. Refuted beyond: C17_huge_wrong (same block handed out twice), C17_overrun_wrong (undefined behaviour), C17_out_of_memory_wrong (runs for ever when malloc fails).")
N["C18"] = ("partial", "Split/merge inverse on headers; all-free chunk becomes one block when the merge limit is reached before it is swept; live blocks never absorbed. Refuted with the default merge limit: C18_unmerged_wrong.")
N["C19"] = ("partial", "Accounting identity after any history; free lists never exceed the free figure, equal right after a collection. Refuted between collections: C19_lost_wrong.")
N["C20"] = ("partial", "Marked = accessible (or in a local free list), termination for every object graph, blocks kept = accessible or hooked. Closures refuted: C20_closure_wrong.")
N["C21"] = ("partial", "Contents, roots, sizes, accessibility unchanged; freed block not accessible in any execution until handed out again. Disposal hooks refuted: C21_dispose_wrong.")
N["C16"] = ("partial", "Sums, differences, products, quotients (n-ary, mixed with fixnums) and = for all ratios whose steps fit a 32-bit int; outside that range refuted (C16_truncated_wrong, C16_overflow_wrong), as are integer quotients, the quotient of one ratio and division by zero (C16_quotient_wrong). = is proved without any range.")
N["C80"] = ("partial", "All texts whose two numbers fit an int, every base, through the whole reader; zero denominators and wider numbers refuted (C80_read_wrong).")
N["C25"] = ("partial", "Same hash for equal objects made of numbers, symbols, conses, strings and vectors (any heap); refuted for other equal objects such as ratios, big integers and instances, which hash by address (C25_object_wrong).")
N["C41"] = ("partial", "Equivalence relation on all objects; on finite objects it decides equality of trees (class, numbers, symbols, elements) when the padding of packed vectors is zero. Refuted otherwise: C41_padding_wrong, (equal (bit-not #*1) #*0).")
N["C81"] = ("proved", "Termination on every closed heap, marks restored, answers agree with equal and, on finite objects, with the trees. A circularity report does not mean a circular object: C81_circular_wrong.")
N["C45"] = ("partial", "Order on strings without zero bytes; string= and string-equal on strings up to 100000000 bytes and valid positions. Refuted: zero bytes (C45_nul_wrong), longer strings (C45_long_wrong), positions outside the string (C45_start_wrong).")
N["C82"] = ("partial", "Every string and every bag without the zero byte; with it C82_nul_wrong.")
N["C83"] = ("partial", "All strings and ends inside them (C83_whole without positions); beyond them C83_end_wrong.")
N["C84"] = ("partial", "All strings whose first is at most 100000000 bytes long.")
N["C85"] = ("partial", "All byte strings without a Return; with it C85_return_wrong.")
N["C86"] = ("partial", "Base 10; other bases refuted by C86_base_wrong.")
N["C87"] = ("partial", "All texts without a colon that do not start with a tilde; with a colon C87_host_wrong. Tilde expansion reads the environment and is not modelled.")
N["C48"] = ("partial", "For every program of the modelled forms, in the interpreter: the frame machine refines a structural reference semantics (C48_refines_partial) and leaves all chains as they were (C48_frames_partial). Excluded, each with a witness: cleanup forms using outer special variables (C48_cleanup_specials_wrong), return-from without its block (C48_noblock_wrong), go without its tag (C48_notag_wrong), 0.0 (C48_zero_wrong), return-from over both a catch and an unwind-protect (C49_twice_wrong). Lexical variables, flet and compiled code are not modelled.")
N["C49"] = ("partial", "The journal of entries and cleanups is balanced for every program of C48_refines_partial. Refuted for return-from over both a catch and an unwind-protect (C49_twice_wrong) and for return-from in cleanup forms (C49_return_wrong).")
N["C88"] = ("partial", "Refuted: setjmp_val is one variable for all threads (C88_race_wrong). Proved for a single thread, and for several when no other thread runs between a longjmp and its arrival.")
N["C50"] = ("partial", "Interpreted functions with any lambda list, and the keyword tables of compiled ones up to 32 keywords. :allow-other-keys works only when it comes before the unknown keywords (C50_allow_wrong); more than 32 keywords in compiled code is undefined behaviour (C50_many_wrong).")
N["C51"] = ("partial", "Interpreted functions, every lambda list of required, optional, rest (C51_positions), keyword and auxiliary parameters (C51_lambda_partial); with &aux and no &rest or &key, surplus arguments are accepted (C51_aux_wrong). Default forms are functions of the parameters bound before; special variables as parameters are not modelled.")
N["C89"] = ("partial", "Holds for lambda lists without &aux after &key, with some keyword after &key, with at most 32 keywords, and defaults that do not look at keyword parameters; each exclusion has a witness (C89_aux_wrong, C89_count_wrong, C50_many_wrong, C89_scope_wrong).")

N["C56"] = ("partial", "Any sequence of byte and string writes and flushes, any buffer size: nothing lost when every write takes all it is offered (C56_file_partial), string streams up to 1000000 bytes (C56_string_partial). A short write loses the rest (C56_short_wrong), a failed write drops characters silently (C56_error_wrong), an empty buffer hangs or overruns (C56_size_wrong). Message queues and sockets are not modelled.")
N["C57"] = ("partial", "C57_input: refinement of the byte sequence for every sequence of read, peek and unread of the character just read, every buffer state and every chunking; C57_all, C57_unread. More than one unread, or one before reading, may be dropped (C57_unread_wrong); unreading another character changes the program's string (C57_string_wrong). A failing read is retried for ever in the code and is not modelled.")
N["C90"] = ("partial", "C90_readline: exact for all inputs; C90_lines_partial and C90_file_partial: round trip for lines that do not end in a Return; a line that does loses it (C90_return_wrong).")
N["C91"] = ("partial", "C91_bytes_partial: exact without an offset; C91_eof; with an offset the buffered bytes go to the wrong place, and a short string is overrun (C91_offset_wrong).")

N["C58"] = ("partial", "All schedules of any number of calls and threads, for programs that call wait-thread once per port: results, at most one run, one owner per port, and nothing lost when everything has come to rest (C58_rest_partial). A second wait-thread with the same port steals another call's result (C58_again_wrong).")
N["C59"] = ("proved", "All schedules, any number of readers and writers.")
N["C60"] = ("partial", "No thread goes through before its round is complete if threads wake up only when signalled; exactly n-2 threads of every round are left waiting (C60_count_partial), so with n >= 3 the property is false (C60_wrong, C60_left_wrong); spurious wakeups break it too. The model takes cond-wait and make-cond as meant; see the comment of Barrier.step.")
N["C61"] = ("partial", "Positive, unchanged intervals: exact after every history (C61_count). Intervals <= 0 never fire, a changed interval counts only after the current one has run out.")
N["C92"] = ("partial", "If no tick falls between reading and clearing the semaphore's count; otherwise false (C92_wrong).")
N["C93"] = ("partial", "If all calls are of thread; false with thread-no-wait (C93_nowait_wrong).")
N["C94"] = ("partial", "For programs of the class Plain (see Spec) as long as no function is called after the form it was made in has been left; outside the class the interpreter differs from lexical scoping: C94_shadow_wrong, C94_flet_wrong, C94_function_wrong, C94_lambda_wrong, C94_seqlet_wrong, C94_upward_wrong, C94_popped_wrong, C94_and_wrong.")
N["C95"] = ("proved", "For every form that returns normally; exits through errors and throw are C48.")
N["C96"] = ("partial", "For files of the class CPlain (see Cmp/Spec), calls that end, and no function called after the form it was made in has been left; outside the class compiled code differs from lexical scoping: C96_unused_wrong, C96_parallel_wrong, C96_closure_wrong, C96_global_wrong, C96_flet_wrong, C96_inner_wrong, C96_and_wrong, C96_upward_wrong.")
N["C97"] = ("partial", "For files that are both Plain (C94) and CPlain (C96) and calls that end; otherwise they differ: C97_function_wrong, C97_flet_wrong and the theorems C96_*_wrong.")

N["C98"] = ("partial", "Templates of conses and atoms without inner backquotes and without commas in vectors (C98_backquote_partial); inner backquotes with ,,@, dotted ,@ and vectors are wrong: C98_nested_wrong, C98_dotted_wrong, C98_vector_wrong.")
N["C99"] = ("partial", "Encoding is proved in full (C99_encode). Decoding gives s with one zero byte added unless the length is a multiple of 3 (C99_decode_partial, C99_round_trip_wrong).")
N["C100"] = ("proved", "For strict orders, pure predicates and keys; with a predicate like <= it does not end (C100_not_strict_wrong).")
N["C101"] = ("partial", "Non-empty lists and r >= 1; for the empty list and r = 0 the result is nil instead of (nil) (C101_empty_wrong, C101_combi_zero_wrong).")
N["C102"] = ("partial", "From seconds: 1970 to 2100 (C102_init_partial), wrong before and after (C102_before_wrong, C102_2101_wrong). From a date: seconds right to 2099 if the present year is a leap year just when the given one is (C102_make_partial, C102_clock_wrong); the weekday is wrong (C102_weekday_wrong).")
N["C103"] = ("partial", "Any rounding. Not for (m* a a a) (C103_square_wrong), and m** for square matrices only, other products are errors (C103_chain_wrong).")
N["C104"] = ("partial", "In full except for v* stored into an argument, which is wrong (C104_cross_wrong).")
N["C105"] = ("partial", "Over an ordered field, that is without rounding. A matrix with small elements is called degenerated (C105_small_wrong); lu-solve into b itself is wrong (C105_overwrite_wrong).")
N["C106"] = ("partial", "Over a field. The axes of 3 by 3 matrices and rotation about a vector in full; 2 by 2 matrices in local coordinates are wrong (C106_local_wrong).")
N["C107"] = ("partial", "The determinant times the sign of the permutation (C107_determinant_partial), so not the determinant (C107_sign_wrong).")
N["C108"] = ("partial", "v< is <=, v> is >= (C108_less_wrong); vmin, vmax and minimal-box in full.")
N["C109"] = ("partial", "If the sum is of 64 bits and the distances less than 2^31 (C109_inner_wrong, C109_abs_wrong). The reading of the uninitialised variable isf in VMINUS_ABS is not modelled.")
N["C110"] = ("partial", "For every history without cycles and without moves relative to the object's own descendants; those are C110_cycle_wrong and C110_descendant_wrong. Storing without :changed leaves old world coordinates (C110_replace_wrong), :newcoords with an object shares storage (C110_shared_wrong). C110_spec: the specification is a total function.")
N["C111"] = ("proved", "")
N["C112"] = ("proved", ":transform relative to the object's own descendants is left out, see C110_descendant_wrong.")
N["C113"] = ("partial", "Over a commutative ring. Not when all three are the same object (C113_self_wrong); :inverse-transformation of a cascaded-coords in two dimensions is an error (C113_plane_wrong).")
N["C114"] = ("partial", "Like C110, over a commutative ring, for orthogonal matrices and the methods of three dimensions. The matrix given to :rotate may be overwritten (C114_argument_wrong).")
N["C115"] = ("proved", "Over a commutative ring, for orthogonal matrices.")
N["C116"] = ("partial", "In full for evaluators that accept NIL in place of a path (merge-list may call best-first's evaluator with NIL, see C118_best_first_wrong). C116_depth_first_infinite: depth-first need not end in an infinite graph.")
N["C117"] = ("proved", "C117_breadth_first for any extension function, C117_shortest for graphs.")
N["C118"] = ("partial", "branch-and-bound in full, best-first for evaluators that accept NIL in place of a path; with others it signals an error (C118_best_first_wrong). That the C library sorts is a hypothesis.")
N["C119"] = ("partial", "If every call of the predicate returns. After a throw or an error out of the predicate no sort ever returns (C119_sort_after_exit_wrong); nor does a sort whose predicate sorts (C119_nested_sort_wrong).")
N["C120"] = ("partial", "Over the real numbers. :rotation for angles from 0 to 2 pi; the sign of the angle is lost (C120_negative_angle_wrong). :inverse-quaternion only for norm 1 (C120_inverse_quaternion_wrong). :transform-vector calls v++, which is not defined (C120_transform_wrong).")
N["C121"] = ("proved", "Places other than variables: C126.")
N["C122"] = ("proved", "")
N["C123"] = ("partial", "All but return: (return v) ends only the loop inside, v is lost and the result form is evaluated (C123_dolist_return_wrong, C123_dotimes_return_wrong).")
N["C124"] = ("proved", "go out of functions and closures is not modelled.")
N["C125"] = ("proved", "")
N["C126"] = ("partial", "setf in full. push, pop and incf evaluate the parts of the place two or three times (C126_push_twice_wrong, C126_incf_pop_wrong).")
N["C127"] = ("proved", "")
N["C128"] = ("proved", "What prinx and sprintf of a float write is a parameter of the model. Control strings with more than ten parameters in a directive, or a parameter of 2^31 or more, are undefined behaviour: C133.")
N["C129"] = ("proved", "")
N["C130"] = ("proved", "")
N["C131"] = ("partial", "Objects whose print method does not call format. With one that does, the field is too wide (C131_wrong).")
N["C132"] = ("partial", "For calls that return. A call of ~A left by a throw or an error leaves the flag set, and ~S no longer quotes (C132_wrong).")
N["C133"] = ("partial", "With at most ten parameters, no V, and number texts below 256 bytes. An eleventh parameter and ~300F write outside the arrays (C133_parameters_wrong, C133_float_wrong).")
N["C134"] = ("proved", "")
N["C135"] = ("partial", "~% alone. ~n% writes n+1 newlines (C135_newlines_wrong); ~,2F writes '2F' and uses no argument (C135_omitted_wrong).")
N["C136"] = ("partial", "For fewer than 2^32 posts. The count has 32 bits: after 2^32 posts a wait blocks (C136_wrap_wrong). The mutex and the condition variables of the thread library are taken as POSIX describes them.")
N["C137"] = ("partial", "For fewer than 2^32 posts.")
N["C138"] = ("partial", "When rw_unlock is called only by threads that have the lock, and with fewer than 2^32-1 calls of rw_rdlock. Nothing checks the first: C138_foreign_unlock_wrong, C138_unlock_free_wrong.")
N["C139"] = ("partial", "No wake-up is lost, under the hypotheses of C138; but readers that overlap keep a writer out for ever (C139_writer_starves_wrong).")
N["C140"] = ("partial", "False of the code: C140_alloc_in_collector_wrong, a thread that asks for the lock for reading while it has it for writing is never answered. That gc has the lock while it runs the :dispose methods is by reading.")
N["C141"] = ("proved", "Integers are not bounded in the model. C141_reverse_wrong records that the points depend on the direction.")
N["C142"] = ("partial", "With exact numbers. Of parallel lines NIL is returned also if they overlap (C142_overlap_wrong).")
N["C143"] = ("partial", "With exact numbers, for lines that are not parallel. Parallel lines without a tolerance give quotients by zero (C143_parallel_wrong).")
N["C144"] = ("partial", "For ends with z >= 0, exact numbers. With an end behind the eye points that are not on the segment are returned (C144_behind_wrong), or there is a quotient by zero (C144_zero_wrong).")
N["C145"] = ("proved", "With exact numbers.")
N["C146"] = ("partial", "bounding-box-union ignores its tolerance (C146_tolerance_wrong); :grow is relative and applies to both sides (C146_grow_wrong).")
N["C147"] = ("partial", "Without a tolerance. With one: C147_compound_wrong, and :boxtest of a polygon changes the box it is given (C147_boxtest_wrong).")
N["C148"] = ("proved", "With exact numbers.")
N["C149"] = ("partial", "Over the real numbers, for lines whose ends differ; else the distance is not a number (C149_degenerate_wrong). :end-point returns the end it is given (C149_end_wrong).")
N["C150"] = ("partial", "Over the real numbers, for lines that are parallel, or whose cross product squared is above 0.0001. Below, lines that cross are said to be apart (C150_short_wrong).")
N["C151"] = ("partial", "With exact numbers. :on-plane-p adds *epsilon* to the tolerance (C151_tolerance_wrong); a parallel line gives a quotient by zero (C151_parallel_wrong).")
N["C152"] = ("proved", "With exact numbers.")
N["C153"] = ("proved", "With exact numbers.")
N["C154"] = ("partial", ":insidep is proved for convex polygons over the real numbers (the branch for others, with angles, is not modelled). A star counts as convex (C154_star_wrong).")
N["C155"] = ("partial", "eliminate-concave-vertex is proved; the claim about grahamhull is false (C155_hull_wrong).")
N["C156"] = ("proved", "Over the real numbers.")
N["C157"] = ("partial", "Unless the numbers differ by exactly epsilon (C157_boundary_wrong).")
N["C158"] = ("proved", "With exact numbers.")
N["C159"] = ("proved", "For formulas without negative literal exponents (C160_negative_wrong) and without chains of powers (an error). Values in an arbitrary ring with an arbitrary division; functions without side effects.")
N["C160"] = ("partial", "Proved: an answer for every input; two or more tokens too many are an error. Refuted: one token too many is dropped, so %(a -2) is a; f() is the variable f; a sign inside a product is taken for a variable; x ** -2 is 1; a call under a power is made as often as the exponent says.")
N["C161"] = ("proved", "The symbol after % (a place read in two steps) is left out.")
N["C162"] = ("partial", "For heaps without forms (quote x) and when nothing is cut off. Refuted: a shared list after QUOTE is printed as its number; in #1=(a '#1#) the label itself stays in the form. Instances and arrays of more dimensions are not modelled.")
N["C163"] = ("partial", "Same conditions. Refuted: a shared object that is cut off by *print-length* or *print-level*, or that occurs only after QUOTE, is left with a number in the place of its first element.")
N["C164"] = ("partial", "The tag, the sign, the order, infinities, integers up to 2^51 and everything whose low two bits are zero are kept; the value in general only up to less than four units in the last place (relative 2^-50). Refuted: the double nearest to 0.1 is changed; a NaN can become an infinity.")
N["C165"] = ("partial", "floor, ceiling and round are right up to 2^24 in magnitude, and below 2^31 exactly when the result has at most 24 significant bits; truncate below 2^23 unless the float is within 2^-24 of the next integer. Refuted: (floor 16777217.5), (truncate 0.99999999) = 1; from 2^31 on the behaviour is undefined.")
N["C166"] = ("partial", "Relative error at most 5e-6 from 1 on and 5e-7 in scientific notation; from 0.0001 to 1 only the absolute error 5e-7 is bounded. Refuted: different floats print alike; 1053/2^23 prints as 0.000126, off by 0.4 percent. Infinities and NaN are not modelled.")
N["C167"] = ("partial", "For fixnums, ratios and floats with fixnum intermediate results; - without a ratio before the first float, * without a zero before a float, / with a ratio or float among the first two. Refuted: after a bignum + passes over floats, ratios and non-numbers; a float subtracted from a ratio is dropped, from a bignum undefined; (* 0 1 x) ignores x; (/ 1/2) is 1/2; (/ 2) divides by 8*2^-1074; (*) reads an argument that is not there.")
N["C168"] = ("partial", "For fixnums and floats (and ratios for =) on which the conversion keeps the order. Refuted: (> 1.0 5.0 -BIG) is true; NaN is greater and less than everything; = between a float and a bignum depends on the order; a non-number next to a bignum is passed over.")
N["C169"] = ("proved", "For all declarations. The slot list of an inner structure is any list.")
N["C170"] = ("partial", "Little endian, 64 bit. Conversions between float, double and integers are arbitrary functions of the bit patterns. Refuted: a negative index is not noticed and changes another slot; slots of type :int, :word and :character can be declared but not used.")
N["C171"] = ("partial", "Proved if every inner structure begins with a member of its largest alignment and needs no filling, so for all structures without inner ones; the size up to the filling at the end. Refuted: inner structures that begin with a smaller member; the size.")
N["C172"] = ("partial", "Places for declarations without arrays in inner structures; values for structures without pointers and inner structures with different names. Refuted: accessors of slots behind an inner array reach into it; setting one character of an array of characters writes to an absolute address; a string too long runs over the next slots.")
N["C173"] = ("partial", "For every print-size and fboundp, so for every choice of line breaks; trees that prin1 prints readably (C10), with special forms in their syntax. The print-size of the code is shown to be defined without fixnums of 16 characters or more. Refuted: names that need bars lose them in defun; quote with two arguments, setq with an odd number lose the last; dotted parameter lists that do not fit are an error; print-size overruns its buffer on long fixnums. Vectors and arrays are not modelled.")
N["C174"] = ("proved", "Objects are the texts princ writes, with print-size their length (proved for symbols and strings).")
N["C175"] = ("partial", "Base 10. Refuted for strings (quotes), keywords (colon), names with bars and (function x).")
N["C176"] = ("proved", "For arguments without :read on flags that take no value, where using the flag is an error (C176_read_wrong). A negative number on its own is a flag (C176_negative_wrong). read-from-string is any partial function on strings. Not modelled: help texts, and that destinations named as methods of the parser (:plist, :parse-args) redefine those methods.")
N["C177"] = ("proved", "With fresh lists of flags: add-argument sorts the list it is given in place for the help text, so a second call with the same constant sees another first flag.")
N["C178"] = ("partial", "For exits in the same function or cleanup form that leave no catch lying just where the block begins: the frame of such a catch stays in force and is overwritten, as in (defun f () (catch 'a (return-from f 1))) (C178_flush_wrong, C178_go_wrong). Cleanup forms end with a value and use only special variables they bind themselves (C178_specials_wrong); exits in them are refused or run into C179_twice_wrong. C178_interpreter_partial compares with the interpreter of Verif/Ctl.")
N["C179"] = ("partial", "For the programs of C178. A cleanup form that is left by an exit or an error runs twice: its frame is removed after it ends (C179_twice_wrong, C179_error_wrong).")
N["C180"] = ("partial", "Conditionals and block comments between the elements of lists; elsewhere the code is wrong: a comment after the flag takes the place of the form (C180_comment_wrong), vectors and quotes get the null pointer (C180_vector_wrong, C180_quote_wrong), the dotted end (C180_tail_wrong), two conditionals in a row (C180_chain_wrong), nil at the top level (C180_toplevel_wrong), a comment before the flag crashes (C180_flag_wrong), #. in excluded forms is evaluated (C180_excluded_eval_wrong). Tokens are given; Verif/Rd has the characters.")
N["C181"] = ("partial", "False for lists: a list cut by the end of the file is read as if it were closed (C181_wrong, for every list). It holds for empty texts, quotes and dotted ends (C181_eof_partial, C181_tail_partial).")
N["C182"] = ("partial", "At most once and termination for dependencies without cycles, at most once for any dependencies when module files begin with provide. In a cycle without that a module is loaded twice (C182_cycle_wrong) or require never returns (C182_diverges_wrong), since provide comes after the load. Package, versions and unloading are not modelled.")
N["C183"] = ("proved", "File names are directory lists and base names; the extension search is that of try-load.")
N["C184"] = ("partial","Proved for every combination of options outside a list, with every file, data, division into writes and buffer size; for each combination in the list it is proved that the session ends in another way than it should, for every file and data (C184_wrong). Input is complete.")
N["C185"] = ("partial","Proved for :direction :output. False for :io (C185_io_wrong: every text up to the buffer size is lost and close gives nil); proved for :io when finish-output is the last thing before close.")
N["C186"] = ("proved","For every closed heap, object and option: the visited objects are a list without repetition of exactly the reachable ones, the three sums are over it, the marks are all off afterwards, and the recursion is at most as deep as the heap has objects. The limit of the C stack and the race between threads for the counters are not modelled.")
N["C187"] = ("proved","For all integers (without overflow). The generator for ellipses uses floats and is not modelled.")
N["C188"] = ("partial","Shown entries, numbers and steps back in full; patterns for all entries but the oldest, which is never found (C188_oldest_wrong). That replace copies an array onto itself upwards is taken as it works in practice (the C code is a memcpy, see C71).")
N["C189"] = ("partial","All keys; an empty line gives nil like ^C (C189_empty_wrong), keys above 127 are an error (C189_key_wrong). The screen is not modelled.")
N["C190"] = ("partial","For every ordered ring, non-empty list with two different x's: the result is the hull, with recursion no deeper than the list is long. Missing: points that all have the same x, for which C190_vertical_wrong proves that the result is one point twice. Rounding is not modelled; the normal is the default one.")
N["C191"] = ("proved","For every list of fitting faces: the making succeeds and the store is the boundary representation of them (C191_faces), closed if they are (C191_closed), and a body of the faces in any order has each edge and corner once (C191_body). Coordinates, normals and angles are not modelled.")
N["C192"] = ("proved","For all sizes from three on and pairwise different vertices. C192_needs_three shows that with two points a face overwrites another. The turning of the points (rotate-vertices) is not modelled: rings are arbitrary lists of vertices; a contour that touches the axis in between is outside the code's own conditions.")
N["C193"] = ("partial", "Refinement to an evaluator that knows nothing of wrappers, in both directions, and equality of results with the session without the commands, for sessions given with care (Spec.OkCmd). For each condition a theorem ending in _wrong shows that the code breaks the claim without it.")
N["C194"] = ("partial", "Transition system with one step per shared access, invariant (snapshot at the beginning) kept by all 27 kinds of step; safety and one-cycle completeness for histories of careful steps. For each condition of careful a theorem ending in _wrong gives a history, careful otherwise, that frees an object in use.")
N["C195"] = ("partial", "Refinement of the levels, catch tags and value cells to a specification with a stack of interrupted computations and a list of lets. Partial: with the selector, sessions with comma-symbol lines are excluded (C195_symbol_wrong), and + needs sessions without interrupts and empty lines (C195_plus_wrong, C195_blank_wrong). No unwind-protect and no user catch in the computations.")
N["C196"] = ("partial", "Counts, exit status, order and escaping in full. The document for names without < and double quote and messages without double quote and backslash; the suite for names defined once; the file for names that do not begin with a character of the option. Each restriction has a theorem ending in _wrong.")
N["C197"] = ("partial", "Gray pictures and pictures in decimal in full. Binary color pictures for files with nothing behind the picture and no one-byte reads. The restrictions are needed: each has a theorem ending in _wrong.")
N["C198"] = ("partial", "Connections, ends of input and output for every history. Conditions of the _partial theorems are needed: each has a theorem ending in _wrong. Programs are modelled as holders of descriptors; data on the pipes is not modelled.")
N["C199"] = ("partial", "Shallow binding refines deep binding for every history that keeps to Spec.Ok. For each condition a theorem ending in _wrong shows what happens without it.")
N["C200"] = ("partial", "Real numbers without rounding. C200_axis_wrong: 0/0 for every rotation about (1,1,0) or (1,-1,0). C200_euler_wrong: near the poles the Euler angles are not exact, C200_euler_near bounds the error.")
N["C201"] = ("partial", "C201_handled_partial: the handler that was installed last is run at the thread's next look, with the number and (if nothing else arrives anywhere) the code; missing: more than one signal before the look, which the code loses (C201_overwrite_wrong, C201_race_wrong, C201_child_erases_wrong, C201_semaphore_wrong). C201_at_most: no handler runs more often than its signal arrived, for every history with looks cut in two. C201_threads: projection of every history to one thread. C201_semaphore: no arrival lost. C201_old, C201_default, C201_pipe. Disproved with witnesses: C201_code_wrong, C201_child_wrong (never run in any history), C201_default_wrong, C201_restore_wrong, C201_pipe_wrong.")
N["C202"] = ("partial", "On top of the printer and reader of C54. C202_array_partial, C202_integer_array_partial: any rank up to seven, any offset and fill pointer; missing: zero dimensions (C202_empty_wrong), a first element that is a list (C202_list_wrong), other element types (C202_type_wrong), elements outside C54, the smallest word. C202_vector_partial, C202_integer_vector_partial (longer than *print-length*: C202_long_wrong), C202_bits (empty at the end: C202_no_bits_wrong). Floats are not modelled.")
N["C203"] = ("partial", "C203_quotient_partial: divisors and quotients inside the limits the comment of div_big_big asks for (2^31 instead of its 2^30 for the highest word); C203_one_word: no limits when both have one word and the divisor is positive. Outside: C203_int_wrong, C203_zero_wrong, C203_guess_wrong, C203_short_wrong, C203_negative_wrong, C203_rest_wrong, C203_rest_ignored. C203_fixnum_divisors: the model extends the one of C07. Floats are not modelled.")
N["C204"] = ("partial", "On top of the class numbering of C28. C204_slot_partial: all histories in which no class is defined twice and no slot is set by a negative or huge index; C204_accessor_partial: access macros whose name is not shared. Missing: C204_negative_wrong, C204_wild_wrong, C204_redefine_wrong, C204_redefine_super_wrong, C204_accessor_wrong. Objects of vector classes, unbound slots and slot types are not modelled.")
N["C205"] = ("partial", "C205_euc2sjis_partial (rows 1-80), C205_sjis2euc_partial (all but even rows from 66), C205_roundtrip_partial, C205_euc_kept, C205_jis_partial (ESC $ B or ESC $ @ and ESC ( J). Missing: C205_even_wrong (all even rows from 66 on), C205_row81_wrong, C205_half_wrong, C205_euc_wrong, C205_jis_wrong.")
N["C206"] = ("proved", "C206_distance: the whole statement, with the distance written as a minimum over obstacles (IsDist). C206_border. C206_removed_wrong is the remark on obstacles that have gone. The rest of disttrans.l (map-distance, map-occupation) is unfinished text; calc-distance-all calls its functions without arguments.")
N["C207"] = ("partial", "C207_sign: zerop, plusp, minusp of all canonical integers. C207_parity_partial: oddp and evenp right from -2^126 to 2^64-1, an error outside, for every integer. C207_signum_bignum: all bignums; C207_signum_fixnum_partial: all fixnums but -2^61. Missing: C207_parity_wrong, C207_signum_wrong. Ratios and floats are not modelled here.")
N["C208"] = ("partial", "Proved for all pictures: C208_halve, C208_double, C208_double_halve, C208_subimage, C208_patch_in, C208_patch_subimage, C208_subimage_patch, C208_look_up, C208_look_up_twice, C208_rgb. C208_median_partial: windows of one pixel. Missing because the code is wrong: C208_pixel_wrong, C208_subimage_wrong, C208_merge_wrong (all such lengths), C208_convolve_wrong (all pictures), C208_median_wrong (all windows of 2 to 10).")
N["C209"] = ("partial", "C209_fds and C209_refused: full. C209_select_partial: all histories and handlers that leave alone the ready ports that come later. Missing: C209_removed_wrong. The OS call select is modelled as keeping the bits of readable descriptors.")
N["C210"] = ("partial", "C210_every and C210_finish: all histories. Missing: C210_added_wrong (destinations added later), C210_close_wrong (:close, all texts of up to 256 bytes). Errors of destinations are not modelled.")
N["C211"] = ("partial", "C211_range and C211_negative: all n and all random numbers, with both roundings to 53 bits. C211_every_partial: n up to 2^47. Missing: C211_large_wrong. The sequence of erand48 (C library) and floating-point limits are not modelled.")
N["C212"] = ("partial", "C212_class, C212_bits, C212_bytes, C212_back, C212_refused, C212_resize, C212_replace: full for vectors below 2^31 bits. Missing: C212_address_wrong, C212_negative_wrong, C212_replace_wrong. Foreign strings are not modelled.")
N["C213"] = ("partial", "C213_keys and C213_round: all histories (with :reset-try to 0). C213_get_partial: histories that remove by key. Missing: C213_remove_nil_wrong, C213_skip_wrong.")
N["C214"] = ("partial", "C214_exclusive, C214_refused and C214_accepted: all threads and schedules. Missing: C214_sync_wrong and C214_two_wrong (for every continuation), C214_reached_wrong, C214_concurrent_wrong. lock-slots and unlock-slots within methods are not modelled.")
N["C215"] = ("partial", "C215_unifier, C215_no_unifier and C215_undo: all terms and stores. C215_sound_partial and C215_fails_partial: all programs and queries whose goals name their predicates and that end; sound for the finite values that agree with the bindings. Missing: C215_variable_wrong, C215_loop_wrong, C215_occurs_wrong. Built-in predicates are not modelled.")
N["C216"] = ("partial", "C216_remove_tags, C216_tilda, C216_transpose: full. C216_comment_partial: comments without three dashes in a row. C216_extract_partial: elements that are not nested. C216_transpose_twice_partial: rows of equal length. Missing: C216_comment_wrong, C216_nested_wrong, C216_transpose_wrong. The HTML reader itself (readtable, tags, Japanese codes) is not modelled.")
N["C217"] = ("partial", "C217_paper: full, for :putch and the stream. C217_scroll_partial: up by no more than the height, down by any amount; C217_scroll_wrong. C217_putstring_partial: a string that fits in the line; C217_putstring_wrong: a longer one never ends. Pixels and the X protocol are not modelled.")
N["C218"] = ("partial", "C218_insert_string, C218_rubout, C218_tab, C218_tabs_gone, C218_selection: full. C218_type_partial: as long as the cursor stays left of the last column. C218_delete_partial: no more behind the cursor than is taken away. Missing: C218_type_wrong, C218_delete_wrong (undefined), C218_shared_wrong.")
N["C219"] = ("partial", "C219_locate: full. C219_scroll_partial: by no more than the height. Missing: C219_scroll_wrong, an error beyond that. Amounts given as a float fraction and the horizontal scroll are not modelled.")
N["C220"] = ("partial", "C220_items, C220_inside: full, for items without given places. C220_bar_partial: menu bars, items not higher than the item height. Missing: C220_given_wrong, C220_bar_wrong. Window borders are not counted.")
N["C221"] = ("partial", "C221_sound, C221_closed: full, for assertions in any order. C221_retract_partial: retracting the only clause of a node. C221_history_partial: assertions and retractions in any order, as long as no retraction fails: no label outlives its reasons. Missing: C221_follows_wrong (every retraction of a clause from whose node another label follows fails), C221_open_wrong, C221_reason_wrong, C221_contradiction_wrong. Messages are not modelled.")
N["C222"] = ("partial", "C222_primes_partial: all n from 4 on. Missing: C222_small_wrong. The square root is exact in the model, a float in the program.")
N["C223"] = ("partial", "C223_sound: all grammars and words. C223_complete_partial: one alternative, not empty, in each rule. C223_ends_partial: no rule from one category to one. Missing: C223_unit_wrong, C223_alternatives_wrong, C223_empty_wrong. generate (random sentences) is not modelled.")
N["C224"] = ("partial", "C224_slider_range, C224_slider_follow, C224_slider_drag, C224_slider_idle, C224_choice_click, C224_stick_range, C224_stick_follow, C224_stick_return: full. C224_choice_partial: labels at least as wide as a button. Missing: C224_slider_set_wrong, C224_slider_integer_wrong, C224_choice_wrong. Values are exact in the model, floats in the program.")
N["C225"] = ("partial", "C225_segments, C225_paths, C225_closed: full. C225_simple_partial: at most two segments end at each point. Missing: C225_simple_wrong. Points are equal or farther apart than the tolerances; holes and directions are not modelled.")
N["C226"] = ("proved", "C226_perspective, C226_parts. Exact numbers; both ends in front of the viewpoint (positive weights). Finding the intersections, the intersection of a face with the line of sight, and clipping are parameters.")
N["C227"] = ("partial", "C227_fresh_partial, C227_history_partial: no used package exports a symbol of the form asked for. Missing: C227_inherited_wrong. The counter is an unbounded number; imported and uninterned symbols are not modelled.")
N["C228"] = ("partial", "C228_parts_partial: the total, and what is shown of intervals shorter than a day; C228_total. Missing: C228_days_wrong (all longer intervals), C228_add_wrong (all additions and subtractions). Printing is not modelled.")
