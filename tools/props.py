#!/usr/bin/env python3
"""Source of properties.jsonl (run from /verif: python3 tools/props.py)."""
import json
P=[]
def p(title, statement, quantifier, why, *anchors):
    P.append(dict(id="C%02d"%(len(P)+1), title=title, statement=statement,
                  quantifier=quantifier, why_tests_cant=why,
                  anchors=[b for a in anchors for b in (a if isinstance(a, list) else [a])]))

# --- numbers
p("Boxing an integer loses nothing",
  "Every 64-bit integer the runtime turns into a Lisp object is an integer object whose value, read back, is the same 64-bit integer; two equal integers inside the fixnum range are EQ.",
  "all 2^64 machine integers",
  "2^64 inputs, three different encodings (shifted immediate, tagged immediate, bignum) with boundaries at +-2^61",
  "lisp/c/eus.c:makeint","lisp/c/eus.c:intval","lisp/c/eus.h:mkbigint","lisp/c/eus.h:isint")
p("Fixnum + and - are exact",
  "(+ a b ...) and (- a b ...) on any number of fixnums return the exact mathematical result; it is a fixnum whenever it fits and a bignum otherwise, never a wrapped value.",
  "all argument lists of fixnums, any length",
  "unbounded argument lists; overflow depends on the running partial sum",
  "lisp/c/arith.c:PLUS","lisp/c/arith.c:MINUS")
p("Bignum + fixnum is exact",
  "Adding a fixnum to a bignum of any length (either sign) gives exactly the integer sum, including carries that ripple through every limb and results that need one more limb.",
  "all bignums of any length, all fixnums",
  "carry chains of unbounded length",
  "lisp/c/big.c:add_int_big","lisp/c/big.c:sub_int_big","lisp/c/big.c:stretch_big")
p("Bignum + bignum is exact",
  "Adding two bignums of any lengths and signs gives exactly the integer sum.",
  "all pairs of bignums of any length and sign",
  "unbounded lengths and sign/length combinations",
  "lisp/c/big.c:big_plus")
p("Bignum negation is exact",
  "(- x) for a bignum x is exactly the opposite integer, and negating twice gives back x.",
  "all bignums of any length and sign",
  "unbounded lengths; the boundary -2^(63k) needs an extra limb",
  "lisp/c/big.c:complement_big","lisp/c/big.c:big_minus")
p("Products are exact",
  "(* a b) is the exact integer product for fixnum*fixnum, fixnum*bignum and bignum*bignum.",
  "all integers a, b",
  "2^122 fixnum pairs and unbounded bignums",
  "lisp/c/arith.c:TIMES","lisp/c/big.c:extended_mul","lisp/c/big.c:mul_int_big","lisp/c/big.c:big_times")
p("Bignum divided by fixnum is exact",
  "Dividing a non-negative bignum by a positive fixnum yields the floor quotient and a remainder in [0,divisor).",
  "all non-negative bignums of any length, all positive fixnum divisors",
  "unbounded lengths, 2^61 divisors",
  "lisp/c/big.c:div_int_big","lisp/c/big.c:extended_div")
p("Canonical integers",
  "Every integer result of arithmetic is in canonical form: a value representable as a fixnum is a fixnum, and a bignum has no redundant leading limb, so = and EQL agree with mathematical equality.",
  "all arithmetic results",
  "depends on cancellation across arbitrary lengths",
  "lisp/c/big.c:normalize_bignum","lisp/c/big.c:normalize_big","lisp/c/arith.c:PLUS","lisp/c/arith.c:ADD1")
p("Integer comparison is the integer order",
  "For integers x and y, (< x y), (> x y), (<= x y), (>= x y) and (= x y) hold exactly when the integers are so related, whatever mixture of fixnum and bignum; chains hold exactly when every adjacent pair does.",
  "all integers, all argument list lengths",
  "mixed representations, unbounded sizes and chain lengths",
  "lisp/c/big.c:big_compare","lisp/c/arith.c:GREATERP","lisp/c/arith.c:LESSP","lisp/c/arith.c:NUMEQUAL")
p("Integers survive printing and reading",
  "Printing any integer in base b and reading the text back in base b gives the same integer, for fixnums and bignums.",
  "all integers, all bases 2..36",
  "infinitely many integers",
  "lisp/c/printer.c:printint","lisp/c/printer.c:printbig","lisp/c/reader.c:readint")
p("Hexadecimal literals denote their value",
  "Reading #x followed by hexadecimal digits gives the integer those digits denote.",
  "all digit strings up to the reader's limit of 64 digits",
  "16^64 strings; limb boundaries fall at every bit phase",
  "lisp/c/reader.c:read_sharp_hex")
p("ASH is multiplication by a power of two",
  "(ash n k) = floor(n * 2^k) for every fixnum n and every shift count.",
  "all fixnums n, all shift counts k",
  "2^61 values times all counts; overflow promotion to bignum",
  "lisp/c/arith.c:ASH")
p("Bitwise operations act bit by bit",
  "logand, logior, logxor, lognot and logbitp on integers act on the infinite two's complement bit strings of their arguments.",
  "all integers, all argument list lengths",
  "2^61 values per argument",
  "lisp/c/arith.c:LOGAND","lisp/c/arith.c:LOGIOR","lisp/c/arith.c:LOGXOR","lisp/c/arith.c:LOGNOT","lisp/c/arith.c:LOGBITP")
p("Byte fields read back what was deposited",
  "(ldb (dpb v n w p) p w) = v mod 2^w, and dpb leaves all other bits unchanged.",
  "all fixnums, all field positions and widths inside the word",
  "2^61 values, all field geometries",
  "lisp/c/arith.c:LDB","lisp/c/arith.c:DPB")
p("EXPT by repeated squaring",
  "(expt a n) = a^n for every non-negative integer n.",
  "all bases in any ring of numbers with exact multiplication, all exponents n >= 0",
  "unbounded exponents; the addition-chain loop state is unbounded",
  "lisp/l/common.l:expt")
p("Ratios are exact and in lowest terms",
  "Sums, differences, products and quotients of rationals are exact, with coprime numerator and positive denominator; gcd is the greatest common divisor.",
  "all ratios whose intermediate values fit the machine int",
  "unbounded pairs of inputs",
  "lisp/c/reader.c:gcd","lisp/c/arith.c:ratio_plus","lisp/c/arith.c:ratio_times","lisp/c/makes.c:makeratio")
# --- memory
p("Allocation never overlaps",
  "At every moment of every history of allocations and collections, the cells handed out are pairwise disjoint, lie inside the heap and are at least as large as requested.",
  "all sequences of allocation requests and garbage collections",
  "unbounded histories of splitting and merging",
  "lisp/c/memory.c:gc_alloc","lisp/c/memory.c:root_alloc_big","lisp/c/memory.c:splitheap")
p("Merging undoes splitting",
  "Free buddies merge only with their true sibling: after any history of splits and frees, a chunk whose cells are all free merges back to a single cell of the original size, and no merge ever absorbs a live cell.",
  "all split trees of any depth",
  "unbounded split trees; the sibling bits are shuffled down the tree",
  "lisp/c/memory.c:splitheap","lisp/c/memory.c:mergecell","lisp/c/memory.c:sweep")
p("Free-space accounting is exact",
  "The runtime's free-heap figure equals the total size of the free cells after any history.",
  "all histories of allocation, split, merge and sweep",
  "unbounded histories",
  "lisp/c/memory.c:newchunk","lisp/c/memory.c:root_alloc_big","lisp/c/memory.c:sweep")
p("Garbage collection keeps exactly the reachable objects",
  "The mark phase marks an object if and only if it is reachable from the roots, for any object graph including cycles, and always terminates.",
  "all finite object graphs and root sets",
  "arbitrary graphs",
  "lisp/c/memory.c:mark","lisp/c/memory.c:markall")
p("Garbage collection is invisible to the program",
  "Collecting at any point leaves every reachable object's identity and contents unchanged, and an object freed by a collection can never again be reached from the roots.",
  "all heaps, all points of all mutator histories",
  "arbitrary graphs and interleavings of mutator steps with collections",
  "lisp/c/memory.c:gc","lisp/c/memory.c:sweepall","lisp/c/memory.c:reclaim")
# --- hash tables, symbols
p("A hash table is a finite map",
  "After any sequence of sethash/remhash/clrhash, gethash returns the value most recently stored under the key and not since removed, or the not-found value; this includes every automatic enlargement.",
  "all operation sequences, all hash functions, all table sizes",
  "unbounded histories with collisions, deletions and rehashes",
  "lisp/l/hashtab.l:hash-table :find","lisp/l/hashtab.l:hash-table :enter","lisp/l/hashtab.l:hash-table :delete","lisp/l/hashtab.l:hash-table :extend")
p("Hash table enumeration is exact",
  "maphash, :list-keys, :list-values and the count report every present key exactly once with its current value and nothing else.",
  "all operation sequences",
  "unbounded histories",
  "lisp/l/hashtab.l:hash-table :map","lisp/l/hashtab.l:hash-table :list")
p("Hash table operations terminate",
  "gethash, sethash and remhash terminate on every table reachable through the API.",
  "all operation sequences, all rehash factors accepted by make-hash-table",
  "termination depends on an invariant (an empty slot always exists)",
  "lisp/l/hashtab.l:hash-table :find")
p("Equal keys have equal hashes",
  "(equal x y) implies (sxhash x) = (sxhash y), so equal hash tables find their keys.",
  "all pairs of objects",
  "infinitely many structured objects",
  "lisp/c/specials.c:sxhash","lisp/c/predicates.c:equal")
p("Interning is canonical",
  "In a package, interning equal names always yields the same symbol and different names different symbols, whatever was interned in between and however often the symbol table grew.",
  "all sequences of intern calls, all names",
  "unbounded histories, collisions, growth",
  "lisp/c/intern.c:intern","lisp/c/intern.c:findsymbol","lisp/c/intern.c:extendsymvec")
p("Package visibility",
  "After use-package, a name exported by the used package and not present in the current one denotes the used package's symbol; unexport of one symbol does not affect the visibility of others.",
  "all packages, all histories of export, unexport, intern and unintern",
  "unbounded probe chains",
  "lisp/c/intern.c:intern","lisp/c/intern.c:export","lisp/l/packsym.l:package :unexport")
# --- objects
p("subclassp is the superclass chain",
  "After any sequence of class definitions, (subclassp a b) and (derivedp obj b) hold exactly when b is a itself or one of its superclasses.",
  "all sequences of class definitions (all inheritance trees in all definition orders)",
  "all trees; class numbers are renumbered on every definition",
  "lisp/c/makes.c:enterclass","lisp/c/makes.c:bumpcix","lisp/c/leo.c:SUBCLASSP","lisp/c/leo.c:DERIVEDP")
p("Message dispatch finds the most specific method",
  "(send obj sel) runs the method for sel defined in the nearest class of the receiver's superclass chain at the time of the call; the method cache never changes the answer, whatever methods were defined, redefined or deleted before.",
  "all class trees, all histories of defmethod, delete-method and send from any number of threads",
  "cache staleness depends on the history and hash collisions",
  "lisp/c/leo.c:findmethod","lisp/c/leo.c:addmethod","lisp/l/common.l:delete-method","lisp/c/leo.c:METHCACHE")
p("copy-object preserves topology",
  "copy-object returns a structure isomorphic to its argument (sharing and cycles included), disjoint from it except for symbols, numbers and classes, and leaves the argument unchanged.",
  "all finite object graphs",
  "arbitrary cyclic graphs",
  "lisp/c/leo.c:copyobj","lisp/c/leo.c:copyunmark","lisp/c/leo.c:COPYOBJ")
# --- sequences and lists
p("remove is filter",
  "(remove x seq :start s :end e :count c) is seq without the first c matching elements in [s,e), order preserved, seq unchanged; same for remove-if and remove-if-not.",
  "all sequences, bounds, counts and predicates",
  "arbitrary lengths and predicates",
  "lisp/c/sequence.c:UNIREMOVE","lisp/l/common.l:remove")
p("delete agrees with remove",
  "(delete x seq ...) returns the same elements as (remove x seq ...).",
  "all sequences, bounds, counts and predicates",
  "arbitrary lengths and predicates",
  "lisp/c/sequence.c:DELETE","lisp/l/common.l:delete")
p("substitute and nsubstitute agree",
  "substitute replaces exactly the first c matching elements in [s,e) and changes nothing else; nsubstitute leaves the same contents in place.",
  "all sequences, bounds, counts and predicates",
  "arbitrary lengths and predicates",
  "lisp/c/sequence.c:SUBSTITUTE","lisp/c/sequence.c:NSUBSTITUTE")
p("find, position and count agree with each other",
  "position returns the index of the first match in [s,e), find the element at that index, count the number of matches in [s,e), and they are consistent.",
  "all sequences, bounds and predicates",
  "arbitrary lengths and predicates",
  "lisp/c/sequence.c:POSITION","lisp/c/sequence.c:FIND","lisp/c/sequence.c:COUNT")
p("Reversal laws",
  "reverse and nreverse both give the elements in opposite order, reversing twice is the identity, and nreverse of a list keeps the list object.",
  "all sequences",
  "arbitrary lengths; in-place exchange",
  "lisp/c/sequence.c:REVERSE","lisp/c/sequence.c:NREVERSE")
p("subseq and concatenate are inverse",
  "(concatenate type (subseq s 0 k) (subseq s k)) has the elements of s, and subseq returns exactly the elements in [start,end).",
  "all sequences and indices",
  "arbitrary lengths and indices",
  "lisp/c/sequence.c:SUBSEQ","lisp/c/sequence.c:CONCATENATE")
p("remove-duplicates keeps one of each",
  "remove-duplicates returns a sequence with no two matching elements that contains a representative of every element, each being the last occurrence, in order.",
  "all sequences and equivalence tests",
  "arbitrary lengths and tests",
  "lisp/c/sequence.c:REMOVE_DUPLICATES","lisp/l/common.l:remove-duplicates","lisp/l/common.l:unique")
p("merge merges",
  "Merging two sorted sequences yields a sorted permutation of both.",
  "all pairs of sorted lists, all total preorders",
  "arbitrary lengths; destructive pointer surgery",
  "lisp/l/common.l:merge","lisp/l/common.l:merge-list")
p("List set operations",
  "union, intersection, set-difference, set-exclusive-or, adjoin and subsetp compute the corresponding set operations on membership with respect to :test (for :key see the separate property).",
  "all lists",
  "arbitrary lengths",
  "lisp/l/common.l:union","lisp/l/common.l:intersection","lisp/l/common.l:set-difference","lisp/l/common.l:set-exclusive-or")
p("append, nconc, butlast, nthcdr laws",
  "append and nconc concatenate all their list arguments; (append (butlast l n) (last-n l)) = l; nthcdr drops; append leaves its arguments unchanged.",
  "all lists, all n",
  "arbitrary lengths",
  "lisp/c/lists.c:APPEND","lisp/c/lists.c:NCONC","lisp/c/lists.c:BUTLAST","lisp/c/lists.c:NBUTLAST","lisp/c/lists.c:NTHCDR")
p("equal is structural equality",
  "On finite trees of conses, numbers, symbols, strings and vectors, equal is an equivalence relation that holds exactly when both print the same structure.",
  "all finite trees",
  "unbounded depth; word-wise comparison of packed vectors",
  "lisp/c/predicates.c:equal","lisp/c/predicates.c:superequal")
# --- arrays
p("Array elements are independent",
  "aset followed by aref at the same subscripts returns the stored value and leaves every other element unchanged, for arrays of any rank and bounds-checked subscripts.",
  "all ranks, dimensions and subscripts",
  "arbitrary ranks and dimensions",
  "lisp/c/vectorarray.c:arrayindex","lisp/c/vectorarray.c:AREF","lisp/c/vectorarray.c:ASET")
p("Bit vector elements are independent",
  "Setting bit i of a bit vector makes bit i read as the stored value and changes no other bit, through setbit and through (setf (aref v i) b).",
  "all bit vectors, indices and bit values",
  "arbitrary lengths; word boundaries",
  "lisp/c/vectorarray.c:vset","lisp/c/vectorarray.c:vref","lisp/c/vectorarray.c:SETBIT")
p("Fill pointer stack discipline",
  "vector-push, vector-push-extend and vector-pop behave as a stack; vector-push refuses when full and vector-push-extend never loses elements.",
  "all sequences of pushes and pops",
  "unbounded histories with growth",
  "lisp/c/vectorarray.c:VECTORPUSH","lisp/c/vectorarray.c:VECTOREXPUSH","lisp/c/vectorarray.c:VECTORPOP")
p("String comparison is lexicographic",
  "string<, string<=, string=, string>, string>= decide the lexicographic byte order of their whole arguments; exactly one of <, =, > holds.",
  "all strings",
  "arbitrary contents including zero bytes",
  "lisp/c/charstring.c:STR_LT","lisp/c/charstring.c:STR_EQ","lisp/c/charstring.c:STRINGEQ")
p("A queue is first-in first-out",
  "Any sequence of :enqueue, :dequeue, :trim, :delete, :length, :first and :last behaves as on an abstract FIFO list.",
  "all operation sequences",
  "unbounded histories over a mutable head/tail pair",
  "lisp/l/hashtab.l:queue")
p("Property lists are maps",
  "After any sequence of putprop and remprop, get returns the latest value stored under the attribute and not removed, else the default.",
  "all operation sequences",
  "unbounded histories",
  "lisp/c/specials.c:putprop","lisp/c/specials.c:GETPROP","lisp/l/object.l:propertied-object :remprop")
# --- evaluator
p("Non-local exits restore the dynamic environment",
  "However a catch, block, tagbody or unwind-protect form is left - normally, by throw, return-from or go, through any nesting - every special variable, catch tag and block that was in force when the form was entered is in force again afterwards.",
  "all programs of nested binding, catch, throw, block, return-from, tagbody, go and unwind-protect forms",
  "arbitrary nesting",
  "lisp/c/specials.c:CATCH","lisp/c/specials.c:throw","lisp/c/eus.c:unwind","lisp/c/eval.c:bindspecial","lisp/c/eval.c:unbindspecial")
p("Cleanup forms run exactly once",
  "The cleanup forms of every unwind-protect entered and left are executed exactly once, innermost first, whether it is left normally or by a throw.",
  "all programs of nested forms",
  "arbitrary nesting",
  "lisp/c/specials.c:UNWINDPROTECT","lisp/c/eus.c:unwind")
p("Keyword arguments",
  "Each keyword parameter gets the value of its first occurrence in the argument list or its default; unknown keywords are rejected unless other keys are allowed; an odd list or a non-keyword is an error.",
  "all keyword vectors and argument lists",
  "arbitrary lengths and orders, repeated keys",
  "lisp/c/eval.c:parsekeyparams","lisp/c/eval.c:bindkeyparams")
p("Lambda lists",
  "A call binds required parameters positionally, then optionals (default when absent), then the rest list to the remaining arguments; it signals an error exactly when the argument count does not fit.",
  "all lambda lists of required, optional and rest parameters, all argument lists",
  "arbitrary lengths",
  "lisp/c/eval.c:funlambda")
# --- reader / printer / streams
p("Strings survive printing and reading",
  "Reading what prin1 prints for a string gives an equal string, whatever bytes it contains.",
  "all byte strings of any length",
  "arbitrary lengths; escaping; buffer growth at 16384",
  "lisp/c/printer.c:printstr","lisp/c/reader.c:readstring")
p("Symbols survive printing and reading",
  "Reading what prin1 prints for a symbol of the current package gives the same symbol.",
  "all symbol names",
  "arbitrary names; escaping rules and number syntax interact",
  "lisp/c/printer.c:printsym","lisp/c/reader.c:read2")
p("Lists survive printing and reading",
  "Reading what prin1 prints for a finite tree of conses, integers and strings gives an equal tree.",
  "all finite trees",
  "unbounded depth",
  "lisp/c/printer.c:printlist","lisp/c/reader.c:read_delimited_list")
p("Nested comments",
  "#| ... |# comments nest: the reader skips exactly a balanced comment, and resumes right after its closing mark.",
  "all balanced comment texts of any depth",
  "unbounded nesting",
  "lisp/c/reader.c:read_sharp_comment")
p("Output streams lose nothing",
  "The bytes received by the file (or collected by a string output stream) are exactly the concatenation of everything written, in order, whatever the mixture of character and string writes, buffer size and flushes.",
  "all write sequences and buffer sizes",
  "unbounded sequences crossing buffer boundaries",
  "lisp/c/eusstream.c:writech","lisp/c/eusstream.c:writestr","lisp/c/eusstream.c:flushstream")
p("Input streams deliver the input",
  "Successive reads deliver the source bytes in order without loss or duplication across buffer refills, and unreading the last character makes the next read return it.",
  "all inputs, chunkings of the underlying reads and read/unread sequences",
  "unbounded sequences, arbitrary chunking by the OS",
  "lisp/c/eusstream.c:readch","lisp/c/eusstream.c:unreadch","lisp/c/eusstream.c:fillstream")
# --- threads
p("A thread call delivers its own result exactly once",
  "With any number of pool threads and callers, under every schedule, each (thread f ...) call runs its function exactly once, a pool thread never serves two calls at a time, and wait-thread returns the value of that very call.",
  "all schedules, any number of callers, pool threads and calls",
  "schedules are unbounded",
  "lisp/c/mthread.c:thread_main","lisp/c/mthread.c:AFUNCALL","lisp/c/mthread.c:WAIT_AFUNCALL","lisp/c/mthread.c:get_free_thread")
p("A memory port is a one-place channel",
  "Under every schedule of any number of readers and writers, the sequence of values read from a synch-memory-port is the sequence written, without loss, duplication or overwriting.",
  "all schedules, any number of readers and writers",
  "schedules are unbounded",
  "lisp/l/par.l:synch-memory-port")
p("A barrier releases all its threads",
  "When the last of the n registered threads arrives at the barrier, every waiting thread is released, and none before.",
  "all schedules, any n",
  "schedules are unbounded",
  "lisp/l/par.l:barrier-synch")
p("Interval timers fire every interval ticks",
  "A running timer with interval n fires exactly at every n-th tick, and its run count after k ticks is floor(k/n).",
  "all intervals and tick counts",
  "unbounded tick counts",
  "lisp/l/cyclic.l:itimer :tick")

# --- appended
p("mod is the truncating remainder",
  "For integers x and non-zero y that fit in a machine word (mod x y) is the r with x = y*truncate(x/y)+r, |r|<|y| and the sign of x.",
  "all integers representable in 64 bits",
  "the operand space is 2^128",
  "lisp/c/arith.c:MOD")
p("max and min select an extreme argument",
  "(max a ...) and (min a ...) on fixnums return one of their arguments and no argument is larger (smaller).",
  "all non-empty argument lists of fixnums",
  "unbounded argument lists",
  "lisp/c/arith.c:MAX","lisp/c/arith.c:MIN")

p("fill overwrites exactly the given range",
  "(fill seq item :start s :end e) makes every element with index in [s,e) the item and leaves every other element and the length unchanged.",
  "all lists and vectors, all s and e",
  "lengths and ranges are unbounded",
  "lisp/c/sequence.c:FILL","lisp/l/common.l:fill")
p("map applies the function elementwise",
  "(map type f s1 ... sn) returns a sequence of the length of the shortest argument whose i-th element is f of the i-th elements.",
  "all functions, any number of sequences of any lengths",
  "unbounded lengths and number of arguments",
  "lisp/c/sequence.c:MAP")
p("list-insert and list-delete edit one position in place",
  "(list-insert item n list) puts item at position n (at the end when n is past the end) and shifts the rest; (list-delete list n) removes position n; no other cell's content changes.",
  "all lists, all positions, all surrounding heaps",
  "the aliasing structure of the heap is unbounded",
  "lisp/l/common.l:list-insert","lisp/l/common.l:list-delete")

p("reduce is a fold",
  "(reduce f seq :start s :end e :initial-value v) combines the elements in [s,e) from the left, or from the right with :from-end, starting from v or the first element.",
  "all functions, sequences, ranges",
  "arbitrary lengths and functions",
  "lisp/l/common.l:reduce")
p(":key of the set functions applies to both sides",
  "In adjoin, union, intersection, set-difference, set-exclusive-or and subsetp with :key, two elements are compared by the keys of both, and the result consists of elements.",
  "all lists, tests and keys",
  "arbitrary lists and functions",
  "lisp/l/common.l:adjoin","lisp/l/common.l:set-exclusive-or","lisp/l/common.l:subsetp")
p("Mapping functions apply the function at every position",
  "mapcar collects, and mapcan joins, the values of the function on the i-th elements; maplist collects and mapcon joins its values on the successive tails; collect-if keeps the elements satisfying a predicate.",
  "all functions, any number of lists of any length",
  "arbitrary lengths and functions",
  "lisp/c/specials.c:MAPCAR","lisp/c/specials.c:MAPCAN","lisp/l/common.l:maplist","lisp/l/common.l:mapcon")
p("every and some quantify over positions",
  "(every p s1 ...) is true iff p is true of the i-th elements for all positions i of the first sequence, (some p s1 ...) is the first true value of p, else NIL.",
  "all predicates, any number of sequences none shorter than the first",
  "arbitrary lengths",
  "lisp/l/common.l:every","lisp/l/common.l:some")
p("replace copies the requested range",
  "(replace dest src :start1 :end1 :start2 :end2) stores min(end1-start1,end2-start2) elements of src from start2 into dest from start1 and changes nothing else.",
  "all ranges within the sequences",
  "arbitrary lengths",
  "lisp/l/common.l:replace")
p("Lookups find the first match",
  "member returns the tail from the first matching element, assoc and rassoc the first matching pair, NIL if none; pairs added by pairlis shadow older ones.",
  "all lists, tests and keys",
  "arbitrary lengths",
  "lisp/c/lists.c:SUPERMEMBER","lisp/c/lists.c:SUPERASSOC","lisp/l/common.l:rassoc","lisp/l/common.l:pairlis")
p("subst, copy-tree and flatten act on all of a tree",
  "(subst new old tree) replaces exactly the maximal subtrees equal to old; (copy-tree x) is equal to x; (flatten x) lists the non-NIL atoms from left to right.",
  "all trees",
  "unbounded trees",
  "lisp/c/lists.c:subst","lisp/l/common.l:copy-tree","lisp/l/common.l:flatten")
p("transpose-list transposes",
  "Element j of element i of (transpose-list d) is element i of element j of d.",
  "all lists of lists with rows at least as long as the first",
  "arbitrary dimensions",
  "lisp/l/common.l:transpose-list")

p("Typed vectors return what was stored",
  "An integer representable in 64 bits stored in an integer-vector is read back with the same value, an integer stored in a string is read back modulo 256, and no other element changes.",
  "all vectors, indices and integers",
  "2^64 values, unbounded vectors",
  "lisp/c/vectorarray.c:vset","lisp/c/vectorarray.c:vref","lisp/c/sequence.c:coerceintval")
p("Bit-vector functions work bit by bit",
  "bit-and, bit-ior, bit-xor, bit-eqv, bit-nand, bit-nor and bit-not return a bit vector of the length of their arguments whose every bit is the boolean function of the argument bits; arguments of different length are an error.",
  "all bit vectors of any length",
  "unbounded lengths, in particular those that are not multiples of the word size",
  "lisp/c/vectorarray.c:BITAND","lisp/c/vectorarray.c:BITNOT")
p("make-array :initial-contents fills in row-major order",
  "After (make-array dims :initial-contents s), aref with any valid subscripts i1..in returns the element i_n of ... of element i1 of s.",
  "all dimension lists and nested sequences of that shape",
  "arbitrary ranks and dimensions",
  "lisp/l/array.l:fill-initial-contents","lisp/l/array.l:make-array")

p("Octal literals denote their value",
  "Reading #o followed by octal digits gives the integer those digits denote.",
  "all octal digit strings",
  "unboundedly many strings; word boundaries",
  "lisp/c/reader.c:read_sharp_octal")
p("Integers are right-justified in fields",
  "An integer printed by format ~w,dD (or ~w,dX, ~w,dO) stands at the right of a field of w columns, after blanks, its sign directly before zeros that bring it to d places; it takes exactly w columns unless it needs more.",
  "all integers, bases and field widths",
  "unbounded integers and widths",
  "lisp/c/printer.c:printnum","lisp/c/printer.c:printint","lisp/c/printer.c:printbig")
p("Ratios read and print in lowest terms",
  "Reading n/d gives the rational number in lowest terms (an integer when d divides n), and what is printed for a ratio reads back as the same ratio.",
  "all numerators and denominators that fit a machine int, all bases",
  "unboundedly many texts",
  "lisp/c/reader.c:readratio","lisp/c/reader.c:read2","lisp/c/printer.c:printratio")

p("superequal terminates and agrees with equal",
  "superequal returns on every pair of objects, circular or not, and leaves no trace in them; it answers true only for objects equal calls equal, false only for others, and reports a circular list otherwise.",
  "all pairs of objects, circular ones included",
  "circular structures of any shape",
  "lisp/c/predicates.c:superequal","lisp/c/predicates.c:SUPEREQUAL")

p("string-trim removes exactly the bag characters at the ends",
  "(string-trim bag s) is s without the longest run of characters of bag at each end; string-left-trim and string-right-trim do so at one end. What is kept is a part of s in which nothing is changed.",
  "every bag and every string, including empty ones and strings made only of bag characters",
  "The loops run until a character outside the bag, the end of the string included; samples do not cover every bag and string.",
  "lisp/l/string.l: string-left-trim, string-right-trim, string-trim")
p("string-upcase and string-downcase change only letters in the range",
  "(string-upcase s :start i :end j) is s with the lower-case letters at positions i to j-1 replaced by upper-case ones and every other character as it was; likewise string-downcase; without keywords on the whole string.",
  "every string and all positions",
  "Every string and pair of positions.",
  "lisp/l/string.l: nstring-upcase, nstring-downcase, string-upcase, string-downcase", "lisp/c/charstring.c: CH_UPCASE, CH_DOWNCASE")
p("substringp decides occurrence",
  "(substringp a b) is true exactly when a occurs in b as a run of consecutive characters, letters being compared without case.",
  "every pair of strings",
  "Occurrence at any position of strings of any length.",
  "lisp/l/string.l: substringp", "lisp/c/charstring.c: STRINGEQUAL")
p("URL escaping is reversible",
  "(unescape-url (escape-url s)) is s, with the same query option, and the escaped text consists of unreserved characters, % and + only.",
  "every string of bytes, both query modes, every value of *read-base* and *print-case*",
  "All byte strings; the reader and printer, with their dynamic variables, take part.",
  "lisp/l/string.l: escape-url, unescape-url, url-escape-unreserved-char-p")
p("Numbered file names",
  "(digits-string n d base) writes the last d digits of n in the given base, padded with zeros to d characters; sequential-file-name gives different names to different numbers of at most d digits.",
  "every natural number, every positive count of digits, every base",
  "All numbers and digit counts.",
  "lisp/l/string.l: digits-string, sequential-file-name")
p("Pathnames keep the text they come from",
  "The namestring of the pathname of a text is the text itself, with repeated slashes taken as one; the pathname of that namestring is the same pathname; merging with defaults is associative.",
  "every text",
  "All texts; the parser splits at slashes and the last period in all combinations.",
  "lisp/l/string.l: pathname :parse, pathname :namestring, pathname :merge, parse-namestring, namestring")
p("A throw delivers its own value, in every thread",
  "The value a catch or block form returns after a throw or return-from is the value given to that throw or return-from, whatever other threads do meanwhile.",
  "every number of threads and every schedule",
  "Schedules are unbounded, and the scheduler does not offer the bad ones to a test.",
  "lisp/c/eus.h: eussetjmp, euslongjmp", "lisp/c/eus.c: setjmp_val")
p("Compiling a function does not change how it takes its arguments",
  "A compiled function accepts the same calls as the interpreted one, and its parameters are bound to the same values.",
  "every lambda list and every argument list",
  "Lambda lists combine five kinds of parameters with default forms that see other parameters; argument lists are unbounded.",
  "lisp/c/eval.c: funlambda, bindkeyparams, parsekeyparams", "lisp/comp/comp.l: :lambda", "lisp/comp/trans.l: :check-req-arg, :check-opt-arg, :rest, :parse-key-params")

p("read-line delivers the lines of the input",
  "Successive calls of read-line return the lines of the input in order, without their Newline, also the last one if it has none; a text written line by line and read back line by line is the same list of lines. At the end of the input, and only there, the end is reported.",
  "all texts, buffer sizes and chunkings of the underlying reads",
  "unbounded line lengths and numbers, lines crossing buffer refills anywhere",
  "lisp/c/lispio.c:READLINE", "lisp/c/eusstream.c:readch")
p("Reading n bytes delivers the next n bytes",
  "(send file-stream :read-bytes n) returns the next n bytes of the input wherever they are, in the stream's buffer or in the file, at the requested offset of the given string, and the stream continues behind them; :read-bytes-eof returns everything to come.",
  "all inputs, buffer states, counts, offsets and chunkings",
  "unbounded inputs and arbitrary chunking by the OS",
  "lisp/l/stream.l:file-stream :read-bytes", "lisp/l/stream.l:file-stream :read-bytes-eof", "lisp/c/unixcall.c:UNIXREAD")
p("Every firing of an interval timer is accounted for",
  "Every firing of an interval timer has been run, is counted as missed, or is still to be run.",
  "all schedules of the ticking thread and the timer's thread",
  "schedules are unbounded, and the window is a few instructions wide",
  "lisp/l/cyclic.l: itimer :tick, itimer :run, itimer :thread-waiting")
p("A function run by a pool thread sees its caller's special bindings",
  "The special bindings a thread of the pool copies before it runs a function are those its caller had when it called thread or thread-no-wait.",
  "all schedules, any number of callers, pool threads and calls",
  "schedules are unbounded",
  "lisp/c/mthread.c:thread_main", "lisp/c/mthread.c:AFUNCALL", "lisp/c/mthread.c:AFUNCALL_NO_WAIT")
p("Variables and local functions are lexically scoped",
  "A form has the value and the effects lexical scoping gives it: a variable or local function mentioned in a form is the one bound by the innermost form around it in the text (let, let*, lambda, defun, flet, labels), also when it is mentioned in a function that is called from elsewhere; assignments to it are seen by all functions made in the same binding; errors and non-termination are those of lexical scoping too.",
  "all programs of let, let*, setq, if, while, progn, lambda, function, funcall, flet, labels, defun and builtin functions, all numbers of evaluation steps",
  "programs are unbounded, and what a variable refers to depends on the whole stack of frames at the time",
  "lisp/c/eval.c: getval, setval, getfunc, vbind, funlambda, ufuncall, eval", "lisp/c/specials.c: SETQ, WHILE, PARLET, SEQLET, FUNCTION_CLOSURE, FLET, LABELS", "lisp/c/makes.c: makeflet")
p("Special variables are bound for the duration of a form",
  "When a let, let* or function call that binds special variables returns, they have the values they had before, whatever the body did; every form that returns leaves the bindings of all variables and local functions around it in place.",
  "all programs, bodies and numbers of evaluation steps",
  "bodies are arbitrary programs with nested bindings of the same variables",
  "lisp/c/eval.c: bindspecial, unbindspecial, vbind, funlambda", "lisp/c/specials.c: PARLET, SEQLET")
p("Compiled functions are lexically scoped",
  "A call of a compiled function has the value and the effects lexical scoping gives it: every variable and local function mentioned refers to what the innermost form around it in the text binds, special variables get their old values back, and the call returns, signals an error or does not end as lexical scoping says.",
  "all files of functions made of let, let*, setq, if, and, or, not, while, progn, lambda, function, funcall, flet, labels and calls of functions, all arguments and values of global variables",
  "programs are unbounded, and where compiled code keeps a variable depends on everything around it",
  "lisp/comp/comp.l: :eval, :variable, :bind, :let, :let*, :setq, :if, :while, :and, :or, :evcon, :flet, :function, :lambda, :create-frame, :delete-frame, :compile-closures", "lisp/comp/trans.l", "lisp/c/compsub.c", "lisp/c/eval.c: bindspecial, unbindx")
p("Compiled and interpreted functions do the same",
  "A call of a function has the same outcome, value and effects whether its definition and those of the functions it calls are interpreted or compiled.",
  "all files as in C96, all arguments and values of global variables",
  "programs are unbounded, and interpreter and compiler keep variables in unrelated ways",
  "lisp/comp/comp.l", "lisp/comp/trans.l", "lisp/c/eval.c", "lisp/c/specials.c")
p("A backquoted template evaluates to the template filled in",
  "Evaluating a backquoted form gives the template with every ,form replaced by the value of form and every ,@form by the elements of its value, at any depth, and everything else unchanged.",
  "all templates, forms and values",
  "templates nest without bound",
  "lisp/l/readmacro.l: read-backquote, conv-bq, conscons, read-comma", "lisp/c/lists.c:APPEND")
p("Base 64 is encoded as the RFC says and decoded to what was encoded",
  "(base64encode s) is the text RFC 2045 describes, in lines of 76 characters; (base64decode (base64encode s)) equals s; decoding does not depend on blanks and newlines in the text.",
  "all byte strings",
  "strings are unbounded; errors depend on the length modulo 3 and on line ends",
  "lib/llib/base64.l: base64encode, base64decode")
p("qsort sorts",
  "(qsort seq pred key) ends and leaves a rearrangement of the sequence in which no element is less than one before it.",
  "all sequences, all strict orders, all keys",
  "sequences are unbounded; a wrong boundary shows only for special arrangements",
  "lib/llib/qsort.l: quick-sort, qsort")
p("Permutations and combinations are complete",
  "(list-permutation l), and the results of :next or :all of a permutation generator, are exactly the rearrangements of l, n! of them, without repetition if the elements differ; (combi l r) are exactly the sublists of r elements, binomial(n, r) of them; :reset starts again.",
  "all lists, all r, all numbers of :next",
  "the results grow with n!",
  "lib/llib/perm.l: list-permutation, permutation, combi, combi2")
p("Calendar time is right",
  "A calendar-time made from a number of seconds shows the date, time of day and weekday of the Gregorian calendar; one made from a date has the right number of seconds and weekday, whatever the present year is.",
  "all numbers of seconds, all time zones, all dates, all present years",
  "every second of every year is a case; errors show only at the ends of months, years or leap years, or in other years than the test is run in",
  "lib/llib/time.l: calendar-time :init, :make, :compute-seconds, year-day, secs-since-1970, leap-year-p")
p("A matrix product is the product, wherever it is stored",
  "(m* a b r) puts the sums of products of the elements a and b had before the call into r, and changes nothing else, also if r is a or b; (m** a b c ...) is the product of all of them; shapes that do not fit are errors.",
  "all matrices of all shapes, all ways they share storage, any rounding",
  "shapes and sharing are unbounded; a wrong order of reading and writing shows only for some of them",
  "lisp/c/matrix.c:MATTIMES", "lisp/l/array.l: m**")
p("Vector and matrix operations can store into their arguments",
  "v+, v-, scale, v*, transform and transpose with a result argument give the same elements whether the result is one of the arguments or another vector, and change nothing else.",
  "all vectors and matrices, all ways they share storage, any rounding",
  "see C103",
  "lisp/c/matrix.c: VPLUS, VMINUS, SCALEVEC, VCROSSPRODUCT, TRANSFORM, TRANSPOSE")
p("Linear equations are solved",
  "Without rounding: if lu-decompose gives a decomposition of m, lu-solve with it gives x with m x = b; simultaneous-equation gives the only solution; inverse-matrix gives the inverse, or degenerated if there is none.",
  "all square matrices of all sizes over an ordered field, all right-hand sides",
  "sizes are unbounded; each order of pivots is a case",
  "lisp/c/matrix.c: decompose, solve, LU_DECOMPOSE, LU_SOLVE", "lisp/l/array.l: simultaneous-equation, inverse-matrix")
p("Rotations rotate",
  "rotate-matrix multiplies by the rotation on the left in world coordinates and on the right in local coordinates; rotation-matrix about any unit vector is orthogonal, keeps the vector, and turns what is orthogonal to it by the angle; rotate-vector multiplies by the rotation.",
  "all matrices and vectors, axes and angles, without rounding",
  "angles and axes are a continuum; a wrong sign of one of 12 coefficients shows only for some axis",
  "lisp/c/matrix.c: ROTVEC, ROTMAT, ROTATION_MATRIX")
p("lu-determinant is the determinant",
  "lu-determinant of the decomposition of m is the determinant of m.",
  "all square matrices of all sizes that have a decomposition, without rounding",
  "the sign depends on the exchanges of rows made on the way",
  "lisp/c/matrix.c: LU_DETERMINANT, decompose")
p("Vectors are compared element by element",
  "(v< a b) is T if every element of a is smaller than that of b, and v> likewise; vmin, vmax and minimal-box give the smallest and largest element of each index.",
  "all vectors of all sizes without NaN, all numbers of vectors",
  "numbers of vectors are unbounded",
  "lisp/c/matrix.c: VLESSP, VGREATERP, VMIN, VMAX, MINIMALBOX")
p("Integer vectors are computed exactly",
  "(v. a b) of integer vectors is the sum of the products of the elements, (v-abs a b) the distances of the elements.",
  "all integer vectors",
  "2^64 values of each element",
  "lisp/c/matrix.c: VINNERPRODUCT, VMINUS_ABS")
p("World coordinates are always up to date",
  "Whatever objects are attached, detached, moved and asked for their coordinates before, :worldcoords of an object is the product of its own coordinates and those of its ancestors, :transform and :move-to put it where they say with respect to the given coordinates, and :transformation is taken between the world coordinates; when the caches are computed and cleared makes no difference.",
  "all histories of operations on all numbers of cascaded-coords, in any forest",
  "the cache of each object is valid or not depending on the whole history; forests are unbounded",
  "lisp/l/coordinates.l: cascaded-coords :worldcoords, :changed, :newcoords, :assoc, :dissoc, :obey, :disobey, :transform, :move-to, :transformation, :replace-coords, :4X4")
p("Attaching and detaching move nothing",
  "After (send p :assoc c) or (send p :dissoc c) every object is where it was in the world.",
  "all states a program can reach, all objects",
  "see C110",
  "lisp/l/coordinates.l: :assoc, :dissoc")
p("What is attached moves along",
  "When an object is moved, the things attached to it, directly or not, keep their positions relative to it and to each other, and the others keep theirs.",
  "all states a program can reach, all moves, all pairs of objects",
  "see C110",
  "lisp/l/coordinates.l: :transform, :move-to, :changed")
p("Coordinates are multiplied and inverted in place",
  "(transform-coords c1 c2 c3) stores rotation and position of the product of c1 and c2 in c3, also when c3 is c1 or c2; (send c :inverse-transformation d) stores the inverse in d, also when d is c; nothing else is changed.",
  "all rotations and positions of all dimensions, all ways of sharing, without rounding",
  "values are a continuum; each way of sharing is a case",
  "lisp/l/coordinates.l: transform-coords, :inverse-transformation", "lisp/c/matrix.c: MATTIMES, TRANSFORM, TRANSPOSE, VPLUS, SCALEVEC")
p("Turning and shifting",
  "In any history of C110, :translate shifts by a vector given in the directions of wrt, :locate puts the object at a point of wrt, :rotate turns it about its origin by a rotation given in wrt, :orient gives it a rotation relative to wrt; attached things move along; vectors are transformed by the world coordinates.",
  "all histories, all vectors and rotations, wrt :local, :parent, :world, any object or other coordinates, without rounding",
  "see C110",
  "lisp/l/coordinates.l: :translate, :locate, :rotate, :rotate-with-matrix, :orient, :orient-with-matrix, :parent-vector, :parent-orientation, :transform-vector, :inverse-transform-vector")
p("Vectors are transformed and transformed back",
  ":inverse-transform-vector undoes :transform-vector and the other way round; transforming by a product is transforming twice; distances and angles are kept.",
  "all coordinates of all dimensions and all vectors, without rounding",
  "values are a continuum",
  "lisp/l/coordinates.l: :transform-vector, :inverse-transform-vector, :rotate-vector")
p("Searching finds a path exactly if there is one",
  "depth-first, breadth-first, hill-climb, best-first and branch-and-bound return only paths that the extension function makes and that end in the goal; they return NIL only if there is none. On a finite graph, with paths extended as extend-wing does, they always end, with a path along edges that repeats no node, or NIL exactly if the goal cannot be reached.",
  "all graphs, extension functions, evaluators and pairs of nodes",
  "graphs are unbounded; the order of the search depends on all of it",
  "lib/llib/search.l: depth-first, breadth-first, best-first, hill-climb, branch-and-bound, extend-wing")
p("breadth-first finds a shortest path",
  "If the goal can be reached, breadth-first ends, even in an infinite graph, with a path that no other path is shorter than.",
  "all graphs, finite or infinite, and pairs of nodes",
  "graphs are unbounded; minimality is a claim about all other paths",
  "lib/llib/search.l: breadth-first")
p("branch-and-bound and best-first find a cheapest path",
  "If extending a path never makes it cheaper, the path returned by branch-and-bound or best-first is at least as cheap as any other path to the goal.",
  "all extension functions, all orders of cost",
  "minimality is a claim about all other paths",
  "lib/llib/search.l: best-first, branch-and-bound", "lisp/l/common.l: merge, merge-list")
p("sort leaves sorting usable",
  "sort returns what the C library makes of the answers of the predicate; the predicate may be left by a throw or an error, or use sort itself, without effect on other calls of sort.",
  "all sequences, predicates, algorithms of qsort, states",
  "depends on where the predicate is left, and on the history of calls",
  "lisp/c/sequence.c: SORT, compar", "lisp/c/mthread_posix.c: qsort_lock")
p("Quaternions rotate",
  "q* and :concat multiply quaternions, :norm is multiplicative, transforming a vector by a unit quaternion keeps inner products, the product transforms as one after the other, :rotation about an axis gives the rotation by that angle, :inverse-quaternion the inverse.",
  "all quaternions, vectors, angles and axes, without rounding",
  "values are a continuum",
  "lib/llib/quaternion.l: quaternion, q*")
p("prog1, unless, until, push, pop, incf and decf of variables",
  "prog1 returns the value of its first form after the others are evaluated; unless and until test for NIL; push puts a new cell before the variable's value and pop takes the first element off, without changing the list; incf and decf store and return the sum or difference; every form is evaluated once, in order.",
  "all forms, with any effects and exits, all states",
  "the forms may do anything: print, assign, leave by return, go, throw or an error",
  "lisp/l/common.l: prog1, unless, until, push, pop, inc, dec, incf, decf")
p("psetq and do assign in parallel, do* in sequence",
  "psetq evaluates all its forms before it assigns any variable. do binds its variables at once, tests before every round, and steps its variables at once; do* does both one after the other. The value is that of the result forms, or of return; go to a tag of the body works from everywhere in the loop.",
  "all variables, forms, bodies, numbers of rounds, exits",
  "loops run any number of rounds; forms may have any effect",
  "lisp/l/common.l: psetq, do, do*")
p("dolist and dotimes",
  "dolist runs its body once for each element in order, dotimes with 0 ... n-1; the list or count is evaluated once; then the result form gives the value. (return v) in the body makes v the value of the whole.",
  "all lists, counts, bodies with any effects",
  "loops run any number of rounds; the body may change the list and the variable",
  "lisp/l/common.l: dolist, dotimes")
p("tagbody, loop and prog",
  "tagbody runs its forms in order and continues after the tag of a go; loop repeats its forms until it is left by return or another exit; prog and prog* are let and let* around a tagbody in a block named nil.",
  "all statements, tags, exits, numbers of rounds",
  "jumps can be taken any number of times",
  "lisp/l/common.l: loop, prog, prog*", "lisp/c/specials.c: TAGBODY, GO")
p("case takes the first clause that matches",
  "case evaluates its key once and then the body of the first clause whose key is eq to it, whose list of keys has a member eq to it, or that is t or otherwise; NIL if there is none.",
  "all keys and clauses",
  "clauses are unbounded, keys and bodies may have any effects",
  "lisp/l/common.l: case, case1, casehead")
p("setf of car ... cddddr changes one field",
  "(setf (c..r e) y) evaluates e, then y, each once, stores the value in the field that the accessor reads, returns it and changes nothing else; the accessor then reads it, unless the way there passes the changed field. push, pop and incf on such a place evaluate the parts of the place once.",
  "all accessors of one to four letters, all heaps, also circular ones, all forms",
  "heaps are unbounded and may share structure",
  "lisp/l/constants.l: defsetf", "lisp/l/common.l: setf-expand-1, push, pop, incf")
p("format copies text",
  "format writes the characters of the control string outside directives unchanged and ~~ as one tilde, so that a text with its tildes doubled is written back byte for byte.",
  "all texts, all arguments, all destinations",
  "control strings are unbounded",
  "lisp/c/lispio.c: XFORMAT")
p("A control string means what its directives say",
  "Every control string is a sequence of characters and directives, possibly with an unfinished directive at the end. format does what they say from left to right, each with its own parameters and the next arguments; an unfinished directive is an error.",
  "all control strings, arguments, print methods",
  "control strings and arguments are unbounded",
  "lisp/c/lispio.c: XFORMAT")
p("The arguments format uses",
  "The number of arguments format uses depends on the control string only. Arguments beyond it change nothing; with fewer, format signals an error instead of reading past the last argument.",
  "all control strings and arguments",
  "control strings and arguments are unbounded",
  "lisp/c/lispio.c: XFORMAT, nextfarg")
p("One call of format for two",
  "A call with two control strings joined writes what a call with the first and then a call with the second and the remaining arguments write.",
  "all pairs of control strings, all arguments",
  "control strings and arguments are unbounded",
  "lisp/c/lispio.c: XFORMAT")
p("Fields of ~A and ~S",
  "~wA and ~wS write the printed text of the object followed by blanks up to w columns, and never cut it.",
  "all widths, all objects, also those with their own print method",
  "widths and texts are unbounded; print methods are arbitrary programs",
  "lisp/c/lispio.c: XFORMAT", "lisp/c/eusstream.c: writech, writestr, written_count")
p("~S quotes as prin1, ~A as princ",
  "~S writes what prin1 writes and ~A what princ writes, whatever calls of format came before and however they ended.",
  "all objects, all sequences of calls, also calls left by a throw or an error",
  "sequences of calls and places where printing is left are unbounded",
  "lisp/c/lispio.c: XFORMAT, PRIN1, PRINC; slashflag")
p("format does not write outside its buffers",
  "No control string and no argument makes format write outside its parameter array and its buffer for numbers.",
  "all control strings, widths, precisions and numbers",
  "numbers of parameters, widths and magnitudes are unbounded",
  "lisp/c/lispio.c: XFORMAT param[10], buf[256]")
p("Integers in format",
  "~wD, ~wX and ~wO write the decimal, hexadecimal and octal numeral of any integer, fixnum or bignum, at the right of a field of w columns, or of as many columns as it needs.",
  "all integers, all widths",
  "integers are unbounded",
  "lisp/c/lispio.c: XFORMAT", "lisp/c/printer.c: printnum, printint, printbig")
p("Parameters of directives",
  "~n% writes n newlines; a parameter left out before a comma, as in ~,2F, takes its default.",
  "all directives with parameters",
  "numbers and combinations of parameters are unbounded",
  "lisp/c/lispio.c: XFORMAT", "lib/demo/monitor.l")
p("A semaphore is a counter",
  "Whatever the schedule and however many threads, what sema-wait, sema-trywait and sema-post return is what they would return if every call took effect at one moment between its beginning and its end on a natural number that starts at 0; no more waits succeed than there are posts.",
  "all numbers of threads, all programs of calls, all interleavings, all spurious wake-ups",
  "interleavings of any number of threads cannot be enumerated",
  "lisp/c/mthread_posix.c: sema_init, sema_wait, sema_trywait, sema_post", "lisp/c/mthread.c: SEMA_WAIT, SEMA_TRYWAIT, SEMA_POST")
p("Nobody waits for a semaphore in vain",
  "If no call can go on, the calls that are left are sema-wait, and as many waits have succeeded as there were posts: no wake-up is lost.",
  "all numbers of threads, all interleavings, all spurious wake-ups",
  "a lost wake-up shows in one interleaving among unboundedly many",
  "lisp/c/mthread_posix.c: sema_wait, sema_post")
p("A readers/writer lock excludes",
  "A thread that has the lock for writing has it alone: no reader and no other writer has it at the same time. (The collector and the allocator rely on it.)",
  "all numbers of threads, all interleavings, all spurious wake-ups",
  "interleavings of any number of threads cannot be enumerated",
  "lisp/c/mthread_posix.c: rw_rdlock, rw_wrlock, rw_unlock")
p("Nobody waits for a readers/writer lock in vain",
  "If no call can go on, a reader that waits waits for a writer that has the lock, and a writer that waits waits for a thread that has it; a writer that asks for the lock gets it when those who had it have given it back.",
  "all numbers of threads, all interleavings, all spurious wake-ups",
  "a lost wake-up, or a writer kept out for ever, shows only in particular infinite histories",
  "lisp/c/mthread_posix.c: rw_rdlock, rw_wrlock, rw_unlock")
p("A :dispose method can allocate",
  "A :dispose method, which the collector calls, may make objects like any other program.",
  "all schedules of the other threads",
  "whether a call ever returns is not seen by a test",
  "lisp/c/memory.c: gc, sweepall, call_disposers, gc_alloc", "lisp/c/mthread_posix.c: rw_rdlock, rw_wrlock")
p("dda-line draws a straight line",
  "dda-line returns the first and the last point and between them one point for each step of the longer axis; every point is at most half a pixel from the line, and follows the one before without a gap.",
  "all pairs of integer points",
  "the coordinates are unbounded",
  "lisp/geo/dda.l: line-dda, dda-line")
p("line-intersection returns the parameters of the common point",
  "line-intersection of two lines in the plane that are not parallel returns u and v exactly when point u of the first is point v of the second (and, with range, both are on the segments); NIL if they are parallel.",
  "all pairs of lines",
  "coordinates are arbitrary numbers",
  "lisp/geo/intersection.c: LINEINTERSECTION")
p("The common perpendicular is perpendicular",
  "line-intersection3 and :common-perpendicular return the ends of the common perpendicular of two lines in space; for lines that meet, where they meet.",
  "all pairs of lines and tolerances",
  "coordinates are arbitrary numbers",
  "lisp/geo/intersection.c: LINEINTERSECTION3", "lisp/geo/geopack.l: line :common-perpendicular")
p("viewportclip returns the visible part",
  "viewportclip ends, and returns NIL if no point of the segment is in view, or else the two ends of the part in view.",
  "all segments",
  "coordinates are arbitrary numbers, the number of rounds depends on them",
  "lisp/geo/intersection.c: VPCLIP")
p("homo-viewport-clip returns the visible part",
  "homo-viewport-clip returns NIL if no point of the segment (in homogeneous coordinates) is in view, or else the two ends of the part in view.",
  "all segments, also with negative w",
  "coordinates are arbitrary numbers",
  "lisp/geo/intersection.c: HOMO_VPCLIP, windowcoords")
p("A bounding box is the smallest",
  "The bounding box of points contains them and is contained in every box that contains them; bounding-box-union of boxes likewise; a tolerance only enlarges it.",
  "all dimensions, all non-empty lists of points or boxes",
  "lists and coordinates are unbounded",
  "lisp/geo/geopack.l: bounding-box :init :union :grow, bounding-box-union")
p("An intersection of boxes has the common points",
  "bounding-box-intersection returns NIL if the boxes have no common point, else the box of their common points; :intersection-p and :boxtest say whether there are any, and leave the boxes as they are.",
  "all dimensions, all lists of boxes",
  "lists and coordinates are unbounded",
  "lisp/geo/geopack.l: bounding-box :intersection :intersection-p, bounding-box-intersection, line :boxtest, polygon :boxtest")
p("Extreme points, below, and corners of a box",
  ":extream-point is a point of the box with the largest extent in the direction; :below holds exactly if every point of the one is below every point of the other; :corners returns each of the 2^n corners once.",
  "all dimensions, boxes and directions",
  "dimensions and coordinates are unbounded",
  "lisp/geo/geopack.l: bounding-box :extream-point :below :corners")
p("The foot of a point on a line",
  ":parameter is the inverse of :point, :foot is the parameter of the foot of the perpendicular, and :distance-point is the distance of the nearest point between the ends.",
  "all lines and points",
  "coordinates are arbitrary numbers",
  "lisp/geo/geopack.l: line :parameter :point :foot :distance-point :end-point")
p("The distance between two lines is the smallest",
  ":distance-line is the smallest distance between a point of one segment and a point of the other.",
  "all pairs of segments",
  "coordinates are arbitrary numbers, and so are the pairs of points",
  "lisp/geo/geopack.l: line :distance-line")
p("Planes: intersection, foot, distance",
  "The :intersection of a plane and a line is the parameter of the one point of the line on the plane; :foot and :project are the nearest point of the plane, :distance its signed distance; :on-plane-p accepts the points within the tolerance.",
  "all planes, lines, points and tolerances",
  "coordinates are arbitrary numbers",
  "lisp/geo/geopack.l: plane :intersection :foot :project :distance :on-plane-p")
p("Area and volume",
  ":area of a polygon is that of the shoelace formula: that of its corners for a triangle, the sum of the parts when it is cut along a diagonal, not negative with the normal it computes; :volume is the volume of the pyramid over the polygon.",
  "all polygons (also not convex), any number of vertices",
  "the number of vertices is unbounded",
  "lisp/geo/geopack.l: polygon :area :volume, triangle, face-normal-vector")
p("The centre of gravity",
  ":centroid of a flat polygon returns the area and the centre of gravity, whichever point of the plane is used to cut it into triangles.",
  "all flat polygons with an area, any number of vertices",
  "the number of vertices is unbounded",
  "lisp/geo/geopack.l: polygon :centroid")
p("Convex polygons",
  "A polygon is found to be convex exactly if it is; :insidep of a convex polygon says :outside only of points outside, :inside only of points not outside by epsilon, :border only of points within epsilon of a side.",
  "all polygons and points, all positive epsilons",
  "the number of vertices is unbounded",
  "lisp/geo/geopack.l: polygon :set-convexp :insidep")
p("eliminate-concave-vertex leaves no right turn",
  "eliminate-concave-vertex ends, takes out points only, keeps both ends, and what it leaves never turns right; the hull grahamhull makes with it is convex.",
  "all lists of points",
  "lists are unbounded",
  "lisp/geo/grahamhull.l: eliminate-concave-vertex, grahamhull")
p("farthest, farthest-pair, maxindex",
  "farthest returns a point none is farther than, farthest-pair two points no two are farther apart than, maxindex the index of an element with the largest absolute value.",
  "all lists of points",
  "lists are unbounded",
  "lisp/geo/geopack.l: farthest, farthest-pair, maxindex")
p("Comparisons with a tolerance are consistent",
  "Exactly one of eps<, eps=, eps> holds; eps<= is eps< or eps=, and the opposite of eps>; eps>= likewise.",
  "all pairs of numbers and all positive epsilons",
  "numbers are unbounded",
  "lisp/geo/geopack.l: eps=, eps<, eps>, eps<=, eps>=, eps<>")
p("A moved plane moves its points",
  ":transform-normal: a point moved with the plane stays as far from it as it was, and a rotation keeps the length of the normal.",
  "all planes, rotations, translations and points",
  "coordinates are arbitrary numbers",
  "lisp/geo/geopack.l: polygon :transform-normal")
p("Infix notation: precedence, grouping and value",
  "%(...) turns a formula in infix notation into a Lisp form whose value is the one the usual grammar gives the formula: powers before products and quotients, those before sums and differences, the last two grouped from the left, a sign in front of a whole term, function calls f(a b) and array elements a[i j] as operands, and one relation between two sums.",
  "every formula the grammar derives, of any size and nesting, every meaning of variables and functions in a ring",
  "Formulas nest without bound and equal subformulas are shared behind the scenes; tests see a few shapes.",
  "lisp/l/mathtran.l: expression, factor, term, expr, rel-expr, reconstruct-form")
p("Infix notation: nothing written is lost",
  "%(...) always ends with a form or an error; what is not a formula is an error; a call that is written once is made once.",
  "every list of tokens",
  "Malformed input has no bound in size and kind.",
  "lisp/l/mathtran.l: factor1, factor, rel-expr, expression")
p("Infix notation: assignment",
  "%(x = formula) assigns the value of the formula to the variable x, and %(a[i j ...] = formula) stores it in the element of a with the values of the indices.",
  "every variable, array name, list of index formulas and formula",
  "Indices and formulas have unbounded shapes.",
  "lisp/l/mathtran.l: infix2prefix, expression")

p("Shared and circular structure: print and read",
  "With *print-circle* any finite structure of conses, vectors and strings is printed in finite text, however its parts are shared or circular, and read gives the same graph back: objects that were one are one, those that were two are two, every circle closes where it did; the new structure is made of new objects.",
  "every finite graph of objects, of any size, sharing and circularity, every state of the reader's memory",
  "Graphs have unboundedly many shapes of sharing; labels may be met while their object is still being read.",
  "lisp/c/printer.c: printmark, prin1, printlist, printvector; lisp/c/reader.c: readlabdef, readlabref, addunsolved, read_delimited_list, readvector, readquote")
p("Printing does not change what is printed",
  "Printing with *print-circle* overwrites words of the structure while it works; afterwards every object is as it was and no mark is left.",
  "every finite graph of objects, every *print-length* and *print-level*",
  "The printer borrows the first word of every shared object; whether each gets it back depends on the shape of the graph and on what was cut off.",
  "lisp/c/printer.c: printmark, prin1, printunmark, prinx")

p("Floats in pointers",
  "A float kept in a Lisp object is the double that was computed: it is a float and nothing else, its value, sign and order among the other floats are those of the double, and storing it again changes nothing.",
  "all 2^64 patterns of a double",
  "2^64 patterns, and the loss is in the last bits, which the printer never shows.",
  "lisp/c/eus.h: makeflt, fltval, isflt, isint, ispointer")
p("Rounding functions",
  "floor, ceiling, round and truncate of a float give the integer below, the integer above, the nearest integer (the even one of two) and the integer part.",
  "every finite float",
  "The result passes through a single-precision float and a C int on the way; which numbers survive depends on their magnitude and their bits.",
  "lisp/c/arith.c: ROUND, FLOOR, CEILING, TRUNCATE; lisp/c/big.c: eusfloat_to_big")
p("Printed floats",
  "The text a float is printed as is a decimal number near the float: the nearest one of its length, with an error relative to the float that is bounded; zeros are trimmed without changing the value.",
  "every finite float",
  "The number of digits depends on the magnitude; rounding can carry through all digits.",
  "lisp/c/printer.c: printflt")
p("Arithmetic on mixtures of numbers",
  "+, -, * and / take integers, ratios and floats in any mixture: they compute exactly up to the first float and in floats from there on, every argument counts once, and anything that is not a number is an error.",
  "every list of arguments, of any length and mixture",
  "Four loops for four kinds of numbers jump into each other; what happens depends on the order of the kinds in the argument list.",
  "lisp/c/arith.c: PLUS, MINUS, TIMES, QUOTIENT, ratio2flt, return_ratio; lisp/c/eus.h: ckfltval")
p("Comparison of mixtures of numbers",
  "<, >, <=, >= on integers and floats say whether every two neighbours compare, and = whether all are equal; the answer does not depend on the order in which equal things are given, and anything that is not a number is an error.",
  "every list of arguments, of any length and mixture",
  "The loops change from exact to float comparison in the middle of the list.",
  "lisp/c/arith.c: NUMEQUAL, GREATERP, LESSP, GREQP, LSEQP")

p("The layout of a C structure",
  "The slots of a structure defined by defcstruct are those declared, in that order; no two have a byte in common, all lie inside an instance, every element is aligned to its size, and no byte is wasted beyond that.",
  "every list of slots, with arrays, pointers and inner structures of any depth",
  "Layouts are sums over the slots before: a test covers some orders of some sizes.",
  "lisp/l/eusforeign.l: byte-size, cstructclass :slotlist; lisp/c/leo.c: INSTANTIATE")
p("What is set in a C structure is what is got",
  ":set followed by :get gives the number back if the type has it, and otherwise the number of the type congruent to it; every other element of the structure gives what it gave before; an index or name that was not declared is an error.",
  "every structure, contents, slot, index and number",
  "A wrong size or place shows only in the neighbour of the slot that is set.",
  "lisp/l/eusforeign.l: cstructclass :slot, :access, cstruct :get, :set; lisp/c/sysfunc.c: PEEK, POKE")
p("The layout is that of C",
  "A structure declared in Lisp as it is in C has its members where the C compiler puts them, and an instance has the size of the C structure.",
  "every structure of numbers, arrays and inner structures of any depth",
  "The C compiler fills up inner structures depending on their largest member.",
  "lisp/l/eusforeign.l: cstructclass :slotlist")
p("The accessors of a C structure",
  "The accessor functions that defcstruct defines read and write what :get and :set read and write.",
  "every structure, contents, slot, index and number",
  "The layout is computed a second time, by other code, in the macro.",
  "lisp/l/eusforeign.l: defcstruct")

p("What is pretty printed is read back",
  "What pprint writes for a form is read as that form, wherever it breaks the lines.",
  "every form built from lists, symbols, strings, keywords and integers, every left margin and line width",
  "Where lines are broken depends on the sizes of all parts, and each special form has its own layout.",
  "lisp/l/pprint.l: pprint, pprint1, pparg; lisp/c/lispio.c: prntsize")
p("Tables",
  "tprint writes the objects in order, each followed by at least one space up to a multiple of the tab width, on lines no wider than the paper unless one object alone is, and begins a new line only when the next object does not fit.",
  "every list of objects, tab width, indentation and paper width",
  "Boundary cases are where an object just fits or just does not.",
  "lisp/l/pprint.l: tprint")

p("print-size counts the characters",
  "print-size with a limit is below the limit exactly if prin1 writes fewer characters than that, and is then their number.",
  "every tree of plain names and integers of at most 15 characters, and every limit",
  "The count is broken off at the limit at any depth.",
  "lisp/c/lispio.c: prntsize, PRNTSIZE; lisp/c/printer.c: prin1, printlist")

p("Command line arguments get the values the command line says",
  "parse-args succeeds exactly when every flag on the command line is declared, each use of an argument is well formed and allowed by its check and choices, and required arguments are used; the value of each argument is then what its uses, in order, make of its first value, whatever stands between them.",
  "every set of declared arguments, every command line, every reader, check and action function",
  "Uses of different arguments interleave, one argument has several flags, and each of the eight kinds of action treats a value, a missing value and a repeated flag in its own way.",
  "lib/llib/argparse.l: argument-parser :parse-args, argparse-argument, split-flag, flag-name-p")
p("Declaring command line arguments",
  "Calls of add-argument all succeed exactly when every flag begins with a dash, has something else in it and no equals sign, and no flag and no destination comes twice; every argument then has its first value.",
  "every list of calls",
  "Clashes can come between any two calls, through flags or through the symbols made from them.",
  "lib/llib/argparse.l: argument-parser :add-argument, check-flag, make-flag-dest")

p("Compiled code leaves forms the way the forms mean",
  "Compiled let of special variables, catch, throw, block, return-from, tagbody, go, while, unwind-protect, calls and errors give the value, the special variables and the printing that the forms mean, the same as interpreted; no frame is left behind, and control never gets to a place out of force.",
  "every set of functions, every form, every nesting of exits, every state of the special variables",
  "Exits pass through any number of bindings, catch and cleanup frames, and the generated code finds its way by stack offsets that depend on all the forms around.",
  "lisp/comp/comp.l: :catch, :throw, :unwind-protect, :block, :return-from, :tagbody, :go, :let; lisp/comp/trans.l: :bind-special, :unbind-special, :return-from, :go-tag, :entercatch, :exitcatch, :bind-cleaner, :call-cleaner; lisp/c/eus.c: unwind; lisp/c/specials.c: throw; lisp/c/compsub.c: restorecatch")
p("Compiled cleanup forms run exactly once",
  "In compiled code, for each unwind-protect form entered the cleanup form runs exactly once, inner ones before outer ones, however the form is left.",
  "every set of functions, every form, every way of leaving",
  "Every combination of exits, calls and nested unwind-protect forms must be considered.",
  "lisp/comp/trans.l: :bind-cleaner, :call-cleaner; lisp/comp/comp.l: :unwind-protect; lisp/c/eus.c: unwind")

p("Reader conditionals include exactly the forms whose features hold",
  "read gives the object a text stands for: the form after #+f is there if and only if the feature expression f (symbols looked up in *features*, not, and, or) holds, the form after #-f if and only if it does not; comments count for nothing; #. forms are evaluated from left to right; the text that follows is left unread.",
  "every expression with lists, vectors, quotes, comments, conditionals and #. nested to any depth, every feature expression, every value of *features*, every text that follows",
  "Any nesting of conditionals, comments and feature expressions in any text must be considered.",
  "lisp/c/reader.c: eval_read_cond, read_cond_plus, read_cond_minus, read_sharp_eval, read_delimited_list, readvector, readquote, read1, reader")
p("A text that stops inside an expression is reported as the end of the file",
  "read never returns an object for a text that ends before the expression is complete: it signals the end of the file or a syntax error.",
  "every text cut at any point",
  "Every text and every cut must be considered.",
  "lisp/c/reader.c: read_delimited_list, readquote, reader; lisp/c/lispio.c: READ")

p("Each required module is loaded at most once",
  "After require returns the module is provided; require of a provided module does nothing; modules are never forgotten or listed twice; no module's file is loaded by require more than once, in whatever order and nesting files require, provide and load each other, and loading ends.",
  "every set of files, every nesting of load, require and provide, every order, every failure of a form",
  "Files can require each other in any pattern, and an error can come at any form.",
  "lisp/l/loader.l: require, provide, load, system::txtload")
p("load takes the first file on its search path",
  "load of a name that is not absolute takes the file from the first directory that has it, looking first in the directories of the files being loaded, innermost first, and then in those of *load-path*; in the directory the bare name goes before .dll, .dylib, .so, .o and .l; it fails for want of a file only if no directory has one.",
  "every file system, every *load-path*, every nesting of loads, every name",
  "Every combination of existing files, nested loads and search paths must be considered.",
  "lisp/l/loader.l: load, try-load, *loader-current-directory*, *load-path*; lisp/l/common.l: union")

p("The options of open say what happens to the file",
  "Opening a file for output, writing to it and closing it does what :if-exists and :if-does-not-exist say: an existing file is appended to, overwritten from the start, replaced, or left untouched with an error or nil; a missing file is made, or there is an error or nil. Opening for input never changes a file. The code does something else for a precise set of combinations: :if-exists :error with :if-does-not-exist :error overwrites the file it should protect, :if-does-not-exist nil makes the file (except with :append), :overwrite alone makes a missing file, :if-exists nil gives an error instead of nil, and :if-exists :error with :if-does-not-exist nil gives nil instead of an error.",
  "all combinations of options, all files, everything written in pieces of any size, all buffer sizes",
  "a test tries a few of the 84 combinations with one file; the claim is about every combination, file content and division into writes",
  ["lisp/l/loader.l: open", "lisp/c/eusstream.c: openfilestream, flushstream, writech", "lisp/c/lispio.c: OPENFILE"])
p("Closing a stream writes everything to the file",
  "After close of a stream opened for output, all bytes written to it are in the file, in order, and close gives T. A stream opened with :direction :io loses what was written since the last finish-output, because the shared descriptor is closed before the output side is flushed, and close gives nil; with finish-output before it nothing is lost.",
  "all files, all sequences of writes and flushes, all buffer sizes",
  "whether a byte is lost depends on the buffer size and on where the last flush was",
  ["lisp/c/lispio.c: CLOSE", "lisp/c/eusstream.c: closestream, flushstream"])

p("object-size counts every reachable object once",
  "object-size of an object visits every object reached from it exactly once, however much is shared or circular, leaving out symbols and what is reached only through them unless asked for; it gives the number of objects, the words they use and the words of their memory cells, always comes to an end, and leaves no object marked.",
  "all finite heaps, all objects, both settings of the option",
  "object graphs with sharing and cycles cannot be enumerated; a mark left over shows only in a later collection or a later call",
  ["lisp/c/sysfunc.c: objsize1, objsize2, OBJSIZE"])

p("dda-line gives the raster points of a line",
  "For all integer end points dda-line gives a list of points that begins at the first end and ends at the second, has exactly one point for each column (row, if the line is steep), in which each point touches the next, and none of which is more than half a unit from the line.",
  "all pairs of integer points, all eight octants and the degenerate lines",
  "the error term depends on the whole path; tests draw a few lines",
  ["lisp/geo/dda.l: line-dda :init, :update-x-major, :update-y-major, :next, dda-line"])
p("The history holds and finds the latest lines",
  "However many lines have been added, print-history shows the last n entries with their numbers in order; get-history with a number gives the line of that number if it is still held, the latest line for greater and the oldest for smaller numbers; with 0, -1, ... the line before the latest, and so on; with a pattern the latest line with a hit. The oldest entry is shown but never found by a pattern.",
  "all sequences of added lines, all sizes, all numbers and patterns",
  "the array is shifted only when it is full and the numbers run on; the cases depend on the whole sequence of lines",
  ["lisp/l/history.l: new-history, add-history, get-history, print-history"])
p("The line editor does what its keys say",
  "Any sequence of keys (cursor left, right, beginning, end, delete before or under the cursor, clear, insert) changes the line and the cursor as described, and Return gives the line so made; ^C gives nil. An empty line cannot be told from ^C, and characters above 127 are an error.",
  "all lines, all key sequences",
  "key sequences cannot be enumerated; index, length and list are kept apart and must agree after every key",
  ["lisp/l/history.l: line-edit, line-insert, line-delch, line-delch-previous, *line-edit-dispatch*", "lisp/l/common.l: list-insert, list-delete"])

p("quickhull gives the convex hull",
  "quickhull of a list of points in the plane always comes to an end and gives points of the list, no two in the same place, going round counter-clockwise with every point of the list on the inner side of (or on) every side, whatever the order of the points and also when points coincide, lie on one line or are equally far from a side.",
  "all non-empty lists of points over any ordered ring; partial: not all of the points may have the same x (then the result is one point twice)",
  "ties and degenerate positions are a set of measure zero that samples do not hit; the hull property is about all points against all sides",
  ["lisp/geo/primt.l: find-extream, leftmost-point, left-points, quickhull-left, quickhull-right, quickhull"])

p("Faces made from corners share their edges",
  "Making faces one after the other from lists of corners that fit together never fails: every face has its corners and one edge for each side in order, two faces along the same line share its one edge, each edge is known to the face that goes along it forwards and to the one that goes along it backwards, and the body of these faces has every edge and every corner exactly once. If every side has a counterpart, every edge has two different faces.",
  "all finite collections of faces with any number of corners in which no side is gone along twice in the same direction, in any order",
  "the edges are found by looking through lists that grow with every face; that no edge is doubled or overwritten depends on the whole history of faces",
  ["lisp/geo/primt.l: make-face-from-vertices", "lisp/geo/geopack.l: edge :set-face, :pvertex, :nvertex, polygon :init", "lisp/geo/geobody.l: faceset :init", "lisp/c/sequence.c: REMOVE_DUPLICATES"])
p("The primitive bodies are closed",
  "make-prism, make-cone, make-torus and make-solid-of-revolution give closed surfaces: every edge has exactly two faces, which go along it in opposite directions. A prism over n points has 3n edges and n+2 faces, a cone 2n edges and n+1 faces.",
  "all numbers of points and of segments from three on, any number of rings (three or more for a torus), contours that do or do not begin or end on the axis",
  "sizes are unbounded, and that the faces fit depends on the orders the vertex lists are turned round in",
  ["lisp/geo/primt.l: make-side-faces, make-prism, make-conic-side-faces, make-cone, make-solid-of-revolution, make-torus"])

p("Tracing and timing functions leaves a program alone",
  "In a session of definitions, evaluations and the commands trace, untrace, time and untime, each evaluation ends as it does without those commands, with the same values, throws, errors and global variables; a call of a traced function prints a line with its arguments on the way in and a line with its value when it returns, numbered by the traced calls in progress; time reports the number of calls; and when nothing is traced or timed any more every function cell holds what the user put there. This holds for commands given with care. It is false otherwise: untracing a macro destroys it, a function redefined while traced gets its old definition back, a function cannot be timed twice, untime brings back old definitions, a timed special form is an error, and a function traced, timed, untraced, untimed and traced again never returns.",
  "all sessions of commands, all programs of a language with functions, macros, recursion, global variables, throw and catch, all sets of traced and timed names",
  "a test traces one function in one program; the claim is about every program and every order of commands",
  ["lisp/l/eusdebug.l: trace, trace1, tracex, untrace, time, time-func, untime", "lisp/l/common.l: functionp, macro-function"])

p("The concurrent collector frees what is not in use and nothing else",
  "With the collector thread running beside the program (the build of Makefile.rgc), an object that can be got at from the stacks of the threads or from the global roots is never freed, however the steps of the threads and of the collector interleave; and an object that cannot be got at when the roots are scanned is free when the following sweep ends. The code keeps the first promise only when no thread leaves a GC region during a root scan, no allocation begun during a collection outlasts it or returns a cell of the last chunk behind the sweeper, and no object with a dispose hook dies: each of these can free an object in use.",
  "all numbers of threads and cells, all heaps, all interleavings of loads, stores with their barrier, allocations, region entries and exits, collection requests and collector steps, any number of collections",
  "the claim is about every schedule; the failing schedules need a thread to be delayed between two particular instructions",
  "lisp/c/collector.c: mark_a_little, sweep_a_little, go_on_to_sweep_phase, do_scan_roots, scan_global_roots, scan_local_roots, notify_gc, scan_roots, enter_gc_region, exit_gc_region, do_gc_epilogue",
  "lisp/c/collector.h: pointer_update, PHASE_MARK", "lisp/c/rgc_mem.c: rgc_alloc", "lisp/c/memory.c: newchunk")

p("Nested read-eval-print levels: what an error, an interrupt, reset and ^D lead to",
  "In every interactive session an error gives up nothing until its level is left: at the prompt of an error level the special variables still have the values they had at the error. Leaving an error level, by ^D or by reset, gives up everything down to the innermost computation that was interrupted with ^C, and that computation goes on; if there is none the top level prompt comes back. Whatever is given up leaves no binding of a special variable behind. An interrupted computation at whose prompt the user only looks around ends as if it had not been interrupted. *, ** and *** are the last three values printed. +, ++ and +++ are the last three forms evaluated, if nothing was interrupted and no line was empty. It is false that (reset n) or ^D goes to level n of nested error levels, that + is the form whose value * is after an interrupt, and that a symbol typed at a level is looked up where that level was entered.",
  "all sequences of lines typed, all computations with errors, interrupts at any point, resets, dynamic and lexical bindings, with and without the selector",
  "a test types one dialogue; the claim is about every nesting of levels and every order of leaving them",
  "lisp/l/toplevel.l: eustop, euserror, sigint-handler, reploop, reploop-select, reploop-non-select, repsel, rep1, reset", "lisp/l/eusdebug.l: eval-dynamic", "lisp/l/stream.l: port-selector :add-port")

p("Unit test reports: counts, exit status, XML",
  "A run of unit tests counts every test once, as a failure if one or more of its assertions failed and as passed otherwise, runs the tests in the order of their definitions, and exits with status 1 just when there is a failure. An error or a signal ends the run there with status 1 and is counted as one more test and failure. The XML report is a document with one testcase for every test and one failure for every failed assertion, with its message; texts are escaped without a store outside the buffer, and an XML reader gets them back. This holds for names and messages without double quotes and tests defined once. It is false otherwise: a message with a double quote or a name with < breaks the document, a test defined twice is run twice with its second definition, a test that ends in an error is itself reported as passed, and the report asked for as test.xml is written to .xml.",
  "all lists of tests, all sequences of assertions, failures and errors in them, all names, messages, traces and file names",
  "a test of the reporter runs a few suites; the claim is about every suite and every text",
  "lib/llib/unittest.l: escape-xml-string, unittest-error, unit-test-result, unit-test-container, deftest, run-test, run-all-tests, init-unit-test, assert", "lisp/l/string.l: string-left-trim", "lisp/c/printer.c: printstr")

p("Picture files: what is read is what the file holds",
  "read-pnm reads a PGM or PPM file as the format defines it, with comments in the head, in binary and in decimal, with a stream buffer of any size and any way the system hands out the bytes, and write-pnm writes a file that is read back as the same picture. A binary gray file that ends too early and a picture of more than 4096 x 4096 pixels are errors; after a picture in decimal the stream stands just behind it. For binary color pictures this holds when nothing follows the picture and the system does not return a single byte where two were asked for. It is false otherwise: the picture is shifted by a byte, a file that ends early is accepted, with more data behind the picture or a short array given bytes are stored outside the array, a second picture in the same stream is lost, and write-pnm ignores a short write and writes nothing for a bitmap.",
  "all pictures, heads, comments, buffer sizes, divisions of the bytes among the calls of read, and contents behind the picture",
  "a test reads a few files from disk; where the buffer's end falls in the picture and how a pipe splits the bytes is not under its control",
  "lisp/image/pbmfile.l: read-pbm-token, read-ascii-pgm, read-binary-pgm, read-binary-ppm, read-ascii-ppm, read-pnm, write-pgm, write-ppm, write-pnm", "lisp/l/stream.l: :tail-string, :discard", "lisp/c/unixcall.c: UNIXREAD, UNIXWRITE", "lisp/c/eusstream.c: readch, unreadch, fillstream")

p("Programs on pipes: who is connected to whom, and when the end is seen",
  "A program started with piped-fork or popen reads what the Lisp writes to the returned stream and the Lisp reads what the program writes, whatever descriptors are in use, as long as the standard streams are on descriptors 0 and 1; four free descriptors are enough. In every history of starting programs, opening files, closing streams and programs ending, each stream stays on its own two pipes, the Lisp sees the end of a program's output exactly when the program is gone, and the program sees the end of its input exactly when the stream is closed for output and all programs started in the meantime are gone. So closing the stream is enough only if none was started. xfork gives the child the three files asked for if none is overwritten before it is copied. The code violates the plain reading: with *standard-output* bound to another stream the program's output misses the pipe; after popen of a command with a space the end is never seen; text waiting in *standard-output* is written twice; closing a stream twice closes another file; without descriptors the error is signalled in two processes; a failed fork is not reported.",
  "all descriptor tables, limits, numbers of programs, and histories of starting, closing, opening and ending",
  "which descriptors a child inherits depends on everything opened and closed before; a test sees one program at a time",
  "lisp/l/process.l: piped-fork, popen, xfork", "lisp/c/unixcall.c: FORK, DUP, DUP2, PIPE", "lisp/c/eusstream.c: closestream")

p("Special variables: dynamic binding, thread by thread",
  "A special variable has the value of its newest binding in force in the thread, and leaving the binding, normally or by a throw, brings the value before it back; a deflocal variable has its own value in every thread, which no other thread can see or change, and a thread that is given a function starts with the values of the thread that gave it. This holds for every history of any number of threads in which variables are declared once, no more than 509 deflocal variables are made, and a variable made with defvar or defparameter is not used by one thread while it is bound in another. Outside: two threads that bind the same defvar variable leave it with a wrong value for ever; symbol-value and makunbound do not see deflocal variables; (declare (special x)) in a let makes x unbound; redeclaring a bound variable loses its value; threads that exist already find NIL in a new deflocal variable; each evaluation of a deflocal uses up a place, and after the last one every thread call copies memory outside the tables.",
  "all histories of declarations, readings, assignments, bindings, exits and thread calls, of any number of threads and variables",
  "a wrong value after overlapping bindings appears only under some schedules, and long after the cause",
  "lisp/c/eval.c: getval, setval, bindspecial, unbindspecial, vbind, declare", "lisp/c/specials.c: PROCLAIM, SYMVALUE, MAKUNBOUND, set_special", "lisp/c/makes.c: special_index, makelispcontext", "lisp/c/mthread.c: thread_main", "lisp/l/packsym.l: :special, :global", "lisp/l/common.l: defvar, deflocal, defparameter", "lisp/c/predicates.c: BOUNDP")

p("The angles of a rotation are found again",
  "For every rotation matrix both lists of (rpy-angle m) give m again through rpy-matrix, at the poles too, and rpy-angle finds the angles given to rpy-matrix; both lists of (euler-angle m) give m through euler-matrix up to 0.000011, and exactly unless the z axis is moved by less than 0.00001; (rotation-angle m) is NIL only for what is nearly the identity and otherwise an angle between 0 and pi and an axis of length 1 that give m through rotation-matrix, up to half a turn and including it. Outside: about the axes (1,1,0) and (1,-1,0) rotation-angle answers with numbers that are not numbers (0/0).",
  "all rotation matrices and all angles, and every function atan2 that is right away from (0,0)",
  "the exceptions are single rotations among infinitely many: poles, half turns, two axes",
  "lisp/c/matrix.c: INV_RPY, INV_EULER, ROTANGLE, ROTMAT, ROTATION_MATRIX", "lisp/l/array.l: rpy-matrix, euler-matrix")

p("Signals reach the handler that was installed",
  "The function installed last with (unix:signal s f) for an ordinary signal is called, in the thread the signal arrived at, when that thread next looks for signals, with the number of the signal and its code, provided nothing else arrives at that thread before. A handler is called for a signal in a thread at most as often as the signal arrived there, also when a signal arrives in the middle of a look. What happens to a thread does not depend on the signals that arrive at the other threads, except for the code. A semaphore as the handler is posted for every arrival. (unix:signal s x) returns what was installed last. It is not true that no signal is lost: a second signal before the look, the end of a child process, a signal with a semaphore and a signal during the look erase the pending one; a function for SIGCHLD is never called; 0 means ignore, not default; NIL does not bring the default back; and in the toplevel a function for SIGPIPE is never called.",
  "all histories of installations, arrivals at threads and looks by threads, all signals, all threads, all handlers",
  "what is lost depends on the moment of arrival; a test cannot place a signal between two machine instructions",
  "lisp/c/unixcall.c:SIGNAL", "lisp/c/eus.c:eusint", "lisp/c/eus.c:sigbreak", "lisp/c/eus.h:breakck")

p("Arrays and vectors survive printing and reading",
  "The text printed for an array, followed by a delimiter, reads as an array with the same dimensions whose elements are the same in row-major order, whatever the displaced offset; with a fill pointer, the elements before the fill pointer. Arrays of integers read as arrays of integers, vectors as vectors, integer-vectors as integer-vectors, bit-vectors as bit-vectors. It is not true for arrays with a dimension 0 (they read with one dimension), for arrays of one dimension whose first element is a list (the rank is not looked at: a different array or an error), for arrays of characters or bits (the type is lost), for integer-vectors longer than *print-length* (different ones have the same text) and for an empty bit-vector at the end of the stream.",
  "all arrays of one to seven dimensions, all vectors of any length, all elements that print and read back, all bases 2 to 36, all following text",
  "dimensions and contents are unbounded and nested; tests try a few small arrays",
  "lisp/c/printer.c:printarray", "lisp/c/printer.c:prinary", "lisp/c/printer.c:printvector", "lisp/c/reader.c:readvector", "lisp/l/array.l:make-array", "lisp/l/array.l:list-dimensions", "lisp/l/readmacro.l:read-bit-vector")

p("Quotients of bignums by bignums",
  "The quotient of two bignums is their quotient truncated towards zero, when the divisor is positive with a highest word of at least 2^31, the dividend has at least as many words as the divisor, and the quotient is below 2^31; for two bignums of one word with a positive divisor this is always so. It is not true for larger quotients (they pass through a C int), for divisors with a small highest word (the first guess is too large and memory past the number is changed), for dividends with fewer words than the divisor and for negative divisors (same); arguments after a bignum divisor are ignored.",
  "all pairs of bignums of any length",
  "lengths are unbounded and the estimate of the quotient digit depends on the top words; tests try a few numbers",
  "lisp/c/big.c:div_big_big", "lisp/c/big.c:sub_int_big_big", "lisp/c/arith.c:QUOTIENT")

p("Slots of objects keep their values through every class",
  "After any history of definitions of new classes, instances, copies and assignments, the value of a slot of an object is the last one assigned to that slot of that object, nil if there is none, or for a copy the value at the time of the copy; it is the same through the class of the object and through every superclass that has the slot, by symbol, by string and by index, and through the access macro when its name belongs to one slot only. Naming a slot through a class the object does not belong to, or that has no such slot, is an error. It is not true for negative indices (memory outside the object), indices of 2^32 and more (cut to 32 bits), classes that are defined again with other slots (old objects are too short, subclasses keep the old layout) and two slots whose access macros have one name.",
  "all histories of class definitions, instances, copies and slot assignments, all class hierarchies, all objects, classes and slots",
  "histories and hierarchies are unbounded, and every class definition renumbers classes; tests try a few objects",
  "lisp/c/leo.c:getslotindex", "lisp/c/leo.c:SLOT", "lisp/c/leo.c:SETSLOT", "lisp/c/leo.c:CLONE", "lisp/c/makes.c:makeobject", "lisp/l/common.l:make-class")

p("Conversions between Japanese character codes keep the text",
  "Converting a text of ASCII and Japanese characters (given by row and cell) from EUC to Shift-JIS gives the Shift-JIS code of the same text, from Shift-JIS to EUC the EUC code, from JIS to EUC the EUC code; back and forth is the identity; and a text that already is in EUC is left alone by the conversion to EUC. It is not true for rows above 80 from EUC to Shift-JIS, for even rows from 66 on from Shift-JIS to EUC (they become other characters), for half-width katakana, for EUC texts whose first Japanese character is in row 64 or above, and for JIS texts that return to ASCII by ESC ( B (escape sequences in the text, then an error).",
  "all texts: ASCII characters and rows and cells 1 to 94, of every length, all sequences of JIS segments",
  "texts are unbounded and the codes have 8836 characters with several ranges; tests try a few",
  "lib/llib/kana_euc.l:sjis2euc", "lib/llib/kana_euc.l:euc2sjis", "lib/llib/kana_euc.l:jis2euc", "lib/llib/kanji.l:jis2euc")

p("A distance map holds the distance to the nearest obstacle",
  "After init-distance and calc-distance, for a map that was filled with one value B and for any sequence of collision arrays entered one after the other, every cell of the map holds the number of steps (in the six directions) to the nearest of all obstacles entered so far, or B where that is more than B; the border of the map is left alone. The two sweeps over the grid are enough for every set of obstacles. Obstacles that have gone stay in the map until it is filled again.",
  "all grid sizes, all initial values, all sets of obstacles, all sequences of collision arrays, all cells",
  "there are 2^(n^3) sets of obstacles, and that two sweeps are enough depends on every path between an obstacle and a cell",
  "lib/llib/disttrans.l:init-distance", "lib/llib/disttrans.l:calc-distance", "lib/llib/disttrans.l:calc-distance-6")

p("Sign and parity of integers",
  "For every integer, zerop, plusp and minusp say whether it is zero, positive or negative; exactly one of oddp and evenp holds, according to the remainder by 2; signum is -1, 0 or 1 according to the sign. It is not true of oddp and evenp for integers of 2^64 and more or below -2^126, which are errors, and of signum for the most negative fixnum -2^61, whose sign is 0.",
  "all integers: fixnums and bignums of every length",
  "the number of integers is unbounded and their representation changes at 2^61, 2^63, 2^64, 2^126; tests take small numbers",
  "lisp/l/common.l:zerop", "lisp/l/common.l:plusp", "lisp/l/common.l:minusp", "lisp/l/common.l:oddp", "lisp/l/common.l:evenp", "lisp/l/common.l:signum", "lisp/c/arith.c:LOGBITP")

p("Pictures: windows, scaling, tables, colours, filters",
  "For every picture of bytes: halve-image gives the mean of each four pixels, double-image makes each pixel a square of four, and halving what was doubled gives the picture again; a subimage that lies inside has the pixels of the window, patch-in changes the pixels of the window and no others, and the two undo each other; look-up replaces every pixel by its entry in the table, and two tables one after the other are one composed table; split-rgb and merge-rgb undo each other. :pixel gives the pixel at a column and row, median-image the median of the window, convolve3 works inside of the picture. Not true: :pixel of a single channel image ignores the column; a subimage too wide takes pixels of the next row; merge-rgb writes behind strings whose length is no multiple of 3; convolve3 always reads behind the picture; the median is the larger one of the first and last pixel.",
  "all widths, heights and contents, all windows, all tables, all windows of 2 to 10 for the median",
  "sizes and contents of pictures are unbounded; a test with a square or constant picture sees none of the failures",
  "lisp/image/convolve.c:HALVE_IMAGE", "lisp/image/convolve.c:DOUBLE_IMAGE", "lisp/image/convolve.c:LOOK_UP", "lisp/image/convolve.c:CONVOLVE3", "lisp/image/convolve.c:median_img", "lisp/image/pixword.c:SPLIT_RGB", "lisp/image/pixword.c:MERGE_RGB", "lisp/image/piximage.l:single-channel-image")

p("A port selector serves exactly the ports that were added",
  "After every history of :add-port and :remove-port on a port-selector, :fds lists exactly the ports whose last operation was an addition, in ascending order, and :select calls for each of them that has something to read the handler added last, once, and no other handler; handlers may add and remove ports. Not true if a handler removes a port that is ready and comes later: :select then ends with an error.",
  "all histories, all sets of ready descriptors, all handlers that change the selector",
  "histories and interleavings of handlers with readiness are unbounded",
  "lisp/l/stream.l:port-selector", "lisp/c/unixcall.c:SELECT")
p("A broadcast stream writes everything to every destination",
  "Whatever a program writes to a broadcast-stream, in whatever pieces, every destination gets exactly this text in order, up to what is still in the buffer of at most 256 bytes, and all of it with finish-output. A destination added later gets what is written from then on. :close loses nothing. Not true: a destination added later gets what is still in the buffer, too; :close does not flush the buffer.",
  "all histories of writing, flushing and adding destinations, all lengths of text, all numbers of destinations",
  "the boundary of the buffer can fall anywhere in an unbounded text",
  "lisp/l/stream.l:broadcast-stream", "lisp/l/stream.l:make-broadcast-stream", "lisp/c/eusstream.c:writestr", "lisp/c/eusstream.c:writech", "lisp/c/eusstream.c:flushstream")

p("random stays below its limit and reaches every value",
  "For every positive integer n and every state of the generator, (random n) is at least 0 and less than n, in spite of the rounding of n and of the product to doubles; for negative n it lies between n and 0. Every number below n is the value for some state. Not true above 2^48: (random (expt 2 60)) is always a multiple of 4096.",
  "all integers n, all 48-bit numbers the generator can give",
  "the largest of 2^48 random numbers would have to be tried with every n",
  "lisp/c/arith.c:RANDOM")
p("become keeps the elements of a vector within its memory",
  "When (become v class) makes a vector of bits, bytes, characters, integers or floats a vector of another of these types, its new elements are the bits of the old ones in order, cover all of them and do not leave the memory of v; becoming the finer type and back gives v again. (become v n) changes the length exactly if the elements fit in. A vector of objects becomes no other vector and nothing else becomes a vector of objects. (replace-object dest src) replaces the common slots. Not true: an integer vector can become a vector of objects; negative lengths are accepted; replace-object of vectors copies the length and not the elements.",
  "all vectors, element types, lengths and sizes of cells",
  "rounding of the length to bytes and words and the limits of cells give unboundedly many cases",
  "lisp/c/leo.c:BECOME", "lisp/c/leo.c:REPLACEOBJECT", "lisp/c/makes.c:makevector", "lisp/c/vectorarray.c:fastvref")

p("A keyed-object-list finds objects by key and serves them in turn",
  "After every history of messages to a keyed-object-list no two objects have the same key, (send l :get key) gives the object that was made or added first under this key and is not removed, and nil if there is none, and as many (send l :get) as there are objects give each of them once in the order of the list. Objects without key are removed like others, and removing an object changes no other object's turn. Not true: (send l :remove nil) removes the object whose turn it is; removing an object that had its turn makes the next one lose its turn.",
  "all histories of :new, :add, :get, :remove and :reset-try, all keys",
  "histories are unbounded, and the turn depends on all of them",
  "lib/llib/keyedobj.l:keyed-object-list")

p("Messages to an asynchronous object end and do not disturb each other",
  "With any number of threads, two asynchronous methods of an object never run at the same time, and while one runs, another asynchronous message is refused and starts nothing; when none runs, the next one is accepted. Synchronous messages of other threads wait until the asynchronous method ends, and no message waits for ever. Not true: a synchronous message sent while an asynchronous method runs takes lock-of-slots and waits for entrance-lock, so that the method cannot end, and everything hangs; the same happens if two asynchronous messages are sent before the first has started; a synchronous method that has begun before runs at the same time as an asynchronous one.",
  "all numbers of threads, all schedules, all histories of messages",
  "schedules are unbounded, and that a program hangs for ever cannot be observed",
  "lisp/l/async.l:send", "lisp/l/async.l:asynchronous-object", "lisp/l/async.l:def-async-method")

p("Prolog queries are proved exactly if they follow from the program",
  "Portable Prolog: unify gives a most general unifier or none if there is none, and undoing takes back exactly its bindings, for all terms and all bindings made before. If a query ends with proof, all its goals follow from the clauses, for all values of variables that agree with the answer; if it ends with failure, there are no values for which its goals follow. Not true: the goals after a goal that is a variable are forgotten; after -(eq *5 *5) with +(eq *0 *0) a variable is bound to itself and printing the answer never ends; a variable can be bound to a term it occurs in, so -(eq *5 (f *5)) is proved.",
  "all programs, all queries, all terms, all depths of search",
  "search trees and terms are unbounded; soundness and failure are about all values of variables",
  "contrib/pprolog/pprolog.l:UNIFY", "contrib/pprolog/pprolog.l:FETCH", "contrib/pprolog/pprolog.l:LINK", "contrib/pprolog/pprolog.l:UNDO", "contrib/pprolog/pprolog.l:REFUTES", "contrib/pprolog/pprolog.l:REFUTE")

p("HTML is taken apart and put together faithfully",
  "read-html skips a comment exactly to its end -->; extract-html gives what is inside of each element with a tag, in order; remove-html-tags leaves the texts; a text made into a format string with escape-tilda is shown as it is; transpose-list exchanges rows and columns of a table and twice gives the table again. Not true: a comment that ends with ---> is not ended there, and all that follows up to the next comment is lost; inside nested elements the rest of the outer one is lost; transpose-list loses what is longer than the first row.",
  "all texts, all documents, all tables",
  "texts, documents and tables are unbounded",
  "lib/llib/http.l:read-html", "lib/llib/http.l:extract-html", "lib/llib/http.l:remove-html-tags", "lib/llib/httpcgi.l:escape-tilda", "lib/llib/httpcgi.l:transpose-list")

p("A text window shows the end of what was written to it",
  "Whatever characters are written to a cleared text window (also through a stream), it shows the last lines of the text as they would stand on a roll of paper of its width: long lines go on in the next row, tabs go to the next multiple of eight, and when the window is full the lines move up; the cursor stays inside, behind the last character. Scrolling by some rows moves every row and blanks the ones that come in. Not true: scrolling up by more than the height leaves the last row; putstring of a string longer than a line never ends.",
  "all texts, all window sizes, all contents",
  "texts and window sizes are unbounded",
  "lisp/xwindow/Xtext.l::putch", "lisp/xwindow/Xtext.l::scroll", "lisp/xwindow/Xtext.l::newline", "lisp/xwindow/Xtext.l::advance", "lisp/xwindow/Xtext.l::putstring", "lisp/xwindow/Xtext.l:textWindowStream")
p("Editing a line in a buffered text window changes just what was asked for",
  "A character or string put in at the cursor stands between what was before and behind the cursor; rubout takes back the last character typed; expand-tab fills to the next multiple of eight and its result fits; a selection is the text between two places, in whichever order they were given. Not true: text typed in the last column goes on in the next line, before what stands there; deleting in the middle of a line copies overlapping bytes with memcpy; a deletion writes into the string that was displayed.",
  "all lines, all cursor positions, all typed texts, all pairs of places",
  "lines, texts and places are unbounded",
  "lisp/xwindow/Xtext.l::insert", "lisp/xwindow/Xtext.l::insert-string", "lisp/xwindow/Xtext.l::delete", "lisp/xwindow/Xtext.l:expand-tab", "lisp/xwindow/Xtext.l::selection", "lisp/c/sequence.c:VECREPLACE")
p("A scrolled text window shows the lines from its top on",
  "After scrolling or going to a line the window shows the lines of its buffer from the top line on, blank behind the last; the top moves as asked, but not before the first line and not so far that the last line leaves the bottom. Not true: scrolling on by more than the height of the window signals an error.",
  "all buffers, all windows, all amounts",
  "buffers, windows and amounts are unbounded",
  "lisp/xwindow/Xtext.l:ScrollTextWindow", "lisp/xwindow/Xtext.l::refresh", "lisp/xwindow/Xtext.l::locate")

p("The items of a panel do not cover each other",
  "Items made one after the other in a panel stand as words on a page: each right of the one before or in a new row below all that were there; no two have a pixel in common; and those that are not wider than the panel stand within its margins. Not true: an item made with a given place may be covered by the next one; in a menu bar an item higher than the item height is covered by the next row.",
  "all panels, all sequences of items, all sizes",
  "the number of items and their sizes are unbounded",
  "lisp/xwindow/Xpanel.l::locate-item", "lisp/xwindow/Xpanel.l::create-item", "lisp/xwindow/Xpanel.l:menubar-panel")

p("The reason maintenance system concludes what follows, and no more",
  "Asserting clauses always ends; a node gets the label true or false only if it has that value in every world that makes all asserted clauses true, and a contradiction is noted only if there is no such world; and nothing is left to do: a clause whose links all contradict the labels is noted, one with a single other link has given its node that label. A clause that is retracted no longer supports its node, and no label outlives its reasons, however assertions and retractions alternate. Not true: retracting fails with an error when another label follows from that of the node, when the node is also in a clause with an open node, or has another reason; a contradiction stays noted after its clause has been retracted.",
  "all sets of clauses, all numbers of nodes, all orders of assertion",
  "clauses, nodes and orders are unbounded",
  "lib/llib/rms.l:ddclause", "lib/llib/rms.l:ddnode", "lib/llib/rms.l:align-ddlink", "lib/llib/rms.l:prune-contradictions", "lib/llib/rms.l:uncontradict")

p("The sieve finds exactly the primes",
  "(prime n) returns the list of all primes below n, greatest first, without an error. Not true for n below 4: the program stores at the index 3 of an array that has no such element.",
  "all n",
  "n is unbounded; the sieve stops at the root of n, where an error in the boundary shows only for squares of primes",
  "lib/demo/prime.l:prime")

p("The parser finds exactly the trees of the grammar",
  "(parser words) ends and returns exactly the trees of the grammar, of any category, whose words are the given words, also for ambiguous grammars and for rules that begin with their own category. Not true: with a rule that rewrites a category to itself it does not end; of a rule with several alternatives only the first is used; rules with an empty right side are not used.",
  "all grammars, all lists of words",
  "grammars and sentences are unbounded; the number of trees grows exponentially",
  "lib/demo/parser.norvig.l:parser", "lib/demo/parser.norvig.l:parse", "lib/demo/parser.norvig.l:extend-parse", "lib/demo/parser.norvig.l:lexical-rules", "lib/demo/parser.norvig.l:rules-starting-with")

p("Sliders, choices and joysticks follow the pointer and keep to their limits",
  "Whatever the pointer does, the value of a slider or joystick, and every value its receiver is sent, stays between the limits; during a drag the knob or stick is under the pointer, and rounding errors do not add up; the receiver gets the final value of a drag once, and the values on the way if and only if it asked for them; a click on a button of a choice selects this choice if pressed and released there. Not true: a value the program sets for a slider is not limited and differs from the number shown; a slider between integers shows an integer but has another value; with narrow labels a click on a button of a choice selects the one before.",
  "all limits and sizes, all sequences of events of the pointer, all labels",
  "sequences of events are unbounded; the positions depend on the widths of the labels",
  "lisp/xwindow/Xitem.l:slider-item", "lisp/xwindow/Xitem.l:choice-item", "lisp/xwindow/Xitem.l:joystick-item", "lisp/xwindow/Xitem.l:clump")

p("Segments are joined to polygons",
  "The function that joins segments to polygons (for the common part or the union of two faces) uses every segment exactly once; what it returns are paths, and those called polygons are closed; if an even number of segments ends at each point, no line is left over; a polygon does not pass twice through a point. The last is not true if four segments meet in a point: two regions that touch there become one polygon.",
  "all lists of segments, in any order and direction",
  "the number and arrangement of the segments are unbounded",
  "lisp/geo/bodyrel.l:find-next-segment", "lisp/geo/bodyrel.l:find-loop", "lisp/geo/bodyrel.l:construct-polygon")

p("Hidden-line removal draws what is visible",
  "In a drawing without hidden lines, the point of an edge computed for an intersection in the picture is the one that appears there in perspective; and the parts of the edge drawn as visible contain exactly the points hidden by no face, the parts drawn as invisible exactly the others, apart from the ends of the parts.",
  "all edges in front of the viewpoint, all numbers and orders of intersections with other edges, all sets of faces that begin or cease to hide the edge only at these intersections",
  "the numbers of intersections and faces and their places are unbounded",
  "lisp/geo/hid.l::homo2real", "lisp/geo/hid.l::add-segment", "lisp/geo/hid.l::sort-segments", "lisp/geo/hid.l::mark-visible-segments", "lisp/geo/hid.l::collect-segments", "lisp/geo/hid.l:check-visibility")

p("gentemp makes new symbols",
  "gentemp always ends; the symbol it returns is new in the package, so that all symbols a program generates are different from each other and from those it had before, whatever prefixes it uses. This is not true if a used package exports a symbol with the next name: then gentemp returns that symbol, and the same again at each further call, because find-symbol, unlike intern, does not look into used packages.",
  "all packages and their symbols, all prefixes, all values of the counter, all sequences of generated and read symbols",
  "the number of symbols, the counter and the history are unbounded",
  "lisp/l/packsym.l:gentemp", "lisp/c/specials.c:FINDSYMBOL", "lisp/c/intern.c:intern")

p("An interval of time shows its days, hours, minutes and seconds",
  "An interval made from years, months, days, hours, minutes and seconds has the total of these, and shows it as days, fewer than 24 hours, fewer than 60 minutes and fewer than 60 seconds, with the same signs; intervals can be added and subtracted. Only the intervals shorter than a day are shown right: for the days the hours are divided by 60. Adding and subtracting always fail.",
  "all intervals, positive and negative",
  "every number of seconds is a case; short intervals do not show the error",
  "lib/llib/time.l:interval-time :make", "lib/llib/time.l:interval-time :init", "lib/llib/time.l:interval-time :add", "lib/llib/time.l:interval-time :subtract")

with open("properties.jsonl","w") as f:
    for q in P: f.write(json.dumps(q)+"\n")
print(len(P))
