# A Lean 4 model of the EusLisp runtime

Source modelled: `/repo` (euslisp/EusLisp at the pinned commit), the 64-bit
configuration (`WORD_SIZE == 64`, `x86_64`), threaded.  The code is read as text;
nothing was built or run.

## Layout

Each area is a directory `lean/Verif/<Area>/` with

* `Model.lean`  – total, computable definitions, each citing `/repo` file:lines and saying what is simplified;
* `Spec.lean`   – (where it is not plain Mathlib vocabulary) a small specification written without reference to the model;
* `Proofs.lean` – helper lemmas;
* `Props.lean`  – the property theorems, with a concrete non-vacuity `example` beside each.

`properties.jsonl` is generated by `tools/props.py`; `MANIFEST.json` by `tools/manifest.py`.

## Trusted base

* Lean 4.33.0's kernel and the three standard axioms `propext`, `Classical.choice`, `Quot.sound`
  (`tools/axioms.sh` prints the axioms of every theorem listed in the manifest).  No axioms are added; no
  `sorry`, `admit`, `native_decide`, `bv_decide`.  Plain `decide` is used on closed finite propositions (refutation witnesses and examples).
* The correspondence between the C / Lisp text and the Lean definitions, which is by reading only.
* C semantics assumed: LP64, two's complement, arithmetic right shift of negative `long`s, `int` is 32 bits,
  truncation on narrowing.  Undefined behaviour is a distinct outcome in the model, or excluded by an explicit hypothesis.

## What is not modelled

Rounding of floating point operations (`Verif/Mat` and `Verif/Mix` take arbitrary operations, or those of a field; `Verif/Flt` models the storing, rounding functions and printing of floats only), the transcendental functions, Euler and RPY angles, of `coordinates.l` the methods for two dimensions, `:scale` and printing, of `geo/` everything but `dda-line`, `intersection.c`, boxes, lines, planes, and areas and convexity of polygons (in particular bodies, faces with holes, viewing and hidden lines), the compiler's (`lisp/comp`) type declarations, inlined arithmetic, exits out of closures, and methods, foreign
function calls, sockets and other system calls, X windows, image processing, signal handling, and the object file loader.
Out-of-memory behaviour is not modelled except as an explicit failure outcome of the allocator.

## Plan per property

| Property | What is modelled | How it is proved |
|---|---|---|
| C01 boxing | `makeint`, `intval`, `mkbigint` as functions on `BitVec 64` words | case split, bit-vector arithmetic lifted to integers |
| C02 fixnum +,- | the argument loops of `PLUS`/`MINUS` with their overflow test | induction over the argument list |
| C03,C04,C05 | `add_int_big`, `big_plus`, `complement_big` on limb lists | induction over limbs, value function to `Int` |
| C06 | `extended_mul`, `mul_int_big`, `big_times`, fixnum loop of `TIMES` | bit-level lemma + induction; bignum*bignum refuted by a witness |
| C07 | `extended_div` (63 shift-subtract steps), `div_int_big` | loop invariant, induction over limbs |
| C08,C09 | `normalize_bignum`, `big_compare`, comparison loops | induction over limbs; refutations where the code is wrong |
| C10 | `printint`, `printbig`, `readint` | digit induction; refuted for bases >= 22 |
| C11 | `read_sharp_hex` | induction over digits |
| C12,C13,C14 | `ASH`, `LOGAND`..., `LDB`, `DPB` on 64-bit words | refutations + partial theorems |
| C15 | the `expt` loop in an arbitrary monoid | loop invariant |
| C16, C80 | `gcd`, `ratio_plus/minus/times/divide`, `return_ratio`, the argument loops of `PLUS`, `MINUS`, `TIMES`, `QUOTIENT`, `NUMEQUAL` on fixnums and ratios; `readratio`, `printratio` on top of the reader model | refinement to `ℚ`, induction over arguments; the 32-bit range is a hypothesis, its violation refuted |
| C17-C19 | Fibonacci buddy allocator (memory.c:67-400, 596-742): chunks tiled by split trees with the `b`/`m` bits, root and thread free lists, `newchunk`, `splitheap`, `root_alloc_big/small`, `gc_alloc`, `sweep`, `mergecell` | invariant by induction over operations; closures, requests over `buddysize[38]` words and failing `malloc` refuted |
| C20,C21 | `markall`, `mark` with explicit stack over an object graph with roots; `sweep`, disposal list | worklist invariant, termination measure |
| C22-C24 | hash table on arrays with markers | refinement to a finite map; one invariant |
| C26,C27 | symbol tables with open addressing | invariant, refinement to a name->symbol map; `:unexport` refuted |
| C28 | class table numbering | invariant over definition sequences |
| C29 | method lists, class chain, per-thread cache | invariant: cache entries are correct; multi-thread delete refuted |
| C30 | `copyobj` over an object graph with the stack map | worklist invariant, isomorphism |
| C31-C40 | the loops of sequence.c / lists.c / common.l on lists (cons cells where destructive) | list induction |
| C42-C44 | `arrayindex`, `vset`/`vref`, `SETBIT`, push/pop | mixed radix lemma; bit lemma; invariant |
| C46,C47 | queue as cons cells in a heap; plists | refinement by induction over operations |
| C50,C51,C89 | `funlambda`, `bindkeyparams`, `vbind`; the code the compiler makes for a lambda list (`:lambda`, `parsekeyparams`, `minilist`); default forms as functions of the parameters bound | list induction against a declarative account of structured lambda lists |
| C52-C55 | printer and reader as functions on byte lists | structural induction, fuel-free where possible |
| C56,C57,C90,C91 | `Verif/Io`: output and input streams with their buffers, the file as a byte sequence with arbitrary `read` chunks and `write` outcomes; read-line, :read-bytes | invariant over operation sequences; refinement of a byte sequence; round trip through a file; short and failed writes, second unread, Return, offset refuted |
| C58,C93 | `Verif/Par/PoolModel`: the thread pool as a transition system, one step per shared access or semaphore operation; calls and ports numbered | inductive invariant over all schedules (phases of a port, conservation of free ports and of `runsem` tokens); analysis of states at rest; second `wait-thread` and `thread-no-wait` refuted by schedules |
| C59 | memory port, any number of readers and writers | inductive invariant over all schedules |
| C60 | barrier with a condition variable; `cond-wait` and `make-cond` taken as meant | inductive invariant, exact number of threads left behind; refuted for three threads or more |
| C61,C92 | interval timer, ticks against the timer's thread | induction over histories; lost firing, interval <= 0 and changed interval refuted |
| C94 | `Verif/Lex`: the interpreter of forms over a stack of bind and function frames with lexical links (`getval`, `setval`, `vbind`, `funlambda`, `FLET`, `LABELS`, closures) | simulation with a specification by environments and cells, by induction over steps; deviations refuted by programs |
| C95 | the same model | induction over steps for arbitrary programs |
| C96,C97 | `Verif/Cmp`: the compiler of forms (`comp.l`, `trans.l`: the tables of variables and local functions, the pending push, frames, closures, labels) and the C code it makes, run on the value stack (`argv`, `local`, `env`, `w`, special bind frames) | forward simulation of compiled code and the specification of C94, by induction over the specification's steps; deviations refuted by files |
| C98 | `Verif/Bq`: the translation of backquoted forms at read time (`conv-bq`, `conscons`) and the evaluation of the result with `append`, `cons`, `list` | structural induction over templates; nested, dotted and vector templates refuted |
| C99-C102 | `Verif/Lib`: base64.l, qsort.l, perm.l, time.l | RFC 2045 and the Gregorian calendar as separate specifications; loop invariants, induction over lists; deviations refuted by inputs |
| C103-C109 | `Verif/Mat`: the loops of matrix.c over a store of vectors, with arbitrary operations on numbers; LU decomposition and rotations over a field; integer vectors as words | loop invariants for every sharing of storage; the invariant A[p i][j] = sum of L U + rest of the elimination; Mathlib's determinants; ring identities; refutations by inputs |
| C110-C115 | `Verif/Crd`: cascaded-coords as a heap of nodes with caches and flags, coordinates from any group, cells of storage that can be shared; rigid motions over a commutative ring are such a group; transform-coords on the store of `Verif/Mat` | refinement to a specification without caches, by an invariant with two ranks (towards the root, towards the leaves) that also bound the recursion; matrix algebra; refutations by inputs |
| C116-C119 | `Verif/Srch`: the five searches of search.l on lists of paths; `SORT` around any comparison algorithm, with its lock | one generic search with a permutation of the queue; size of the tree of extensions as the measure; levels for breadth-first; order of the queue for cheapest paths; refutations of `SORT` for every algorithm |
| C120 | `Verif/Qua`: quaternion.l over the real numbers | equality with Mathlib's quaternions, ring identities, half-angle formulas |
| C121-C126 | `Verif/Mac`: the control macros of common.l as the forms they expand to, an interpreter of those forms with arbitrary other functions; the setf table of constants.l | fuel monotonicity; a form commutes with a variable it does not mention; induction over big-step relations; equivalence with relations in terms of the user's forms only |
| C127-C135 | `Verif/Fmt`: `XFORMAT`, its loop over the control string, the switch over directives, on byte lists; `prinx` and `sprintf` are parameters, integers use the printer of `Verif/Rd` | a denotation of pieces of control strings; every control string decodes into pieces (induction on its length); simulation of the loop |
| C136-C140 | `Verif/Syn`: semaphores and readers/writer locks as small programs over a mutex, condition variables and one 32-bit variable, run by any number of threads, with spurious wake-ups | simulation by a machine whose calls take effect at one moment; an invariant of the atomic machine; an invariant that says who will wake a sleeping thread |
| C141-C158 | `Verif/Geo`: `dda-line`; `line-intersection`, `line-intersection3`, both clipping functions; bounding boxes of any dimension; lines, planes and polygons. Over an ordered field, with distances over the real numbers: exact, no rounding; a quotient by zero is an outcome of its own | closed form of the error term of the DDA; clipping as intersection of half lines with a measure; order and field identities; telescoping sums over the sides; the intermediate value theorem for the distance of segments; refutations by evaluation |
| C159-C161 | `Verif/Inf`: the parser of mathtran.l on token lists, `letvar-alist` with its counts, `reconstruct-form`, `infix2prefix` | the grammar as an inductive relation between tokens and values; mutual induction over derivations, an invariant on how often symbols are used; termination by the size of the input; lost tokens refuted |
| C162,C163 | `Verif/Circ`: `printmark`, `prin1`, `printlist`, `printvector`, `printunmark`, `prinx` on a heap whose first words are overwritten; `read1` with the label table and waiting places, on tokens | depth-first marking counts occurrences (bag invariant); an unshared object is never met twice, so printing ends and gives a tree in which each object occurs once; reading by induction over that tree, with places that wait for open labels; corruption after a cut refuted |
| C164-C166 | `Verif/Flt`: `makeflt`, `fltval` and the tags on 64-bit patterns; the rounding functions with the conversion to C `float` and `int` on rational numbers; `printflt` with `sprintf` as correct rounding | patterns as sign, exponent and fraction (IEEE 754 in the specification); rounding lemmas over powers of two; digit induction and a decimal reader in the specification |
| C167,C168 | `Verif/Mix`: the loops of `PLUS`, `MINUS`, `TIMES`, `QUOTIENT`, `NUMEQUAL` and the comparisons with their jumps, over arbitrary double operations | induction over the arguments against a fold that is exact up to the first float; refutations for the wrong jumps |
| C169-C172 | `Verif/Fgn`: `:slotlist`, `:access`, `:get`, `:set`, the accessors of `defcstruct`, `sys:peek` and `sys:poke` on byte vectors (an access outside is an outcome of its own) | induction over the declarations; byte encoding round trip; C's rules of layout written down separately over nested structure types, compared by mutual induction |
| C173,C174 | `Verif/Ppr`: `pprint1`, `pparg`, `prntsize`, `tprint` on the trees and texts of `Verif/Rd` | one induction over trees with a bundle of claims (form, rest of a list, pairs, parameters, body) for an arbitrary layout function |
| C175 | `Verif/Ppr/Size`: `prntsize` against `prin1` of `Verif/Rd` | induction over trees; a count with a limit as a relation that composes |
| C176,C177 | `Verif/Arg`: `:add-argument`, `:parse-args`, the actions of argparse.l over association lists | the state after any prefix of the command line is the declared argument with another value; induction over the flags, with the uses of each argument as an inductive relation |
| C178,C179 | `Verif/Cex`: the code generated for control forms, frames with their stack offsets, `unwind`, `throw`; the reference semantics is that of `Verif/Ctl` | invariant relating frames, offsets and exit points; every outcome (value, goto, longjmp, error) is related to the reference; induction on fuel |
| C180,C181 | `Verif/Cnd`: the reader from tokens on: lists, vectors, quotes, comments, `#+`, `#-`, `#.`; the marks for "nothing" and "end of file" are values that can end up inside objects | mutual induction over source trees; the meaning of a tree is a separate specification |
| C182,C183 | `Verif/Ldr`: `load`, `require`, `provide`, the directory search with `union`; files are lists of forms | induction over the nesting bound with a trace of events; layers for termination; the search is shown equal to the first hit in the list of directories |
| C184 | open(2) on one file that exists or not; the flags computed from the options; buffered writes | invariant: the file and the buffer together are what was written; case analysis of the options |
| C185 | close of an output stream and of a two-way stream sharing a descriptor | the same invariant; witness for the lost buffer |
| C186 | the marking recursion and the unmarking one over an arbitrary finite heap graph | induction on the depth with a visit invariant (closed under references); the second pass is the first on opposite marks |
| C187 | the integer error term of the line generator, both major directions | invariant: error term as a linear function of the steps taken; bound of half a unit; the end by the bound |
| C188 | array, index and sequence number of the history under any list of additions | invariant: the array is the last n of the numbered log |
| C189 | the dispatch of keys and the list operations | simulation by a zipper |
| C190 | quickhull over an ordered ring, points as objects with an identity | induction on the recursion with supporting lines at both ends (the points left of the two new chords are among those left of the old one); the right hull is the left hull of the way back |
| C191 | edges and the edge lists of the vertices as a store; making a face as a step | invariant over the sides put in so far (each has its edge, no line has two); count by edges that have a second face |
| C192 | the loops of the primitives as lists of corner lists | the sides of all faces are, up to order, the rings both ways and the lines between rings both ways; disjointness |
| C193 | `lisp/l/eusdebug.l` trace, untrace, time, untime as changes of function cells and property lists, with an evaluator for a small language with throw | `Verif/Trc`: simulation between the evaluator with wrappers and a specification evaluator in both directions, invariant over all sessions; what goes wrong otherwise is proved too |
| C194 | `lisp/c/collector.c`, the write barrier of `collector.h`, the end of `rgc_alloc` in `rgc_mem.c`: threads, handshake, root scan, incremental marking, sweeping, allocation during collection, as interleaved steps | `Verif/Rgc`: invariant over all interleavings with a ghost snapshot; safety, completeness of one cycle, four failing schedules |
| C195 | `lisp/l/toplevel.l` eustop, euserror, sigint-handler, rep1, both loops and reset, over abstract computations with errors, interrupts and bindings | `Verif/Top`: refinement by induction on the lines left and on the computation, invariants for the history variables |
| C196 | `lib/llib/unittest.l` escape-xml-string with its buffer and indices, the results stack, run-all-tests, the characters of the XML report | `Verif/Utt`: invariant of the copying loop, induction on the tests, a scanner of XML tags as specification, folded over the document |
| C197 | `lisp/image/pbmfile.l` reading and writing of PGM and PPM files, on the stream model of `Verif/Io` with any buffer size and any division of the bytes among system calls | `Verif/Pnm`: a grammar of the files as specification, induction on gaps, digits and numbers, loop invariants for the pixel loops |
| C198 | `lisp/l/process.l` `piped-fork`, `popen`, `xfork`: descriptor tables of the Lisp and its children, `pipe`, `dup`, `close` with the lowest free number | `Verif/Prc`: an invariant that says who holds which end of which pipe, preserved by every event; the specification follows only what the program did (which streams are open, who was started meanwhile) |
| C199 | special variables: `getval`, `setval`, `bindspecial`, `unbindspecial`, `vbind`, `declare`, `proclaim`, `deflocal`, `defvar`, the tables of threads | `Verif/Spv`: the code's shallow binding (old values in frames, one cell or table entry per variable) refines deep binding (a stack of bindings per thread), by an invariant over all histories |
| C200 | `rpy-angle`, `euler-angle`, `rotation-angle`, `rpy-matrix`, `euler-matrix` over the real numbers, division by 0 and roots of negative numbers kept apart | `Verif/Rpy`: from the equations of a rotation (rows, columns, cofactors) every extracted triple rebuilds the matrix; spec in terms of Mathlib's matrices; exceptions proved as `_wrong` |
| C201 | `Verif/Sgn`: unix:signal, eusint, sigbreak in two halves, over histories of installations, arrivals at threads and looks; the kernel's dispositions and the mask of SIGPIPE | what each event leaves alone, a token per (thread, signal) for the count, simulation of the filtered history for threads; witnesses for lost signals |
| C202 | `Verif/Ary`: printarray/prinary/prinelm/printvector at the level of text; #nA, #nI, #( and #* readers, list-dimensions, fill-initial-contents, make-array, over the printer and reader of `Verif/Rd` | the text of a row reads as the list of its elements by induction on the length and then on the rank; list-dimensions and fill-initial-contents of the nested list; witnesses for zero dimensions, lists as elements, types |
| C203 | `Verif/Bdv`: sub_int_big_big, div_big_big, QUOTIENT with bignum divisors over the words of `Verif/Num`; an access outside the vector is undefined behaviour, the rounds of the correcting loop are bounded by a parameter | the subtraction with carry by induction on the words; the guess from the top words is at most 2 above and the quotient at most 2 above the guess minus 2; the rounds by induction; witnesses for each limit |
| C204 | `Verif/Slt`: getslotindex, SLOT, SETSLOT, CLONE, makeobject, make-class (slot names, access macros) over the class numbering of `Verif/Cls` | refinement to a map from objects and slot names to values: the slots of a superclass are a prefix of those of the class, names in a class are distinct, object slots are the values of the names; induction over the history; witnesses for redefinition and indices |
| C205 | `Verif/Kna`: sjis2euc, euc2sjis, jis2euc and their characters, over byte lists | texts as lists of ASCII and row/cell characters with the three codes written by arithmetic on row and cell; induction over the text; the JIS machine by segments; witnesses, and for even rows the wrong result for all of them |
| C206 | `Verif/Dtr`: init-distance, calc-distance, calc-distance-6 over functions of index triples | upper bound: a sweep in lexicographic order gives d(p) ≤ 1+d(q) for the neighbours swept before, so a path goes up by the first sweep and down by the second; lower bound: invariant that every value below B is at least the distance to some obstacle; induction over the collision arrays |
| C207 | `Verif/Sgp`: zerop, plusp, minusp, oddp, evenp, signum over the integer functions of `Verif/Num`, `Verif/Bits`, `Verif/Bdv` | comparison with 0 by C09 (0 is in no bad pair); parity of a bignum is that of its lowest word; x/abs x goes through one subtraction in div_big_big |
| C208 | `Verif/Pix`: the loops of convolve.c and pixword.c as folds of bounds-checked writes, :subimage and :patch-in as rows copied by the `replace` of `Verif/Arr` | one lemma on folds of consistent writes, uniqueness of row and column, C71_vectors for the rows |
| C209 | `Verif/Psl`: port-selector as its two vectors, handlers as lists of operations | representation of the finite map; induction over the ports in ascending order, later ready ports are not changed |
| C210 | `Verif/Brd`: broadcast-stream on the buffer of eusstream.c | conservation: got plus buffered = written, by induction over operations and rounds of writestr |
| C211 | `Verif/Rnd`: random of integers with rounding to 53 bits | relative error of dbl; (1-2^-48)(1+2^-53)^2 < 1; for every value a random number in the middle of its interval |
| C212 | `Verif/Bec`: become and replace-object on cells of 64-bit words | arithmetic of lengths for all pairs of types; bits by testBit of shifts |
| C213 | `Verif/Kol`: keyed-object-list | refinement of a table from keys to objects; the turn stays within the list; n gets are a rotation |
| C214 | `Verif/Asy`: asynchronous objects as threads with program counters, two mutexes and two slots | invariant: who holds which mutex; the blocked pair is an invariant of every continuation |
| C215 | `Verif/Plg`: Portable Prolog: terms with shared substitutions, unify, undo, refutes with fuel | unify: equivalence of solutions by induction over fuel; resolution: soundness and completeness of failure against the least model, with fresh substitutions |
| C216 | `Verif/Htm`: comments, extract-html, escape-tilda, transpose-list | induction over the stream, the document, the table |
| C217 | `Verif/Txw`: a grid of cells, `:putch`, `:scroll`, `:putstring` | simulation of an endless roll of paper, by induction over the text; the loop of `:putstring` by an invariant |
| C218 | `Verif/Txw`: lines, `replace`, keys, `expand-tab`, `:selection` | splitting of lists; induction over the keys and the text |
| C219 | `Verif/Txw`: top line, rows of the screen | the invariant "row r shows line top + r" |
| C220 | `Verif/Pnl`: `:locate-item` of panels and menu bars | invariant over the items placed so far |
| C221 | `Verif/Rms`: labels, clauses of a node, propagation with bounded depth, retraction | invariants: labels hold in every world; clauses that need nothing keep needing nothing; induction on the depth, bounded by the nodes that are out; for retraction: every label has a reason without circles, and taking labels away leaves a reason whole or its node out |
| C222 | `Verif/Sie`: array of marks, the three loops, errors of the index | invariant: after i, struck out is what has a proper divisor from 2 up to i; Nat.Prime of Mathlib is the specification |
| C223 | `Verif/Psr`: rules, trees, parse and extend-parse with bounded depth | trees of the grammar as an inductive relation; soundness by induction on the depth, completeness by induction on the tree: each tree is the start of a call of extend-parse; depth 3n+1 is enough for n words |
| C224 | `Verif/Itm`: sliders, choices and joysticks as machines over the events of the pointer | invariants over lists of events; exact rational arithmetic for the places of knob and stick; induction over the buttons of a choice |
| C225 | `Verif/Seg`: the walk along segments, loops until none remain | permutation of the segments; parity of the number of ends at each point along a path |
| C226 | `Verif/Hid`: parameters of cuts, sorting, the test at the middle, collecting | field identities; monotony of the projective parameter; induction over the sorted list of cuts |
| C227 | `Verif/Gtm`: counter, names, find-symbol and intern over packages as lists of names | names are injective in the index; pigeonhole for termination; induction over the history; refuted for inherited names |
| C228 | `Verif/Itv`: the fields of an interval, its operations with the number of arguments they pass | division toward 0 for both signs; linear arithmetic; refuted for all longer intervals |
| C64,C65 | the loops of `FILL` and `MAP` | list induction |
| C66 | `list-insert`, `list-delete` on the cons-cell heap | heap frame lemmas |
| C67-C74 | loops of common.l, lists.c, specials.c on lists | list induction; zipper for merge-list; columns of argument lists |
| C75-C77 | typed `vset`/`vref`; word loops of the bit functions; `fill-initial-contents` | word lemmas; splice lemma, induction over dimensions |
| C78,C79 | `read_sharp_octal`; `printint`/`printbig` with field widths | digit induction; refutations |
| C25, C41, C81 | `equal`, `superequal` with mark bits, `sxhash`, `rehash` over a heap of objects with slots, pointer vectors and packed words | induction on depth against the tree of an object; unmarked objects as the measure for `superequal` |
| C45, C82–C87 | `strcmp` comparisons, `STRINGEQ`, trimming, case, URL escapes, `digits-string`, pathname parsing and printing on byte lists | list induction, loop invariants; the reader and printer models of `Rd` for hexadecimal digits; refuted for zero bytes, positions out of range, Return, base ≠ 10, colons |
| C48, C49, C88 | `eval` for special forms and calls, `unwind`, `unbindspecial`, `throw`, block and protect frames with stack positions; longjmp as an outcome; `setjmp_val` as a shared variable | simulation, by induction on fuel, of a structural reference semantics; invariant on frame chains; journals of marked programs; interleavings |
| C62,C63 | `MOD`, `MAX`, `MIN` on words | word arithmetic; induction over arguments |
