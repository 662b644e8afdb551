import Mathlib.Logic.Function.Basic
set_option autoImplicit false
/-
The memory manager (lisp/c/memory.c, 64-bit configuration, without RGC): the Fibonacci buddy
allocator, the mark phase and the sweep phase.

The address of a cell is a pair: the number of the chunk obtained from `malloc` and the distance in
words from its root cell.  So chunks never overlap, which is what `malloc` guarantees.  The lists of
free cells linked through `nextbcell` are Lean lists; `nextbcell` is the first word of the cell
(eus.h:443-447), which only free cells use for this.  `alloc_lock` and `gc_lock` make the operations
below atomic, so that an execution of several threads is a sequence of them.
-/
namespace Eus.Mem

/-- A cell: chunk number and word offset. -/
abbrev Cell := Nat × Nat

/-- eus.c:468-473: two consecutive entries of `buddysize`. -/
def sizes : Nat → Nat × Nat
  | 0 => (3, 3)
  | n + 1 => ((sizes n).2, (sizes n).1 + (sizes n).2)

/-- eus.c:468-473 `buddysize`: 3, 3, 6, 9, 15, ... (below `MAXBUDDY`). -/
def buddysize (k : Nat) : Nat := (sizes k).1

/-- eus.h:138 -/
def MAXBUDDY : Nat := 40
/-- eus.h:143 -/
def MAXTHRBUDDY : Nat := 6
/-- eus.h:137 -/
def DEFAULTCHUNKINDEX : Nat := 16
/-- eus.h:149 -/
def MAXTHREAD : Nat := 64

/-- eus.h:176-191 `struct cellheader`, the fields the allocator and the collector use. -/
structure Hdr where
  bix : Nat
  b : Bool
  m : Bool
  mark : Bool
  nodispose : Bool
deriving DecidableEq

/-- What the collector distinguishes: `ELM_FIXED`, `ELM_POINTER`, other element types, closures
(memory.c:470-491). -/
inductive Kind where
  | fixed | vector | other | closure
deriving DecidableEq

/-- The contents of a cell: its words, each a pointer to a cell or something else (`NIL`, which is
never collected, counts as something else). -/
structure Obj where
  kind : Kind
  words : List (Option Cell)

/-- Allocator, contents and roots.  `used` is not in the program: it records the cells handed out and
not swept since, with the number of words asked for. -/
structure Heap where
  hdr : Cell → Hdr
  /-- `chunklist`: chunk numbers and `chunkbix`, latest first -/
  chunks : List (Nat × Nat)
  /-- `buddy[k].bp` -/
  free : Nat → List Cell
  /-- `buddy[k].count` -/
  count : Nat → Int
  /-- `ctx->thr_buddy[k].bp` of each thread -/
  tb : Nat → Nat → List Cell
  /-- `ctx->thr_buddy[k].count` -/
  tcount : Nat → Nat → Int
  freeheap : Int
  totalheap : Int
  obj : Cell → Obj
  /-- `sysobj`, `pkglist` -/
  sys : List Cell
  /-- `ctx->threadobj` and the thread's stack -/
  stk : Nat → List Cell
  /-- `ctx->specials` -/
  spec : Nat → List Cell
  /-- `ctx->lastalloc` -/
  last : Nat → Option Cell
  /-- `classtab` -/
  cls : List Cell
  /-- `dispose[]`: what the last collection found unreachable but with a disposal hook -/
  disposed : List Cell
  used : List (Cell × Nat)

/-- Circumstances outside the model: whether the `n`-th `malloc` (of a chunk of index `k`) succeeds;
`freeheap < totalheap*min(5.0,*gc-margin*)`; `gcmerge` as a function of `totalheap`
(memory.c:731-732); and the table `buddyfill` (memory.c:269). -/
structure Env where
  mallocOk : Nat → Nat → Bool
  low : Int → Int → Bool
  gcmerge : Int → Int
  fill : Nat → Int

/-- memory.c:269 -/
def buddyfill (i : Nat) : Int := [0, 500, 300, 20, 15, 10, 0].getD i 0

/-- Outcome: normal, the error `E_ALLOCATION`, undefined behaviour, or out of fuel (a loop of the
program ran more than the given number of rounds). -/
inductive Res (α : Type) where
  | ok (a : α)
  | err
  | ub
  | fuel

/-- Sequencing. -/
def Res.bind {α β : Type} : Res α → (α → Res β) → Res β
  | .ok a, f => f a
  | .err, _ => .err
  | .ub, _ => .ub
  | .fuel, _ => .fuel

/-- Update of a function at one place. -/
def upd {α β : Type} [DecidableEq α] (f : α → β) (a : α) (v : β) : α → β :=
  fun x => if x = a then v else f x

/-! ### the root allocator -/

/-- memory.c:67-160 `newchunk`.  `none`: `malloc` failed (`ERR`).  Note that `buddy[k].bp` is
overwritten and `nextbcell` is 0: cells on that free list are lost until the next collection.
`ub`: with index `MAXBUDDY`, `s` is -1 after truncation to `int` (eus.c:476), so a chunk of 15 bytes
is allocated and written outside, and the sentinel `buddy[MAXBUDDY].bp` is overwritten. -/
def newchunk (env : Env) (k0 : Nat) (H : Heap) : Res (Heap × Option Nat) :=
  let k := if k0 < DEFAULTCHUNKINDEX then DEFAULTCHUNKINDEX else k0
  if k ≥ MAXBUDDY then .ub
  else if env.mallocOk H.chunks.length k then
    let c := H.chunks.length
    .ok ({ H with
      hdr := upd H.hdr (c, 0) ⟨k, true, false, false, false⟩
      chunks := (c, k) :: H.chunks
      free := upd H.free k [(c, 0)]
      count := upd H.count k (H.count k + 1)
      totalheap := H.totalheap + buddysize k
      freeheap := H.freeheap + buddysize k }, some k)
  else .ok (H, none)

/-- memory.c:160-212 `splitheap`; `ub`: the list is empty. -/
def splitheap (k : Nat) (H : Heap) : Res Heap :=
  if k < 2 then .ub else
  match H.free k with
  | [] => .ub
  | b1 :: bnext =>
    let b2 : Cell := (b1.1, b1.2 + buddysize (k - 1))
    let h1 := H.hdr b1
    let free1 := upd H.free k bnext
    let count1 := upd H.count k (H.count k - 1)
    let k2 := if k = 2 then 1 else k - 2
    let free2 := if k = 2 then upd free1 1 (b1 :: b2 :: free1 1)
      else upd (upd free1 (k - 1) (b1 :: free1 (k - 1))) (k - 2) (b2 :: free1 (k - 2))
    let count2 := if k = 2 then upd count1 1 (count1 1 + 2)
      else upd (upd count1 (k - 1) (count1 (k - 1) + 1)) (k - 2) (count1 (k - 2) + 1)
    let hdr1 := upd H.hdr b2 ⟨k2, true, h1.m, false, false⟩
    .ok { H with
      hdr := upd hdr1 b1 ⟨k - 1, false, h1.b, h1.mark, false⟩
      free := free2
      count := count2 }

/-- memory.c:229, 236, 285: the first index from `k` on with a free cell (`MAXBUDDY` is the
sentinel).  The first argument is `MAXBUDDY - k`. -/
def findFrom (H : Heap) : Nat → Nat → Nat
  | 0, k => k
  | n + 1, k => if H.free k = [] then findFrom H n (k + 1) else k

/-- The loop `while (buddy[k].bp==0) k++`. -/
def find (H : Heap) (k : Nat) : Nat := findFrom H (MAXBUDDY - k) k

/-! ### the collector: mark phase -/

/-- The pointers the collector follows (memory.c:470-491): all words of an `ELM_FIXED` object, the
elements (after the size) of a vector of pointers, none of closures and other objects. -/
def children (o : Obj) : List Cell :=
  match o.kind with
  | .fixed => o.words.filterMap id
  | .vector => o.words.tail.filterMap id
  | .other => []
  | .closure => []

/-- Setting the mark bit. -/
def markon (H : Heap) (c : Cell) : Heap := { H with hdr := upd H.hdr c { H.hdr c with mark := true } }

/-- memory.c:450-493 `mark`, with the stack `gcstack` as a list, its top first (the last word pushed
is popped first).  The doubling of the stack by `newgcstack` is not modelled. -/
def markLoop : Nat → Heap → List Cell → Res Heap
  | 0, _, _ => .fuel
  | _ + 1, H, [] => .ok H
  | n + 1, H, p :: st =>
    if (H.hdr p).mark then markLoop n H st
    else markLoop n (markon H p) ((children (H.obj p)).reverse ++ st)

/-- Calls of `mark` on several roots, one after the other. -/
def markRoots (n : Nat) : List Cell → Heap → Res Heap
  | [], H => .ok H
  | r :: rs, H => (markLoop n H [r]).bind (markRoots n rs)

/-- memory.c:565-575: the cells in the local free lists of a thread are marked, without following
them. -/
def markLocal (t : Nat) (H : Heap) : Heap :=
  [1, 2, 3, 4, 5].foldl (fun H j => (H.tb t j).foldl markon H) H

/-- memory.c:539-588: the part of `markall` for the threads, in order. -/
def markThreads (n : Nat) : List Nat → Heap → Res Heap
  | [], H => .ok H
  | t :: ts, H =>
    (markRoots n (H.stk t) H).bind fun H1 =>
    (markRoots n (H1.spec t ++ (H1.last t).toList) (markLocal t H1)).bind fun H2 =>
    markThreads n ts H2

/-- memory.c:520-594 `markall`. -/
def markall (n : Nat) (H : Heap) : Res Heap :=
  (markRoots n H.sys H).bind fun H1 =>
  (markThreads n (List.range MAXTHREAD) H1).bind fun H2 =>
  markRoots n H2.cls H2

/-! ### the collector: sweep phase -/

/-- eus.h:770 `nextbuddy`, within a chunk. -/
def nextbuddy (H : Heap) (c p : Nat) : Nat := p + buddysize (H.hdr (c, p)).bix

/-- memory.c:596-630 `reclaim` (closing of file streams aside). -/
def reclaim (H : Heap) (p : Cell) : Heap :=
  let k := (H.hdr p).bix
  { H with
    free := upd H.free k (p :: H.free k)
    count := upd H.count k (H.count k + 1)
    freeheap := H.freeheap + buddysize k }

/-- memory.c:650-655: `p` absorbs its buddy `np`. -/
def absorb (H : Heap) (p np : Cell) : Heap :=
  let h := H.hdr p
  { H with hdr := upd H.hdr p { h with b := h.m, m := (H.hdr np).m, bix := h.bix + 1 } }

/-- memory.c:632-662 `mergecell` in chunk `c`, from the test of its loop, with the variables `p` and
`np`. -/
def mergecell (c cbix : Nat) : Nat → Heap → Nat → Nat → Res (Heap × Nat)
  | 0, _, _, _ => .fuel
  | n + 1, H, p, np =>
    if (H.hdr (c, p)).b = false ∧ (H.hdr (c, p)).bix < cbix then
      if (H.hdr (c, np)).mark then .ok (H, np)
      else if (H.hdr (c, np)).nodispose then .ok (H, np)
      else
        (mergecell c cbix n H np (nextbuddy H c np)).bind fun r =>
          if (r.1.hdr (c, np)).b then mergecell c cbix n (absorb r.1 (c, p) (c, np)) p r.2
          else .ok (reclaim r.1 (c, np), r.2)
    else .ok (H, np)

/-- memory.c:664-707 `sweep`, from the test of its loop. -/
def sweepLoop (c cbix : Nat) (gcmerge : Int) : Nat → Heap → Nat → Res Heap
  | 0, _, _ => .fuel
  | n + 1, H, p =>
    if p < buddysize cbix then
      let h := H.hdr (c, p)
      if h.mark then
        sweepLoop c cbix gcmerge n { H with hdr := upd H.hdr (c, p) { h with mark := false } }
          (p + buddysize h.bix)
      else if h.nodispose then
        sweepLoop c cbix gcmerge n { H with disposed := H.disposed ++ [(c, p)] } (nextbuddy H c p)
      else if gcmerge > H.freeheap then
        sweepLoop c cbix gcmerge n (reclaim H (c, p)) (nextbuddy H c p)
      else
        (mergecell c cbix (buddysize cbix + 1) H p (nextbuddy H c p)).bind fun r =>
          sweepLoop c cbix gcmerge n (reclaim r.1 (c, p)) r.2
    else .ok H

/-- memory.c:739: all chunks, latest first. -/
def sweepChunks (gcmerge : Int) : List (Nat × Nat) → Heap → Res Heap
  | [], H => .ok H
  | (c, k) :: cs, H =>
    (sweepLoop c k gcmerge (buddysize k + 1) H 0).bind (sweepChunks gcmerge cs)

/-- memory.c:709-720 (`call_disposers`): `nodispose` is cleared before the method is called.  The list
holds at most `MAXDISPOSE` objects. -/
def clearDispose (H : Heap) : Heap :=
  (H.disposed.take 256).foldl (fun H p => { H with hdr := upd H.hdr p { H.hdr p with nodispose := false } }) H

/-- memory.c:722-742 `sweepall`.  Note that the loop of line 734 leaves `buddy[MAXBUDDY-1]` alone. -/
def sweepall (env : Env) (H : Heap) : Res Heap :=
  let live := fun c : Cell => (H.hdr c).mark || (H.hdr c).nodispose
  let H1 := { H with
    free := fun i => if i < MAXBUDDY - 1 then [] else H.free i
    count := fun i => if i < MAXBUDDY - 1 then 0 else H.count i
    freeheap := 0
    disposed := [] }
  (sweepChunks (env.gcmerge H.totalheap) H.chunks H1).bind fun H2 =>
    .ok (clearDispose { H2 with used := H2.used.filter fun u => live u.1 })

/-- memory.c:781-830 `gc`. -/
def gc (env : Env) (n : Nat) (H : Heap) : Res Heap := (markall n H).bind (sweepall env)

/-! ### allocation -/

/-- memory.c:234-235, 292-297: `while (freeheap < ...) newchunk(req)`.  The flag says whether a failure
of `malloc` is an error (line 294) or ignored (line 235).  The second result is the value of the last
`newchunk`. -/
def growLoop (env : Env) (k : Nat) (check : Bool) : Nat → Heap → Option Nat → Res (Heap × Option Nat)
  | 0, _, _ => .fuel
  | n + 1, H, j =>
    if env.low H.freeheap H.totalheap then
      (newchunk env k H).bind fun r =>
        match r.2 with
        | none => if check then .err else growLoop env k check n r.1 j
        | some j' => growLoop env k check n r.1 (some j')
    else .ok (H, j)

/-- memory.c:245: `while (req<k) { splitheap(k--,buddy); if (k>req) k--;}` -/
def splitDown (req : Nat) : Nat → Nat → Heap → Res Heap
  | 0, _, _ => .fuel
  | n + 1, k, H =>
    if req < k then
      (splitheap k H).bind fun H1 =>
        if k - 1 > req then splitDown req n (k - 2) H1 else splitDown req n (k - 1) H1
    else .ok H

/-- memory.c:227-243: finding a cell of index `req` or more. -/
def bigFind (env : Env) (n req : Nat) (H : Heap) : Res (Heap × Nat) :=
  let k := find H req
  if k ≥ MAXBUDDY then
    (if (buddysize req : Int) < H.totalheap / 8 then
      (gc env n H).bind fun H1 =>
      (growLoop env req false n H1 none).bind fun r => .ok (r.1, find r.1 req)
    else .ok (H, k)).bind fun r =>
      if r.2 ≥ MAXBUDDY then
        (newchunk env req r.1).bind fun r' =>
          match r'.2 with
          | none => .err
          | some k' => .ok (r'.1, k')
      else .ok r
  else .ok (H, k)

/-- memory.c:214-261 `root_alloc_big`: the new heap and the cell. -/
def root_alloc_big (env : Env) (n t req : Nat) (H : Heap) : Res (Heap × Cell) :=
  (bigFind env n req H).bind fun r =>
  (splitDown req (MAXBUDDY + 1) r.2 r.1).bind fun H2 =>
  match H2.free req with
  | [] => .ub
  | b :: b2 =>
    .ok ({ H2 with
      last := upd H2.last t (some b)
      free := upd H2.free req b2
      count := upd H2.count req (H2.count req - 1)
      freeheap := H2.freeheap - buddysize req }, b)

/-- memory.c:281-306: `while (buddy[i].count < k)`.  The flag in the result says `goto alloc_again`. -/
def needLoop (env : Env) (i : Nat) (k : Int) (collected : Bool) : Nat → Heap → Res (Heap × Bool)
  | 0, _ => .fuel
  | n + 1, H =>
    if H.count i < k then
      let j := find H (i + 1)
      if j ≥ MAXBUDDY then
        if !collected then (gc env n H).bind fun H1 => .ok (H1, true)
        else
          (growLoop env DEFAULTCHUNKINDEX true n H none).bind fun r =>
            match r.2 with
            | some j' => (splitheap j' r.1).bind (needLoop env i k collected n)
            | none =>
              (newchunk env DEFAULTCHUNKINDEX r.1).bind fun r' =>
                match r'.2 with
                | none => .err
                | some j' => (splitheap j' r'.1).bind (needLoop env i k collected n)
      else (splitheap j H).bind (needLoop env i k collected n)
    else .ok (H, false)

/-- memory.c:308-322: `k` cells go from the root list to the list of the thread; `ub`: the root list
is too short. -/
def transfer (env : Env) (t i : Nat) (k : Int) (H : Heap) : Res Heap :=
  if k > 0 then
    if (H.free i).length < k.toNat then .ub
    else .ok { H with
      tb := upd H.tb t (upd (H.tb t) i ((H.free i).take k.toNat ++ H.tb t i))
      tcount := upd H.tcount t (upd (H.tcount t) i (env.fill i))
      free := upd H.free i ((H.free i).drop k.toNat)
      count := upd H.count i (H.count i - k)
      freeheap := H.freeheap - buddysize i * k }
  else .ok H

/-- memory.c:278-322: the loop over the indices; the flag in the result says `goto alloc_again`. -/
def smallFrom (env : Env) (t : Nat) (collected : Bool) (n : Nat) : List Nat → Heap → Res (Heap × Bool)
  | [], H => .ok (H, false)
  | i :: is, H =>
    let k := env.fill i - H.tcount t i
    (needLoop env i k collected n H).bind fun r =>
      if r.2 then .ok r
      else (transfer env t i k r.1).bind (smallFrom env t collected n is)

/-- memory.c:263-326 `root_alloc_small`. -/
def root_alloc_small (env : Env) (t n : Nat) (H : Heap) : Res Heap :=
  (smallFrom env t false n [1, 2, 3, 4, 5] H).bind fun r =>
    if r.2 then (smallFrom env t true n [1, 2, 3, 4, 5] r.1).bind fun r' => .ok r'.1
    else .ok r.1

/-- memory.c:348: `while (buddysize[req]<ss) req++`; the first argument is `MAXBUDDY - req`
(`buddysize[MAXBUDDY]` is larger than any request). -/
def reqIndex (ss : Nat) : Nat → Nat → Nat
  | 0, req => req
  | n + 1, req => if buddysize req < ss then reqIndex ss n (req + 1) else req

/-- memory.c:329-400 `gc_alloc(s,e,cid,nils)` by thread `t`. -/
def gc_alloc (env : Env) (n t s : Nat) (kind : Kind) (H : Heap) : Res (Heap × Cell) :=
  let req := reqIndex (max 3 (s + 1)) (MAXBUDDY - 1) 1
  (if req ≥ MAXTHRBUDDY then root_alloc_big env n t req H
   else
    (if H.tcount t req = 0 then root_alloc_small env t n H else .ok H).bind fun H1 =>
    match H1.tb t req with
    | [] => .ub
    | b :: rest =>
      .ok ({ H1 with
        last := upd H1.last t (some b)
        tb := upd H1.tb t (upd (H1.tb t) req rest)
        tcount := upd H1.tcount t (upd (H1.tcount t) req (H1.tcount t req - 1)) }, b)).bind fun r =>
  let H2 := r.1
  let b := r.2
  .ok ({ H2 with
    hdr := upd H2.hdr b { H2.hdr b with nodispose := false }
    obj := upd H2.obj b ⟨kind, List.replicate (buddysize req - 1) none⟩
    used := (b, s) :: H2.used }, b)

/-! ### the program using the memory -/

/-- eus.c:466-487 `initmemory`: no cells, and two chunks. -/
def empty : Heap where
  hdr := fun _ => ⟨0, false, false, false, false⟩
  chunks := []
  free := fun _ => []
  count := fun _ => 0
  tb := fun _ _ => []
  tcount := fun _ _ => 0
  freeheap := 0
  totalheap := 0
  obj := fun _ => ⟨.other, []⟩
  sys := []
  stk := fun _ => []
  spec := fun _ => []
  last := fun _ => none
  cls := []
  disposed := []
  used := []

/-- eus.c:481-483. -/
def initmemory (env : Env) : Res Heap :=
  (newchunk env 20 empty).bind fun r => (newchunk env 18 r.1).bind fun r' => .ok r'.1

/-- What a thread of the program does with memory: allocate, store a pointer or something else in a
word of an object, change its roots, set a disposal hook, collect. -/
inductive Op where
  | alloc (t s : Nat) (kind : Kind)
  | store (c : Cell) (i : Nat) (v : Option Cell)
  | setsys (l : List Cell)
  | setstk (t : Nat) (l : List Cell)
  | setspec (t : Nat) (l : List Cell)
  | setcls (l : List Cell)
  | hook (c : Cell) (on : Bool)
  | collect

/-- The effect of an operation; `n` bounds the loops. -/
def step (env : Env) (n : Nat) (H : Heap) : Op → Res Heap
  | .alloc t s kind => (gc_alloc env n t s kind H).bind fun r => .ok r.1
  | .store c i v => .ok { H with obj := upd H.obj c { H.obj c with words := (H.obj c).words.set i v } }
  | .setsys l => .ok { H with sys := l }
  | .setstk t l => .ok { H with stk := upd H.stk t l }
  | .setspec t l => .ok { H with spec := upd H.spec t l }
  | .setcls l => .ok { H with cls := l }
  | .hook c on => .ok { H with hdr := upd H.hdr c { H.hdr c with nodispose := on } }
  | .collect => gc env n H

end Eus.Mem
