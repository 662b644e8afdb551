/-!
# The concurrent collector

Model of the snapshot-at-the-beginning garbage collector that `Makefile.rgc`
builds: `lisp/c/collector.c`, `lisp/c/collector.h` and the end of `rgc_alloc`
in `lisp/c/rgc_mem.c`, with the options of the default line of `Makefile.rgc`
(polling, separate collector thread, no return barrier, mark bits in the
headers).

The unit of interleaving is a read or write of a shared word, or a section
under `collector_lock` or `pstack_lock`; any thread may take the next step.

Simplifications, all stated where they are made:
* cells are numbered in address order and keep their sizes: splitting and
  merging of buddies (`mergecell`) is the subject of `Verif.Mem`;
* the mark stacks do not overflow;
* closures are objects without pointer slots, as for the marker
  (collector.c:183-194);
* threads are neither created nor deleted during a run.
-/

namespace Eus.Rgc

/-- Number of a cell, in address order. -/
notation "Addr" => Nat
/-- Number of a thread: an index of `euscontexts`. -/
notation "Tid" => Nat

/-- `gc_phase` (collector.h: `PHASE_NOGC` … `PHASE_ROOT_REM`).  `fin` is
`PHASE_MARK` after the collector has found `pstack` empty and released
`pstack_lock`, before `go_on_to_sweep_phase` (collector.c:292-297). -/
inductive Phase where
  | nogc | prologue | core | rem | mark | fin | sweep | epilogue
deriving DecidableEq

/-- `gc_phase >= PHASE_MARK` (collector.h:371, rgc_mem.c:422). -/
def Phase.high : Phase → Bool
  | .core | .rem | .mark | .fin => true
  | _ => false

/-- What `rgc_alloc` found in `gc_phase` (rgc_mem.c:420-436): at least
`PHASE_MARK`, `PHASE_SWEEP`, or less. -/
inductive Saw where
  | high | sweep | low
deriving DecidableEq

/-- The test of rgc_mem.c:420-436. -/
def saw (p : Phase) : Saw :=
  if p.high then .high else if p = .sweep then .sweep else .low

/-- Where a thread is inside `pointer_update` (collector.h:369-380) or
`rgc_alloc`.  `checked o i v f`: it has evaluated `gc_phase >= PHASE_MARK` to
`f` and goes on to store `v` in slot `i` of `o`; `pushed o i v`: only the
assignment is left; `taken b w`: it has taken the free cell `b` off a free list
and seen `w` in `gc_phase`. -/
inductive Pend where
  | none
  | checked (o : Addr) (i : Nat) (v : Option Addr) (f : Bool)
  | pushed (o : Addr) (i : Nat) (v : Option Addr)
  | taken (b : Addr) (w : Saw)
deriving DecidableEq

/-- A thread computes, waits in `scan_roots` for the root scan
(collector.c:1053-1092), or is between `enter_gc_region` and `exit_gc_region`
(collector.c:990-1034). -/
inductive Stat where
  | run | point | region
deriving DecidableEq

/-- Constants of a run: number of threads, number of cells, the global roots
(`sysobj`, `pkglist`, `rgc_classtable`, collector.c:532-538), the number of the
chunk of each cell and of the last chunk of `chunklist` (sorted by address,
memory.c:108-120). -/
structure Params where
  nT : Nat
  n : Nat
  roots : List Addr
  chunk : Addr → Nat
  last : Nat

/-- The state.  `live a`: `cix` of the cell is not -1; `size`/`fld`: the
pointer slots (`none` is an immediate or NULL); `mark`: the mark bit; `hook`:
the bit `nodispose`; `cstk`: `collector_stack`; `scan = some (p, i)`: the loop
of collector.c:209-213 is about to read slot `i` of `p`; `gs t`: `ctx->gcstack`;
`pstk`: `pstack`; `cur`, `chk`: `marking_state`; `stk t`: the roots of a thread
(Lisp stack, `threadobj`, `specials`, `lastalloc`, collector.c:551-618); `k`:
loop index of `do_scan_roots`; `pos`, `chp`: where the sweeper is; `savedp`:
`sweeping_state.p`, which is only written when a portion of work ends
(collector.c:410). -/
structure St where
  phase : Phase
  live : Addr → Bool
  size : Addr → Nat
  fld : Addr → Nat → Option Addr
  mark : Addr → Bool
  hook : Addr → Bool
  cstk : List Addr
  scan : Option (Addr × Nat)
  gs : Tid → List Addr
  pstk : List Addr
  cur : Nat
  chk : Bool
  stk : Tid → List Addr
  pend : Tid → Pend
  stat : Tid → Stat
  k : Nat
  pos : Addr
  chp : Nat
  savedp : Addr

/-- Change one entry of a table. -/
def upd {α : Type} (f : Nat → α) (i : Nat) (v : α) : Nat → α :=
  fun j => if j = i then v else f j

/-- One step of one thread, or of the collector. -/
inductive Act where
  /-- put the value of slot `i` of `o` on the stack -/
  | load (t : Tid) (o : Addr) (i : Nat)
  /-- put a global root on the stack -/
  | loadRoot (t : Tid) (r : Addr)
  /-- pop the stack -/
  | drop (t : Tid)
  | storeCheck (t : Tid) (o : Addr) (i : Nat) (v : Option Addr)
  | storePush (t : Tid)
  | storeWrite (t : Tid)
  | allocTake (t : Tid) (b : Addr)
  | allocEnd (t : Tid) (sz : Nat)
  | setHook (t : Tid) (o : Addr) (f : Bool)
  | request (t : Tid)
  | arrive (t : Tid)
  | enter (t : Tid)
  | exit (t : Tid)
  | scanStart
  | scanThread
  | scanEnd
  | toMark
  | markPop
  | markSlot
  | markRoot
  | markPstk
  | markFin
  | toSweep
  | sweepOne
  | sweepPause
  | sweepEnd
  | finish
deriving DecidableEq

/-- The thread exists, computes and is not inside `pointer_update` or
`rgc_alloc`. -/
def idle (P : Params) (s : St) (t : Tid) : Bool :=
  decide (t < P.nT) && decide (s.stat t = .run) && decide (s.pend t = .none)

/-- Value operands come from the thread's own stack; `none` is an immediate. -/
def has (s : St) (t : Tid) : Option Addr → Bool
  | none => true
  | some a => (s.stk t).contains a

/-- `pointerpush` (collector.h): immediates on `pstack` are skipped by the
marker (collector.c:164), so they are not put there. -/
def push1 (l : List Addr) : Option Addr → List Addr
  | none => l
  | some a => a :: l

/-- The mark bit that `rgc_alloc` leaves on the new cell `b`
(rgc_mem.c:420-456).  Seen `PHASE_MARK` or more: `markon`, then `markoff` if
the phase has gone below `PHASE_MARK` and `sweeping_state.p > b`.  Seen
`PHASE_SWEEP`: nothing if `b` is below the chunk being swept; otherwise
`markon`, and only if `b <= chp->nextchunk` — false for the last chunk, whose
`nextchunk` is NULL — `markoff` when `b < sweeping_state.p`.  (`b <=
chp->nextchunk` for cells is "in the same chunk or below".) -/
def allocMark (P : Params) (s : St) (b : Addr) : Saw → Bool
  | .high => if !s.phase.high && decide (b < s.savedp) then false else true
  | .sweep =>
    if P.chunk b < s.chp then s.mark b
    else if s.chp = P.last then true
    else if P.chunk b ≤ s.chp ∧ b < s.savedp then false else true
  | .low => s.mark b

/-- `lock_collector` in `rgc_alloc`: while the phase is `PHASE_SWEEP` the lock is
free only between two portions of sweeping, when `sweeping_state.p` has been
saved (collector.c:409-413). -/
def unlocked (s : St) : Bool :=
  decide (s.phase ≠ .sweep) || decide (s.savedp = s.pos)

/-- `sweeping_state.chp` when the sweeper has come to `p`: the chunk of `p`;
past the end it stays at the last one (collector.c:456-466). -/
def nextChp (P : Params) (p : Addr) (c : Nat) : Nat := if p < P.n then P.chunk p else c

/-- The loop of `scan_roots`/`do_scan_roots`: `gc_point_sync + gc_region_sync`
has reached `active_mutator_num` (collector.c:763, 1003, 1070). -/
def allStopped (P : Params) (s : St) : Bool :=
  (List.range P.nT).all fun t => decide (s.stat t ≠ .run)

/-- The next state, or `none` where the step is impossible. -/
def act (P : Params) (s : St) : Act → Option St
  | .load t o i =>
    if idle P s t && (s.stk t).contains o && decide (i < s.size o) then
      some { s with stk := upd s.stk t (push1 (s.stk t) (s.fld o i)) }
    else none
  | .loadRoot t r =>
    if idle P s t && P.roots.contains r then
      some { s with stk := upd s.stk t (r :: s.stk t) }
    else none
  | .drop t =>
    if idle P s t then some { s with stk := upd s.stk t (s.stk t).tail } else none
  -- collector.h:371
  | .storeCheck t o i v =>
    if idle P s t && (s.stk t).contains o && decide (i < s.size o) && has s t v then
      some { s with pend := upd s.pend t (.checked o i v s.phase.high) }
    else none
  -- collector.h:372-376
  | .storePush t =>
    match s.pend t with
    | .checked o i v f =>
      if t < P.nT then
        some { s with
          pstk := if f then push1 s.pstk (s.fld o i) else s.pstk
          pend := upd s.pend t (.pushed o i v) }
      else none
    | _ => none
  -- collector.h:378
  | .storeWrite t =>
    match s.pend t with
    | .pushed o i v =>
      if t < P.nT then
        some { s with
          fld := upd s.fld o (upd (s.fld o) i v)
          pend := upd s.pend t .none }
      else none
    | _ => none
  -- rgc_mem.c:380-396, 420
  | .allocTake t b =>
    if idle P s t && decide (b < P.n) && !s.live b &&
        (List.range P.nT).all (fun u => match s.pend u with
          | .taken c _ => decide (c ≠ b) | _ => true) then
      some { s with pend := upd s.pend t (.taken b (saw s.phase)) }
    else none
  -- rgc_mem.c:420-482
  | .allocEnd t sz =>
    match s.pend t with
    | .taken b w =>
      if t < P.nT ∧ unlocked s then
        some { s with
          live := upd s.live b true
          size := upd s.size b sz
          fld := upd s.fld b (fun _ => none)
          mark := upd s.mark b (allocMark P s b w)
          hook := upd s.hook b false
          stk := upd s.stk t (b :: s.stk t)
          pend := upd s.pend t .none }
      else none
    | _ => none
  -- sysfunc.c:85-95
  | .setHook t o f =>
    if idle P s t && (s.stk t).contains o then
      some { s with hook := upd s.hook o f }
    else none
  -- notify_gc, collector.c:731-760 (called by the thread that asks, rgc_mem.c:41)
  | .request t =>
    if idle P s t && decide (s.phase = .nogc) then
      some { s with
        phase := .prologue, chk := false, cur := 0
        stat := upd s.stat t .point }
    else none
  -- scan_roots, collector.c:1064-1092, while gc_request_flag is set
  | .arrive t =>
    if idle P s t && (decide (s.phase = .prologue) || decide (s.phase = .core)) then
      some { s with stat := upd s.stat t .point }
    else none
  -- enter_gc_region, collector.c:990-1013
  | .enter t =>
    if idle P s t then some { s with stat := upd s.stat t .region } else none
  -- exit_gc_region, collector.c:1015-1034: `stat & 0x2 == mut_stat_phase` is
  -- `stat & (0x2 == mut_stat_phase)`, and `stat` is always 0, so it never waits
  | .exit t =>
    if t < P.nT ∧ s.stat t = .region then
      some { s with stat := upd s.stat t .run }
    else none
  -- do_scan_roots, collector.c:790-794
  | .scanStart =>
    if s.phase = .prologue ∧ allStopped P s then
      some { s with phase := .core, pstk := P.roots ++ s.pstk, k := 0 }
    else none
  -- collector.c:795-804
  | .scanThread =>
    if s.phase = .core ∧ s.k < P.nT then
      some { s with gs := upd s.gs s.k (s.stk s.k ++ s.gs s.k), k := s.k + 1 }
    else none
  -- collector.c:808-813
  | .scanEnd =>
    if s.phase = .core ∧ s.k = P.nT then
      some { s with
        phase := .rem
        stat := fun t => if s.stat t = .point then .run else s.stat t }
    else none
  -- do_a_little_gc_work, collector.c:893-898
  | .toMark => if s.phase = .rem then some { s with phase := .mark } else none
  -- mark_a_little, collector.c:155-181
  | .markPop =>
    if s.phase = .mark ∧ s.scan = none then
      match s.cstk with
      | [] => none
      | p :: r =>
        if s.mark p then some { s with cstk := r }
        else some { s with cstk := r, mark := upd s.mark p true, scan := some (p, 0) }
    else none
  -- collector.c:209-213, 224-228
  | .markSlot =>
    if s.phase = .mark then
      match s.scan with
      | none => none
      | some (p, i) =>
        if i < s.size p then
          some { s with cstk := push1 s.cstk (s.fld p i), scan := some (p, i + 1) }
        else some { s with scan := none }
    else none
  -- collector.c:236-262
  | .markRoot =>
    if s.phase = .mark ∧ s.scan = none ∧ s.cstk = [] ∧ s.chk = false then
      if s.cur < P.nT then
        match s.gs s.cur with
        | [] => some { s with cur := s.cur + 1 }
        | p :: r => some { s with cstk := [p], gs := upd s.gs s.cur r }
      else some { s with chk := true }
    else none
  -- collector.c:264-291
  | .markPstk =>
    if s.phase = .mark ∧ s.scan = none ∧ s.cstk = [] ∧ s.chk = true then
      match s.pstk with
      | [] => none
      | p :: r => some { s with cstk := [p], pstk := r }
    else none
  -- collector.c:264-293, pstack empty
  | .markFin =>
    if s.phase = .mark ∧ s.scan = none ∧ s.cstk = [] ∧ s.chk = true ∧ s.pstk = [] then
      some { s with phase := .fin }
    else none
  -- go_on_to_sweep_phase, collector.c:118-133
  | .toSweep =>
    if s.phase = .fin then
      some { s with phase := .sweep, pos := 0, savedp := 0, chp := P.chunk 0 }
    else none
  -- sweep_a_little, collector.c:405-455; an unmarked cell with `nodispose` is
  -- skipped, and the cell after it reclaimed (collector.c:433-451)
  | .sweepOne =>
    if s.phase = .sweep ∧ s.pos < P.n then
      let p := s.pos
      if !s.live p then some { s with pos := p + 1, chp := nextChp P (p + 1) s.chp }
      else if s.mark p then
        some { s with mark := upd s.mark p false, pos := p + 1, chp := nextChp P (p + 1) s.chp }
      else if s.hook p then
        some { s with live := upd s.live (p + 1) false, pos := p + 2, chp := nextChp P (p + 2) s.chp }
      else some { s with live := upd s.live p false, pos := p + 1, chp := nextChp P (p + 1) s.chp }
    else none
  -- collector.c:408-413
  | .sweepPause =>
    if s.phase = .sweep then some { s with savedp := s.pos } else none
  -- collector.c:457-463
  | .sweepEnd =>
    if s.phase = .sweep ∧ P.n ≤ s.pos then some { s with phase := .epilogue } else none
  -- do_gc_epilogue, collector.c:850-884
  | .finish => if s.phase = .epilogue then some { s with phase := .nogc } else none

/-- A history: the steps in the order they happened. -/
def run (P : Params) : St → List Act → Option St
  | s, [] => some s
  | s, a :: as => (act P s a).bind fun s' => run P s' as

end Eus.Rgc
