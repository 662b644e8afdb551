import Verif.Par.Model
set_option autoImplicit false
/-
The thread pool: lisp/c/mthread.c:30-206.

A call of `thread` or `thread-no-wait`, from its beginning to the end of `wait-thread`, is one process, named by a number; so a program that makes many calls is many
processes, and it does not matter which thread of the pool or which other thread runs them.  The function and its arguments are represented by the name of the call.
-/
namespace Eus.Par

/-- Where a call is. -/
inductive CPc where
  /-- not made yet -/
  | new
  /-- `get_free_thread`: before `sema_wait(&free_thread_sem)`; before taking a port from the list -/
  | a0
  | a1
  /-- `AFUNCALL`: before storing the requester; the function and arguments; the flag `wait`; before posting `reqsem`; before waiting for `runsem` -/
  | a2 (p : Nat)
  | a3 (p : Nat)
  | a4 (p : Nat)
  | a5 (p : Nat)
  | a6 (p : Nat)
  /-- `thread` has returned the port -/
  | h (p : Nat)
  /-- `WAIT_AFUNCALL`: before testing `wait`; before waiting for `donesem`; before reading the result; before posting `reqsem` -/
  | w0 (p : Nat)
  | w1 (p : Nat)
  | w2 (p : Nat)
  | w3 (p v : Nat)
  /-- the value of `wait-thread`, none for `thread-no-wait` -/
  | fin (v : Option Nat)
  /-- the error "wait thread for idle thread" -/
  | err
deriving DecidableEq, Repr

/-- Where the thread of a port is (`thread_main`): before putting the port into the list; before posting `free_thread_sem`; before waiting for
`reqsem`; before copying the requester's special bindings; before posting `runsem`; before reading the function; running it; before storing the result; before testing
`wait`; before posting `donesem`; before waiting for the acknowledgement. -/
inductive TPc where
  | t0
  | t1
  | t2
  | t3
  | t4
  | t5
  | t6 (c : Nat)
  | t7 (v : Nat)
  | t8
  | t9
  | t10
deriving DecidableEq, Repr

/-- eus.h:357-369 and mthread.c:11-13.  History: `bad`: a port has been taken from an empty list; `owner`: the call a port has been taken for, until it
is put into the list again; `poppers`: the calls that are about to take a port; `posters`: the
ports that have been put into the list and not yet announced; `ran`: the functions run and their values; `late`: the calls whose requester was no longer waiting when its
special bindings were copied. -/
structure Pool where
  freeSem : Nat
  free : List Nat
  req : Nat → Nat
  run : Nat → Nat
  done : Nat → Nat
  requester : Nat → Nat
  func : Nat → Nat
  wait : Nat → Bool
  result : Nat → Nat
  tpc : Nat → TPc
  cpc : Nat → CPc
  bad : Bool
  owner : Nat → Option Nat
  poppers : List Nat
  posters : List Nat
  ran : List (Nat × Nat)
  late : List Nat

/-- No thread is in the list, no call has been made. -/
def Pool.init : Pool :=
  ⟨0, [], fun _ => 0, fun _ => 0, fun _ => 0, fun _ => 0, fun _ => 0, fun _ => false, fun _ => 0, fun _ => .t0, fun _ => .new, false, fun _ => none, [], [], [], []⟩

/-- What happens: a call is made; it goes on; a thread of the pool goes on, and if it is running a function, the function returns v (0 when it is left by an
error, mthread.c:85-87); `wait-thread` is called with the port the call has returned; a program that has had its result calls `wait-thread` again with a port. -/
inductive Ev where
  | call (c : Nat)
  | go (c : Nat)
  | thr (p v : Nat)
  | wait (c : Nat)
  | again (c p : Nat)
deriving DecidableEq, Repr

/-- mthread.c:30-37 `get_free_thread`, 149-170 `AFUNCALL`, 172-190 `AFUNCALL_NO_WAIT`, 192-206 `WAIT_AFUNCALL`; `waits c`: the call is one of `thread`, not `thread-no-wait`. -/
def Pool.callStep (waits : Nat → Bool) (c : Nat) (s : Pool) : Option Pool :=
  match s.cpc c with
  | .new | .h _ | .fin _ | .err => none
  | .a0 => if s.freeSem > 0 then some { s with freeSem := s.freeSem - 1, cpc := upd s.cpc c .a1, poppers := c :: s.poppers } else none
  | .a1 =>
    match s.free with
    | [] => some { s with bad := true }
    | p :: ps => some { s with free := ps, cpc := upd s.cpc c (.a2 p), poppers := s.poppers.erase c, owner := upd s.owner p (some c) }
  | .a2 p => some { s with requester := upd s.requester p c, cpc := upd s.cpc c (.a3 p) }
  | .a3 p => some { s with func := upd s.func p c, cpc := upd s.cpc c (.a4 p) }
  | .a4 p => some { s with wait := upd s.wait p (waits c), cpc := upd s.cpc c (.a5 p) }
  | .a5 p => some { s with req := upd s.req p (s.req p + 1), cpc := upd s.cpc c (.a6 p) }
  | .a6 p => if s.run p > 0 then some { s with run := upd s.run p (s.run p - 1), cpc := upd s.cpc c (if waits c then .h p else .fin none) } else none
  | .w0 p => some { s with cpc := upd s.cpc c (if s.wait p then .w1 p else .err) }
  | .w1 p => if s.done p > 0 then some { s with done := upd s.done p (s.done p - 1), cpc := upd s.cpc c (.w2 p) } else none
  | .w2 p => some { s with cpc := upd s.cpc c (.w3 p (s.result p)) }
  | .w3 p v => some { s with req := upd s.req p (s.req p + 1), cpc := upd s.cpc c (.fin (some v)) }

/-- mthread.c:41-101 `thread_main`.  The list is changed under `free_thread_lock`. -/
def Pool.thrStep (p v : Nat) (s : Pool) : Option Pool :=
  match s.tpc p with
  | .t0 => some { s with free := p :: s.free, tpc := upd s.tpc p .t1, posters := p :: s.posters, owner := upd s.owner p none }
  | .t1 => some { s with freeSem := s.freeSem + 1, tpc := upd s.tpc p .t2, posters := s.posters.erase p }
  | .t2 => if s.req p > 0 then some { s with req := upd s.req p (s.req p - 1), tpc := upd s.tpc p .t3 } else none
  | .t3 => some { s with tpc := upd s.tpc p .t4, late := if s.cpc (s.requester p) = .a6 p then s.late else s.late ++ [s.requester p] }
  | .t4 => some { s with run := upd s.run p (s.run p + 1), tpc := upd s.tpc p .t5 }
  | .t5 => some { s with tpc := upd s.tpc p (.t6 (s.func p)) }
  | .t6 c => some { s with tpc := upd s.tpc p (.t7 v), ran := s.ran ++ [(c, v)] }
  | .t7 w => some { s with result := upd s.result p w, tpc := upd s.tpc p .t8 }
  | .t8 => some { s with tpc := upd s.tpc p (if s.wait p then .t9 else .t0) }
  | .t9 => some { s with done := upd s.done p (s.done p + 1), tpc := upd s.tpc p .t10 }
  | .t10 => if s.req p > 0 then some { s with req := upd s.req p (s.req p - 1), tpc := upd s.tpc p .t0 } else none

def Pool.step (waits : Nat → Bool) : Ev → Pool → Option Pool
  | .call c, s => if s.cpc c = .new then some { s with cpc := upd s.cpc c .a0 } else none
  | .go c, s => s.callStep waits c
  | .thr p v, s => s.thrStep p v
  | .wait c, s =>
    match s.cpc c with
    | .h p => some { s with cpc := upd s.cpc c (.w0 p) }
    | _ => none
  | .again c p, s =>
    match s.cpc c with
    | .fin _ => some { s with cpc := upd s.cpc c (.w0 p) }
    | _ => none

def Pool.exec (waits : Nat → Bool) : List Ev → Pool → Option Pool
  | [], s => some s
  | e :: es, s => (s.step waits e).bind (Pool.exec waits es)

end Eus.Par
