set_option autoImplicit false
/-
Threads: lisp/c/mthread.c, lisp/c/pthreads.c:124-154, lisp/l/par.l, lisp/l/cyclic.l.

Each definition below is a program counter machine: a state, and what one step of one thread does (`none`: the thread has to wait).  Any
number of threads, named by natural numbers; a schedule is the list of the threads that move, one after the other.  The steps are the reads
and writes of shared variables and the operations on semaphores, locks and condition variables; these operations are atomic (pthreads.c guards a
semaphore with a lock, and its waiting loop tests the count again).  Values are natural numbers.
-/
namespace Eus.Par

/-- One thread's entry of a table changed. -/
def upd {α : Type} (f : Nat → α) (t : Nat) (x : α) : Nat → α := fun u => if u = t then x else f u

/-! ### The memory port, par.l:73-89 -/

/-- Where a thread is: outside; in `:read` before `sema-wait`, before `buf`, before `sema-post`; in `:write` likewise. -/
inductive PPc where
  | out
  | r0
  | r1
  | r2 (v : Nat)
  | w0 (v : Nat)
  | w1 (v : Nat)
  | w2
deriving DecidableEq, Repr

/-- The port.  The last three fields are history: what has been stored into the port and by whom, what has been taken out of it, and what the calls of
`:read` have returned, in order. -/
structure Port where
  semIn : Nat
  semOut : Nat
  buf : Nat
  pc : Nat → PPc
  written : List (Nat × Nat)
  taken : List Nat
  returned : List (Nat × Nat)

/-- par.l:84-89 `:init`; nobody uses the port yet. -/
def Port.init : Port := ⟨0, 1, 0, fun _ => .out, [], [], []⟩

/-- What happens: a thread calls `:read` or `:write`, or goes on with its call. -/
inductive PEv where
  | read (t : Nat)
  | write (t v : Nat)
  | go (t : Nat)
deriving DecidableEq, Repr

/-- par.l:77-83 `:read`, `:write` -/
def Port.step : PEv → Port → Option Port
  | .read t, s => if s.pc t = .out then some { s with pc := upd s.pc t .r0 } else none
  | .write t v, s => if s.pc t = .out then some { s with pc := upd s.pc t (.w0 v) } else none
  | .go t, s =>
    match s.pc t with
    | .out => none
    | .r0 => if s.semIn > 0 then some { s with semIn := s.semIn - 1, pc := upd s.pc t .r1 } else none
    | .r1 => some { s with pc := upd s.pc t (.r2 s.buf), taken := s.taken ++ [s.buf] }
    | .r2 v => some { s with semOut := s.semOut + 1, pc := upd s.pc t .out, returned := s.returned ++ [(t, v)] }
    | .w0 v => if s.semOut > 0 then some { s with semOut := s.semOut - 1, pc := upd s.pc t (.w1 v) } else none
    | .w1 v => some { s with buf := v, pc := upd s.pc t .w2, written := s.written ++ [(t, v)] }
    | .w2 => some { s with semIn := s.semIn + 1, pc := upd s.pc t .out }

def Port.run : List PEv → Port → Option Port
  | [], s => some s
  | e :: es, s => (s.step e).bind (Port.run es)

/-! ### The barrier, par.l:36-71 -/

/-- Where a thread is: outside; in `:wait` before the lock; holding the lock, before reading the count; having read it; waiting for the condition; woken up, before the
lock is taken again. -/
inductive BPc where
  | out
  | lock
  | count
  | got (c : Nat)
  | wait
  | wake
deriving DecidableEq, Repr

/-- The barrier: `n-threads`, `count`, who holds the lock, who waits for the condition.  History: how many threads have arrived, for every thread the number of its last arrival,
and how often each thread has been released. -/
structure Barrier where
  n : Nat
  count : Nat
  holder : Option Nat
  waiters : List Nat
  pc : Nat → BPc
  arrivals : Nat
  arrival : Nat → Nat
  released : Nat → Nat

/-- par.l:42-54 `:init`, after `:add` of n threads. -/
def Barrier.init (n : Nat) : Barrier := ⟨n, 0, none, [], fun _ => .out, 0, fun _ => 0, fun _ => 0⟩

/-- What happens: a thread calls `:wait`, goes on with its call; when it is the last one, the second argument tells which thread the signal
wakes up; or a thread wakes up by itself, as POSIX allows. -/
inductive BEv where
  | wait (t : Nat)
  | go (t : Nat) (w : Nat)
  | spurious (t : Nat)
deriving DecidableEq, Repr

/-- par.l:65-71 `:wait`.  The code calls `(cond-wait count-lock barrier-cond)`, with the arguments the wrong way round (mthread.c:301-307), and `:init` evaluates
`make-cond` only on Solaris, Alpha and SunOS; here they are taken as meant.  `cond-signal` wakes up one waiting thread, if there is one. -/
def Barrier.step : BEv → Barrier → Option Barrier
  | .wait t, s => if s.pc t = .out then some { s with pc := upd s.pc t .lock } else none
  | .spurious t, s => if t ∈ s.waiters then some { s with waiters := s.waiters.erase t, pc := upd s.pc t .wake } else none
  | .go t w, s =>
    match s.pc t with
    | .out => none
    | .lock => if s.holder = none then some { s with holder := some t, pc := upd s.pc t .count } else none
    | .count => some { s with pc := upd s.pc t (.got s.count) }
    | .got c =>
      if c + 1 = s.n then
        let s := { s with count := 0, holder := none, arrivals := s.arrivals + 1, arrival := upd s.arrival t s.arrivals, released := upd s.released t (s.released t + 1) }
        if s.waiters = [] then some { s with pc := upd s.pc t .out }
        else if w ∈ s.waiters then some { s with waiters := s.waiters.erase w, pc := upd (upd s.pc w .wake) t .out }
        else none
      else some { s with count := c + 1, holder := none, waiters := s.waiters ++ [t], pc := upd s.pc t .wait, arrivals := s.arrivals + 1,
                         arrival := upd s.arrival t s.arrivals }
    | .wait => none
    | .wake => if s.holder = none then some { s with pc := upd s.pc t .out, released := upd s.released t (s.released t + 1) } else none

def Barrier.run : List BEv → Barrier → Option Barrier
  | [], s => some s
  | e :: es, s => (s.step e).bind (Barrier.run es)

/-! ### Interval timers, cyclic.l:19-78 -/

/-- The timer's variables; `sem` is the count of `timer-sem`; `runs`: how often the function has been called (history). -/
structure Timer where
  interval : Int
  current : Int
  running : Bool
  runCount : Int
  sem : Int
  missed : Int
  runs : Int
  seen : Option Int
deriving DecidableEq, Repr

/-- cyclic.l:24-33 `:init`; the interval is given in ticks. -/
def Timer.init (n : Int) : Timer := ⟨n, n, true, 0, 0, 0, 0, none⟩

/-- What happens: a tick; `:stop`, `:start`, `:interval`; the timer's thread gets past `sema-wait`; it reads the semaphore's count and adds it to `missed`; it sets
the count to 0 and calls the function. -/
inductive TEv where
  | tick
  | stop
  | start
  | interval (n : Int)
  | wake
  | look
  | clear
deriving DecidableEq, Repr

/-- cyclic.l:48-53, 59-64, 65-72.  `seen` is what the thread has read, between `look` and `clear` (the code is
`(incf missed (aref timer-sem 0)) (setf (aref timer-sem 0) 0)`); the marker -1 stands between `wake` and `look`. -/
def Timer.step : TEv → Timer → Option Timer
  | .tick, s =>
    if s.running then
      if s.current - 1 = 0 then some { s with current := s.interval, runCount := s.runCount + 1, sem := s.sem + 1 }
      else some { s with current := s.current - 1 }
    else some s
  | .stop, s => some { s with running := false }
  | .start, s => some { s with running := true }
  | .interval n, s => some { s with interval := n }
  | .wake, s => if s.seen = none ∧ s.sem > 0 then some { s with sem := s.sem - 1, seen := some (-1) } else none
  | .look, s => if s.seen = some (-1) then some { s with missed := s.missed + s.sem, seen := some s.sem } else none
  | .clear, s =>
    match s.seen with
    | some v => if v = -1 then none else some { s with sem := 0, runs := s.runs + 1, seen := none }
    | none => none

def Timer.run : List TEv → Timer → Option Timer
  | [], s => some s
  | e :: es, s => (s.step e).bind (Timer.run es)

end Eus.Par
