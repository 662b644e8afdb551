set_option autoImplicit false
/-
Semaphores and readers/writer locks: lisp/c/mthread_posix.c:361-467, built from a POSIX mutex and condition variables.

The functions are written in a small language with one instruction per call of the thread library and per statement on the shared variable; the
instructions of different threads interleave in any order.  A mutex can be taken when nobody holds it.  A thread that waits for a condition gives the
mutex back, sleeps until the condition is broadcast or until it wakes up by itself, as POSIX allows, and takes the mutex again.  Any number of threads, named by
natural numbers.  `unsigned int` has 32 bits.  The functions that destroy the objects are left out, and so are the error codes of the thread library, which the code
does not look at.
-/
namespace Eus.Syn

/-- A table with one thread's entry changed. -/
def upd {α : Type} (f : Nat → α) (t : Nat) (x : α) : Nat → α := fun u => if u = t then x else f u

/-- The instructions: `pthread_mutex_lock`, `pthread_mutex_unlock`; `while (p) pthread_cond_wait(c, lock)`; a statement on the shared variable, with the function's result so far; `pthread_cond_broadcast(c)`. -/
inductive Instr (σ : Type) where
  | lock
  | unlock
  | wait (c : Nat) (p : σ → Bool)
  | act (f : σ → σ × Nat)
  | broadcast (c : Nat)

/-- Where a thread is: in no call; running, with the instructions left and the result so far; asleep on a condition; woken up, before it has the mutex again. -/
inductive Pc (σ ω : Type) where
  | out
  | run (o : ω) (is : List (Instr σ)) (r : Nat)
  | sleep (o : ω) (c : Nat) (is : List (Instr σ)) (r : Nat)
  | woken (o : ω) (is : List (Instr σ)) (r : Nat)

/-- What a program sees: a thread calls an operation, a call returns a value. -/
inductive Obs (ω : Type) where
  | call (t : Nat) (o : ω)
  | ret (t : Nat) (o : ω) (r : Nat)
deriving DecidableEq, Repr

/-- The shared variable, who holds the mutex, where the threads are; `trace` is history. -/
structure St (σ ω : Type) where
  sh : σ
  holder : Option Nat
  pc : Nat → Pc σ ω
  trace : List (Obs ω)

def St.init {σ ω : Type} (x : σ) : St σ ω := ⟨x, none, fun _ => .out, []⟩

/-- A schedule says which thread calls what, which thread goes on, and which thread wakes up by itself. -/
inductive Ev (ω : Type) where
  | call (t : Nat) (o : ω)
  | go (t : Nat)
  | spurious (t : Nat)
deriving DecidableEq, Repr

/-- `pthread_cond_broadcast`: every thread that sleeps on the condition wakes up. -/
def wake {σ ω : Type} (c : Nat) (pc : Nat → Pc σ ω) : Nat → Pc σ ω := fun u =>
  match pc u with
  | .sleep o c' is r => if c' = c then .woken o is r else .sleep o c' is r
  | x => x

/-- One step.  `none`: the thread cannot move. -/
def step {σ ω : Type} (prog : ω → List (Instr σ)) : Ev ω → St σ ω → Option (St σ ω)
  | .call t o, s =>
    match s.pc t with
    | .out => some { s with pc := upd s.pc t (.run o (prog o) 0), trace := s.trace ++ [.call t o] }
    | _ => none
  | .spurious t, s =>
    match s.pc t with
    | .sleep o _ is r => some { s with pc := upd s.pc t (.woken o is r) }
    | _ => none
  | .go t, s =>
    match s.pc t with
    | .out => none
    | .sleep _ _ _ _ => none
    | .woken o is r => if s.holder = none then some { s with holder := some t, pc := upd s.pc t (.run o is r) } else none
    | .run o [] r => some { s with pc := upd s.pc t .out, trace := s.trace ++ [.ret t o r] }
    | .run o (.lock :: is) r => if s.holder = none then some { s with holder := some t, pc := upd s.pc t (.run o is r) } else none
    | .run o (.unlock :: is) r => some { s with holder := none, pc := upd s.pc t (.run o is r) }
    | .run o (.wait c p :: is) r =>
      if p s.sh then some { s with holder := none, pc := upd s.pc t (.sleep o c (.wait c p :: is) r) }
      else some { s with pc := upd s.pc t (.run o is r) }
    | .run o (.act f :: is) _ => some { s with sh := (f s.sh).1, pc := upd s.pc t (.run o is (f s.sh).2) }
    | .run o (.broadcast c :: is) r => some { s with pc := upd (wake c s.pc) t (.run o is r) }

def run {σ ω : Type} (prog : ω → List (Instr σ)) : List (Ev ω) → St σ ω → Option (St σ ω)
  | [], s => some s
  | e :: es, s => (step prog e s).bind (run prog es)

/-! ### Semaphores -/

inductive SemaOp where
  | wait
  | trywait
  | post
deriving DecidableEq, Repr

/-- errno.h -/
def EBUSY : Nat := 16

/-- mthread_posix.c:434-467 `sema_wait`, `sema_trywait`, `sema_post`; the shared variable is `count`. -/
def semaProg : SemaOp → List (Instr (BitVec 32))
  | .wait => [.lock, .wait 0 (fun count => count == 0), .act (fun count => (count - 1, 0)), .unlock]
  | .trywait => [.lock, .act (fun count => if count = 0 then (count, EBUSY) else (count - 1, 0)), .unlock]
  | .post => [.lock, .act (fun count => (count + 1, 0)), .broadcast 0, .unlock]

/-- mthread_posix.c:414-424 `sema_init`, mthread.c:326-333 `make-semaphore`: the count asked for is not looked at. -/
def semaInit (_c : BitVec 32) : St (BitVec 32) SemaOp := .init 0

/-! ### Readers/writer locks -/

inductive RwOp where
  | rdlock
  | wrlock
  | unlock
deriving DecidableEq, Repr

/-- mthread_posix.c:382-412 `rw_rdlock`, `rw_wrlock`, `rw_unlock`; the shared variable is `readers`; condition 0 is `r_cond`, condition 1 is `w_cond`. -/
def rwProg : RwOp → List (Instr (BitVec 32))
  | .rdlock => [.lock, .wait 0 (fun readers => readers == -1), .act (fun readers => (readers + 1, 0)), .unlock]
  | .wrlock => [.lock, .wait 1 (fun readers => readers != 0), .act (fun _ => (-1, 0)), .unlock]
  | .unlock => [.lock, .act (fun readers => if readers = -1 then (0, 0) else (readers - 1, 0)), .broadcast 1, .broadcast 0, .unlock]

/-- mthread_posix.c:362-371 `rwlock_init` -/
def rwInit : St (BitVec 32) RwOp := .init 0

end Eus.Syn
