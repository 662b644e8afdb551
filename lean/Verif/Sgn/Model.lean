set_option autoImplicit false
/-
Signals: lisp/c/unixcall.c:384-421 (`unix:signal`), lisp/c/eus.c:995-1061 (`eusint`, what the kernel calls) and 1081-1100 (`sigbreak`, which a thread calls
where it looks for a signal), lisp/c/eus.h:907 (`breakck`), lisp/c/eus.c:1236-1244 (what is installed at the start), lisp/c/specials.c:533-543 (`throw`).

A program is seen as the list of what happens to it, in the order in which it happens: calls of `unix:signal`, arrivals of signals at threads, and threads that look
for a signal.  What a handler does is more events of the thread that runs it.  Thread 0 is the main thread.  Numbers of signals are those of Linux.
Simplification: `*fatal-error*` and the read loop in the handler of SIGSEGV, SIGBUS and SIGFPE are one outcome, `fatal`; a signal with default action ends the process.
-/
namespace Eus.Sgn

/-- What is in eussigvec: NIL, an integer vector (a semaphore), something else (taken as a function). -/
inductive H where
  | nil
  | sem (k : Nat)
  | fn (h : Nat)
deriving DecidableEq, Repr

/-- What the kernel does with a signal. -/
inductive D where
  | dfl
  | ign
  | caught
  | addr (i : Int)
deriving DecidableEq, Repr

/-- The second argument of `unix:signal` -/
inductive Arg where
  | int (i : Int)
  | obj (h : H)
deriving DecidableEq, Repr

inductive R where
  | idle
  | old (h : H)
  | errno
  | died (s : Nat)
  | fatal (s : Nat)
  | thrown
  | wild
  | reaped
  | posted (k : Nat)
  | run (t h s code : Nat)
  | print (t s : Nat)
deriving DecidableEq, Repr

structure Sys where
  vec : Nat → H
  disp : Nat → D
  /-- ctx->intsig; 0: none -/
  pend : Nat → Nat
  /-- the variables `is` and `sighandler` of a thread in sigbreak -/
  saved : Nat → Option (Nat × H)
  /-- intcode -/
  code : Nat
  sem : Nat → Nat
  /-- the main thread has a catch frame with the tag 0 -/
  top : Bool
  /-- SIGPIPE is blocked: the kernel blocks a signal until its handler returns, and `_longjmp` (eus.h:76-77) does not restore the mask -/
  blocked : Nat → Bool
  dead : Bool

def upd {α : Type} (f : Nat → α) (n : Nat) (a : α) : Nat → α := fun m => if m = n then a else f m

notation "sigBUS" => (7 : Nat)
notation "sigFPE" => (8 : Nat)
notation "sigSEGV" => (11 : Nat)
notation "sigPIPE" => (13 : Nat)
notation "sigCHLD" => (17 : Nat)

/-- Signals that the kernel, or the C library, lets nobody catch. -/
def refused (s : Nat) : Bool := s == 0 || s == 9 || s == 19 || s == 32 || s == 33

/-- unixcall.c:398-400: an integer is 1 at least. -/
def Arg.disp : Arg → D
  | .int i => if i < 1 then .ign else if i = 1 then .ign else .addr i
  | .obj _ => .caught

def Arg.handler : Arg → H
  | .int _ => .nil
  | .obj h => h

/-- unixcall.c:384-421 with two arguments; NSIG is 65.  The vector is set before the kernel is asked. -/
def signal (s : Nat) (a : Arg) (y : Sys) : R × Sys :=
  let s := min s 64
  let old := y.vec s
  let y : Sys := { y with vec := upd y.vec s a.handler }
  if refused s then (.errno, y) else (.old old, { y with disp := upd y.disp s a.disp })

/-- eus.c:1054-1058: a semaphore is posted at once. -/
def postSem (t s : Nat) (r : R) (y : Sys) : R × Sys :=
  match y.vec s with
  | .sem k => (.posted k, { y with sem := upd y.sem k (y.sem k + 1), pend := upd y.pend t 0 })
  | _ => (r, y)

/-- eus.c:995-1061 -/
def eusint (t s c : Nat) (y : Sys) : R × Sys :=
  let y : Sys := { y with pend := upd y.pend t s, code := c }
  if s = sigCHLD then postSem t s .reaped { y with pend := upd y.pend t 0 }
  else if s = sigFPE ∨ s = sigSEGV ∨ s = sigBUS then (.fatal s, { y with dead := true })
  else if s = sigPIPE ∧ y.top = true then
    -- eus.c:1027: into the main thread's frame, from whatever thread
    (if t = 0 then (.thrown, { y with blocked := upd y.blocked t true }) else (.wild, { y with dead := true }))
  else postSem t s .idle y

/-- The kernel delivers the signal s to thread t. -/
def arrive (t s c : Nat) (y : Sys) : R × Sys :=
  if s = sigPIPE ∧ y.blocked t = true then (.idle, y)
  else
    match y.disp s with
    | .dfl => if s = sigCHLD then (.idle, y) else (.died s, { y with dead := true })
    | .ign => (.idle, y)
    | .addr _ => (.wild, { y with dead := true })
    | .caught => eusint t s c y

/-- eus.h:907, eus.c:1085-1089: the beginning of sigbreak; for a semaphore it returns at once. -/
def look (t : Nat) (y : Sys) : Sys :=
  if y.saved t = none ∧ 0 < y.pend t then
    match y.vec (y.pend t) with
    | .sem _ => y
    | h => { y with saved := upd y.saved t (some (y.pend t, h)) }
  else y

/-- eus.c:1090-1100: the rest of sigbreak up to the call of the handler -/
def act (t : Nat) (y : Sys) : R × Sys :=
  match y.saved t with
  | none => (.idle, y)
  | some (s, h) =>
    let y : Sys := { y with saved := upd y.saved t none, pend := upd y.pend t 0 }
    match h with
    | .fn h => (.run t h s y.code, y)
    | _ => (.print t s, y)

inductive Ev where
  | signal (s : Nat) (a : Arg)
  | arrive (t s c : Nat)
  /-- a thread looks for a signal, and nothing comes in between -/
  | poll (t : Nat)
  /-- the two halves of it -/
  | look (t : Nat)
  | act (t : Nat)
deriving DecidableEq, Repr

def step (e : Ev) (y : Sys) : R × Sys :=
  if y.dead then (.idle, y)
  else
    match e with
    | .signal s a => signal s a y
    | .arrive t s c => arrive t s c y
    | .poll t => act t (look t y)
    | .look t => (.idle, look t y)
    | .act t => act t y

def run : List Ev → Sys → List R × Sys
  | [], y => ([], y)
  | e :: es, y =>
    let (r, y) := step e y
    let (rs, y) := run es y
    (r :: rs, y)

/-- eus.c:690, 1236-1244: at the start; `top` says whether the main thread is inside (catch 0 …) (toplevel.l:350). -/
def init (top : Bool) : Sys :=
  { vec := fun _ => .nil
    disp := fun s => if s = sigCHLD ∨ s = sigFPE ∨ s = sigPIPE ∨ s = sigSEGV ∨ s = sigBUS then .caught else .dfl
    pend := fun _ => 0, saved := fun _ => none, code := 0, sem := fun _ => 0, top := top, blocked := fun _ => false, dead := false }

end Eus.Sgn
