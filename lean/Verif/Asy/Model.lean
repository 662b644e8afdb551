set_option autoImplicit false
/-
Asynchronous objects: lisp/l/async.l:11-56, 78-103.
Any number of threads use one asynchronous object; every step is one access to a mutex or a slot.
Simplified: methods do not use lock-slots and unlock-slots, the thread of an asynchronous method sends no message to its own object, and bodies of methods end normally.
-/
namespace Eus.Asy

/-- Where a thread is.
`e…`: `:enter` (async.l:44-52) before a synchronous method; `x…`: `:exit` (54-59) after it; `s…`: `send` of an asynchronous message (15-23);
`m…`: the thread of an asynchronous method (89-101). -/
inductive PC where
  | idle
  /-- line 46: looks at main-thread -/
  | e0
  /-- line 47: waits for lock-of-slots -/
  | eL
  /-- line 48: has it, looks at sub-threads -/
  | e1
  /-- line 49: waits for entrance-lock, with lock-of-slots -/
  | eE
  /-- line 50-51: has both -/
  | eUE
  /-- line 52: gives lock-of-slots back -/
  | eUL
  /-- the synchronous method runs -/
  | body
  /-- line 56 -/
  | x0
  /-- line 57 -/
  | xL
  /-- line 58-59 -/
  | x1
  /-- line 16: waits for lock-of-slots -/
  | sL
  /-- line 17-19: looks at main-thread and starts a thread -/
  | s1
  /-- line 20 -/
  | sUL
  /-- line 91: the new thread waits for lock-of-slots -/
  | mL
  /-- line 92 -/
  | m1
  /-- line 93: waits for entrance-lock, with lock-of-slots -/
  | mE
  /-- line 94 -/
  | mUL
  /-- line 95: the asynchronous method runs -/
  | mBody
  /-- line 96: waits for lock-of-slots -/
  | mxL
  /-- line 97 -/
  | mx1
  /-- line 98 -/
  | mxUE
  /-- line 99 -/
  | mxUL
deriving DecidableEq, Repr

/-- The object and the threads: `slots`, `entrance` tell who holds lock-of-slots and entrance-lock -/
structure St where
  pc : Nat → PC
  slots : Option Nat
  entrance : Option Nat
  main : Option Nat
  subs : List Nat

/-- thread t goes to p -/
def St.go (s : St) (t : Nat) (p : PC) : St := { s with pc := fun u => if u = t then p else s.pc u }

/-- what an idle thread does next; for `send` the thread that is free to run the method -/
inductive Want where
  | sync
  | async
deriving DecidableEq

/-- One step of thread t; `none`: it has to wait.  `w`: what it wants to do if it is idle; `v`: the thread `sys:thread-no-wait` uses. -/
def step (s : St) (t : Nat) (w : Want) (v : Nat) : Option St :=
  match s.pc t with
  | .idle => match w with
    | .sync => some (s.go t .e0)
    | .async => some (s.go t .sL)
  | .e0 => if s.main = none ∨ s.main = some t then some (s.go t .body) else some (s.go t .eL)
  | .eL => if s.slots = none then some { s.go t .e1 with slots := some t } else none
  | .e1 => if t ∈ s.subs then some (s.go t .eUL) else some (s.go t .eE)
  | .eE => if s.entrance = none then some { s.go t .eUE with entrance := some t } else none
  | .eUE => some { s.go t .eUL with entrance := none, subs := t :: s.subs }
  | .eUL => some { s.go t .body with slots := none }
  | .body => some (s.go t .x0)
  | .x0 => if s.main = none ∨ s.main = some t then some (s.go t .idle) else some (s.go t .xL)
  | .xL => if s.slots = none then some { s.go t .x1 with slots := some t } else none
  | .x1 => some { s.go t .idle with slots := none, subs := s.subs.erase t }
  | .sL => if s.slots = none then some { s.go t .s1 with slots := some t } else none
  | .s1 =>
    if s.main = none then
      if s.pc v = .idle then some ((s.go t .sUL).go v .mL) else none
    else some (s.go t .sUL)
  | .sUL => some { s.go t .idle with slots := none }
  | .mL => if s.slots = none then some { s.go t .m1 with slots := some t } else none
  | .m1 => some { s.go t .mE with main := some t }
  | .mE => if s.entrance = none then some { s.go t .mUL with entrance := some t } else none
  | .mUL => some { s.go t .mBody with slots := none }
  | .mBody => some (s.go t .mxL)
  | .mxL => if s.slots = none then some { s.go t .mx1 with slots := some t } else none
  | .mx1 => some { s.go t .mxUE with main := none }
  | .mxUE => some { s.go t .mxUL with entrance := none }
  | .mxUL => some { s.go t .idle with slots := none }

/-- async.l:40-42 `:init` -/
def init : St := { pc := fun _ => .idle, slots := none, entrance := none, main := none, subs := [] }

end Eus.Asy
