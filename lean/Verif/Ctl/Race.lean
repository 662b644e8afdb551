set_option autoImplicit false
/-
The value a `throw` carries, with several threads: lisp/c/eus.h:75-77, lisp/c/eus.c:41.

`euslongjmp` puts the value into the global variable `setjmp_val`, and `eussetjmp` reads it there; all threads use
the same variable.
-/
namespace Eus.Ctl.Race

/-- A thread: the values it has still to throw, whether it is between the write and the read, and the values received. -/
structure Th where
  todo : List Nat
  mid : Bool
  got : List Nat
deriving DecidableEq, Repr

/-- The global variable, and the threads. -/
structure W where
  setjmp_val : Nat
  th : Nat → Th

/-- eus.h:76-77: thread `i` makes a step: `setjmp_val=val`, or the read after the `_longjmp`. -/
def step (i : Nat) (w : W) : W :=
  let t := w.th i
  match t.todo with
  | [] => w
  | v :: vs =>
    if t.mid then { w with th := fun j => if j = i then ⟨vs, false, t.got ++ [w.setjmp_val]⟩ else w.th j }
    else { setjmp_val := v, th := fun j => if j = i then { t with mid := true } else w.th j }

/-- The threads run as `sched` says. -/
def run : List Nat → W → W
  | [], w => w
  | i :: is, w => run is (step i w)

/-- Every thread is going to throw its values. -/
def start (vals : Nat → List Nat) : W := ⟨0, fun i => ⟨vals i, false, []⟩⟩

end Eus.Ctl.Race
