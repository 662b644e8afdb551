import Verif.Top.Model
set_option autoImplicit false
/-
What a session does, said without levels, catch tags and value cells. There is a stack of
interrupted computations. An error gives up everything since the innermost interrupted computation
that is not left; end-of-file or `(reset m)` on an error level does the same. Special variables are
looked up in the list of the `let`s that are being executed.
-/
namespace Eus.Top.Spec
open Eus.Top

/-- The state: input left, global values, the `let`s being executed (innermost first), output. -/
structure SS where
  inp : List Line
  glob : Nat → Nat
  dyn : List (Nat × Nat)
  out : List Ev

/-- The value of a special variable. -/
def look (glob : Nat → Nat) (x : Nat) : List (Nat × Nat) → Nat
  | [] => glob x
  | (y, v) :: d => if x = y then v else look glob x d

/-- `setq`: the innermost `let` of the variable, or the global value. -/
def assign (glob : Nat → Nat) (x v : Nat) : List (Nat × Nat) → (Nat → Nat) × List (Nat × Nat)
  | [] => (fun y => if y = x then v else glob y, [])
  | (y, w) :: d =>
    if x = y then (glob, (y, v) :: d)
    else let r := assign glob x v d; (r.1, (y, w) :: r.2)

/-- How a computation ends: with a value; given up, together with everything down to the `j`-th
interrupted computation, which goes on (`j = 0`: down to the prompt of the top level); or the
session is over. `eof`: a read-eval-print loop met end-of-file. -/
inductive End where
  | done (v : Nat)
  | give (j : Nat)
  | quit
  | eof

/-- The number of interrupted computations among the lowest `m` levels (`ks`: highest first). -/
def brks (ks : List Kind) (m : Nat) : Nat :=
  ((ks.reverse.take m).filter (fun k => k = .B)).length

/-- After the loop of an error level above the levels `ks`. -/
def leaveE (ks : List Kind) : End × SS → End × SS
  | (.eof, s) => (.give (brks ks ks.length), s)
  | r => r

/-- After the loop entered by an interrupt above the levels `ks`. -/
def leaveB (ks : List Kind) : End × SS → End × SS
  | (.eof, s) => (.done 0, s)
  | (.give j, s) => if j = brks ks ks.length + 1 then (.done 0, s) else (.give j, s)
  | r => r

/-- A computation, with the kinds `ks` of the levels that are open. -/
def sem (loop : List Kind → List (Nat × Nat) → SS → End × SS) (ks : List Kind) :
    List (Nat × Nat) → Cmp → SS → End × SS
  | _, .ret v, s => (.done v, s)
  | _, .get x, s => (.done (look s.glob x s.dyn), s)
  | _, .set x v, s =>
    (.done v, { s with glob := (assign s.glob x v s.dyn).1, dyn := (assign s.glob x v s.dyn).2 })
  | env, .seq a b, s =>
    match sem loop ks env a s with
    | (.done _, s) => sem loop ks env b s
    | r => r
  | env, .bind x v c, s =>
    let r := sem loop ks env c { s with dyn := (x, v) :: s.dyn }
    (r.1, { r.2 with dyn := r.2.dyn.tail })
  | env, .llet x v c, s => sem loop ks ((x, v) :: env) c s
  | env, .err, s => leaveE ks (loop (.E :: ks) env s)
  | env, .intr, s => leaveB ks (loop (.B :: ks) env s)
  | env, .reset m, s =>
    if m ≤ ks.length then (.give (brks ks m), s)
    else leaveE ks (loop (.E :: ks) env s)
  | _, .exit, s => (.quit, s)

/-- The kind shown in the prompt. -/
def kind : List Kind → Kind
  | [] => .T
  | k :: _ => k

/-- A read-eval-print loop. -/
def rep : Nat → List Kind → List (Nat × Nat) → SS → End × SS
  | 0, _, _, s => (.eof, s)
  | f + 1, ks, env, s =>
    let s : SS := { s with out := s.out ++ [.prompt (kind ks) ks.length] }
    match s.inp with
    | [] => (.eof, s)
    | .eof :: r => (.eof, { s with inp := r })
    | .blank :: r => rep f ks env { s with inp := r, out := s.out ++ [.value none 0] }
    | .sym id x :: r =>
      let v := if ks = [] then look s.glob x s.dyn
        else look (fun x => look s.glob x s.dyn) x env
      rep f ks env { s with inp := r, out := s.out ++ [.value (some id) v] }
    | .form id c :: r =>
      match sem (rep f) ks env c { s with inp := r } with
      | (.done v, s) => rep f ks env { s with out := s.out ++ [.value (some id) v] }
      | o => o

/-- A session. -/
def top : Nat → SS → SS
  | 0, s => s
  | f + 1, s =>
    match rep (f + 1) [] [] s with
    | (.give _, s) => top f s
    | (_, s) => s

def session (inp : List Line) (glob : Nat → Nat) : SS :=
  top (inp.length + 1) { inp := inp, glob := glob, dyn := [], out := [] }

end Eus.Top.Spec

namespace Eus.Top.Spec
open Eus.Top

/-- The computation assigns to the variable `x`. -/
def sets (x : Nat) : Cmp → Bool
  | .set y _ => x == y
  | .seq a b => sets x a || sets x b
  | .bind _ _ c => sets x c
  | .llet _ _ c => sets x c
  | _ => false

/-- No form typed assigns to `x`. -/
def neverSet (x : Nat) (inp : List Line) : Prop :=
  ∀ id c, Line.form id c ∈ inp → sets x c = false

/-- The computation without the interrupts. -/
def strip : Cmp → Cmp
  | .intr => .ret 0
  | .seq a b => .seq (strip a) (strip b)
  | .bind x v c => .bind x v (strip c)
  | .llet x v c => .llet x v (strip c)
  | c => c

/-- Lines that only look: values of constants and variables, empty lines, end-of-file. -/
def quiet : Line → Prop
  | .form _ (.ret _) => True
  | .form _ (.get _) => True
  | .form _ _ => False
  | _ => True

/-- No interrupt happens in the computation. -/
def noIntr : Cmp → Bool
  | .intr => false
  | .seq a b => noIntr a && noIntr b
  | .bind _ _ c => noIntr c
  | .llet _ _ c => noIntr c
  | _ => true

/-- The values printed, and the forms they are the values of, the latest first. -/
def printed : List Ev → List (Nat × Nat)
  | [] => []
  | .value (some id) v :: r => printed r ++ [(id, v)]
  | .value none v :: r => printed r ++ [(0, v)]
  | .prompt _ _ :: r => printed r

/-- The first three of a list. -/
def three (l : List Nat) : Nat × Nat × Nat := (l.getD 0 0, l.getD 1 0, l.getD 2 0)

end Eus.Top.Spec
