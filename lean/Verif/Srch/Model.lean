import Verif.Lst.Model
set_option autoImplicit false
/-
The search functions of lib/llib/search.l and the sorting primitive of lisp/c/sequence.c.

Simplifications: a path is a list of nodes, the newest first, and a queue a list of paths; the
destructive `nreverse` of line 28 (and its copies) is modelled by its result, since the queue is not used
afterwards; the destructive merge is modelled by its result (see `Eus.Lst.mergeList`), which requires that
`extend` returns fresh cells, as `mapcar` in `extend-wing` does; `eq` of nodes is equality of the model's
nodes.  The optional argument `queue` is always passed by the recursive calls; `…0` below is the call
without it.  The recursion is on fuel, and running out of it is an outcome of its own.
-/
namespace Eus.Srch

/-- How a search ends: with a path, with NIL, with a Lisp error, or not within the fuel. -/
inductive Out (N : Type) where
  | path (p : List N)
  | nil
  | err
  | more
deriving DecidableEq, Repr

variable {N : Type} [DecidableEq N]

/-- search.l:18-21 `extend-wing`, for an arbitrary neighbour function in place of `(send edge :all-wings)`. -/
def extendSimple (nb : N → List N) (path : List N) : List (List N) :=
  match path with
  | [] => []
  | x :: _ => ((nb x).filter fun y => !decide (y ∈ path)).map fun y => y :: path

/-- search.l:23-28 `depth-first`. -/
def depthFirst (finish : N) (extend : List N → List (List N)) : Nat → List (List N) → Out N
  | _, [] => .nil
  | 0, _ :: _ => .more
  | k + 1, q :: rest =>
    if q.head? = some finish then .path q.reverse
    else depthFirst finish extend k (extend q ++ rest)

/-- search.l:30-35 `breadth-first`. -/
def breadthFirst (finish : N) (extend : List N → List (List N)) : Nat → List (List N) → Out N
  | _, [] => .nil
  | 0, _ :: _ => .more
  | k + 1, q :: rest =>
    if q.head? = some finish then .path q.reverse
    else breadthFirst finish extend k (rest ++ extend q)

/-- search.l:52-61 `best-first`; `sort l` is `(sort l evaluator)` and `ev` the evaluator as `merge-list`
calls it, with NIL for a path that is not there. -/
def bestFirst (finish : N) (extend : List N → List (List N)) (sort : List (List N) → List (List N))
    (ev : Option (List N) → List N → Option Bool) : Nat → List (List N) → Out N
  | _, [] => .nil
  | 0, _ :: _ => .more
  | k + 1, q :: rest =>
    if q.head? = some finish then .path q.reverse
    else match Eus.Lst.mergeList ev (sort (extend q)) rest with
      | none => .err
      | some queue => bestFirst finish extend sort ev k queue

/-- search.l:63-70 `hill-climb`. -/
def hillClimb (finish : N) (extend : List N → List (List N)) (sort : List (List N) → List (List N)) :
    Nat → List (List N) → Out N
  | _, [] => .nil
  | 0, _ :: _ => .more
  | k + 1, q :: rest =>
    if q.head? = some finish then .path q.reverse
    else hillClimb finish extend sort k (sort (extend q) ++ rest)

/-- search.l:72-80 `branch-and-bound`. -/
def branchAndBound (finish : N) (extend : List N → List (List N)) (sort : List (List N) → List (List N)) :
    Nat → List (List N) → Out N
  | _, [] => .nil
  | 0, _ :: _ => .more
  | k + 1, q :: rest =>
    if q.head? = some finish then .path q.reverse
    else branchAndBound finish extend sort k (sort (extend q ++ rest))

/-- The default of the optional argument: search.l:23, 30, 53, 63, 73 `(list (list start))`. -/
def start0 (start : N) : List (List N) := [[start]]

/-! ### sort -/

/-- The C library's `qsort`, called at sequence.c:1003 and 1012, is not part of the repository.  It is any
algorithm that learns about the elements only by comparing two of them: it either stops with a
rearrangement or asks for a comparison and goes on according to the sign. -/
inductive Alg (α : Type) where
  | stop (l : List α)
  | ask (x y : α) (neg pos : Alg α)

/-- What a call of the Lisp predicate does: it returns a truth value, is left by a throw or an error, or
never returns. -/
inductive Call (σ : Type) where
  | ret (b : Bool) (s : σ)
  | exit (s : σ)
  | stuck

/-- What `sort` does: it returns the sorted sequence, is left by a throw or an error, or never returns. -/
inductive SortOut (α σ : Type) where
  | ret (l : List α) (s : σ)
  | exit (s : σ)
  | stuck

variable {α σ : Type}

/-- sequence.c:953-979 `compar` inside `qsort`: NIL is 1, anything else -1. -/
def runAlg (pred : α → α → σ → Call σ) : Alg α → σ → SortOut α σ
  | .stop l, s => .ret l s
  | .ask x y neg pos, s =>
    match pred x y s with
    | .ret true s => runAlg pred neg s
    | .ret false s => runAlg pred pos s
    | .exit s => .exit s
    | .stuck => .stuck

/-- A sequence as `SORT` tells them apart (sequence.c:989, 997, 1007-1011). -/
inductive SeqArg (α : Type) where
  | nil
  | list (x : α) (l : List α)
  | vector (l : List α)
  /-- a bit vector or a foreign string -/
  | bits
  /-- anything else -/
  | other

/-- The program's state: `locked` is `qsort_lock`, a mutex that its owner cannot take again
(mthread_posix.c:490 `pthread_mutex_init(&qsort_lock, NULL)`), `rest` everything else. -/
structure World (ρ : Type) where
  locked : Bool
  rest : ρ

/-- sequence.c:980-1016 `SORT`; `alg` is the algorithm of `qsort` for the elements.  `.stuck` at the lock:
another call of `SORT` holds it; here that is a call that has been left by a throw, or one that is running
the predicate.  The result is `none` if the argument is returned as it is. -/
def sortC {ρ : Type} (alg : List α → Alg α) (pred : α → α → World ρ → Call (World ρ)) (seq : SeqArg α)
    (w : World ρ) : SortOut α (World ρ) :=
  match seq with
  | .nil => .ret [] w
  | .bits => if w.locked then .stuck else .exit { w with locked := true }
  | .other => if w.locked then .stuck else .ret [] w
  | .list x l =>
    if w.locked then .stuck
    else match runAlg pred (alg (x :: l)) { w with locked := true } with
      | .ret r w => .ret r { w with locked := false }
      | .exit w => .exit w
      | .stuck => .stuck
  | .vector l =>
    if w.locked then .stuck
    else match runAlg pred (alg l) { w with locked := true } with
      | .ret r w => .ret r { w with locked := false }
      | .exit w => .exit w
      | .stuck => .stuck

end Eus.Srch
