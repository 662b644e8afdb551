set_option autoImplicit false
/-
The reason maintenance system: `lib/llib/rms.l`. Nodes and clauses are numbered; the links of a clause
never change (`:init`, rms.l:126-128). The messages printed are not modelled.
-/
namespace Eus.Rms

/-- `links` of a clause: pairs of a label and a node, rms.l:7-8, 163-168 -/
abbrev Links := Nat → List (Bool × Nat)

/-- labels of the nodes (`none`: `:out`), clauses attached to each node, `*contradictions*`, and, for
the statements only, the clauses that are asserted -/
structure St where
  lab : Nat → Option Bool
  byNode : Nat → List Nat
  contra : List Nat
  asserted : List Nat

/-- new nodes, rms.l:54-57, after `init-rms`, rms.l:152-154 -/
def fresh : St := ⟨fun _ => none, fun _ => [], [], []⟩

/-- `:non-misaligned-links`, rms.l:92-96 with `misaligned-p`, rms.l:64-65 (the order is not kept) -/
def nonMis (lk : Links) (s : St) (c : Nat) : List (Bool × Nat) :=
  (lk c).filter (fun l => s.lab l.2 ≠ some (!l.1))

/-- `contradict`, rms.l:144-145 -/
def contradict (s : St) (c : Nat) : St :=
  if c ∈ s.contra then s else { s with contra := c :: s.contra }

/-- `:label` with a new label, rms.l:24-29 -/
def setLab (s : St) (n : Nat) (b : Option Bool) : St :=
  { s with lab := fun m => if m = n then b else s.lab m }

/-- `:propagate`, rms.l:107-110, with `:misaligned-links`, rms.l:97-103, and `align-ddlink`,
rms.l:209-214. The first argument bounds the depth of the calls; `none`: too small. -/
def propagate (lk : Links) : Nat → St → Nat → Option St
  | 0, _, _ => none
  | f + 1, s, c =>
    match nonMis lk s c with
    | [] => some (contradict s c)
    | [l] =>
      if s.lab l.2 ≠ none then some s
      else (s.byNode l.2).foldlM (fun t c2 => if c2 = c then some t else propagate lk f t c2) (setLab s l.2 (some l.1))
    | _ :: _ :: _ => some s

/-- `:attach` of a clause, rms.l:74-77 with `:attach` of a node, rms.l:32-33 -/
def attach (lk : Links) (s : St) (c : Nat) : St :=
  { s with
    byNode := fun n => if c ∈ s.byNode n then s.byNode n else if n ∈ (lk c).map Prod.snd then c :: s.byNode n else s.byNode n
    asserted := c :: s.asserted }

/-- `:assert`, rms.l:81-86 -/
def assert (lk : Links) (f : Nat) (s : St) (c : Nat) : Option St :=
  propagate lk f (attach lk s c) c

/-- several clauses in turn -/
def assertAll (lk : Links) (f : Nat) (s : St) (cs : List Nat) : Option St := cs.foldlM (assert lk f) s

/-- the outcome of a retraction -/
inductive Res (α : Type) where
  | ok (a : α)
  | error
  | deep

/-- `:active-node`, rms.l:104-106 -/
def activeNode (lk : Links) (s : St) (c : Nat) : Option Nat :=
  match nonMis lk s c with
  | [l] => some l.2
  | _ => none

/-- `:justifications`, rms.l:36-40 -/
def justifications (lk : Links) (s : St) (n : Nat) : List Nat :=
  ((s.byNode n).filter (fun c => activeNode lk s c = some n)).reverse

/-- `:justificands`, rms.l:41-45: a clause without active node gives NIL -/
def justificands (lk : Links) (s : St) (n : Nat) : List (Option Nat) :=
  (((s.byNode n).map (activeNode lk s)).filter (fun a => a ≠ some n)).reverse

/-- the loop of `:delabel` over the nodes that go out, rms.l:51-52; NIL does not understand `:delabel` -/
def goOut (d : St → Nat → Res (St × List Nat)) : List (Option Nat) → St × List Nat → Res (St × List Nat)
  | [], st => .ok st
  | none :: _, _ => .error
  | some m :: l, st =>
    match d st.1 m with
    | .ok st' => goOut d l (st'.1, st.2 ++ st'.2)
    | .error => .error
    | .deep => .deep

/-- `:delabel`, rms.l:46-53 -/
def delabel (lk : Links) : Nat → St → Nat → Res (St × List Nat)
  | 0, _, _ => .deep
  | f + 1, s, n =>
    if s.lab n = none then .ok (s, [])
    else
      match goOut (delabel lk f) (justificands lk s n) (setLab s n none, []) with
      | .ok (s', r) => .ok (s', r ++ justifications lk s' n)
      | .error => .error
      | .deep => .deep

/-- `:detach`, rms.l:78-80, 34-35 -/
def detach (lk : Links) (s : St) (c : Nat) : St :=
  { s with
    byNode := fun n => if n ∈ (lk c).map Prod.snd then (s.byNode n).filter (· ≠ c) else s.byNode n
    asserted := s.asserted.filter (· ≠ c) }

/-- `:retract`, rms.l:87-91, with `:propagate-out-labels`, rms.l:111-117. `uncontradict`, rms.l:146-148,
drops the list that `remove` returns. After each clause that is propagated again `prune-contradictions`,
rms.l:149-151, asks for the function `contradicted-p`, which is defined nowhere. -/
def retract (lk : Links) (f : Nat) (s0 : St) (c : Nat) : Res St :=
  let s := detach lk s0 c
  match nonMis lk s c with
  | [] => .ok s
  | [l] =>
    match delabel lk f s l.2 with
    | .ok (s', []) => .ok s'
    | .ok (_, _ :: _) => .error
    | .error => .error
    | .deep => .deep
  | _ :: _ :: _ => .ok s

/-- what a program does with clauses -/
inductive Op where
  | assert (c : Nat)
  | retract (c : Nat)

/-- clauses asserted, rms.l:81-86, and retracted, rms.l:87-91, in turn -/
def history (lk : Links) (f : Nat) : St → List Op → Res St
  | s, [] => .ok s
  | s, .assert c :: l =>
    match assert lk f s c with
    | some t => history lk f t l
    | none => .deep
  | s, .retract c :: l =>
    match retract lk f s c with
    | .ok t => history lk f t l
    | .error => .error
    | .deep => .deep

end Eus.Rms
