import Verif.Plg.Model
set_option autoImplicit false
/-
What a program means: finite trees without variables, and which of them follow from the clauses.
-/
namespace Eus.Plg

inductive Val where
  | atom (n : Nat)
  | node (a b : Val)
deriving DecidableEq

/-- the term with values for its variables -/
def inst (W : Nat → Val) : Term → Val
  | .var v => W v
  | .atom a => .atom a
  | .cons a b => .node (inst W a) (inst W b)

/-- what follows from the program -/
inductive Holds (prog : List Clause) : Val → Prop where
  | intro (c : Clause) (W : Nat → Val) : c ∈ prog → (∀ b ∈ c.body, Holds prog (inst W b)) → Holds prog (inst W c.head)

/-- values of the variables of all substitutions that agree with the bindings -/
def Agrees (V : Nat → Nat → Val) (σ : Store) : Prop := ∀ e v t e2, (v, t, e2) ∈ σ e → V e v = inst (V e2) t

/-- a list beginning with the name of a predicate -/
def Named (t : Term) : Prop := ∃ p args, t = .cons (.atom p) args

/-- heads and goals of the clauses name their predicates -/
def Proper (prog : List Clause) : Prop := ∀ c ∈ prog, Named c.head ∧ ∀ b ∈ c.body, Named b

end Eus.Plg
