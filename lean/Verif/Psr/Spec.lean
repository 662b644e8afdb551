import Verif.Psr.Model
set_option autoImplicit false
/-
Trees of a grammar: `Derives G t u`: t is a tree of the grammar, and its words are u.
-/
namespace Eus.Psr

mutual
inductive Derives (G : List Rule) : Tree → List Nat → Prop where
  | lex (r : Rule) (w : Nat) : r ∈ G → Alt.word w ∈ r.alts → Derives G (.node r.lhs [.word w]) [w]
  | phrase (r : Rule) (cats : List Nat) (ts : List Tree) (u : List Nat) :
      r ∈ G → Alt.seq cats ∈ r.alts → DerivesAll G ts cats u → Derives G (.node r.lhs ts) u
/-- a list of trees for a list of categories -/
inductive DerivesAll (G : List Rule) : List Tree → List Nat → List Nat → Prop where
  | nil : DerivesAll G [] [] []
  | cons (t : Tree) (c : Nat) (u : List Nat) (ts : List Tree) (cs v : List Nat) :
      Derives G t u → t.cat = some c → DerivesAll G ts cs v → DerivesAll G (t :: ts) (c :: cs) (u ++ v)
end

end Eus.Psr
