import Verif.Rms.Model
set_option autoImplicit false
/- C221 in its own words -/
namespace Eus.Rms.Spec

/-- a world makes a clause true if it makes one of its links true -/
def True_ (v : Nat → Bool) (links : List (Bool × Nat)) : Prop := ∃ l ∈ links, v l.2 = l.1

/-- a world in which all the clauses are true -/
def World (lk : Links) (cs : List Nat) (v : Nat → Bool) : Prop := ∀ c ∈ cs, True_ v (lk c)

/-- a link contradicts the labels -/
def False_ (lab : Nat → Option Bool) (l : Bool × Nat) : Prop := lab l.2 = some (!l.1)

/-- the clauses that are asserted and not retracted afterwards, besides those of `cs` -/
def remain (cs : List Nat) : List Op → List Nat
  | [] => cs
  | .assert c :: l => remain (c :: cs) l
  | .retract c :: l => remain (cs.filter (· ≠ c)) l

end Eus.Rms.Spec
