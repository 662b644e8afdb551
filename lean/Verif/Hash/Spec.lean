import Verif.Hash.Model
set_option autoImplicit false
/-
Specification of hash tables: a finite map up to the table's test.
-/
namespace Eus.Hash

variable {K V : Type}

/-- The user's obligations on test and hash: the test is an equivalence and equal keys hash alike. -/
structure Cfg.Lawful (c : Cfg K) : Prop where
  refl : ∀ a, c.test a a = true
  symm : ∀ a b, c.test a b = true → c.test b a = true
  trans : ∀ a b d, c.test a b = true → c.test b d = true → c.test a d = true
  hash : ∀ a b, c.test a b = true → c.hash a = c.hash b

/-- What a sequence of calls means: the value most recently stored and not since removed. -/
def meaning (test : K → K → Bool) : List (Op K V) → K → Option V
  | [], _ => none
  | o :: earlier, k =>
    match o with
    | .set k' v => if test k' k then some v else meaning test earlier k
    | .rem k' => if test k' k then none else meaning test earlier k
    | .clr => none

end Eus.Hash
