import Verif.Num.Model
/-
What an integer object denotes, independently of the algorithms.  big.c:8-14: a bignum is a vector
of words from LSB to MSB; the sign bit is not used except in the most significant word, which holds
the sign.  So the value is `w₀ + 2^63 w₁ + … + 2^(63(n-1)) w_{n-1}` with `w_{n-1}` signed.
-/
namespace Eus.Num

/-- The integer denoted by a bignum vector. -/
def limbsVal : List Word → Int
  | [] => 0
  | [t] => t.toInt
  | l :: rest => (l.toNat : Int) + 2 ^ 63 * limbsVal rest

/-- A well-formed bignum vector: at least one word, and the sign bit is clear in every word but the
most significant. -/
def WFv : List Word → Prop
  | [] => False
  | [_] => True
  | l :: rest => l.toNat < 2 ^ 63 ∧ WFv rest

/-- The integer denoted by an integer object. -/
def Num.val : Num → Int
  | .fix w => w.toInt
  | .big v => limbsVal v

/-- The fixnum range. -/
def InFix (z : Int) : Prop := -2 ^ 61 ≤ z ∧ z < 2 ^ 61

/-- A well-formed integer object: an immediate in the fixnum range, or a well-formed bignum. -/
def Num.WF : Num → Prop
  | .fix w => InFix w.toInt
  | .big v => WFv v

/-- Canonical form: a bignum is only used for a value that is not a fixnum, and its vector has no
redundant word (the value would not fit in one word less). -/
def Num.Canonical : Num → Prop
  | .fix w => InFix w.toInt
  | .big v => WFv v ∧ ¬ InFix (limbsVal v) ∧
      (v.length ≥ 2 → ¬ (-(2 ^ 63) ^ (v.length - 1) ≤ limbsVal v ∧
                          limbsVal v < (2 ^ 63) ^ (v.length - 1)))

/-- Sum of the values of a list of integer objects. -/
def valSum (l : List Num) : Int := (l.map Num.val).sum

/-- Product of the values of a list of integer objects. -/
def valProd (l : List Num) : Int := (l.map Num.val).prod

/-- The objects of a list are fixnums. -/
def AllFix (l : List Num) : Prop := ∀ a ∈ l, ∃ w : Word, a = .fix w ∧ InFix w.toInt

/-- Integer division truncating towards zero, left to right: `(/ x d₁ d₂ …)`. -/
def valQuot (x : Num) (ds : List Num) : Int := (ds.map Num.val).foldl Int.tdiv x.val

/-- Two negative bignums of the same number of words, with the same most significant word, that are
not the same vector.  These are the pairs the code compares wrongly. -/
def BadPair (a b : Num) : Prop :=
  ∃ u v, a = .big u ∧ b = .big v ∧ limbsVal u < 0 ∧ limbsVal v < 0 ∧ u.length = v.length ∧
    u.getLastD 0 = v.getLastD 0 ∧ u ≠ v

end Eus.Num
