import Verif.Mix.Model
set_option autoImplicit false
/-
What mixed arithmetic should compute: exact arithmetic on the integers and ratios up to the first float, which then
makes everything float ("contagion").  Only the type of numbers and the operations of doubles are taken from the
model.
-/
namespace Eus.Mix.Spec

variable {F : Type} (fl : Fl F)

/-- The exact value of a number that has one. -/
def val : N F → ℚ
  | .fix n => n
  | .big n => n
  | .rat q => q
  | _ => 0

/-- The float nearest to a number. -/
def toF : N F → F
  | .fix n => fl.conv n
  | .big n => fl.ofBig n
  | .rat q => fl.conv q
  | .flt x => x
  | .other => fl.one

/-- The number of an exact value: an integer if it is one. -/
def exact (q : ℚ) : N F := if q.den = 1 then .fix q.num else .rat q

/-- An operation over the arguments, starting from an exact value. -/
def result (opQ : ℚ → ℚ → ℚ) (opF : F → F → F) : ℚ → List (N F) → N F
  | q, [] => exact q
  | q, .flt x :: r => .flt ((r.map (toF fl)).foldl opF (opF (fl.conv q) x))
  | q, .fix n :: r => result opQ opF (opQ q n) r
  | q, .big n :: r => result opQ opF (opQ q n) r
  | q, .rat p :: r => result opQ opF (opQ q p) r
  | q, .other :: r => result opQ opF q r

/-- The same, starting from the first argument. -/
def resultFrom (opQ : ℚ → ℚ → ℚ) (opF : F → F → F) : N F → List (N F) → N F
  | .flt x, r => .flt ((r.map (toF fl)).foldl opF x)
  | a, r => result fl opQ opF (val a) r

def isFix : N F → Bool
  | .fix _ => true
  | _ => false

def isFlt : N F → Bool
  | .flt _ => true
  | _ => false

def isRat : N F → Bool
  | .rat _ => true
  | _ => false

/-- Fixnums, ratios in lowest terms and not integers, and floats. -/
def Simple : N F → Prop
  | .fix n => -2 ^ 61 ≤ n ∧ n < 2 ^ 61
  | .rat q => q.den ≠ 1
  | .flt _ => True
  | _ => False

/-- Every initial part made of fixnums has an intermediate result that is a fixnum. -/
def InRange (op : ℚ → ℚ → ℚ) (start : ℚ) (args : List (N F)) : Prop :=
  ∀ k, (∀ a ∈ args.take k, isFix a) → |((args.take k).map val).foldl op start| < 2 ^ 61

/-- No ratio before the first float, if there is a float. -/
def NoRatFlt : List (N F) → Prop
  | [] => True
  | .flt _ :: _ => True
  | .rat _ :: r => ∀ a ∈ r, isFlt a = false
  | _ :: r => NoRatFlt r

/-- How two numbers compare: exactly if both are exact, as floats otherwise. -/
def relQ : Cmp → ℚ → ℚ → Prop
  | .gt, a, b => b < a
  | .lt, a, b => a < b
  | .ge, a, b => b ≤ a
  | .le, a, b => a ≤ b

def relF [LinearOrder F] : Cmp → F → F → Prop
  | .gt, a, b => b < a
  | .lt, a, b => a < b
  | .ge, a, b => b ≤ a
  | .le, a, b => a ≤ b

def rel [LinearOrder F] (c : Cmp) (a b : N F) : Prop :=
  if isFlt a ∨ isFlt b then relF c (toF fl a) (toF fl b) else relQ c (val a) (val b)

/-- Equality likewise. -/
def same (a b : N F) : Prop := if isFlt a ∨ isFlt b then toF fl a = toF fl b else val a = val b

/-- Doubles without NaN: compared as a linear order. -/
structure Ordered [LinearOrder F] : Prop where
  lt : ∀ a b, fl.lt a b = decide (a < b)
  le : ∀ a b, fl.le a b = decide (a ≤ b)
  eq : ∀ a b, fl.eq a b = decide (a = b)

/-- The conversion keeps the order of the exact arguments. -/
def Faithful [LinearOrder F] (args : List (N F)) : Prop :=
  ∀ a ∈ args, ∀ b ∈ args, isFlt a = false → isFlt b = false →
    (toF fl a < toF fl b ↔ val a < val b) ∧ (toF fl a = toF fl b ↔ val a = val b)

end Eus.Mix.Spec
