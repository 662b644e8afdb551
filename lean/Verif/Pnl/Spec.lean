import Verif.Pnl.Model
set_option autoImplicit false
/- C220 in its own words -/
namespace Eus.Pnl.Spec

/-- no pixel belongs to both -/
def Apart (a b : Item) : Prop :=
  ∀ px py : Int, ¬ ((a.x ≤ px ∧ px < a.x + a.w ∧ a.y ≤ py ∧ py < a.y + a.h) ∧ (b.x ≤ px ∧ px < b.x + b.w ∧ b.y ≤ py ∧ py < b.y + b.h))

/-- `b` comes after `a`, as words on a page: right of it in the same row, or below it -/
def After (b a : Item) : Prop := (a.y = b.y ∧ a.x + a.w ≤ b.x) ∨ a.y + a.h ≤ b.y

end Eus.Pnl.Spec
