set_option autoImplicit false
/-
What days, hours, minutes and seconds mean.
-/
namespace Eus.Itv

/-- n seconds are d days, h hours, m minutes and s seconds: the hours are fewer than 24, the minutes and seconds fewer than 60, and for a negative interval
none of them is positive -/
def Shows (n d h m s : Int) : Prop :=
  n = 86400 * d + 3600 * h + 60 * m + s ∧
  ((0 ≤ d ∧ 0 ≤ h ∧ h < 24 ∧ 0 ≤ m ∧ m < 60 ∧ 0 ≤ s ∧ s < 60) ∨ (d ≤ 0 ∧ h ≤ 0 ∧ -24 < h ∧ m ≤ 0 ∧ -60 < m ∧ s ≤ 0 ∧ -60 < s))

end Eus.Itv
