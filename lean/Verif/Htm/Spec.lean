import Verif.Htm.Model
set_option autoImplicit false
/-
What `~` means in a format string without directives, and documents with elements that are not nested.
-/
namespace Eus.Htm

/-- a format string without directives other than `~~` -/
def shown : List Char → Option (List Char)
  | [] => some []
  | '~' :: '~' :: l => (shown l).map ('~' :: ·)
  | '~' :: _ => none
  | c :: l => (shown l).map (c :: ·)

/-- not a tag `t` or `/t` -/
def Other (t : String) : Item → Prop
  | .tag n _ => n ≠ t ∧ n ≠ "/" ++ t
  | .text _ => True

/-- before, and a list of (inside, after) -/
def document (t : String) (before : List Item) : List (List String × List Item × List Item) → List Item
  | [] => before
  | (args, inside, after) :: l => before ++ [.tag t args] ++ inside ++ [.tag ("/" ++ t) []] ++ document t after l

end Eus.Htm
