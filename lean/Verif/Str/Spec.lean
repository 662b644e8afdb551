import Verif.Str.Model
set_option autoImplicit false
/-
Strings as lists of bytes.
-/
namespace Eus.Str

/-- `s` comes before `t`: it is a proper prefix, or has a smaller byte where they first differ. -/
def Before (s t : List Nat) : Prop :=
  (∃ b r, t = s ++ b :: r) ∨ ∃ p a b r r', s = p ++ a :: r ∧ t = p ++ b :: r' ∧ a < b

/-- No zero byte. -/
def NoNul (s : List Nat) : Prop := ∀ c ∈ s, c ≠ 0

/-- The characters from `i` up to `j`, exclusive. -/
def Seg (s : List Nat) (i j : Nat) : List Nat := (s.take j).drop i

/-- The letter in upper case. -/
def up (c : Nat) : Nat := if 97 ≤ c ∧ c ≤ 122 then c - 32 else c
/-- The letter in lower case. -/
def low (c : Nat) : Nat := if 65 ≤ c ∧ c ≤ 90 then c + 32 else c

/-- `r` is `s` without the characters of the bag at both ends. -/
def Trimmed (bag s r : List Nat) : Prop :=
  ∃ a b, s = a ++ r ++ b ∧ (∀ c ∈ a, c ∈ bag) ∧ (∀ c ∈ b, c ∈ bag) ∧
    (∀ c ∈ r.head?, c ∉ bag) ∧ ∀ c ∈ r.getLast?, c ∉ bag

/-- `sub` is part of `str`, but for the case of letters. -/
def PartOf (sub str : List Nat) : Prop := ∃ a m b, str = a ++ m ++ b ∧ m.map up = sub.map up

/-- The value of a sequence of decimal digits. -/
def decVal (ds : List Nat) : Nat := ds.foldl (fun v c => 10 * v + (c - 48)) 0

/-- A slash that follows a slash is dropped. -/
def collapse : List Nat → List Nat
  | [] => []
  | [c] => [c]
  | c :: d :: r => if c = 47 ∧ d = 47 then collapse (d :: r) else c :: collapse (d :: r)

end Eus.Str
