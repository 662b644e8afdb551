set_option autoImplicit false
/-
The sieve `prime` of `lib/demo/prime.l`.  An array of n marks; `none` as the result: an index out of range, which is an error.
-/
namespace Eus.Sie

/-- prime.l:4 `(ceiling (sqrt n))`.  The square root is exact here; the program uses the one of floats. -/
def ceilSqrt (n : Nat) : Nat := ((List.range (n + 1)).find? fun k => decide (n ≤ k * k)).getD n

/-- `(setf (aref a i) v)` -/
def setAt (a : List Bool) (i : Nat) (v : Bool) : Option (List Bool) := if i < a.length then some (a.set i v) else none

/-- prime.l:12-15: the multiples of i from j on; i = 0 would not end and does not occur -/
def strike (n i : Nat) (a : List Bool) (j : Nat) : Option (List Bool) :=
  if h : j < n ∧ 0 < i then
    match setAt a j false with
    | some b => strike n i b (j + i)
    | none => none
  else some a
termination_by n - j

/-- prime.l:10-16: the loop over i -/
def sieve (n e : Nat) (a : List Bool) (i : Nat) : Option (List Bool) :=
  if h : i < e then
    match a[i]? with
    | none => none
    | some true =>
      match strike n i a (i + i) with
      | some b => sieve n e b (i + 1)
      | none => none
    | some false => sieve n e a (i + 1)
  else some a
termination_by e - i

/-- prime.l:18-21: `push` of what is not struck out -/
def collect (n : Nat) (a : List Bool) (i : Nat) (r : List Nat) : Option (List Nat) :=
  if h : i < n then
    match a[i]? with
    | none => none
    | some true => collect n a (i + 1) (i :: r)
    | some false => collect n a (i + 1) r
  else some r
termination_by n - i

/-- prime.l:1-22 -/
def prime (n : Nat) : Option (List Nat) :=
  match setAt (List.replicate n true) 2 true with
  | none => none
  | some a => match setAt a 3 true with
    | none => none
    | some a => match sieve n (ceilSqrt n) a 2 with
      | none => none
      | some a => collect n a 2 []

end Eus.Sie
