import Verif.Lib.Model
set_option autoImplicit false
/-
Specifications for the library files base64.l, qsort.l and perm.l.
-/
namespace Eus.Lib


/-- The digits of base 64 (RFC 2045). -/
def digits : List Char := "ABCDEFGHIJKLMNOPQRSTUVWXYZabcdefghijklmnopqrstuvwxyz0123456789+/".toList

def digit (n : Nat) : Nat := (digits.getD n '?').toNat

/-- RFC 2045: three bytes make a number of 24 bits, written with four digits to the base 64; at the end zeros are added, and digits that consist of added bits only are written `=`. -/
def rfc : List Nat → List Nat
  | a :: b :: c :: r =>
    let n := a * 65536 + b * 256 + c
    digit (n / 262144) :: digit (n / 4096 % 64) :: digit (n / 64 % 64) :: digit (n % 64) :: rfc r
  | [a, b] =>
    let n := a * 65536 + b * 256
    [digit (n / 262144), digit (n / 4096 % 64), digit (n / 64 % 64), 61]
  | [a] =>
    let n := a * 65536
    [digit (n / 262144), digit (n / 4096 % 64), 61, 61]
  | [] => []

/-- A text in lines: after every full 76 characters a newline. -/
def inLines (n : Nat) (t : List Nat) : List Nat :=
  match n with
  | 0 => t
  | n + 1 => if t.length < 76 then t else t.take 76 ++ [10] ++ inLines n (t.drop 76)

/-- The characters that count. -/
def significant (s : List Nat) : List Nat := s.filter (fun c => 33 < c ∧ c ≠ 61)


/-- A strict (partial) order. -/
structure StrictOrder {κ : Type} (lt : κ → κ → Bool) : Prop where
  irrefl : ∀ x, lt x x = false
  trans : ∀ x y z, lt x y = true → lt y z = true → lt x z = true

/-- n! -/
def factorial : Nat → Nat
  | 0 => 1
  | n + 1 => (n + 1) * factorial n

/-- The number of ways to choose r out of n. -/
def binomial : Nat → Nat → Nat
  | _, 0 => 1
  | 0, _ + 1 => 0
  | n + 1, r + 1 => binomial n r + binomial n (r + 1)

/-- The results of sending `:next` n times. -/
def Gen.take {α : Type} : Nat → Gen α → List (List α)
  | 0, _ => []
  | n + 1, g => g.next.1 :: Gen.take n g.next.2

/-! ### The Gregorian calendar -/

def isLeap (y : Nat) : Prop := y % 4 = 0 ∧ y % 100 ≠ 0 ∨ y % 400 = 0

instance (y : Nat) : Decidable (isLeap y) := by unfold isLeap; infer_instance

/-- The days of year y before month m (1 is January). -/
def monthLength (y m : Nat) : Nat :=
  if m = 2 then (if isLeap y then 29 else 28)
  else if m = 4 ∨ m = 6 ∨ m = 9 ∨ m = 11 then 30 else 31

def yearLength (y : Nat) : Nat := if isLeap y then 366 else 365

/-- The days of the k years from 1970 on. -/
def daysOfYears : Nat → Nat
  | 0 => 0
  | k + 1 => daysOfYears k + yearLength (1970 + k)

/-- The days of the k months of year y from January on. -/
def daysOfMonths (y : Nat) : Nat → Nat
  | 0 => 0
  | k + 1 => daysOfMonths y k + monthLength y (k + 1)

/-- The days from January 1st, 1970 to a date. -/
def dayNumber (y m d : Nat) : Nat := daysOfYears (y - 1970) + daysOfMonths y (m - 1) + (d - 1)

/-- A date and time of day that exist. -/
structure Moment where
  year : Nat
  month : Nat
  day : Nat
  hour : Nat
  minute : Nat
  second : Nat

def Moment.valid (t : Moment) : Prop :=
  1970 ≤ t.year ∧ 1 ≤ t.month ∧ t.month ≤ 12 ∧ 1 ≤ t.day ∧ t.day ≤ monthLength t.year t.month ∧ t.hour < 24 ∧ t.minute < 60 ∧ t.second < 60

/-- The seconds from the beginning of 1970 to a moment. -/
def Moment.seconds (t : Moment) : Nat := ((dayNumber t.year t.month t.day * 24 + t.hour) * 60 + t.minute) * 60 + t.second

/-- 0 is Sunday; January 1st, 1970 was a Thursday. -/
def Moment.weekday (t : Moment) : Nat := (dayNumber t.year t.month t.day + 4) % 7

/-- What the calendar-time says. -/
def Cal.shows (c : Cal) (t : Moment) : Prop :=
  c.years = t.year ∧ c.months + 1 = t.month ∧ c.days = t.day ∧ c.hours = t.hour ∧ c.minutes = t.minute ∧ c.seconds = t.second

end Eus.Lib
