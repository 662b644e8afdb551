set_option autoImplicit false
/-
lib/llib/base64.l, qsort.l and perm.l.  Strings are lists of bytes (numbers below 256).
-/
namespace Eus.Lib

/-! ### base64.l -/

/-- base64.l:9-15 `bin2base64`; none: the error. -/
def bin2base64 (x : Nat) : Option Nat :=
  if x < 26 then some (x + 65)
  else if x < 52 then some (x + 97 - 26)
  else if x < 62 then some (x + 48 - 52)
  else if x = 62 then some 43
  else if x = 63 then some 47
  else none

/-- base64.l:17-24 `base64tobin` -/
def base64tobin (x : Nat) : Option Nat :=
  if 65 ≤ x ∧ x ≤ 90 then some (x - 65)
  else if 97 ≤ x ∧ x ≤ 122 then some (x - 97 + 26)
  else if 48 ≤ x ∧ x ≤ 57 then some (x - 48 + 52)
  else if x = 43 then some 62
  else if x = 47 then some 63
  else if x = 61 then some 77
  else none

/-- The byte at the new position, shifted; nothing if the string ends. -/
def nextBits (r : List Nat) (k : Nat) : Nat := match r with | [] => 0 | b :: _ => b >>> k

/-- base64.l:30-49: the numbers written by the loop, and the last mode.  The list is the string from position j on. -/
def encLoop : Nat → List Nat → Nat → List Nat × Nat
  | 0, _, m => ([], m)
  | _ + 1, [], m => ([], m)
  | n + 1, b :: r, m =>
    match m with
    | 0 => let p := encLoop n (b :: r) 1; ((b >>> 2) :: p.1, p.2)
    | 1 => let p := encLoop n r 2; ((((b &&& 3) <<< 4) + nextBits r 4) :: p.1, p.2)
    | 2 => let p := encLoop n r 3; ((((b &&& 15) <<< 2) + nextBits r 6) :: p.1, p.2)
    | _ => let p := encLoop n r 0; ((b &&& 63) :: p.1, p.2)

/-- A newline after every 76 characters; c is `outcount`. -/
def breaks : Nat → List Nat → List Nat
  | _, [] => []
  | c, x :: xs => if (c + 1) % 76 = 0 then x :: 10 :: breaks (c + 1) xs else x :: breaks (c + 1) xs

/-- base64.l:26-57 `base64encode`.  The loop takes at most two turns per byte. -/
def encode (s : List Nat) : Option (List Nat) :=
  let p := encLoop (2 * s.length + 1) s 0
  (p.1.mapM bin2base64).map fun cs => breaks 0 (cs ++ if 0 < p.2 then (if p.2 < 3 then [61, 61] else [61]) else [])

/-- base64.l:59-80: the loop of `base64decode`; x is the bits left over.  `write-byte` into a string keeps 8 bits. -/
def decLoop : List Nat → Nat → Nat → Option (List Nat)
  | [], m, x => some (if 0 < m then [x % 256] else [])
  | a :: r, m, x =>
    if 33 < a ∧ a ≠ 61 then
      (base64tobin a).bind fun b =>
        match m with
        | 0 => decLoop r 1 (b <<< 2)
        | 1 => (decLoop r 2 ((b &&& 15) <<< 4)).map (((x ||| (b >>> 4)) % 256) :: ·)
        | 2 => (decLoop r 3 ((b &&& 3) <<< 6)).map (((x ||| (b >>> 2)) % 256) :: ·)
        | _ => (decLoop r 0 (x ||| b)).map (((x ||| b) % 256) :: ·)
    else decLoop r m x

/-- base64.l:59-80 `base64decode` -/
def decode (s : List Nat) : Option (List Nat) := decLoop s 0 0

/-! ### qsort.l

A vector is a function from positions; predicate and key are pure functions.  `k` is one more than in the code, so that it stays a natural number. -/

section Qsort
variable {α κ : Type} (pred : κ → κ → Bool) (key : α → κ)

/-- qsort.l:25-27 -/
def exchange (a : Nat → α) (k j : Nat) : Nat → α := fun i => if i = j then a k else if i = k then a j else a i

/-- qsort.l:9-14 -/
def scanDown (a : Nat → α) (d : α) (j : Nat) : Nat → Nat
  | 0 => 0
  | k + 1 => if k + 1 ≤ j then k + 1 else if pred (key (a k)) (key d) then k + 1 else scanDown a d j k

/-- qsort.l:18-23; the first argument is how far j may go before j > k. -/
def scanUp (a : Nat → α) (d : α) : Nat → Nat → Nat
  | 0, j => j
  | n + 1, j => if pred (key (a j)) (key d) then scanUp a d n (j + 1) else j

/-- How the loop of qsort.l:7-29 ends. -/
inductive Part (α : Type) where
  /-- line 15 -/
  | low
  /-- with this j and this vector -/
  | split (j : Nat) (a : Nat → α)

/-- qsort.l:7-29; none: not finished in this many turns. -/
def part (start : Nat) (d : α) : Nat → (Nat → α) → Nat → Nat → Option (Part α)
  | 0, _, _, _ => none
  | n + 1, a, j, k =>
    if k ≤ j then some (.split j a)
    else
      let k := scanDown pred key a d j k
      if k ≤ start then some .low
      else
        let j := scanUp pred key a d (k - j) j
        if k ≤ j then some (.split j a)
        else part start d n (exchange a (k - 1) j) (j + 1) (k - 1)

/-- qsort.l:1-32 `quick-sort`; none: not finished within this depth of recursion. -/
def quickSort : Nat → (Nat → α) → Nat → Nat → Option (Nat → α)
  | 0, _, _, _ => none
  | n + 1, a, start, end_ =>
    if end_ ≤ start + 1 then some a
    else
      match part pred key start (a start) (end_ + 1) a start end_ with
      | none => none
      | some .low => quickSort n a (start + 1) end_
      | some (.split j a) => (quickSort n a start j).bind fun a => quickSort n a j end_

/-- qsort.l:34-46 `qsort`: a list is copied into a vector and back. -/
def qsort (fuel : Nat) (l : List α) : Option (List α) :=
  match l with
  | [] => some []
  | x :: xs => (quickSort pred key fuel (fun i => (x :: xs).getD i x) 0 (xs.length + 1)).map fun a => (List.range (xs.length + 1)).map a

end Qsort

/-! ### perm.l -/

section Perm
variable {α : Type}

/-- perm.l:11-16 `perm2` -/
def perm2 (a : α) : List α → List α → List (List α) → List (List α)
  | bb, [], dd => (bb ++ [a]) :: dd
  | bb, c :: cc, dd => perm2 a (bb ++ [c]) cc ((bb ++ [a] ++ c :: cc) :: dd)

/-- perm.l:10-22 `list-permutation`.  The lists joined by `mapcan` are new, so joining them is `flatMap`. -/
def listPermutation : List α → List (List α)
  | [] => []
  | [x] => [[x]]
  | x :: y :: r => (listPermutation (y :: r)).flatMap fun p => perm2 x [] p []

/-- perm.l:28-29: the class `permutation`, with the slots `mlist sub-permutation a b c count`.  `nconc` on b is `++`: b is always a new list, or `mlist` itself in an object without `sub-permutation`, where it is not changed. -/
inductive Gen (α : Type) where
  | mk (mlist : List α) (sub : Option (Gen α)) (a : Option α) (b c : List α) (count : Nat)

/-- perm.l:53-58 `:reset` -/
def Gen.reset : Gen α → Gen α
  | .mk l none _ _ _ _ => .mk l none l.head? [] [] 0
  | .mk l (some s) _ _ _ _ => .mk l (some s.reset) l.head? [] [] 0

/-- perm.l:59-64 `:init`.  The slot values before are nil. -/
def Gen.init : List α → Gen α
  | [] => (Gen.mk [] none none [] [] 0).reset
  | [x] => (Gen.mk [x] none none [] [] 0).reset
  | x :: y :: r => (Gen.mk (x :: y :: r) (some (Gen.init (y :: r))) none [] [] 0).reset

/-- perm.l:43-48.  Slot a is bound whenever c is not empty. -/
def Gen.emit (l : List α) (s : Option (Gen α)) (a : Option α) (b c : List α) (n : Nat) : List α × Gen α :=
  match c with
  | [] => ([], .mk l s a b [] n)
  | x :: r => (b ++ a.toList ++ x :: r, .mk l s a (b ++ [x]) r (n + 1))

/-- perm.l:32-48 `:next` -/
def Gen.next : Gen α → List α × Gen α
  | .mk l (some s) a b [] n =>
    match b with
    | [] => let p := s.next; Gen.emit l (some p.2) a [] p.1 n
    | y :: r => (y :: r ++ a.toList, .mk l (some s) a [] [] (n + 1))
  | .mk l none a b [] n =>
    match b with
    | [] => (l, .mk l none a l [] (n + 1))
    | y :: r => ([], .mk l none a (y :: r) [] n)
  | .mk l s a b (x :: r) n => Gen.emit l s a b (x :: r) n

/-- perm.l:49-52 `:all`; none: not finished in this many turns. -/
def Gen.all : Nat → Gen α → List (List α) → Option (List (List α))
  | 0, _, _ => none
  | n + 1, g, r =>
    let p := g.next
    if p.1.isEmpty then some r else Gen.all n p.2 (p.1 :: r)

/-- The arguments of the function given to `mapcon` (lisp/c/lists.c, MAPCON): the tails, without the empty one. -/
def tails : List α → List (List α)
  | [] => []
  | x :: r => (x :: r) :: tails r

/-- perm.l:74-80 `combi`.  The number r may be any integer; recursion is on the depth, at most the length of the list. -/
def combiN : Nat → List α → Int → List (List α)
  | 0, _, _ => []
  | n + 1, l, r =>
    if r = 1 then l.map fun x => [x]
    else (tails l).flatMap fun y => match y with
      | [] => []
      | x :: d => (combiN n d (r - 1)).map (x :: ·)

def combi (l : List α) (r : Int) : List (List α) := combiN (l.length + 1) l r

/-- perm.l:82-87 `combi2` -/
def combi2 (l : List α) : List (List α) :=
  (tails l).flatMap fun y => match y with
    | [] => []
    | x :: d => d.map fun z => [x, z]

end Perm

/-! ### time.l

Numbers are integers without bound.  `/` and `mod` of Lisp are the truncating ones of C (lisp/c/arith.c:360-373). -/

/-- time.l:66-71 `leap-year-p` -/
def leapYearP (y : Int) : Bool := (y.tmod 4 = 0 && y.tmod 100 ≠ 0) || y.tmod 400 = 0

/-- time.l:39: `*month-days*` after its February has been set. -/
def monthDays (feb : Int) : List Int := [31, feb, 31, 30, 31, 30, 31, 31, 30, 31, 30, 31]

/-- The slots of a calendar-time that `:init` sets, except micros, timezone and dst. -/
structure Cal where
  years : Int
  /-- January is 0 -/
  months : Nat
  days : Int
  hours : Int
  minutes : Int
  seconds : Int
  weekday : Int
  total : Int
deriving DecidableEq

/-- time.l:342-344: the loop over the months; none: the array reference fails. -/
def monthLoop (md : List Int) : Nat → Nat → Int → Option (Nat × Int)
  | 0, _, _ => none
  | n + 1, m, d =>
    match md[m]? with
    | none => none
    | some k => if d > k then monthLoop md n (m + 1) (d - k) else some (m, d)

/-- time.l:326-333: the day in the year and the years from 1970. -/
def splitYear (days : Int) : Int × Int :=
  let leaps := days.tdiv (365 + 365 + 365 + 366)
  let years := 4 * leaps
  let days := days - leaps * (365 + 365 + 365 + 366)
  let p := if days ≥ 365 then (days - 365, years + 1) else (days, years)
  let p := if p.1 ≥ 365 then (p.1 - 365, p.2 + 1) else p
  if p.1 ≥ 366 then (p.1 - 366, p.2 + 1) else p

/-- time.l:307-347 `:init` -/
def calInit (secs tzone : Int) : Option Cal :=
  let secs := secs - tzone
  let days := secs.tdiv 86400
  let seconds := secs - days * 86400
  let hours := seconds.tdiv 3600
  let weekday := (days + 4).tmod 7
  let p := splitYear days
  let seconds := seconds - hours * 3600
  let minutes := seconds.tdiv 60
  let seconds := seconds - minutes * 60
  let years := p.2 + 1970
  let feb := if leapYearP years then 29 else 28
  (monthLoop (monthDays feb) 13 0 (p.1 + 1)).map fun p => ⟨years, p.1, p.2, hours, minutes, seconds, weekday, secs⟩

/-- time.l:59-61: the days of the months before the given one (January is 0). -/
def daysBefore (md : List Int) : Nat → Int
  | 0 => 0
  | m + 1 => md.getD m 0 + daysBefore md m

/-- time.l:52-62 `year-day`.  When the year is not given it is that of the clock, counted from 1900. -/
def yearDay (month : Nat) (day year : Int) : Int :=
  daysBefore (monthDays (if year.tmod 4 = 0 then 29 else 28)) month + (day - 1)

/-- time.l:389-397 `:compute-seconds`, with `:year-day` of line 388, which does not pass the year; clock is the present year counted from 1900. -/
def computeSeconds (clock : Int) (years : Int) (months : Nat) (days hours minutes seconds : Int) : Int :=
  let leaps := (years - 1970 + 1).tdiv 4
  let days := yearDay months days clock
  seconds + 60 * (minutes + 60 * (hours + 24 * ((years - 1970) * 365 + leaps + days)))

/-- time.l:74-86 `secs-since-1970`: month 0 is January. -/
def secsSince1970 (clock : Int) (year : Int) (month : Nat) (day hour minute second : Int) : Int :=
  let year := if year > 1900 then year - 1900 else year
  let years := year - 70
  let leaps := (years + 1).tdiv 4
  let days := yearDay month day clock
  second + 60 * (minute + 60 * (hour + 24 * (years * 365 + leaps + days)))

/-- time.l:348-365 `:make` for a month given as a number (1 is January). -/
def calMake (clock : Int) (year : Int) (month : Nat) (day hour minute second : Int) : Cal :=
  let secs := secsSince1970 clock year month day hour minute second
  ⟨year, month - 1, day, hour, minute, second, (4 + secs.tdiv 86400).tmod 7, computeSeconds clock year (month - 1) day hour minute second⟩

end Eus.Lib
