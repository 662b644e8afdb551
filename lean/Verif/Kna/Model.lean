set_option autoImplicit false
/-
Japanese character codes: lib/llib/kana_euc.l:306-398 (`sjis2euc`, `euc2sjis`, `jis2euc`; the same in kana_sjis.l and, for `jis2euc`, in kanji.l).
Strings are lists of bytes.
-/
namespace Eus.Kna

/-- kana_euc.l:307-313: the first byte -/
def sjisHi (hi low : Nat) : Nat :=
  if hi ≤ 0x9f then (if low < 0x9f then 2 * hi - 0xE1 else 2 * hi - 0xE0)
  else if low < 0x9f then (if low < 0x9f then 2 * hi - 0x161 else 2 * hi - 0x160) else hi

/-- kana_euc.l:314-318: the second byte -/
def sjisLow (low : Nat) : Nat := if low < 0x7f then low - 0x1f else if low < 0x9f then low - 0x20 else low - 0x7e

/-- kana_euc.l:306-320 `sjis2euc-char` -/
def sjis2eucChar (hi low : Nat) : List Nat := [0x80 ||| sjisHi hi low, 0x80 ||| sjisLow low]

/-- kana_euc.l:330: the first byte of a Shift-JIS character -/
def sjisLead (ch1 : Nat) : Bool := (0x80 < ch1 ∧ ch1 < 0xA0) ∨ (0xE0 ≤ ch1 ∧ ch1 ≤ 0xEF)

/-- kana_euc.l:332-333 -/
def sjisTrail (ch2 : Nat) : Bool := 0x40 ≤ ch2 ∧ ch2 ≤ 0xfc ∧ ch2 ≠ 0x7f

/-- kana_euc.l:322-339 `sjis2euc`; `eucp`: no more conversion -/
def sjis2euc : Bool → List Nat → List Nat
  | _, [] => []
  | eucp, [ch1] =>
    if eucp ∨ ch1 < 0x80 then [ch1] else if sjisLead ch1 then [ch1] else [ch1]
  | eucp, ch1 :: ch2 :: rest =>
    if eucp ∨ ch1 < 0x80 then ch1 :: sjis2euc eucp (ch2 :: rest)
    else if sjisLead ch1 then
      (if sjisTrail ch2 then sjis2eucChar ch1 ch2 else [ch1, ch2]) ++ sjis2euc eucp rest
    else ch1 :: sjis2euc true (ch2 :: rest)

/-- kana_euc.l:341-355 `euc2sjis-char` (`c2`: the first byte) -/
def euc2sjisChar (b2 b1 : Nat) : List Nat :=
  let c2 := 0x7f &&& b2
  let c1 := 0x7f &&& b1
  [(c2 - 1) / 2 + (if c2 ≤ 0x5e then 0x71 else 0xb1), c1 + (if c2 % 2 = 1 then (if c1 < 0x60 then 0x1f else 0x20) else 0x7e)]

/-- kana_euc.l:357-371 `euc2sjis` -/
def euc2sjis : List Nat → List Nat
  | [] => []
  | [ch1] => [ch1]
  | ch1 :: ch2 :: rest =>
    if 0x81 ≤ ch1 ∧ ch1 ≤ 0xf0 then
      (if 0x81 ≤ ch2 ∧ ch2 ≤ 0xfe then euc2sjisChar ch1 ch2 else [ch1, ch2]) ++ euc2sjis rest
    else ch1 :: euc2sjis (ch2 :: rest)

/-- State of `jis2euc`: `estr` up to `e`, `kanji`, `escape`, `esc1`. -/
structure J where
  out : List Nat
  kanji : Bool
  escape : Nat
  esc1 : Nat
deriving DecidableEq, Repr

/-- kana_euc.l:376 `put-estr` into a string of length `n`; `none`: index error -/
def put (n : Nat) (s : J) (ch : Nat) : Option J := if s.out.length < n then some { s with out := s.out ++ [ch] } else none

/-- several `put-estr` -/
def puts (n : Nat) : J → List Nat → Option J
  | s, [] => some s
  | s, c :: cs => (put n s c).bind fun s => puts n s cs

/-- kana_euc.l:378-397: one character -/
def jstep (n : Nat) (s : J) (jch : Nat) : Option J :=
  if s.escape = 0 then
    if jch = 0x1b then some { s with escape := 1 } else put n s ((if s.kanji then 0x80 else 0) ||| jch)
  else if s.escape = 1 then
    if jch = 36 then some { s with esc1 := jch, escape := 2 }
    else if jch = 40 then some { s with esc1 := jch, escape := 4 }
    else puts n { s with esc1 := jch } [0x1b, jch]
  else if s.escape = 2 then
    if jch = 66 ∨ jch = 64 then some { s with escape := 0, kanji := true } else puts n s [0x1b, s.esc1, jch]
  else if s.escape = 4 then
    if jch = 74 then some { s with escape := 0, kanji := false } else puts n s [0x1b, s.esc1, jch]
  else some s

/-- kana_euc.l:377-397: the loop -/
def jloop (n : Nat) : J → List Nat → Option J
  | s, [] => some s
  | s, c :: cs => (jstep n s c).bind fun s => jloop n s cs

/-- kana_euc.l:373-398 `jis2euc` -/
def jis2euc (jstr : List Nat) : Option (List Nat) := (jloop jstr.length ⟨[], false, 0, 0⟩ jstr).map J.out

end Eus.Kna
