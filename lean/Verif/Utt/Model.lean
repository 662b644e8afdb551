set_option autoImplicit false
/-
lib/llib/unittest.l: the counts, the exit status and the XML report of a run of unit tests.

Simplifications: a test is the list of what happens in it (`Act`); symbols are given by their printed
names (lists of character codes); times are given by their decimal digits; the coloured messages on
the error output are left out.
-/
namespace Eus.Utt

/-! ### escape-xml-string -/

/-- `(setf (elt str2 i2) c)`: an error (`none`) outside the string. -/
def put (b : List Nat) (i c : Nat) : Option (List Nat) := if i < b.length then some (b.set i c) else none

/-- unittest.l:21-40 the stores made for one character, without the increment of the loop: the new
string and the last index written. Characters: 60 is <, 62 is >, 38 is &, 59 is ;, 94 is ^. -/
def escStep (c : Nat) (i : Nat) (b : List Nat) : Option (Nat × List Nat) :=
  if c = 60 then do
    let b ← put b i 38
    let b ← put b (i + 1) 108
    let b ← put b (i + 2) 116
    let b ← put b (i + 3) 59
    pure (i + 3, b)
  else if c = 62 then do
    let b ← put b i 38
    let b ← put b (i + 1) 103
    let b ← put b (i + 2) 116
    let b ← put b (i + 3) 59
    pure (i + 3, b)
  else if c = 38 then do
    let b ← put b i 38
    let b ← put b (i + 1) 97
    let b ← put b (i + 2) 109
    let b ← put b (i + 3) 112
    let b ← put b (i + 4) 59
    pure (i + 4, b)
  else if c = 27 then do
    let b ← put b i 94
    pure (i, b)
  else do
    let b ← put b i c
    pure (i, b)

/-- unittest.l:18-20 the loop, over the characters of `str1` from `i1` on. -/
def escLoop : List Nat → Nat → List Nat → Option (List Nat)
  | [], _, b => some b
  | c :: s, i, b => (escStep c i b).bind fun r => escLoop s (r.1 + 1) r.2

/-- unittest.l:13-42 `escape-xml-string`; a new string is filled with zeros. -/
def escape (s : List Nat) : Option (List Nat) :=
  escLoop s 0 (List.replicate (s.length + s.count 60 * 3 + s.count 62 * 3 + s.count 38 * 4) 0)

/-! ### results -/

/-- A failed assertion: what was tested, the message, the trace, as printed (`prin1-to-string`). -/
structure Fail where
  test : List Nat
  msg : List Nat
  trace : List Nat
deriving DecidableEq, Repr

/-- unittest.l:68-72 `unit-test-result`. -/
structure Res where
  name : List Nat
  tests : List (List Nat)
  failures : List Fail
  time : List Nat
deriving DecidableEq, Repr

/-- unittest.l:74 -/
def Res.numTests (r : Res) : Nat := r.tests.length
/-- unittest.l:75 -/
def Res.numFailures (r : Res) : Nat := if r.failures = [] then 0 else 1
/-- unittest.l:76 -/
def Res.numSuccesses (r : Res) : Int := (r.numTests : Int) - r.numFailures

/-- What happens in a test: an assertion that holds, one that fails, an error or a signal (the
handlers do the same, unittest.l:44-66). -/
inductive Act where
  | pass
  | fail (f : Fail)
  | err (f : Fail)
deriving DecidableEq, Repr

/-- unittest.l:128-130 `:increment-failure` and :125-127 `:increment-test`, on the newest result. -/
def addFailure (f : Fail) : List Res → List Res
  | [] => []
  | r :: rs => { r with failures := f :: r.failures } :: rs

/-- unittest.l:125-127 -/
def addTest (t : List Nat) : List Res → List Res
  | [] => []
  | r :: rs => { r with tests := t :: r.tests } :: rs

/-- unittest.l:135-137 -/
def setTime (t : List Nat) : List Res → List Res
  | [] => []
  | r :: rs => { r with time := t } :: rs

/-- `all-test` -/
def allTest : List Nat := [97, 108, 108, 45, 116, 101, 115, 116]

/-- unittest.l:50-52: a test and a failure are pushed onto the oldest result. -/
def putLast (f : Fail) : List Res → List Res
  | [] => []
  | [r] => [{ r with tests := allTest :: r.tests, failures := f :: r.failures }]
  | r :: rs => r :: putLast f rs

/-- The body of a test (unittest.l:234-246 `assert`, :44-58 `unittest-error`): `true`, with an error
the handler has put a failure into `all-test` and the program is about to print and exit. -/
def body : List Act → List Res → Bool × List Res
  | [], rs => (false, rs)
  | .pass :: as, rs => body as rs
  | .fail f :: as, rs => body as (addFailure f rs)
  | .err f :: _, rs => (true, putLast f rs)

/-- A test as it is run: its name, what happens, and how long it takes. -/
structure Test where
  name : List Nat
  acts : List Act
  time : List Nat
deriving DecidableEq, Repr

/-- unittest.l:191-200 `run-test`. -/
def runTest (t : Test) (rs : List Res) : Bool × List Res :=
  match body t.acts (addTest t.name ({ name := t.name, tests := [], failures := [], time := [48] } :: rs)) with
  | (true, rs) => (true, rs)
  | (false, rs) => (false, setTime t.time rs)

/-- unittest.l:205-206. -/
def runTests : List Test → List Res → Bool × List Res
  | [], rs => (false, rs)
  | t :: ts, rs =>
    match runTest t rs with
    | (true, rs) => (true, rs)
    | (false, rs) => runTests ts rs

/-- What a run leaves: the results (newest first), the totals printed, and the exit status (`none`:
`run-all-tests` returns T). -/
structure Report where
  result : List Res
  tests : Nat
  passed : Int
  failures : Nat
  exit : Option Nat

/-- unittest.l:158-165 the totals. -/
def report (rs : List Res) (exit : Option Nat) : Report :=
  { result := rs, tests := (rs.map Res.numTests).sum, passed := (rs.map Res.numSuccesses).sum,
    failures := (rs.map Res.numFailures).sum, exit := exit }

/-- unittest.l:202-212 `run-all-tests`; `:clear-result` (:141-145) leaves one result, `all-test`. -/
def runAll (ts : List Test) : Report :=
  match runTests ts [{ name := allTest, tests := [], failures := [], time := [48] }] with
  | (true, rs) => report rs (some 1)
  | (false, rs) => report rs (if rs.any (fun x => x.numFailures != 0) then some 1 else none)

/-- unittest.l:182-189 `deftest` and :124 `:add-function`: the definition replaces an older one of
the same name, the name is pushed again. -/
def deftest (defs : List (List Nat × List Act)) (fs : List (List Nat)) (n : List Nat) (as : List Act) :
    List (List Nat × List Act) × List (List Nat) := ((n, as) :: defs, n :: fs)

/-- A sequence of definitions, the latest first. -/
def deftests : List (List Nat × List Act) → List (List Nat × List Act) × List (List Nat)
  | [] => ([], [])
  | (n, as) :: r => deftest (deftests r).1 (deftests r).2 n as

/-- unittest.l:121 `:functions` and :205-206: the names in the order they were pushed, each run with
the definition it has now. `ds`: the definitions, the latest first. -/
def suite (ds : List (List Nat × List Act)) : List Test :=
  ((deftests ds).2.reverse).map fun n => ⟨n, ((deftests ds).1.lookup n).getD [], [48]⟩

/-! ### the XML report -/

/-- The characters of a literal. -/
def chars (s : String) : List Nat := s.toList.map Char.toNat

/-- printer.c:129-140 `printstr`: a string printed with ~s. -/
def printStr (s : List Nat) : List Nat :=
  34 :: (s.flatMap fun c => if c = 34 ∨ c = 92 then [92, c] else [c]) ++ [34]

/-- Decimal digits, ~d. -/
def dec (n : Nat) : List Nat := if n < 10 then [48 + n] else dec (n / 10) ++ [48 + n % 10]

/-- unittest.l:97-104, one failure. -/
def failXml (f : Fail) : Option (List Nat) := do
  let m ← escape f.msg
  let t ← escape f.test
  let tr ← escape f.trace
  let pm ← escape (printStr f.msg)
  pure (chars "   <failure message=" ++ printStr m ++ chars " type=\"AssertionError\">\nTest:" ++ t
    ++ chars "\nTrace:" ++ tr ++ chars "\nMessage:" ++ pm ++ chars "\n   </failure>\n")

/-- unittest.l:93 -/
def failsXml : List Fail → Option (List Nat)
  | [] => some []
  | f :: fs => do
    let a ← failXml f
    let b ← failsXml fs
    pure (a ++ b)

/-- unittest.l:90-107 `:prin1-xml`. -/
def resXml (r : Res) : Option (List Nat) := do
  let fs ← failsXml r.failures
  pure (chars "  <testcase name=\"" ++ r.name ++ chars "\" status=\"run\" time=\"" ++ r.time
    ++ chars "\" classname=\"" ++ r.name ++ chars "\">\n" ++ fs ++ chars "  </testcase>\n")

/-- unittest.l:153 -/
def resultsXml : List Res → Option (List Nat)
  | [] => some []
  | r :: rs => do
    let a ← resXml r
    let b ← resultsXml rs
    pure (a ++ b)

/-- unittest.l:147-155 `:print-xml-result`; `total`: the sum of the times. -/
def suiteXml (p : Report) (total : List Nat) : Option (List Nat) := do
  let b ← resultsXml p.result.reverse
  pure (chars "<testsuite tests=\"" ++ dec p.tests ++ chars "\" failures=\"" ++ dec p.failures
    ++ chars "\" disabled=\"0\" errors=\"0\" time=\"" ++ total ++ chars "\" name=\"AllTests\">\n"
    ++ b ++ chars "</testsuite>\n")

/-! ### the name of the report -/

/-- unittest.l:215 -/
def prefixArg : List Nat := chars "--gtest_output=xml:"

/-- string.l:75-81 `string-left-trim` (for a bag without the zero byte, see C82). -/
def leftTrim (bag : List Nat) : List Nat → List Nat
  | [] => []
  | c :: s => if c ∈ bag then leftTrim bag s else c :: s

/-- unittest.l:215-217: the name in the argument `--gtest_output=xml:NAME`. -/
def xmlName (arg : List Nat) : List Nat := leftTrim prefixArg arg

end Eus.Utt
