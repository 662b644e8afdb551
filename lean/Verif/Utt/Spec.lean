import Verif.Utt.Model
set_option autoImplicit false
/-
What a report of unit tests says, without counters, stacks and buffers: what XML text stands for,
the tags of a document, and the numbers of tests and failures.
-/
namespace Eus.Utt.Spec
open Eus.Utt

/-- What XML text stands for: `&lt;`, `&gt;` and `&amp;` are read as one character. -/
def unescape : List Nat → List Nat
  | 38 :: 108 :: 116 :: 59 :: r => 60 :: unescape r
  | 38 :: 103 :: 116 :: 59 :: r => 62 :: unescape r
  | 38 :: 97 :: 109 :: 112 :: 59 :: r => 38 :: unescape r
  | c :: r => c :: unescape r
  | [] => []

/-- The text as it is to be seen: ESC is shown as ^. -/
def shown (s : List Nat) : List Nat := s.map fun c => if c = 27 then 94 else c

/-- Where a reader of XML is: between tags, in a tag, in a quoted attribute value; the tags read
and the part of the current one. -/
inductive Scan where
  | text (tags : List (List Nat))
  | tag (tags : List (List Nat)) (cur : List Nat)
  | quoted (tags : List (List Nat)) (cur : List Nat)
  | bad
deriving DecidableEq, Repr

/-- A `<` is not allowed in a tag or in an attribute value (XML 1.0, 3.1). -/
def step : Scan → Nat → Scan
  | .text t, c => if c = 60 then .tag t [] else .text t
  | .tag t cur, c =>
    if c = 62 then .text (t ++ [cur]) else if c = 34 then .quoted t (cur ++ [c])
    else if c = 60 then .bad else .tag t (cur ++ [c])
  | .quoted t cur, c =>
    if c = 34 then .tag t (cur ++ [c]) else if c = 60 then .bad else .quoted t (cur ++ [c])
  | .bad, _ => .bad

/-- The tags of a document, each as the text between < and >; `none`: not well formed. -/
def tags (doc : List Nat) : Option (List (List Nat)) :=
  match doc.foldl step (.text []) with
  | .text t => some t
  | _ => none

/-- A text as it stands in a document. -/
def xml (s : List Nat) : List Nat :=
  s.flatMap fun c => if c = 60 then [38, 108, 116, 59] else if c = 62 then [38, 103, 116, 59]
    else if c = 38 then [38, 97, 109, 112, 59] else if c = 27 then [94] else [c]

/-- The tags for one failed assertion. -/
def failTags (f : Fail) : List (List Nat) :=
  [chars "failure message=\"" ++ xml f.msg ++ chars "\" type=\"AssertionError\"", chars "/failure"]

/-- The tags for one result. -/
def resTags (r : Res) : List (List Nat) :=
  (chars "testcase name=\"" ++ r.name ++ chars "\" status=\"run\" time=\"" ++ r.time
    ++ chars "\" classname=\"" ++ r.name ++ chars "\"")
  :: (r.failures.flatMap failTags ++ [chars "/testcase"])

/-- The tags of a report. -/
def suiteTags (rs : List Res) (tests failures : Nat) (total : List Nat) : List (List Nat) :=
  (chars "testsuite tests=\"" ++ dec tests ++ chars "\" failures=\"" ++ dec failures
    ++ chars "\" disabled=\"0\" errors=\"0\" time=\"" ++ total ++ chars "\" name=\"AllTests\"")
  :: (rs.flatMap resTags ++ [chars "/testsuite"])

/-- No <, no double quote. -/
def plain (s : List Nat) : Prop := 60 ∉ s ∧ 34 ∉ s

instance (s : List Nat) : Decidable (plain s) := inferInstanceAs (Decidable (_ ∧ _))

/-- Something in the test fails; something signals an error. -/
def fails (as : List Act) : Bool := as.any fun a => match a with | .fail _ => true | _ => false
def errs (as : List Act) : Bool := as.any fun a => match a with | .err _ => true | _ => false

/-- What happens up to the error. -/
def upToErr (as : List Act) : List Act := as.takeWhile fun a => match a with | .err _ => false | _ => true

end Eus.Utt.Spec
