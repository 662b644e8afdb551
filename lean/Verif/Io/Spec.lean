import Verif.Io.Model
set_option autoImplicit false
/-
What streams are for: an output stream is a growing sequence of bytes, an input stream a shrinking one.
-/
namespace Eus.Io

/-! ### Output -/

/-- The bytes an operation writes. -/
def Op.bytes : Op → List Nat
  | .byte c => [c]
  | .str s => s
  | .finish => []

/-- The bytes written to a stream so far: those the file has, and those that wait in the buffer. -/
def Out.written (o : Out) : List Nat := o.file ++ o.buf.take o.count

/-- A stream as `open` and `make-string-output-stream` make it and as the operations leave it: room for something, and not more in the buffer
than it holds. -/
def Out.Good (o : Out) : Prop := 0 < o.buf.length ∧ o.count ≤ o.buf.length

/-- Every call of `write` takes all it is offered. -/
def Out.Healthy (o : Out) : Prop := ∀ r ∈ o.sys, ∃ k, r = some k ∧ o.buf.length ≤ k

/-! ### Input -/

/-- The bytes still to come from a stream. -/
def In.rest (i : In) : List Nat := (i.buf.take i.tail).drop i.count ++ (if i.kind = .file then i.os.data else [])

/-- A stream as it is made and as the operations leave it. -/
def In.Good (i : In) : Prop := i.count ≤ i.tail ∧ i.tail ≤ i.buf.length ∧ (i.kind = .file → 0 < i.buf.length)

/-- Reading, looking ahead, and taking back the character just read. -/
inductive Rop where
  | read
  | peek
  | unread
deriving DecidableEq, Repr

/-- The ideal input: the bytes to come, and the character just read, which can be taken back.  The value is a character, or nothing. -/
def ideal : List Rop → List Nat → Option Nat → List (Option Nat) × List Nat
  | [], s, _ => ([], s)
  | .read :: r, [], _ => let t := ideal r [] none; (none :: t.1, t.2)
  | .read :: r, c :: s, _ => let t := ideal r s (some c); (some c :: t.1, t.2)
  | .peek :: r, [], _ => let t := ideal r [] none; (none :: t.1, t.2)
  | .peek :: r, c :: s, _ => let t := ideal r (c :: s) none; (some c :: t.1, t.2)
  | .unread :: r, s, some c => let t := ideal r (c :: s) none; (some c :: t.1, t.2)
  | .unread :: r, s, none => let t := ideal r s none; (none :: t.1, t.2)

/-- The same with a stream: the program takes back a character only when it has just read one. -/
def actual : List Rop → In → Option Nat → Option (List (Option Nat) × In)
  | [], i, _ => some ([], i)
  | .read :: r, i, _ =>
    match readch i with
    | .ch c i => (actual r i (some c)).map fun t => (some c :: t.1, t.2)
    | .eof i => (actual r i none).map fun t => (none :: t.1, t.2)
    | .ub => none
  | .peek :: r, i, _ =>
    match peekch i with
    | .ch c i => (actual r i none).map fun t => (some c :: t.1, t.2)
    | .eof i => (actual r i none).map fun t => (none :: t.1, t.2)
    | .ub => none
  | .unread :: r, i, some c => (actual r (unreadch c i) none).map fun t => (some c :: t.1, t.2)
  | .unread :: r, i, none => (actual r i none).map fun t => (none :: t.1, t.2)

/-! ### Lines -/

/-- The first line of a non-empty text, and what follows it. -/
def firstLine (s : List Nat) : List Nat := s.takeWhile (· ≠ 10)
def afterLine (s : List Nat) : List Nat := (s.dropWhile (· ≠ 10)).drop 1

/-- The text that has these lines. -/
def unlines (ls : List (List Nat)) : List Nat := (ls.map (· ++ [10])).flatten

/-- Reading lines until the end. -/
def readLines : Nat → Nat → In → Option (List (List Nat) × In)
  | 0, _, _ => none
  | k + 1, m, i =>
    match readline m i with
    | .line l i => (readLines k m i).map fun t => (l :: t.1, t.2)
    | .eof i => some ([], i)
    | .ub => none

end Eus.Io
