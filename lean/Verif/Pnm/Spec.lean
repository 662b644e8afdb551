import Verif.Io.Spec
import Verif.Pnm.Model
set_option autoImplicit false
/-
What a picture file is (the formats PGM and PPM): a magic number, the width, the height and 255 in decimal, with blanks and comments before each
of them, one blank, and the pixels: bytes, or numbers again.
-/
namespace Eus.Pnm
open Eus.Io

/-- Something between two numbers: a blank (space, tab, newline), or a comment up to the end of its line. -/
inductive Gap where
  | blank (c : Nat) (h : c = 32 ∨ c = 9 ∨ c = 10)
  | comment (text : List Nat) (h : 10 ∉ text)

def Gap.bytes : Gap → List Nat
  | .blank c _ => [c]
  | .comment t _ => 35 :: (t ++ [10])

def gaps (g : List Gap) : List Nat := (g.map Gap.bytes).flatten

/-- A number in decimal. -/
def Numeral (n : Nat) (s : List Nat) : Prop :=
  s ≠ [] ∧ (∀ c ∈ s, 48 ≤ c ∧ c ≤ 57) ∧ s.foldl (fun v c => v * 10 + (c - 48)) 0 = n

/-- A number and what stands before it: gaps that begin with a blank. -/
def Field (n : Nat) (s : List Nat) : Prop :=
  ∃ c h g d, s = gaps (Gap.blank c h :: g) ++ d ∧ Numeral n d

/-- The head of a file: the letter `P`, the format's digit, and the fields. -/
def Head (magic w h : Nat) (s : List Nat) : Prop :=
  ∃ a b c, s = [80, magic] ++ a ++ b ++ c ∧ Field w a ∧ Field h b ∧ Field 255 c

/-- The pixels as numbers. -/
inductive Numbers : List Nat → List Nat → Prop
  | nil : Numbers [] []
  | cons {v : Nat} {vs a s : List Nat} : v ≤ 255 → Field v a → Numbers vs s → Numbers (v :: vs) (a ++ s)

/-- A stream on a file, as `open` makes it, with any size of the buffer and any way in which the system hands out the bytes. -/
def Reads (i : In) (s : List Nat) : Prop := i.Good ∧ i.kind = .file ∧ i.rest = s

/-- The system does not hand out a single byte when more are there and asked for. -/
def Wide (i : In) : Prop := ∀ g ∈ i.os.grants, 1 ≤ g

/-- What may follow a number: nothing, or a blank (space, tab, newline, form feed, return). -/
def Ended (t : List Nat) : Prop := t = [] ∨ ∃ c r, t = c :: r ∧ (c = 32 ∨ c = 9 ∨ c = 10 ∨ c = 12 ∨ c = 13)

/-- A stream just opened for output, to a file that takes all it is given. -/
def Opened (o : Out) : Prop := o.Good ∧ o.kind = .file ∧ o.count = 0 ∧ o.file = [] ∧ o.sys = []

end Eus.Pnm
