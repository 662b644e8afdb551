import Verif.Hst.Model
set_option autoImplicit false
/-
The history and the line editor, as a user sees them.
-/
namespace Eus.Hst

variable {α : Type}

/-- Everything ever added, numbered from `q + 1` on, after the empty first entry `q`. -/
def Log (q : Nat) (l : List α) : List (Nat × Option α) :=
  (q, none) :: (List.range l.length).zipWith (fun i t => (q + 1 + i, some t)) l

/-- The history holds the last `n` entries. -/
def Holds (n q : Nat) (l : List α) : List (Nat × Option α) := (Log q l).drop ((l.length + 1) - n)

/-- A line with a cursor: the characters before it (nearest first) and those after it. -/
structure Zip where
  before : List Nat
  after : List Nat
deriving DecidableEq, Repr

def Zip.text (z : Zip) : List Nat := z.before.reverse ++ z.after

/-- The keys: ^A to the beginning, ^B ^H left, ^F ^K right, ^L ^G ^R to the end, ^D deletes the
character after the cursor, DEL the one before, ^U everything; other control characters do nothing;
the rest is inserted. -/
def Zip.key (z : Zip) (c : Nat) : Zip :=
  match c with
  | 1 => ⟨[], z.text⟩
  | 2 | 8 => match z.before with
    | b :: r => ⟨r, b :: z.after⟩
    | [] => z
  | 6 | 11 => match z.after with
    | a :: r => ⟨a :: z.before, r⟩
    | [] => z
  | 7 | 18 | 12 => ⟨z.text.reverse, []⟩
  | 4 => ⟨z.before, z.after.drop 1⟩
  | 127 => ⟨z.before.drop 1, z.after⟩
  | 21 => ⟨[], []⟩
  | c => if c < 32 then z else ⟨c :: z.before, z.after⟩

/-- A key that does not end the editing. -/
def Typing (c : Nat) : Prop := c < 128 ∧ c ≠ 3 ∧ c ≠ 10 ∧ c ≠ 13

end Eus.Hst
