import Verif.Cpy.Model
set_option autoImplicit false
/-! What `copy-object` is supposed to do. -/
namespace Eus.Cpy

/-- The slots of a record, the elements of a vector of pointers: the words that can refer to objects. -/
def Cell.Slot (c : Cell) (i : Nat) : Prop :=
  match c.kind with
  | .record => i < c.size
  | .vector => 1 ≤ i ∧ i ≤ c.size
  | .raw => False

/-- The words that make up the contents of an object: also the raw data of other vectors. -/
def Cell.Content (c : Cell) (i : Nat) : Prop :=
  match c.kind with
  | .record => i < c.size
  | _ => i ≤ c.size

/-- `o` can be reached from the value `v`. -/
inductive Reach (h : Nat → Cell) (v : Val) : Nat → Prop
  | root {o : Nat} : v = .ref o → Reach h v o
  | step {o p i : Nat} : Reach h v o → (h o).Slot i → (h o).iv i = .ref p → Reach h v p

/-- The image of a value under a renaming of objects. -/
def Val.map (φ : Nat → Nat) : Val → Val
  | .ref o => .ref (φ o)
  | v => v

/-- `v'` in `h'` is an isomorphic copy of `v` in `h`: a renaming of the objects reachable from `v`, one to one (so
sharing and cycles are the same), to objects numbered `n` or more (so nothing is shared with the objects below `n`),
that have the same class, kind, size and corresponding contents. -/
def IsCopy (n : Nat) (h h' : Nat → Cell) (v v' : Val) : Prop :=
  ∃ φ : Nat → Nat, v' = v.map φ ∧
    (∀ o p, Reach h v o → Reach h v p → φ o = φ p → o = p) ∧
    ∀ o, Reach h v o → n ≤ φ o ∧ (h' (φ o)).cls = (h o).cls ∧ (h' (φ o)).kind = (h o).kind ∧
      (h' (φ o)).size = (h o).size ∧ (h' (φ o)).mark = false ∧
      ∀ i, (h o).Content i →
        ((h o).Slot i → (h' (φ o)).iv i = ((h o).iv i).map φ) ∧ (¬ (h o).Slot i → (h' (φ o)).iv i = (h o).iv i)

/-- A heap between calls: below `n`, nothing is marked, slots hold values (never NULL) and refer to objects below `n`. -/
structure Good (n : Nat) (h : Nat → Cell) : Prop where
  mark : ∀ o, o < n → (h o).mark = false
  slot : ∀ o i, o < n → (h o).Slot i → (h o).iv i ≠ .null ∧ ∀ p, (h o).iv i = .ref p → p < n

/-- Objects that fill word 1: records of at least two slots, vectors of pointers that are not empty. -/
def Cell.Big (c : Cell) : Prop :=
  match c.kind with
  | .record => 2 ≤ c.size
  | .vector => 1 ≤ c.size
  | .raw => True

end Eus.Cpy
