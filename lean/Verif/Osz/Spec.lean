import Verif.Osz.Model
set_option autoImplicit false
/-
What `object-size` should count.
-/
namespace Eus.Osz

/-- Whether an object counts: symbols do only when asked for. -/
def Counts (H : Heap) (sym : Bool) (i : Nat) : Prop := sym = true ∨ (H.obj i).sym = false

/-- `i` refers to `j` in a slot or as an element. -/
def RefersTo (H : Heap) (i j : Nat) : Prop :=
  (∃ l, (H.obj i).body = .fixed l ∧ Ref.obj j ∈ l) ∨ (∃ l, (H.obj i).body = .ptrvec l ∧ Ref.obj j ∈ l)

/-- The objects reached from `a` over objects that count. -/
inductive Reach (H : Heap) (sym : Bool) (a : Nat) : Nat → Prop where
  | here : Counts H sym a → Reach H sym a a
  | step {i j : Nat} : Reach H sym a i → RefersTo H i j → Counts H sym j → Reach H sym a j

/-- Words used by the body of an object on a machine with 64-bit words: a vector has a word for its
length, a byte vector also a zero byte at its end. -/
def Uses : Body → Nat
  | .fixed l => l.length
  | .ptrvec l => 1 + l.length
  | .bits n => 1 + (n / 64 + if n % 64 = 0 then 0 else 1)
  | .bytes n => 1 + ((n + 1) / 8 + if (n + 1) % 8 = 0 then 0 else 1)
  | .words n => 1 + n
  | .foreign _ => 0

/-- A heap without references out of it. -/
def Closed (H : Heap) : Prop := ∀ i j, i < H.size → RefersTo H i j → j < H.size

end Eus.Osz
