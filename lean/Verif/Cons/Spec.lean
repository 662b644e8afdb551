import Verif.Cons.Model
import Verif.Seq.Spec
set_option autoImplicit false
namespace Eus.Cons

/-- `v` is the list made of exactly these cells, in order, ending in `t`. -/
def Chain (h : H) : V → List Nat → V → Prop
  | v, [], t => v = t
  | v, a :: as, t => v = .cell a ∧ Chain h (h.cdr a) as t

/-- `v` is a proper list of the allocated cells `cs`. -/
def IsList (h : H) (v : V) (cs : List Nat) : Prop := Chain h v cs .nil ∧ ∀ a ∈ cs, a < h.next

/-- the elements stored in those cells -/
def elems (h : H) (cs : List Nat) : List V := cs.map h.car

/-- `q` represents the queue contents `l`, oldest first. -/
def QRep (q : Q) (l : List V) : Prop :=
  ∃ cs, IsList q.h q.car cs ∧ elems q.h cs = l ∧
    q.cdr = match cs.getLast? with | none => .nil | some a => .cell a

/-- One operation on a queue, with its observation. -/
inductive QOp where
  | enqueue (x : V)
  | dequeue
  | trim (s : Nat)
  | delete (p : V → Bool) (count : Nat)

/-- What the operations mean on the list of contents: new contents, value returned. -/
def QOp.spec : QOp → List V → List V × V
  | .enqueue x, l => (l ++ [x], x)
  | .dequeue, l => (l.tail, l.head?.getD .nil)
  | .trim s, l => (l.drop (l.length - s), .nil)
  | .delete p c, l => (Eus.Seq.dropFirst p c l, .nil)

/-- What the modelled code does (`none`: error or no return within the fuel). -/
def QOp.run (fuel : Nat) : QOp → Q → Option (Q × V)
  | .enqueue x, q => (q.enqueue x).map (·, x)
  | .dequeue, q => q.dequeue
  | .trim s, q => (q.trim fuel s).map (·, .nil)
  | .delete p c, q => (q.delete fuel p c).map (·, .nil)

end Eus.Cons
