import Verif.Kol.Model
set_option autoImplicit false
/-
A table from keys to objects, and what the messages do to it.
-/
namespace Eus.Kol

/-- the table; the second number counts the objects made -/
structure Table where
  at_ : Option Nat → Option Obj
  next : Nat

def Table.put (t : Table) (k : Option Nat) (o : Option Obj) : Table := { t with at_ := fun j => if j = k then o else t.at_ j }

def Table.step (t : Table) : Op → Table
  | .get _ => t
  | .new k => match t.at_ k with
    | some _ => t
    | none => { t.put k (some ⟨t.next, k⟩) with next := t.next + 1 }
  | .add o => match t.at_ o.key with
    | some _ => t
    | none => t.put o.key (some o)
  | .remove k => t.put k none
  | .resetTry _ => t

/-- messages that remove name a key -/
def Named : Op → Prop
  | .remove none => False
  | _ => True

/-- messages that set the turn set it to 0, as `:reset-try` without argument does -/
def Plain : Op → Prop
  | .resetTry n => n = 0
  | _ => True

end Eus.Kol
