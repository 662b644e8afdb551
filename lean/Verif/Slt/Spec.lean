import Verif.Slt.Model
import Verif.Cls.Spec
set_option autoImplicit false
/-
Objects as the user sees them: for every class the names of its slots, for every object and slot name a value.
-/
namespace Eus.Slt
open Eus.Cls

/-- Classes and objects in order of creation. -/
structure World where
  hist : Hist
  names : List Sym
  slots : List (List Sym)
  val : Nat → Sym → Val

/-- object `o` is an instance of class `c` or of one of its subclasses -/
def World.isa (w : World) (o c : Nat) : Prop := ∃ k, w.hist.insts[o]? = some k ∧ Desc w.hist.superOf k c

/-- the slot name meant by an index, a symbol or a string, among the names of a class -/
def slotOf (l : List Sym) : Id → Option Sym
  | .int i => if 0 ≤ i then l[i.toNat]? else none
  | .sym s => if s ∈ l then some s else none
  | .str s => l.find? fun v => v.pname == s
  | .other => none

/-- the same for class `c` -/
def World.slot (w : World) (c : Nat) (id : Id) : Option Sym := (w.slots[c]?).bind fun l => slotOf l id

open Classical in
/-- A class has the slots of its superclass and its own; the slots of a new object are nil, those of a copy are those of the original; setting a slot of an instance changes that slot of that object. -/
noncomputable def World.step (w : World) : Op → World
  | .defclass b name super slots =>
    let l := ((super.bind fun c => w.slots[c]?).getD []) ++ slots
    if (super.all fun c => decide (c < w.slots.length)) ∧ l.Nodup ∧ w.slots.length < MAXCLASS then
      { w with hist := hstep w.hist (.defclass b super), names := w.names ++ [name], slots := w.slots ++ [l] }
    else w
  | .instantiate c =>
    if c < w.slots.length then
      { w with hist := hstep w.hist (.instantiate c), val := fun o => if o = w.hist.insts.length then fun _ => 0 else w.val o }
    else w
  | .clone o =>
    match w.hist.insts[o]? with
    | some k => { w with hist := hstep w.hist (.instantiate k), val := fun o' => if o' = w.hist.insts.length then w.val o else w.val o' }
    | none => w
  | .setslot o c id v =>
    match w.slot c id with
    | some s => if w.isa o c then { w with val := fun o' s' => if o' = o ∧ s' = s then v else w.val o' s' } else w
    | none => w

noncomputable def world (ops : List Op) : World := ops.foldl World.step ⟨⟨[], [], []⟩, [], [], fun _ _ => 0⟩

/-- the name of the access macro of slot `v` of class `n` -/
def accName (n v : Sym) : String := n.pname ++ "-" ++ v.pname

/-- An index that is not negative and fits an int. -/
def Id.Sane : Id → Prop
  | .int i => 0 ≤ i ∧ i < 2 ^ 31
  | _ => True

/-- the name in a class definition -/
def Op.name : Op → Option Sym
  | .defclass _ n _ _ => some n
  | _ => none

/-- the slot that is set is given by a symbol, a string or a sane index -/
def Op.Sane : Op → Prop
  | .setslot _ _ id _ => id.Sane
  | _ => True

/-- No class is defined twice and no slot is set by a wild index. -/
def Plain (ops : List Op) : Prop := (ops.filterMap Op.name).Nodup ∧ ∀ op ∈ ops, op.Sane

end Eus.Slt
