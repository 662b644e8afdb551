import Verif.Cls.Model
set_option autoImplicit false
/-
Slots of objects: lisp/c/leo.c:473-518 (`getslotindex`, `SLOT`, `SETSLOT`), lisp/c/makes.c:406-414 (`makeobject`), lisp/l/common.l:729-812 (`make-class`: slot names and access macros).
The class numbers and the test for instances are those of `Verif/Cls`.  Objects of vector classes, slot types and forwards are not modelled.
-/
namespace Eus.Slt
open Eus.Cls

/-- A symbol: its home package and its print name. -/
structure Sym where
  home : Nat
  pname : String
deriving DecidableEq, Repr

/-- Lisp values; `nil` is 0. -/
abbrev Val := Nat

/-- Classes and objects: the class table, then for every class (in order of creation) its name and its slot names (`cls.vars`), for every object its slots,
and the access macros: name, class name, index. -/
structure St where
  cls : Cls.St
  names : List Sym
  vars : List (List Sym)
  objs : List (List Val)
  acc : List (String × Sym × Nat)

/-- The third argument of `slot`. -/
inductive Id where
  | int (i : Int)
  | sym (s : Sym)
  | str (s : String)
  | other
deriving DecidableEq, Repr

inductive R (α : Type) where
  | ok (a : α)
  | err
  | ub
deriving DecidableEq, Repr

/-- the C variable `int index` -/
def toCInt (i : Int) : Int := i.bmod (2 ^ 32)

/-- leo.c:487-489: the loop over the slot names, by `eq` -/
def findSym (s : Sym) : List Sym → Nat
  | [] => 0
  | v :: vs => if v = s then 0 else findSym s vs + 1

/-- leo.c:491-494: the loop over the slot names, by print name -/
def findStr (s : String) : List Sym → Nat
  | [] => 0
  | v :: vs => if v.pname = s then 0 else findStr s vs + 1

/-- leo.c:485-495: the index; `none`: E_NOINT -/
def rawIndex (vvec : List Sym) : Id → Option Int
  | .int i => some (toCInt i)
  | .sym s => some (findSym s vvec)
  | .str s => some (findStr s vvec)
  | .other => none

/-- leo.c:473-498 `getslotindex` of object number `o` and class number `c`.  A negative index is returned as it is. -/
def getslotindex (s : St) (o c : Nat) (id : Id) : R Int :=
  match s.vars[c]? with
  | none => .err
  | some vvec =>
    if DERIVEDP s.cls o c then
      match rawIndex vvec id with
      | none => .err
      | some index => if index ≥ vvec.length then .err else .ok index
    else .err

/-- An access to `obj->c.obj.iv[n]`; outside the slots of the object: undefined. -/
def iv (obj : List Val) (n : Int) : R Val :=
  if n < 0 then .ub else
    match obj[n.toNat]? with
    | some v => .ok v
    | none => .ub

/-- leo.c:500-509 `SLOT` (unbound values are not modelled) -/
def SLOT (s : St) (o c : Nat) (id : Id) : R Val :=
  match getslotindex s o c id, s.objs[o]? with
  | .ok n, some obj => iv obj n
  | .err, _ => .err
  | .ub, _ => .ub
  | _, none => .err

/-- leo.c:511-518 `SETSLOT` -/
def SETSLOT (s : St) (o c : Nat) (id : Id) (v : Val) : R St :=
  match getslotindex s o c id, s.objs[o]? with
  | .ok n, some obj =>
    match iv obj n with
    | .ok _ => .ok { s with objs := s.objs.set o (obj.set n.toNat v) }
    | .err => .err
    | .ub => .ub
  | .err, _ => .err
  | .ub, _ => .ub
  | _, none => .err

/-- common.l:753-774: the slot names of the new class; `none`: "duplicated object variable name".  The loop pushes on the reversed list. -/
def addVars : List Sym → List Sym → Option (List Sym)
  | variables, [] => some variables.reverse
  | variables, v :: vs => if v ∈ variables then none else addVars (v :: variables) vs

/-- common.l:798-804: the access macros of the class, in the order of the slots; the last definition of a name counts -/
def addAcc (name : Sym) : Nat → List Sym → List (String × Sym × Nat) → List (String × Sym × Nat)
  | _, [], acc => acc
  | i, v :: vs, acc => addAcc name (i + 1) vs ((name.pname ++ "-" ++ v.pname, name, i) :: acc)

/-- The slot names of the superclass, none for the root of the classes. -/
def superVars (s : St) : Option Nat → List Sym
  | some c => (s.vars[c]?).getD []
  | none => []

/-- common.l:729-812 `make-class`.  A name that has a class: that class is given the new slots and superclass. -/
def makeClass (s : St) (builtin : Bool) (name : Sym) (super : Option Nat) (slots : List Sym) : R St :=
  if (super.all fun c => decide (c < s.cls.nextcix)) then
    match addVars (superVars s super).reverse slots with
    | none => .err
    | some variables =>
      if name ∈ s.names then
        let c := s.names.idxOf name
        .ok { s with cls := Cls.redefine s.cls c super, vars := s.vars.set c variables, acc := addAcc name 0 variables s.acc }
      else
        match (if builtin then basicclass s.cls super else enterclass s.cls super) with
        | none => .err
        | some k => .ok { s with cls := k, names := s.names ++ [name], vars := s.vars ++ [variables], acc := addAcc name 0 variables s.acc }
  else .err

/-- makes.c:406-414 `makeobject`: all slots NIL -/
def instantiate (s : St) (c : Nat) : R St :=
  match s.vars[c]? with
  | none => .err
  | some vars => .ok { s with cls := makeobject s.cls c, objs := s.objs ++ [vars.map fun _ => 0] }

/-- leo.c:403-431 `CLONE` of an object that is not a vector: as many slots as the class has now -/
def CLONE (s : St) (o : Nat) : R St :=
  match classof s.cls o, s.objs[o]? with
  | some k, some obj =>
    match s.vars[k]? with
    | some vars =>
      if obj.length < vars.length then .ub
      else .ok { s with cls := makeobject s.cls k, objs := s.objs ++ [obj.take vars.length] }
    | none => .err
  | _, _ => .err

/-- common.l:800-803: a call of the access macro: `(slot obj name index)`, name being evaluated -/
def access (s : St) (f : String) (o : Nat) : R Val :=
  match s.acc.lookup f with
  | none => .err
  | some (name, i) => if name ∈ s.names then SLOT s o (s.names.idxOf name) (.int i) else .err

inductive Op where
  | defclass (builtin : Bool) (name : Sym) (super : Option Nat) (slots : List Sym)
  | instantiate (c : Nat)
  | clone (o : Nat)
  | setslot (o c : Nat) (id : Id) (v : Val)

def St.init : St := ⟨Cls.St.init, [], [], [], []⟩

/-- One operation; an error leaves everything as it is, undefined behaviour ends the history. -/
def step (s : R St) (op : Op) : R St :=
  match s with
  | .ok s =>
    match (match op with
      | .defclass b name super slots => makeClass s b name super slots
      | .instantiate c => instantiate s c
      | .clone o => CLONE s o
      | .setslot o c id v => SETSLOT s o c id v) with
    | .ok s => .ok s
    | .err => .ok s
    | .ub => .ub
  | r => r

def run (ops : List Op) : R St := ops.foldl step (.ok .init)

end Eus.Slt
