set_option autoImplicit false
/-
keyed-object-list: lib/llib/keyedobj.l:1-36.
An object is a number (its identity) with its key; `none` is nil.  Simplified: the key of an object does not change after it is in the list.
-/
namespace Eus.Kol

/-- an object and what `(send obj :key)` gives -/
structure Obj where
  id : Nat
  key : Option Nat
deriving DecidableEq, Repr

/-- keyedobj.l:1: slots; `next` is the identity the next new object will have -/
structure Kol where
  objs : List Obj
  try_ : Nat
  next : Nat

/-- keyedobj.l:33-35 `:init` -/
def init : Kol := ⟨[], 0, 0⟩

/-- `(find key object-list :key …)` -/
def findKey (k : Option Nat) (l : List Obj) : Option Obj := l.find? (fun o => o.key == k)

/-- keyedobj.l:4-11 `:get` -/
def get (s : Kol) (key : Option Nat) : Option Obj × Kol :=
  match key with
  | some _ => (findKey key s.objs, s)
  | none =>
    if s.objs.length < 1 then (none, s)
    else
      let t := s.try_ + 1
      (s.objs[s.try_]?, { s with try_ := if t ≥ s.objs.length then 0 else t })

/-- keyedobj.l:12-20 `:new` -/
def new (s : Kol) (key : Option Nat) : Obj × Kol :=
  match findKey key s.objs with
  | some g => (g, s)
  | none =>
    let g : Obj := ⟨s.next, key⟩
    (g, { s with objs := s.objs ++ [g], next := s.next + 1 })

/-- keyedobj.l:21-25 `:add` -/
def add (s : Kol) (o : Obj) : Kol :=
  match findKey o.key s.objs with
  | some _ => s
  | none => { s with objs := s.objs ++ [o] }

/-- keyedobj.l:28-31 `:remove` -/
def remove (s : Kol) (key : Option Nat) : Kol :=
  let (g, s1) := get s key
  let l := match g with
    | some o => s1.objs.filter (fun x => x != o)
    | none => s1.objs
  { s1 with objs := l, try_ := if s1.try_ ≥ l.length then 0 else s1.try_ }

/-- keyedobj.l:26-27 `:keys` -/
def keys (s : Kol) : List (Option Nat) := s.objs.map Obj.key

/-- keyedobj.l:32 `:reset-try` -/
def resetTry (s : Kol) (n : Nat) : Kol := { s with try_ := n }

/-- a message -/
inductive Op where
  | get (key : Option Nat)
  | new (key : Option Nat)
  | add (o : Obj)
  | remove (key : Option Nat)
  | resetTry (n : Nat)

/-- the effect of a message -/
def step (s : Kol) : Op → Kol
  | .get k => (get s k).2
  | .new k => (new s k).2
  | .add o => add s o
  | .remove k => remove s k
  | .resetTry n => resetTry s n

/-- n messages `(send l :get)` -/
def rounds (s : Kol) : Nat → List (Option Obj) × Kol
  | 0 => ([], s)
  | n + 1 =>
    let (o, s1) := get s none
    let (l, s2) := rounds s1 n
    (o :: l, s2)

end Eus.Kol
