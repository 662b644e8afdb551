import Verif.Spv.Model
set_option autoImplicit false
/-
Dynamic binding as the manual has it: every thread has a stack of bindings; the value of a variable is that of its newest binding, and without
one its own value, which a `deflocal` variable has in every thread and the others have in common.
-/
namespace Eus.Spv

inductive Kind where
  | plain
  | shared
  | thread
deriving DecidableEq, Repr

structure A where
  kind : Nat → Kind
  common : Nat → Option Nat
  own : Nat → Nat → Option Nat
  stack : Nat → List (Nat × Option Nat)
  count : Nat

/-- The value of `x` for a stack of bindings and values of the variables themselves. -/
def look (x : Nat) (base : Nat → Option Nat) : List (Nat × Option Nat) → Option Nat
  | [] => base x
  | (y, v) :: l => if x = y then v else look x base l

def has (x : Nat) : List (Nat × Option Nat) → Bool
  | [] => false
  | (y, _) :: l => if x = y then true else has x l

/-- The newest binding of `x` gets another value. -/
def assign (x : Nat) (v : Option Nat) : List (Nat × Option Nat) → List (Nat × Option Nat)
  | [] => []
  | (y, w) :: l => if x = y then (y, v) :: l else (y, w) :: assign x v l

def A.base (a : A) (t : Nat) : Nat → Option Nat := fun x => if a.kind x = .thread then a.own t x else a.common x

def A.value (a : A) (t x : Nat) : Option Nat := look x (a.base t) (a.stack t)

def A.assign (a : A) (t x : Nat) (v : Option Nat) : A :=
  if has x (a.stack t) then { a with stack := upd a.stack t (Spv.assign x v (a.stack t)) }
  else if a.kind x = .thread then { a with own := upd a.own t (upd (a.own t) x v) }
  else { a with common := upd a.common x v }

def A.step (t : Nat) (o : Op) (a : A) : R × A :=
  match o with
  | .defvar x v =>
    if a.kind x = .plain then
      (.done, { a with kind := upd a.kind x .shared, common := upd a.common x (if a.common x = none then some v else a.common x) })
    else (.done, a)
  | .defparameter x v => (.val v, { (a.assign t x (some v)) with kind := upd a.kind x .shared })
  -- the other threads have NIL
  | .deflocal x v =>
    (.val v, { a with kind := upd a.kind x .thread, own := fun u => upd (a.own u) x (if u = t then some v else some 0), count := a.count + 1 })
  | .proclaim x =>
    if a.kind x = .thread then (.done, a)
    else (.done, { a with kind := upd a.kind x .thread, own := fun u => upd (a.own u) x (if u = t then a.common x else some 0), count := a.count + 1 })
  | .get x => (R.of (a.value t x), a)
  | .set x v => (.val v, a.assign t x (some v))
  | .symbolValue x => (R.of (a.value t x), a)
  | .makunbound x => (.yes, a.assign t x none)
  | .boundp x => (if a.value t x = none then .no else .yes, a)
  | .declare _ => (.done, a)
  | .bind x v => (.done, { a with stack := upd a.stack t ((x, some v) :: a.stack t) })
  | .unwind n => (.done, { a with stack := upd a.stack t ((a.stack t).drop ((a.stack t).length - n)) })
  | .newThread => (.done, { a with own := upd a.own t (fun x => a.value 0 x) })
  | .dispatch r => (.done, { a with own := upd a.own t (fun x => a.value r x) })

def A.run : List (Nat × Op) → A → List R × A
  | [], a => ([], a)
  | (t, o) :: es, a =>
    let (r, a) := a.step t o
    let (rs, a) := A.run es a
    (r :: rs, a)

def A.init : A := { kind := fun _ => .plain, common := fun _ => none, own := fun _ _ => some 0, stack := fun _ => [], count := 0 }

/-- No other thread has a binding of a common variable in force. -/
def A.Free (a : A) (t x : Nat) : Prop := a.kind x ≠ .thread → ∀ u, u ≠ t → has x (a.stack u) = false

/-- What a program has to keep to. -/
def A.Ok (t : Nat) (o : Op) (a : A) : Prop :=
  match o with
  | .defvar _ _ => True
  | .defparameter x _ => a.kind x ≠ .thread ∧ a.Free t x
  -- declared once, at most 509 of them
  | .deflocal x _ => a.kind x = .plain ∧ a.count < 509
  | .proclaim x => a.kind x ≠ .shared ∧ a.count < 509
  | .get x => a.Free t x
  | .set x _ => a.Free t x
  | .boundp x => a.Free t x
  | .symbolValue x => a.kind x ≠ .thread ∧ a.Free t x
  | .makunbound x => a.kind x ≠ .thread ∧ a.Free t x
  | .declare _ => False
  | .bind x _ => a.kind x ≠ .plain ∧ a.Free t x
  | .unwind _ => True
  | .newThread => t ≠ 0 ∧ a.stack t = []
  | .dispatch _ => a.stack t = []

def A.OkAll : List (Nat × Op) → A → Prop
  | [], _ => True
  | (t, o) :: es, a => a.Ok t o ∧ A.OkAll es (a.step t o).2

end Eus.Spv
