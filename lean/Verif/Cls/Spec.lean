import Verif.Cls.Model
set_option autoImplicit false
/-! What the properties of classes and messages say, apart from the code. -/
namespace Eus.Cls

/-- `b` is `a` or one of its superclasses, `super` giving the direct superclass. -/
inductive Desc (super : Nat → Option Nat) : Nat → Nat → Prop
  | refl (a : Nat) : Desc super a a
  | step {a b c : Nat} : super a = some b → Desc super b c → Desc super a c

/-- The history of class definitions as the user sees it: the superclass of every class, in order of definition,
the class of every instance, and the built-in classes. -/
structure Hist where
  supers : List (Option Nat)
  insts : List Nat
  builtins : List Nat

/-- One operation: a class with a known superclass is added (if there are not too many), an instance of a known
class is added. -/
def hstep (H : Hist) : Op → Hist
  | .defclass b sup =>
    if (sup.all fun c => decide (c < H.supers.length)) ∧ H.supers.length < MAXCLASS then
      { H with supers := H.supers ++ [sup], builtins := if b then H.supers.length :: H.builtins else H.builtins } else H
  | .instantiate c => if c < H.supers.length then { H with insts := H.insts ++ [c] } else H

/-- The direct superclass. -/
def Hist.superOf (H : Hist) (c : Nat) : Option Nat := (H.supers[c]?).join

/-- The methods as the user sees them: class, selector ↦ method. -/
abbrev Meths := Nat → Nat → Option Nat

/-- `defmethod` sets, `delete-method` clears, the rest changes nothing. -/
def mstep (M : Meths) : DOp → Meths
  | .add cls sel m => Function.update M cls (Function.update (M cls) sel (some m))
  | .delete _ cls sel => Function.update M cls (Function.update (M cls) sel none)
  | _ => M

/-- `m` is the method of `sel` in the nearest class `o` of the superclass chain of `c` that has one. -/
inductive Nearest (super : Nat → Option Nat) (M : Meths) (sel : Nat) : Nat → Nat → Nat → Prop
  | here {c m : Nat} : M c sel = some m → Nearest super M sel c c m
  | up {c b o m : Nat} : M c sel = none → super c = some b → Nearest super M sel b o m → Nearest super M sel c o m

/-- What becomes of a message the class of the receiver has no method for: the slots are tried in order, those that
forward this selector; a number in such a slot is an error; the first component whose class has a method gets it. -/
inductive Forward (super : Nat → Option Nat) (M : Meths) (sel : Nat) :
    List (Option (List Nat) × Option (Nat × Nat)) → Sent → Prop
  | nil : Forward super M sel [] .noMethodError
  | skip {l v slots r} : sel ∉ l → Forward super M sel slots r → Forward super M sel ((some l, v) :: slots) r
  | number {f slots} : (∀ l, f = some l → sel ∈ l) → Forward super M sel ((f, none) :: slots) .noObjectError
  | hit {f obj cls slots o m} : (∀ l, f = some l → sel ∈ l) → Nearest super M sel cls o m →
      Forward super M sel ((f, some (obj, cls)) :: slots) (.run obj o m)
  | miss {f obj cls slots r} : (∀ l, f = some l → sel ∈ l) → (∀ o m, ¬ Nearest super M sel cls o m) →
      Forward super M sel slots r → Forward super M sel ((f, some (obj, cls)) :: slots) r

/-- What a message does: the receiver's own (nearest) method, else forwarding, else the method of :nomethod. -/
inductive Answer (super : Nat → Option Nat) (M : Meths) (nomethodSel obj cls sel : Nat)
    (slots : List (Option (List Nat) × Option (Nat × Nat))) : Sent → Prop
  | own {o m} : Nearest super M sel cls o m → Answer super M nomethodSel obj cls sel slots (.run obj o m)
  | fwd {r} : (∀ o m, ¬ Nearest super M sel cls o m) → Forward super M sel slots r → r ≠ .noMethodError →
      Answer super M nomethodSel obj cls sel slots r
  | alt {o m} : (∀ o m, ¬ Nearest super M sel cls o m) → Forward super M sel slots .noMethodError →
      Nearest super M nomethodSel cls o m → Answer super M nomethodSel obj cls sel slots (.nomethod obj o m)
  | error : (∀ o m, ¬ Nearest super M sel cls o m) → Forward super M sel slots .noMethodError →
      (∀ o m, ¬ Nearest super M nomethodSel cls o m) → Answer super M nomethodSel obj cls sel slots .noMethodError

end Eus.Cls
