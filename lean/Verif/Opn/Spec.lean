import Verif.Opn.Model
set_option autoImplicit false
/-
What the options of `open` mean for the file.
-/
namespace Eus.Opn

/-- Writing `data` in a session with `:direction :output`: how it ends and what the file is after it. -/
def Expected (ifx : IfX) (dne : Dne) (file : Option (List Nat)) (data : List Nat) : End × Option (List Nat) :=
  match file with
  | some old => match ifx with
    | .append => (.closed true, some (old ++ data))
    | .overwrite => (.closed true, some (data ++ old.drop data.length))
    | .newVersion | .supersede | .rename => (.closed true, some data)
    | .error => (.err, some old)
    | .nil => (.nil, some old)
  | none => match dne with
    | .create => (.closed true, some data)
    | .error => (.err, none)
    | .nil => (.nil, none)
    -- the default: an error for those that need an old file, else the file is made
    | .default => match ifx with
      | .append | .overwrite => (.err, none)
      | _ => (.closed true, some data)

/-- The combinations for which the code does something else. -/
def Bad (ifx : IfX) (dne : Dne) (there : Bool) : Prop :=
  if there then
    (ifx = .error ∧ (dne = .error ∨ dne = .nil)) ∨ (ifx = .nil ∧ dne ≠ .nil)
  else
    (dne = .nil ∧ ifx ≠ .append) ∨ (dne = .default ∧ ifx = .overwrite)

/-- All the bytes of a session. -/
def allBytes (pieces : List (List Nat × Bool)) : List Nat := pieces.flatMap (·.1)

end Eus.Opn
