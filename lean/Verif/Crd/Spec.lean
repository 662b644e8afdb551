import Verif.Crd.Model
set_option autoImplicit false
/-
What cascaded-coords are for: every object has a parent or none, and a place in the world.  There are no caches and no local coordinates here.
-/
namespace Eus.Crd

/-- The parents, and the world coordinates of all objects. -/
structure View (G : Type) where
  parent : Nat → Option Nat
  world : Nat → G

section
variable {G : Type}

/-- x is n or is attached to it, directly or not. -/
inductive Below (parent : Nat → Option Nat) (n : Nat) : Nat → Prop where
  | refl : Below parent n n
  | step {x y : Nat} : parent x = some y → Below parent n y → Below parent n x

variable [Group G]

/-- The world coordinates of the parent. -/
def View.up (v : View G) (n : Nat) : G := match v.parent n with | some p => v.world p | none => 1

/-- n is moved to g, and everything attached to it with it; nothing else moves. -/
def Moved (v v' : View G) (n : Nat) (g : G) : Prop :=
  v'.parent = v.parent ∧ (∀ x, Below v.parent n x → v'.world x = g * (v.world n)⁻¹ * v.world x) ∧
  ∀ x, ¬ Below v.parent n x → v'.world x = v.world x

/-- The coordinates that wrt stands for. -/
def View.wrt (v : View G) (n : Nat) : Wrt G → G
  | .local => v.world n
  | .parent => v.up n
  | .world => 1
  | .node m => v.world m
  | .plain x => x

/-- What each operation does and returns. -/
def Does (v : View G) : Op G → Option G → View G → Prop
  | .world n, r, v' => r = some (v.world n) ∧ v' = v
  | .assoc p c at_, r, v' => r = none ∧
      if v.parent c = some p then v' = v
      else match at_ with
        | none => v' = ⟨fun x => if x = c then some p else v.parent x, v.world⟩
        | some g => Moved ⟨fun x => if x = c then some p else v.parent x, v.world⟩ v' c (v.world p * g)
  | .dissoc p c, r, v' => r = none ∧
      if v.parent c = some p then v' = ⟨fun x => if x = c then none else v.parent x, v.world⟩ else v' = v
  | .transform n g w, r, v' => r = none ∧ Moved v v' n (v.wrt n w * g * (v.wrt n w)⁻¹ * v.world n)
  | .moveTo n g w, r, v' => r = none ∧ Moved v v' n (v.wrt n w * g)
  | .transformation n m w, r, v' => r = some ((v.wrt n w)⁻¹ * (v.world m * (v.world n)⁻¹) * v.wrt n w) ∧ v' = v

/-- What a program may do: it does not attach an object to itself or to something attached to it, and does not use something attached to n as the reference of a transformation of n. -/
def Allowed (v : View G) : Op G → Prop
  | .assoc p c _ => ¬ Below v.parent c p
  | .transform n _ (.node m) => m ≠ n → ¬ Below v.parent n m
  | _ => True

/-- The values a program returns, and the last view. -/
inductive Runs : View G → List (Op G) → List (Option G) → View G → Prop where
  | nil (v : View G) : Runs v [] [] v
  | cons {v v1 v2 : View G} {op : Op G} {ops : List (Op G)} {r : Option G} {rs : List (Option G)} :
      Allowed v op → Does v op r v1 → Runs v1 ops rs v2 → Runs v (op :: ops) (r :: rs) v2

end
end Eus.Crd
