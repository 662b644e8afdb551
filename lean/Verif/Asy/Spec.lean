import Verif.Asy.Model
set_option autoImplicit false
/-
Executions: any thread that need not wait may make the next step.
-/
namespace Eus.Asy

inductive Leads : St → St → Prop where
  | refl (s : St) : Leads s s
  | next {s u v : St} (t : Nat) (w : Want) (h : Nat) : Leads s u → step u t w h = some v → Leads s v

/-- states of executions -/
def Reachable (s : St) : Prop := Leads init s

/-- a schedule: which thread moves -/
def run (s : St) : List (Nat × Want × Nat) → Option St
  | [] => some s
  | (t, w, v) :: l => match step s t w v with
    | some s1 => run s1 l
    | none => none

end Eus.Asy
