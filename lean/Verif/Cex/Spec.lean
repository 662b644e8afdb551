import Verif.Cex.Model
import Verif.Ctl.Spec
set_option autoImplicit false
/-
The programs for which compiled code does what the forms mean (Verif/Ctl/Spec: `mean`).
-/
namespace Eus.Cex
open Eus.Ctl (Val nil Tm Name Key Prog tagsOf)

/-- A block as seen from a form inside it: whether there is a `let`, `catch`, `unwind-protect` or an operand in between, and whether there is a `catch` with none of them between itself
and the block. -/
structure B where
  name : Name
  gap : Bool
  flush : Bool
deriving DecidableEq, Repr

/-- Cleanup forms that always end with a value: no exits, errors, or calls of others than such functions (`quiet`); and they use only special variables they bind themselves (`xs`). -/
def Calm (quiet : Nat → Bool) : List Nat → Tm → Bool
  | _, .const _ => true
  | xs, .var x => xs.contains x
  | xs, .setq x e => xs.contains x && Calm quiet xs e
  | xs, .print e => Calm quiet xs e
  | xs, .progn a b => Calm quiet xs a && Calm quiet xs b
  | xs, .ite e a b => Calm quiet xs e && Calm quiet xs a && Calm quiet xs b
  | xs, .lett x e b => Calm quiet xs e && Calm quiet (x :: xs) b
  | _, .call f => quiet f
  | xs, .catch_ tag b => Calm quiet xs tag && Calm quiet xs b
  | _, .throw_ _ _ => false
  | xs, .block _ b => Calm quiet xs b
  | _, .retfrom _ _ => false
  | xs, .protect e c => Calm quiet xs e && Calm quiet xs c
  | xs, .loop e b => Calm quiet xs e && Calm quiet xs b
  | xs, .label _ r => Calm quiet xs r
  | xs, .tagbody b c => Calm quiet xs b && Calm quiet xs c
  | _, .error_ => false

/-- Every `return-from` and `go` is inside its block or `tagbody`, in the same function or cleanup form, and leaves no `catch` that follows the block on the stack immediately; the tags of a `tagbody`
differ; cleanup forms are calm; no 0.0. -/
def Fit (quiet : Nat → Bool) : List B → Tm → Bool
  | _, .const v => v ≠ .flt 0
  | _, .var _ => true
  | bs, .setq _ e => Fit quiet bs e
  | bs, .print e => Fit quiet bs e
  | bs, .progn a b => Fit quiet bs a && Fit quiet bs b
  | bs, .ite e a b => Fit quiet bs e && Fit quiet bs a && Fit quiet bs b
  | bs, .lett _ e b => Fit quiet bs e && Fit quiet (bs.map fun b => { b with gap := true }) b
  | _, .call _ => true
  | bs, .catch_ tag b => Fit quiet bs tag && Fit quiet (bs.map fun b => ⟨b.name, true, b.flush || !b.gap⟩) b
  | bs, .throw_ tag e => Fit quiet bs tag && Fit quiet (bs.map fun b => { b with gap := true }) e
  | bs, .block n b => Fit quiet (⟨n, false, false⟩ :: bs) b
  | bs, .retfrom n e => (match bs.find? (fun b => b.name.hits n) with
    | some b => !b.flush
    | none => false) && Fit quiet bs e
  | bs, .protect e c => Fit quiet (bs.map fun b => { b with gap := true }) e && Fit quiet [] c && Calm quiet [] c
  | bs, .loop e b => Fit quiet bs e && Fit quiet bs b
  | bs, .label _ r => Fit quiet bs r
  | bs, .tagbody b c => decide (tagsOf b).Nodup && Fit quiet (⟨.tags (tagsOf b), false, false⟩ :: bs) b &&
    Fit quiet (⟨.tags (tagsOf b), false, false⟩ :: bs) c
  | _, .error_ => true

/-- All functions. -/
structure FitProg (P : Prog) (quiet : Nat → Bool) : Prop where
  all : ∀ f, Fit quiet [⟨.blk f, false, false⟩] (P.F f) = true
  quiet : ∀ f, quiet f = true → Calm quiet [] (P.F f) = true

end Eus.Cex
