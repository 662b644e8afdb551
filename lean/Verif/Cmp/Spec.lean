import Verif.Lex.Spec
set_option autoImplicit false
/-
The programs for which compiled code is claimed to behave as lexical scoping demands (Verif/Lex/Spec).  `glo` are the variables meant as global ones without being proclaimed special.
-/
namespace Eus.Cmp
open Eus.Lex

/-- Forms that bind nothing and make no function. -/
inductive Flat : Expr → Prop
  | nil : Flat .nil
  | t : Flat .t
  | int (n : Int) : Flat (.int n)
  | var (x : Sym) : Flat (.var x)
  | setq {x e} : Flat e → Flat (.setq x e)
  | ite {c a b} : Flat c → Flat a → Flat b → Flat (.ite c a b)
  | not {e} : Flat e → Flat (.not e)
  | and {es} : (∀ e ∈ es, Flat e) → Flat (.and es)
  | or {es} : (∀ e ∈ es, Flat e) → Flat (.or es)
  | progn {es} : (∀ e ∈ es, Flat e) → Flat (.progn es)
  | while {c es} : Flat c → (∀ e ∈ es, Flat e) → Flat (.while c es)
  | fn (f : Sym) : Flat (.fn f)
  | funcall {e es} : Flat e → (∀ a ∈ es, Flat a) → Flat (.funcall e es)
  | call {f es} : (∀ a ∈ es, Flat a) → Flat (.call f es)
  | prim {k es} : (∀ a ∈ es, Flat a) → Flat (.prim k es)

/-- Forms whose value is that of a global or special variable, or whether it is NIL: the compiler leaves out reading it if the value is not used, so an unbound variable is not noticed. -/
inductive GlobalRef (sc : List Sym) : Expr → Prop
  | var {x} : x ∉ sc → GlobalRef sc (.var x)
  | not {e} : GlobalRef sc e → GlobalRef sc (.not e)
  | progn {es e} : GlobalRef sc e → GlobalRef sc (.progn (es ++ [e]))

/-- A variable that may be bound. -/
def okName (P : Prog) (glo : Sym → Bool) (x : Sym) : Prop := P.special x = true ∨ glo x = false

def okNames (P : Prog) (glo : Sym → Bool) (xs : List Sym) : Prop := xs.Nodup ∧ ∀ x ∈ xs, okName P glo x

/-- The forms whose values are not used are not references to global variables. -/
def used (sc : List Sym) (es : List Expr) : Prop := ∀ e ∈ es.dropLast, ¬ GlobalRef sc e

mutual
/-- Programs, with the variables sc and the local functions fs visible.
Every variable is a visible one, special or one of glo, and the latter are not bound; no name twice in a list of variables; functions called are defined; local functions do not have the name of a
function defined by `defun`; functions defined by `flet` do not call the functions defined there, nor ones of the same name; no `(and)`; no `((lambda ...) ...)`. -/
inductive CPlain (P : Prog) (glo : Sym → Bool) : List Sym → List Sym → Expr → Prop
  | nil {sc fs} : CPlain P glo sc fs .nil
  | t {sc fs} : CPlain P glo sc fs .t
  | int {sc fs} (n : Int) : CPlain P glo sc fs (.int n)
  | var {sc fs x} : (x ∈ sc ∨ P.special x = true ∨ glo x = true) → CPlain P glo sc fs (.var x)
  | setq {sc fs x e} : (x ∈ sc ∨ P.special x = true ∨ glo x = true) → CPlain P glo sc fs e → CPlain P glo sc fs (.setq x e)
  | ite {sc fs c a b} : CPlain P glo sc fs c → CPlain P glo sc fs a → CPlain P glo sc fs b → CPlain P glo sc fs (.ite c a b)
  | not {sc fs e} : CPlain P glo sc fs e → CPlain P glo sc fs (.not e)
  | and {sc fs es} : es ≠ [] → (∀ e ∈ es, CPlain P glo sc fs e) → CPlain P glo sc fs (.and es)
  | or {sc fs es} : (∀ e ∈ es, CPlain P glo sc fs e) → CPlain P glo sc fs (.or es)
  | progn {sc fs es} : (∀ e ∈ es, CPlain P glo sc fs e) → used sc es → CPlain P glo sc fs (.progn es)
  | while {sc fs c es} : CPlain P glo sc fs c → (∀ e ∈ es, CPlain P glo sc fs e) → (∀ e ∈ es, ¬ GlobalRef sc e) → CPlain P glo sc fs (.while c es)
  | letp {sc fs bs es} : CInits P glo sc fs [] bs → okNames P glo (bs.map Prod.fst) → (∀ e ∈ es, CPlain P glo (ext P (bs.map Prod.fst) sc) fs e) → used (ext P (bs.map Prod.fst) sc) es →
      CPlain P glo sc fs (.letp bs es)
  | letsNil {sc fs es} : (∀ e ∈ es, CPlain P glo sc fs e) → used sc es → CPlain P glo sc fs (.lets [] es)
  | letsCons {sc fs x e bs es} : CPlain P glo sc fs e → okName P glo x → CPlain P glo (ext P [x] sc) fs (.lets bs es) → CPlain P glo sc fs (.lets ((x, e) :: bs) es)
  | lam {sc fs ps es} : okNames P glo ps → (∀ e ∈ es, CPlain P glo (ext P ps sc) fs e) → used (ext P ps sc) es → CPlain P glo sc fs (.lam ps es)
  | fn {sc fs f} : (f ∈ fs ∨ P.fns f ≠ none) → CPlain P glo sc fs (.fn f)
  | funcall {sc fs e args} : CPlain P glo sc fs e → (∀ a ∈ args, CPlain P glo sc fs a) → CPlain P glo sc fs (.funcall e args)
  | call {sc fs f args} : (f ∈ fs ∨ P.fns f ≠ none) → (∀ a ∈ args, CPlain P glo sc fs a) → CPlain P glo sc fs (.call f args)
  | flet {sc fs ds es} : (∀ d ∈ ds, P.fns d.1 = none ∧ okNames P glo d.2.1 ∧ used (ext P d.2.1 sc) d.2.2) →
      (∀ d ∈ ds, ∀ e ∈ d.2.2, CPlain P glo (ext P d.2.1 sc) (fs.filter (fun f => !(ds.map Prod.fst).contains f)) e) →
      (∀ e ∈ es, CPlain P glo sc (extF ds fs) e) → used sc es → CPlain P glo sc fs (.flet ds es)
  | labels {sc fs ds es} : (∀ d ∈ ds, P.fns d.1 = none ∧ okNames P glo d.2.1 ∧ used (ext P d.2.1 sc) d.2.2) →
      (∀ d ∈ ds, ∀ e ∈ d.2.2, CPlain P glo (ext P d.2.1 sc) (extF ds fs) e) →
      (∀ e ∈ es, CPlain P glo sc (extF ds fs) e) → used sc es → CPlain P glo sc fs (.labels ds es)
  | prim {sc fs k args} : (∀ a ∈ args, CPlain P glo sc fs a) → CPlain P glo sc fs (.prim k args)

/-- The initial values of `let`; hs are the variables before this one.  A form that binds variables or makes a function does not use those. -/
inductive CInits (P : Prog) (glo : Sym → Bool) : List Sym → List Sym → List Sym → List (Sym × Expr) → Prop
  | nil {sc fs hs} : CInits P glo sc fs hs []
  | flat {sc fs hs x e bs} : Flat e → CPlain P glo sc fs e → CInits P glo sc fs (x :: hs) bs → CInits P glo sc fs hs ((x, e) :: bs)
  | deep {sc fs hs x e bs} : CPlain P glo (sc.filter (fun y => !hs.contains y)) fs e → CInits P glo sc fs (x :: hs) bs → CInits P glo sc fs hs ((x, e) :: bs)
end

/-- The functions of a file. -/
def CPlainProg (P : Prog) (glo : Sym → Bool) : Prop :=
  ∀ f ps body, P.fns f = some (ps, body) → okNames P glo ps ∧ (∀ e ∈ body, CPlain P glo (ext P ps []) [] e) ∧ used (ext P ps []) body

/-- The program a file is, with these special variables and builtin functions. -/
def progOf (special : Sym → Bool) (builtin : Nat → List (Option Int) → Option (Option Int)) (defs : List (Sym × List Sym × List Expr)) : Prog :=
  ⟨fun f => (defs.find? (fun d => d.1 == f)).map Prod.snd, special, builtin⟩

end Eus.Cmp
