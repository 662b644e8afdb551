import Verif.Pkg.Model
set_option autoImplicit false
/-!
# Specification of packages

A package is two maps from names to symbols, the symbols it holds (`int`) and those it exports
(`ext`), and a list of packages it uses.  No tables, no hashing, no growth.

`AStep` gives the new state and the answer of each call, or `none` where no promise is made:
* exporting a symbol when the package exports another symbol of the same name, or exporting an
  exported symbol again after some symbol was uninterned from that package;
* uninterning a symbol of the name of another symbol of the package;
* importing a symbol already present, or more than 28 imports and shadowings into one package;
* a name conflict while a keyword is being exported.

The `_wrong` theorems of `Props` show that no promise can be made there.
-/
namespace Eus.Pkg

/-- Packages as maps. -/
structure AW where
  name : SymId → Name
  nsym : Nat
  int : Nat → Name → Option SymId
  ext : Nat → Name → Option SymId
  use : Nat → List Nat
  usedBy : Nat → List Nat
  npkg : Nat
  /-- a symbol was uninterned from the package -/
  cut : Nat → Bool
  /-- the number of symbols imported into or shadowed in the package -/
  imported : Nat → Nat

/-- Set one package's value of one name. -/
def put (f : Nat → Name → Option SymId) (p : Nat) (n : Name) (o : Option SymId) : Nat → Name → Option SymId :=
  fun p' n' => if p' = p ∧ n' = n then o else f p' n'

/-- The symbol a name denotes in a package: its own, or else the one exported by the first used
package that exports one. -/
def AW.denotes (a : AW) (p : Nat) (n : Name) : Option SymId :=
  (a.int p n).or ((a.use p).findSome? fun u => a.ext u n)

/-- A new symbol. -/
def AW.newSym (a : AW) (n : Name) : AW :=
  { a with name := Function.update a.name a.nsym n, nsym := a.nsym + 1 }

/-- export: refused if a package using `p` has another symbol of that name. -/
def AW.export (a : AW) (s : SymId) (p : Nat) : Option (AW × Ans) :=
  if ¬ s < a.nsym then none
  else if ∃ q ∈ a.usedBy p, ∃ s' ∈ a.int q (a.name s), s' ≠ s then some (a, .conflict)
  else match a.ext p (a.name s) with
    | none => some ({ a with ext := put a.ext p (a.name s) (some s) }, .done)
    | some s' => if s' = s ∧ a.cut p = false then some (a, .done) else none

/-- intern: the symbol the name denotes, or else a new one in `p`, exported if `p` is the keyword
package or `export_all` is on. -/
def AW.intern (c : Cfg) (a : AW) (p : Nat) (n : Name) : Option (AW × Ans) :=
  match a.denotes p n with
  | some s => some (a, .sym s)
  | none =>
    let s := a.nsym
    let a := a.newSym n
    let a := { a with int := put a.int p n (some s) }
    let r : Option (AW × Ans) := if p = c.keyword then a.export s p else some (a, .done)
    match r with
    | some (a, .done) =>
      if c.exportAll then
        match a.export s p with
        | none => none
        | some (a, .conflict) => some (a, .conflict)
        | some (a, _) => some (a, .sym s)
      else some (a, .sym s)
    | _ => none

/-- use-package: refused if `q` has another symbol of the name of one that `p` exports; the used
package comes first in the order of search. -/
def AW.usePkg (a : AW) (q p : Nat) : AW × Ans :=
  if p = q then (a, .done)
  else if ∃ s < a.nsym, a.ext p (a.name s) = some s ∧ ∃ s' ∈ a.int q (a.name s), s' ≠ s then (a, .conflict)
  else ({ a with use := Function.update a.use q (if p ∈ a.use q then a.use q else p :: a.use q),
                 usedBy := Function.update a.usedBy p (if q ∈ a.usedBy p then a.usedBy p else q :: a.usedBy p) },
        .done)

/-- unuse-package. -/
def AW.unuse (a : AW) (q p : Nat) : AW :=
  { a with use := Function.update a.use q ((a.use q).filter (· ≠ p)),
           usedBy := Function.update a.usedBy p ((a.usedBy p).filter (· ≠ q)) }

/-- unintern: the symbol is removed from both maps of the package. -/
def AW.unintern (a : AW) (s : SymId) (p : Nat) : Option (AW × Ans) :=
  if s < a.nsym ∧ (∀ x ∈ a.int p (a.name s), x = s) ∧ (∀ x ∈ a.ext p (a.name s), x = s) then
    some ({ a with int := put a.int p (a.name s) none, ext := put a.ext p (a.name s) none,
                   cut := Function.update a.cut p true }, .done)
  else none

/-- The symbol becomes present in the package. -/
def AW.enter (a : AW) (s : SymId) (p : Nat) : Option (AW × Ans) :=
  if a.imported p < 28 then
    some ({ a with int := put a.int p (a.name s) (some s),
                   imported := Function.update a.imported p (a.imported p + 1) }, .done)
  else none

/-- import: refused if the package has another symbol of that name. -/
def AW.import (a : AW) (s : SymId) (p : Nat) : Option (AW × Ans) :=
  if ¬ s < a.nsym then none
  else match a.int p (a.name s) with
    | some s' => if s' = s then none else some (a, .conflict)
    | none => a.enter s p

/-- shadow: a new symbol unless the package has one of that name. -/
def AW.shadow (a : AW) (n : Name) (p : Nat) : Option (AW × Ans) :=
  match a.int p n with
  | some _ => some (a, .done)
  | none => (a.newSym n).enter a.nsym p

/-- make-package: no symbols, the given packages used in the given order. -/
def AW.makePkg (a : AW) (uses : List Nat) : AW :=
  let p := a.npkg
  { a with int := Function.update a.int p (fun _ => none), ext := Function.update a.ext p (fun _ => none),
           use := Function.update a.use p uses,
           usedBy := uses.foldl (fun f u => Function.update f u (if p ∈ f u then f u else p :: f u))
             (Function.update a.usedBy p []),
           npkg := p + 1, cut := Function.update a.cut p false, imported := Function.update a.imported p 0 }

/-- One call. -/
def AStep (c : Cfg) (a : AW) : Op → Option (AW × Ans)
  | .intern p n => a.intern c p n
  | .export s p => a.export s p
  | .use q p => some (a.usePkg q p)
  | .unuse q p => some (a.unuse q p, .done)
  | .unintern s p => a.unintern s p
  | .import s p => a.import s p
  | .shadow n p => a.shadow n p
  | .mkPkg us => some (a.makePkg us, .done)

/-- A sequence of calls. -/
def ARun (c : Cfg) (a : AW) : List Op → Option (AW × List Ans)
  | [] => some (a, [])
  | o :: os =>
    match AStep c a o with
    | none => none
    | some (a, r) => (ARun c a os).map fun x => (x.1, r :: x.2)

/-- No symbols and no packages. -/
def AW.init : AW :=
  ⟨fun _ => [], 0, fun _ _ => none, fun _ _ => none, fun _ => [], fun _ => [], 0, fun _ => false, fun _ => 0⟩

end Eus.Pkg
