set_option autoImplicit false
/-
Generated symbols: `gentemp`, `lisp/l/packsym.l`, with `find-symbol` and `intern`.  Names are lists of characters; the hash tables of packages are lists
of names (that they behave so is C26 and C27).
-/
namespace Eus.Gtm

abbrev Name := List Nat

/-- the decimal digits of an index, packsym.l:103, string.l:70 `princ-to-string` -/
def digits (n : Nat) : Name := if h : n < 10 then [48 + n] else digits (n / 10) ++ [48 + n % 10]
termination_by n
decreasing_by omega

/-- `*gentemp-index*`, packsym.l:98; for each package the names of its own symbols (`intsymvector`), of those it exports (`symvector`), and the packages
it uses.  No symbol is imported. -/
structure St where
  index : Nat
  own : Nat → List Name
  ext : Nat → List Name
  use : Nat → List Nat

/-- specials.c:1110-1134 `find-symbol`: only the symbols of the package itself -/
def findSymbol (s : St) (pkg : Nat) (n : Name) : Bool := decide (n ∈ s.own pkg)

/-- intern.c:110-149 `intern`; the symbol is given by its home package and its name.  `export_all` is off, intern.c:145. -/
def intern (s : St) (pkg : Nat) (n : Name) : (Nat × Name) × St :=
  if n ∈ s.own pkg then ((pkg, n), s)
  else
    match (s.use pkg).find? (fun u => decide (n ∈ s.ext u)) with
    | some u => ((u, n), s)
    | none => ((pkg, n), { s with own := fun q => if q = pkg then n :: s.own q else s.own q })

/-- packsym.l:99-105 `gentemp`; the first argument bounds the rounds of the loop, `none`: it is too small.  The index is an unbounded number. -/
def gentemp : Nat → St → Name → Nat → Option ((Nat × Name) × St)
  | 0, _, _, _ => none
  | f + 1, s, pre, pkg =>
    if findSymbol s pkg (pre ++ digits s.index) then gentemp f { s with index := s.index + 1 } pre pkg
    else some (intern s pkg (pre ++ digits s.index))

/-- what a program does: generate a symbol, or have one read -/
inductive Op where
  | gen (pre : Name) (pkg : Nat)
  | read (n : Name) (pkg : Nat)

/-- a program run; the generated symbols.  The loop is given as many rounds as the package has symbols, and one. -/
def run : List Op → St → Option (List (Nat × Name) × St)
  | [], s => some ([], s)
  | .gen pre pkg :: l, s =>
    match gentemp ((s.own pkg).length + 1) s pre pkg with
    | none => none
    | some (x, s1) =>
      match run l s1 with
      | none => none
      | some (r, s2) => some (x :: r, s2)
  | .read n pkg :: l, s => run l (intern s pkg n).2

end Eus.Gtm
