import Mathlib.Logic.Function.Basic
set_option autoImplicit false
/-!
# Symbol tables and packages

Models lisp/c/intern.c (rehash, findsymbol, extendsymvec, export, intern), the table creation of
lisp/c/makes.c:207-245 and the methods of class `package` in lisp/l/packsym.l:108-218.

Simplifications.  A symbol is its identity (`SymId`); the only slot of a symbol the code reads here
is its name, kept in `World.pname`.  Home packages, values and the names of packages are left out.
Packages are numbered in the order of their creation.  Running out of memory is not modelled, so
the cell sizes of `buddysize` go on for ever.
-/
namespace Eus.Pkg

/-- A symbol name: the bytes of the string (intern.c:110-115 `id`, `l`). -/
abbrev Name := List UInt8

/-- The identity of a symbol object. -/
abbrev SymId := Nat

/-- intern.c:13-21 `rehash` (and the same lines in findsymbol, 27-29).  `hash` is a 32-bit `int`
that wraps round; as only its 29 low bits are kept, the sum is taken over the natural numbers. -/
def rehash (n : Name) : Nat := (n.foldl (fun h b => 5 * h + b.toNat) n.length) % 2 ^ 29

/-- One word of a symbol vector: `makeint(0)`, `makeint(1)` or a symbol (intern.c:33-43). -/
inductive Slot where
  | empty
  | deleted
  | sym (s : SymId)
deriving DecidableEq, Repr

/-- A symbol vector with its counter (`symvector`/`symcount` or `intsymvector`/`intsymcount` of a
package, eus.h) and the size class `bix` of its memory cell. -/
structure Table where
  size : Nat
  slot : Nat → Slot
  count : Nat
  bix : Nat

/-- The cell sizes in words (memory.c: `buddysize[0]=buddysize[1]=3`, each the sum of the two
before it). -/
def buddysize : Nat → Nat
  | 0 => 3
  | 1 => 3
  | n + 2 => buddysize n + buddysize (n + 1)

/-- makes.c:229-236: the tables of a new package, SYMBOLHASH = 60 empty words (eus.h:145), in a cell
of 63 words, class 7. -/
def Table.new : Table := ⟨60, fun _ => .empty, 0, 7⟩

/-- `if (++hash>=size) hash=0` (intern.c:44, 70, 106, 131). -/
def next (size i : Nat) : Nat := if i + 1 ≥ size then 0 else i + 1

/-- Storing into a word of the table. -/
def Table.set (t : Table) (i : Nat) (s : SymId) : Table :=
  { t with slot := Function.update t.slot i (.sym s) }

/-- What findsymbol gives back: the symbol and its place, or NULL and the place `*hashval`. -/
inductive Found where
  | found (s : SymId) (i : Nat)
  | absent (i : Nat)
deriving DecidableEq, Repr

/-- intern.c:33-45, the loop of findsymbol; `ep` is `*hashval` once `flag` is set.  The loop has no
bound: after `size` rounds it has seen every word and goes on for ever, `none`. -/
def findLoop (pname : SymId → Name) (slot : Nat → Slot) (size : Nat) (n : Name) :
    Nat → Nat → Option Nat → Option Found
  | 0, _, _ => none
  | f + 1, i, ep =>
    match slot i with
    | .sym s => if pname s = n then some (.found s i) else findLoop pname slot size n f (next size i) ep
    | .empty => some (.absent (ep.getD i))
    | .deleted => findLoop pname slot size n f (next size i) (some (ep.getD i))

/-- intern.c:23-46 `findsymbol`; also packsym.l:154-167 `:find` and 190-204 `:find-external`, which
do the same search in Lisp (`:find` stops with an error where findsymbol never ends). -/
def findsymbol (pname : SymId → Name) (t : Table) (n : Name) : Option Found :=
  findLoop pname t.slot t.size n t.size (rehash n % t.size) none

/-- intern.c:69-71: the first word that is `makeint(0)`. -/
def emptyLoop (slot : Nat → Slot) (size : Nat) : Nat → Nat → Option Nat
  | 0, _ => none
  | f + 1, i => if slot i = .empty then some i else emptyLoop slot size f (next size i)

/-- intern.c:66-72: one symbol of the old table. -/
def rehashOne (pname : SymId → Name) (t : Table) (s : SymId) : Option Table :=
  (emptyLoop t.slot t.size t.size (rehash (pname s) % t.size)).map fun i =>
    { t.set i s with count := t.count + 1 }

/-- intern.c:48-77 `extendsymvec`: a new vector of the next cell size, with all the symbols entered
again in the order of the old words. -/
def extendsymvec (pname : SymId → Name) (t : Table) : Option Table :=
  (List.range t.size).foldl
    (fun acc i => acc.bind fun t' =>
      match t.slot i with
      | .sym s => rehashOne pname t' s
      | _ => some t')
    (some ⟨buddysize (t.bix + 1) - 2, fun _ => .empty, 0, t.bix + 1⟩)

/-- intern.c:95-107: the loop of export over the external table; the place where it stops, with
`true` when the symbol is there already. -/
def exportLoop (slot : Nat → Slot) (size : Nat) (s : SymId) : Nat → Nat → Option (Bool × Nat)
  | 0, _ => none
  | f + 1, i =>
    match slot i with
    | .sym s' => if s' = s then some (true, i) else exportLoop slot size s f (next size i)
    | _ => some (false, i)

/-- intern.c:97-105 and 132-135, 141-145: a new symbol is put in the word `i`; the counter grows if
the word was empty. -/
def putCount (t : Table) (i : Nat) : Nat :=
  match t.slot i with
  | .empty => t.count + 1
  | _ => t.count

/-- intern.c:101-104, 141-145: the vector is replaced by a larger one when more than half of it is
in use. -/
def extendIf (pname : SymId → Name) (t : Table) : Option Table :=
  if t.count > t.size / 2 then extendsymvec pname t else some t

/-- A package (eus.h `struct package`): `intsymvector`, `symvector`, `use`, `used_by`. -/
structure Package where
  int : Table
  ext : Table
  use : List Nat
  usedBy : List Nat

/-- All symbols and packages. -/
structure World where
  pname : SymId → Name
  nsym : Nat
  pkg : Nat → Package
  npkg : Nat

/-- What is fixed: `keywordpkg` (intern.c:136) and `export_all` (intern.c:11, sysfunc.c:741). -/
structure Cfg where
  keyword : Nat
  exportAll : Bool

/-- The answer of a call: a symbol, nothing of interest, or a lisp error. -/
inductive Ans where
  | sym (s : SymId)
  | done
  | conflict
deriving DecidableEq, Repr

/-- A change to one package. -/
def World.upd (w : World) (p : Nat) (f : Package → Package) : World :=
  { w with pkg := Function.update w.pkg p (f (w.pkg p)) }

/-- intern.c:88-94: whether a package of the list has another symbol of this name. -/
def conflictIn (w : World) (s : SymId) : List Nat → Option Bool
  | [] => some false
  | q :: qs =>
    match findsymbol w.pname (w.pkg q).int (w.pname s) with
    | none => none
    | some (.found s' _) => if s' = s then conflictIn w s qs else some true
    | some (.absent _) => conflictIn w s qs

/-- intern.c:79-108 `export`; `none`: does not end. -/
def «export» (w : World) (s : SymId) (p : Nat) : Option (World × Ans) :=
  match conflictIn w s (w.pkg p).usedBy with
  | none => none
  | some true => some (w, .conflict)
  | some false =>
    let t := (w.pkg p).ext
    match exportLoop t.slot t.size s t.size (rehash (w.pname s) % t.size) with
    | none => none
    | some (true, _) => some (w, .done)
    | some (false, i) =>
      match extendIf w.pname { t.set i s with count := putCount t i } with
      | none => none
      | some t' => some (w.upd p fun k => { k with ext := t' }, .done)

/-- intern.c:120-124: the search in the external tables of the used packages. -/
def findUsed (w : World) (n : Name) : List Nat → Option (Option SymId)
  | [] => some none
  | u :: us =>
    match findsymbol w.pname (w.pkg u).ext n with
    | none => none
    | some (.found s _) => some (some s)
    | some (.absent _) => findUsed w n us

/-- intern.c:131: skip the words that hold symbols. -/
def skipLoop (slot : Nat → Slot) (size : Nat) : Nat → Nat → Option Nat
  | 0, _ => none
  | f + 1, i => match slot i with | .sym _ => skipLoop slot size f (next size i) | _ => some i

/-- intern.c:128 `makesymbol`. -/
def World.makesymbol (w : World) (n : Name) : World :=
  { w with pname := Function.update w.pname w.nsym n, nsym := w.nsym + 1 }

/-- intern.c:141-149: the end of intern: extension, counter, export under `export_all`. -/
def internEnd (c : Cfg) (w : World) (s : SymId) (p : Nat) (l : Nat) : Option (World × Ans) :=
  match extendIf w.pname { (w.pkg p).int with count := l } with
  | none => none
  | some t' =>
    let w := w.upd p fun k => { k with int := t' }
    if c.exportAll then
      match «export» w s p with
      | none => none
      | some (w, .conflict) => some (w, .conflict)
      | some (w, _) => some (w, .sym s)
    else some (w, .sym s)

/-- intern.c:126-149: a new symbol in the package, at or after the place `i`.  In the keyword
package the new symbol is exported before the counter is stored, so an error in export leaves the
counter as it was. -/
def internNew (c : Cfg) (w : World) (p : Nat) (n : Name) (i : Nat) : Option (World × Ans) :=
  let s := w.nsym
  let w := w.makesymbol n
  let t := (w.pkg p).int
  match skipLoop t.slot t.size t.size i with
  | none => none
  | some i =>
    let l := putCount t i
    let w := w.upd p fun k => { k with int := t.set i s }
    if p = c.keyword then
      match «export» w s p with
      | none => none
      | some (w, .conflict) => some (w, .conflict)
      | some (w, _) => internEnd c w s p l
    else internEnd c w s p l

/-- intern.c:110-150 `intern`. -/
def intern (c : Cfg) (w : World) (p : Nat) (n : Name) : Option (World × Ans) :=
  match findsymbol w.pname (w.pkg p).int n with
  | none => none
  | some (.found s _) => some (w, .sym s)
  | some (.absent i) =>
    match findUsed w n (w.pkg p).use with
    | none => none
    | some (some s) => some (w, .sym s)
    | some none => internNew c w p n i

/-- common.l adjoin on package lists with the default test. -/
def adjoin (a : Nat) (l : List Nat) : List Nat := if a ∈ l then l else a :: l

/-- packsym.l:124-130: is there an external symbol of `p` (word `i` of the vector on) for which `q`
has another symbol of that name? -/
def useConflict (w : World) (q : Nat) (t : Table) : List Nat → Option Bool
  | [] => some false
  | i :: is =>
    match t.slot i with
    | .sym s =>
      match findsymbol w.pname (w.pkg q).int (w.pname s) with
      | none => none
      | some (.found s' _) => if s' = s then useConflict w q t is else some true
      | some (.absent _) => useConflict w q t is
    | _ => useConflict w q t is

/-- packsym.l:113-132 `:use` of one package, use-package: `q` uses `p`. -/
def usePkg (w : World) (q p : Nat) : Option (World × Ans) :=
  if p = q then some (w, .done)
  else
    match useConflict w q (w.pkg p).ext (List.range (w.pkg p).ext.size) with
    | none => none
    | some true => some (w, .conflict)
    | some false =>
      let w := w.upd q fun k => { k with use := adjoin p k.use }
      some (w.upd p fun k => { k with usedBy := adjoin q k.usedBy }, .done)

/-- packsym.l:133-139 `:unuse` and `:unused`. -/
def unuse (w : World) (q p : Nat) : World :=
  let w := w.upd q fun k => { k with use := k.use.filter (· ≠ p) }
  w.upd p fun k => { k with usedBy := k.usedBy.filter (· ≠ q) }

/-- packsym.l:185-188, 216-218: a word of the table becomes 1 (deleted) or 0. -/
def Table.mark (t : Table) (i : Nat) (x : Slot) : Table :=
  { t with slot := Function.update t.slot i x }

/-- The table after `x` was stored in the place of the symbol of this name, if there is one. -/
def removeName (pname : SymId → Name) (t : Table) (n : Name) (x : Slot) : Option Table :=
  match findsymbol pname t n with
  | none => none
  | some (.found _ i) => some (t.mark i x)
  | some (.absent _) => some t

/-- packsym.l:179-189 `:unintern`. -/
def unintern (w : World) (s : SymId) (p : Nat) : Option (World × Ans) :=
  match removeName w.pname (w.pkg p).int (w.pname s) .deleted with
  | none => none
  | some t =>
    let w := w.upd p fun k => { k with int := t }
    match removeName w.pname (w.pkg p).ext (w.pname s) .deleted with
    | none => none
    | some t => some (w.upd p fun k => { k with ext := t }, .done)

/-- packsym.l:216-218 `:unexport`. -/
def unexport (w : World) (s : SymId) (p : Nat) : Option (World × Ans) :=
  match removeName w.pname (w.pkg p).ext (w.pname s) .empty with
  | none => none
  | some t => some (w.upd p fun k => { k with ext := t }, .done)

/-- packsym.l:143-153 `:enter`: no extension; an error when the counter has reached the size.  The
symbol is always given with its table's package. -/
def enter (w : World) (s : SymId) (p : Nat) : Option (World × Ans) :=
  let t := (w.pkg p).int
  if t.count ≥ t.size then some (w, .conflict)
  else
    match skipLoop t.slot t.size t.size (rehash (w.pname s) % t.size) with
    | none => none
    | some i =>
      some (w.upd p fun k => { k with int := { t.set i s with count := putCount t i } }, .done)

/-- packsym.l:172-178 `:import`. -/
def «import» (w : World) (s : SymId) (p : Nat) : Option (World × Ans) :=
  match findsymbol w.pname (w.pkg p).int (w.pname s) with
  | none => none
  | some (.found s' _) => if s' = s then enter w s p else some (w, .conflict)
  | some (.absent _) => enter w s p

/-- packsym.l:169-171 `:shadow`. -/
def shadow (w : World) (n : Name) (p : Nat) : Option (World × Ans) :=
  match findsymbol w.pname (w.pkg p).int n with
  | none => none
  | some (.found _ _) => some (w, .done)
  | some (.absent _) => enter (w.makesymbol n) w.nsym p

/-- specials.c:1110-1134 `find-symbol`: only the symbols of the package itself. -/
def findSymbol (w : World) (p : Nat) (n : Name) : Option (Option SymId) :=
  (findsymbol w.pname (w.pkg p).int n).map fun
    | .found s _ => some s
    | .absent _ => none

/-- packsym.l:190-204 `:find-external`: the symbol that the package exports under this name. -/
def findExternal (w : World) (p : Nat) (n : Name) : Option (Option SymId) :=
  (findsymbol w.pname (w.pkg p).ext n).map fun
    | .found s _ => some s
    | .absent _ => none

/-- packsym.l:265-268 `make-package` with makes.c:207-245: a new package with the given use list,
which is then noted in the used packages. -/
def makePkg (w : World) (uses : List Nat) : World :=
  let p := w.npkg
  let w := { w with pkg := Function.update w.pkg p ⟨.new, .new, uses, []⟩, npkg := w.npkg + 1 }
  uses.foldl (fun w u => w.upd u fun k => { k with usedBy := adjoin p k.usedBy }) w

/-- The calls of the interface. -/
inductive Op where
  | intern (p : Nat) (n : Name)
  | «export» (s : SymId) (p : Nat)
  | use (q p : Nat)
  | unuse (q p : Nat)
  | unintern (s : SymId) (p : Nat)
  | «import» (s : SymId) (p : Nat)
  | shadow (n : Name) (p : Nat)
  | mkPkg (uses : List Nat)
deriving DecidableEq, Repr

/-- One call (intern.c, packsym.l). -/
def step (c : Cfg) (w : World) : Op → Option (World × Ans)
  | .intern p n => intern c w p n
  | .export s p => «export» w s p
  | .use q p => usePkg w q p
  | .unuse q p => some (unuse w q p, .done)
  | .unintern s p => unintern w s p
  | .import s p => «import» w s p
  | .shadow n p => shadow w n p
  | .mkPkg us => some (makePkg w us, .done)

/-- A sequence of calls with the answers in order; `none`: one of them does not end. -/
def run (c : Cfg) (w : World) : List Op → Option (World × List Ans)
  | [] => some (w, [])
  | o :: os =>
    match step c w o with
    | none => none
    | some (w, a) => (run c w os).map fun r => (r.1, a :: r.2)

/-- No symbols and no packages. -/
def World.init : World := ⟨fun _ => [], 0, fun _ => ⟨.new, .new, [], []⟩, 0⟩

end Eus.Pkg
