set_option autoImplicit false
/-
`load`, `require` and `provide` (lisp/l/loader.l).
Simplifications: a directory name is the list of its components, a file name its directory part and a
base name; a file is the list of the forms in it (text and object files alike), and a form is one of
the five kinds of `Stmt`.  Module names are numbers: the keyword that `provide` and `require` make of
their argument.  Not modelled: `*package*`, unloading of object files loaded before, object files
whose entry fails, version information.
-/
namespace Eus.Ldr

abbrev Dir := List Nat

/-- The extensions `load` tries, in its order (loader.l:245-258): the name as it is, then these. -/
inductive Ext where
  | asis | dll | dylib | so | o | l
deriving DecidableEq, Repr

/-- A name given to `load`: absolute or not, its directory part, its last part. -/
structure FName where
  abs : Bool
  sub : Dir
  base : Nat
deriving DecidableEq, Repr

/-- A form in a file: `(require m f)` (with `f` the module's name in small letters when it is not
given), `(provide m)`, `(load f)`, another form that has an effect, a form that fails. -/
inductive Stmt where
  | req (m : Nat) (f : FName)
  | prov (m : Nat)
  | load (f : FName)
  | eff (k : Nat)
  | fail
deriving DecidableEq, Repr

/-- What happens: a module's file begins to be loaded by `require`; a file begins to be loaded; an
effect. -/
inductive Ev where
  | start (m : Nat)
  | file (d : Dir) (b : Nat) (e : Ext)
  | eff (k : Nat)
deriving DecidableEq, Repr

/-- The files, and `*load-path*`. -/
structure World where
  file : Dir → Nat → Ext → Option (List Stmt)
  loadPath : List Dir

/-- `*modules*` (in order) and what has happened (latest last). -/
structure St where
  mods : List Nat
  trace : List Ev
deriving DecidableEq, Repr

/-- common.l:388-398 `union` with `:test #'string=`. -/
def unionStep (r : List Dir) (x : Dir) : List Dir := if x ∈ r then r else x :: r

/-- common.l:388-398. -/
def union (l1 l2 : List Dir) : List Dir := (l2.foldl unionStep (l1.foldl unionStep [])).reverse

/-- loader.l:245-258 `try-load`: the first extension with which the file exists. -/
def tryExts (W : World) (d : Dir) (b : Nat) : List Ext → Option (Dir × Ext × List Stmt)
  | [] => none
  | e :: r => match W.file d b e with
    | some st => some (d, e, st)
    | none => tryExts W d b r

/-- loader.l:245-258. -/
def tryLoad (W : World) (d : Dir) (b : Nat) : Option (Dir × Ext × List Stmt) :=
  tryExts W d b [.asis, .dll, .dylib, .so, .o, .l]

/-- loader.l:267-272: the loop over the directories. -/
def search (W : World) (f : FName) : List Dir → Option (Dir × Ext × List Stmt)
  | [] => none
  | p :: r => match tryLoad W (p ++ f.sub) f.base with
    | some x => some x
    | none => search W f r

/-- loader.l:261-273: which file `load` takes; `dirs` is `*loader-current-directory*`. -/
def resolve (W : World) (dirs : List Dir) (f : FName) : Option (Dir × Ext × List Stmt) :=
  if f.abs then tryLoad W f.sub f.base
  else search W f (union dirs W.loadPath)

/-- loader.l:441-448 `provide`. -/
def provide (m : Nat) (s : St) : St :=
  if m ∈ s.mods then s else { s with mods := s.mods ++ [m] }

def St.log (s : St) (e : Ev) : St := { s with trace := s.trace ++ [e] }

/-- Outcome: done, an error (the forms after it are not evaluated), or the bound on nesting is
reached. -/
inductive Out where
  | ok (s : St)
  | err (s : St)
  | fuel
deriving DecidableEq, Repr

mutual
/-- Evaluating the forms of a file, one after the other (loader.l:167-172 `txtload`). -/
def run (W : World) : Nat → List Dir → List Stmt → St → Out
  | 0, _, _, _ => .fuel
  | _ + 1, _, [], s => .ok s
  | n + 1, dirs, st :: r, s =>
    match exec W n dirs st s with
    | .ok s' => run W n dirs r s'
    | o => o
/-- One form.  loader.l:451-459 `require`: nothing if the module is there, else `load` and
`provide`. -/
def exec (W : World) : Nat → List Dir → Stmt → St → Out
  | 0, _, _, _ => .fuel
  | n + 1, dirs, st, s =>
    match st with
    | .prov m => .ok (provide m s)
    | .eff k => .ok (s.log (.eff k))
    | .fail => .err s
    | .load f => load W n dirs f s
    | .req m f =>
      if m ∈ s.mods then .ok s
      else match load W n dirs f (s.log (.start m)) with
        | .ok s' => .ok (provide m s')
        | o => o
/-- loader.l:207-273 `load`; lines 226-228: while the file is being loaded its directory is in front
of `*loader-current-directory*`. -/
def load (W : World) : Nat → List Dir → FName → St → Out
  | 0, _, _, _ => .fuel
  | n + 1, dirs, f, s =>
    match resolve W dirs f with
    | none => .err s
    | some (d, e, st) => run W n (d :: dirs) st (s.log (.file d f.base e))
end

end Eus.Ldr
