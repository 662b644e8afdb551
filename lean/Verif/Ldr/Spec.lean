import Verif.Ldr.Model
set_option autoImplicit false
/-
What `require` and `load` promise.
-/
namespace Eus.Ldr

/-- The modules whose files were loaded by `require`, in the order they were begun. -/
def starts : List Ev → List Nat
  | [] => []
  | .start m :: r => m :: starts r
  | _ :: r => starts r

/-- The state an outcome leaves. -/
def Out.state : Out → Option St
  | .ok s => some s
  | .err s => some s
  | .fuel => none

/-- What happened between two states. -/
def Since (s s' : St) (evs : List Ev) : Prop := s'.trace = s.trace ++ evs

/-- The file exists, under some extension. -/
def Exists (W : World) (d : Dir) (b : Nat) : Prop := ∃ e st, W.file d b e = some st

/-- `e` comes before `e'` in the order of the extensions. -/
def Ext.num : Ext → Nat
  | .asis => 0 | .dll => 1 | .dylib => 2 | .so => 3 | .o => 4 | .l => 5

/-- In directory `d` the file taken for base name `b` is the one with extension `e`. -/
def Takes (W : World) (d : Dir) (b : Nat) (e : Ext) (st : List Stmt) : Prop :=
  W.file d b e = some st ∧ ∀ e', e'.num < e.num → W.file d b e' = none

/-- The directories looked at: those of the files being loaded, innermost first, then the load path. -/
def Looked (W : World) (dirs : List Dir) (f : FName) : List Dir :=
  if f.abs then [f.sub] else (dirs ++ W.loadPath).map (· ++ f.sub)

/-- The module and file dependencies have layers: a file requires only modules of lower layers and
loads only files of lower layers; the files of a module are not above it. -/
def LayeredIn (W : World) (rm : Nat → Nat) (rf : Dir → Nat → Ext → Nat) (n : Nat) (l : List Stmt) : Prop :=
  (∀ m f, Stmt.req m f ∈ l → rm m < n ∧
    ∀ dirs d e st, resolve W dirs f = some (d, e, st) → rf d f.base e ≤ rm m) ∧
  (∀ f, Stmt.load f ∈ l → ∀ dirs d e st, resolve W dirs f = some (d, e, st) → rf d f.base e < n)

/-- All files have layers. -/
def Layered (W : World) (rm : Nat → Nat) (rf : Dir → Nat → Ext → Nat) : Prop :=
  ∀ d b e st, W.file d b e = some st → LayeredIn W rm rf (rf d b e) st

/-- Every module file begins by providing the module. -/
def FirstIn (W : World) (l : List Stmt) : Prop :=
  ∀ m f, Stmt.req m f ∈ l → ∀ dirs d e st, resolve W dirs f = some (d, e, st) → ∃ r, st = .prov m :: r

def First (W : World) : Prop := ∀ d b e st, W.file d b e = some st → FirstIn W st

end Eus.Ldr
