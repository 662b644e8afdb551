import Verif.Arg.Model
set_option autoImplicit false
/-
What a command line means, argument by argument.
-/
namespace Eus.Arg

/-- A declaration: `(send parser :add-argument flags :action ...)`, with the symbol it is kept under. -/
structure Decl where
  flags : List Str
  dest : Dest
  arg : Argument

/-- A flag: it begins with `-` and has something else than dashes in it. -/
def IsFlag (s : Str) : Prop := (∃ r, s = 45 :: r) ∧ ∃ c ∈ s, c ≠ 45

/-- `name` or `name=value`, with no `=` in the name. -/
def Splits (s name : Str) (value : Option Str) : Prop :=
  61 ∉ name ∧ ((value = none ∧ s = name) ∨ ∃ v, value = some v ∧ s = name ++ 61 :: v)

/-- The declarations are consistent: flags without `=`, no flag twice, no symbol twice. -/
structure Consistent (ds : List Decl) : Prop where
  flags : ∀ d ∈ ds, ∀ f ∈ d.flags, IsFlag f ∧ 61 ∉ f
  once : (ds.flatMap Decl.flags).Nodup
  dests : (ds.map Decl.dest).Nodup

/-- The keyword for a name: the leading dashes go, small letters become capital. -/
def Keyword (s : Str) (d : Dest) : Prop :=
  ∃ n r, s = List.replicate n 45 ++ r ∧ (∀ q, r ≠ 45 :: q) ∧
    d = .key (r.map fun c => if 97 ≤ c ∧ c ≤ 122 then c - 32 else c)

/-- The first value: `:default`, but `nil` and `t` for `:store-true` and `:store-false`. -/
def First (a : Argument) (v : V) : Prop :=
  (a.action = .storeTrue ∧ v = .nil) ∨ (a.action = .storeFalse ∧ v = .t) ∨
    (a.action ≠ .storeTrue ∧ a.action ≠ .storeFalse ∧ v = a.value)

/-- The call makes the declaration: the symbol comes from `:dest`, or else from the first flag. -/
def Makes (c : Call) (d : Decl) : Prop :=
  d.flags = c.flags ∧ (∃ v, First c.arg v ∧ d.arg = { c.arg with value := v }) ∧
    match c.dest with
    | .gensym k => d.dest = .gen k
    | .name s => Keyword s d.dest
    | .first => ∃ f r, c.flags = f :: r ∧ Keyword f d.dest

/-- The uses of one declaration on a command line, in order: the flag as written and its value. -/
inductive Uses (d : Decl) : List Str → List (Str × Option Str) → Prop
  | nil : Uses d [] []
  | use {s name : Str} {v : Option Str} {r : List Str} {u : List (Str × Option Str)} :
      IsFlag s → Splits s name v → name ∈ d.flags → Uses d r u → Uses d (s :: r) ((s, v) :: u)
  | other {s name : Str} {v : Option Str} {r : List Str} {u : List (Str × Option Str)} :
      IsFlag s → Splits s name v → name ∉ d.flags → Uses d r u → Uses d (s :: r) u
  | plain {s : Str} {r : List Str} {u : List (Str × Option Str)} : ¬ IsFlag s → Uses d r u → Uses d (s :: r) u

/-- What may be stored: the check succeeds and it is one of the choices, if there are any. -/
def Allowed (a : Argument) (v : V) : Prop := (∀ f ∈ a.check, f v = true) ∧ (a.choices = [] ∨ v ∈ a.choices)

/-- The value a string stands for. -/
def Meaning (rd : Str → Option V) (a : Argument) (s : Str) (v : V) : Prop :=
  if a.read then rd s = some v else v = .str s

/-- The list with one more element at its end (`append`, which drops what a dotted list ends in). -/
inductive Snoc : V → V → V → Prop
  | nil (x : V) : Snoc .nil x (.cons x .nil)
  | dotted {d : V} (a x : V) : (∀ b c, d ≠ .cons b c) → d ≠ .nil → Snoc (.cons a d) x (.cons a (.cons x .nil))
  | cons {d x r : V} (a : V) : Snoc d x r → Snoc (.cons a d) x (.cons a r)

/-- One use takes the value `v` to `w`. -/
inductive Step (rd : Str → Option V) (a : Argument) : Option Str → V → V → Prop
  | store {s : Str} {v w : V} : a.action = .store → Meaning rd a s w → Allowed a w → Step rd a (some s) v w
  | append {s : Str} {v w x : V} : a.action = .append → Meaning rd a s x → Allowed a x → Snoc v x w → Step rd a (some s) v w
  | storeTrue {v : V} : a.action = .storeTrue → Allowed a .t → Step rd a none v .t
  | storeFalse {v : V} : a.action = .storeFalse → Allowed a .nil → Step rd a none v .nil
  | storeConst {v : V} : a.action = .storeConst → Allowed a a.const → Step rd a none v a.const
  | count {n : Int} : a.action = .count → Allowed a (.int (n + 1)) → Step rd a none (.int n) (.int (n + 1))
  | count1 : a.action = .count → Allowed a (.int 1) → Step rd a none .nil (.int 1)
  | fn0 {v w : V} : a.action = .fn0 (some w) → Allowed a w → Step rd a none v w
  | fn1 {f : V → Option V} {s : Str} {x v w : V} :
      a.action = .fn1 f → Meaning rd a s x → f x = some w → Allowed a w → Step rd a (some s) v w

/-- All uses in turn. -/
inductive Steps (rd : Str → Option V) (a : Argument) : List (Str × Option Str) → V → V → Prop
  | nil (v : V) : Steps rd a [] v v
  | cons {s : Str} {o : Option Str} {u : List (Str × Option Str)} {v x w : V} :
      Step rd a o v x → Steps rd a u x w → Steps rd a ((s, o) :: u) v w

/-- Every flag of the command line is declared. -/
def Known (ds : List Decl) (argv : List Str) : Prop :=
  ∀ s ∈ argv, IsFlag s → ∃ d ∈ ds, ∃ name v, Splits s name v ∧ name ∈ d.flags

/-- `:read` is not given together with an action that stores something else than the string. -/
def ReadFits (a : Argument) : Prop :=
  a.read = true → a.action ≠ .storeTrue ∧ a.action ≠ .storeFalse ∧ a.action ≠ .storeConst ∧ a.action ≠ .count

end Eus.Arg
