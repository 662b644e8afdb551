set_option autoImplicit false
/-
The command line parser of lib/llib/argparse.l: `:add-argument` and `:parse-args`.

Help texts are not modelled, and so is what the functions given as actions do besides returning a value; that such a
function does not return (`--help` exits) is an outcome.
-/
namespace Eus.Arg

/-- A string: the codes of its characters. -/
abbrev Str := List Nat

/-- Lisp objects, as far as the parser makes them; `obj` is anything else. -/
inductive V where
  | nil | t
  | int (n : Int)
  | str (s : Str)
  | cons (a d : V)
  | obj (k : Nat)
deriving DecidableEq, Repr

/-- The symbol an argument is kept under: a keyword, or a symbol made by `gensym`. -/
inductive Dest where
  | key (s : Str)
  | gen (k : Nat)
deriving DecidableEq, Repr

/-- The values of `:action`; functions without and with a parameter (`none`: the program ends). -/
inductive Action where
  | store | storeTrue | storeFalse | storeConst | count | append
  | fn0 (f : Option V)
  | fn1 (f : V → Option V)

/-- argparse.l:122-124 `argparse-argument` -/
structure Argument where
  action : Action
  const : V
  choices : List V
  check : Option (V → Bool)
  read : Bool
  required : Bool
  value : V

/-- How parsing can end early. -/
inductive Err where
  /-- `Argument ~S not found!` -/
  | unknown (flag : Str)
  /-- `Value expected in ~S` -/
  | noValue (flag : Str)
  /-- `Argument ~S do not take values!` -/
  | noArg (flag : Str)
  /-- `Argument check ... failed` -/
  | check (v : V)
  /-- `Invalid choice` -/
  | choice (v : V)
  /-- `Argument ~A is required!` -/
  | required (d : Dest)
  /-- `Invalid argument name`, `Already have argument`, `Multiple flags` -/
  | badName | already | twice
  /-- an error in `read-from-string`, `1+` or `append`, or a function with the wrong number of arguments -/
  | lisp
  /-- the program ends -/
  | exit
deriving DecidableEq, Repr

/-- argparse.l:169-171 `argument-parser`: `flaglst` and the property list, last added first. -/
structure Parser where
  flaglst : List (Str × Dest) := []
  plist : List (Dest × Argument) := []

/-- argparse.l:130-133: the first value. -/
def initial (a : Action) (default : V) : V :=
  match a with
  | .storeTrue => .nil
  | .storeFalse => .t
  | _ => default

/-- argparse.l:134-136 -/
def flagp : Action → Bool
  | .storeTrue | .storeFalse | .storeConst | .count | .fn0 _ => true
  | _ => false

/-- `(string-left-trim "-" str)`.  On a string of dashes only the compiled function stops at the terminating zero. -/
def trim (s : Str) : Str := s.dropWhile (· = 45)

/-- argparse.l:71-72 -/
def flag_name_p (s : Str) : Bool := trim s ≠ [] && s.head? = some 45

/-- argparse.l:73-74 -/
def check_flag (s : Str) : Bool := flag_name_p s && !s.contains 61

/-- argparse.l:75-81 `split-flag`: the name, and the value if there is one. -/
def split_flag (s : Str) : Str × Option Str :=
  match s.findIdx? (· = 61) with
  | some pos => (s.take pos, some (s.drop (pos + 1)))
  | none => (s, none)

/-- `char-upcase` on ASCII letters. -/
def up (c : Nat) : Nat := if 97 ≤ c ∧ c ≤ 122 then c - 32 else c

/-- argparse.l:82-85 `make-flag-dest`, on a string -/
def make_flag_dest (s : Str) : Dest := .key (trim (s.map up))

/-- `(append l (list x))`: an error unless `l` is a list; the end of a dotted list is dropped (lists.c:197-211). -/
def snoc : V → V → Option V
  | .nil, x => some (.cons x .nil)
  | .cons a d, x => match d with
    | .cons _ _ => (snoc d x).map (.cons a)
    | _ => some (.cons a (.cons x .nil))
  | _, _ => none

/-- Is the action a function? -/
def isFn : Action → Bool
  | .fn0 _ | .fn1 _ => true
  | _ => false

/-- argparse.l:140: the value to be stored, read from the string if `:read` was given and the action is not a function.
`rd` is `read-from-string` on strings (`none`: an error). -/
def readVal (rd : Str → Option V) (a : Argument) (v : V) : Option V :=
  if a.read && !isFn a.action then (match v with | .str s => rd s | _ => none) else some v

/-- argparse.l:141-143: `(if check (unless (funcall check val) ...))` -/
def checked (a : Argument) (w : V) : Bool :=
  match a.check with
  | some f => f w
  | none => true

/-- argparse.l:139-150 `:store` -/
def store (rd : Str → Option V) (a : Argument) (v : V) : Except Err Argument :=
  match readVal rd a v with
  | none => .error .lisp
  | some w =>
    if !checked a w then .error (.check w)
    else if a.choices ≠ [] ∧ w ∉ a.choices then .error (.choice w)
    else .ok { a with value := w }

/-- `(1+ (or value 0))` -/
def plus1 : V → Option V
  | .nil => some (.int 1)
  | .int n => some (.int (n + 1))
  | _ => none

/-- argparse.l:219-238: what one flag does to its argument. -/
def act (rd : Str → Option V) (a : Argument) (flag : Str) (value : Option Str) : Except Err Argument :=
  match a.action with
  | .fn0 f =>
    match value with
    | some _ => .error .lisp
    | none => match f with
      | none => .error .exit
      | some v => store rd a v
  | .fn1 f =>
    match value with
    | none => .error .lisp
    | some s =>
      match (if a.read then rd s else some (.str s)) with
      | none => .error .lisp
      | some v => match f v with
        | none => .error .exit
        | some w => store rd a w
  | action =>
    if value.isSome ∧ flagp action then .error (.noArg flag)
    else if ¬ value.isSome ∧ ¬ flagp action then .error (.noValue flag)
    else match action, value with
      | .storeTrue, _ => store rd a .t
      | .storeFalse, _ => store rd a .nil
      | .storeConst, _ => store rd a a.const
      | .count, _ => match plus1 a.value with
        | some v => store rd a v
        | none => .error .lisp
      | .append, some s =>
        -- argparse.l:156-159
        match store rd a (.str s) with
        | .error e => .error e
        | .ok b => match snoc a.value b.value with
          | some v => .ok { b with value := v }
          | none => .error .lisp
      | _, some s => store rd a (.str s)
      | _, none => .error .lisp

/-- `(assoc name flaglst :test #'string=)` -/
def look {α β : Type} [DecidableEq α] (k : α) : List (α × β) → Option β
  | [] => none
  | (x, y) :: r => if x = k then some y else look k r

/-- the argument in the property list is changed in place -/
def update (d : Dest) (a : Argument) : List (Dest × Argument) → List (Dest × Argument)
  | [] => []
  | (x, y) :: r => if x = d then (x, a) :: r else (x, y) :: update d a r

/-- argparse.l:210-242: the loop over the flags; `req` is `required-args`. -/
def loop (rd : Str → Option V) (flaglst : List (Str × Dest)) :
    List Str → List (Dest × Argument) → List Dest → Except Err (List (Dest × Argument) × List Dest)
  | [], pl, req => .ok (pl, req)
  | flag :: r, pl, req =>
    match look (split_flag flag).1 flaglst with
    | none => .error (.unknown flag)
    | some d =>
      match look d pl with
      | none => .error (.unknown flag)
      | some a =>
        match act rd a flag (split_flag flag).2 with
        | .error e => .error e
        | .ok b => loop rd flaglst r (update d b pl) (req.erase d)

/-- argparse.l:204-247 `:parse-args` with `*eustop-argument*` the second argument. -/
def parse_args (rd : Str → Option V) (p : Parser) (argv : List Str) : Except Err Parser :=
  let req := (p.plist.filter fun x => x.2.required).map (·.1)
  match loop rd p.flaglst (argv.filter flag_name_p) p.plist req with
  | .error e => .error e
  | .ok (pl, req) =>
    match req.getLast? with
    | some d => .error (.required d)
    | none => .ok { p with plist := pl }

/-- argparse.l:191-194: the flags are entered one by one. -/
def push_flags (d : Dest) : List Str → List (Str × Dest) → Except Err (List (Str × Dest))
  | [], l => .ok l
  | a :: r, l => if (look a l).isSome then .error .twice else push_flags d r ((a, d) :: l)

/-- What the caller gives for `:dest`: nothing, a string or a symbol by its name, or an uninterned symbol. -/
inductive Name where
  | first
  | name (s : Str)
  | gensym (k : Nat)
deriving DecidableEq, Repr

/-- argparse.l:174, 82-85: `(make-flag-dest (or dest (car flags)))`; with no flags that is `:NIL`. -/
def destOf (flags : List Str) : Name → Dest
  | .first => make_flag_dest (flags.headD [78, 73, 76])
  | .name s => make_flag_dest s
  | .gensym k => .gen k

/-- argparse.l:172-203 `:add-argument`; the argument comes with its first value.  The list of flags is fresh: its sorting
for the help text (argparse.l:99) is not seen. -/
def add_argument (p : Parser) (flags : List Str) (dest : Name) (a : Argument) : Except Err Parser :=
  let name := destOf flags dest
  if flags.any fun f => !check_flag f then .error .badName
  else if (look name p.plist).isSome then .error .already
  else match push_flags name flags p.flaglst with
    | .error e => .error e
    | .ok l => .ok { flaglst := l, plist := (name, a) :: p.plist }

/-- The calls of `:add-argument` that set a parser up; the value of `arg` is what `:default` gives. -/
structure Call where
  flags : List Str
  dest : Name
  arg : Argument

/-- One call after the other. -/
def build (p : Parser) : List Call → Except Err Parser
  | [] => .ok p
  | c :: r =>
    match add_argument p c.flags c.dest { c.arg with value := initial c.arg.action c.arg.value } with
    | .error e => .error e
    | .ok q => build q r

/-- What `(send parser name)` gives. -/
def value (p : Parser) (d : Dest) : Option V := (look d p.plist).map Argument.value

end Eus.Arg
