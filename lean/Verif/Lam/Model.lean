set_option autoImplicit false
/-
Parameters and arguments: lisp/c/eval.c (interpreted functions), lisp/comp/comp.l, lisp/comp/trans.l and
lisp/c/compsub.c (compiled ones).

Left out: parameters that are constants or special variables, `declare`, errors in default forms and other effects of them.  A default
form is a function of the parameters bound so far (the variables of the surroundings do not change while parameters are bound).
-/
namespace Eus.Lam

/-- Arguments. -/
inductive Obj where
  | kw (k : Nat)
  | sym (s : Nat)
  | other (n : Nat)
deriving DecidableEq, Repr

def nil : Obj := .sym 0

/-- What a parameter is bound to: an argument, or the list of the rest arguments (`list []` is nil). -/
inductive BV where
  | one (o : Obj)
  | list (l : List Obj)
deriving DecidableEq, Repr

/-- The parameters bound. -/
abbrev Env := Nat → Option BV

/-- One more. -/
def set (e : Env) (x : Nat) (v : BV) : Env := fun y => if y = x then some v else e y

/-- The symbols of lambda lists; the keyword `:allow-other-keys` is `kw 0`. -/
abbrev OPTIONAL : Nat := 1
abbrev REST : Nat := 2
abbrev KEY : Nat := 3
abbrev AUX : Nat := 4
abbrev ALLOWOTHERKEYS : Nat := 5

/-- Elements of a lambda list: a symbol, `(x init)`, `((:k x) init)`. -/
inductive Item where
  | sym (x : Nat)
  | ini (x : Nat) (f : Env → BV)
  | key2 (k x : Nat) (f : Env → BV)

/-- Outcome: the bindings; an error; C's undefined behaviour. -/
inductive R where
  | ok (e : Env)
  | err
  | ub

/-- eval.c:194-218 `vbind`: a parameter that occurs twice is an error. -/
def vbind (x : Nat) (v : BV) (e : Env) (k : Env → R) : R := if (e x).isSome then .err else k (set e x v)

/-- A keyword parameter: its keyword, its variable, and its default form (eval.c:311-313). -/
structure KF where
  key : Nat
  var : Nat
  init : Env → BV

/-- eval.c:283-318: the keyword tables; the flag is `allowotherkeys`. -/
def keyTable : List Item → Option (List KF × Bool)
  | [] => some ([], false)
  | .sym x :: r =>
    if x = ALLOWOTHERKEYS then
      match r with
      | [] => some ([], true)
      | .sym y :: _ => if y = AUX then some ([], true) else none
      | _ => none
    else if x = AUX then some ([], false)
    else (keyTable r).map fun q => (⟨x, x, fun _ => .one nil⟩ :: q.1, q.2)
  | .ini x f :: r => (keyTable r).map fun q => (⟨x, x, f⟩ :: q.1, q.2)
  | .key2 k x f :: r => (keyTable r).map fun q => (⟨k, x, f⟩ :: q.1, q.2)

/-- eval.c:320-335: the arguments.  `done` are the parameters supplied already (those with `inits[i]==UNBOUND`).  A missing value is an
error whatever the word read in its place (eval.c:325, 328). -/
def keyArgs (kfs : List KF) : List Obj → Bool → List Nat → Env → (List Nat → Env → R) → R
  | [], _, done, e, k => k done e
  | .kw a :: v :: rest, allow, done, e, k =>
    let allow := if a = 0 then decide (v ≠ nil) else allow
    let i := kfs.findIdx (fun f => decide (f.key = a))
    match kfs[i]? with
    | some f =>
      if i ∈ done then keyArgs kfs rest allow done e k
      else vbind f.var (.one v) e fun e => keyArgs kfs rest allow (i :: done) e k
    | none => if allow then keyArgs kfs rest allow done e k else .err
  | _, _, _, _, _ => .err

/-- eval.c:336-340: the defaults, from parameter `i` on. -/
def keyDefaults (done : List Nat) : Nat → List KF → Env → (Env → R) → R
  | _, [], e, k => k e
  | i, f :: fs, e, k => if i ∈ done then keyDefaults done (i + 1) fs e k else vbind f.var (f.init e) e fun e => keyDefaults done (i + 1) fs e k

/-- eval.c:270-341 `bindkeyparams`; eus.h:147 -/
def bindkeyparams (formal : List Item) (args : List Obj) (e : Env) (k : Env → R) : R :=
  match keyTable formal with
  | none => .err
  | some (kfs, allow) =>
    if kfs.length ≥ 128 then .err
    else keyArgs kfs args allow [] e fun done e => keyDefaults done 0 kfs e k

/-- eval.c:416-426 -/
def bindaux : List Item → Env → R
  | [], e => .ok e
  | .sym x :: r, e => vbind x (.one nil) e fun e => bindaux r e
  | .ini x f :: r, e => vbind x (f e) e fun e => bindaux r e
  | .key2 _ _ _ :: _, _ => .err

/-- eval.c:411-413: the formals after `&aux`. -/
def afterAux : List Item → List Item
  | [] => []
  | .sym x :: r => if x = AUX then r else afterAux r
  | _ :: r => afterAux r

/-- eval.c:409-414; `args` are those from `keyno` on. -/
def bindkey (formal : List Item) (args : List Obj) (e : Env) : R :=
  bindkeyparams formal args e fun e => bindaux (afterAux formal) e

/-- eval.c:394-408 -/
def bindrest (formal : List Item) (args : List Obj) (n : Nat) (e : Env) : R :=
  match formal with
  | .sym x :: r => vbind x (.list (args.drop n)) e fun e =>
    match r with
    | [] => .ok e
    | .sym y :: r => if y = KEY then bindkey r (args.drop n) e else if y = AUX then bindaux r e else .err
    | _ => .err
  | _ => .err

/-- eval.c:374-393 -/
def bindopt : List Item → List Obj → Nat → Env → R
  | [], args, n, e => if n < args.length then .err else .ok e
  | .sym x :: r, args, n, e =>
    if x = REST then bindrest r args n e
    else if x = KEY then bindkey r (args.drop n) e
    else if x = AUX then bindaux r e
    else vbind x (match args[n]? with | some a => .one a | none => .one nil) e fun e => bindopt r args (n + 1) e
  | .ini x f :: r, args, n, e => vbind x (match args[n]? with | some a => .one a | none => f e) e fun e => bindopt r args (n + 1) e
  | .key2 _ _ _ :: _, _, _, _ => .err

/-- eval.c:362-373: required parameters. -/
def bindreq : List Item → List Obj → Nat → Env → R
  | [], args, n, e => if n ≠ args.length then .err else .ok e
  | .sym x :: r, args, n, e =>
    if x = OPTIONAL then bindopt r args n e
    else if x = REST then bindrest r args n e
    else if x = KEY then bindkey r (args.drop n) e
    else if x = AUX then bindaux r e
    else match args[n]? with
      | none => .err
      | some a => vbind x (.one a) e fun e => bindreq r args (n + 1) e
  | _ :: _, _, _, _ => .err

/-- eval.c:346-427 `funlambda`, up to the evaluation of the body. -/
def funlambda (formal : List Item) (args : List Obj) : R := bindreq formal args 0 fun _ => none

/-! ### Compiled functions -/

/-- eval.c:248-266: the loop of `parsekeyparams`.  `bits` are the bits set in `suppliedbits`; shifting an int by 32 or more is undefined. -/
def parseLoop (keys : List Nat) : List Obj → Bool → List Nat → List Obj → Option (Option (List Nat × List Obj))
  | [], _, bits, results => some (some (bits, results))
  | .kw a :: v :: rest, allow, bits, results =>
    let allow := if a = 0 then decide (v ≠ nil) else allow
    let i := keys.findIdx (fun k => decide (k = a))
    if i < keys.length then
      if i ≥ 32 then none
      else if i ∈ bits then parseLoop keys rest allow bits results
      else parseLoop keys rest allow (i :: bits) (results.set i v)
    else if allow then parseLoop keys rest allow bits results
    else some none
  | _, _, _, _ => some none

/-- eval.c:237-268 `parsekeyparams`: the bits and the values, `some none` for an error, `none` for undefined behaviour.  With no arguments the values are
not set. -/
def parsekeyparams (keys : List Nat) (args : List Obj) (allow : Bool) (results : List Obj) : Option (Option (List Nat × List Obj)) :=
  if args.length = 0 then some (some ([], results))
  else if args.length % 2 = 1 then some none
  else parseLoop keys args allow [] (List.replicate keys.length nil)

/-- `memq` in a lambda list. -/
def memq (x : Nat) : List Item → List Item
  | [] => []
  | .sym y :: r => if y = x then .sym y :: r else memq x r
  | _ :: r => memq x r

/-- The first that is not nil. -/
def cond : List (List Item) → List Item
  | [] => []
  | l :: ls => if l.isEmpty then cond ls else l

/-- comp.l:998-1017: one keyword parameter; any symbol is taken for a variable. -/
def keyForm : Item → KF
  | .sym x => ⟨x, x, fun _ => .one nil⟩
  | .ini x f => ⟨x, x, f⟩
  | .key2 k x f => ⟨k, x, f⟩

/-- comp.l:1034-1036: required parameters, from argument `i` on.  (A list in their place is an error of the compiler.) -/
def compReq : List Item → List Obj → Env → (Env → R) → R
  | [], _, e, k => k e
  | .sym x :: r, a :: args, e, k => compReq r args (set e x (.one a)) k
  | _, _, _, _ => .err

/-- comp.l:1037-1043, trans.l:138-140: optional parameters. -/
def compOpt : List Item → List Obj → Env → (Env → R) → R
  | [], _, e, k => k e
  | .sym x :: r, args, e, k => compOpt r args.tail (set e x (match args.head? with | some a => .one a | none => .one nil)) k
  | .ini x f :: r, args, e, k => compOpt r args.tail (set e x (match args.head? with | some a => .one a | none => f e)) k
  | .key2 _ _ _ :: _, _, _, _ => .err

/-- comp.l:1058-1077, trans.l:156-157: the keyword parameters from number `i` on; the test of bit 32 or more is undefined. -/
def compKeys (bits : List Nat) (results : List Obj) : Nat → List KF → Env → (Env → R) → R
  | _, [], e, k => k e
  | i, f :: fs, e, k =>
    if i ≥ 32 then .ub
    else if i ∈ bits then compKeys bits results (i + 1) fs (set e f.var (.one (results.getD i nil))) k
    else compKeys bits results (i + 1) fs (set e f.var (f.init e)) k

/-- comp.l:1079-1083 -/
def compAux : List Item → Env → R
  | [], e => .ok e
  | .sym x :: r, e => compAux r (set e x (.one nil))
  | .ini x f :: r, e => compAux r (set e x (f e))
  | .key2 _ _ _ :: _, _ => .err

/-- comp.l:945-1083 `:lambda`: what the code made for the lambda list does when called (with `*safety*` above 0).  `junk` is what was in the
local variables before. -/
def compiled (junk : List Obj) (param : List Item) (args : List Obj) : R :=
  let opt := memq OPTIONAL param
  let rest := memq REST param
  let key := memq KEY param
  let aux := memq AUX param
  let allow := !(memq ALLOWOTHERKEYS param).isEmpty
  let reqVars := param.take (param.length - (cond [opt, rest, key, aux]).length)
  let optVars := (opt.take (opt.length - (cond [rest, key, aux]).length)).tail
  let keyForms := key.tail
  let keyForms := (if allow then keyForms.take (keyForms.length - 1) else keyForms).map keyForm
  let n := args.length
  let reqn := reqVars.length
  let optn := optVars.length
  -- trans.l:131-137
  if (if optn + (if rest.isEmpty then keyForms.length else 1) = 0 then n ≠ reqn else n < reqn) then .err
  else compReq reqVars args (fun _ => none) fun e => compOpt optVars (args.drop reqn) e fun e =>
    let afterRest (e : Env) : R :=
      if keyForms.isEmpty then compAux aux e
      else match parsekeyparams (keyForms.map (·.key)) (args.drop (reqn + optn)) allow junk with
        | none => .ub
        | some none => .err
        | some (some (bits, results)) => compKeys bits results 0 keyForms e fun e => compAux aux e
    match rest with
    -- comp.l:1046-1049, trans.l:144-147, compsub.c:70-76 `minilist`
    | _ :: .sym x :: _ => afterRest (set e x (.list (args.drop (reqn + optn))))
    | _ :: _ => .err
    -- comp.l:1050
    | [] => if optn > 0 ∧ keyForms.isEmpty ∧ n > reqn + optn then .err else afterRest e

end Eus.Lam
