import Verif.Lam.Model
set_option autoImplicit false
/-! Lambda lists by their parts, and what they mean. -/
namespace Eus.Lam

/-- A parameter with or without a default form. -/
structure Par where
  var : Nat
  init : Option (Env → BV)

/-- The value without an argument: nil when there is no default form. -/
def Par.default (p : Par) (e : Env) : BV :=
  match p.init with
  | some f => f e
  | none => .one nil

/-- A keyword parameter: `x`, `(x init)`, or `((:k x) init)`. -/
inductive KPar where
  | plain (p : Par)
  | named (k x : Nat) (f : Env → BV)

/-- Its keyword, its variable and its default value. -/
def KPar.key : KPar → Nat
  | .plain p => p.var
  | .named k _ _ => k
def KPar.var : KPar → Nat
  | .plain p => p.var
  | .named _ x _ => x
def KPar.default : KPar → Env → BV
  | .plain p => p.default
  | .named _ _ f => f

/-- A lambda list `(req… &optional opt… &rest rest &key key… &allow-other-keys &aux aux…)`; every part after the first may be missing. -/
structure LL where
  req : List Nat
  opt : List Par
  rest : Option Nat
  key : Option (List KPar × Bool)
  aux : Option (List Par)

def Par.item (p : Par) : Item :=
  match p.init with
  | some f => .ini p.var f
  | none => .sym p.var
def KPar.item : KPar → Item
  | .plain p => p.item
  | .named k x f => .key2 k x f

def LL.auxItems (L : LL) : List Item :=
  match L.aux with
  | none => []
  | some ps => .sym AUX :: ps.map Par.item
def LL.keyItems (L : LL) : List Item :=
  match L.key with
  | none => []
  | some (ks, allow) => .sym KEY :: ks.map KPar.item ++ if allow then [.sym ALLOWOTHERKEYS] else []
def LL.restItems (L : LL) : List Item :=
  match L.rest with
  | none => []
  | some x => [.sym REST, .sym x]
def LL.optItems (L : LL) : List Item :=
  match L.opt with
  | [] => []
  | ps => .sym OPTIONAL :: ps.map Par.item
/-- The lambda list as it is written. -/
def LL.items (L : LL) : List Item :=
  L.req.map .sym ++ (L.optItems ++ (L.restItems ++ (L.keyItems ++ L.auxItems)))

def LL.keys (L : LL) : List KPar := match L.key with | none => [] | some q => q.1
def LL.auxs (L : LL) : List Par := L.aux.getD []
def LL.vars (L : LL) : List Nat :=
  L.req ++ (L.opt.map Par.var ++ (L.rest.toList ++ (L.keys.map KPar.var ++ L.auxs.map Par.var)))

/-- Parameters are distinct and none is one of the symbols of lambda lists; keywords are distinct; there are fewer than 128 keywords. -/
structure Wf (L : LL) : Prop where
  vars : L.vars.Nodup
  real : ∀ x ∈ L.vars, 5 < x
  keys : (L.keys.map KPar.key).Nodup
  few : L.keys.length < 128

/-- The value that arguments `:k₁ v₁ :k₂ v₂ …` give to `:k`: the first. -/
def given (k : Nat) : List Obj → Option Obj
  | .kw a :: v :: r => if a = k then some v else given k r
  | _ => none

/-- Arguments that are keywords and values, each keyword one of `keys`, or any keyword where others are allowed: `&allow-other-keys` or
the last `:allow-other-keys` up to there says so. -/
def Proper (keys : List Nat) : Bool → List Obj → Prop
  | _, [] => True
  | allow, .kw a :: v :: r =>
    let allow := if a = 0 then decide (v ≠ nil) else allow
    (a ∈ keys ∨ allow = true) ∧ Proper keys allow r
  | _, _ => False

instance properDec (keys : List Nat) : ∀ (allow : Bool) (l : List Obj), Decidable (Proper keys allow l)
  | _, [] => .isTrue trivial
  | allow, .kw a :: v :: r =>
    have := properDec keys (if a = 0 then decide (v ≠ nil) else allow) r
    inferInstanceAs (Decidable ((a ∈ keys ∨ (if a = 0 then decide (v ≠ nil) else allow) = true) ∧
      Proper keys (if a = 0 then decide (v ≠ nil) else allow) r))
  | _, [.kw _] => .isFalse id
  | _, .sym _ :: _ => .isFalse id
  | _, .other _ :: _ => .isFalse id

/-- A call is accepted: there are enough arguments; there are not too many, unless `&rest` or `&key` takes the others; and the others are
proper for `&key`. -/
def Accepts (L : LL) (args : List Obj) : Prop :=
  L.req.length ≤ args.length ∧
  (L.rest.isSome ∨ L.key.isSome ∨ args.length ≤ L.req.length + L.opt.length) ∧
  (match L.key with
   | none => True
   | some (ks, allow) => Proper (ks.map KPar.key) allow (args.drop (L.req.length + L.opt.length)))

instance (L : LL) (args : List Obj) : Decidable (Accepts L args) := by
  unfold Accepts
  have : Decidable (match L.key with
   | none => True
   | some (ks, allow) => Proper (ks.map KPar.key) allow (args.drop (L.req.length + L.opt.length))) := by
    split <;> infer_instance
  infer_instance

/-- Required parameters take the arguments in order. -/
def setReq : List Nat → List Obj → Env → Env
  | x :: xs, a :: as, e => setReq xs as (set e x (.one a))
  | _, _, e => e

/-- So do optional ones, as far as there are arguments; then the defaults, each of which sees the parameters before it. -/
def setOpt : List Par → List Obj → Env → Env
  | [], _, e => e
  | p :: ps, [], e => setOpt ps [] (set e p.var (p.default e))
  | p :: ps, a :: as, e => setOpt ps as (set e p.var (.one a))

/-- The keyword parameters that are given. -/
def setGiven (args : List Obj) : List KPar → Env → Env
  | [], e => e
  | k :: ks, e =>
    match given k.key args with
    | some v => setGiven args ks (set e k.var (.one v))
    | none => setGiven args ks e

/-- The others: their defaults. -/
def setOthers (args : List Obj) : List KPar → Env → Env
  | [], e => e
  | k :: ks, e =>
    match given k.key args with
    | some _ => setOthers args ks e
    | none => setOthers args ks (set e k.var (k.default e))

/-- Keyword parameters in order, given or not. -/
def setKeys (args : List Obj) : List KPar → Env → Env
  | [], e => e
  | k :: ks, e =>
    match given k.key args with
    | some v => setKeys args ks (set e k.var (.one v))
    | none => setKeys args ks (set e k.var (k.default e))

def setRest (x : Option Nat) (l : List Obj) (e : Env) : Env :=
  match x with
  | none => e
  | some x => set e x (.list l)

/-- The parameters before the keyword ones. -/
def bound₁ (L : LL) (args : List Obj) : Env :=
  setRest L.rest (args.drop (L.req.length + L.opt.length))
    (setOpt L.opt (args.drop L.req.length) (setReq L.req args fun _ => none))

/-- All parameters, the default of a keyword parameter seeing the keyword parameters given as well as those before it. -/
def bound (L : LL) (args : List Obj) : Env :=
  let kargs := args.drop (L.req.length + L.opt.length)
  setOpt L.auxs [] (setOthers kargs L.keys (setGiven kargs L.keys (bound₁ L args)))

/-- All parameters, each default seeing those before it. -/
def boundSeq (L : LL) (args : List Obj) : Env :=
  let kargs := args.drop (L.req.length + L.opt.length)
  setOpt L.auxs [] (setKeys kargs L.keys (bound₁ L args))

/-- Default forms that do not look at the symbols of lambda lists. -/
def Plain (f : Env → BV) : Prop := ∀ e e' : Env, (∀ x, 5 < x → e x = e' x) → f e = f e'

end Eus.Lam
