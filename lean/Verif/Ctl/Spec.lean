import Verif.Ctl.Model
set_option autoImplicit false
/-
What the control forms mean: an exit passes outwards through the forms one by one.  `let` restores
its variable and `unwind-protect` runs its cleanup form when an exit passes through, just as
when the body ends normally.  There is no stack here.
-/
namespace Eus.Ctl

/-- How a form is left: with a value, by an exit to the `catch`, `block` or function numbered `d`, or by an error that is not
handled.  (`timeout`: out of fuel.) -/
inductive Exit where
  | val (v : Val)
  | exit (d : Nat) (v : Val)
  | fail
  | timeout
deriving DecidableEq, Repr

/-- The exit points in force: they are numbered from the outermost; `catches` are those of `catch`, with their
tags, innermost first, and `blocks` those visible from the form (blocks, functions, and `tagbody` forms), with their names or tags. -/
structure Env where
  depth : Nat
  catches : List (Val × Nat)
  blocks : List (Name × Nat)
deriving DecidableEq, Repr

/-- The values of the special variables, and what was printed. -/
structure St where
  spec : Nat → Val
  out : List Val

/-- When an exit to `d` is under way, the exit points inside it are no longer in force.  (New ones are numbered
from `d + 2`; any number above those in force would do.) -/
def Env.upto (E : Env) (d : Nat) : Env :=
  ⟨d + 2, E.catches.filter (fun q => q.2 ≤ d), E.blocks.filter (fun q => q.2 ≤ d)⟩

/-- Go on with a value. -/
def andThen : Exit × St → (Val → St → Exit × St) → Exit × St
  | (.val v, s), f => f v s
  | (e, s), _ => (e, s)

/-- The exit point `d` receives its value. -/
def arrive (d : Nat) : Exit × St → Exit × St
  | (.exit d' v, s) => if d' = d then (.val v, s) else (.exit d' v, s)
  | r => r

/-- The cleanup form is run, whether the form was left by a value or an exit; an exit of the cleanup form supersedes. -/
def cleanup (E : Env) (run : Env → St → Exit × St) : Exit × St → Exit × St
  | (.val v, s) => andThen (run E s) fun _ s => (.val v, s)
  | (.exit d v, s) => andThen (run (E.upto d) s) fun _ s => (.exit d v, s)
  | r => r

/-- A call: the function is an exit point, and the blocks of the caller are not visible. -/
def meanCall (P : Prog) (run : Tm → Env → St → Exit × St) (f : Nat) (E : Env) (s : St) : Exit × St :=
  arrive E.depth (run (P.F f) { E with depth := E.depth + 1, blocks := [(.blk f, E.depth)] } s)

/-- An error: the handler is called. -/
def signal (P : Prog) (run : Tm → Env → St → Exit × St) (E : Env) (s : St) : Exit × St :=
  match P.handler with
  | none => (.fail, s)
  | some h => andThen (meanCall P run h E s) fun _ s => (.fail, s)

/-- What follows the tag in the body of a `tagbody`. -/
def fromTag (t : Int) : Tm → Option Tm
  | .label u r => if u = t then some r else fromTag t r
  | .progn _ r => fromTag t r
  | _ => none

/-- The meaning of a form. -/
def mean (P : Prog) : Nat → Tm → Env → St → Exit × St
  | 0, _, _, s => (.timeout, s)
  | n + 1, t, E, s =>
    match t with
    | .const v => (.val v, s)
    | .var x => (.val (s.spec x), s)
    | .setq x e => andThen (mean P n e E s) fun v s => (.val v, { s with spec := upd s.spec x v })
    | .print e => andThen (mean P n e E s) fun v s => (.val v, { s with out := v :: s.out })
    | .progn a b => andThen (mean P n a E s) fun _ s => mean P n b E s
    | .ite e a b => andThen (mean P n e E s) fun v s => if v ≠ nil then mean P n a E s else mean P n b E s
    | .lett x e body => andThen (mean P n e E s) fun v s =>
      let r := mean P n body E { s with spec := upd s.spec x v }
      (r.1, { r.2 with spec := upd r.2.spec x (s.spec x) })
    | .call f => meanCall P (mean P n) f E s
    | .catch_ tag body => andThen (mean P n tag E s) fun tag s =>
      arrive E.depth (mean P n body { E with depth := E.depth + 1, catches := (tag, E.depth) :: E.catches } s)
    | .throw_ tag e => andThen (mean P n tag E s) fun tag s => andThen (mean P n e E s) fun v s =>
      match E.catches.find? (fun q => q.1 = tag) with
      | some q => (.exit q.2 v, s)
      | none => signal P (mean P n) E s
    | .block name body =>
      arrive E.depth (mean P n body { E with depth := E.depth + 1, blocks := (name, E.depth) :: E.blocks } s)
    | .retfrom name e =>
      match E.blocks.find? (fun q => q.1.hits name) with
      | some q => andThen (mean P n e E s) fun v s => (.exit q.2 v, s)
      | none => signal P (mean P n) E s
    | .protect e c => cleanup E (mean P n c) (mean P n e E s)
    | .loop e body => andThen (mean P n e E s) fun v s =>
      if v = nil then (.val nil, s) else andThen (mean P n body E s) fun _ s => mean P n (.loop e body) E s
    | .label _ r => mean P n r E s
    -- a `go` is an exit to the `tagbody` that carries the tag
    | .tagbody body cur =>
      andThen (mean P n (.block (.tags (tagsOf body)) (.progn cur (.const nil))) E s) fun v s =>
        match v with
        | .int t => (match fromTag t body with
          | some next => mean P n (.tagbody body next) E s
          | none => (.val nil, s))
        | _ => (.val nil, s)
    | .error_ => signal P (mean P n) E s

/-- At the start nothing is in force. -/
def Env.top : Env := ⟨0, [], []⟩

end Eus.Ctl

namespace Eus.Ctl

/-! ### Programs -/

/-- A block as seen from a form inside it: its name, and whether there is a `catch`, and an `unwind-protect`, in between. -/
structure BI where
  name : Name
  overCatch : Bool
  overProt : Bool
deriving DecidableEq, Repr

/-- Every `return-from` and `go` is inside its block or `tagbody` (and in the same function, and in the same cleanup form if it is in one),
and does not leave both a `catch` and an `unwind-protect`; the tags of a `tagbody` differ. -/
def Scoped : List BI → Tm → Bool
  | _, .const _ => true
  | _, .var _ => true
  | bs, .setq _ e => Scoped bs e
  | bs, .print e => Scoped bs e
  | bs, .progn a b => Scoped bs a && Scoped bs b
  | bs, .ite e a b => Scoped bs e && Scoped bs a && Scoped bs b
  | bs, .lett _ e b => Scoped bs e && Scoped bs b
  | _, .call _ => true
  | bs, .catch_ tag b => Scoped bs tag && Scoped (bs.map fun b => { b with overCatch := true }) b
  | bs, .throw_ tag e => Scoped bs tag && Scoped bs e
  | bs, .block n b => Scoped (⟨n, false, false⟩ :: bs) b
  | bs, .retfrom n e => (match bs.find? (fun b => b.name.hits n) with
    | some b => !(b.overCatch && b.overProt)
    | none => false) && Scoped bs e
  | bs, .protect e c => Scoped (bs.map fun b => { b with overProt := true }) e && Scoped [] c
  | bs, .loop e b => Scoped bs e && Scoped bs b
  | bs, .label _ r => Scoped bs r
  | bs, .tagbody b c => decide (tagsOf b).Nodup && Scoped (⟨.tags (tagsOf b), false, false⟩ :: bs) b &&
    Scoped (⟨.tags (tagsOf b), false, false⟩ :: bs) c
  | _, .error_ => true

/-- The form assigns to `x`. -/
def sets (x : Nat) : Tm → Bool
  | .const _ => false
  | .var _ => false
  | .setq y e => y == x || sets x e
  | .print e => sets x e
  | .progn a b => sets x a || sets x b
  | .ite e a b => sets x e || sets x a || sets x b
  | .lett _ e b => sets x e || sets x b
  | .call _ => false
  | .catch_ tag b => sets x tag || sets x b
  | .throw_ tag e => sets x tag || sets x e
  | .block _ b => sets x b
  | .retfrom _ e => sets x e
  | .protect e c => sets x e || sets x c
  | .loop e b => sets x e || sets x b
  | .label _ r => sets x r
  | .tagbody b c => sets x b || sets x c
  | .error_ => false

/-- All functions are scoped. -/
def Prog.Scoped (P : Prog) : Prop := ∀ f, Ctl.Scoped [⟨.blk f, false, false⟩] (P.F f) = true

/-- A variable that cleanup forms may use: one they bind themselves. -/
def mayUse : Option (List Nat) → Nat → Bool
  | none, _ => true
  | some xs, x => xs.contains x

/-- No 0.0 among the constants, and cleanup forms use special variables only if they bind them themselves, and call only functions (those
of `pure`) that do so.  The second argument is `none` outside cleanup forms. -/
def Tame (pure : Nat → Bool) : Option (List Nat) → Tm → Bool
  | _, .const v => v ≠ .flt 0
  | m, .var x => mayUse m x
  | m, .setq x e => mayUse m x && Tame pure m e
  | m, .print e => Tame pure m e
  | m, .progn a b => Tame pure m a && Tame pure m b
  | m, .ite e a b => Tame pure m e && Tame pure m a && Tame pure m b
  | m, .lett x e b => Tame pure m e && Tame pure (m.map (x :: ·)) b
  | m, .call f => m.isNone || pure f
  | m, .catch_ tag b => Tame pure m tag && Tame pure m b
  | m, .throw_ tag e => Tame pure m tag && Tame pure m e
  | m, .block _ b => Tame pure m b
  | m, .retfrom _ e => Tame pure m e
  | m, .protect e c => Tame pure m e && Tame pure (some []) c
  | m, .loop e b => Tame pure m e && Tame pure m b
  | m, .label _ r => Tame pure m r
  | m, .tagbody b c => Tame pure m b && Tame pure m c
  | _, .error_ => true

/-- All functions, and the handler. -/
structure Prog.Tame (P : Prog) (pure : Nat → Bool) : Prop where
  all : ∀ f, Ctl.Tame pure none (P.F f) = true
  pures : ∀ f, pure f = true → Ctl.Tame pure (some []) (P.F f) = true
  handler : ∀ h, P.handler = some h → pure h = true

/-- No variable has the value 0.0. -/
def Clean (s : Nat → Val) : Prop := ∀ x, s x ≠ .flt 0

end Eus.Ctl

namespace Eus.Ctl

/-! ### Journals -/

/-- The forms whose printing shows when `unwind-protect` forms are entered and their cleanup forms run: entering the one numbered `i`
prints `i + 1`, its cleanup form starts by printing `-(i + 1)`, and nothing else prints numbers. -/
def Marked : Tm → Bool
  | .const _ => true
  | .var _ => true
  | .setq _ e => Marked e
  | .print (.const (.sym _)) => true
  | .print _ => false
  | .progn a b => Marked a && Marked b
  | .ite e a b => Marked e && Marked a && Marked b
  | .lett _ e b => Marked e && Marked b
  | .call _ => true
  | .catch_ tag b => Marked tag && Marked b
  | .throw_ tag e => Marked tag && Marked e
  | .block _ b => Marked b
  | .retfrom _ e => Marked e
  | .protect (.progn (.print (.const (.int i))) e) (.progn (.print (.const (.int j))) c) => 0 < i && j == -i && Marked e && Marked c
  | .protect _ _ => false
  | .loop e b => Marked e && Marked b
  | .label _ r => Marked r
  | .tagbody b c => Marked b && Marked c
  | .error_ => true

/-- Every `i` is followed by its `-i`, and what is in between is such a list as well. -/
inductive Balanced : List Val → Prop
  | nil : Balanced []
  | other {k : Nat} {w : List Val} : Balanced w → Balanced (.sym k :: w)
  | pair {i : Int} {u w : List Val} : 0 < i → Balanced u → Balanced w → Balanced (.int i :: (u ++ .int (-i) :: w))

end Eus.Ctl
