import Verif.Fmt.Model
set_option autoImplicit false
/-
What a control string means, without the loop that interprets it.
-/
namespace Eus.Fmt
open Eus.Num Eus.Rd
variable {F O : Type}

/-- The value of a run of decimal digits. -/
def value (ds : List Nat) : Nat := ds.foldl (fun v c => v * 10 + (c - 48)) 0

/-- A piece of a control string: a character, or a directive: its parameters as runs of digits, whether a
comma follows the last, whether there is a `V` (and which: its code), and its letter. -/
inductive Item where
  | lit (c : Nat)
  | dir (ps : List (List Nat)) (comma : Bool) (v : Option Nat) (d : Nat)
deriving DecidableEq, Repr

/-- The parameters separated by commas. -/
def joinPs : List (List Nat) → List Nat
  | [] => []
  | [p] => p
  | p :: q :: ps => p ++ 44 :: joinPs (q :: ps)

/-- The text of a directive between the tilde and the letter. -/
def prefixText (ps : List (List Nat)) (comma : Bool) (v : Option Nat) : List Nat :=
  joinPs ps ++ (if comma then [44] else []) ++ v.toList

/-- The text of a piece. -/
def Item.text : Item → List Nat
  | .lit c => [c]
  | .dir ps comma v d => 126 :: prefixText ps comma v ++ [d]

def render (is : List Item) : List Nat := is.flatMap Item.text

/-- The parameters are runs of digits denoting `int`s, and there is a last one where a comma follows. -/
def GoodPs (ps : List (List Nat)) (comma : Bool) : Prop :=
  (∀ p ∈ ps, p ≠ [] ∧ (∀ c ∈ p, 48 ≤ c ∧ c ≤ 57) ∧ value p < 2 ^ 31) ∧ (comma = true → ps ≠ [])

/-- The pieces that can be told apart in the control string: a literal is not a tilde; `v` is the letter V;
without V, the letter of the directive is neither V nor a digit, nor a comma that would be taken as
the one after the last parameter. -/
def Item.Good : Item → Prop
  | .lit c => c ≠ 126
  | .dir ps comma v d => GoodPs ps comma ∧ ps.length + v.toList.length ≤ 10 ∧ (∀ c ∈ v, c = 86 ∨ c = 118) ∧
      (v = none → d ≠ 86 ∧ d ≠ 118 ∧ ¬ (48 ≤ d ∧ d ≤ 57) ∧ (ps ≠ [] → comma = false → d ≠ 44))

/-- A directive the control string breaks off in. -/
def Unfinished (tail : List Nat) : Prop :=
  ∃ ps comma v, GoodPs ps comma ∧ ps.length + v.toList.length ≤ 10 ∧ (∀ c ∈ v, c = 86 ∨ c = 118) ∧
    tail = 126 :: prefixText ps comma v

/-- A directive with a parameter that is not an `int`, or with more than ten parameters. -/
def Overlong (tail : List Nat) : Prop :=
  (∃ ps p rest, GoodPs ps false ∧ ps.length ≤ 10 ∧ p ≠ [] ∧ (∀ c ∈ p, 48 ≤ c ∧ c ≤ 57) ∧
    (value p ≥ 2 ^ 31 ∨ ps.length = 10) ∧ tail = 126 :: joinPs (ps ++ [p]) ++ rest) ∨
  (∃ ps comma c rest, GoodPs ps comma ∧ ps.length = 10 ∧ (c = 86 ∨ c = 118) ∧
    tail = 126 :: prefixText ps comma (some c) ++ rest)

/-- Why a call of `format` does not return normally. -/
inductive Fail where
  | tooFew       -- the arguments are used up
  | notInt       -- an integer is required
  | notNumber    -- a number is required
  | exit         -- printing an object signals an error or throws
  | corrupt      -- undefined behaviour
deriving DecidableEq, Repr

/-- Taking the next argument. -/
def take (args : List (Arg F O)) (k : Arg F O → Except Fail (List Nat)) : Except Fail (List Nat × List (Arg F O)) :=
  match args with
  | [] => .error .tooFew
  | a :: as => (k a).map fun t => (t, as)

/-- `princ` (`true`) or `prin1` (`false`) of an object in a field of `w` columns, blanks at the right. -/
def inField (E : Env F O) (slash : Bool) (w : Int) (a : Arg F O) : Except Fail (List Nat) :=
  let r := E.prinx slash a
  if r.leaves then .error .exit
  else .ok (r.out ++ List.replicate (w - (r.recount.getD r.out.length : Nat)).toNat 32)

/-- A number in a base. -/
def inBase (E : Env F O) (base : Nat) (w p : Int) : Arg F O → Except Fail (List Nat)
  | .int n => ((printnum base E.down n w p).map Except.ok).getD (.error .corrupt)
  | .flt x => .ok (E.printflt x)
  | .ratio n d => match printnum base E.down n 0 0, printnum base E.down d 0 0 with
    | some a, some b => .ok (a ++ [47] ++ b)
    | _, _ => .error .corrupt
  | .obj _ => .error .notNumber

/-- The value of a number as a float. -/
def asFloat (E : Env F O) : Arg F O → Except Fail F
  | .flt x => .ok x
  | .int n => .ok (E.ofNum n)
  | .ratio n d => .ok (E.ofRatio n d)
  | .obj _ => .error .notNumber

/-- The text `sprintf` makes, in a buffer of 256 bytes. -/
def buf (t : List Nat) : Except Fail (List Nat) := if t.length < 256 then .ok t else .error .corrupt

/-- `t` without the zeros at its end, except the one after the point and the first two characters. -/
def Trimmed (t u : List Nat) : Prop :=
  ∃ n, t = u ++ List.replicate n 48 ∧
    (∀ v, u = v ++ [48] → v.length ≤ 1 ∨ v.getLast? = some 46) ∧
    (n = 0 ∨ (u.length ≥ 2 ∧ u.getLast? ≠ some 46))

/-- What a directive (its upper-case letter, its first two parameters) writes. -/
def meaning (E : Env F O) (slash : Bool) (trim : List Nat → List Nat) (d : Nat) (w p : Int)
    (args : List (Arg F O)) : Except Fail (List Nat × List (Arg F O)) :=
  match d with
  | 65 => take args (inField E true w)                                   -- A
  | 83 => take args (inField E slash w)                                  -- S
  | 68 => take args (inBase E 10 w p)                                    -- D
  | 88 => take args (inBase E 16 w p)                                    -- X
  | 79 => take args (inBase E 8 w p)                                     -- O
  | 67 => take args fun a =>                                             -- C
      match ckintval a with
      | some c => .ok [(c % 256).toNat]
      | none => .error .notInt
  | 70 => take args fun a => (asFloat E a).bind fun x => buf (E.sprintf false w p x)  -- F
  | 69 => take args fun a => (asFloat E a).bind fun x => buf (E.sprintf true w p x)   -- E
  | 71 => take args fun a => (asFloat E a).bind fun x =>                 -- G
      if E.isZero x then .ok [48, 46, 48]
      else if E.extreme x then buf (E.sprintf true w p x)
      else (buf (E.sprintf false w p x)).map trim
  | 37 => .ok (List.replicate (w + 1).toNat 10, args)                    -- %
  | 38 => .ok (List.replicate (w + 1).toNat 10, args)                    -- &
  | 126 => .ok ([126], args)                                             -- ~
  | 84 => .ok ([9], args)                                                -- T
  | _ => .ok ([], args)

/-- The number from -2^31 to 2^31-1 that differs from z by a multiple of 2^32. -/
def wrap32 (z : Int) : Int := if z % 2 ^ 32 < 2 ^ 31 then z % 2 ^ 32 else z % 2 ^ 32 - 2 ^ 32

/-- What a piece writes, and the arguments it leaves. -/
def Item.does (E : Env F O) (slash : Bool) (trim : List Nat → List Nat) (args : List (Arg F O)) :
    Item → Except Fail (List Nat × List (Arg F O))
  | .lit c => .ok ([c], args)
  | .dir ps _ none d =>
    meaning E slash trim (to_upper d) ((ps.map fun p => (value p : Int)).getD 0 0)
      ((ps.map fun p => (value p : Int)).getD 1 1) args
  | .dir ps _ (some _) d =>
    match args with
    | [] => .error .tooFew
    | a :: args =>
      match ckintval a with
      | none => .error .notInt
      | some v =>
        let ps := (ps.map fun p => (value p : Int)) ++ [wrap32 v]
        meaning E slash trim (to_upper d) (ps.getD 0 0) (ps.getD 1 1) args

/-- What the pieces write, one after the other. -/
def doAll (E : Env F O) (slash : Bool) (trim : List Nat → List Nat) :
    List Item → List (Arg F O) → Except Fail (List Nat × List (Arg F O))
  | [], args => .ok ([], args)
  | i :: is, args => do
    let (t, args) ← i.does E slash trim args
    let (u, args) ← doAll E slash trim is args
    return (t ++ u, args)

/-- The number of arguments a piece takes: one for the letters A S D X O C F E G, one for V. -/
def Item.needs : Item → Nat
  | .lit _ => 0
  | .dir _ _ v d => v.toList.length + (if to_upper d ∈ [65, 83, 68, 88, 79, 67, 70, 69, 71] then 1 else 0)

def needs (is : List Item) : Nat := (is.map Item.needs).sum

/-- What an unfinished directive comes to. -/
def unfinishedDoes (tail : List Nat) (args : List (Arg F O)) : Fail ⊕ Unit :=
  if tail.getLast? = some 86 ∨ tail.getLast? = some 118 then
    match args with
    | [] => .inl .tooFew
    | a :: _ => if (ckintval a).isSome then .inr () else .inl .notInt
  else .inr ()

/-- The observable result of a call. -/
def Res.obs : Res F O → Except (Fail ⊕ Unit) (List Nat × List (Arg F O))
  | .ok s => .ok (s.out, s.args)
  | .err .mismatchArg _ => .error (.inl .tooFew)
  | .err .formatString _ => .error (.inr ())
  | .err .noInt _ => .error (.inl .notInt)
  | .err .noNumber _ => .error (.inl .notNumber)
  | .exit _ => .error (.inl .exit)
  | .ub => .error (.inl .corrupt)

end Eus.Fmt
