set_option autoImplicit false
/-
The parser of `lib/demo/parser.norvig.l`.  Symbols (words and categories) are numbers.  A recursion that does not end has no
result for any depth: `none`.
-/
namespace Eus.Psr

/-- one alternative of a rule: a word, or a list of categories, parser.norvig.l:1-54 -/
inductive Alt where
  | word (w : Nat)
  | seq (cats : List Nat)
deriving DecidableEq

/-- `(lhs -> alternative ...)`, parser.norvig.l:61-62 -/
structure Rule where
  lhs : Nat
  alts : List Alt
deriving DecidableEq

/-- a tree `(cat . rhs)`, parser.norvig.l:59; in `rhs` there are trees or a word -/
inductive Tree where
  | word (w : Nat)
  | node (cat : Nat) (rhs : List Tree)

/-- parser.norvig.l:63 `tree-lhs`; a word has none -/
def Tree.cat : Tree → Option Nat
  | .word _ => none
  | .node c _ => some c

/-- parser.norvig.l:68-70 `lexical-rules` -/
def lexicalRules (G : List Rule) (w : Nat) : List Rule := G.filter fun r => decide (r.alts.head? = some (.word w))

/-- parser.norvig.l:75-76 `first-or-nil` of the first alternative -/
def firstCat (r : Rule) : Option Nat :=
  match r.alts.head? with
  | some (.seq (c :: _)) => some c
  | _ => none

/-- parser.norvig.l:72-74 `rules-starting-with` -/
def startingWith (G : List Rule) (c : Nat) : List Rule := G.filter fun r => decide (firstCat r = some c)

/-- `(rest (car (rule-rhs rule)))`, parser.norvig.l:114 -/
def restCats (r : Rule) : List Nat :=
  match r.alts.head? with
  | some (.seq (_ :: l)) => l
  | _ => []

/-- `mapcan` of functions that may not end -/
def mapcan {α β : Type} (f : α → Option (List β)) : List α → Option (List β)
  | [] => some []
  | a :: l => match f a with
    | none => none
    | some x => match mapcan f l with
      | none => none
      | some y => some (x ++ y)

/-- a parse: a tree and the words that remain -/
abbrev Parse := Tree × List Nat

mutual
/-- parser.norvig.l:99-104 `parse` -/
def parse (G : List Rule) : Nat → List Nat → Option (List Parse)
  | 0, _ => none
  | _ + 1, [] => some []
  | f + 1, w :: ws => mapcan (fun r => extend G f r.lhs [.word w] ws []) (lexicalRules G w)
/-- parser.norvig.l:106-121 `extend-parse` -/
def extend (G : List Rule) : Nat → Nat → List Tree → List Nat → List Nat → Option (List Parse)
  | 0, _, _, _, _ => none
  | f + 1, lhs, rhs, rem, [] =>
    match mapcan (fun r => extend G f r.lhs [.node lhs rhs] rem (restCats r)) (startingWith G lhs) with
    | none => none
    | some l => some ((.node lhs rhs, rem) :: l)
  | f + 1, lhs, rhs, rem, x :: xs =>
    match parse G f rem with
    | none => none
    | some ps => mapcan (fun p => if p.1.cat = some x then extend G f lhs (rhs ++ [p.1]) p.2 xs else some []) ps
end

/-- parser.norvig.l:77-81 `parser`, `complete-parses`: the trees of the parses that leave no words -/
def parser (G : List Rule) (f : Nat) (words : List Nat) : Option (List Tree) :=
  match parse G f words with
  | none => none
  | some ps => some ((ps.filter fun p => decide (p.2 = [])).map Prod.fst)

end Eus.Psr
