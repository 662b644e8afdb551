import Verif.Cnd.Model
set_option autoImplicit false
/-
What a source text means: trees with comments and conditionals in them.
-/
namespace Eus.Cnd

mutual
/-- A feature expression. -/
inductive FE where
  | sym (k : Nat)
  | not (f : FE)
  | and (l : FEs)
  | or (l : FEs)
inductive FEs where
  | nil
  | cons (f : FE) (l : FEs)
end

mutual
/-- It is true of a list of features. -/
def FE.holds (fs : List Nat) : FE → Bool
  | .sym k => decide (k ∈ fs)
  | .not f => !f.holds fs
  | .and l => l.all fs
  | .or l => l.any fs
def FEs.all (fs : List Nat) : FEs → Bool
  | .nil => true
  | .cons f l => f.holds fs && l.all fs
def FEs.any (fs : List Nat) : FEs → Bool
  | .nil => false
  | .cons f l => f.holds fs || l.any fs
end

mutual
/-- How it is written. -/
def FE.text : FE → List Tok
  | .sym k => [.sym k]
  | .not f => [.lp, .sym 3] ++ f.text ++ [.rp]
  | .and l => [.lp, .sym 4] ++ l.text ++ [.rp]
  | .or l => [.lp, .sym 5] ++ l.text ++ [.rp]
def FEs.text : FEs → List Tok
  | .nil => []
  | .cons f l => f.text ++ l.text
end

mutual
/-- An expression as written.  `ev x` is `#.x`. -/
inductive Src where
  | sym (k : Nat)
  | oth (k : Nat)
  | quote (x : Src)
  | fn (x : Src)
  | ev (x : Src)
  | list (l : Items)
  | vec (l : Els)
/-- What is written between the parentheses of a list: elements, comments and conditionals; at the
end, nothing or a dot and an expression, with `c` line comments after it. -/
inductive Items where
  | nil
  | tail (x : Src) (c : Nat)
  | el (x : Src) (l : Items)
  | lineC (l : Items)
  | blockC (l : Items)
  | cond (plus : Bool) (f : FE) (x : Src) (l : Items)
/-- What is written between the parentheses of a vector. -/
inductive Els where
  | nil
  | el (x : Src) (l : Els)
  | lineC (l : Els)
end

mutual
/-- The text of an expression. -/
def Src.text : Src → List Tok
  | .sym k => [.sym k]
  | .oth k => [.oth k]
  | .quote x => .quote :: x.text
  | .fn x => .fn :: x.text
  | .ev x => .ev :: x.text
  | .list l => .lp :: (l.text ++ [.rp])
  | .vec l => .vecO :: (l.text ++ [.rp])
def Items.text : Items → List Tok
  | .nil => []
  | .tail x c => .dot :: x.text ++ List.replicate c .lineC
  | .el x l => x.text ++ l.text
  | .lineC l => .lineC :: l.text
  | .blockC l => .blockC :: l.text
  | .cond p f x l => (if p then .plus else .minus) :: f.text ++ x.text ++ l.text
def Els.text : Els → List Tok
  | .nil => []
  | .el x l => x.text ++ l.text
  | .lineC l => .lineC :: l.text
end

mutual
/-- The object an expression stands for, and the state after the `#.` in it have been evaluated from
left to right; `none` when such an evaluation fails.  `#+f x` is `x` if `f` holds of the features and
nothing if not, `#-f x` the other way round; comments are nothing. -/
def Src.mean {σ : Type} (W : World σ) : Src → σ → Option (O × σ)
  | .sym k, s => some (.sym k, s)
  | .oth k, s => some (.oth k, s)
  | .quote x, s => match x.mean W s with
    | some (o, s') => some (.cons (.sym 1) (.cons o (.sym 0)), s')
    | none => none
  | .fn x, s => match x.mean W s with
    | some (o, s') => some (.cons (.sym 2) (.cons o (.sym 0)), s')
    | none => none
  | .ev x, s => match x.mean W s with
    | some (o, s') => W.eval o s'
    | none => none
  | .list l, s => l.mean W s
  | .vec l, s => match l.mean W s with
    | some (o, s') => some (.vec o, s')
    | none => none
def Items.mean {σ : Type} (W : World σ) : Items → σ → Option (O × σ)
  | .nil, s => some (.sym 0, s)
  | .tail x _, s => x.mean W s
  | .el x l, s => match x.mean W s with
    | some (a, s') => match l.mean W s' with
      | some (d, s'') => some (.cons a d, s'')
      | none => none
    | none => none
  | .lineC l, s => l.mean W s
  | .blockC l, s => l.mean W s
  | .cond p f x l, s =>
    if f.holds (W.features s) = p then
      match x.mean W s with
      | some (a, s') => match l.mean W s' with
        | some (d, s'') => some (.cons a d, s'')
        | none => none
      | none => none
    else l.mean W s
def Els.mean {σ : Type} (W : World σ) : Els → σ → Option (O × σ)
  | .nil, s => some (.sym 0, s)
  | .el x l, s => match x.mean W s with
    | some (a, s') => match l.mean W s' with
      | some (d, s'') => some (.cons a d, s'')
      | none => none
    | none => none
  | .lineC l, s => l.mean W s
end

mutual
/-- There is no `#.` in it. -/
def Src.plain : Src → Prop
  | .sym _ | .oth _ => True
  | .quote x | .fn x => x.plain
  | .ev _ => False
  | .list l => l.plain
  | .vec l => l.plain
def Items.plain : Items → Prop
  | .nil => True
  | .tail x _ => x.plain
  | .el x l => x.plain ∧ l.plain
  | .lineC l | .blockC l => l.plain
  | .cond _ _ x l => x.plain ∧ l.plain
def Els.plain : Els → Prop
  | .nil => True
  | .el x l => x.plain ∧ l.plain
  | .lineC l => l.plain
end

mutual
/-- There is no `#.` in the forms that these features exclude. -/
def Src.quiet (fs : List Nat) : Src → Prop
  | .sym _ | .oth _ => True
  | .quote x | .fn x | .ev x => x.quiet fs
  | .list l => l.quiet fs
  | .vec l => l.quiet fs
def Items.quiet (fs : List Nat) : Items → Prop
  | .nil => True
  | .tail x _ => x.quiet fs
  | .el x l => x.quiet fs ∧ l.quiet fs
  | .lineC l | .blockC l => l.quiet fs
  | .cond p f x l => (if f.holds fs = p then x.quiet fs else x.plain) ∧ l.quiet fs
def Els.quiet (fs : List Nat) : Els → Prop
  | .nil => True
  | .el x l => x.quiet fs ∧ l.quiet fs
  | .lineC l => l.quiet fs
end

/-- Evaluating a form leaves `*features*` alone and gives an object. -/
structure Steady {σ : Type} (W : World σ) : Prop where
  features : ∀ o s v s', W.eval o s = some (v, s') → W.features s' = W.features s
  value : ∀ o s v s', W.eval o s = some (v, s') → v ≠ .unb ∧ v ≠ .eof

/-- `read` gives what was meant, the rest of the text is left. -/
def Reads {σ : Type} (W : World σ) (t rest : List Tok) (s : σ) (m : Option (O × σ)) : Prop :=
  read W t s = match m with
    | some (o, s') => .ok o rest s'
    | none => .err

end Eus.Cnd
