set_option autoImplicit false
/-
Reading as `read` does it, from tokens on (lisp/c/reader.c): lists, vectors, quotes, comments, the
reader conditionals `#+` and `#-`, and `#.`.  How characters make tokens is in Verif/Rd.
Not modelled here: labels (`#n=`), `#n(` with a size, backquote, strings and numbers (they are the
tokens `oth`), objects, user-defined macro characters.  Interning the symbols of a form is not an
effect of this model.
-/
namespace Eus.Cnd

/-- What the reader handles.  `sym k` is a symbol, `oth k` a number, string or other atom, `vec e` the
vector with the elements of the list `e`.  `unb` is the mark UNBOUND (the null pointer) that the reader
uses for "nothing was read", `eof` the mark for the end of the file; the program should never get one
of these inside an object. -/
inductive O where
  | sym (k : Nat)
  | oth (k : Nat)
  | cons (a d : O)
  | vec (e : O)
  | unb
  | eof
deriving DecidableEq, Repr

/-- The symbols the reader knows. -/
def NIL : O := .sym 0
def QUOTE : O := .sym 1
def FUNCTION : O := .sym 2
def QNOT : O := .sym 3
def QAND : O := .sym 4
def QOR : O := .sym 5
/-- The symbol whose name is one dot. -/
def DOT : O := .sym 6

/-- Tokens.  `dot` is a dot with white space after it; `lineC` a comment from `;` to the end of the
line, `blockC` a comment `#| ... |#`, `plus`, `minus` are `#+`, `#-`, `ev` is `#.`, `fn` is `#'`,
`vecO` is `#(`. -/
inductive Tok where
  | sym (k : Nat) | oth (k : Nat) | lp | rp | dot | quote | fn | vecO | ev | plus | minus | lineC | blockC
deriving DecidableEq, Repr

/-- What the reader sees of the running program: the value of `*features*` and how a form is evaluated
(`none`: an error). -/
structure World (σ : Type) where
  features : σ → List Nat
  eval : O → σ → Option (O × σ)

/-- Outcome of reading: an object (or mark) with the tokens left and the state; an error; undefined
behaviour (the null pointer is followed). -/
inductive R (σ : Type) where
  | ok (o : O) (rest : List Tok) (s : σ)
  | err
  | ub

/-- Outcome of a feature expression. -/
inductive C where
  | yes | no | err | ub
deriving DecidableEq, Repr

mutual
/-- reader.c:560-583 `eval_read_cond`.  The mark UNBOUND is followed as a pointer by `issymbol`; in
`(not)` the first slot of something that is not a cons is taken: both are `ub`.  The mark EOF is not a
pointer and ends in the error. -/
def evalCond (fs : List Nat) : O → C
  | .sym k => if k ∈ fs then .yes else .no
  | .cons (.sym 3) d => evalNot fs d
  | .cons (.sym 4) d => evalAnd fs d
  | .cons (.sym 5) d => evalOr fs d
  | .unb => .ub
  | _ => .err
/-- reader.c:566-568. -/
def evalNot (fs : List Nat) : O → C
  | .cons x _ => match evalCond fs x with
    | .yes => .no
    | .no => .yes
    | r => r
  | _ => .ub
/-- reader.c:569-575. -/
def evalAnd (fs : List Nat) : O → C
  | .cons x d => match evalCond fs x with
    | .yes => evalAnd fs d
    | r => r
  | .unb => .ub
  | _ => .yes
/-- reader.c:576-582. -/
def evalOr (fs : List Nat) : O → C
  | .cons x d => match evalCond fs x with
    | .no => evalOr fs d
    | r => r
  | .unb => .ub
  | _ => .no
end

/-- reader.c:198-220 `nextch`, `skip`: comments to the end of the line are skipped, block comments are
not. -/
def nextch : List Tok → List Tok
  | .lineC :: t => nextch t
  | t => t

/-- reader.c:585-605: the end of `read_cond_plus` (`plus`) and `read_cond_minus`: `form` has been read,
then the flag is evaluated. -/
def condEnd {σ : Type} (W : World σ) (plus : Bool) (flag form : O) (rest : List Tok) (s : σ) : R σ :=
  match evalCond (W.features s) flag with
  | .err => .err
  | .ub => .ub
  | .yes => .ok (if plus then form else .unb) rest s
  | .no => .ok (if plus then .unb else form) rest s

/-- reader.c:556-558: `#.` evaluates the form read. -/
def evEnd {σ : Type} (W : World σ) (p : O) (rest : List Tok) (s : σ) : R σ :=
  if p = .unb then .ub
  else match W.eval p s with
    | none => .err
    | some (v, s') => .ok v rest s'

mutual
/-- reader.c:968-1012 `read1`.  The first argument bounds the nesting of calls. -/
def read1 {σ : Type} (W : World σ) : Nat → List Tok → σ → R σ
  | 0, _, _ => .ub
  | _ + 1, [], s => .ok .eof [] s
  | n + 1, tok :: t, s =>
    match tok with
    | .sym k => .ok (.sym k) t s
    | .oth k => .ok (.oth k) t s
    | .dot => .ok DOT t s
    -- reader.c:813-817 readlist
    | .lp => readList W n t s
    -- reader.c:833-836 readrparen; 827-831 readcomment; 466-483 read_sharp_comment
    | .rp => .ok .unb t s
    | .lineC => .ok .unb t s
    | .blockC => .ok .unb t s
    -- reader.c:819-825 readquote
    | .quote => match read1 W n t s with
      | .ok q t' s' => if q = .eof then .ok .eof t' s' else .ok (.cons QUOTE (.cons q NIL)) t' s'
      | r => r
    -- reader.c:532-537 read_sharp_function
    | .fn => match read1 W n t s with
      | .ok q t' s' => .ok (.cons FUNCTION (.cons q NIL)) t' s'
      | r => r
    | .vecO => match readVec W n t s with
      | .ok l t' s' => .ok (.vec l) t' s'
      | r => r
    -- reader.c:552-558 read_sharp_eval
    | .ev => match read1 W n t s with
      | .ok p t' s' => evEnd W p t' s'
      | r => r
    -- reader.c:585-594 read_cond_plus
    | .plus => match read1 W n t s with
      | .ok flag t' s' => match read1 W n t' s' with
        | .ok form t'' s'' => condEnd W true flag form t'' s''
        | r => r
      | r => r
    -- reader.c:596-605 read_cond_minus
    | .minus => match read1 W n t s with
      | .ok flag t' s' => match read1 W n t' s' with
        | .ok form t'' s'' => condEnd W false flag form t'' s''
        | r => r
      | r => r
/-- reader.c:780-811 `read_delimited_list` with `)`, from the call of `nextch` on: the list read from
here on (the elements are pushed and then consed in reverse, which builds the same list). -/
def readList {σ : Type} (W : World σ) : Nat → List Tok → σ → R σ
  | 0, _, _ => .ub
  | n + 1, t, s =>
    match nextch t with
    | [] => .ok NIL [] s
    | .rp :: t' => .ok NIL t' s
    | .dot :: t' => match read1 W n t' s with
      | .ok r t'' s' => match nextch t'' with
        | .rp :: t3 => .ok r t3 s'
        | _ => .err
      | r => r
    | t' => match read1 W n t' s with
      | .ok e t'' s' => match readList W n t'' s' with
        | .ok l t3 s'' => .ok (if e = .unb ∨ e = .eof then l else .cons e l) t3 s''
        | r => r
      | r => r
/-- reader.c:294-301, 319-335 `readvector` without a size: the elements, as a list. -/
def readVec {σ : Type} (W : World σ) : Nat → List Tok → σ → R σ
  | 0, _, _ => .ub
  | n + 1, t, s =>
    match nextch t with
    | [] => .ok NIL [] s
    | .rp :: t' => .ok NIL t' s
    | t' => match read1 W n t' s with
      | .ok e t'' s' => match readVec W n t'' s' with
        | .ok l t3 s'' => .ok (.cons e l) t3 s''
        | r => r
      | r => r
end

/-- reader.c:1022-1024: line comments and closing parentheses before the expression are skipped. -/
def skipTop : List Tok → List Tok
  | .lineC :: t => skipTop t
  | .rp :: t => skipTop t
  | t => t

/-- reader.c:1014-1032 `reader` (called by `read`, lispio.c:172-186, which signals the end of file when
it gets the mark `eof`).  Line 1023 tests for the end of the file before the parentheses are skipped;
after them `read1` finds it: same result. -/
def read {σ : Type} (W : World σ) (t : List Tok) (s : σ) : R σ :=
  match read1 W (2 * t.length + 2) (skipTop t) s with
  | .ok o r s' => .ok (if o = .unb then NIL else o) r s'
  | r => r

end Eus.Cnd
