import Verif.Mac.Frame
set_option autoImplicit false
/-! What the control macros are to do, in terms of the forms written by the user. -/
namespace Eus.Mac

/-- The form was not left with a value: by return-from, go, a throw or an error. -/
def Res.Out : Res → Prop
  | .val _ _ => False
  | .timeout => False
  | _ => True

/-- ... and not by a `go` to a tag of these statements. -/
def Res.OutOf (body : Stmts) : Res → Prop
  | .val _ _ => False
  | .timeout => False
  | .go t _ => body.find t = none
  | _ => True

/-- The forms are evaluated from left to right, each once; `k` gets their values. -/
def EvArgs (G : Ext) : List Tm → (List V → St → Res → Prop) → St → Res → Prop
  | [], k, s, r => k [] s r
  | e :: es, k, s, r => ∃ ra, Ev G e s ra ∧ Then ra (fun v s r => EvArgs G es (fun vs => k (v :: vs)) s r) r

/-- The variables get the values, all at once; of equal variables the last counts. -/
def assign : List Name → List V → St → St
  | x :: xs, v :: vs, s => assign xs vs (s.set x v)
  | _, _, s => s

/-- The variables are set one after the other. -/
def SetSeq (G : Ext) : List (Name × Tm) → St → Res → Prop
  | [], s, r => r = .val .nil s
  | (x, e) :: l, s, r => ∃ ra, Ev G e s ra ∧ Then ra (fun v s r => SetSeq G l (s.set x v) r) r

/-- The variables are bound one after the other around `k`. -/
def BindSeq (G : Ext) : List (Name × Tm) → (St → Res → Prop) → St → Res → Prop
  | [], k, s, r => k s r
  | (x, e) :: l, k, s, r => ∃ ra, Ev G e s ra ∧ Then ra (fun v s r =>
      ∃ rb, BindSeq G l k (s.set x v) rb ∧ r = rb.mapSt fun s' => s'.restore s [x]) r

/-- The variables are bound at once around `k`. -/
def BindPar (G : Ext) (l : List (Name × Tm)) (k : St → Res → Prop) : St → Res → Prop :=
  EvArgs G (l.map (·.2)) fun vs s r => ∃ rb, k (assign (l.map (·.1)) vs s) rb ∧
    r = rb.mapSt fun s' => s'.restore s (l.map (·.1))

/-- Repeating: test, body, test, body ... -/
inductive WhileR (G : Ext) (c body : Tm) : St → Res → Prop where
  | done {s s1} : Ev G c s (.val .nil s1) → WhileR G c body s (.val .nil s1)
  | testOut {s r} : Ev G c s r → r.Out → WhileR G c body s r
  | step {s v s1 u s2 r} : Ev G c s (.val v s1) → v ≠ .nil → Ev G body s1 (.val u s2) → WhileR G c body s2 r →
      WhileR G c body s r
  | bodyOut {s v s1 r} : Ev G c s (.val v s1) → v ≠ .nil → Ev G body s1 r → r.Out → WhileR G c body s r

/-- The rest of a tagbody. -/
inductive TagR (G : Ext) (all : Stmts) : Stmts → St → Res → Prop where
  | nil {s} : TagR G all .nil s (.val .nil s)
  | tag {t rest s r} : TagR G all rest s r → TagR G all (.tag t rest) s r
  | form {e rest s v s1 r} : Ev G e s (.val v s1) → TagR G all rest s1 r → TagR G all (.form e rest) s r
  | go {e rest s t s1 rest' r} : Ev G e s (.go t s1) → all.find t = some rest' → TagR G all rest' s1 r →
      TagR G all (.form e rest) s r
  | out {e rest s r} : Ev G e s r → r.OutOf all → TagR G all (.form e rest) s r

/-- The walk of `dolist` along a list: car and cdr of a cell are read before the body runs. -/
inductive DolistR (G : Ext) (x : Name) (body : Tm) : V → St → Res → Prop where
  | nil {s} : DolistR G x body .nil s (.val .nil s)
  | next {a s v s1 r} : Ev G body (s.set x (s.w.car a)) (.val v s1) → DolistR G x body (s.w.cdr a) s1 r →
      DolistR G x body (.cell a) s r
  | leave {a s r} : Ev G body (s.set x (s.w.car a)) r → r.Out → DolistR G x body (.cell a) s r
  | atom {v s} : v ≠ .nil → (∀ a, v ≠ .cell a) → DolistR G x body v s (.exit .nil s)

/-- `dotimes`: while the variable is below the bound. -/
inductive DotimesR (G : Ext) (x : Name) (body : Tm) (n : V) : St → Res → Prop where
  | done {s i m} : s.vars x = .int i → n = .int m → ¬ i < m → DotimesR G x body n s (.val .nil s)
  | next {s i m v s1 j r} : s.vars x = .int i → n = .int m → i < m → Ev G body s (.val v s1) → s1.vars x = .int j →
      DotimesR G x body n (s1.set x (.int (j + 1))) r → DotimesR G x body n s r
  | leave {s i m r} : s.vars x = .int i → n = .int m → i < m → Ev G body s r → r.Out → DotimesR G x body n s r
  | spoilt {s i m v s1} : s.vars x = .int i → n = .int m → i < m → Ev G body s (.val v s1) → (∀ j, s1.vars x ≠ .int j) →
      DotimesR G x body n s (.exit .nil s1)
  | bad {s} : ((∀ i, s.vars x ≠ .int i) ∨ (∀ m, n ≠ .int m)) → DotimesR G x body n s (.exit .nil s)

/-- The body is run for i, i+1, ..., `k` times. -/
inductive TimesR (G : Ext) (x : Name) (body : Tm) : Int → Nat → St → Res → Prop where
  | done {i : Int} {s : St} : TimesR G x body i 0 s (.val .nil (s.set x (.int i)))
  | next {i : Int} {k : Nat} {s : St} {v s1 r} : Ev G body (s.set x (.int i)) (.val v s1) → TimesR G x body (i + 1) k s1 r →
      TimesR G x body i (k + 1) s r
  | leave {i : Int} {k : Nat} {s : St} {r} : Ev G body (s.set x (.int i)) r → r.Out → TimesR G x body i (k + 1) s r

/-- Where a `do` is: before its test, or in its body. -/
inductive Pos where
  | top
  | at (rest : Stmts)

/-- `do`: test; if it holds the value of the result form is returned from the block nil; otherwise the body, then the
step, and again.  A `go` to a tag of the body goes there. -/
inductive DoR (G : Ext) (test result : Tm) (body : Stmts) (step : St → Res → Prop) : Pos → St → Res → Prop where
  | finish {s v s1 u s2} : Ev G test s (.val v s1) → v ≠ .nil → Ev G result s1 (.val u s2) →
      DoR G test result body step .top s (.ret 0 u s2)
  | enter {s s1 r} : Ev G test s (.val .nil s1) → DoR G test result body step (.at body) s1 r →
      DoR G test result body step .top s r
  | testGo {s t s1 rest r} : Ev G test s (.go t s1) → body.find t = some rest → DoR G test result body step (.at rest) s1 r →
      DoR G test result body step .top s r
  | testOut {s r} : Ev G test s r → r.OutOf body → DoR G test result body step .top s r
  | resultGo {s v s1 t s2 rest r} : Ev G test s (.val v s1) → v ≠ .nil → Ev G result s1 (.go t s2) →
      body.find t = some rest → DoR G test result body step (.at rest) s2 r → DoR G test result body step .top s r
  | resultOut {s v s1 r} : Ev G test s (.val v s1) → v ≠ .nil → Ev G result s1 r → r.OutOf body →
      DoR G test result body step .top s r
  | tag {t rest s r} : DoR G test result body step (.at rest) s r → DoR G test result body step (.at (.tag t rest)) s r
  | form {e rest s v s1 r} : Ev G e s (.val v s1) → DoR G test result body step (.at rest) s1 r →
      DoR G test result body step (.at (.form e rest)) s r
  | go {e rest s t s1 rest' r} : Ev G e s (.go t s1) → body.find t = some rest' →
      DoR G test result body step (.at rest') s1 r → DoR G test result body step (.at (.form e rest)) s r
  | out {e rest s r} : Ev G e s r → r.OutOf body → DoR G test result body step (.at (.form e rest)) s r
  | again {s v s1 r} : step s (.val v s1) → DoR G test result body step .top s1 r →
      DoR G test result body step (.at .nil) s r
  | stepGo {s t s1 rest r} : step s (.go t s1) → body.find t = some rest → DoR G test result body step (.at rest) s1 r →
      DoR G test result body step (.at .nil) s r
  | stepOut {s r} : step s r → r.OutOf body → DoR G test result body step (.at .nil) s r

/-- `loop`: the statements, again and again. -/
inductive LoopR (G : Ext) (body : Stmts) : Stmts → St → Res → Prop where
  | again {s r} : LoopR G body body s r → LoopR G body .nil s r
  | tag {t rest s r} : LoopR G body rest s r → LoopR G body (.tag t rest) s r
  | form {e rest s v s1 r} : Ev G e s (.val v s1) → LoopR G body rest s1 r → LoopR G body (.form e rest) s r
  | go {e rest s t s1 rest' r} : Ev G e s (.go t s1) → body.find t = some rest' → LoopR G body rest' s1 r →
      LoopR G body (.form e rest) s r
  | out {e rest s r} : Ev G e s r → r.OutOf body → LoopR G body (.form e rest) s r

/-- The head of a clause of `case` matches the key. -/
def Head.matches : Head → V → Bool
  | .otherwise_, _ => true
  | .atom v, k => k = v
  | .keys l, k => k ∈ l

/-- The body of the first clause that matches; NIL if there is none. -/
def chosen : List (Head × Tm) → V → Tm
  | [], _ => .const .nil
  | (h, body) :: rest, k => if h.matches k then body else chosen rest k

/-- The cell reached from a value, following the letters from the right. -/
def walk (w : World) : List AD → V → Option V
  | [], v => some v
  | x :: l, v => match walk w l v with
    | some (.cell a) => some (match x with | .a => w.car a | .d => w.cdr a)
    | some .nil => some .nil
    | _ => none

/-- The world after one field of one cell is replaced. -/
def World.put (w : World) (x : AD) (a : Nat) (v : V) : World :=
  match x with
  | .a => { w with car := fun i => if i = a then v else w.car i }
  | .d => { w with cdr := fun i => if i = a then v else w.cdr i }

end Eus.Mac
