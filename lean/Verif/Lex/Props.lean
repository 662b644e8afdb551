import Verif.Lex.Balance
set_option autoImplicit false
/-
C94: variables and functions are lexically scoped.  C95: special variables are bound for the duration of a form.
-/
namespace Eus.Lex

/-- The states a program starts in: these values of the global variables, nothing bound. -/
def sstart (g : Sym → Option (Option Int)) : SState := ⟨fun _ => .var .nil, [], 0, fun x => (g x).map Val.ofDatum⟩
def mstart (g : Sym → Option (Option Int)) : MState := ⟨[], none, none, [], fun x => (g x).map Val.ofDatum⟩

/-- What can be seen of a value: NIL, the number, the parameters and the body of a function. -/
def look {E F : Type} : Val E F → Val Unit Unit
  | .nil => .nil
  | .t => .t
  | .int n => .int n
  | .clo ps b _ _ => .clo ps b () ()

/-- What can be seen of a result: the outcome, the value, the values of the global variables. -/
def observe {E F S : Type} (glob : S → Sym → Option (Val E F)) : Res (Val E F) S → Res (Val Unit Unit) (Sym → Option (Val Unit Unit))
  | .ok v s => .ok (look v) fun x => (glob s x).map look
  | .err => .err
  | .ub => .ub
  | .escape => .escape
  | .out => .out

theorem look_rel {md : Mode} {P : Prog} {W : World} {v : SVal} {v' : MVal} (h : VRel md P W v v') : look v' = look v := by
  cases v <;> cases v' <;> simp only [VRel] at h
  · rfl
  · rfl
  · subst h; rfl
  · obtain ⟨rfl, rfl, _⟩ := h; rfl

theorem orel_ofDatum {md : Mode} {P : Prog} {W : World} (d : Option (Option Int)) : ORel md P W (d.map Val.ofDatum) (d.map Val.ofDatum) := by
  cases d with
  | none => trivial
  | some d => exact vrel_ofDatum d

theorem start_inv (md : Mode) (P : Prog) (g : Sym → Option (Option Int)) : Inv md P (sstart g) (mstart g) ∧ Ctx md P (wof (sstart g) (mstart g)) [] [] (mstart g).bindfp (mstart g).fletfp := by
  refine ⟨⟨⟨List.Pairwise.nil, fun l h => (by cases h), rfl⟩, fun i l E h => ?_, fun x => orel_ofDatum _⟩, ⟨⟨rfl, 0, .nil, Or.inl rfl⟩, fun _ i x lex h => ?_⟩⟩
  · simp [sstart] at h
  · simp [wof, mstart] at h

/-- C94 (partial).  A program of the class `Plain`, run by the interpreter for any number of steps, has the outcome, the value and the effects on global variables that lexical scoping gives it, unless it calls a function after
the form it was made in has been left.  For programs outside the class see the theorems below. -/
theorem C94_scoping_partial (md : Mode) (P : Prog) (hP : PlainProg md P) (e : Expr) (hp : Plain md P [] [] e) (n : Nat) (g : Sym → Option (Option Int))
    (hesc : seval true P n [] [] e (sstart g) ≠ .escape) :
    observe MState.glob (eval P n e (mstart g)) = observe SState.glob (seval false P n [] [] e (sstart g)) := by
  have h := sim_all hP n e [] [] (sstart g) (mstart g) hp (start_inv md P g).1 (start_inv md P g).2
  have ha := agree_all (P := P) n [] [] e (sstart g)
  rcases ha with ha | ha
  · exact absurd ha hesc
  rw [← ha]
  cases hr : seval true P n [] [] e (sstart g) with
  | ok v S' =>
    rw [hr] at h
    obtain ⟨v', M', h1, h2, h3⟩ := h
    rw [h1]
    simp only [observe, look_rel h3, Res.ok.injEq, true_and]
    funext x
    have := h2.inv.glob x
    cases hS : S'.glob x with
    | none =>
      cases hM : M'.glob x with
      | none => rfl
      | some w => rw [hS, hM] at this; exact this.elim
    | some v =>
      cases hM : M'.glob x with
      | none => rw [hS, hM] at this; exact this.elim
      | some w => rw [hS, hM] at this; simp only [Option.map_some, look_rel this]
  | err => rw [hr] at h; rw [show eval P n e (mstart g) = .err from h]; rfl
  | out => rw [hr] at h; rw [show eval P n e (mstart g) = .out from h]; rfl
  | escape => exact absurd hr hesc
  | ub => rw [hr] at h; exact h.elim

/-- The outcome, with the number if the value is one. -/
inductive Outcome where
  | num (n : Int) | nil | t | fn | err | ub | escape | out
deriving DecidableEq

def outcome {E F S : Type} : Res (Val E F) S → Outcome
  | .ok (.int n) _ => .num n
  | .ok .nil _ => .nil
  | .ok .t _ => .t
  | .ok (.clo ..) _ => .fn
  | .err => .err
  | .ub => .ub
  | .escape => .escape
  | .out => .out

/-! ### A program of the class

`(labels ((fact (n) (if (< n 1) 1 (* n (fact (- n 1)))))) (let ((x 3)) (let ((add #'(lambda (y) (setq x (+ x y))))) (funcall add (fact 4)) (funcall add 1) (twice 7) (+ x *n*))))`
with `(defun twice (x) (setq *n* (+ x x)))`, and *n* special. -/

def arith : Nat → List (Option Int) → Option (Option Int)
  | 0, [some a, some b] => some (some (a + b))
  | 1, [some a, some b] => some (some (a - b))
  | 2, [some a, some b] => some (some (a * b))
  | 3, [some a, some b] => some (if a < b then some 1 else none)
  | _, _ => none

/-- variables: x 1, y 2, n 3, add 4, *n* 9; functions: twice 20, fact 21, h 22, g 23. -/
def exProg : Prog where
  fns f := if f = 20 then some ([1], [.setq 9 (.prim 0 [.var 1, .var 1])]) else none
  special x := x == 9
  builtin := arith

def exForm : Expr :=
  .labels [(21, [3], [.ite (.prim 3 [.var 3, .int 1]) (.int 1) (.prim 2 [.var 3, .call 21 [.prim 1 [.var 3, .int 1]]])])]
    [.letp [(1, .int 3)] [.letp [(4, .lam [2] [.setq 1 (.prim 0 [.var 1, .var 2])])]
      [.funcall (.var 4) [.call 21 [.int 4]], .funcall (.var 4) [.int 1], .call 20 [.int 7], .prim 0 [.var 1, .var 9]]]]

theorem all_nil {α : Type} {p : α → Prop} : ∀ e ∈ ([] : List α), p e := fun _ h => by cases h
theorem all_cons {α : Type} {p : α → Prop} {a : α} {l : List α} (h : p a) (hl : ∀ e ∈ l, p e) : ∀ e ∈ a :: l, p e := by
  intro e he
  rcases List.mem_cons.1 he with rfl | he
  · exact h
  · exact hl e he

instance (md : Mode) (P : Prog) (sc ps : List Sym) : Decidable (okParams md P sc ps) := by unfold okParams; infer_instance

macro "plain" : tactic => `(tactic| repeat' first | exact all_nil | refine all_cons ?_ ?_ | decide | constructor)

theorem ex_plain : PlainProg ⟨true, true⟩ exProg ∧ Plain ⟨true, true⟩ exProg [] [] exForm := by
  constructor
  · intro f ps body h
    simp only [exProg] at h
    split at h
    · simp only [Option.some.injEq, Prod.mk.injEq] at h
      obtain ⟨rfl, rfl⟩ := h
      refine ⟨by decide, fun _ => ⟨1, by decide, rfl⟩, ?_⟩
      plain
    · cases h
  · unfold exForm
    plain

/-- It meets the hypotheses and has a value: 3 + 24 + 1 and *n* = 14 together. -/
example : outcome (seval true exProg 20 [] [] exForm (sstart fun _ => none)) = .num 42 := by decide +kernel
example : outcome (eval exProg 20 exForm (mstart fun _ => none)) = .num 42 := by decide +kernel

/-- Functions without parameters: `(let ((x 1)) (let ((inc #'(lambda () (setq x (+ x 1))))) (funcall inc) (funcall inc) x))` -/
def exThunk : Expr := .letp [(1, .int 1)] [.letp [(4, .lam [] [.setq 1 (.prim 0 [.var 1, .int 1])])] [.funcall (.var 4) [], .funcall (.var 4) [], .var 1]]

theorem ex_thunk : Plain ⟨false, false⟩ exProg [] [] exThunk := by unfold exThunk; plain

example : outcome (seval true exProg 20 [] [] exThunk (sstart fun _ => none)) = .num 3 := by decide +kernel
example : outcome (eval exProg 20 exThunk (mstart fun _ => none)) = .num 3 := by decide +kernel

/-! ### Programs outside the class: the interpreter differs -/

/-- C94: `(defun app () (funcall *f* 1))`, `(let ((x 5)) (setq *f* #'(lambda (x) x)) (app))`: a parameter with the name of a variable visible where the function is written makes the call an error when the caller has no variables of
its own; lexical scoping gives 1. -/
theorem C94_shadow_wrong : ∃ (P : Prog) (e : Expr), outcome (seval true P 10 [] [] e (sstart fun _ => none)) = .num 1 ∧ outcome (eval P 10 e (mstart fun _ => none)) = .err :=
  ⟨⟨fun f => if f = 20 then some ([], [.funcall (.var 9) [.int 1]]) else none, fun _ => false, arith⟩, .letp [(1, .int 5)] [.setq 9 (.lam [1] [.var 1]), .call 20 []], (by decide +kernel), (by decide +kernel)⟩

/-- C94: `(defun h (z) 1)`, `(defun g (y) (h y))`, `(flet ((h (z) 7)) (g 0))`: the local function replaces the global one in functions called from the form; lexical scoping gives 1. -/
theorem C94_flet_wrong : ∃ (P : Prog) (e : Expr), outcome (seval true P 10 [] [] e (sstart fun _ => none)) = .num 1 ∧ outcome (eval P 10 e (mstart fun _ => none)) = .num 7 :=
  ⟨⟨fun f => if f = 22 then some ([5], [.int 1]) else if f = 23 then some ([2], [.call 22 [.var 2]]) else none, fun _ => false, arith⟩, .flet [(22, [5], [.int 7])] [.call 23 [.int 0]], (by decide +kernel), (by decide +kernel)⟩

/-- C94: `(defun g (y) x)` with the global variable x = 1, `(let ((x 5)) (funcall #'g 0))`: `#'` gives a global function the local variables of the place it is mentioned at; lexical scoping gives 1. -/
theorem C94_function_wrong : ∃ (P : Prog) (e : Expr), outcome (seval true P 10 [] [] e (sstart fun _ => some (some 1))) = .num 1 ∧ outcome (eval P 10 e (mstart fun _ => some (some 1))) = .num 5 :=
  ⟨⟨fun f => if f = 23 then some ([2], [.var 1]) else none, fun _ => false, arith⟩, .letp [(1, .int 5)] [.funcall (.fn 23) [.int 0]], (by decide +kernel), (by decide +kernel)⟩

/-- C94: `(let ((x 5)) ((lambda (y) x) 0))`: the variables around it are not visible in a lambda form in function position. -/
theorem C94_lambda_wrong : ∃ (P : Prog) (e : Expr), outcome (seval true P 10 [] [] e (sstart fun _ => none)) = .num 5 ∧ outcome (eval P 10 e (mstart fun _ => none)) = .err :=
  ⟨⟨fun _ => none, fun _ => false, arith⟩, .letp [(1, .int 5)] [.lamcall [2] [.var 1] [.int 0]], (by decide +kernel), (by decide +kernel)⟩

/-- C94: `(let* ((x 1) (x (+ x 1))) x)` is an error; lexical scoping gives 2. -/
theorem C94_seqlet_wrong : ∃ (P : Prog) (e : Expr), outcome (seval true P 10 [] [] e (sstart fun _ => none)) = .num 2 ∧ outcome (eval P 10 e (mstart fun _ => none)) = .err :=
  ⟨⟨fun _ => none, fun _ => false, arith⟩, .lets [(1, .int 1), (1, .prim 0 [.var 1, .int 1])] [.var 1], (by decide +kernel), (by decide +kernel)⟩

/-- C94: `(and)` is a value that is not set anywhere; the language gives T. -/
theorem C94_and_wrong : ∃ P : Prog, outcome (seval true P 10 [] [] (.and []) (sstart fun _ => none)) = .t ∧ outcome (eval P 10 (.and []) (mstart fun _ => none)) = .ub :=
  ⟨⟨fun _ => none, fun _ => false, arith⟩, (by decide +kernel), (by decide +kernel)⟩

/-- C94: `(setq *f* (let ((x 5)) #'(lambda (y) x)))`, `(let ((x 9)) (funcall *f* 0))`: a function called after the form it was made in has been left reads what is on the stack by then; lexical scoping gives 5. -/
theorem C94_upward_wrong : ∃ (P : Prog) (e : Expr), outcome (seval false P 10 [] [] e (sstart fun _ => none)) = .num 5 ∧ outcome (eval P 10 e (mstart fun _ => none)) = .num 9 :=
  ⟨⟨fun _ => none, fun _ => false, arith⟩, .progn [.setq 9 (.letp [(1, .int 5)] [.lam [2] [.var 1]]), .letp [(1, .int 9)] [.funcall (.var 9) [.int 0]]], (by decide +kernel), (by decide +kernel)⟩

/-- C94: `(funcall (let ((x 5)) #'(lambda (y) x)) 0)` at top level reads memory above the top of the stack. -/
theorem C94_popped_wrong : ∃ (P : Prog) (e : Expr), outcome (seval false P 10 [] [] e (sstart fun _ => none)) = .num 5 ∧ outcome (eval P 10 e (mstart fun _ => none)) = .ub :=
  ⟨⟨fun _ => none, fun _ => false, arith⟩, .funcall (.letp [(1, .int 5)] [.lam [2] [.var 1]]) [.int 0], (by decide +kernel), (by decide +kernel)⟩

/-! ### Special variables -/

/-- C95: whatever its body does, a `let` that returns gives the special variables it has bound the values they had when they were bound. -/
theorem C95_let (P : Prog) (n : Nat) (bs : List (Sym × Expr)) (body : List Expr) (m m1 m' : MState) (vs : List MVal) (v : MVal) (h : eval P (n + 1) (.letp bs body) m = .ok v m')
    (hargs : evalArgs (eval P n) (bs.map Prod.snd) m = .ok vs m1) (x : Sym) (hx : x ∈ bs.map Prod.fst) (hs : P.special x = true) : m'.glob x = m1.glob x := by
  simp only [eval, evalF, hargs, Res.bind] at h
  obtain ⟨_, m2, h3, h4⟩ := bind_ok h
  obtain ⟨w, m3, h5, h6⟩ := bind_ok h4
  cases h6
  have hr := (bindAll_restores _ h3).1
  have hk := keep_progn (keep_all n) _ _ _ _ _ h5
  simp only [leave, hk.sb, hr.un, if_pos (And.intro hs hx)]

/-- C95: the same for the first variable of a `let*`. -/
theorem C95_seqlet (P : Prog) (n : Nat) (x : Sym) (e : Expr) (bs : List (Sym × Expr)) (body : List Expr) (m m1 m' : MState) (w v : MVal) (h : eval P (n + 1) (.lets ((x, e) :: bs) body) m = .ok v m')
    (hargs : eval P n e m = .ok w m1) (hs : P.special x = true) : m'.glob x = m1.glob x := by
  simp only [eval, evalF] at h
  obtain ⟨_, m3, h3, h4⟩ := bind_ok h
  obtain ⟨_, m4, h5, h6⟩ := bind_ok h4
  cases h6
  simp only [bindSeq, hargs, Res.bind] at h3
  obtain ⟨_, m2, h7, h8⟩ := bind_ok h3
  have hr := (vbind_restores h7).1
  obtain ⟨pre, hpre⟩ := ((keep_bindSeq (keep_all n) _ h8).trans (keep_progn (keep_all n) _ _ _ _ _ h5).more).sb
  have hk := keep_all n _ _ _ _ hargs
  have hle : m.sb.length ≤ m2.sb.length := by rw [← hk.sb]; exact hr.le
  simp only [leave]
  rw [← unbind_comp hle, hpre, unbind_fst, ← hk.sb, hr.un]
  exact if_pos ⟨hs, List.mem_singleton.2 rfl⟩

/-- C95: the same for special variables among the parameters of a function. -/
theorem C95_call (P : Prog) (n : Nat) (f : Sym) (ps : List Sym) (body args : List Expr) (m m1 m' : MState) (vs : List MVal) (v : MVal) (hf : m.fletfp = none) (hd : P.fns f = some (ps, body))
    (h : eval P (n + 1) (.call f args) m = .ok v m') (hargs : evalArgs (eval P n) args m = .ok vs m1) (x : Sym) (hx : x ∈ ps) (hs : P.special x = true) : m'.glob x = m1.glob x := by
  have hg : getfunc P f m = .ok (.lambda ps body) m := by simp only [getfunc, hf, findFun, hd]
  simp only [eval, evalF, hg, hargs, Res.bind] at h
  obtain ⟨_, m2, h3, h4⟩ := bind_ok h
  obtain ⟨w, m3, h5, h6⟩ := bind_ok h4
  cases h6
  have hr := (bindAll_restores _ h3).1
  have hk := keep_progn (keep_all n) _ _ _ _ _ h5
  have := hr.un m3.glob
  simp only [leave, hk.sb]
  rw [show unbind m1.sb.length m2.sb m3.glob = _ from this]
  simp only [if_pos (And.intro hs hx)]

/-- C95: every form of every program that returns leaves the variables and local functions visible, and the special bindings to be undone, as it found them. -/
theorem C95_balanced (P : Prog) (n : Nat) (e : Expr) (m m' : MState) (v : MVal) (h : eval P n e m = .ok v m') :
    m'.bindfp = m.bindfp ∧ m'.fletfp = m.fletfp ∧ m'.sb = m.sb ∧ m'.stack.length = m.stack.length :=
  have k := keep_all n e m v m' h
  ⟨k.bindfp, k.fletfp, k.sb, k.len⟩

/-- `(defun show (y) *n*)`, `(let ((*n* 8)) (setq x (show 0)) (setq *n* 9) x)` with *n* = 3: the function sees 8, afterwards *n* is 3. -/
example : ∃ m, eval ⟨fun f => if f = 20 then some ([2], [.var 9]) else none, fun x => x == 9, arith⟩ 10 (.letp [(9, .int 8)] [.setq 1 (.call 20 [.int 0]), .setq 9 (.int 9), .var 1]) (mstart fun _ => some (some 3))
    = .ok (.int 8) m ∧ m.glob 9 = some (.int 3) := ⟨_, rfl, rfl⟩
example : ∃ m, eval ⟨fun _ => none, fun x => x == 9, arith⟩ 10 (.lets [(9, .int 8), (1, .var 9)] [.setq 9 (.int 9), .var 1]) (mstart fun _ => some (some 3))
    = .ok (.int 8) m ∧ m.glob 9 = some (.int 3) := ⟨_, rfl, rfl⟩
example : ∃ m, eval ⟨fun f => if f = 20 then some ([9], [.setq 9 (.int 4), .var 9]) else none, fun x => x == 9, arith⟩ 10 (.call 20 [.int 8]) (mstart fun _ => some (some 3))
    = .ok (.int 4) m ∧ m.glob 9 = some (.int 3) := ⟨_, rfl, rfl⟩

end Eus.Lex
