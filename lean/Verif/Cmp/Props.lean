import Verif.Cmp.Link
import Verif.Cmp.NoUb
import Verif.Lex.Props
set_option autoImplicit false
/-
C96: compiled functions scope lexically.  C97: compiled and interpreted functions do the same.
-/
namespace Eus.Cmp
open Eus.Lex

/-- What can be seen of a value. -/
inductive Seen where
  | nil | t | int (n : Int) | fn
deriving DecidableEq

def seen {E F : Type} : Val E F → Seen
  | .nil => .nil
  | .t => .t
  | .int n => .int n
  | .clo .. => .fn

def seenC : CVal → Seen
  | .nil => .nil
  | .t => .t
  | .int n => .int n
  | .clo .. => .fn
  | .code _ => .fn

/-- What can be seen of a result: the outcome, the value, the values of the global variables. -/
abbrev Outc := Res Seen (Sym → Option Seen)

def see {E F S : Type} (glob : S → Sym → Option (Val E F)) : Res (Val E F) S → Outc
  | .ok v s => .ok (seen v) fun x => (glob s x).map seen
  | .err => .err
  | .ub => .ub
  | .escape => .escape
  | .out => .out

def seeC : Config → Outc
  | .done v s => .ok (seenC v) fun x => (s.glob x).map seenC
  | .err => .err
  | .ub => .ub
  | .run .. => .out

/-- Arguments as constants in a form. -/
def lit : Option Int → Expr
  | none => .nil
  | some n => .int n

/-- What `(f . args)` does by lexical scoping (Verif/Lex/Spec), to a depth n, with these values of the global variables. -/
def meant (chk : Bool) (P : Prog) (n : Nat) (f : Sym) (args : List (Option Int)) (g : Sym → Option (Option Int)) : Outc :=
  see SState.glob (seval chk P n [] [] (.call f (args.map lit)) (sstart g))

/-- What the interpreter does with it (Verif/Lex/Model). -/
def interpreted (P : Prog) (n : Nat) (f : Sym) (args : List (Option Int)) (g : Sym → Option (Option Int)) : Outc :=
  see MState.glob (Lex.eval P n (.call f (args.map lit)) (mstart g))

/-- What the compiled function does with it in d statements. -/
def compiled (img : Image) (builtin : Nat → List (Option Int) → Option (Option Int)) (d : Nat) (f : Sym) (args : List (Option Int)) (g : Sym → Option (Option Int)) : Outc :=
  seeC (stepN img.fn img.clo builtin d (img.start f args g))

section
variable {P : Prog} {glo : Sym → Bool} {k0 : Nat} {m : Mach}

theorem seen_rel {n : Nat} {Z : List Slot} {v : SVal} {v' : CVal} (h : VRel P glo k0 m n Z v v') : seenC v' = seen v := by
  cases h <;> rfl

theorem glob_rel {Z : List Slot} {S : SState} {T : CState} (h : Rel P glo k0 m Z S T) : (fun x => (T.glob x).map seenC) = fun x => (S.glob x).map seen := by
  funext x
  have := h.glob x
  generalize S.glob x = a at this ⊢
  generalize T.glob x = b at this ⊢
  cases this with
  | none => rfl
  | some h => simp [seen_rel h]

theorem vrel_datum {n : Nat} {Z : List Slot} (d : Option Int) : VRel P glo k0 m n Z (Val.ofDatum d) (ofDatum d) := by
  cases d
  · exact .nil
  · exact .int _

theorem stk_args {n : Nat} {Z : List Slot} {T : CState} : ∀ (l : List (Option Int)) (a : Nat), (∀ i d, l[i]? = some d → T.mem (a + i) = .val (ofDatum d)) → Stk P glo k0 m n Z T a (l.map Val.ofDatum)
  | [], _, _ => trivial
  | d :: l, a, h => ⟨⟨_, h 0 d rfl, vrel_datum d⟩, stk_args l (a + 1) (fun i d' hi => by have := h (i + 1) d' (by simpa using hi); rwa [show a + 1 + i = a + (i + 1) by omega])⟩

theorem eval_lits (chk : Bool) (P : Prog) (n : Nat) (S : SState) : ∀ l : List (Option Int), evalArgs (seval chk P (n + 1) [] []) (l.map lit) S = .ok (l.map Val.ofDatum) S
  | [] => rfl
  | d :: l => by
    have : seval chk P (n + 1) [] [] (lit d) S = .ok (Val.ofDatum d) S := by cases d <;> rfl
    simp only [List.map_cons, evalArgs, this, Res.bind, eval_lits chk P n S l]

theorem stepN_stop (fns : Sym → Option Code) (clos : Nat → Option Code) (bi : Nat → List (Option Int) → Option (Option Int)) {c : Config} (h : step fns clos bi c = c) : ∀ n, stepN fns clos bi n c = c
  | 0 => rfl
  | n + 1 => by rw [stepN, h]; exact stepN_stop fns clos bi h n

theorem evalArgs_lits {chk : Bool} {P : Prog} (n : Nat) (S : SState) (l : List (Option Int)) : evalArgs (seval chk P n [] []) (l.map lit) S = .ok (l.map Val.ofDatum) S ∨ evalArgs (seval chk P n [] []) (l.map lit) S = .out := by
  cases n with
  | succ n => exact .inl (eval_lits chk P n S l)
  | zero => cases l with
    | nil => exact .inl rfl
    | cons d l => exact .inr rfl

end

section
variable {special : Sym → Bool} {builtin : Nat → List (Option Int) → Option (Option Int)} {k lab : Nat} {defs : List (Sym × List Sym × List Expr)} {img : Image} {glo : Sym → Bool}

theorem call_sim (hc : compileFile special k defs lab = some img) (hn : (defs.map Prod.fst).Nodup) (hp : CPlainProg (progOf special builtin defs) glo) {f : Sym} (hf : f ∈ defs.map Prod.fst)
    (n : Nat) (args : List (Option Int)) (g : Sym → Option (Option Int)) :
    match seval true (progOf special builtin defs) n [] [] (.call f (args.map lit)) (sstart g) with
    | .ok v S => ∃ d T v', stepN img.fn img.clo builtin d (img.start f args g) = .done v' T ∧ seenC v' = seen v ∧ (fun x => (T.glob x).map seenC) = fun x => (S.glob x).map seen
    | .err => ∃ d, stepN img.fn img.clo builtin d (img.start f args g) = .err
    | .ub => False
    | _ => True := by
  have su := file_setup (builtin := builtin) hc hn hp
  cases hr : seval true (progOf special builtin defs) n [] [] (.call f (args.map lit)) (sstart g) with
  | ub => exact ok_all true _ n [] [] _ _ hr
  | out => trivial
  | escape => trivial
  | _ =>
    obtain ⟨ps, b, hd⟩ : ∃ ps b, (progOf special builtin defs).fns f = some (ps, b) := by
      simp only [progOf]
      cases he : defs.find? (fun d => d.1 == f) with
      | none =>
        obtain ⟨d, hd, rfl⟩ := List.mem_map.mp hf
        have := List.find?_eq_none.mp he d hd
        simp at this
      | some d => exact ⟨d.2.1, d.2.2, rfl⟩
    cases n with
    | zero => cases hr
    | succ n =>
      have hc0 : cellOf f [] = none := rfl
      simp only [seval, sevalF, hc0, hd] at hr
      rcases evalArgs_lits (chk := true) (P := progOf special builtin defs) n (sstart g) args with he | he <;> rw [he] at hr <;> simp only [Res.bind] at hr
      · have hrel : Rel (progOf special builtin defs) glo k ⟨img.fn, img.clo, builtin⟩ [] (sstart g)
            ⟨fun a => match args[a]? with | some d => .val (ofDatum d) | none => .val .nil, args.length, none, fun x => (g x).map ofDatum⟩ := by
          refine ⟨by simp [sstart], by simp, by simp, fun x => ?_, by simp⟩
          simp only [sstart]
          cases g x with
          | none => exact .none
          | some d => exact .some (vrel_datum d)
        have h := sim_defun (n := n) (sim_all su n).1 su (argv := 0) (nargs := args.length) (rest := []) hd hrel (stk_args args 0 (fun i d hi => by simp [hi])) (by simp) (by simp) (fun s hs => by cases hs)
        rw [hr] at h
        first
        | obtain ⟨T', v', ⟨d, h1⟩, h2, h3, _⟩ := h
          exact ⟨d, T', v', h1, seen_rel h2, glob_rel h3⟩
        | obtain ⟨d, h1⟩ := h
          exact ⟨d, h1⟩
      · cases hr

/-- C96 (partial).  A file is compiled, in which no function is defined twice and which is of the class `CPlain`; a function of it is called with integers and NIL, with any values of global variables.
If by lexical scoping the call returns a value, the compiled function returns it, with the same values of all global variables; if by lexical scoping the call is an error, the compiled function signals one.
Nothing is said of calls that do not end, nor of calls of functions after the form they were made in has been left. -/
theorem C96_compiled_partial (hc : compileFile special k defs lab = some img) (hn : (defs.map Prod.fst).Nodup) (hp : CPlainProg (progOf special builtin defs) glo) (f : Sym) (hf : f ∈ defs.map Prod.fst)
    (args : List (Option Int)) (g : Sym → Option (Option Int)) (n : Nat) (ho : meant true (progOf special builtin defs) n f args g ≠ .out) (he : meant true (progOf special builtin defs) n f args g ≠ .escape) :
    ∃ d, ∀ d', d ≤ d' → compiled img builtin d' f args g = meant false (progOf special builtin defs) n f args g := by
  have h := call_sim hc hn hp hf n args g
  have ha := agree_all (P := progOf special builtin defs) n [] [] (.call f (args.map lit)) (sstart g)
  unfold meant at ho he ⊢
  unfold compiled
  rcases ha with ha | ha
  · rw [ha] at he; exact absurd rfl he
  rw [← ha]
  cases hr : seval true (progOf special builtin defs) n [] [] (.call f (args.map lit)) (sstart g) with
  | ub => rw [hr] at h; exact h.elim
  | out => rw [hr] at ho; exact absurd rfl ho
  | escape => rw [hr] at he; exact absurd rfl he
  | ok v S =>
    rw [hr] at h
    obtain ⟨d, T, v', h1, h2, h3⟩ := h
    refine ⟨d, fun d' hd => ?_⟩
    rw [show d' = d + (d' - d) by omega, stepN_add, h1, stepN_stop _ _ _ rfl]
    simp only [seeC, see, h2, h3]
  | err =>
    rw [hr] at h
    obtain ⟨d, h1⟩ := h
    refine ⟨d, fun d' hd => ?_⟩
    rw [show d' = d + (d' - d) by omega, stepN_add, h1, stepN_stop _ _ _ rfl]
    rfl

/-- C97 (partial).  Where the conditions of C94 and C96 are met, a compiled function does what the same definition does in the interpreter: the same value or an error, and the same values of all global variables. -/
theorem C97_same_partial (hc : compileFile special k defs lab = some img) (hn : (defs.map Prod.fst).Nodup) (hp : CPlainProg (progOf special builtin defs) glo) (md : Mode) (hi : PlainProg md (progOf special builtin defs))
    (f : Sym) (hf : f ∈ defs.map Prod.fst) (args : List (Option Int)) (g : Sym → Option (Option Int)) (n : Nat) (ho : interpreted (progOf special builtin defs) n f args g ≠ .out)
    (he : meant true (progOf special builtin defs) n f args g ≠ .escape) :
    ∃ d, ∀ d', d ≤ d' → compiled img builtin d' f args g = interpreted (progOf special builtin defs) n f args g := by
  have pl : Plain md (progOf special builtin defs) [] [] (.call f (args.map lit)) := by
    refine .call (.inr ?_) ?_
    · simp only [progOf, ne_eq, Option.map_eq_none_iff, List.find?_eq_none]
      intro h
      obtain ⟨d, hd, e⟩ := List.mem_map.mp hf
      exact h d hd (by simp [e])
    · intro a ha
      obtain ⟨d, _, rfl⟩ := List.mem_map.mp ha
      cases d
      · exact .nil
      · exact .int _
  have key : interpreted (progOf special builtin defs) n f args g = meant false (progOf special builtin defs) n f args g := by
    have h := C94_scoping_partial md _ hi _ pl n g (fun h => he (by unfold meant; rw [h]; rfl))
    unfold interpreted meant
    have e1 : ∀ {E F S : Type} (gl : S → Sym → Option (Val E F)) (r : Res (Val E F) S), see gl r = match observe gl r with | .ok v gl => .ok (seen v) (fun x => (gl x).map seen) | .err => .err | .ub => .ub | .escape => .escape | .out => .out := by
      intro E F S gl r
      have e2 : ∀ v : Val E F, seen (Lex.look v) = seen v := by intro v; cases v <;> rfl
      cases r with
      | ok v s =>
        simp only [see, observe, e2, Res.ok.injEq, true_and]
        funext x
        cases gl s x <;> simp [e2]
      | _ => rfl
    rw [e1, e1, h]
  have hagree : meant true (progOf special builtin defs) n f args g = meant false (progOf special builtin defs) n f args g := by
    unfold meant at he ⊢
    rcases agree_all (P := progOf special builtin defs) n [] [] (.call f (args.map lit)) (sstart g) with ha | ha
    · rw [ha] at he; exact absurd rfl he
    · rw [ha]
  obtain ⟨d, h⟩ := C96_compiled_partial hc hn hp f hf args g n (by rw [hagree, ← key]; exact ho) he
  exact ⟨d, fun d' hd => by rw [h d' hd, key]⟩

end

/-! ### A file of the class

`(defun twice (x) (setq *n* (+ x x)))`,
`(defun main (a) (labels ((fact (n) (if (< n 1) 1 (* n (fact (- n 1)))))) (let ((x a) (z (let ((u 3)) u))) (let ((add #'(lambda (y) (setq x (+ x y))))) (funcall add (fact 4)) (funcall add 1) (twice 7) (+ x *n*)))))`,
`(defun sum (n) (let ((s 0) (*n* 5)) (while (and n (not (< n 1))) (setq s (+ s n)) (setq n (- n 1))) (+ s (peek))))`, `(defun peek () *n*)`
with *n* special. -/

def exDefs : List (Sym × List Sym × List Expr) :=
  [(20, [1], [.setq 9 (.prim 0 [.var 1, .var 1])]),
   (24, [5], [.labels [(21, [3], [.ite (.prim 3 [.var 3, .int 1]) (.int 1) (.prim 2 [.var 3, .call 21 [.prim 1 [.var 3, .int 1]]])])]
    [.letp [(1, .var 5), (6, .letp [(7, .int 3)] [.var 7])] [.letp [(4, .lam [2] [.setq 1 (.prim 0 [.var 1, .var 2])])]
      [.funcall (.var 4) [.call 21 [.int 4]], .funcall (.var 4) [.int 1], .call 20 [.int 7], .prim 0 [.var 1, .var 9]]]]]),
   (25, [3], [.letp [(8, .int 0), (9, .int 5)] [.while (.and [.var 3, .not (.prim 3 [.var 3, .int 1])]) [.setq 8 (.prim 0 [.var 8, .var 3]), .setq 3 (.prim 1 [.var 3, .int 1])], .prim 0 [.var 8, .call 26 []]]]),
   (26, [], [.var 9])]

def exSpecial : Sym → Bool := fun x => x == 9

instance (P : Prog) (glo : Sym → Bool) (ps : List Sym) : Decidable (okNames P glo ps) := by unfold okNames okName; infer_instance
instance (P : Prog) (glo : Sym → Bool) (x : Sym) : Decidable (okName P glo x) := by unfold okName; infer_instance

macro "flat" : tactic => `(tactic| ((repeat' first | exact all_nil | refine all_cons ?_ ?_ | constructor) <;> done))
macro "cplain" : tactic => `(tactic| repeat' first | exact all_nil | refine all_cons ?_ ?_ | exact (fun h => nomatch h) | (refine CInits.flat ?_ ?_ ?_; · solve | flat) | (refine CInits.deep ?_ ?_) | decide | constructor)

theorem prog_plain {special : Sym → Bool} {builtin : Nat → List (Option Int) → Option (Option Int)} {defs : List (Sym × List Sym × List Expr)} {glo : Sym → Bool}
    (h : ∀ d ∈ defs, okNames (progOf special builtin defs) glo d.2.1 ∧ (∀ e ∈ d.2.2, CPlain (progOf special builtin defs) glo (ext (progOf special builtin defs) d.2.1 []) [] e) ∧
      used (ext (progOf special builtin defs) d.2.1 []) d.2.2) : CPlainProg (progOf special builtin defs) glo := by
  intro f ps b hf
  simp only [progOf, Option.map_eq_some_iff] at hf
  obtain ⟨d, hd, e⟩ := hf
  have := h d (List.mem_of_find?_eq_some hd)
  rw [e] at this
  exact this

theorem ex_cplain : CPlainProg (progOf exSpecial arith exDefs) (fun _ => false) := by
  apply prog_plain
  unfold exDefs
  cplain

/-- The outcome and the value. -/
inductive Brief where
  | val (v : Seen) | err | ub | escape | out
deriving DecidableEq

def brief : Outc → Brief
  | .ok v _ => .val v
  | .err => .err
  | .ub => .ub
  | .escape => .escape
  | .out => .out

/-- The file is compiled and meets the hypotheses of C96; `(main 3)` is 3 + 24 + 1 + 14, `(sum 4)` is 10 + 5. -/
example : (compileFile exSpecial 20 exDefs 0).isSome = true ∧ (exDefs.map Prod.fst).Nodup ∧ brief (meant true (progOf exSpecial arith exDefs) 40 24 [some 3] fun _ => none) = .val (.int 42) ∧
    brief (meant true (progOf exSpecial arith exDefs) 40 25 [some 4] fun _ => none) = .val (.int 15) ∧ brief (meant true (progOf exSpecial arith exDefs) 40 24 [none] fun _ => none) = .err :=
  ⟨by decide +kernel, by decide, by decide +kernel, by decide +kernel, by decide +kernel⟩

/-- The compiled function, run. -/
def runFile (special : Sym → Bool) (defs : List (Sym × List Sym × List Expr)) (d : Nat) (f : Sym) (args : List (Option Int)) (g : Sym → Option (Option Int)) : Option Brief :=
  (compileFile special 20 defs 0).map fun img => brief (compiled img arith d f args g)

example : runFile exSpecial exDefs 1000 24 [some 3] (fun _ => none) = some (.val (.int 42)) ∧ runFile exSpecial exDefs 1000 25 [some 4] (fun _ => none) = some (.val (.int 15)) ∧
    runFile exSpecial exDefs 1000 24 [none] (fun _ => none) = some .err := ⟨by decide +kernel, by decide +kernel, by decide +kernel⟩

/-- The part of it without functions that have no parameters is of the class of C94, too. -/
theorem ex_both : PlainProg ⟨true, true⟩ (progOf exSpecial arith (exDefs.take 2)) ∧ CPlainProg (progOf exSpecial arith (exDefs.take 2)) (fun _ => false) := by
  constructor
  · intro f ps b hf
    simp only [progOf, Option.map_eq_some_iff] at hf
    obtain ⟨d, hd, e⟩ := hf
    have hm := List.mem_of_find?_eq_some hd
    simp only [exDefs, List.take, List.mem_cons, List.not_mem_nil, or_false] at hm
    rcases hm with rfl | rfl <;> cases e
    · exact ⟨by decide, fun _ => ⟨1, by decide, rfl⟩, by plain⟩
    · exact ⟨by decide, fun _ => ⟨5, by decide, rfl⟩, by plain⟩
  · apply prog_plain
    unfold exDefs
    cplain

example : (compileFile exSpecial 20 (exDefs.take 2) 0).isSome = true ∧ brief (interpreted (progOf exSpecial arith (exDefs.take 2)) 40 24 [some 3] fun _ => none) = .val (.int 42) ∧
    brief (meant true (progOf exSpecial arith (exDefs.take 2)) 40 24 [some 3] fun _ => none) = .val (.int 42) := ⟨by decide +kernel, by decide +kernel, by decide +kernel⟩

/-! ### Files outside the class: compiled code differs

Each theorem: what the call means, what compiled code does, and (third) what the interpreter does. -/

/-- C96: `(defun f () *unbound* 1)`: a reference to a global variable whose value is not used is left out, so that the variable is unbound is not noticed. -/
theorem C96_unused_wrong : ∃ defs, brief (meant true (progOf (fun _ => false) arith defs) 20 20 [] fun _ => none) = .err ∧ runFile (fun _ => false) defs 100 20 [] (fun _ => none) = some (.val (.int 1)) ∧
    brief (interpreted (progOf (fun _ => false) arith defs) 20 20 [] fun _ => none) = .err :=
  ⟨[(20, [], [.var 9, .int 1])], by decide +kernel, by decide +kernel, by decide +kernel⟩

/-- C96: `(defun f (x) (let ((x 2) (y (let ((z 3)) x))) y))`: in an initial value a variable bound before it in the same `let` is visible to a nested form that binds variables; `(f 1)` means 1. -/
theorem C96_parallel_wrong : ∃ defs, brief (meant true (progOf (fun _ => false) arith defs) 20 20 [some 1] fun _ => none) = .val (.int 1) ∧ runFile (fun _ => false) defs 100 20 [some 1] (fun _ => none) = some (.val (.int 2)) ∧
    brief (interpreted (progOf (fun _ => false) arith defs) 20 20 [some 1] fun _ => none) = .val (.int 1) :=
  ⟨[(20, [1], [.letp [(1, .int 2), (2, .letp [(3, .int 3)] [.var 1])] [.var 2]])], by decide +kernel, by decide +kernel, by decide +kernel⟩

/-- C96: the same with a function: `(defun f (x) (let ((x 2) (g #'(lambda (z) x))) (funcall g 0)))`; `(f 1)` means 1. -/
theorem C96_closure_wrong : ∃ defs, brief (meant true (progOf (fun _ => false) arith defs) 20 20 [some 1] fun _ => none) = .val (.int 1) ∧ runFile (fun _ => false) defs 100 20 [some 1] (fun _ => none) = some (.val (.int 2)) :=
  ⟨[(20, [1], [.letp [(1, .int 2), (4, .lam [3] [.var 1])] [.funcall (.var 4) [.int 0]]])], by decide +kernel, by decide +kernel⟩

/-- C96: `(defun f () (let ((x 1) (y x)) x))` with a global variable x that is not proclaimed special, of value 7: mentioning the global x in the `let` makes the x bound there invisible; `(f)` means 1. -/
theorem C96_global_wrong : ∃ defs, brief (meant true (progOf (fun _ => false) arith defs) 20 20 [] fun _ => some (some 7)) = .val (.int 1) ∧ runFile (fun _ => false) defs 100 20 [] (fun _ => some (some 7)) = some (.val (.int 7)) ∧
    brief (interpreted (progOf (fun _ => false) arith defs) 20 20 [] fun _ => some (some 7)) = .val (.int 1) :=
  ⟨[(20, [], [.letp [(1, .int 1), (2, .var 1)] [.var 1]])], by decide +kernel, by decide +kernel, by decide +kernel⟩

/-- C96: `(defun f () (flet ((g (x) (g x))) (g 1)))` with `(defun g (x) 5)`: a function defined by `flet` calls itself, not the function of that name outside: the call means 5 and does not end when compiled (here: 300 statements). -/
theorem C96_flet_wrong : ∃ defs, brief (meant true (progOf (fun _ => false) arith defs) 20 20 [] fun _ => none) = .val (.int 5) ∧ runFile (fun _ => false) defs 300 20 [] (fun _ => none) = some .out :=
  ⟨[(20, [], [.flet [(21, [1], [.call 21 [.var 1]])] [.call 21 [.int 1]]]), (21, [1], [.int 5])], by decide +kernel, by decide +kernel⟩

/-- C96: `(defun f () (flet ((g (x) 1)) (flet ((g (x) (if x (g nil) 2))) (g 5))))`: the inner g means to call the outer one, giving 1. -/
theorem C96_inner_wrong : ∃ defs, brief (meant true (progOf (fun _ => false) arith defs) 20 20 [] fun _ => none) = .val (.int 1) ∧ runFile (fun _ => false) defs 300 20 [] (fun _ => none) = some (.val (.int 2)) ∧
    brief (interpreted (progOf (fun _ => false) arith defs) 20 20 [] fun _ => none) = .val (.int 1) :=
  ⟨[(20, [], [.flet [(21, [1], [.int 1])] [.flet [(21, [1], [.ite (.var 1) (.call 21 [.nil]) (.int 2)])] [.call 21 [.int 5]]]])], by decide +kernel, by decide +kernel, by decide +kernel⟩

/-- C96: `(defun f () (and))` gives NIL. -/
theorem C96_and_wrong : ∃ defs, brief (meant true (progOf (fun _ => false) arith defs) 20 20 [] fun _ => none) = .val .t ∧ runFile (fun _ => false) defs 300 20 [] (fun _ => none) = some (.val .nil) :=
  ⟨[(20, [], [.and []])], by decide +kernel, by decide +kernel⟩

/-- C96: `(defun make (x) #'(lambda (y) x))`, `(defun f () (setq *f* (make 5)) (h 9) (funcall *f* 0))`, `(defun h (z) z)`: a function called after the form it was made in has been left reads what is on the stack by then. -/
theorem C96_upward_wrong : ∃ defs, brief (meant false (progOf exSpecial arith defs) 20 20 [] fun _ => none) = .val (.int 5) ∧ runFile exSpecial defs 300 20 [] (fun _ => none) ≠ some (.val (.int 5)) :=
  ⟨[(21, [1], [.lam [2] [.var 1]]), (20, [], [.setq 9 (.call 21 [.int 5]), .call 22 [.int 9], .funcall (.var 9) [.int 0]]), (22, [3], [.var 3])], by decide +kernel, by decide +kernel⟩

/-- C97: `(defun f () (let ((x 5)) (funcall #'g 0)))`, `(defun g (y) x)` with the global variable x = 1: the interpreter gives a function mentioned with `#'` the variables of the place, compiled code does not. -/
theorem C97_function_wrong : ∃ defs, runFile (fun _ => false) defs 300 20 [] (fun _ => some (some 1)) = some (.val (.int 1)) ∧ brief (interpreted (progOf (fun _ => false) arith defs) 20 20 [] fun _ => some (some 1)) = .val (.int 5) :=
  ⟨[(20, [], [.letp [(1, .int 5)] [.funcall (.fn 21) [.int 0]]]), (21, [2], [.var 1])], by decide +kernel, by decide +kernel⟩

/-- C97: `(defun f () (flet ((h (z) 7)) (g 0)))`, `(defun g (y) (h y))`, `(defun h (z) 1)`: in the interpreter a local function replaces the global one in the functions called, in compiled code it does not. -/
theorem C97_flet_wrong : ∃ defs, runFile (fun _ => false) defs 300 20 [] (fun _ => none) = some (.val (.int 1)) ∧ brief (interpreted (progOf (fun _ => false) arith defs) 20 20 [] fun _ => none) = .val (.int 7) :=
  ⟨[(20, [], [.flet [(22, [5], [.int 7])] [.call 23 [.int 0]]]), (22, [5], [.int 1]), (23, [2], [.call 22 [.var 2]])], by decide +kernel, by decide +kernel⟩

end Eus.Cmp
