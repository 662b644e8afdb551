import Verif.Inf.Total
import Mathlib.Data.Rat.Defs
set_option autoImplicit false
/-
The infix notation after `%`.
-/
namespace Eus.Inf

/-- C159: what the usual grammar of infix notation derives, `%` turns into a form with the value that the grammar gives it, whatever the variables and the functions are. -/
theorem C159_value {V : Type} [Ring V] (I : Interp V) (ρ : String → V) (hI : Lawful I) (ts : List Tok) (v : V) (h : Rel I ρ ts v) (lhs : Bool) :
    ∃ p, expression lhs ts = .ok p ∧ ∀ γ, p.eval I ρ γ = v := by
  obtain ⟨f, st, h1, h2, h3⟩ := rel_ok hI h lhs
  have h4 := relExpr_ev lhs ts _ h1
  refine ⟨reconstruct st ⟨[], f⟩, by simp [expression, expressionN, h4], fun γ => ?_⟩
  rw [reconstruct_eval h2 γ, h3]

/-- An interpretation for the examples: rational numbers, `f` doubles. -/
def exI : Interp ℚ where
  fn s l := match s, l with
    | "+", l => l.sum
    | "*", l => l.prod
    | "-", [x] => -x
    | "/", x :: y :: l => (y :: l).foldl (· / ·) x
    | "expt", [x, y] => x ^ y.num.toNat
    | "f", [x] => 2 * x
    | "<", [x, y] => if x < y then 1 else 0
    | _, _ => 0
  int z := z
  nil := 0

theorem exI_lawful : Lawful exI where
  int z := rfl
  add l := by simp [exI]
  neg x := by simp [exI]
  mul l := by simp [exI]
  div x y l hl := by
    obtain ⟨a, l, rfl⟩ := List.exists_cons_of_ne_nil hl
    simp [exI]
  expt x n := by simp [exI]

/-- a - b * (c + 2) ** 2 / f(c): the grammar derives it, and the value is a - b (c + 2)² / f(c). -/
example (ρ : String → ℚ) : Rel exI ρ
    [.sym "a", .sym "-", .sym "b", .sym "*", .lst [.sym "c", .sym "+", .int 2], .sym "**", .int 2, .sym "/", .sym "f", .lst [.sym "c"]]
    (ρ "a" - exI.fn "/" [ρ "b" * exI.fn "expt" [ρ "c" + (2 : ℤ), (2 : ℤ)], exI.fn "f" [ρ "c"]]) := by
  have v : ∀ s, s ∉ reserved → Prim exI ρ [.sym s] (ρ s) := fun s h => .var s h
  have c2 : Sum exI ρ ([.sym "c"] ++ .sym "+" :: [.int 2]) (ρ "c" + (2 : ℤ)) :=
    .add (.term (.fac (.prim (v "c" (by decide))))) (.fac (.prim (.int 2)))
  have pw : Fac exI ρ ([.lst [.sym "c", .sym "+", .int 2]] ++ .sym "**" :: [.int 2]) (exI.fn "expt" [ρ "c" + (2 : ℤ), (2 : ℤ)]) :=
    .pow (.paren c2) (.int 2) (fun z hz => by cases hz; decide)
  have fc : Prim exI ρ [.sym "f", .lst ([.sym "c"] ++ [])] (exI.fn "f" [ρ "c"]) :=
    .call "f" (by decide) (.cons (.term (.fac (.prim (v "c" (by decide))))) .nil trivial) (by simp)
  exact .sum (.sub (ts := [.sym "a"]) (.term (.fac (.prim (v "a" (by decide)))))
    (.div (.mul (ts := [.sym "b"]) (.fac (.prim (v "b" (by decide)))) pw) (.prim fc)))

theorem relOp_sym (s : String) (h : s ∉ reserved) (us : List Tok) : relOp (.sym s :: us) = none := by
  simp only [relOp, List.lookup_eq_none_iff]
  intro p hp
  simp only [reserved, List.mem_cons, List.not_mem_nil, or_false, not_or] at h
  simp only [relOps, List.mem_cons, List.not_mem_nil, or_false] at hp
  rcases hp with rfl | rfl | rfl | rfl | rfl | rfl | rfl <;> simp [h]

/-- C160: `%` ends with a form or an error, whatever is written. -/
theorem C160_answers (lhs : Bool) (ts : List Tok) : expression lhs ts ≠ .out :=
  expressionN_good lhs (bound ts) ts (le_refl _)

/-- C160: after a sum, two or more further tokens that do not continue it and begin with no relation are an error. -/
theorem C160_extra {V : Type} [Ring V] (I : Interp V) (ρ : String → V) (hI : Lawful I) (ts : List Tok) (v : V) (h : Sum I ρ ts v)
    (t u : Tok) (us : List Tok) (ht : Sep (t :: u :: us)) (lhs : Bool) : expression lhs (ts ++ t :: u :: us) = .err := by
  obtain ⟨f, st, h1, _⟩ := sumOK_done (h.ok hI) lhs [] trivial
  obtain ⟨s1, s2, s3, s4⟩ := sep_facts _ ht
  have hr : relOp (t :: u :: us) = none := by
    cases t with
    | sym s =>
      exact relOp_sym s ht _
    | int z => rfl
    | lst l => rfl
  have hev : Ev (fun n => relExpr lhs n (ts ++ t :: u :: us) []) (.ok (f, u :: us, st)) :=
    (h1 _ s1 s2 s3 s4).congr fun n hn => by simp [relExpr, hn, hr]
  simp [expression, expressionN, relExpr_ev lhs _ _ hev]

/-- `a b c` is an error. -/
example (ρ : String → ℚ) : expression false ([.sym "a"] ++ .sym "b" :: .sym "c" :: []) = .err :=
  C160_extra exI ρ exI_lawful [.sym "a"] (ρ "a") (.term (.fac (.prim (.var "a" (by decide))))) (.sym "b") (.sym "c") [] (by simp [Sep, reserved]) false

/-- C160, refuted: one further token is dropped, whatever the sum is: `%(a -2)`, which the reader gives as `a` and the number `-2`, is `a`. -/
theorem C160_dropped_wrong {V : Type} [Ring V] (I : Interp V) (ρ : String → V) (hI : Lawful I) (ts : List Tok) (v : V) (h : Sum I ρ ts v)
    (t : Tok) (ht : Sep [t]) : ∃ p, expression false (ts ++ [t]) = .ok p ∧ ∀ γ, p.eval I ρ γ = v := by
  obtain ⟨f, st, h1, h2, h3, _⟩ := sumOK_done (h.ok hI) false [] trivial
  obtain ⟨s1, s2, s3, s4⟩ := sep_facts _ ht
  have hr : relOp [t] = none := by
    cases t with
    | sym s =>
      exact relOp_sym s ht _
    | int z => rfl
    | lst l => rfl
  have hev : Ev (fun n => relExpr false n (ts ++ [t]) []) (.ok (f, [], st)) :=
    (h1 _ s1 s2 s3 s4).congr fun n hn => by simp [relExpr, hn, hr]
  refine ⟨reconstruct st ⟨[], f⟩, by simp [expression, expressionN, relExpr_ev false _ _ hev], fun γ => ?_⟩
  rw [reconstruct_eval h2 γ, h3]

/-- `a -2` is `a`; `a * - b` is a product with the variable `-`; a call without arguments is a variable; a chain of powers, and a sum in parentheses with something behind it, are errors. -/
theorem C160_forms_wrong :
    expression false [.sym "a", .int (-2)] = .ok ⟨[], .atom (.sym "a")⟩ ∧
    expression false [.sym "a", .sym "*", .sym "-", .sym "b"] = .ok ⟨[], op "*" [.atom (.sym "a"), .atom (.sym "-")]⟩ ∧
    expression false [.sym "f", .lst []] = .ok ⟨[], .atom (.sym "f")⟩ ∧
    expression false [.sym "a", .sym "**", .sym "b", .sym "**", .sym "c"] = .err ∧
    expression false [.lst [.sym "a", .int (-2)]] = .err := by
  refine ⟨?_, ?_, ?_, ?_, ?_⟩ <;> decide +kernel

/-- A negative exponent gives 1: `x ** -2`. -/
theorem C160_negative_wrong : expression false [.sym "x", .sym "**", .int (-2)] = .ok ⟨[], op "*" []⟩ := by decide +kernel

/-- A call that is the base of a power is made as many times as the exponent says: `f(x) ** 3` calls `f` three times, and `f(x) ** 0` not at all; two equal calls are made once, before the others. -/
theorem C160_calls_wrong (ρ : String → ℚ) (γ : Nat → ℚ) :
    (∃ p, expression false [.sym "f", .lst [.sym "x"], .sym "**", .int 3] = .ok p ∧
      p.calls exI ρ γ = [("f", [ρ "x"]), ("f", [ρ "x"]), ("f", [ρ "x"])]) ∧
    (∃ p, expression false [.sym "f", .lst [.sym "x"], .sym "**", .int 0] = .ok p ∧ p.calls exI ρ γ = []) ∧
    (∃ p, expression false [.sym "g", .lst [.sym "x"], .sym "+", .sym "f", .lst [.sym "x"], .sym "+", .sym "f", .lst [.sym "x"]] = .ok p ∧
      p.calls exI ρ γ = [("f", [ρ "x"]), ("g", [ρ "x"])]) := by
  refine ⟨⟨⟨[], op "*" (List.replicate 3 (.app (.sym "f") [.atom (.sym "x")]))⟩, by decide +kernel, ?_⟩,
    ⟨⟨[], op "*" []⟩, by decide +kernel, ?_⟩,
    ⟨⟨[(1, .app (.sym "f") [.atom (.sym "x")])], op "+" [.app (.sym "g") [.atom (.sym "x")], .gen 1, .gen 1]⟩, by decide +kernel, ?_⟩⟩
  · simp [Prog.calls, Prog.callsFrom, op, Form.calls, callsList, evalList, Form.eval, List.replicate]
  · simp [Prog.calls, Prog.callsFrom, op, Form.calls, callsList]
  · simp [Prog.calls, Prog.callsFrom, op, Form.calls, callsList, evalList, Form.eval]

/-- C161: `%(x = e)` becomes a `setq` of `x` to the value of `e`. -/
theorem C161_setq {V : Type} [Ring V] (I : Interp V) (ρ : String → V) (hI : Lawful I) (x : String) (ts : List Tok) (v : V) (h : Rel I ρ ts v) :
    ∃ p, infix2prefix (.sym x :: .sym "=" :: ts) = .ok (.setq (.sym x) p) ∧ ∀ γ, p.eval I ρ γ = v := by
  obtain ⟨p, h1, h2⟩ := C159_value I ρ hI ts v h false
  refine ⟨p, ?_, h2⟩
  simp [infix2prefix, headIs, h1, Tok.atom?]

example : infix2prefix [.sym "x", .sym "=", .sym "a", .sym "-", .sym "b", .sym "-", .sym "c"] =
    .ok (.setq (.sym "x") ⟨[], op "+" [.atom (.sym "a"), op "-" [.atom (.sym "b")], op "-" [.atom (.sym "c")]]⟩) := by decide +kernel

/-- The arguments of `aref` in a place: a form for each index. -/
theorem place_ok {V : Type} [Ring V] (I : Interp V) (ρ : String → V) (hI : Lawful I) (a : String) (ha : a ∉ reserved) (is : List Tok) (vs : List V)
    (h : Args I ρ is vs) : ∃ fs st, relExpr true (bound [.sym a, .lst (.sym "aref" :: is)]) [.sym a, .lst (.sym "aref" :: is)] [] =
      .ok (op "aref" (.atom (.sym a) :: fs), [], st) ∧ Post I ρ [] fs st ∧ evalList I ρ (genv I ρ st) fs = vs := by
  obtain ⟨fs, st, h1, h2, h3⟩ := (h.ok hI).2 true [] trivial
  refine ⟨fs, st, ?_, h2, h3⟩
  refine relExpr_ev true _ _ (Ev.succ (Ev.succ (Ev.succ (Ev.succ (h1.congr fun n hn => ?_)))))
  have ad : addOp [.sym a, .lst (.sym "aref" :: is)] = none := addOp_sym a ha _
  have f1 : factor1 true (n + 1) [.sym a, .lst (.sym "aref" :: is)] [] = .ok (op "aref" (.atom (.sym a) :: fs), [], st) := by
    simp [factor1, Tok.atom?, headIs, hn]
  have f2 : factor true (n + 1 + 1) [.sym a, .lst (.sym "aref" :: is)] [] = .ok (op "aref" (.atom (.sym a) :: fs), [], st) := by
    simp [factor, f1, headIs]
  have f3 : term true (n + 1 + 1 + 1) [.sym a, .lst (.sym "aref" :: is)] [] = .ok (op "aref" (.atom (.sym a) :: fs), [], st) := by
    simp [term, f2, mulOp]
  have f4 : expr true (n + 1 + 1 + 1 + 1) [.sym a, .lst (.sym "aref" :: is)] [] = .ok (op "aref" (.atom (.sym a) :: fs), [], st) := by
    have a0 : addOp [] = none := rfl
    simp [expr, ad, f3, a0]
  simp [relExpr, f4, relOp]

/-- What `reconstruct-form` does to the body is put forms in for symbols. -/
theorem reconstruct_app (st : St) : ∀ (ls : List (Nat × Form)) (f : Atom) (args : List Form),
    ∃ args', args'.length = args.length ∧ (reconstruct st ⟨ls, .app f args⟩).body = .app f args' := by
  induction st with
  | nil => intro ls f args; exact ⟨args, rfl, rfl⟩
  | cons e st ih =>
    intro ls f args
    simp only [reconstruct]
    split
    · exact ih _ f args
    · simp only [Form.subst]
      obtain ⟨args', h1, h2⟩ := ih ls f (substList e.var e.form args)
      refine ⟨args', ?_, h2⟩
      rw [h1]
      clear h1 h2 args' ih
      induction args with
      | nil => rfl
      | cons a as iha => simp [substList, iha]

/-- C161: `%(a[i j …] = e)` becomes a `setf` of the place `(aref a i j …)`, with the indices' values, to the value of `e`. -/
theorem C161_setf {V : Type} [Ring V] (I : Interp V) (ρ : String → V) (hI : Lawful I) (a : String) (ha : a ∉ reserved) (is : List Tok) (vs : List V)
    (hi : Args I ρ is vs) (ts : List Tok) (v : V) (h : Rel I ρ ts v) :
    ∃ place p args, infix2prefix (.sym a :: .lst (.sym "aref" :: is) :: .sym "=" :: ts) = .ok (.setf place p) ∧
      place.body = op "aref" args ∧ args.length = vs.length + 1 ∧
      (∀ γ, place.eval I ρ γ = I.fn "aref" (ρ a :: vs)) ∧ ∀ γ, p.eval I ρ γ = v := by
  obtain ⟨fs, st, r1, r2, r3⟩ := place_ok I ρ hI a ha is vs hi
  obtain ⟨p, h1, h2⟩ := C159_value I ρ hI ts v h false
  obtain ⟨args, l1, l2⟩ := reconstruct_app st [] (.sym "aref") (.atom (.sym a) :: fs)
  refine ⟨reconstruct st ⟨[], op "aref" (.atom (.sym a) :: fs)⟩, p, args, ?_, l2, ?_, fun γ => ?_, h2⟩
  · have he : expression true [.sym a, .lst (.sym "aref" :: is)] = .ok (reconstruct st ⟨[], op "aref" (.atom (.sym a) :: fs)⟩) := by
      simp [expression, expressionN, r1]
    simp [infix2prefix, headIs, he, h1]
  · rw [l1, List.length_cons, ← r3, evalList_length]
  · have hp : Post I ρ [] [op "aref" (.atom (.sym a) :: fs)] st := r2.weaken (by simp [op, Form.occ, occList])
    rw [reconstruct_eval hp γ]
    simp [op, Form.eval, evalList, r3]

example : infix2prefix [.sym "a", .lst [.sym "aref", .sym "i"], .sym "=", .sym "b", .lst [.sym "aref", .sym "i"], .sym "*", .int 2] =
    .ok (.setf ⟨[], op "aref" [.atom (.sym "a"), .atom (.sym "i")]⟩
      ⟨[], op "*" [op "aref" [.atom (.sym "b"), .atom (.sym "i")], .atom (.int 2)]⟩) := by decide +kernel

/-- The manual's example: two equal calls become one. -/
example : expression false [.sym "sin", .lst [.sym "x"], .sym "+", .sym "cos", .lst [.sym "x"], .sym "/", .sym "sin", .lst [.sym "x"]] =
    .ok ⟨[(0, .app (.sym "sin") [.atom (.sym "x")])], op "+" [.gen 0, op "/" [.app (.sym "cos") [.atom (.sym "x")], .gen 0]]⟩ := by decide +kernel

end Eus.Inf
