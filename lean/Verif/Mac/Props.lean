import Verif.Mac.Loops
import Verif.Mac.Do
set_option autoImplicit false
/-! Properties C121-C126: the control macros and setf of list places. -/
namespace Eus.Mac
variable {G : Ext}

/-! Examples run in this world: a list (1 2 3) in the cells 0, 1, 2, in the user's variable 0. -/
def w0 : World := ⟨fun a => .int (a + 1), fun a => if a < 2 then .cell (a + 1) else .nil, 3, []⟩
def s0 : St := ⟨fun x => if x = .user 0 then .cell 0 else .nil, w0⟩
def G0 : Ext := fun _ _ _ => none
/-- The value and what was printed (first thing first). -/
def obs : Res → Option (V × List V)
  | .val v s => some (v, s.w.out.reverse)
  | _ => none
def x0 : Name := .user 0
def x1 : Name := .user 1
def pr (e : Tm) : Tm := .call1 .print e

/-! ### C121 -/

/-- C121: `prog1` evaluates the first form, then the others, and returns the value of the first. -/
theorem C121_prog1 {g : Nat} {first rest : Tm} (hr : Fr (.gen g) rest) {s : St} {r : Res} :
    Ev G (prog1 g first rest) s r ↔ ∃ ra, Ev G first s ra ∧ Then ra (fun v s r =>
      ∃ rb, Ev G rest s rb ∧ Then rb (fun _ s r => r = .val v s) r) r := ev_prog1 hr

/-- C121: `unless` evaluates the body exactly if the condition is NIL. -/
theorem C121_unless {pred body : Tm} {s : St} {r : Res} : Ev G (unless_ pred body) s r ↔
    ∃ rc, Ev G pred s rc ∧ Then rc (fun v s r => if v = .nil then Ev G body s r else r = .val .nil s) r := by
  rw [unless_, ev_ite, then_cases, then_cases]
  simp only [ev_call1, then_cases, Tm.nil]
  constructor
  · rintro (⟨v, s', ⟨u, s1, h1, h2⟩ | ⟨_, ho⟩, h3⟩ | ⟨⟨u, s1, h1, h2⟩ | ⟨h1, ho⟩, h3⟩)
    · simp only [P1.run, Option.elim] at h2
      injection h2 with h4 h5
      subst h4 h5
      refine .inl ⟨u, s1, h1, ?_⟩
      by_cases hu : u = .nil
      · simpa [hu] using h3
      · simpa [hu, ev_const] using h3
    · exact absurd ho id
    · subst h2; exact absurd h3 id
    · exact .inr ⟨h1, ho⟩
  · rintro (⟨u, s1, h1, h2⟩ | ⟨h1, ho⟩)
    · refine .inl ⟨if u = .nil then .t else .nil, s1, .inl ⟨u, s1, h1, rfl⟩, ?_⟩
      by_cases hu : u = .nil
      · simpa [hu] using h2
      · simpa [hu, ev_const] using h2
    · exact .inr ⟨.inr ⟨h1, ho⟩, ho⟩

/-- `until`, as the user sees it: test, body, test, ... as long as the test is NIL. -/
inductive UntilR (G : Ext) (c body : Tm) : St → Res → Prop where
  | done {s v s1} : Ev G c s (.val v s1) → v ≠ .nil → UntilR G c body s (.val .nil s1)
  | testOut {s r} : Ev G c s r → r.Out → UntilR G c body s r
  | step {s s1 u s2 r} : Ev G c s (.val .nil s1) → Ev G body s1 (.val u s2) → UntilR G c body s2 r → UntilR G c body s r
  | bodyOut {s s1 r} : Ev G c s (.val .nil s1) → Ev G body s1 r → r.Out → UntilR G c body s r

theorem ev_not {c : Tm} {s s1 : St} {v : V} : Ev G (.call1 .not_ c) s (.val v s1) ↔
    (v = .nil ∧ ∃ u, u ≠ .nil ∧ Ev G c s (.val u s1)) ∨ (v = .t ∧ Ev G c s (.val .nil s1)) := by
  rw [ev_call1, then_cases]
  constructor
  · rintro (⟨u, s2, h1, h2⟩ | ⟨_, ho⟩)
    · simp only [P1.run, Option.elim] at h2
      injection h2 with h3 h4
      subst h4 h3
      by_cases hu : u = .nil
      · subst hu; exact .inr ⟨rfl, h1⟩
      · exact .inl ⟨by simp [hu], u, hu, h1⟩
    · exact absurd ho id
  · rintro (⟨rfl, u, hu, h⟩ | ⟨rfl, h⟩)
    · exact .inl ⟨u, s1, h, by simp [P1.run, hu]⟩
    · exact .inl ⟨_, s1, h, by simp [P1.run]⟩

theorem ev_not_out {c : Tm} {s : St} {r : Res} (ho : r.Out) : Ev G (.call1 .not_ c) s r ↔ Ev G c s r := by
  rw [ev_call1, then_cases]
  constructor
  · rintro (⟨u, s2, _, h2⟩ | ⟨h, _⟩)
    · simp only [P1.run, Option.elim] at h2; subst h2; exact absurd ho id
    · exact h
  · intro h; exact .inr ⟨h, ho⟩

/-- C121: `until` repeats its body as long as the test is NIL; (return v) inside it ends it with v. -/
theorem C121_until {c body : Tm} {s : St} {r : Res} :
    Ev G (until_ c body) s r ↔ ∃ r', UntilR G c body s r' ∧ r = r'.arrive 0 := by
  rw [until_, Tm.while_, ev_block]
  refine exists_congr fun r' => and_congr ?_ Iff.rfl
  rw [ev_while]
  constructor
  · intro h
    induction h with
    | done h =>
      rcases ev_not.1 h with ⟨_, u, hu, h⟩ | ⟨h, _⟩
      · exact .done h hu
      · cases h
    | testOut h ho => exact .testOut ((ev_not_out ho).1 h) ho
    | step h hv hb _ ih =>
      rcases ev_not.1 h with ⟨h, _⟩ | ⟨_, h⟩
      · exact absurd h hv
      · exact .step h hb ih
    | bodyOut h hv hb ho =>
      rcases ev_not.1 h with ⟨h, _⟩ | ⟨_, h⟩
      · exact absurd h hv
      · exact .bodyOut h hb ho
  · intro h
    induction h with
    | done h hu => exact .done (ev_not.2 (.inl ⟨rfl, _, hu, h⟩))
    | testOut h ho => exact .testOut ((ev_not_out ho).2 h) ho
    | step h hb _ ih => exact .step (ev_not.2 (.inr ⟨rfl, h⟩)) (by simp) hb ih
    | bodyOut h hb ho => exact .bodyOut (ev_not.2 (.inr ⟨rfl, h⟩)) (by simp) hb ho

/-- C121: `pop` of a variable that holds a cell returns its car and leaves its cdr in the variable; the
list itself is not changed. -/
theorem C121_pop {g : Nat} {x : Name} (hx : x ≠ .gen g) {s : St} {r : Res} :
    Ev G (popVar g x) s r ↔ r = match s.vars x with
      | .cell a => .val (s.w.car a) (s.set x (s.w.cdr a))
      | .nil => .val .nil s
      | _ => .exit .nil s := ev_pop hx

/-- C121: `push` evaluates the item once, and the variable gets a new cell of it and the variable's value then. -/
theorem C121_push {item : Tm} {x : Name} {s : St} {r : Res} :
    Ev G (pushVar item x) s r ↔ ∃ ri, Ev G item s ri ∧ Then ri (fun v s r =>
      r = .val (.cell s.w.next) { vars := upd s.vars x (.cell s.w.next),
                                  w := { s.w with car := fun i => if i = s.w.next then v else s.w.car i,
                                                  cdr := fun i => if i = s.w.next then s.vars x else s.w.cdr i,
                                                  next := s.w.next + 1 } }) r := by
  rw [pushVar, ev_setq, then_cases, then_cases]
  simp only [ev_call2, then_var, then_cases]
  constructor
  · rintro (⟨v, s', ⟨u, s1, h1, h2⟩ | ⟨_, ho⟩, h3⟩ | ⟨⟨u, s1, h1, h2⟩ | ⟨h1, ho⟩, h3⟩)
    · simp only [P2.run, Option.elim] at h2
      injection h2 with h4 h5
      subst h4 h5 h3
      exact .inl ⟨u, s1, h1, rfl⟩
    · exact absurd ho id
    · simp only [P2.run, Option.elim] at h2; subst h2; exact absurd h3 id
    · exact .inr ⟨h1, ho⟩
  · rintro (⟨u, s1, h1, rfl⟩ | ⟨h1, ho⟩)
    · exact .inl ⟨_, _, .inl ⟨u, s1, h1, rfl⟩, rfl⟩
    · exact .inr ⟨.inr ⟨h1, ho⟩, ho⟩

/-- C121: after push and pop on a variable the item is the value and the variable is as after the item. -/
theorem C121_push_pop {g : Nat} {item : Tm} {x : Name} (hx : x ≠ .gen g) {s s1 : St} {v : V}
    (h : Ev G item s (.val v s1)) {r : Res} (hr : Ev G (.progn (pushVar item x) (popVar g x)) s r) :
    ∃ s2, r = .val v s2 ∧ s2.vars = s1.vars := by
  rw [ev_progn] at hr
  obtain ⟨ra, h1, h2⟩ := hr
  obtain ⟨ri, h3, h4⟩ := C121_push.1 h1
  cases h3.det h
  simp only [Then] at h4
  subst h4
  simp only [Then, C121_pop hx] at h2
  subst h2
  simp only [upd, if_pos]
  refine ⟨_, rfl, funext fun z => ?_⟩
  simp only [set_vars, upd]
  split
  · next h => rw [h]
  · rfl

/-- C121: `(incf x)` and `(incf x h)` with a variable: the amount is evaluated once; the sum is stored and returned. -/
theorem C121_incf {x : Name} {h : Tm} {s s1 : St} {i j : Int} {r : Res} (hh : Ev G h s (.val (.int j) s1))
    (hi : s.vars x = .int i) : Ev G (incVar x (some h)) s r ↔ r = .val (.int (i + j)) (s1.set x (.int (i + j))) := by
  rw [incVar, ev_setq]
  simp only [ev_call2, then_var]
  constructor
  · rintro ⟨ra, ⟨rb, h1, h2⟩, h3⟩
    cases h1.det hh
    simp only [Then, hi, P2.run, Option.elim] at h2
    subst h2
    exact h3
  · rintro rfl
    refine ⟨_, ⟨_, hh, rfl⟩, ?_⟩
    simp only [hi, P2.run, Option.elim, Then]

theorem C121_inc {x : Name} {s : St} {i : Int} (hi : s.vars x = .int i) {r : Res} :
    (Ev G (incVar x none) s r ↔ r = .val (.int (i + 1)) (s.set x (.int (i + 1)))) ∧
    (Ev G (decVar x none) s r ↔ r = .val (.int (i - 1)) (s.set x (.int (i - 1)))) := by
  refine ⟨ev_inc_int hi, ?_⟩
  rw [decVar, ev_setq]
  simp only [ev_call1, then_var, exists_eq_left, hi, P1.run, Option.elim]
  simp only [Then]

theorem C121_decf {x : Name} {h : Tm} {s s1 : St} {i j : Int} {r : Res} (hh : Ev G h s (.val (.int j) s1))
    (hi : s.vars x = .int i) : Ev G (decVar x (some h)) s r ↔ r = .val (.int (i - j)) (s1.set x (.int (i - j))) := by
  rw [decVar, ev_setq]
  simp only [ev_call2, then_var]
  constructor
  · rintro ⟨ra, ⟨rb, h1, h2⟩, h3⟩
    cases h1.det hh
    simp only [Then, hi, P2.run, Option.elim] at h2
    subst h2
    exact h3
  · rintro rfl
    refine ⟨_, ⟨_, hh, rfl⟩, ?_⟩
    simp only [hi, P2.run, Option.elim, Then]

example : obs (eval G0 20 (prog1 5 (pr (.const (.int 1))) (pr (.const (.int 2)))) s0) = some (.int 1, [.int 1, .int 2]) := by decide +kernel
example : obs (eval G0 20 (.progn (pr (popVar 5 x0)) (pr (.call1 .car (.var x0)))) s0) = some (.int 2, [.int 1, .int 2]) := by decide +kernel
example : obs (eval G0 20 (.progn (pushVar (.const (.int 7)) x0) (.call1 .car (.call1 .cdr (.var x0)))) s0) = some (.int 1, []) := by decide +kernel
example : obs (eval G0 60 (until_ (.call1 .not_ (.var x0)) (pr (popVar 5 x0))) s0) = some (.nil, [.int 1, .int 2, .int 3]) := by decide +kernel
example : Fr (.gen 5) (pr (.const (.int 2))) := trivial

/-! ### C122 -/

/-- C122: `psetq` evaluates all the forms from left to right, then sets all variables; its value is NIL. -/
theorem C122_psetq {gs : List Nat} {l : List (Name × Tm)} (h : Fresh gs l) {s : St} {r : Res} :
    Ev G (psetq gs l) s r ↔
      EvArgs G (l.map (·.2)) (fun vs s r => r = .val .nil (assign (l.map (·.1)) vs s)) s r := ev_psetq h

/-- C122: so two variables are exchanged. -/
theorem C122_psetq_swap {g g' : Nat} {x y : Name} (hg : g ≠ g') (hx : x ≠ .gen g ∧ x ≠ .gen g') (hy : y ≠ .gen g ∧ y ≠ .gen g')
    {s : St} {r : Res} : Ev G (psetq [g, g'] [(x, .var y), (y, .var x)]) s r ↔
      r = .val .nil ((s.set x (s.vars y)).set y (s.vars x)) := by
  rw [C122_psetq]
  · simp only [List.map_cons, List.map_nil, EvArgs, then_var, assign]
  · refine ⟨rfl, by simp [hg], ?_⟩
    intro k hk p hp
    simp only [List.mem_cons, List.not_mem_nil, or_false] at hk hp
    rcases hk with rfl | rfl <;> rcases hp with rfl | rfl <;> simp [Fr, hx, hy]

/-- C122: `do` binds its variables at once, tests, returns the result form's value from the block nil when the test holds,
otherwise runs the body and sets the variables that have a step at once, and again.  (The tag and the gensyms are new; the
pair `(.user 0, .nil)` only stands beside the tag.) -/
theorem C122_do {tag : Nat} {gs : List Nat} {vars : List DoVar} {test result : Tm} {body : Stmts}
    (hf : Fresh (tag :: gs) ((.user 0, .nil) :: doSteps vars)) (hb : FrS (.gen tag) body) (hte : Fr (.gen tag) test)
    (hre : Fr (.gen tag) result) {s : St} {r : Res} :
    Ev G (do_ tag gs vars test result body) s r ↔
      ∃ r', BindPar G (vars.map fun v => (v.x, v.init))
        (DoR G test result body (EvArgs G ((doSteps vars).map (·.2)) fun vs s r =>
          r = .val .nil (assign ((doSteps vars).map (·.1)) vs s)) .top) s r' ∧ r = r'.arrive 0 := ev_do hf hb hte hre

/-- C122: `do*` binds and steps its variables one after the other. -/
theorem C122_doStar {tag : Nat} {vars : List DoVar} {test result : Tm} {body : Stmts}
    (hv : ∀ p ∈ doSteps vars, p.1 ≠ .gen tag ∧ Fr (.gen tag) p.2) (hb : FrS (.gen tag) body) (hte : Fr (.gen tag) test)
    (hre : Fr (.gen tag) result) {s : St} {r : Res} :
    Ev G (doStar tag vars test result body) s r ↔
      ∃ r', BindSeq G (vars.map fun v => (v.x, v.init))
        (DoR G test result body (SetSeq G (doSteps vars)) .top) s r' ∧ r = r'.arrive 0 := ev_doStar hv hb hte hre

/-- The variables with a step, in order. -/
theorem C122_steps (vars : List DoVar) :
    doSteps vars = vars.filterMap fun v => v.step.map fun e => (v.x, e) := by
  induction vars with
  | nil => rfl
  | cons v l ih =>
    rw [doSteps, List.filterMap_cons]
    cases v.step with
    | none => exact ih
    | some e => simp only [Option.map_some, ih]

/-- Two variables, the second stepping to the old value of the first. -/
def doEx : List DoVar := [⟨x0, .const (.int 0), some (.call1 .inc (.var x0))⟩, ⟨x1, .const (.int 9), some (.var x0)⟩]

example : obs (eval G0 60 (do_ 5 [6, 7] doEx (.call2 .eq (.var x0) (.const (.int 2))) (.var x1) (.form (pr (.var x1)) .nil)) s0)
    = some (.int 1, [.int 9, .int 0]) := by decide +kernel
example : obs (eval G0 60 (doStar 5 doEx (.call2 .eq (.var x0) (.const (.int 2))) (.var x1) (.form (pr (.var x1)) .nil)) s0)
    = some (.int 2, [.int 9, .int 1]) := by decide +kernel
example : Fresh [5, 6, 7] ((.user 0, .nil) :: doSteps doEx) := by
  refine ⟨rfl, by decide, ?_⟩
  intro g hg p hp
  simp only [doSteps, doEx, List.mem_cons, List.not_mem_nil, or_false] at hg hp
  rcases hg with rfl | rfl | rfl <;> rcases hp with rfl | rfl | rfl <;> simp [Fr, Tm.nil, x0, x1]

/-! ### C123 -/

/-- C123: `dolist`: the list form is evaluated once, outside the scope of the variable; the body is run with the variable
set to each element in turn, from the first to the last, whatever the body does to the variable; the cell's
cdr is read before the body runs; then the result form is evaluated, with the variable still bound. -/
theorem C123_dolist_partial {g g' : Nat} {x : Name} {list result body : Tm} (hg : g ≠ g') (hx : x ≠ .gen g)
    (hb : Fr (.gen g) body) (hr : Fr (.gen g) result) {s : St} {r : Res} :
    Ev G (dolist g g' x list result body) s r ↔
      ∃ rl, Ev G list s rl ∧ Then rl (fun L s1 r => ∃ rb, DolistR G x body L (s1.set x .nil) rb ∧
        ∃ r', Then (rb.arrive 0) (fun _ s2 r2 => Ev G result s2 r2) r' ∧ r = r'.mapSt fun s' => s'.restore s1 [x]) r :=
  ev_dolist hg hx hb hr

/-- C123: `dotimes`: the count is evaluated once, outside the scope of the variable; then the body is
run as long as the variable is below it, and the variable increased. -/
theorem C123_dotimes_partial {g : Nat} {x : Name} {count result body : Tm} (hx : x ≠ .gen g) (hb : Fr (.gen g) body)
    (hr : Fr (.gen g) result) {s : St} {r : Res} :
    Ev G (dotimes g x count result body) s r ↔
      ∃ rn, Ev G count s rn ∧ Then rn (fun N s1 r => ∃ rb, DotimesR G x body N (s1.set x (.int 0)) rb ∧
        ∃ r', Then (rb.arrive 0) (fun _ s2 r2 => Ev G result s2 r2) r' ∧ r = r'.mapSt fun s' => s'.restore s1 [x]) r :=
  ev_dotimes hx hb hr

/-- C123: a body that does not change the variable is run with 0, 1, ..., n-1, and not at all for a negative n. -/
theorem C123_dotimes_times {x : Name} {body : Tm} (hk : ∀ s v s', Ev G body s (.val v s') → s'.vars x = s.vars x)
    (n : Int) (s : St) (r : Res) :
    DotimesR G x body (.int n) (s.set x (.int 0)) r ↔ TimesR G x body 0 n.toNat s r :=
  dotimes_times hk n.toNat 0 s (by omega)

/-- A body that always returns `v` from the block nil. -/
theorem dolist_leave {x : Name} {v : V} {s : St} {a : Nat} {r : Res} :
    DolistR G x (.return_ (.const v)) (.cell a) s r ↔ r = .ret 0 v (s.set x (s.w.car a)) := by
  have hE : ∀ {s r}, Ev G (.return_ (.const v)) s r ↔ r = .ret 0 v s := by
    intro s r; rw [Tm.return_, ev_ret, then_const]
  constructor
  · intro h
    cases h with
    | next h _ => rw [hE] at h; cases h
    | leave h _ => rwa [hE] at h
    | atom _ h => exact absurd rfl (h a)
  · rintro rfl; exact .leave (hE.2 rfl) trivial

/-- C123, where it fails: `(return v)` in the body of `dolist` only ends the loop; v is lost and the result form is evaluated.
For every value and list, `(dolist (x list) (return v))` returns NIL. -/
theorem C123_dolist_return_wrong {g g' : Nat} {x y : Name} (hg : g ≠ g') (hx : x ≠ .gen g) (v : V) (s : St) (a : Nat)
    (hl : s.vars y = .cell a) {r : Res} :
    Ev G (dolist g g' x (.var y) .nil (.return_ (.const v))) s r → ∃ s', r = .val .nil s' := by
  intro h
  obtain ⟨rl, h1, h2⟩ := (C123_dolist_partial hg hx (show Fr _ (.return_ (.const v)) from trivial) (show Fr _ Tm.nil from trivial)).1 h
  rw [ev_var] at h1
  subst h1
  simp only [Then, hl, dolist_leave, exists_eq_left, Res.arrive, if_pos, Tm.nil, ev_const] at h2
  exact ⟨_, h2⟩

/-- The same for `dotimes`. -/
theorem C123_dotimes_return_wrong {g : Nat} {x : Name} (hx : x ≠ .gen g) (v : V) (s : St) (n : Int) (hn : 0 < n) {r : Res} :
    Ev G (dotimes g x (.const (.int n)) .nil (.return_ (.const v))) s r → ∃ s', r = .val .nil s' := by
  intro h
  have hE : ∀ {s r}, Ev G (.return_ (.const v)) s r ↔ r = .ret 0 v s := by
    intro s r; rw [Tm.return_, ev_ret, then_const]
  obtain ⟨rl, h1, h2⟩ := (C123_dotimes_partial hx (show Fr _ (.return_ (.const v)) from trivial) (show Fr _ Tm.nil from trivial)).1 h
  rw [ev_const] at h1
  subst h1
  simp only [Then] at h2
  obtain ⟨rb, h3, r', h4, h5⟩ := h2
  rw [C123_dotimes_times (fun s u s' h => by rw [hE] at h; cases h)] at h3
  have h6 : ∃ k, n.toNat = k + 1 := ⟨n.toNat - 1, by omega⟩
  obtain ⟨k, hk⟩ := h6
  rw [hk] at h3
  cases h3 with
  | next h _ => rw [hE] at h; cases h
  | leave h _ =>
    rw [hE] at h
    subst h
    simp only [Res.arrive, if_pos, Then, Tm.nil, ev_const] at h4
    subst h4
    exact ⟨_, h5⟩

example : obs (eval G0 60 (dolist 5 6 x1 (.var x0) (.const (.int 8)) (pr (.var x1))) s0)
    = some (.int 8, [.int 1, .int 2, .int 3]) := by decide +kernel
example : obs (eval G0 60 (dotimes 5 x1 (pr (.const (.int 3))) (.var x1) (pr (.var x1))) s0)
    = some (.int 3, [.int 3, .int 0, .int 1, .int 2]) := by decide +kernel
/-- The body may cut the list, the walk goes on from the cdr it had. -/
example : obs (eval G0 60 (dolist 5 6 x1 (.var x0) .nil (.progn (.call2 .rplacd2 (.var x0) .nil) (pr (.var x1)))) s0)
    = some (.nil, [.int 1, .int 2, .int 3]) := by decide +kernel
example : obs (eval G0 60 (dolist 5 6 x1 (.var x0) .nil (.return_ (.const (.int 4)))) s0) = some (.nil, []) := by decide +kernel

/-! ### C124 -/

/-- C124: `tagbody` runs its forms in order; a `go` to one of its tags continues after the tag, any other exit leaves it. -/
theorem C124_tagbody {b : Stmts} {s : St} {r : Res} : Ev G (.tagbody b) s r ↔ TagR G b b s r := ev_tagbody

/-- C124: `loop` runs its statements again and again, until `return`. -/
theorem C124_loop {tag : Nat} {body : Stmts} (hb : FrS (.gen tag) body) {s : St} {r : Res} :
    Ev G (loopM tag body) s r ↔ ∃ r', LoopR G body body s r' ∧ r = r'.arrive 0 := ev_loopM hb

theorem loopR_out {body rest : Stmts} {s : St} {r : Res} (h : LoopR G body rest s r) : r.OutOf body := by
  induction h with
  | out _ ho => exact ho
  | _ => assumption

/-- C124: it never ends by itself. -/
theorem C124_loop_exits {tag : Nat} {body : Stmts} (hb : FrS (.gen tag) body) {s : St} {r : Res}
    (h : Ev G (loopM tag body) s r) : ∃ r' : Res, r'.OutOf body ∧ r = r'.arrive 0 := by
  obtain ⟨r', h1, h2⟩ := (C124_loop hb).1 h
  exact ⟨r', loopR_out h1, h2⟩

/-- C124: `prog` and `prog*`: variables at once or one after the other, a tagbody, a block named nil. -/
theorem C124_prog {bs : Binds} {body : Stmts} {s : St} {r : Res} :
    Ev G (prog bs body) s r ↔ ∃ r', BindPar G bs.toList (TagR G body body) s r' ∧ r = r'.arrive 0 := by
  rw [prog, ev_block]
  refine exists_congr fun r' => and_congr ?_ Iff.rfl
  rw [ev_letp]
  have : (fun s r => Ev G (.tagbody body) s r) = TagR G body body :=
    funext fun s => funext fun r => propext C124_tagbody
  rw [this]
theorem C124_progStar {bs : Binds} {body : Stmts} {s : St} {r : Res} :
    Ev G (progStar bs body) s r ↔ ∃ r', BindSeq G bs.toList (TagR G body body) s r' ∧ r = r'.arrive 0 := by
  rw [progStar, ev_block]
  refine exists_congr fun r' => and_congr ?_ Iff.rfl
  rw [ev_lets]
  have : (fun s r => Ev G (.tagbody body) s r) = TagR G body body :=
    funext fun s => funext fun r => propext C124_tagbody
  rw [this]

/-- C124: a `go` from inside a form of the tagbody finds the tag even before the form. -/
example : obs (eval G0 60 (.tagbody (.tag (.user 9) (.form (pr (popVar 5 x0)) (.form (.ite (.var x0) (.go (.user 9)) .nil) .nil)))) s0)
    = some (.nil, [.int 1, .int 2, .int 3]) := by decide +kernel
example : obs (eval G0 60 (loopM 7 (.form (pr (popVar 5 x0)) (.form (.ite (.var x0) .nil (.return_ (.const (.int 4)))) .nil))) s0)
    = some (.int 4, [.int 1, .int 2, .int 3]) := by decide +kernel
/-- Of two equal tags the later one is taken. -/
example : obs (eval G0 60 (.tagbody (.form (.go (.user 9)) (.tag (.user 9) (.form (pr (.const (.int 1))) (.tag (.user 9) (.form (pr (.const (.int 2))) .nil)))))) s0)
    = some (.nil, [.int 2]) := by decide +kernel

/-! ### C125 -/

/-- C125: `case` evaluates the key once, and then the body of the first clause whose key is eq to it, whose
list has a member eq to it, or which is t or otherwise; without such a clause the value is NIL. -/
theorem C125_case {k : Nat} {key : Tm} {l : List (Head × Tm)} (hf : ∀ c ∈ l, Fr (.gen k) c.2) {s : St} {r : Res} :
    Ev G (case_ k key l) s r ↔ ∃ rk, Ev G key s rk ∧ Then rk (fun v s r => Ev G
      (((l.find? fun c => match c.1 with | .otherwise_ => true | .atom u => v = u | .keys ks => v ∈ ks).map (·.2)).getD (.const .nil))
      s r) r := by
  rw [ev_case hf]
  have : ∀ v, chosen l v = ((l.find? fun c => match c.1 with | .otherwise_ => true | .atom u => v = u | .keys ks => v ∈ ks).map (·.2)).getD (.const .nil) := by
    intro v
    clear hf
    induction l with
    | nil => rfl
    | cons c l ih =>
      obtain ⟨h, b⟩ := c
      rw [chosen, List.find?_cons]
      cases h with
      | otherwise_ => simp [Head.matches]
      | atom u => by_cases hu : v = u <;> simp [Head.matches, hu, ih]
      | keys ks => by_cases hu : v ∈ ks <;> simp [Head.matches, hu, ih]
  simp only [this]

def caseEx : List (Head × Tm) := [(.atom (.int 1), .const (.int 10)), (.keys [.int 2, .int 3], .const (.int 20)), (.otherwise_, .const (.int 30))]
example : obs (eval G0 60 (case_ 5 (pr (.const (.int 3))) caseEx) s0) = some (.int 20, [.int 3]) := by decide +kernel
example : obs (eval G0 60 (case_ 5 (.const (.int 4)) caseEx) s0) = some (.int 30, []) := by decide +kernel
example : ∀ c ∈ caseEx, Fr (.gen 5) c.2 := by simp [caseEx, Fr]

/-! ### C126 -/

/-- C126: `setf` of `(c..r e)` with one to four letters: e is evaluated, then the new value, each once; then the field that the
accessor reads, in the cell reached before the new value was evaluated, gets the new value, which is
returned; nothing else in the heap changes. -/
theorem C126_setf {x : AD} {l : List AD} (hl : l.length < 4) (e y : Tm) : ∃ t, setfCxr (x :: l) e y = some t ∧ ∀ s r,
    Ev G t s r ↔ ∃ re, Ev G e s re ∧ Then re (fun u s1 r => match walk s1.w l u with
      | none => r = .exit .nil s1
      | some c => ∃ ry, Ev G y s1 ry ∧ Then ry (fun v s2 r => r = match c with
          | .cell a => .val v { s2 with w := s2.w.put x a v }
          | _ => .exit .nil s2) r) r := by
  refine ⟨.call2 x.put (cxr l e) y, ?_, fun s r => ?_⟩
  · have key : setfTable.lookup (x :: l) = some (x.put, l) := by
      match l, hl with
      | [], _ => cases x <;> rfl
      | [a], _ => cases x <;> cases a <;> rfl
      | [a, b], _ => cases x <;> cases a <;> cases b <;> rfl
      | [a, b, c], _ => cases x <;> cases a <;> cases b <;> cases c <;> rfl
      | _ :: _ :: _ :: _ :: _, h => simp only [List.length_cons] at h; omega
    rw [setfCxr, key]; rfl
  · rw [ev_call2]
    have hput : ∀ (c v : V) (s2 : St), ((x.put.run c v s2.w).elim (.exit .nil s2) fun q => .val q.1 { s2 with w := q.2 }) =
        (match c with | .cell a => .val v { s2 with w := s2.w.put x a v } | _ => .exit .nil s2 : Res) := by
      intro c v s2
      cases x <;> cases c <;> rfl
    simp only [hput, ev_cxr l]
    constructor
    · rintro ⟨ra, ⟨re, h1, h2⟩, h3⟩
      refine ⟨re, h1, ?_⟩
      cases re with
      | val u s1 =>
        simp only [Then] at h2 ⊢
        subst h2
        cases hw : walk s1.w l u with
        | none => rw [hw] at h3; exact h3
        | some c => rw [hw] at h3; exact h3
      | timeout => exact absurd rfl h1.1
      | ret => simp only [Then] at h2 ⊢; subst h2; exact h3
      | go => simp only [Then] at h2 ⊢; subst h2; exact h3
      | exit => simp only [Then] at h2 ⊢; subst h2; exact h3
    · rintro ⟨re, h1, h2⟩
      cases re with
      | val u s1 =>
        simp only [Then] at h2
        refine ⟨_, ⟨_, h1, rfl⟩, ?_⟩
        cases hw : walk s1.w l u with
        | none => rw [hw] at h2; exact h2
        | some c => rw [hw] at h2; exact h2
      | timeout => exact absurd rfl h1.1
      | ret => exact ⟨_, ⟨_, h1, rfl⟩, h2⟩
      | go => exact ⟨_, ⟨_, h1, rfl⟩, h2⟩
      | exit => exact ⟨_, ⟨_, h1, rfl⟩, h2⟩

/-- The way along `l` reads the field `x` of the cell `a`. -/
def Passes (w : World) (x : AD) (a : Nat) : List AD → V → Prop
  | [], _ => False
  | d :: l, u => Passes w x a l u ∨ (d = x ∧ walk w l u = some (.cell a))

theorem walk_put {w : World} {x : AD} {a : Nat} {v : V} : ∀ {l : List AD} {u : V}, ¬ Passes w x a l u →
    walk (w.put x a v) l u = walk w l u
  | [], _, _ => rfl
  | d :: l, u, h => by
    simp only [Passes, not_or, not_and] at h
    simp only [walk, walk_put h.1]
    cases hw : walk w l u with
    | none => rfl
    | some c =>
      cases c with
      | cell b =>
        have h2 := h.2
        rw [hw] at h2
        simp only [Option.some.injEq, V.cell.injEq] at h2 ⊢
        cases d <;> cases x <;> simp [World.put] <;> intro hb <;> exact absurd hb (by simpa using h2)
      | _ => rfl

/-- C126: the accessor then reads the new value, if the way to the cell does not itself pass the changed field. -/
theorem C126_read_back {w : World} {x : AD} {l : List AD} {u v : V} {a : Nat} (h : walk w l u = some (.cell a))
    (hp : ¬ Passes w x a l u) : walk (w.put x a v) (x :: l) u = some v := by
  simp only [walk, walk_put hp, h]
  cases x <;> simp [World.put]

/-- C126: every field of every cell other than the one assigned is as before. -/
theorem C126_only (w : World) (x : AD) (a : Nat) (v : V) (d : AD) (b : Nat) (h : d ≠ x ∨ b ≠ a) :
    walk (w.put x a v) [d] (.cell b) = walk w [d] (.cell b) := by
  refine walk_put ?_
  simp only [Passes, walk, Option.some.injEq, V.cell.injEq, false_or, not_and]
  rintro rfl hb
  rcases h with h | h
  · exact h rfl
  · exact h hb

/-- C126, where `push` fails: the subforms of a place are evaluated twice.  Here e prints once, (push 1 (car e)) prints twice. -/
theorem C126_push_twice_wrong : ∃ (e : Tm) (s : St) (t : Tm), pushCxr (.const (.int 1)) [.a] e = some t ∧
    obs (eval G0 10 e s) = some (.cell 0, [.int 7]) ∧
    (obs (eval G0 10 t s)).map (·.2) = some [.int 7, .int 7] :=
  ⟨.progn (pr (.const (.int 7))) (.var x0), s0, _, rfl, by decide +kernel, by decide +kernel⟩

/-- C126, the same for `incf` and, three times, for `pop`. -/
theorem C126_incf_pop_wrong : ∃ (e : Tm) (s : St) (t t' : Tm), incfCxr [.a] e = some t ∧ popCxr 5 [.d] e = some t' ∧
    (obs (eval G0 20 t s)).map (·.2) = some [.int 7, .int 7] ∧
    (obs (eval G0 20 t' s)).map (·.2) = some [.int 7, .int 7, .int 7] :=
  ⟨.progn (pr (.const (.int 7))) (.var x0), s0, _, _, rfl, rfl, by decide +kernel, by decide +kernel⟩

example : ∃ t, setfCxr [.a, .d] (.var x0) (.const (.int 5)) = some t ∧
    obs (eval G0 20 (.progn t (cxr [.a, .d] (.var x0))) s0) = some (.int 5, []) := ⟨_, rfl, by decide +kernel⟩
example : walk w0 [.d] (.cell 0) = some (.cell 1) ∧ ¬ Passes w0 .a 1 [.d] (.cell 0) := by
  refine ⟨rfl, ?_⟩
  rintro (h | ⟨h, _⟩)
  · exact h
  · cases h
/-- A circular list: the way passes the field. -/
example : ∃ w : World, walk w [.d] (.cell 0) = some (.cell 0) ∧ walk (w.put .d 0 .nil) [.d, .d] (.cell 0) = some .nil ∧
    walk (w.put .d 0 (.int 3)) [.d, .d] (.cell 0) = none := ⟨⟨fun _ => .nil, fun _ => .cell 0, 1, []⟩, rfl, rfl, rfl⟩

end Eus.Mac
