import Verif.Trc.Quiet
/-!
# C193: tracing and timing leave a program alone

The theorems, each with a case that meets its hypotheses.
-/

namespace Eus.Trc

variable {V : Type}

/-- **C193.** A session of commands given with care does what the
specification says: the same answers, the same trace output, the same counts,
the same global variables; and it ends if and only if the specification does.
Missing: sessions in which a command is not given with care; the theorems
below whose names end in `_wrong` show that for those the claim is false. -/
theorem C193_session_partial (P : Prim V) (F : Sym → Option (UDef V))
    (cs : List (Cmd V)) (hc : Spec.Careful (Spec.start F) cs)
    (s s' : St V) (as : List (Ans V)) :
    (∃ n t, run P n (fresh F) s cs = some (t, s', as)) ↔
      ∃ n w, Spec.run P n (Spec.start F) s cs = some (w, s', as) := by
  constructor
  · rintro ⟨n, t, h⟩
    obtain ⟨w, h1, _⟩ := spec_of_run P n cs _ _ s (fresh_rel F) hc _ _ _ h n
      (Nat.le_refl n)
    exact ⟨n, w, h1⟩
  · rintro ⟨n, w, h⟩
    obtain ⟨t, h1, _⟩ := run_of_spec P n cs _ _ s (fresh_rel F) hc _ _ _ h
      (3 * n) (Nat.le_refl _)
    exact ⟨3 * n, t, h1⟩

/-- **C193.** Tracing and timing with care change no result: the evaluations of
a session end as they do in the session without `trace`, `untrace`, `time` and
`untime`, with the same global variables, and the one session ends if and only
if the other does. -/
theorem C193_transparent_partial (P : Prim V) (F : Sym → Option (UDef V))
    (cs : List (Cmd V)) (hc : Spec.Careful (Spec.start F) cs) (s : St V)
    (rs : List (Res V)) (g : Nat → V) :
    (∃ n t s' as, run P n (fresh F) s cs = some (t, s', as) ∧
      Spec.results as = rs ∧ s'.glob = g) ↔
    (∃ n t s' as, run P n (fresh F) s (Spec.bare cs) = some (t, s', as) ∧
      Spec.results as = rs ∧ s'.glob = g) := by
  have hb := (careful_bare cs (Spec.start F) (fun _ => rfl) (fun _ => rfl)).1
  constructor
  · rintro ⟨n, t, s', as, h, rfl, rfl⟩
    obtain ⟨w, h1, _⟩ := spec_of_run P n cs _ _ s (fresh_rel F) hc _ _ _ h n
      (Nat.le_refl n)
    obtain ⟨w0, s0, as0, h2, h3, h4, _⟩ :=
      (bare_run P n cs (Spec.start F) s s rfl).1 _ _ _ h1
    obtain ⟨t0, h5, _⟩ := run_of_spec P n _ _ _ s (fresh_rel F) hb _ _ _ h2
      (3 * n) (Nat.le_refl _)
    exact ⟨_, t0, s0, as0, h5, h3, h4⟩
  · rintro ⟨n, t, s', as, h, rfl, rfl⟩
    obtain ⟨w, h1, _⟩ := spec_of_run P n _ _ _ s (fresh_rel F) hb _ _ _ h n
      (Nat.le_refl n)
    obtain ⟨w0, s0, as0, h2, h3, h4, _⟩ :=
      (bare_run P n cs (Spec.start F) s s rfl).2 _ _ _ h1
    obtain ⟨t0, h5, _⟩ := run_of_spec P n _ _ _ s (fresh_rel F) hc _ _ _ h2
      (3 * n) (Nat.le_refl _)
    exact ⟨_, t0, s0, as0, h5, h3.symm, h4.symm⟩

/-- **C193.** When at the end of a session given with care nothing is traced
or timed, every function cell holds what the user put there: the cells are
those of the session without `trace`, `untrace`, `time` and `untime`. -/
theorem C193_restored_partial (P : Prim V) (F : Sym → Option (UDef V))
    (cs : List (Cmd V)) (hc : Spec.Careful (Spec.start F) cs) (s : St V)
    (hT : ∀ f, (Spec.final (Spec.start F) cs).T f = false)
    (hM : ∀ f, (Spec.final (Spec.start F) cs).M f = false)
    (n : Nat) (t : Tab V) (s' : St V) (as : List (Ans V))
    (h : run P n (fresh F) s cs = some (t, s', as)) :
    ∃ m t0 s0 as0, run P m (fresh F) s (Spec.bare cs) = some (t0, s0, as0) ∧
      t.fn = t0.fn ∧ ∀ f d, t.fn f = some d → ∃ u, d = .user u := by
  obtain ⟨hb1, hb2, hb3⟩ :=
    careful_bare cs (Spec.start F) (fun _ => rfl) (fun _ => rfl)
  obtain ⟨w, h1, R⟩ := spec_of_run P n cs _ _ s (fresh_rel F) hc _ _ _ h n
    (Nat.le_refl n)
  obtain ⟨w0, s0, as0, h2, h3, h4, hF⟩ :=
    (bare_run P n cs (Spec.start F) s s rfl).1 _ _ _ h1
  obtain ⟨t0, h5, R0⟩ := run_of_spec P n _ _ _ s (fresh_rel F) hb1 _ _ _ h2
    (3 * n) (Nat.le_refl _)
  have e1 := run_final P n cs _ _ _ _ _ h1
  have e2 := run_final P n _ _ _ _ _ _ h2
  refine ⟨_, t0, s0, as0, h5, ?_, ?_⟩
  · funext f
    rw [R.plain f (by rw [e1]; exact hT f) (by rw [e1]; exact hM f),
      R0.plain f (by rw [e2]; exact hb2 f) (by rw [e2]; exact hb3 f), hF]
  · intro f d hd
    rw [R.plain f (by rw [e1]; exact hT f) (by rw [e1]; exact hM f)] at hd
    cases hw : w.F f with
    | none => rw [hw] at hd; cases hd
    | some u => rw [hw] at hd; exact ⟨u, (Option.some.inj hd).symm⟩

/-- **C193.** `untrace` with no names ends all tracing. -/
theorem C193_untrace_all (t : Tab V) (f : Sym) :
    f ∉ (untrace t t.traced).traced := by
  have key : ∀ (fs : List Sym) (t : Tab V),
      (∀ g, g ∈ (untrace t fs).traced ↔ g ∈ t.traced ∧ g ∉ fs) := by
    intro fs
    induction fs with
    | nil => intro t g; simp [untrace]
    | cons a fs ih =>
      intro t g
      have h := ih (untraceStep t a) g
      have h2 : g ∈ (untraceStep t a).traced ↔ g ∈ t.traced ∧ g ≠ a := by
        unfold untraceStep
        split
        · simp
        · rename_i hn
          constructor
          · intro hg; exact ⟨hg, by rintro rfl; exact hn hg⟩
          · exact fun hg => hg.1
      show g ∈ (untrace (untraceStep t a) fs).traced ↔ _
      rw [h, h2]
      simp only [List.mem_cons, not_or]
      constructor
      · rintro ⟨⟨a1, a2⟩, a3⟩; exact ⟨a1, a2, a3⟩
      · rintro ⟨a1, a2, a3⟩; exact ⟨⟨a1, a2⟩, a3⟩
  intro h
  exact ((key _ _ _).1 h).2 ((key _ _ _).1 h).1

/-- **C193, what goes wrong.** Tracing a macro or special form and untracing
it destroys its definition: the function cell is left with `nil`, and every
use of the macro is an error. -/
theorem C193_macro_wrong (P : Prim V) (F : Sym → Option (UDef V)) (f : Sym)
    (sp : Bool) (body : Expr V) (hf : F f = some (.mac sp body)) (s : St V)
    (es : List (Expr V)) (n : Nat) :
    run P (n + 1) (fresh F) s
        [.trace [f], .untrace [f], .eval (.call f es)] =
      some ({ fresh F with fn := upd (fresh F).fn f (some .nil) }, s,
        [.done, .done, .result .err]) := by
  have h1 : traceStep (fresh F) f = { fresh F with traced := [f] } := by
    simp [traceStep, fresh, hf, trace1, functionp]
  have h2 : untraceStep { fresh F with traced := [f] } f =
      { fresh F with fn := upd (fresh F).fn f (some .nil) } := by
    simp [untraceStep, fresh]
  simp only [run, step, trace, untrace, List.foldl, List.isEmpty,
    Bool.false_eq_true, if_false, h1, h2, eval, upd_self]

/-- **C193, what goes wrong.** A function that is redefined while it is traced
gets its old definition back when it is untraced. -/
theorem C193_redefine_wrong (P : Prim V) (F : Sym → Option (UDef V)) (f : Sym)
    (old new : UDef V) (hf : F f = some old) (hfun : old.isFun = true)
    (s : St V) (n : Nat) :
    ∃ t, run P n (fresh F) s [.trace [f], .defun f new, .untrace [f]] =
        some (t, s, [.done, .done, .done]) ∧
      t.fn f = some (.user old) := by
  refine ⟨_, rfl, ?_⟩
  have hp : functionp (.user old) = true := by rw [functionp_user]; exact hfun
  simp [trace, untrace, traceStep, untraceStep, trace1, fresh, hf, hp, upd]

/-- **C193, what goes wrong.** A function cannot be timed a second time: after
`untime` the command `time` gives the old report and counts nothing more. -/
theorem C193_again_wrong (P : Prim V) (F : Sym → Option (UDef V)) (f : Sym)
    (k : Nat) (hf : F f = some (.code k)) (s : St V) (n : Nat) :
    (run P (n + 3) (fresh F) s
        [.time f, .eval (.call f []), .untime f, .time f,
         .eval (.call f []), .time f]).map (fun x => x.2.2) =
      some [.timing, .result (.val (P.op k [])), .done, .report 1,
        .result (.val (P.op k [])), .report 1] := by
  simp [run, step, time, untime, fresh, hf, macroFunction, eval, evalArgs,
    apply, upd]

/-- **C193, what goes wrong.** `untime` given again, when nothing is timed,
brings back an old definition. -/
theorem C193_untime_wrong (P : Prim V) (F : Sym → Option (UDef V)) (f : Sym)
    (old new : UDef V) (hf : F f = some old) (hfun : old.isFun = true)
    (s : St V) (n : Nat) :
    (run P n (fresh F) s
        [.time f, .untime f, .defun f new, .untime f]).map (fun x => x.1.fn f) =
      some (some (.user old)) := by
  have hm : macroFunction (.user old) = false := by
    cases old with
    | mac _ _ => cases hfun
    | _ => rfl
  simp [run, step, time, untime, fresh, hf, hm, upd]

/-- **C193, what goes wrong.** A special form that is timed is an error to use:
`time` takes it for a function. -/
theorem C193_special_wrong (P : Prim V) (F : Sym → Option (UDef V)) (f : Sym)
    (body : Expr V) (hf : F f = some (.mac true body)) (s : St V) (n : Nat) :
    (run P (n + 3) (fresh F) s [.time f, .eval (.call f [])]).map
        (fun x => x.2.2) =
      some [.timing, .result .err] := by
  simp [run, step, time, fresh, hf, macroFunction, eval, evalArgs, apply, upd]

/-- **C193, what goes wrong.** A function that is traced, timed, untraced,
untimed and traced again never returns: its tracer calls itself. -/
theorem C193_loop_wrong (P : Prim V) (F : Sym → Option (UDef V)) (f : Sym)
    (d : UDef V) (hf : F f = some d) (hfun : d.isFun = true) (s : St V)
    (n : Nat) :
    run P n (fresh F) s
        [.trace [f], .time f, .untrace [f], .untime f, .trace [f],
         .eval (.call f [])] = none := by
  have hp : functionp (.user d) = true := by rw [functionp_user]; exact hfun
  have hend : ∀ (t : Tab V) (s' : St V), t.fn f = some (.tracer f) →
      t.tprop f = some (.tracer f) →
      step P n t s' (.eval (.call f [])) = none := by
    intro t s' h1 h2
    have : (eval P t n 0 [] (.call f []) s').1 = .out := by
      cases n with
      | zero => simp only [eval]
      | succ n =>
        rw [eval_call P h1 (by intro _ _ h; cases h) (by intro h; cases h)]
        cases n with
        | zero => simp only [evalArgs]
        | succ n =>
          simp only [evalArgs]
          exact loop_out P h2 _ _ _ _
    revert this
    simp only [step]
    generalize eval P t n 0 [] (.call f []) s' = q
    obtain ⟨r, s2⟩ := q
    intro h
    simp only at h
    subst h
    rfl
  have hp2 : functionp (.tracer f : Def V) = true := rfl
  have e1 : ∀ t s', step P n t s' (.trace [f]) = some (traceStep t f, s', .done) :=
    fun _ _ => rfl
  have e2 : ∀ t s', step P n t s' (.time f) = some (time t s' f) :=
    fun _ _ => rfl
  have e3 : ∀ t s', step P n t s' (.untrace [f]) =
      some (untraceStep t f, s', .done) := fun _ _ => rfl
  have e4 : ∀ t s', step P n t s' (.untime f) = some (untime t f, s', .done) :=
    fun _ _ => rfl
  generalize hlast : (Cmd.eval (V := V) (.call f [])) = last at hend ⊢
  have h1 : traceStep (fresh F) f =
      { fresh F with tprop := upd (fresh F).tprop f (some (.user d)),
                     fn := upd (fresh F).fn f (some (.tracer f)),
                     traced := [f] } := by
    simp [traceStep, trace1, fresh, hf, hp]
  simp only [run, e1, h1, e2]
  simp only [time, fresh, upd_self, macroFunction, Bool.false_eq_true, if_false,
    e3, untraceStep, List.mem_singleton, if_true, Option.getD_some, e4, untime]
  rw [hend]
  · simp [traceStep, trace1, upd_self, hp2]
  · simp [traceStep, trace1, upd_self, hp2]

/-! A concrete session: 0 is a function that counts down its argument by
calling itself, 1 is subtraction of one, 2 a macro, 3 a function that
throws. -/

/-- Numbers; primitive 0 subtracts one. -/
def demoP : Prim Int :=
  { nil := 0, op := fun _ vs => vs.getD 0 0 - 1, isTrue := fun v => v ≠ 0 }

/-- The definitions. -/
def demoF : Sym → Option (UDef Int)
  | 0 => some (.lam (.ife (.arg 0) (.call 0 [.call 1 [.arg 0]]) (.lit 7)))
  | 1 => some (.code 0)
  | 2 => some (.mac false (.lit 5))
  | 3 => some (.lam (.throwing 9 (.call 0 [.lit 1])))
  | _ => none

/-- The state at the start. -/
def demoS : St Int := { glob := fun _ => 0, log := [], cnt := fun _ => 0 }

/-- The commands. -/
def demoC : List (Cmd Int) :=
  [.trace [0, 3, 8], .time 1, .time 2, .eval (.call 0 [.lit 1]),
   .eval (.catching 9 (.call 3 [])), .time 1, .defun 2 (.mac false (.lit 6)),
   .untrace [], .untime 1, .eval (.call 2 [])]

theorem demo_careful : Spec.Careful (Spec.start demoF) demoC := by
  simp [Spec.Careful, demoC, Spec.OkCmd, Spec.after, Spec.start, demoF,
    Spec.World.isFun, UDef.isFun, Spec.put]

/-- The session ends, with these answers and this output. -/
theorem demo_run :
    (run demoP 30 (fresh demoF) demoS demoC).map
        (fun x => (x.2.1.log.reverse, x.2.2)) =
      some ([.enter 1 0 [1], .enter 2 0 [0], .leave 2 0 7, .leave 1 0 7,
             .enter 1 3 [], .enter 2 0 [1], .enter 3 0 [0], .leave 3 0 7,
             .leave 2 0 7],
            [.done, .timing, .refused, .result (.val 7), .result (.val 7),
             .report 2, .done, .done, .done, .result (.val 6)]) := by
  decide +kernel

example : Spec.Careful (Spec.start demoF) demoC ∧
    (∃ n t s' as, run demoP n (fresh demoF) demoS demoC = some (t, s', as)) ∧
    (∀ f, (Spec.final (Spec.start demoF) demoC).T f = false) ∧
    (∀ f, (Spec.final (Spec.start demoF) demoC).M f = false) := by
  refine ⟨demo_careful, ?_, ?_, ?_⟩
  · have h := demo_run
    cases hr : run demoP 30 (fresh demoF) demoS demoC with
    | none => rw [hr] at h; cases h
    | some x => exact ⟨30, x.1, x.2.1, x.2.2, hr⟩
  · intro f
    simp [Spec.final, demoC, Spec.after]
  · intro f
    simp [Spec.final, demoC, Spec.after, Spec.start, demoF, Spec.World.isFun,
      UDef.isFun, Spec.put]

example : (0 : Sym) ∈ (trace (fresh demoF) [0, 3]).traced := by
  decide +kernel

example : demoF 2 = some (.mac false (.lit 5)) ∧ demoF 1 = some (.code 0) ∧
    (UDef.code 0 : UDef Int).isFun = true := ⟨rfl, rfl, rfl⟩

end Eus.Trc
