import Verif.Cex.Form
import Verif.Ctl.Props
set_option autoImplicit false
/-
C178, C179.
-/
namespace Eus.Cex
open Eus.Ctl (Val nil Tm Prog mean Env St Exit Clean Marked Balanced seenRef a num)

/-! ### C178 -/

/-- C178 (partial: for programs in which every `return-from` and `go` is inside its block or `tagbody`, with different tags, in the same function or cleanup form, not leaving a `catch` that
lies on the stack just where the block begins; cleanup forms end with a value and use only special variables they bind themselves; no 0.0).  If compiled code ends with a value, then that is the
value the forms mean, with the same special variables and printing, and no frame is left behind; if it ends in an unhandled error, so do the forms; it never jumps to a label or frame out of
force, overwrites a frame in force, or fails to compile. -/
theorem C178_refines_partial (P : Prog) (quiet : Nat → Bool) (HP : FitProg P quiet) (t : Tm) (ht : Fit quiet [⟨0, false, false⟩] t = true) (spec : Nat → Val) (hc : Clean spec) (n : Nat) :
    (∀ v c, crun P n t spec = .val v c → c.sbindfp = [] ∧ c.catchfp = [] ∧ c.protfp = [] ∧
      ∃ N, ∀ m, N ≤ m → mean P m (.block 0 t) Env.top ⟨spec, []⟩ = (.val v, ⟨c.spec, c.out⟩)) ∧
    (∀ c, crun P n t spec = .fail c → ∃ N s, s.out = c.out ∧ ∀ m, N ≤ m → mean P m (.block 0 t) Env.top ⟨spec, []⟩ = (.fail, s)) ∧
    (∀ l v c, crun P n t spec ≠ .goto l v c) ∧ (∀ p v c, crun P n t spec ≠ .jump p v c) ∧ crun P n t spec ≠ .nocode ∧ crun P n t spec ≠ .ub := by
  have g := (cev_ok HP n).apply (t := .block 0 t) ht (inv_start quiet id spec hc)
  refine ⟨fun v c h => ?_, fun c h => ?_, fun l v c h => ?_, fun p v c h => ?_, fun h => ?_, fun h => ?_⟩ <;> unfold crun at h <;> rw [h] at g
  · exact ⟨g.2.2.1.sb, g.2.2.1.ca, g.2.2.1.pr, g.2.2.2⟩
  · obtain ⟨s, ⟨N, h1⟩, h2⟩ := g; exact ⟨N, s, h2, h1⟩
  · obtain ⟨i, nm, k, d, h1, _⟩ := g; simp at h1
  · obtain ⟨tag, d, h1, _⟩ := g; cases h1
  · exact g
  · exact g

/-- What a user sees: the value, and what was printed. -/
def seen : Res → Option (Val × List Val)
  | .val v c => some (v, c.out.reverse)
  | _ => none

/-- Function 1 throws through its caller's binding; function 2 is the error handler, which throws to tag `a`; function 3 returns from inside a `catch`, after a binding; function 4 is quiet. -/
def demo : Prog := ⟨fun f => if f = 1 then .lett 7 (num 5) (.throw_ a (.var 7)) else if f = 2 then .throw_ a (num 9)
  else if f = 3 then .lett 7 (num 6) (.catch_ a (.retfrom 3 (.var 7))) else if f = 4 then .lett 7 (num 8) (.print (.var 7)) else num 0, some 2⟩

/-- (let ((x 1)) (print (catch 'a (unwind-protect (let ((x 2)) (f1)) (f4)))) (print (catch 'a (error))) (print (f3)) (print (block b (while t (unwind-protect (return-from b x) (print 4)))))
  (tagbody 5 (print x) (if x (progn (setq x nil) (let ((y 0)) (go 5)))) (catch 'a (let ((y 0)) (catch 'c (return 3)))))) -/
def demoTm : Tm := .lett 7 (num 1) (.progn (.print (.catch_ a (.protect (.lett 7 (num 2) (.call 1)) (.call 4))))
  (.progn (.print (.catch_ a .error_)) (.progn (.print (.call 3)) (.progn (.print (.block 4 (.while_ (num 1) (.protect (.retfrom 4 (.var 7)) (.print (num 4))))))
    (.tagbody_ (.label 5 (.progn (.print (.var 7)) (.progn (.ite (.var 7) (.progn (.setq 7 (.const nil)) (.lett 8 (num 0) (.go 5))) (.const nil))
      (.catch_ a (.lett 8 (num 0) (.catch_ a (.retfrom 0 (num 3))))))))))))) 

theorem demo_fit : FitProg demo (fun f => f == 4) := by
  refine ⟨fun f => ?_, fun f hf => ?_⟩
  · unfold demo
    dsimp only
    split
    · rfl
    split
    · rfl
    split
    · subst f; rfl
    split <;> rfl
  · simp only [beq_iff_eq] at hf
    subst hf; rfl

example : FitProg demo (fun f => f == 4) ∧ Fit (fun f => f == 4) [⟨0, false, false⟩] demoTm = true ∧ Clean (fun _ => nil) ∧
    seen (crun demo 40 demoTm fun _ => nil) = some (.int 3, [.int 8, .int 5, .int 9, .int 6, .int 4, .int 1, .int 1, nil]) :=
  ⟨demo_fit, rfl, fun _ => (by simp [nil]), by decide +kernel⟩

/-- C178: compiled and interpreted code agree (for the programs of both this theorem and `C48_refines_partial`): the values, the special variables and the printing are the same. -/
theorem C178_interpreter_partial (P : Prog) (quiet pure : Nat → Bool) (HP : FitProg P quiet) (HS : P.Scoped) (HT : P.Tame pure) (t : Tm) (ht : Fit quiet [⟨0, false, false⟩] t = true)
    (hs : Ctl.Scoped [⟨0, false, false⟩] t = true) (hm : Ctl.Tame pure none t = true) (spec : Nat → Val) (hc : Clean spec) (n m : Nat) (v w : Val) (c : Ctx) (d : Ctl.Ctx)
    (h : crun P n t spec = .val v c) (k : Ctl.eval P m (.block 0 t) (Ctl.start spec) = .val w d) : v = w ∧ c.spec = d.spec ∧ c.out = d.out := by
  obtain ⟨_, _, _, N, hN⟩ := (C178_refines_partial P quiet HP t ht spec hc n).1 v c h
  obtain ⟨K, hK⟩ := (Ctl.C48_refines_partial P pure HS HT (.block 0 t) hs hm spec hc m).1 w d k
  have e := (hN (max N K) (by omega)).symm.trans (hK (max N K) (by omega))
  simp only [Prod.mk.injEq, Exit.val.injEq, St.mk.injEq] at e
  exact e

/-- Functions 1 and 2 as above. -/
def demo1 : Prog := ⟨fun f => if f = 1 then .lett 7 (num 5) (.throw_ a (.var 7)) else if f = 2 then .throw_ a (num 9) else num 0, some 2⟩

/-- (progn (print (catch 'a (unwind-protect (let ((x 2)) (f1)) (print 3)))) (let ((x 3)) (catch 'a (return x)))) -/
def demoTm1 : Tm := .progn (.print (.catch_ a (.protect (.lett 7 (num 2) (.call 1)) (.print (num 3))))) (.lett 7 (num 3) (.catch_ a (.retfrom 0 (.var 7))))

theorem demo1_fit : FitProg demo1 (fun _ => false) := by
  refine ⟨fun f => ?_, fun f hf => by cases hf⟩
  unfold demo1
  dsimp only
  split
  · rfl
  split <;> rfl

example : FitProg demo1 (fun _ => false) ∧ demo1.Scoped ∧ demo1.Tame (fun f => f == 2) ∧ Fit (fun _ => false) [⟨0, false, false⟩] demoTm1 = true ∧
    Ctl.Scoped [⟨0, false, false⟩] demoTm1 = true ∧ Ctl.Tame (fun f => f == 2) none demoTm1 = true ∧
    seen (crun demo1 40 demoTm1 fun _ => nil) = some (.int 3, [.int 3, .int 5]) ∧
    Ctl.seen (Ctl.eval demo1 40 (.block 0 demoTm1) (Ctl.start fun _ => nil)) = some (.int 3, [.int 3, .int 5]) :=
  ⟨demo1_fit, Ctl.demo_scoped, Ctl.demo_tame, rfl, rfl, rfl, by decide +kernel, by decide +kernel⟩

/-- C178 fails for a return from a `catch` that begins where the block does: `(defun f () (catch 'a (return 1)))` (or `return-from f`).  The frame of the `catch` stays in force,
and the value is stored over it. -/
theorem C178_flush_wrong (P : Prog) (spec : Nat → Val) :
    let t : Tm := .catch_ a (.retfrom 0 (num 1))
    (∀ n, crun P (n + 6) t spec = .ub) ∧ seenRef (mean P 10 (.block 0 t) Env.top ⟨spec, []⟩) = some (.int 1, []) := ⟨fun _ => rfl, rfl⟩

/-- C178 fails for a `go` out of a `catch` that begins where the `tagbody` does: `(tagbody (catch 'a (go 1)) 1 (print 2))`.  The `catch` stays in force, and the operand of `print` is stored
over its frame. -/
theorem C178_go_wrong (P : Prog) (spec : Nat → Val) :
    let t : Tm := .tagbody_ (.progn (.catch_ a (.go 1)) (.label 1 (.print (num 2))))
    crun P 12 t spec = .ub ∧ seenRef (mean P 12 (.block 0 t) Env.top ⟨spec, []⟩) = some (nil, [.int 2]) := ⟨rfl, rfl⟩

/-- C178 fails for cleanup forms that use special variables, as in interpreted code (`C48_cleanup_specials_wrong`). -/
theorem C178_specials_wrong (P : Prog) (spec : Nat → Val) :
    let t : Tm := .lett 7 (num 1) (.catch_ a (.protect (.lett 7 (num 2) (.throw_ a (num 0))) (.print (.var 7))))
    seen (crun P 12 t spec) = some (.int 0, [.int 2]) ∧ seenRef (mean P 12 (.block 0 t) Env.top ⟨spec, []⟩) = some (.int 0, [.int 1]) := ⟨rfl, rfl⟩

/-- C178: a `return-from` in a cleanup form cannot be compiled: `(block 5 (unwind-protect 1 (return-from 5 2)))`. -/
theorem C178_closure_wrong (P : Prog) (spec : Nat → Val) :
    let t : Tm := .block 5 (.protect (num 1) (.retfrom 5 (num 2)))
    crun P 12 t spec = .nocode ∧ seenRef (mean P 12 (.block 0 t) Env.top ⟨spec, []⟩) = some (.int 2, []) := ⟨rfl, rfl⟩

/-! ### C179 -/

/-- C179 (partial: for the programs of `C178_refines_partial`).  Mark the entry of every `unwind-protect` and the start of its cleanup form by printing `i` and `-i`.  Then, if compiled code ends with
a value, what was printed is balanced: for every `unwind-protect` entered, the cleanup form ran exactly once, those entered later before those entered earlier. -/
theorem C179_once_partial (P : Prog) (quiet : Nat → Bool) (HP : FitProg P quiet) (HM : ∀ f, Marked (P.F f) = true) (t : Tm) (ht : Fit quiet [⟨0, false, false⟩] t = true)
    (hm : Marked t = true) (spec : Nat → Val) (hc : Clean spec) (n : Nat) (v : Val) (c : Ctx) (h : crun P n t spec = .val v c) : Balanced c.out.reverse := by
  obtain ⟨_, _, _, N, hN⟩ := (C178_refines_partial P quiet HP t ht spec hc n).1 v c h
  have g := Ctl.mean_bal HM N (.block 0 t) Env.top ⟨spec, []⟩ hm
  rw [hN N (le_refl _)] at g
  obtain ⟨w, g1, g2⟩ := g.1 v rfl
  dsimp only at g1
  rw [g1, List.append_nil, List.reverse_reverse]
  exact g2

/-- (catch 'a (unwind-protect (progn (print 1) (unwind-protect (progn (print 2) (f1)) (print -2) 0)) (print -1) nil)) -/
def demo2 : Tm := .catch_ a (.protect (.progn (.print (num 1)) (.protect (.progn (.print (num 2)) (.call 1)) (.progn (.print (num (-2))) (num 0))))
  (.progn (.print (num (-1))) (num 0)))

example : FitProg demo1 (fun _ => false) ∧ (∀ f, Marked (demo1.F f) = true) ∧ Fit (fun _ => false) [⟨0, false, false⟩] demo2 = true ∧ Marked demo2 = true ∧
    seen (crun demo1 20 demo2 fun _ => nil) = some (.int 5, [.int 1, .int 2, .int (-2), .int (-1)]) := by
  refine ⟨demo1_fit, fun f => ?_, rfl, rfl, by decide +kernel⟩
  unfold demo1
  dsimp only
  split
  · rfl
  · split <;> rfl

/-- C179 fails for a cleanup form left by an exit: it runs twice, because its frame is removed only after it ends.  `(catch 'a (unwind-protect 1 (print 7) (throw 'a 2)))` prints 7 twice;
interpreted, it prints 7 once. -/
theorem C179_twice_wrong (P : Prog) (spec : Nat → Val) :
    let t : Tm := .catch_ a (.protect (num 1) (.progn (.print (num 7)) (.throw_ a (num 2))))
    seen (crun P 12 t spec) = some (.int 2, [.int 7, .int 7]) ∧ seenRef (mean P 12 (.block 0 t) Env.top ⟨spec, []⟩) = some (.int 2, [.int 7]) ∧
    Ctl.seen (Ctl.eval P 12 (.block 0 t) (Ctl.start spec)) = some (.int 2, [.int 7]) := ⟨rfl, rfl, rfl⟩

/-- C179: when the cleanup form fails and the error handler throws, it runs twice as well. -/
theorem C179_error_wrong (spec : Nat → Val) :
    let t : Tm := .catch_ a (.protect (num 1) (.progn (.print (num 7)) .error_))
    seen (crun demo1 14 t spec) = some (.int 9, [.int 7, .int 7]) ∧ seenRef (mean demo1 14 (.block 0 t) Env.top ⟨spec, []⟩) = some (.int 9, [.int 7]) := ⟨rfl, rfl⟩

end Eus.Cex
