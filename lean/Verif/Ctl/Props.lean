import Verif.Ctl.Sim
import Verif.Ctl.Journal
import Verif.Ctl.Race
set_option autoImplicit false
/-
C48, C49, C88.
-/
namespace Eus.Ctl

/-! ### C48 -/

/-- C48, what an exit looks for (the reference semantics uses it): `return-from n` stops at a block
named `n` and at nothing else, `go t` at a `tagbody` that has the tag `t` and at nothing else. -/
theorem C48_target (n : Name) (k : Key) : n.hits k = true ↔
    (∃ b, n = .blk b ∧ k = .blk b) ∨ (∃ l t, n = .tags l ∧ k = .tag t ∧ t ∈ l) := by
  cases n <;> cases k <;> simp [Name.hits]
  exact eq_comm

example : (Name.tags [1, 2]).hits (.tag 2) = true ∧ (Name.tags [1, 2]).hits (.blk 2) = false := by decide

/-- C48 (partial: for programs in which every `return-from` and `go` is inside its block or `tagbody`, with different tags, in the same function or cleanup form, not leaving both a `catch` and an
`unwind-protect`; cleanup forms use only special variables they bind themselves; no 0.0).  If the machine ends with a value, then so does
the reference semantics, where `let` restores its variable on every exit and exit points are in force just inside their forms, with the
same value, special variables and printing; if it ends in an unhandled error, so does the reference; it never jumps to a frame
that is gone. -/
theorem C48_refines_partial (P : Prog) (pure : Nat → Bool) (HS : P.Scoped) (HT : P.Tame pure) (t : Tm) (hs : Scoped [] t = true)
    (ht : Tame pure none t = true) (spec : Nat → Val) (hc : Clean spec) (n : Nat) :
    (∀ v c, eval P n t (start spec) = .val v c → ∃ N, ∀ m, N ≤ m → mean P m t Env.top ⟨spec, []⟩ = (.val v, ⟨c.spec, c.out⟩)) ∧
    (∀ c, eval P n t (start spec) = .fail c → ∃ N s, s.out = c.out ∧ ∀ m, N ≤ m → mean P m t Env.top ⟨spec, []⟩ = (.fail, s)) ∧
    (∀ p v c, eval P n t (start spec) ≠ .jump p v c) ∧ eval P n t (start spec) ≠ .ub := by
  have i := inv_start pure spec hc id
  have g := eval_sim HS HT n t [] none Env.top id (start spec) hs ht i
  have gg := eval_good HS (X := noX) (fun x hx => hx.elim) n t [] (start spec) hs (fun x hx => hx.elim) i.sees i.wf
  refine ⟨fun v c h => ?_, fun c h => ?_, fun p v c h => ?_, fun h => ?_⟩
  · rw [h] at g; exact g.2.2
  · rw [h] at g
    rcases g with ⟨s, ⟨N, g1⟩, g2⟩ | ⟨d, u, s, g1, g2, g3⟩
    · exact ⟨N, s, g2, g1⟩
    · exact absurd g2 (by simp [Env.top])
  · rw [h] at g
    obtain ⟨d, u, s, d', g1, g2, g3⟩ := g
    exact absurd g2 (by simp [Env.top])
  · rw [h] at gg; exact gg

/-- C48 (partial: as above, but cleanup forms are free).  In any context with frames in order, whatever happens inside: when the form ends with a value, all chains of frames - so the
catch tags, blocks and bindings in force - and the stack pointer are as before, and special variables that no code assigns to have the
values they had; when it is left by an exit, that is to a frame in force, and the chains are those of that frame. -/
theorem C48_frames_partial (P : Prog) (HS : P.Scoped) (X : Nat → Prop) (hX : ∀ x, X x → ∀ f, sets x (P.F f) = false) (t : Tm) (bs : List BI) (c : Ctx)
    (hs : Scoped bs t = true) (hx : ∀ x, X x → sets x t = false) (hb : Sees bs c) (hw : WF X c) (n : Nat) :
    (∀ v c', eval P n t c = .val v c' → c'.catchfp = c.catchfp ∧ c'.blkfp = c.blkfp ∧ c'.sbindfp = c.sbindfp ∧ c'.protfp = c.protfp ∧ c'.vsp = c.vsp ∧
      ∀ x, X x → c'.spec x = c.spec x) ∧
    (∀ p v c', eval P n t c = .jump p v c' → ((∃ f ∈ c.catchfp, f.pos = p) ∨ p ∈ lexPos c.blkfp) ∧
      c'.catchfp = c.catchfp.dropWhile (fun f => decide (f.pos > p)) ∧ c'.blkfp = dropBlk p c.blkfp ∧
      c'.sbindfp = c.sbindfp.dropWhile (fun f => decide (p ≤ f.pos)) ∧ c'.protfp = c.protfp.dropWhile (fun f => decide (p ≤ f.pos)) ∧
      ∀ x, X x → c'.spec x = (unbindspecial p c.sbindfp c.spec).2 x) ∧
    eval P n t c ≠ .ub := by
  have g := eval_good HS hX n t bs c hs hx hb hw
  refine ⟨fun v c' h => ?_, fun p v c' h => ?_, fun h => ?_⟩
  · rw [h] at g; exact ⟨g.1.ct, g.1.bk, g.1.sb, g.1.pr, g.1.vsp, g.2⟩
  · rw [h] at g; exact ⟨g.1, g.2.1.ct, g.2.1.bk, g.2.1.sb, g.2.1.pr, g.2.2⟩
  · rw [h] at g; exact g

/-- What a user sees: the value, and what was printed. -/
def seen : Res → Option (Val × List Val)
  | .val v c => some (v, c.out.reverse)
  | _ => none

def seenRef : Exit × St → Option (Val × List Val)
  | (.val v, s) => some (v, s.out.reverse)
  | _ => none

/-- Symbols and numbers for the examples. -/
abbrev a : Tm := .const (.sym 1)
abbrev num (i : Int) : Tm := .const (.int i)

/-- Function 1 throws through its caller's binding; function 2 is the error handler, which throws to tag `a`. -/
def demo : Prog := ⟨fun f => if f = 1 then .lett 7 (num 5) (.throw_ a (.var 7)) else if f = 2 then .throw_ a (num 9) else num 0, some 2⟩

/-- (let ((x 1)) (print (catch 'a (unwind-protect (let ((x 2)) (f1)) (print 3)))) (print (catch 'a (error))) (print (block b (while t (return-from b x))))) -/
def demoTm : Tm := .lett 7 (num 1) (.progn (.print (.catch_ a (.protect (.lett 7 (num 2) (.call 1)) (.print (num 3)))))
  (.progn (.print (.catch_ a .error_)) (.print (.block 4 (.while_ (num 1) (.retfrom 4 (.var 7)))))))

theorem demo_scoped : demo.Scoped := by
  intro f
  unfold demo
  dsimp only
  split
  · rfl
  · split <;> rfl

theorem demo_tame : demo.Tame (fun f => f == 2) := by
  refine ⟨fun f => ?_, fun f hf => ?_, fun h hh => ?_⟩
  · unfold demo
    dsimp only
    split
    · rfl
    · split <;> rfl
  · simp only [beq_iff_eq] at hf
    subst hf; rfl
  · simp only [demo, Option.some.injEq] at hh
    subst hh; rfl

example : Scoped [] demoTm = true ∧ Tame (fun f => f == 2) none demoTm = true ∧ Clean (fun _ => nil) ∧
    seen (eval demo 30 demoTm (start fun _ => nil)) = some (.int 1, [.int 3, .int 5, .int 9, .int 1]) :=
  ⟨rfl, rfl, fun _ => (by simp [nil]), by decide +kernel⟩

example : (∀ x, x = 3 → ∀ f, sets x (demo.F f) = false) ∧ sets 3 demoTm = false ∧ Sees [] (start fun _ => nil) ∧ WF (fun x => x = 3) (start fun _ => nil) := by
  refine ⟨?_, rfl, fun n b hb => (by cases hb), ⟨by simp [start], by simp [start], by simp [start], by simp [start], by simp [start], by simp [start], trivial, by simp [start]⟩⟩
  rintro x rfl f
  unfold demo
  dsimp only
  split
  · rfl
  · split <;> rfl

/-- (let ((x 1)) (tagbody (print 0) 5 (print x) (tagbody 6 (if x (progn (setq x nil) (unwind-protect (go 5) (print 3))) (go 7)) 8 (print 4)) 9 (print 5) 7 (print 6))) -/
def demoTags : Tm := .lett 7 (num 1) (.tagbody_ (.progn (.print (num 0)) (.label 5 (.progn (.print (.var 7))
  (.progn (.tagbody_ (.label 6 (.progn (.ite (.var 7) (.progn (.setq 7 (.const nil)) (.protect (.go 5) (.print (num 3)))) (.go 7)) (.label 8 (.print (num 4))))))
    (.label 9 (.progn (.print (num 5)) (.label 7 (.print (num 6))))))))))

example : Scoped [] demoTags = true ∧ Tame (fun f => f == 2) none demoTags = true ∧
    seen (eval demo 40 demoTags (start fun _ => nil)) = some (nil, [.int 0, .int 1, .int 3, nil, .int 6]) :=
  ⟨rfl, rfl, by decide +kernel⟩

/-- C48 fails after a `go` without its tag, as after a `return-from` without its block. -/
theorem C48_notag_wrong (spec : Nat → Val) :
    let t : Tm := .catch_ a (.block 5 (.progn (.catch_ a (.tagbody_ (.label 1 (.go 2)))) (.retfrom 5 (num 1))))
    seen (eval demo 14 t (start spec)) = some (.int 9, []) ∧ seenRef (mean demo 14 t Env.top ⟨spec, []⟩) = some (.int 1, []) := ⟨rfl, rfl⟩

/-- C48 fails for cleanup forms that use special variables: run by a `throw`, they see the bindings made inside the form, which are in force no more.
`(let ((x 1)) (catch 'a (unwind-protect (let ((x 2)) (throw 'a 0)) (print x))))` prints 2; and what they assign is lost:
`(let ((x 1)) (catch 'a (unwind-protect (let ((x 2)) (throw 'a 0)) (setq x 3))) x)` is 1. -/
theorem C48_cleanup_specials_wrong (P : Prog) (spec : Nat → Val) :
    let t : Tm := .lett 7 (num 1) (.catch_ a (.protect (.lett 7 (num 2) (.throw_ a (num 0))) (.print (.var 7))))
    let u : Tm := .lett 7 (num 1) (.progn (.catch_ a (.protect (.lett 7 (num 2) (.throw_ a (num 0))) (.setq 7 (num 3)))) (.var 7))
    seen (eval P 10 t (start spec)) = some (.int 0, [.int 2]) ∧ seenRef (mean P 10 t Env.top ⟨spec, []⟩) = some (.int 0, [.int 1]) ∧
    seen (eval P 10 u (start spec)) = some (.int 1, []) ∧ seenRef (mean P 10 u Env.top ⟨spec, []⟩) = some (.int 3, []) :=
  ⟨rfl, rfl, rfl, rfl⟩

/-- C48 fails after a `return-from` without its block: when the error is handled by a throw, no blocks are visible any more.
`(catch 'a (block 5 (catch 'a (return-from 6 0)) (return-from 5 1)))` should be 1 and is the value thrown by the handler. -/
theorem C48_noblock_wrong (spec : Nat → Val) :
    let t : Tm := .catch_ a (.block 5 (.progn (.catch_ a (.retfrom 6 (num 0))) (.retfrom 5 (num 1))))
    seen (eval demo 12 t (start spec)) = some (.int 9, []) ∧ seenRef (mean demo 12 t Env.top ⟨spec, []⟩) = some (.int 1, []) := ⟨rfl, rfl⟩

/-- C48: `(catch 'a (throw 'a 0.0))` is the integer 0. -/
theorem C48_zero_wrong (P : Prog) (spec : Nat → Val) :
    let t : Tm := .catch_ a (.throw_ a (.const (.flt 0)))
    seen (eval P 5 t (start spec)) = some (.int 0, []) ∧ seenRef (mean P 5 t Env.top ⟨spec, []⟩) = some (.flt 0, []) := ⟨rfl, rfl⟩

/-! ### C49 -/

/-- C49 (partial: for the programs of `C48_refines_partial`).  Mark the entry of every `unwind-protect` and the start of its cleanup form by
printing `i` and `-i`.  Then, if the program ends with a value, what was printed is balanced: for every `unwind-protect` entered, the cleanup
form ran exactly once, those entered later before those entered earlier. -/
theorem C49_once_partial (P : Prog) (pure : Nat → Bool) (HS : P.Scoped) (HT : P.Tame pure) (HM : ∀ f, Marked (P.F f) = true) (t : Tm)
    (hs : Scoped [] t = true) (ht : Tame pure none t = true) (hm : Marked t = true) (spec : Nat → Val) (hc : Clean spec) (n : Nat) (v : Val) (c : Ctx)
    (h : eval P n t (start spec) = .val v c) : Balanced c.out.reverse := by
  obtain ⟨N, hN⟩ := (C48_refines_partial P pure HS HT t hs ht spec hc n).1 v c h
  have g := mean_bal HM N t Env.top ⟨spec, []⟩ hm
  rw [hN N (le_refl _)] at g
  obtain ⟨w, g1, g2⟩ := g.1 v rfl
  dsimp only at g1
  rw [g1, List.append_nil, List.reverse_reverse]
  exact g2

/-- (catch 'a (unwind-protect (progn (print 1) (unwind-protect (progn (print 2) (f1)) (print -2) (throw 'a 4))) (print -1) nil)) -/
def demo2 : Tm := .catch_ a (.protect (.progn (.print (num 1)) (.protect (.progn (.print (num 2)) (.call 1)) (.progn (.print (num (-2))) (.throw_ a (num 4)))))
  (.progn (.print (num (-1))) (num 0)))

example : (∀ f, Marked (demo.F f) = true) ∧ Scoped [] demo2 = true ∧ Tame (fun f => f == 2) none demo2 = true ∧ Marked demo2 = true ∧
    seen (eval demo 20 demo2 (start fun _ => nil)) = some (.int 4, [.int 1, .int 2, .int (-2), .int (-1)]) := by
  refine ⟨fun f => ?_, rfl, rfl, rfl, by decide +kernel⟩
  unfold demo
  dsimp only
  split
  · rfl
  · split <;> rfl

/-- C49 fails for a `return-from` that leaves an `unwind-protect` and a `catch` inside it: the cleanup form runs while the `catch` is
still in force; thrown to, it carries on with the form left, and the cleanup form runs again.  In
`(block 5 (unwind-protect (catch 'a (return-from 5 1)) (print 2) (if x (progn (setq x nil) (throw 'a 3)))))` it runs twice. -/
theorem C49_twice_wrong (P : Prog) :
    let t : Tm := .lett 7 (num 1) (.block 5 (.protect (.catch_ a (.retfrom 5 (num 1)))
      (.progn (.print (num 2)) (.ite (.var 7) (.progn (.setq 7 (.const nil)) (.throw_ a (num 3))) (.const nil)))))
    seen (eval P 20 t (start fun _ => nil)) = some (.int 3, [.int 2, .int 2]) := rfl

/-- C49 fails for a cleanup form with a `return-from`: run when the form ends normally it returns, but run by a `throw` it does not find the block.
`(block 5 (unwind-protect 1 (return-from 5 2)))` is 2, but `(block 5 (catch 'a (unwind-protect (throw 'a 1) (return-from 5 2))))` is an error; and
`(block nil (catch 'a (unwind-protect (throw 'a 1) (return-from nil 2))))`, without name, is 1. -/
theorem C49_return_wrong (F : Nat → Tm) (spec : Nat → Val) :
    let t : Tm := .block 5 (.protect (num 1) (.retfrom 5 (num 2)))
    let u : Tm := .block 5 (.catch_ a (.protect (.throw_ a (num 1)) (.retfrom 5 (num 2))))
    let w : Tm := .block 0 (.catch_ a (.protect (.throw_ a (num 1)) (.retfrom 0 (num 2))))
    seen (eval ⟨F, none⟩ 10 t (start spec)) = some (.int 2, []) ∧
    (∃ c, eval ⟨F, none⟩ 10 u (start spec) = .fail c) ∧ seenRef (mean ⟨F, none⟩ 10 u Env.top ⟨spec, []⟩) = some (.int 2, []) ∧
    seen (eval ⟨F, none⟩ 10 w (start spec)) = some (.int 1, []) ∧ seenRef (mean ⟨F, none⟩ 10 w Env.top ⟨spec, []⟩) = some (.int 2, []) :=
  ⟨rfl, ⟨_, rfl⟩, rfl, rfl, rfl⟩

/-! ### C88 -/
namespace Race

/-- C88 (partial: for schedules in which no thread runs between the longjmp of another thread and its arrival).  Every thread receives the values it
throws, in order. -/
theorem C88_alone_partial (vals : Nat → List Nat) (is : List Nat) (i : Nat) :
    let t := (run (is.flatMap fun i => [i, i]) (start vals)).th i
    t.got ++ t.todo = vals i ∧ t.todo = (vals i).drop (is.count i) := by
  have key : ∀ (is : List Nat) (w : W), (∀ i, (w.th i).mid = false) → ∀ i,
      ((run (is.flatMap fun i => [i, i]) w).th i).got ++ ((run (is.flatMap fun i => [i, i]) w).th i).todo = (w.th i).got ++ (w.th i).todo ∧
      ((run (is.flatMap fun i => [i, i]) w).th i).todo = (w.th i).todo.drop (is.count i) := by
    intro is
    induction is with
    | nil => intro w _ i; exact ⟨rfl, rfl⟩
    | cons k is ih =>
      intro w hw i
      rw [List.flatMap_cons]
      show ((run _ (step k (step k w))).th i).got ++ ((run _ (step k (step k w))).th i).todo = _ ∧ ((run _ (step k (step k w))).th i).todo = _
      have h2 : (∀ i, ((step k (step k w)).th i).mid = false) ∧ ((step k (step k w)).th i).got ++ ((step k (step k w)).th i).todo = (w.th i).got ++ (w.th i).todo ∧
          ((step k (step k w)).th i).todo.drop (is.count i) = (w.th i).todo.drop ((k :: is).count i) := by
        cases ht : (w.th k).todo with
        | nil =>
          have h1 : step k w = w := by unfold step; simp only [ht]
          rw [h1, h1]
          refine ⟨hw, rfl, ?_⟩
          by_cases hk : k = i
          · subst hk; simp [ht]
          · simp [hk]
        | cons v vs =>
          have h1 : step k w = { setjmp_val := v, th := fun j => if j = k then { (w.th k) with mid := true } else w.th j } := by
            unfold step; simp only [ht, hw k]; rfl
          have h3 : step k (step k w) = { setjmp_val := v, th := fun j => if j = k then ⟨vs, false, (w.th k).got ++ [v]⟩ else w.th j } := by
            rw [h1]; unfold step; simp only [if_true, ht, W.mk.injEq, true_and]
            funext j; split <;> rfl
          rw [h3]
          refine ⟨fun j => ?_, ?_, ?_⟩
          · dsimp only; split
            · rfl
            · exact hw j
          · dsimp only; split
            · rename_i h; subst h; rw [ht]; simp
            · rfl
          · dsimp only; split
            · rename_i h; subst h; rw [ht]; simp
            · rename_i h; rw [List.count_cons_of_ne (fun e => h e.symm)]
      exact ⟨(ih _ h2.1 i).1.trans h2.2.1, (ih _ h2.1 i).2.trans h2.2.2⟩
  exact key is (start vals) (fun _ => rfl) i

/-- A single thread always receives its values, whatever the schedule. -/
theorem C88_single_partial (vals : Nat → List Nat) (n : Nat) (i : Nat) :
    let t := (run (List.replicate n i) (start vals)).th i
    t.got ++ t.todo = vals i := by
  have key : ∀ (n : Nat) (w : W), ((w.th i).mid = true → ∃ v vs, (w.th i).todo = v :: vs ∧ w.setjmp_val = v) →
      ((run (List.replicate n i) w).th i).got ++ ((run (List.replicate n i) w).th i).todo = (w.th i).got ++ (w.th i).todo := by
    intro n
    induction n with
    | zero => intro w _; rfl
    | succ n ih =>
      intro w hw
      rw [List.replicate_succ, run]
      cases ht : (w.th i).todo with
      | nil =>
        have h1 : step i w = w := by unfold step; simp only [ht]
        rw [h1, ih w hw, ht]
      | cons v vs =>
        cases hm : (w.th i).mid with
        | true =>
          obtain ⟨v', vs', h1, h2⟩ := hw hm
          have e : step i w = { w with th := fun j => if j = i then ⟨vs, false, (w.th i).got ++ [v]⟩ else w.th j } := by
            rw [ht] at h1; cases h1
            unfold step; simp only [ht, hm, if_true, h2]
          rw [e, ih _ (by simp)]
          simp
        | false =>
          have e : step i w = { setjmp_val := v, th := fun j => if j = i then { (w.th i) with mid := true } else w.th j } := by
            unfold step; simp only [ht, hm]; rfl
          rw [e, ih _ (by simp [ht])]
          simp [ht]
  exact key n (start vals) (by simp [start])

example : let vals := fun i => if i = 0 then [10, 11] else if i = 1 then [20] else []
    ((run ([0, 1, 0].flatMap fun i => [i, i]) (start vals)).th 0).got = [10, 11] := by decide

/-- C88 fails for two threads: thread 0 throws 10 and receives the 20 of thread 1. -/
theorem C88_race_wrong : let vals := fun i => if i = 0 then [10] else if i = 1 then [20] else []
    ((run [0, 1, 0] (start vals)).th 0).got = [20] := by decide

end Race

end Eus.Ctl
