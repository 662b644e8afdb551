import Verif.Trc.Session
/-! Helper lemmas: in the specification tracing and timing change no result. -/

namespace Eus.Trc

variable {V : Type}

theorem count_glob (M : Sym → Bool) (f : Sym) (s : St V) :
    (Spec.count M f s).glob = s.glob := by
  unfold Spec.count; split <;> rfl

theorem announce_glob (T : Sym → Bool) (lvl : Nat) (f : Sym) (vs : List V)
    (s : St V) : (Spec.announce T lvl f vs s).glob = s.glob := by
  unfold Spec.announce; split <;> rfl

/-- The same result and the same global variables. -/
def Same {A : Type} (p q : A × St V) : Prop :=
  p.1 = q.1 ∧ p.2.glob = q.2.glob

theorem finish_same {T T' : Sym → Bool} {l l' : Nat} {f : Sym}
    {p q : Res V × St V} (h : Same p q) :
    Same (Spec.finish T l f p) (Spec.finish T' l' f q) := by
  obtain ⟨r, s⟩ := p
  obtain ⟨r', s'⟩ := q
  obtain ⟨h1, h2⟩ := h
  simp only at h1 h2
  subst h1
  cases r with
  | val v =>
    refine ⟨rfl, ?_⟩
    simp only [Spec.finish]
    split <;> split <;> exact h2
  | _ => exact ⟨rfl, h2⟩

theorem quiet (P : Prim V) (F : Sym → Option (UDef V)) (T M T' M' : Sym → Bool)
    (n : Nat) :
    (∀ l l' args e s s', s.glob = s'.glob →
      Same (Spec.eval P F T M n l args e s) (Spec.eval P F T' M' n l' args e s')) ∧
    (∀ l l' args es s s', s.glob = s'.glob →
      Same (Spec.evalArgs P F T M n l args es s)
        (Spec.evalArgs P F T' M' n l' args es s')) := by
  induction n with
  | zero =>
    constructor
    · intro l l' args e s s' h
      simp only [Spec.eval]; exact ⟨rfl, h⟩
    · intro l l' args e s s' h
      simp only [Spec.evalArgs]; exact ⟨rfl, h⟩
  | succ n ih =>
    obtain ⟨ihE, ihA⟩ := ih
    constructor
    · intro l l' args e s s' h
      cases e with
      | lit v => simp only [Spec.eval]; exact ⟨rfl, h⟩
      | arg i => simp only [Spec.eval]; exact ⟨rfl, h⟩
      | glob k => simp only [Spec.eval]; exact ⟨by simp only [h], h⟩
      | setg k e =>
        simp only [Spec.eval]
        have h1 := ihE l l' args e s s' h
        revert h1
        generalize Spec.eval P F T M n l args e s = p
        generalize Spec.eval P F T' M' n l' args e s' = q
        obtain ⟨r, s1⟩ := p
        obtain ⟨r', s2⟩ := q
        rintro ⟨h1, h2⟩
        simp only at h1 h2
        subst h1
        cases r with
        | val v => exact ⟨rfl, by simp only [h2]⟩
        | _ => exact ⟨rfl, h2⟩
      | call f es =>
        simp only [Spec.eval]
        cases hF : F f with
        | none => exact ⟨rfl, h⟩
        | some d =>
          cases d with
          | mac sp body => exact ihE _ _ _ _ _ _ h
          | code k =>
            simp only
            have h1 := ihA l l' args es s s' h
            revert h1
            generalize Spec.evalArgs P F T M n l args es s = p
            generalize Spec.evalArgs P F T' M' n l' args es s' = q
            obtain ⟨r, s1⟩ := p
            obtain ⟨r', s2⟩ := q
            rintro ⟨h1, h2⟩
            simp only at h1 h2
            subst h1
            cases r with
            | inr r => exact ⟨rfl, h2⟩
            | inl vs =>
              refine finish_same ⟨rfl, ?_⟩
              simp only [announce_glob, count_glob, h2]
          | lam body =>
            simp only
            have h1 := ihA l l' args es s s' h
            revert h1
            generalize Spec.evalArgs P F T M n l args es s = p
            generalize Spec.evalArgs P F T' M' n l' args es s' = q
            obtain ⟨r, s1⟩ := p
            obtain ⟨r', s2⟩ := q
            rintro ⟨h1, h2⟩
            simp only at h1 h2
            subst h1
            cases r with
            | inr r => exact ⟨rfl, h2⟩
            | inl vs =>
              refine finish_same (ihE _ _ _ _ _ _ ?_)
              simp only [announce_glob, count_glob, h2]
      | ife c a b =>
        simp only [Spec.eval]
        have h1 := ihE l l' args c s s' h
        revert h1
        generalize Spec.eval P F T M n l args c s = p
        generalize Spec.eval P F T' M' n l' args c s' = q
        obtain ⟨r, s1⟩ := p
        obtain ⟨r', s2⟩ := q
        rintro ⟨h1, h2⟩
        simp only at h1 h2
        subst h1
        cases r with
        | val v =>
          simp only
          split <;> exact ihE _ _ _ _ _ _ h2
        | _ => exact ⟨rfl, h2⟩
      | seq a b =>
        simp only [Spec.eval]
        have h1 := ihE l l' args a s s' h
        revert h1
        generalize Spec.eval P F T M n l args a s = p
        generalize Spec.eval P F T' M' n l' args a s' = q
        obtain ⟨r, s1⟩ := p
        obtain ⟨r', s2⟩ := q
        rintro ⟨h1, h2⟩
        simp only at h1 h2
        subst h1
        cases r with
        | val v => exact ihE _ _ _ _ _ _ h2
        | _ => exact ⟨rfl, h2⟩
      | throwing tag e =>
        simp only [Spec.eval]
        have h1 := ihE l l' args e s s' h
        revert h1
        generalize Spec.eval P F T M n l args e s = p
        generalize Spec.eval P F T' M' n l' args e s' = q
        obtain ⟨r, s1⟩ := p
        obtain ⟨r', s2⟩ := q
        rintro ⟨h1, h2⟩
        simp only at h1 h2
        subst h1
        cases r <;> exact ⟨rfl, h2⟩
      | catching tag e =>
        simp only [Spec.eval]
        have h1 := ihE l l' args e s s' h
        revert h1
        generalize Spec.eval P F T M n l args e s = p
        generalize Spec.eval P F T' M' n l' args e s' = q
        obtain ⟨r, s1⟩ := p
        obtain ⟨r', s2⟩ := q
        rintro ⟨h1, h2⟩
        simp only at h1 h2
        subst h1
        cases r with
        | thrown tag' v =>
          simp only
          split <;> exact ⟨rfl, h2⟩
        | _ => exact ⟨rfl, h2⟩
    · intro l l' args es s s' h
      cases es with
      | nil => simp only [Spec.evalArgs]; exact ⟨rfl, h⟩
      | cons e es =>
        simp only [Spec.evalArgs]
        have h1 := ihE l l' args e s s' h
        revert h1
        generalize Spec.eval P F T M n l args e s = p
        generalize Spec.eval P F T' M' n l' args e s' = q
        obtain ⟨r, s1⟩ := p
        obtain ⟨r', s2⟩ := q
        rintro ⟨h1, h2⟩
        simp only at h1 h2
        subst h1
        cases r with
        | val v =>
          simp only
          have h1 := ihA l l' args es s1 s2 h2
          revert h1
          generalize Spec.evalArgs P F T M n l args es s1 = p
          generalize Spec.evalArgs P F T' M' n l' args es s2 = q
          obtain ⟨r, s1⟩ := p
          obtain ⟨r', s2⟩ := q
          rintro ⟨h1, h2⟩
          simp only at h1 h2
          subst h1
          cases r <;> exact ⟨rfl, h2⟩
        | _ => exact ⟨rfl, h2⟩

/-- Without the commands that trace and time, a session has the same results,
global variables and definitions. -/
theorem bare_run (P : Prim V) (n : Nat) (cs : List (Cmd V)) :
    ∀ (w : Spec.World V) (s s0 : St V), s.glob = s0.glob →
    (∀ w' s' as, Spec.run P n w s cs = some (w', s', as) →
      ∃ w0 s0' as0,
        Spec.run P n (Spec.start w.F) s0 (Spec.bare cs) = some (w0, s0', as0) ∧
        Spec.results as0 = Spec.results as ∧ s0'.glob = s'.glob ∧ w0.F = w'.F) ∧
    (∀ w0 s0' as0,
      Spec.run P n (Spec.start w.F) s0 (Spec.bare cs) = some (w0, s0', as0) →
      ∃ w' s' as, Spec.run P n w s cs = some (w', s', as) ∧
        Spec.results as0 = Spec.results as ∧ s0'.glob = s'.glob ∧
        w0.F = w'.F) := by
  induction cs with
  | nil =>
    intro w s s0 h
    constructor
    · intro w' s' as e
      simp only [Spec.run, Option.some.injEq, Prod.mk.injEq] at e
      obtain ⟨rfl, rfl, rfl⟩ := e
      exact ⟨_, _, _, rfl, rfl, h.symm, rfl⟩
    · intro w' s' as e
      simp only [Spec.bare, Spec.run, Option.some.injEq, Prod.mk.injEq] at e
      obtain ⟨rfl, rfl, rfl⟩ := e
      exact ⟨_, _, _, rfl, rfl, h.symm, rfl⟩
  | cons c cs ih =>
    intro w s s0 h
    -- a command that the bare session leaves out
    have drop : ∀ s1 a, Spec.step P n w s c = some (s1, a) →
        s1.glob = s.glob → (∀ r, a ≠ .result r) → (Spec.after w c).F = w.F →
        Spec.bare (c :: cs) = Spec.bare cs →
        (∀ w' s' as, Spec.run P n w s (c :: cs) = some (w', s', as) →
          ∃ w0 s0' as0, Spec.run P n (Spec.start w.F) s0 (Spec.bare (c :: cs)) =
              some (w0, s0', as0) ∧
            Spec.results as0 = Spec.results as ∧ s0'.glob = s'.glob ∧
            w0.F = w'.F) ∧
        (∀ w0 s0' as0, Spec.run P n (Spec.start w.F) s0 (Spec.bare (c :: cs)) =
            some (w0, s0', as0) →
          ∃ w' s' as, Spec.run P n w s (c :: cs) = some (w', s', as) ∧
            Spec.results as0 = Spec.results as ∧ s0'.glob = s'.glob ∧
            w0.F = w'.F) := by
      intro s1 a h1 h2 h3 h4 h5
      have hres : ∀ l, Spec.results (a :: l) = Spec.results l := by
        intro l
        cases a with
        | result r => exact absurd rfl (h3 r)
        | _ => rfl
      obtain ⟨i1, i2⟩ := ih (Spec.after w c) s1 s0 (h2.trans h)
      rw [h4] at i1 i2
      rw [h5]
      simp only [Spec.run, h1]
      constructor
      · intro w' s' as e
        cases hr : Spec.run P n (Spec.after w c) s1 cs with
        | none => rw [hr] at e; cases e
        | some y =>
          obtain ⟨w2, s2, as2⟩ := y
          rw [hr] at e
          simp only [Option.some.injEq, Prod.mk.injEq] at e
          obtain ⟨rfl, rfl, rfl⟩ := e
          obtain ⟨w0, s0', as0, a1, a2, a3, a4⟩ := i1 _ _ _ hr
          exact ⟨w0, s0', as0, a1, a2.trans (hres _).symm, a3, a4⟩
      · intro w0 s0' as0 e
        obtain ⟨w', s', as, a1, a2, a3, a4⟩ := i2 _ _ _ e
        rw [a1]
        exact ⟨w', s', a :: as, rfl, a2.trans (hres _).symm, a3, a4⟩
    cases c with
    | trace fs => exact drop s .done rfl rfl (by intro r e; cases e) rfl rfl
    | untrace fs => exact drop s .done rfl rfl (by intro r e; cases e) rfl rfl
    | untime f => exact drop s .done rfl rfl (by intro r e; cases e) rfl rfl
    | time f =>
      cases hM : w.M f with
      | true =>
        exact drop s (.report (s.cnt f)) (by simp only [Spec.step, hM, if_true])
          rfl (by intro r e; cases e) (by simp only [Spec.after, hM, if_true]) rfl
      | false =>
        cases hf : w.isFun f with
        | true =>
          exact drop { s with cnt := Spec.put s.cnt f 0 } .timing
            (by simp only [Spec.step, hM, hf, if_true, Bool.false_eq_true, if_false])
            rfl (by intro r e; cases e)
            (by simp only [Spec.after, hM, hf, if_true, Bool.false_eq_true, if_false])
            rfl
        | false =>
          exact drop s .refused
            (by simp only [Spec.step, hM, hf, Bool.false_eq_true, if_false])
            rfl (by intro r e; cases e)
            (by simp only [Spec.after, hM, hf, Bool.false_eq_true, if_false])
            rfl
    | defun f d =>
      obtain ⟨i1, i2⟩ := ih (Spec.after w (.defun f d)) s s0 h
      have e0 : Spec.start (Spec.after w (.defun f d)).F =
          Spec.after (Spec.start w.F) (.defun f d) := rfl
      rw [e0] at i1 i2
      simp only [Spec.bare, Spec.run, Spec.step]
      constructor
      · intro w' s' as e
        cases hr : Spec.run P n (Spec.after w (.defun f d)) s cs with
        | none => rw [hr] at e; cases e
        | some y =>
          obtain ⟨w2, s2, as2⟩ := y
          rw [hr] at e
          simp only [Option.some.injEq, Prod.mk.injEq] at e
          obtain ⟨rfl, rfl, rfl⟩ := e
          obtain ⟨w0, s0', as0, a1, a2, a3, a4⟩ := i1 _ _ _ hr
          rw [a1]
          exact ⟨w0, s0', .done :: as0, rfl, a2, a3, a4⟩
      · intro w0 s0' as0 e
        cases hr : Spec.run P n (Spec.after (Spec.start w.F) (.defun f d)) s0
            (Spec.bare cs) with
        | none => rw [hr] at e; cases e
        | some y =>
          obtain ⟨w2, s2, as2⟩ := y
          rw [hr] at e
          simp only [Option.some.injEq, Prod.mk.injEq] at e
          obtain ⟨rfl, rfl, rfl⟩ := e
          obtain ⟨w', s', as, a1, a2, a3, a4⟩ := i2 _ _ _ hr
          rw [a1]
          exact ⟨w', s', .done :: as, rfl, a2, a3, a4⟩
    | eval e =>
      have hq := (quiet P w.F w.T w.M (fun _ => false) (fun _ => false) n).1
        0 0 [] e s s0 h
      simp only [Spec.bare, Spec.run]
      have hstep : ∀ (w : Spec.World V) (s : St V) q,
          Spec.eval P w.F w.T w.M n 0 [] e s = q →
          Spec.step P n w s (.eval e) =
            (match q with | (.out, _) => none | (r, s') => some (s', .result r)) := by
        intro w s q h; subst h; rfl
      have e1 := hstep w s _ rfl
      have e2 := hstep (Spec.start w.F) s0 _ rfl
      revert hq e1 e2
      simp only [Spec.start]
      generalize Spec.eval P w.F w.T w.M n 0 [] e s = p
      generalize Spec.eval P w.F (fun _ => false) (fun _ => false) n 0 [] e s0 = q
      obtain ⟨r, s1⟩ := p
      obtain ⟨r', s2⟩ := q
      rintro ⟨h1, h2⟩ e1 e2
      simp only at h1 h2
      subst h1
      by_cases hr : r = .out
      · subst hr
        simp only at e1 e2
        rw [e1, e2]
        constructor <;> intro _ _ _ h <;> cases h
      · have e1' : Spec.step P n w s (.eval e) = some (s1, .result r) := by
          rw [e1]; cases r <;> first | rfl | exact absurd rfl hr
        have e2' : Spec.step P n ⟨w.F, fun _ => false, fun _ => false,
            fun _ => false⟩ s0 (.eval e) = some (s2, .result r) := by
          rw [e2]; cases r <;> first | rfl | exact absurd rfl hr
        rw [e1', e2']
        obtain ⟨i1, i2⟩ := ih w s1 s2 h2
        simp only [Spec.start] at i1 i2
        simp only [Spec.after]
        constructor
        · intro w' s' as e
          cases hr : Spec.run P n w s1 cs with
          | none => rw [hr] at e; cases e
          | some y =>
            obtain ⟨w2, s2, as2⟩ := y
            rw [hr] at e
            simp only [Option.some.injEq, Prod.mk.injEq] at e
            obtain ⟨rfl, rfl, rfl⟩ := e
            obtain ⟨w0, s0', as0, a1, a2, a3, a4⟩ := i1 _ _ _ hr
            rw [a1]
            exact ⟨w0, s0', _, rfl, by simp only [Spec.results, a2], a3, a4⟩
        · intro w0 s0' as0 e
          cases hr : Spec.run P n ⟨w.F, fun _ => false, fun _ => false,
              fun _ => false⟩ s2 (Spec.bare cs) with
          | none => rw [hr] at e; cases e
          | some y =>
            obtain ⟨w2, s2, as2⟩ := y
            rw [hr] at e
            simp only [Option.some.injEq, Prod.mk.injEq] at e
            obtain ⟨rfl, rfl, rfl⟩ := e
            obtain ⟨w', s', as, a1, a2, a3, a4⟩ := i2 _ _ _ hr
            rw [a1]
            exact ⟨w', s', _, rfl, by simp only [Spec.results, a2], a3, a4⟩

theorem run_final (P : Prim V) (n : Nat) (cs : List (Cmd V)) :
    ∀ (w : Spec.World V) (s : St V) w' s' as,
    Spec.run P n w s cs = some (w', s', as) → w' = Spec.final w cs := by
  induction cs with
  | nil =>
    intro w s w' s' as h
    simp only [Spec.run, Option.some.injEq, Prod.mk.injEq] at h
    exact h.1.symm
  | cons c cs ih =>
    intro w s w' s' as h
    simp only [Spec.run] at h
    cases hs : Spec.step P n w s c with
    | none => rw [hs] at h; cases h
    | some x =>
      obtain ⟨s1, a⟩ := x
      rw [hs] at h
      simp only at h
      cases hr : Spec.run P n (Spec.after w c) s1 cs with
      | none => rw [hr] at h; cases h
      | some y =>
        obtain ⟨w2, s2, as2⟩ := y
        rw [hr] at h
        simp only [Option.some.injEq, Prod.mk.injEq] at h
        rw [← h.1]
        exact ih _ _ _ _ _ hr

theorem careful_bare (cs : List (Cmd V)) : ∀ (w : Spec.World V),
    (∀ f, w.T f = false) → (∀ f, w.M f = false) →
    Spec.Careful w (Spec.bare cs) ∧
      (∀ f, (Spec.final w (Spec.bare cs)).T f = false) ∧
      (∀ f, (Spec.final w (Spec.bare cs)).M f = false) := by
  induction cs with
  | nil => intro w hT hM; exact ⟨trivial, hT, hM⟩
  | cons c cs ih =>
    intro w hT hM
    cases c with
    | eval e =>
      obtain ⟨a, b, c⟩ := ih w hT hM
      exact ⟨⟨trivial, a⟩, b, c⟩
    | defun f d =>
      obtain ⟨a, b, c⟩ := ih (Spec.after w (.defun f d)) hT hM
      exact ⟨⟨⟨hT f, hM f⟩, a⟩, b, c⟩
    | _ => exact ih w hT hM

theorem loop_out (P : Prim V) {t : Tab V} {f : Sym}
    (h : t.tprop f = some (.tracer f)) (n : Nat) :
    ∀ lvl vs s, (apply P t n lvl (.tracer f) vs s).1 = .out := by
  induction n with
  | zero => intro lvl vs s; simp only [apply]
  | succ n ih =>
    intro lvl vs s
    simp only [apply, h, Option.getD_some]
    have h1 := ih (lvl + 1) vs
      { s with log := .enter (lvl + 1) f vs :: s.log }
    revert h1
    generalize apply P t n (lvl + 1) (.tracer f) vs _ = q
    obtain ⟨r, s'⟩ := q
    rintro h1
    simp only at h1
    subst h1
    rfl

end Eus.Trc
