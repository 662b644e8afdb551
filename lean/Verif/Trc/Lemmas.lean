import Verif.Trc.Model
import Verif.Trc.Spec
/-! Helper lemmas: the tracer and its specification evaluate alike. -/

namespace Eus.Trc

variable {V : Type}

/-- The tables of the tracer and the session they stand for. -/
structure Rel (t : Tab V) (w : Spec.World V) : Prop where
  plain : ∀ f, w.T f = false → w.M f = false → t.fn f = (w.F f).map .user
  traced : ∀ f, w.T f = true → ∃ d, w.F f = some d ∧ d.isFun = true ∧
    t.fn f = some (.tracer f) ∧ t.tprop f = some (.user d)
  timed : ∀ f, w.M f = true → ∃ d, w.F f = some d ∧ d.isFun = true ∧
    t.fn f = some (.timer f) ∧ t.mprop f = some (.user d)
  apart : ∀ f, w.T f = true → w.M f = false
  memT : ∀ f, f ∈ t.traced ↔ w.T f = true
  ever : ∀ f, (t.mprop f).isSome = true ↔ w.E f = true
  sub : ∀ f, w.M f = true → w.E f = true

theorem upd_eq_put {α : Type} : @upd α = @Spec.put α := rfl

/-- What a call through the function cell of a function does. -/
theorem cell (P : Prim V) {t : Tab V} {w : Spec.World V} (R : Rel t w)
    {f : Sym} {d : UDef V} (hF : w.F f = some d) (hfun : d.isFun = true) :
    ∃ dd, t.fn f = some dd ∧ (∀ sp b, dd ≠ .user (.mac sp b)) ∧ dd ≠ .nil ∧
      ∀ k lvl vs s, ∃ j, k ≤ j ∧ j ≤ k + 1 ∧
        apply P t (k + 1) lvl dd vs s =
          Spec.finish w.T lvl f (apply P t j (Spec.inner w.T lvl f) (.user d) vs
            (Spec.announce w.T lvl f vs (Spec.count w.M f s))) := by
  cases hT : w.T f with
  | true =>
    obtain ⟨d', hd, _, h1, h2⟩ := R.traced f hT
    rw [hF] at hd; cases hd
    have hM := R.apart f hT
    refine ⟨_, h1, (by intro _ _ h; cases h), (by intro h; cases h), ?_⟩
    intro k lvl vs s
    refine ⟨k, Nat.le_refl _, Nat.le_succ _, ?_⟩
    simp only [apply, h2, Option.getD_some, Spec.inner, Spec.announce,
      Spec.count, hT, hM, if_true, Bool.false_eq_true, if_false]
    generalize apply P t k (lvl + 1) (.user d) vs _ = q
    obtain ⟨r, s'⟩ := q
    cases r <;> simp [Spec.finish, hT]
  | false =>
    cases hM : w.M f with
    | true =>
      obtain ⟨d', hd, _, h1, h2⟩ := R.timed f hM
      rw [hF] at hd; cases hd
      refine ⟨_, h1, (by intro _ _ h; cases h), (by intro h; cases h), ?_⟩
      intro k lvl vs s
      refine ⟨k, Nat.le_refl _, Nat.le_succ _, ?_⟩
      simp only [apply, h2, Option.getD_some, Spec.inner, Spec.announce,
        Spec.count, hT, hM, if_true, Bool.false_eq_true, if_false, upd_eq_put]
      generalize apply P t k lvl (.user d) vs _ = q
      obtain ⟨r, s'⟩ := q
      cases r <;> simp [Spec.finish, hT]
    | false =>
      have h1 := R.plain f hT hM
      rw [hF] at h1
      refine ⟨_, h1, (by intro _ _ h; cases h; cases hfun),
        (by intro h; cases h), ?_⟩
      intro k lvl vs s
      refine ⟨k + 1, Nat.le_succ _, Nat.le_refl _, ?_⟩
      simp only [Spec.inner, Spec.announce, Spec.count, hT, hM,
        Bool.false_eq_true, if_false]
      generalize apply P t (k + 1) lvl (.user d) vs _ = q
      obtain ⟨r, s'⟩ := q
      cases r <;> simp [Spec.finish, hT]

/-- A call through a cell that holds neither a macro nor `nil`. -/
theorem eval_call (P : Prim V) {t : Tab V} {f : Sym} {dd : Def V}
    (h1 : t.fn f = some dd) (h2 : ∀ sp b, dd ≠ .user (.mac sp b))
    (h3 : dd ≠ .nil) (n lvl : Nat) (args : List V) (es : List (Expr V))
    (s : St V) :
    eval P t (n + 1) lvl args (.call f es) s =
      match evalArgs P t n lvl args es s with
      | (.inl vs, s') => apply P t n lvl dd vs s'
      | (.inr r, s') => (r, s') := by
  simp only [eval, h1]
  cases dd with
  | user d =>
    cases d with
    | mac sp b => exact absurd rfl (h2 sp b)
    | _ => rfl
  | nil => exact absurd rfl h3
  | _ => rfl

theorem noFun (R : Rel (t : Tab V) (w : Spec.World V)) {f : Sym}
    (h : ∀ d, w.F f = some d → d.isFun = false) :
    t.fn f = (w.F f).map .user := by
  refine R.plain f ?_ ?_
  · cases hT : w.T f with
    | false => rfl
    | true =>
      obtain ⟨d, hd, hd2, _⟩ := R.traced f hT
      rw [h d hd] at hd2; cases hd2
  · cases hM : w.M f with
    | false => rfl
    | true =>
      obtain ⟨d, hd, hd2, _⟩ := R.timed f hM
      rw [h d hd] at hd2; cases hd2

theorem finish_out {T : Sym → Bool} {lvl : Nat} {f : Sym} {q : Res V × St V}
    {r : Res V} {s' : St V} (h : Spec.finish T lvl f q = (r, s'))
    (hr : r ≠ .out) : q.1 ≠ .out := by
  obtain ⟨r0, s0⟩ := q
  rintro rfl
  simp only [Spec.finish, Prod.mk.injEq] at h
  exact hr h.1.symm

/-- The tracer needs at most three times the fuel of the specification. -/
theorem eval_of_spec (P : Prim V) {t : Tab V} {w : Spec.World V}
    (R : Rel t w) (n : Nat) :
    (∀ m lvl args e s r s', 3 * n ≤ m →
      Spec.eval P w.F w.T w.M n lvl args e s = (r, s') → r ≠ .out →
      eval P t m lvl args e s = (r, s')) ∧
    (∀ m lvl args es s r s', 3 * n ≤ m →
      Spec.evalArgs P w.F w.T w.M n lvl args es s = (r, s') → r ≠ .inr .out →
      evalArgs P t m lvl args es s = (r, s')) := by
  induction n with
  | zero =>
    constructor
    · intro m lvl args e s r s' _ h hr
      simp only [Spec.eval, Prod.mk.injEq] at h
      exact absurd h.1.symm hr
    · intro m lvl args es s r s' _ h hr
      simp only [Spec.evalArgs, Prod.mk.injEq] at h
      exact absurd h.1.symm hr
  | succ n ih =>
    obtain ⟨ihE, ihA⟩ := ih
    constructor
    · intro m lvl args e s r s' hm h hr
      obtain ⟨m, rfl⟩ : ∃ k, m = k + 3 := ⟨m - 3, by omega⟩
      have hm2 : 3 * n ≤ m + 2 := by omega
      have hm0 : 3 * n ≤ m := by omega
      have hm1 : 3 * n ≤ m + 1 := by omega
      cases e with
      | lit v => simpa only [Spec.eval, eval] using h
      | arg i => simpa only [Spec.eval, eval] using h
      | glob k => simpa only [Spec.eval, eval] using h
      | setg k e =>
        simp only [Spec.eval] at h
        simp only [eval]
        generalize hq : Spec.eval P w.F w.T w.M n lvl args e s = q at h
        obtain ⟨r1, s1⟩ := q
        have h1 := ihE (m + 2) lvl args e s r1 s1 hm2 hq (by
          rintro rfl; simp only [Prod.mk.injEq] at h; exact hr h.1.symm)
        rw [h1]; exact h
      | call f es =>
        simp only [Spec.eval] at h
        cases hF : w.F f with
        | none =>
          have hfn := noFun R (f := f) (by intro d hd; rw [hF] at hd; cases hd)
          rw [hF] at h hfn
          simp only [eval, hfn]; exact h
        | some d =>
          rw [hF] at h
          cases d with
          | mac sp body =>
            have hfn := noFun R (f := f) (by
              intro d hd; rw [hF] at hd; cases hd; rfl)
            rw [hF] at hfn
            simp only [eval, hfn]
            exact ihE _ _ _ _ _ _ _ hm2 h hr
          | code k =>
            obtain ⟨dd, c1, c2, c3, c4⟩ := cell P R hF rfl
            rw [eval_call P c1 c2 c3]
            simp only at h
            generalize hq : Spec.evalArgs P w.F w.T w.M n lvl args es s = q at h
            obtain ⟨r1, s1⟩ := q
            have h1 := ihA (m + 2) lvl args es s r1 s1 hm2 hq (by
              rintro rfl; simp only [Prod.mk.injEq] at h; exact hr h.1.symm)
            rw [h1]
            cases r1 with
            | inr r1 => exact h
            | inl vs =>
              simp only at h ⊢
              obtain ⟨j, j1, j2, c5⟩ := c4 (m + 1) lvl vs s1
              obtain ⟨j, rfl⟩ : ∃ i, j = i + 1 := ⟨j - 1, by omega⟩
              rw [c5]; exact h
          | lam body =>
            obtain ⟨dd, c1, c2, c3, c4⟩ := cell P R hF rfl
            rw [eval_call P c1 c2 c3]
            simp only at h
            generalize hq : Spec.evalArgs P w.F w.T w.M n lvl args es s = q at h
            obtain ⟨r1, s1⟩ := q
            have h1 := ihA (m + 2) lvl args es s r1 s1 hm2 hq (by
              rintro rfl; simp only [Prod.mk.injEq] at h; exact hr h.1.symm)
            rw [h1]
            cases r1 with
            | inr r1 => exact h
            | inl vs =>
              simp only at h ⊢
              obtain ⟨j, j1, j2, c5⟩ := c4 (m + 1) lvl vs s1
              obtain ⟨j, rfl⟩ : ∃ i, j = i + 1 := ⟨j - 1, by omega⟩
              rw [c5]
              have h2 := finish_out h hr
              rw [← h]
              refine congrArg _ ?_
              simp only [apply]
              exact ihE _ _ _ _ _ _ _ (by omega) rfl h2
      | ife c a b =>
        simp only [Spec.eval] at h
        simp only [eval]
        generalize hq : Spec.eval P w.F w.T w.M n lvl args c s = q at h
        obtain ⟨r1, s1⟩ := q
        have h1 := ihE (m + 2) lvl args c s r1 s1 hm2 hq (by
          rintro rfl; simp only [Prod.mk.injEq] at h; exact hr h.1.symm)
        rw [h1]
        cases r1 with
        | val v =>
          simp only at h ⊢
          by_cases hv : P.isTrue v = true
          · rw [if_pos hv] at h ⊢; exact ihE _ _ _ _ _ _ _ hm2 h hr
          · rw [if_neg hv] at h ⊢; exact ihE _ _ _ _ _ _ _ hm2 h hr
        | _ => exact h
      | seq a b =>
        simp only [Spec.eval] at h
        simp only [eval]
        generalize hq : Spec.eval P w.F w.T w.M n lvl args a s = q at h
        obtain ⟨r1, s1⟩ := q
        have h1 := ihE (m + 2) lvl args a s r1 s1 hm2 hq (by
          rintro rfl; simp only [Prod.mk.injEq] at h; exact hr h.1.symm)
        rw [h1]
        cases r1 with
        | val v => exact ihE _ _ _ _ _ _ _ hm2 h hr
        | _ => exact h
      | throwing tag e =>
        simp only [Spec.eval] at h
        simp only [eval]
        generalize hq : Spec.eval P w.F w.T w.M n lvl args e s = q at h
        obtain ⟨r1, s1⟩ := q
        have h1 := ihE (m + 2) lvl args e s r1 s1 hm2 hq (by
          rintro rfl; simp only [Prod.mk.injEq] at h; exact hr h.1.symm)
        rw [h1]; exact h
      | catching tag e =>
        simp only [Spec.eval] at h
        simp only [eval]
        generalize hq : Spec.eval P w.F w.T w.M n lvl args e s = q at h
        obtain ⟨r1, s1⟩ := q
        have h1 := ihE (m + 2) lvl args e s r1 s1 hm2 hq (by
          rintro rfl; simp only [Prod.mk.injEq] at h; exact hr h.1.symm)
        rw [h1]; exact h
    · intro m lvl args es s r s' hm h hr
      obtain ⟨m, rfl⟩ : ∃ k, m = k + 1 := ⟨m - 1, by omega⟩
      have hm0 : 3 * n ≤ m := by omega
      cases es with
      | nil => simpa only [Spec.evalArgs, evalArgs] using h
      | cons e es =>
        simp only [Spec.evalArgs] at h
        simp only [evalArgs]
        generalize hq : Spec.eval P w.F w.T w.M n lvl args e s = q at h
        obtain ⟨r1, s1⟩ := q
        have h1 := ihE m lvl args e s r1 s1 hm0 hq (by
          rintro rfl; simp only [Prod.mk.injEq] at h; exact hr h.1.symm)
        rw [h1]
        cases r1 with
        | val v =>
          simp only at h ⊢
          generalize hq2 : Spec.evalArgs P w.F w.T w.M n lvl args es s1 = q2 at h
          obtain ⟨r2, s2⟩ := q2
          have h2 := ihA m lvl args es s1 r2 s2 hm0 hq2 (by
            rintro rfl; simp only [Prod.mk.injEq] at h; exact hr h.1.symm)
          rw [h2]; exact h
        | _ => exact h

/-- The specification needs no more fuel than the tracer. -/
theorem spec_of_eval (P : Prim V) {t : Tab V} {w : Spec.World V}
    (R : Rel t w) (n : Nat) :
    (∀ m lvl args e s r s', n ≤ m →
      eval P t n lvl args e s = (r, s') → r ≠ .out →
      Spec.eval P w.F w.T w.M m lvl args e s = (r, s')) ∧
    (∀ m lvl args es s r s', n ≤ m →
      evalArgs P t n lvl args es s = (r, s') → r ≠ .inr .out →
      Spec.evalArgs P w.F w.T w.M m lvl args es s = (r, s')) := by
  induction n using Nat.strongRecOn with
  | _ n ih =>
  cases n with
  | zero =>
    constructor
    · intro m lvl args e s r s' _ h hr
      simp only [eval, Prod.mk.injEq] at h
      exact absurd h.1.symm hr
    · intro m lvl args es s r s' _ h hr
      simp only [evalArgs, Prod.mk.injEq] at h
      exact absurd h.1.symm hr
  | succ n =>
    obtain ⟨ihE, ihA⟩ := ih n (Nat.lt_succ_self n)
    constructor
    · intro m lvl args e s r s' hm h hr
      obtain ⟨m, rfl⟩ : ∃ k, m = k + 1 := ⟨m - 1, by omega⟩
      have hm0 : n ≤ m := by omega
      cases e with
      | lit v => simpa only [Spec.eval, eval] using h
      | arg i => simpa only [Spec.eval, eval] using h
      | glob k => simpa only [Spec.eval, eval] using h
      | setg k e =>
        simp only [eval] at h
        simp only [Spec.eval]
        generalize hq : eval P t n lvl args e s = q at h
        obtain ⟨r1, s1⟩ := q
        have h1 := ihE m lvl args e s r1 s1 hm0 hq (by
          rintro rfl; simp only [Prod.mk.injEq] at h; exact hr h.1.symm)
        rw [h1]; exact h
      | call f es =>
        simp only [Spec.eval]
        cases hF : w.F f with
        | none =>
          have hfn := noFun R (f := f) (by intro d hd; rw [hF] at hd; cases hd)
          rw [hF] at hfn
          simp only [eval, hfn] at h
          exact h
        | some d =>
          cases d with
          | mac sp body =>
            have hfn := noFun R (f := f) (by
              intro d hd; rw [hF] at hd; cases hd; rfl)
            rw [hF] at hfn
            simp only [eval, hfn] at h
            exact ihE _ _ _ _ _ _ _ hm0 h hr
          | code k =>
            obtain ⟨dd, c1, c2, c3, c4⟩ := cell P R hF rfl
            rw [eval_call P c1 c2 c3] at h
            simp only
            generalize hq : evalArgs P t n lvl args es s = q at h
            obtain ⟨r1, s1⟩ := q
            have h1 := ihA m lvl args es s r1 s1 hm0 hq (by
              rintro rfl; simp only [Prod.mk.injEq] at h; exact hr h.1.symm)
            rw [h1]
            cases r1 with
            | inr r1 => exact h
            | inl vs =>
              simp only at h ⊢
              cases n with
              | zero =>
                simp only [evalArgs, Prod.mk.injEq] at hq
                cases hq.1
              | succ n =>
                obtain ⟨j, j1, j2, c5⟩ := c4 n lvl vs s1
                rw [c5] at h
                cases j with
                | zero => exact absurd (by simp only [apply]) (finish_out h hr)
                | succ j => exact h
          | lam body =>
            obtain ⟨dd, c1, c2, c3, c4⟩ := cell P R hF rfl
            rw [eval_call P c1 c2 c3] at h
            simp only
            generalize hq : evalArgs P t n lvl args es s = q at h
            obtain ⟨r1, s1⟩ := q
            have h1 := ihA m lvl args es s r1 s1 hm0 hq (by
              rintro rfl; simp only [Prod.mk.injEq] at h; exact hr h.1.symm)
            rw [h1]
            cases r1 with
            | inr r1 => exact h
            | inl vs =>
              simp only at h ⊢
              cases n with
              | zero =>
                simp only [evalArgs, Prod.mk.injEq] at hq
                cases hq.1
              | succ n =>
                obtain ⟨j, j1, j2, c5⟩ := c4 n lvl vs s1
                rw [c5] at h
                have h2 := finish_out h hr
                cases j with
                | zero => exact absurd (by simp only [apply]) h2
                | succ j =>
                  rw [← h]
                  refine congrArg _ ?_
                  simp only [apply] at h2 ⊢
                  exact (ih j (by omega)).1 _ _ _ _ _ _ _ (by omega) rfl h2
      | ife c a b =>
        simp only [eval] at h
        simp only [Spec.eval]
        generalize hq : eval P t n lvl args c s = q at h
        obtain ⟨r1, s1⟩ := q
        have h1 := ihE m lvl args c s r1 s1 hm0 hq (by
          rintro rfl; simp only [Prod.mk.injEq] at h; exact hr h.1.symm)
        rw [h1]
        cases r1 with
        | val v =>
          simp only at h ⊢
          by_cases hv : P.isTrue v = true
          · rw [if_pos hv] at h ⊢; exact ihE _ _ _ _ _ _ _ hm0 h hr
          · rw [if_neg hv] at h ⊢; exact ihE _ _ _ _ _ _ _ hm0 h hr
        | _ => exact h
      | seq a b =>
        simp only [eval] at h
        simp only [Spec.eval]
        generalize hq : eval P t n lvl args a s = q at h
        obtain ⟨r1, s1⟩ := q
        have h1 := ihE m lvl args a s r1 s1 hm0 hq (by
          rintro rfl; simp only [Prod.mk.injEq] at h; exact hr h.1.symm)
        rw [h1]
        cases r1 with
        | val v => exact ihE _ _ _ _ _ _ _ hm0 h hr
        | _ => exact h
      | throwing tag e =>
        simp only [eval] at h
        simp only [Spec.eval]
        generalize hq : eval P t n lvl args e s = q at h
        obtain ⟨r1, s1⟩ := q
        have h1 := ihE m lvl args e s r1 s1 hm0 hq (by
          rintro rfl; simp only [Prod.mk.injEq] at h; exact hr h.1.symm)
        rw [h1]; exact h
      | catching tag e =>
        simp only [eval] at h
        simp only [Spec.eval]
        generalize hq : eval P t n lvl args e s = q at h
        obtain ⟨r1, s1⟩ := q
        have h1 := ihE m lvl args e s r1 s1 hm0 hq (by
          rintro rfl; simp only [Prod.mk.injEq] at h; exact hr h.1.symm)
        rw [h1]; exact h
    · intro m lvl args es s r s' hm h hr
      obtain ⟨m, rfl⟩ : ∃ k, m = k + 1 := ⟨m - 1, by omega⟩
      have hm0 : n ≤ m := by omega
      cases es with
      | nil => simpa only [Spec.evalArgs, evalArgs] using h
      | cons e es =>
        simp only [evalArgs] at h
        simp only [Spec.evalArgs]
        generalize hq : eval P t n lvl args e s = q at h
        obtain ⟨r1, s1⟩ := q
        have h1 := ihE m lvl args e s r1 s1 hm0 hq (by
          rintro rfl; simp only [Prod.mk.injEq] at h; exact hr h.1.symm)
        rw [h1]
        cases r1 with
        | val v =>
          simp only at h ⊢
          generalize hq2 : evalArgs P t n lvl args es s1 = q2 at h
          obtain ⟨r2, s2⟩ := q2
          have h2 := ihA m lvl args es s1 r2 s2 hm0 hq2 (by
            rintro rfl; simp only [Prod.mk.injEq] at h; exact hr h.1.symm)
          rw [h2]; exact h
        | _ => exact h

end Eus.Trc
