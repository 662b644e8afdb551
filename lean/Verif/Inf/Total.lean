import Verif.Inf.Parse
set_option autoImplicit false
/-
The parser ends with a result or an error on every list of tokens, and more steps do not change it.
-/
namespace Eus.Inf

theorem Tok.size_pos (t : Tok) : 1 ≤ t.size := by
  cases t <;> simp [Tok.size]

theorem size_tail {ts : List Tok} (h : ts ≠ []) : sizeList ts.tail + 1 ≤ sizeList ts := by
  cases ts with
  | nil => simp at h
  | cons t ts => have := t.size_pos; simp [sizeList]; omega

theorem size_tail_le (ts : List Tok) : sizeList ts.tail ≤ sizeList ts := by
  cases ts with
  | nil => simp
  | cons t ts => simp [sizeList]

theorem headIs_ne {s : String} {ts : List Tok} (h : headIs s ts = true) : ts ≠ [] := by
  rintro rfl; simp [headIs] at h
theorem mulOp_ne {o : String} {ts : List Tok} (h : mulOp ts = some o) : ts ≠ [] ∧ headIs o ts = true := by
  cases ts with
  | nil => simp [mulOp] at h
  | cons t ts =>
    cases t with
    | sym s =>
      simp only [mulOp] at h
      split at h
      · simp only [Option.some.injEq] at h; subst h; simp [headIs]
      · simp at h
    | int z => simp [mulOp] at h
    | lst l => simp [mulOp] at h
theorem addOp_ne {o : String} {ts : List Tok} (h : addOp ts = some o) : ts ≠ [] := by
  rintro rfl; simp [addOp] at h

/-- Not out of steps, and tokens are used up: at least one if there is one. -/
def Good (exp : List Tok) (r : Res (Form × List Tok × St)) : Prop :=
  r ≠ .out ∧ ∀ f e st, r = .ok (f, e, st) → sizeList e ≤ sizeList exp ∧ (exp ≠ [] → sizeList e + 1 ≤ sizeList exp)

def GoodL (r : Res (Form × List Tok × St)) (exp : List Tok) : Prop :=
  r ≠ .out ∧ ∀ f e st, r = .ok (f, e, st) → sizeList e ≤ sizeList exp

structure AllGood (n : Nat) : Prop where
  factor1 : ∀ lhs exp st, 10 * sizeList exp + 1 ≤ n → Good exp (factor1 lhs n exp st)
  factor : ∀ lhs exp st, 10 * sizeList exp + 2 ≤ n → Good exp (factor lhs n exp st)
  term : ∀ lhs exp st, 10 * sizeList exp + 5 ≤ n → Good exp (term lhs n exp st)
  termLoop : ∀ lhs o args exp st, (10 * sizeList exp + 4 ≤ n ∨ (10 * sizeList exp + 3 ≤ n ∧ headIs o exp = true)) → GoodL (termLoop lhs n o args exp st) exp
  expr : ∀ lhs exp st, 10 * sizeList exp + 6 ≤ n → Good exp (expr lhs n exp st)
  exprLoop : ∀ lhs args exp st, 10 * sizeList exp + 3 ≤ n → GoodL (exprLoop lhs n args exp st) exp
  exprList : ∀ lhs exp st, 10 * sizeList exp + 8 ≤ n → exprList lhs n exp st ≠ .out

theorem allGood (n : Nat) : AllGood n := by
  induction n with
  | zero => refine ⟨?_, ?_, ?_, ?_, ?_, ?_, ?_⟩ <;> intros <;> omega
  | succ n ih =>
    refine ⟨?_, ?_, ?_, ?_, ?_, ?_, ?_⟩
    · intro lhs exp st hn
      cases exp with
      | nil => simp [factor1, Good]
      | cons t rest =>
        have htp := t.size_pos
        simp only [sizeList] at hn
        simp only [factor1]
        split
        · split
          · next l hl =>
            simp only [Tok.size] at hn htp
            have hg := ih.expr lhs l st (by omega)
            cases he : expr lhs n l st with
            | ok p =>
              obtain ⟨f, e, st'⟩ := p
              cases e with
              | nil => simp [Good, sizeList, Tok.size]; omega
              | cons x xs => simp [Good]
            | err => simp [Good]
            | out => exact absurd he hg.1
          · simp [Good]
        · next a ha =>
          split
          · next x xs rest' =>
            simp only [sizeList, Tok.size] at hn
            have hx := x.size_pos
            split
            · have hg := ih.exprList lhs xs st (by omega)
              cases he : exprList lhs n xs st with
              | ok p =>
                obtain ⟨args, st'⟩ := p
                cases lhs <;> simp [Good, sizeList, Tok.size] <;> omega
              | err => simp [Good]
              | out => exact absurd he hg
            · have hg := ih.exprList lhs (x :: xs) st (by simp only [sizeList]; omega)
              cases he : exprList lhs n (x :: xs) st with
              | ok p =>
                obtain ⟨args, st'⟩ := p
                simp [Good, sizeList, Tok.size]; omega
              | err => simp [Good]
              | out => exact absurd he hg
          · refine ⟨by simp, fun f e st' h => ?_⟩
            simp only [Res.ok.injEq, Prod.mk.injEq] at h
            obtain ⟨_, rfl, _⟩ := h
            simp only [sizeList]; omega
    · intro lhs exp st hn
      have h1 := ih.factor1 lhs exp st (by omega)
      simp only [factor]
      cases he : factor1 lhs n exp st with
      | ok p =>
        obtain ⟨f, e, st'⟩ := p
        obtain ⟨g1, g2⟩ := h1.2 f e st' he
        simp only []
        split
        · next hh =>
          have hs := size_tail (headIs_ne hh)
          have h2 := ih.factor1 lhs e.tail st' (by omega)
          cases he2 : factor1 lhs n e.tail st' with
          | ok q =>
            obtain ⟨f2, e2, st2⟩ := q
            obtain ⟨k1, k2⟩ := h2.2 f2 e2 st2 he2
            refine ⟨by simp, fun f3 e3 st3 h => ?_⟩
            simp only [Res.ok.injEq, Prod.mk.injEq] at h
            obtain ⟨_, rfl, _⟩ := h
            exact ⟨by omega, fun hne => by have := g2 hne; omega⟩
          | err => simp [Good]
          | out => exact absurd he2 h2.1
        · refine ⟨by simp, fun f3 e3 st3 h => ?_⟩
          simp only [Res.ok.injEq, Prod.mk.injEq] at h
          obtain ⟨_, rfl, _⟩ := h
          exact ⟨g1, g2⟩
      | err => simp [Good]
      | out => exact absurd he h1.1
    · intro lhs exp st hn
      have h1 := ih.factor lhs exp st (by omega)
      simp only [term]
      cases he : factor lhs n exp st with
      | ok p =>
        obtain ⟨f, e, st'⟩ := p
        obtain ⟨g1, g2⟩ := h1.2 f e st' he
        simp only []
        split
        · next o ho =>
          have h2 := ih.termLoop lhs o [f] e st' (Or.inl (by omega))
          refine ⟨h2.1, fun f3 e3 st3 h => ?_⟩
          have := h2.2 f3 e3 st3 h
          exact ⟨by omega, fun hne => by have := g2 hne; omega⟩
        · refine ⟨by simp, fun f3 e3 st3 h => ?_⟩
          simp only [Res.ok.injEq, Prod.mk.injEq] at h
          obtain ⟨_, rfl, _⟩ := h
          exact ⟨g1, g2⟩
      | err => simp [Good]
      | out => exact absurd he h1.1
    · intro lhs o args exp st hn
      simp only [termLoop]
      split
      · next hh =>
        have hs := size_tail (headIs_ne hh)
        have h1 := ih.factor lhs exp.tail st (by omega)
        cases he : factor lhs n exp.tail st with
        | ok p =>
          obtain ⟨f, e, st'⟩ := p
          obtain ⟨g1, g2⟩ := h1.2 f e st' he
          have h2 := ih.termLoop lhs o (args ++ [f]) e st' (Or.inl (by omega))
          refine ⟨h2.1, fun f3 e3 st3 h => ?_⟩
          have := h2.2 f3 e3 st3 h
          omega
        | err => simp [GoodL]
        | out => exact absurd he h1.1
      · next hh =>
        have hn' : 10 * sizeList exp + 4 ≤ n + 1 := by
          rcases hn with h | ⟨_, h⟩
          · exact h
          · exact absurd h hh
        split
        · next o' ho' =>
          exact ih.termLoop lhs o' [op o args] exp st (Or.inr ⟨by omega, (mulOp_ne ho').2⟩)
        · refine ⟨by simp, fun f3 e3 st3 h => ?_⟩
          simp only [Res.ok.injEq, Prod.mk.injEq] at h
          obtain ⟨_, rfl, _⟩ := h
          exact le_refl _
    · intro lhs exp st hn
      simp only [expr]
      -- the sign, if there is one, is a token
      obtain ⟨exp1, hexp1⟩ : ∃ e, e = (if (addOp exp).isSome = true then exp.tail else exp) := ⟨_, rfl⟩
      rw [← hexp1]
      have hle : sizeList exp1 ≤ sizeList exp := by
        rw [hexp1]; split
        · exact size_tail_le exp
        · exact le_refl _
      have hlt : exp ≠ [] → exp1 = [] → sizeList exp1 + 1 ≤ sizeList exp := by
        intro hne h0
        rw [h0]; obtain ⟨t, ts, rfl⟩ := List.exists_cons_of_ne_nil hne
        have := t.size_pos; simp only [sizeList]; omega
      have h1 := ih.term lhs exp1 st (by omega)
      cases he : term lhs n exp1 st with
      | ok p =>
        obtain ⟨f, e, st'⟩ := p
        obtain ⟨g1, g2⟩ := h1.2 f e st' he
        have g3 : exp ≠ [] → sizeList e + 1 ≤ sizeList exp := by
          intro hne
          by_cases h0 : exp1 = []
          · have := hlt hne h0; omega
          · have := g2 h0; omega
        simp only []
        split
        · have h2 := ih.exprLoop lhs [if addOp exp = some "-" then op "-" [f] else f] e st' (by omega)
          refine ⟨h2.1, fun f3 e3 st3 h => ?_⟩
          have := h2.2 f3 e3 st3 h
          exact ⟨by omega, fun hne => by have := g3 hne; omega⟩
        · refine ⟨by simp, fun f3 e3 st3 h => ?_⟩
          simp only [Res.ok.injEq, Prod.mk.injEq] at h
          obtain ⟨_, rfl, _⟩ := h
          exact ⟨by omega, g3⟩
      | err => simp [Good]
      | out => exact absurd he h1.1
    · intro lhs args exp st hn
      simp only [exprLoop]
      split
      · next o ho =>
        have hs := size_tail (addOp_ne ho)
        have h1 := ih.term lhs exp.tail st (by omega)
        cases he : term lhs n exp.tail st with
        | ok p =>
          obtain ⟨f, e, st'⟩ := p
          obtain ⟨g1, g2⟩ := h1.2 f e st' he
          have h2 := ih.exprLoop lhs (args ++ [if o = "-" then op "-" [f] else f]) e st' (by omega)
          refine ⟨h2.1, fun f3 e3 st3 h => ?_⟩
          have := h2.2 f3 e3 st3 h
          omega
        | err => simp [GoodL]
        | out => exact absurd he h1.1
      · refine ⟨by simp, fun f3 e3 st3 h => ?_⟩
        simp only [Res.ok.injEq, Prod.mk.injEq] at h
        obtain ⟨_, rfl, _⟩ := h
        exact le_refl _
    · intro lhs exp st hn
      cases exp with
      | nil => simp [exprList]
      | cons t ts =>
        simp only [exprList]
        have h1 := ih.expr lhs (t :: ts) st (by omega)
        cases he : expr lhs n (t :: ts) st with
        | ok p =>
          obtain ⟨f, e, st'⟩ := p
          have g2 := (h1.2 f e st' he).2 (by simp)
          have h2 := ih.exprList lhs e st' (by omega)
          simp only []
          cases he2 : exprList lhs n e st' with
          | ok q => simp
          | err => simp
          | out => exact absurd he2 h2
        | err => simp
        | out => exact absurd he h1.1

structure AllMono (n : Nat) : Prop where
  factor1 : ∀ lhs exp st, factor1 lhs n exp st ≠ .out → factor1 lhs (n + 1) exp st = factor1 lhs n exp st
  factor : ∀ lhs exp st, factor lhs n exp st ≠ .out → factor lhs (n + 1) exp st = factor lhs n exp st
  term : ∀ lhs exp st, term lhs n exp st ≠ .out → term lhs (n + 1) exp st = term lhs n exp st
  termLoop : ∀ lhs o args exp st, termLoop lhs n o args exp st ≠ .out → termLoop lhs (n + 1) o args exp st = termLoop lhs n o args exp st
  expr : ∀ lhs exp st, expr lhs n exp st ≠ .out → expr lhs (n + 1) exp st = expr lhs n exp st
  exprLoop : ∀ lhs args exp st, exprLoop lhs n args exp st ≠ .out → exprLoop lhs (n + 1) args exp st = exprLoop lhs n args exp st
  exprList : ∀ lhs exp st, exprList lhs n exp st ≠ .out → exprList lhs (n + 1) exp st = exprList lhs n exp st

theorem allMono (n : Nat) : AllMono n := by
  induction n with
  | zero =>
    refine ⟨?_, ?_, ?_, ?_, ?_, ?_, ?_⟩ <;> intros <;> simp_all [factor1, factor, term, termLoop, expr, exprLoop, exprList]
  | succ n ih =>
    refine ⟨?_, ?_, ?_, ?_, ?_, ?_, ?_⟩
    · intro lhs exp st h
      cases exp with
      | nil => simp [factor1]
      | cons t rest =>
        simp only [factor1] at h ⊢
        cases hA : t.atom? with
        | none =>
          simp only [hA] at h ⊢
          cases t with
          | sym s => rfl
          | int z => rfl
          | lst l =>
            simp only [] at h ⊢
            have := ih.expr lhs l st (by intro hc; rw [hc] at h; simp at h)
            rw [this]
        | some a =>
          simp only [hA] at h ⊢
          split at h
          · next x xs rest' =>
            by_cases ha : headIs "aref" (x :: xs) = true
            · simp only [ha, if_true] at h ⊢
              have := ih.exprList lhs xs st (by intro hc; rw [hc] at h; simp at h)
              rw [this]
            · simp only [ha, Bool.false_eq_true, if_false] at h ⊢
              have := ih.exprList lhs (x :: xs) st (by intro hc; rw [hc] at h; simp at h)
              rw [this]
          · rfl
    · intro lhs exp st h
      rw [factor] at h ⊢
      rw [factor]
      have h1 := ih.factor1 lhs exp st (by intro hc; rw [hc] at h; simp at h)
      rw [h1]
      cases he : factor1 lhs n exp st with
      | ok p =>
        obtain ⟨f, e, st'⟩ := p
        rw [he] at h
        simp only [] at h ⊢
        split
        · next hh =>
          simp only [hh, if_true] at h
          have h2 := ih.factor1 lhs e.tail st' (by intro hc; rw [hc] at h; simp at h)
          rw [h2]
        · rfl
      | err => rfl
      | out => rfl
    · intro lhs exp st h
      rw [term] at h ⊢
      rw [term]
      have h1 := ih.factor lhs exp st (by intro hc; rw [hc] at h; simp at h)
      rw [h1]
      cases he : factor lhs n exp st with
      | ok p =>
        obtain ⟨f, e, st'⟩ := p
        rw [he] at h
        simp only [] at h ⊢
        cases hm : mulOp e with
        | some o =>
          simp only [hm] at h ⊢
          exact ih.termLoop lhs o [f] e st' h
        | none => rfl
      | err => rfl
      | out => rfl
    · intro lhs o args exp st h
      rw [termLoop] at h ⊢
      rw [termLoop]
      by_cases hh : headIs o exp = true
      · simp only [hh, if_true] at h ⊢
        have h1 := ih.factor lhs exp.tail st (by intro hc; rw [hc] at h; simp at h)
        rw [h1]
        cases he : factor lhs n exp.tail st with
        | ok p =>
          obtain ⟨f, e, st'⟩ := p
          rw [he] at h
          exact ih.termLoop lhs o (args ++ [f]) e st' h
        | err => rfl
        | out => rfl
      · simp only [hh] at h ⊢
        cases hm : mulOp exp with
        | some o' =>
          simp only [hm] at h ⊢
          exact ih.termLoop lhs o' [op o args] exp st h
        | none => rfl
    · intro lhs exp st h
      rw [expr] at h ⊢
      rw [expr]
      have h1 := ih.term lhs (if (addOp exp).isSome = true then exp.tail else exp) st (by intro hc; rw [hc] at h; simp at h)
      rw [h1]
      cases he : term lhs n (if (addOp exp).isSome = true then exp.tail else exp) st with
      | ok p =>
        obtain ⟨f, e, st'⟩ := p
        rw [he] at h
        simp only [] at h ⊢
        split
        · next hh =>
          simp only [hh, if_true] at h
          exact ih.exprLoop lhs _ e st' h
        · rfl
      | err => rfl
      | out => rfl
    · intro lhs args exp st h
      rw [exprLoop] at h ⊢
      rw [exprLoop]
      cases ha : addOp exp with
      | some o =>
        simp only [ha] at h ⊢
        have h1 := ih.term lhs exp.tail st (by intro hc; rw [hc] at h; simp at h)
        rw [h1]
        cases he : term lhs n exp.tail st with
        | ok p =>
          obtain ⟨f, e, st'⟩ := p
          rw [he] at h
          exact ih.exprLoop lhs _ e st' h
        | err => rfl
        | out => rfl
      | none => rfl
    · intro lhs exp st h
      cases exp with
      | nil => simp [exprList]
      | cons t ts =>
        rw [exprList] at h ⊢
        conv_rhs => rw [exprList]
        have h1 := ih.expr lhs (t :: ts) st (by intro hc; rw [hc] at h; simp at h)
        rw [h1]
        cases he : expr lhs n (t :: ts) st with
        | ok p =>
          obtain ⟨f, e, st'⟩ := p
          rw [he] at h
          simp only [] at h ⊢
          have h2 := ih.exprList lhs e st' (by intro hc; rw [hc] at h; simp at h)
          rw [h2]
        | err => rfl
        | out => rfl

theorem relExpr_good (lhs : Bool) (n : Nat) (exp : List Tok) (h : 10 * sizeList exp + 6 ≤ n) (st : St) : relExpr lhs n exp st ≠ .out := by
  unfold relExpr
  have h1 := (allGood n).expr lhs exp st h
  cases he : expr lhs n exp st with
  | ok p =>
    obtain ⟨f, e, st'⟩ := p
    have g1 := (h1.2 f e st' he).1
    simp only []
    split
    · next o ho =>
      have hs := size_tail_le e
      have h2 := (allGood n).expr lhs e.tail st' (by omega)
      cases he2 : expr lhs n e.tail st' with
      | ok q => simp
      | err => simp
      | out => exact absurd he2 h2.1
    · simp
  | err => simp
  | out => exact absurd he h1.1

theorem relExpr_mono (lhs : Bool) (n : Nat) (exp : List Tok) (st : St) (h : relExpr lhs n exp st ≠ .out) :
    relExpr lhs (n + 1) exp st = relExpr lhs n exp st := by
  unfold relExpr at h ⊢
  have h1 := (allMono n).expr lhs exp st (by intro hc; rw [hc] at h; simp at h)
  rw [h1]
  cases he : expr lhs n exp st with
  | ok p =>
    obtain ⟨f, e, st'⟩ := p
    rw [he] at h
    simp only [] at h ⊢
    cases hr : relOp e with
    | some o =>
      simp only [hr] at h ⊢
      have h2 := (allMono n).expr lhs e.tail st' (by intro hc; rw [hc] at h; simp at h)
      rw [h2]
    | none => rfl
  | err => rfl
  | out => rfl

theorem expressionN_good (lhs : Bool) (n : Nat) (exp : List Tok) (h : bound exp ≤ n) : expressionN lhs n exp ≠ .out := by
  unfold expressionN
  have h1 := relExpr_good lhs n exp (by unfold bound at h; omega) []
  cases he : relExpr lhs n exp [] with
  | ok p =>
    obtain ⟨f, e, st'⟩ := p
    cases e <;> simp
  | err => simp
  | out => exact absurd he h1

theorem relExpr_stable (lhs : Bool) (exp : List Tok) (k : Nat) : relExpr lhs (bound exp + k) exp [] = relExpr lhs (bound exp) exp [] := by
  induction k with
  | zero => rfl
  | succ k ih =>
    rw [← ih]
    exact relExpr_mono lhs (bound exp + k) exp [] (relExpr_good lhs _ exp (by unfold bound; omega) [])

/-- What holds with enough steps holds of `expression`. -/
theorem relExpr_ev (lhs : Bool) (exp : List Tok) (R : Res (Form × List Tok × St)) (h : Ev (fun n => relExpr lhs n exp []) R) :
    relExpr lhs (bound exp) exp [] = R := by
  obtain ⟨N, h⟩ := h
  rw [← relExpr_stable lhs exp N]
  exact h _ (by omega)

end Eus.Inf
