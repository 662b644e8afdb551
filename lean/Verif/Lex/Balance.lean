import Verif.Lex.Main
set_option autoImplicit false
/-
Every form, of any program, leaves the bindings as it found them.
-/
namespace Eus.Lex

variable {P : Prog} {ev : Expr → MState → Res MVal MState}

structure Keep (m m' : MState) : Prop where
  sb : m'.sb = m.sb
  bindfp : m'.bindfp = m.bindfp
  fletfp : m'.fletfp = m.fletfp
  len : m'.stack.length = m.stack.length

theorem Keep.refl (m : MState) : Keep m m := ⟨rfl, rfl, rfl, rfl⟩
theorem Keep.trans {m m1 m2 : MState} (h : Keep m m1) (h' : Keep m1 m2) : Keep m m2 := ⟨h'.sb.trans h.sb, h'.bindfp.trans h.bindfp, h'.fletfp.trans h.fletfp, h'.len.trans h.len⟩

/-- More bindings, on top. -/
structure More (m m1 : MState) : Prop where
  sb : ∃ pre, m1.sb = pre ++ m.sb
  len : m.stack.length ≤ m1.stack.length

theorem More.trans {m m1 m2 : MState} (h : More m m1) (h' : More m1 m2) : More m m2 := by
  obtain ⟨p, hp⟩ := h.sb
  obtain ⟨q, hq⟩ := h'.sb
  exact ⟨⟨q ++ p, by rw [hq, hp, List.append_assoc]⟩, Nat.le_trans h.len h'.len⟩

theorem Keep.more {m m1 : MState} (h : Keep m m1) : More m m1 := ⟨⟨[], h.sb⟩, Nat.le_of_eq h.len.symm⟩

def KeepEv (ev : Expr → MState → Res MVal MState) : Prop := ∀ e m v m', ev e m = .ok v m' → Keep m m'

theorem unbind_fst (sb : List (Sym × Option MVal)) (pre : List (Sym × Option MVal)) : ∀ g, (unbind sb.length (pre ++ sb) g).1 = sb := by
  induction pre with
  | nil => intro g; rw [List.nil_append, unbind_self]
  | cons c pre ih =>
    intro g
    obtain ⟨x, v⟩ := c
    rw [List.cons_append, unbind, if_pos (by rw [List.length_append]; omega)]
    exact ih _

theorem keep_leave {m m' : MState} (h : More m m') : Keep m (leave m m') := by
  obtain ⟨pre, hp⟩ := h.sb
  refine ⟨?_, rfl, rfl, ?_⟩
  · simp only [leave, hp, unbind_fst]
  · simp only [leave, List.length_take, Nat.min_eq_left h.len]

theorem bind_ok {α β S : Type} {r : Res α S} {f : α → S → Res β S} {b : β} {s : S} (h : r.bind f = .ok b s) : ∃ a s1, r = .ok a s1 ∧ f a s1 = .ok b s := by
  cases r with
  | ok a s1 => exact ⟨a, s1, rfl, h⟩
  | err => cases h
  | ub => cases h
  | escape => cases h
  | out => cases h

theorem keep_progn (hk : KeepEv ev) (es : List Expr) : ∀ v m w m', prognFrom ev v es m = .ok w m' → Keep m m' := by
  induction es with
  | nil => intro v m w m' h; cases h; exact Keep.refl _
  | cons e es ih =>
    intro v m w m' h
    obtain ⟨a, m1, h1, h2⟩ := bind_ok h
    exact (hk _ _ _ _ h1).trans (ih _ _ _ _ h2)

theorem keep_and (hk : KeepEv ev) (es : List Expr) : ∀ v m w m', andFrom ev v es m = .ok w m' → Keep m m' := by
  induction es with
  | nil => intro v m w m' h; cases h; exact Keep.refl _
  | cons e es ih =>
    intro v m w m' h
    obtain ⟨a, m1, h1, h2⟩ := bind_ok h
    cases a with
    | nil => cases h2; exact hk _ _ _ _ h1
    | _ => exact (hk _ _ _ _ h1).trans (ih _ _ _ _ h2)

theorem keep_or (hk : KeepEv ev) (es : List Expr) : ∀ m w m', orFrom ev es m = .ok w m' → Keep m m' := by
  induction es with
  | nil => intro m w m' h; cases h; exact Keep.refl _
  | cons e es ih =>
    intro m w m' h
    obtain ⟨a, m1, h1, h2⟩ := bind_ok h
    cases a with
    | nil => exact (hk _ _ _ _ h1).trans (ih _ _ _ h2)
    | _ => cases h2; exact hk _ _ _ _ h1

theorem keep_args (hk : KeepEv ev) (es : List Expr) : ∀ m vs m', evalArgs ev es m = .ok vs m' → Keep m m' := by
  induction es with
  | nil => intro m w m' h; cases h; exact Keep.refl _
  | cons e es ih =>
    intro m w m' h
    obtain ⟨a, m1, h1, h2⟩ := bind_ok h
    obtain ⟨b, m2, h3, h4⟩ := bind_ok h2
    cases h4
    exact (hk _ _ _ _ h1).trans (ih _ _ _ h3)

theorem vbind_restores {x : Sym} {v : MVal} {lex scope env : Ptr} {m m1 : MState} (h : vbind P x v lex scope m = .ok env m1) : Restores P [x] m m1 ∧ More m m1 := by
  unfold vbind at h
  cases hm : multi m.stack x scope (m.stack.length + 1) m.bindfp with
  | ok b u =>
    rw [hm] at h
    cases b with
    | true => cases h
    | false =>
      cases hx : P.special x with
      | true =>
        simp only [hx, if_true, Res.ok.injEq] at h
        obtain ⟨_, rfl⟩ := h
        refine ⟨⟨Nat.le_succ _, fun g => ?_, fun y hy => ?_⟩, ⟨⟨[(x, m.glob x)], rfl⟩, Nat.le_refl _⟩⟩
        · show unbind m.sb.length ((x, m.glob x) :: m.sb) g = _
          rw [unbind, if_pos (Nat.lt_succ_self _), unbind_self]
          congr 1
          funext y
          by_cases h : y = x
          · subst h; simp [hx]
          · simp [h]
        · have : y ≠ x := by rintro rfl; exact hy ⟨hx, List.mem_singleton.2 rfl⟩
          simp [MState.setGlob, this]
      | false =>
        simp only [hx, Bool.false_eq_true, if_false, Res.ok.injEq] at h
        obtain ⟨_, rfl⟩ := h
        refine ⟨⟨Nat.le_refl _, fun g => ?_, fun y hy => rfl⟩, ⟨⟨[], rfl⟩, by simp⟩⟩
        rw [unbind_self]
        have : ∀ y, ¬(P.special y = true ∧ y ∈ [x]) := by
          rintro y ⟨h1, h2⟩
          rw [List.mem_singleton.1 h2, hx] at h1; cases h1
        simp only [if_neg (this _)]
  | err => rw [hm] at h; cases h
  | ub => rw [hm] at h; cases h
  | escape => rw [hm] at h; cases h
  | out => rw [hm] at h; cases h

theorem bindAll_restores {scope : Ptr} (xs : List Sym) : ∀ {vs : List MVal} {env env1 : Ptr} {m m1 : MState}, bindAll P scope xs vs env m = .ok env1 m1 → Restores P xs m m1 ∧ More m m1 := by
  induction xs with
  | nil =>
    intro vs env env1 m m1 h
    cases vs with
    | nil => cases h; exact ⟨⟨Nat.le_refl _, fun g => by rw [unbind_self]; simp, fun _ _ => rfl⟩, (Keep.refl m).more⟩
    | cons => cases h
  | cons x xs ih =>
    intro vs env env1 m m1 h
    cases vs with
    | nil => cases h
    | cons v vs =>
      obtain ⟨a, m2, h1, h2⟩ := bind_ok h
      have h3 := vbind_restores h1
      have h4 := ih h2
      exact ⟨h3.1.trans h4.1, h3.2.trans h4.2⟩

theorem keep_apply (hk : KeepEv ev) {ps : List Sym} {body : List Expr} {e fe : Ptr} {vs : List MVal} {m : MState} {v : MVal} {m' : MState} (h : apply P ev ps body e fe vs m = .ok v m') : Keep m m' := by
  obtain ⟨a, m1, h1, h2⟩ := bind_ok h
  obtain ⟨b, m2, h3, h4⟩ := bind_ok h2
  cases h4
  have h5 := (bindAll_restores _ h1).2
  exact keep_leave (More.trans ⟨h5.sb, h5.len⟩ (keep_progn hk _ _ _ _ _ h3).more)

theorem keep_bindSeq (hk : KeepEv ev) {scope : Ptr} (bs : List (Sym × Expr)) : ∀ {env env1 : Ptr} {m m1 : MState}, bindSeq P ev scope bs env m = .ok env1 m1 → More m m1 := by
  induction bs with
  | nil => intro env env1 m m1 h; cases h; exact (Keep.refl m).more
  | cons b bs ih =>
    obtain ⟨x, e⟩ := b
    intro env env1 m m1 h
    obtain ⟨a, m2, h1, h2⟩ := bind_ok h
    obtain ⟨c, m3, h3, h4⟩ := bind_ok h2
    exact (hk _ _ _ _ h1).more.trans ((vbind_restores h3).2.trans (ih h4))

theorem keep_setval {x : Sym} {v w : MVal} {m m' : MState} (h : setval P x v m = .ok w m') : Keep m m' := by
  unfold setval at h
  cases hx : P.special x with
  | true => simp only [hx, if_true] at h; cases h; exact ⟨rfl, rfl, rfl, rfl⟩
  | false =>
    simp only [hx, Bool.false_eq_true, if_false] at h
    cases hf : findVar false m.stack x (m.stack.length + 1) m.bindfp with
    | ok i u =>
      rw [hf] at h
      cases i with
      | none => cases h; exact ⟨rfl, rfl, rfl, rfl⟩
      | some i =>
        simp only at h
        cases hs : m.stack[i]? with
        | none => rw [hs] at h; cases h
        | some E =>
          rw [hs] at h
          cases E with
          | bind => cases h; exact ⟨rfl, rfl, rfl, by simp⟩
          | fn => cases h
    | err => rw [hf] at h; cases h
    | ub => rw [hf] at h; cases h
    | escape => rw [hf] at h; cases h
    | out => rw [hf] at h; cases h

theorem keep_getval {x : Sym} {w : MVal} {m m' : MState} (h : getval P x m = .ok w m') : m' = m := by
  have hg : ∀ w, (match m.glob x with | some v => (.ok v m : Res MVal MState) | none => .err) = .ok w m' → m' = m := by
    intro w h
    cases hg : m.glob x with
    | none => rw [hg] at h; cases h
    | some v => rw [hg] at h; cases h; rfl
  unfold getval at h
  cases hx : P.special x with
  | true => simp only [hx, if_true] at h; exact hg w h
  | false =>
    simp only [hx, Bool.false_eq_true, if_false] at h
    cases hf : findVar true m.stack x (m.stack.length + 1) m.bindfp with
    | ok i u =>
      rw [hf] at h
      cases i with
      | none => exact hg w h
      | some i =>
        simp only at h
        cases hs : m.stack[i]? with
        | none => rw [hs] at h; cases h
        | some E =>
          rw [hs] at h
          cases E with
          | bind => cases h; rfl
          | fn => cases h
    | err => rw [hf] at h; cases h
    | ub => rw [hf] at h; cases h
    | escape => rw [hf] at h; cases h
    | out => rw [hf] at h; cases h

theorem keep_getfunc {f : Sym} {g : Fun} {m m' : MState} (h : getfunc P f m = .ok g m') : m' = m := by
  unfold getfunc at h
  cases hf : findFun m.stack f (m.stack.length + 1) m.fletfp with
  | ok i u =>
    rw [hf] at h
    cases i with
    | none =>
      simp only at h
      cases hd : P.fns f with
      | none => rw [hd] at h; cases h
      | some d => rw [hd] at h; cases h; rfl
    | some i =>
      simp only at h
      cases hs : m.stack[i]? with
      | none => rw [hs] at h; cases h
      | some E =>
        rw [hs] at h
        cases E with
        | bind => cases h
        | fn => cases h; rfl
  | err => rw [hf] at h; cases h
  | ub => rw [hf] at h; cases h
  | escape => rw [hf] at h; cases h
  | out => rw [hf] at h; cases h

theorem more_flet (scope : Ptr) (ds : List (Sym × List Sym × List Expr)) (m : MState) : More m (pushFlet scope ds m) := by
  rw [pushFlet_eq]; exact ⟨⟨[], rfl⟩, by simp⟩

theorem keep_step (hk : KeepEv ev) : KeepEv (evalF P ev) := by
  intro e m v m' h
  cases e with
  | nil => cases h; exact Keep.refl _
  | t => cases h; exact Keep.refl _
  | int n => cases h; exact Keep.refl _
  | var x => rw [keep_getval h]; exact Keep.refl _
  | setq x e =>
    obtain ⟨a, m1, h1, h2⟩ := bind_ok h
    exact (hk _ _ _ _ h1).trans (keep_setval h2)
  | ite c a b =>
    obtain ⟨w, m1, h1, h2⟩ := bind_ok h
    cases w <;> exact (hk _ _ _ _ h1).trans (hk _ _ _ _ h2)
  | not e =>
    obtain ⟨w, m1, h1, h2⟩ := bind_ok h
    cases h2; exact hk _ _ _ _ h1
  | and es =>
    cases es with
    | nil => cases h
    | cons e es => exact keep_and hk _ _ _ _ _ h
  | or es => exact keep_or hk _ _ _ _ h
  | progn es => exact keep_progn hk _ _ _ _ _ h
  | «while» c body =>
    obtain ⟨w, m1, h1, h2⟩ := bind_ok h
    have hb : ∀ r, ((prognFrom ev .nil body m1).bind fun _ m => ev (.while c body) m) = r → r = .ok v m' → Keep m1 m' := by
      rintro r rfl h
      obtain ⟨_, m2, h3, h4⟩ := bind_ok h
      exact (keep_progn hk _ _ _ _ _ h3).trans (hk _ _ _ _ h4)
    cases w with
    | nil => cases h2; exact hk _ _ _ _ h1
    | t => exact (hk _ _ _ _ h1).trans (hb _ rfl h2)
    | int => exact (hk _ _ _ _ h1).trans (hb _ rfl h2)
    | clo => exact (hk _ _ _ _ h1).trans (hb _ rfl h2)
  | letp bs body =>
    obtain ⟨vs, m1, h1, h2⟩ := bind_ok h
    obtain ⟨_, m2, h3, h4⟩ := bind_ok h2
    obtain ⟨w, m3, h5, h6⟩ := bind_ok h4
    cases h6
    exact (keep_args hk _ _ _ _ h1).trans (keep_leave ((bindAll_restores _ h3).2.trans (keep_progn hk _ _ _ _ _ h5).more))
  | lets bs body =>
    obtain ⟨_, m2, h3, h4⟩ := bind_ok h
    obtain ⟨w, m3, h5, h6⟩ := bind_ok h4
    cases h6
    exact keep_leave ((keep_bindSeq hk _ h3).trans (keep_progn hk _ _ _ _ _ h5).more)
  | lam ps body => cases h; exact Keep.refl _
  | fn f =>
    obtain ⟨g, m1, h1, h2⟩ := bind_ok h
    obtain rfl := keep_getfunc h1
    cases g <;> (cases h2; exact Keep.refl _)
  | funcall e args =>
    obtain ⟨g, m1, h1, h2⟩ := bind_ok h
    obtain ⟨vs, m2, h3, h4⟩ := bind_ok h2
    have h5 := (hk _ _ _ _ h1).trans (keep_args hk _ _ _ _ h3)
    cases g with
    | nil => cases h4
    | t => cases h4
    | int => cases h4
    | clo => exact h5.trans (keep_apply hk h4)
  | call f args =>
    obtain ⟨g, m1, h1, h2⟩ := bind_ok h
    obtain rfl := keep_getfunc h1
    obtain ⟨vs, m2, h3, h4⟩ := bind_ok h2
    cases g <;> exact (keep_args hk _ _ _ _ h3).trans (keep_apply hk h4)
  | lamcall ps body args =>
    obtain ⟨vs, m2, h3, h4⟩ := bind_ok h
    exact (keep_args hk _ _ _ _ h3).trans (keep_apply hk h4)
  | flet ds body =>
    obtain ⟨w, m3, h5, h6⟩ := bind_ok h
    cases h6
    exact keep_leave ((more_flet _ ds m).trans (keep_progn hk _ _ _ _ _ h5).more)
  | labels ds body =>
    simp only [evalF, labels_eq] at h
    obtain ⟨w, m3, h5, h6⟩ := bind_ok h
    cases h6
    exact keep_leave ((more_flet _ ds m).trans (keep_progn hk _ _ _ _ _ h5).more)
  | prim k args =>
    obtain ⟨vs, m2, h3, h4⟩ := bind_ok h
    cases hd : (vs.mapM Val.datum).bind (P.builtin k) with
    | none => simp only [hd] at h4; cases h4
    | some d => simp only [hd] at h4; cases h4; exact keep_args hk _ _ _ _ h3

theorem keep_all : ∀ n, KeepEv (eval P n)
  | 0 => fun _ _ _ _ h => by cases h
  | n + 1 => keep_step (keep_all n)

/-! ### Functions called after their form was left -/

/-- The same, unless the first has escaped. -/
def Agree {α S : Type} (r r' : Res α S) : Prop := r = .escape ∨ r = r'

theorem Agree.bind {α β S : Type} {r r' : Res α S} {f f' : α → S → Res β S} (h : Agree r r') (hf : ∀ a s, Agree (f a s) (f' a s)) : Agree (r.bind f) (r'.bind f') := by
  rcases h with rfl | rfl
  · exact Or.inl rfl
  · cases r with
    | ok a s => exact hf a s
    | err => exact Or.inr rfl
    | ub => exact Or.inr rfl
    | escape => exact Or.inr rfl
    | out => exact Or.inr rfl

theorem Agree.refl {α S : Type} (r : Res α S) : Agree r r := Or.inr rfl

def AgreeEv (ev ev' : SEnv → SEnv → Expr → SState → Res SVal SState) : Prop := ∀ ρ φ e s, Agree (ev ρ φ e s) (ev' ρ φ e s)

variable {e1 e2 : SEnv → SEnv → Expr → SState → Res SVal SState}

theorem agree_progn (h : AgreeEv e1 e2) (ρ φ : SEnv) (es : List Expr) : ∀ v s, Agree (prognFrom (e1 ρ φ) v es s) (prognFrom (e2 ρ φ) v es s) := by
  induction es with
  | nil => intro v s; exact Agree.refl _
  | cons e es ih => intro v s; exact (h ρ φ e s).bind fun a s => ih a s

theorem agree_and (h : AgreeEv e1 e2) (ρ φ : SEnv) (es : List Expr) : ∀ v s, Agree (andFrom (e1 ρ φ) v es s) (andFrom (e2 ρ φ) v es s) := by
  induction es with
  | nil => intro v s; exact Agree.refl _
  | cons e es ih =>
    intro v s
    refine (h ρ φ e s).bind fun a s => ?_
    cases a with
    | nil => exact Agree.refl _
    | _ => exact ih _ s

theorem agree_or (h : AgreeEv e1 e2) (ρ φ : SEnv) (es : List Expr) : ∀ s, Agree (orFrom (e1 ρ φ) es s) (orFrom (e2 ρ φ) es s) := by
  induction es with
  | nil => intro s; exact Agree.refl _
  | cons e es ih =>
    intro s
    refine (h ρ φ e s).bind fun a s => ?_
    cases a with
    | nil => exact ih s
    | _ => exact Agree.refl _

theorem agree_args (h : AgreeEv e1 e2) (ρ φ : SEnv) (es : List Expr) : ∀ s, Agree (evalArgs (e1 ρ φ) es s) (evalArgs (e2 ρ φ) es s) := by
  induction es with
  | nil => intro s; exact Agree.refl _
  | cons e es ih => intro s; exact (h ρ φ e s).bind fun a s => (ih s).bind fun _ _ => Agree.refl _

theorem agree_apply (h : AgreeEv e1 e2) (ps : List Sym) (body : List Expr) (ρ φ : SEnv) (vs : List SVal) (s : SState) : Agree (sapply true P e1 ps body ρ φ vs s) (sapply false P e2 ps body ρ φ vs s) := by
  unfold sapply
  simp only [Bool.not_true, Bool.false_or, Bool.not_false, Bool.true_or, if_true]
  by_cases hl : (allLive s ρ && allLive s φ) = true
  · rw [if_pos hl]
    by_cases hn : ps.length = vs.length
    · rw [if_pos hn, if_pos hn]; exact (agree_progn h _ _ _ _ _).bind fun _ _ => Agree.refl _
    · rw [if_neg hn, if_neg hn]; exact Agree.refl _
  · rw [if_neg hl]; exact Or.inl rfl

theorem agree_lets (h : AgreeEv e1 e2) (φ : SEnv) (body : List Expr) (bs : List (Sym × Expr)) : ∀ ρ s, Agree (slets P e1 φ body bs ρ s) (slets P e2 φ body bs ρ s) := by
  induction bs with
  | nil => intro ρ s; exact agree_progn h _ _ _ _ _
  | cons b bs ih =>
    obtain ⟨x, e⟩ := b
    intro ρ s
    exact (h ρ φ e s).bind fun v s => (ih _ _).bind fun _ _ => Agree.refl _

theorem agree_step (h : AgreeEv e1 e2) : AgreeEv (sevalF true P e1) (sevalF false P e2) := by
  intro ρ φ e s
  cases e with
  | nil => exact Agree.refl _
  | t => exact Agree.refl _
  | int n => exact Agree.refl _
  | var x => exact Agree.refl _
  | setq x e => exact (h ρ φ e s).bind fun _ _ => Agree.refl _
  | ite c a b => exact (h ρ φ c s).bind fun v s => by cases v <;> exact h _ _ _ _
  | not e => exact (h ρ φ e s).bind fun v s => Agree.refl _
  | and es => exact agree_and h _ _ _ _ _
  | or es => exact agree_or h _ _ _ _
  | progn es => exact agree_progn h _ _ _ _ _
  | «while» c body =>
    refine (h ρ φ c s).bind fun v s => ?_
    cases v with
    | nil => exact Agree.refl _
    | t => exact (agree_progn h _ _ _ _ _).bind fun _ s => h _ _ _ _
    | int => exact (agree_progn h _ _ _ _ _).bind fun _ s => h _ _ _ _
    | clo => exact (agree_progn h _ _ _ _ _).bind fun _ s => h _ _ _ _
  | letp bs body => exact (agree_args h _ _ _ _).bind fun vs s => (agree_progn h _ _ _ _ _).bind fun _ _ => Agree.refl _
  | lets bs body => exact agree_lets h _ _ _ _ _
  | lam ps body => exact Agree.refl _
  | fn f => exact Agree.refl _
  | funcall e args =>
    refine (h ρ φ e s).bind fun g s => (agree_args h _ _ _ _).bind fun vs s => ?_
    cases g with
    | nil => exact Agree.refl _
    | t => exact Agree.refl _
    | int => exact Agree.refl _
    | clo => exact agree_apply h _ _ _ _ _ _
  | call f args =>
    simp only [sevalF]
    cases cellOf f φ with
    | none =>
      simp only
      cases P.fns f with
      | none => exact Agree.refl _
      | some d => exact (agree_args h _ _ _ _).bind fun vs s => agree_apply h _ _ _ _ _ _
    | some l =>
      simp only
      cases s.cells l with
      | var => exact Agree.refl _
      | fn => exact (agree_args h _ _ _ _).bind fun vs s => agree_apply h _ _ _ _ _ _
  | lamcall ps body args => exact (agree_args h _ _ _ _).bind fun vs s => agree_apply h _ _ _ _ _ _
  | flet ds body => exact (agree_progn h _ _ _ _ _).bind fun _ _ => Agree.refl _
  | labels ds body => exact (agree_progn h _ _ _ _ _).bind fun _ _ => Agree.refl _
  | prim k args => exact (agree_args h _ _ _ _).bind fun vs s => Agree.refl _

theorem agree_all : ∀ n, AgreeEv (seval true P n) (seval false P n)
  | 0 => fun _ _ _ _ => Agree.refl _
  | n + 1 => agree_step (agree_all n)

end Eus.Lex
