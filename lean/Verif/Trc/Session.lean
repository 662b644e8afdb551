import Verif.Trc.Lemmas
/-! Helper lemmas: sessions of the tracer and of the specification. -/

namespace Eus.Trc

variable {V : Type}

theorem upd_self {α : Type} (t : Sym → α) (f : Sym) (a : α) :
    upd t f a f = a := if_pos rfl

theorem upd_ne {α : Type} (t : Sym → α) {f g : Sym} (a : α) (h : g ≠ f) :
    upd t f a g = t g := if_neg h

theorem put_self {α : Type} (t : Sym → α) (f : Sym) (a : α) :
    Spec.put t f a f = a := if_pos rfl

theorem put_ne {α : Type} (t : Sym → α) {f g : Sym} (a : α) (h : g ≠ f) :
    Spec.put t f a g = t g := if_neg h

theorem isFun_some {w : Spec.World V} {f : Sym} (h : w.isFun f = true) :
    ∃ d, w.F f = some d ∧ d.isFun = true := by
  unfold Spec.World.isFun at h
  cases hF : w.F f with
  | none => rw [hF] at h; cases h
  | some d => rw [hF] at h; exact ⟨d, rfl, h⟩

theorem functionp_user {d : UDef V} : functionp (.user d) = d.isFun := by
  cases d <;> rfl

theorem mkRel {fn tprop mprop : Sym → Option (Def V)} {tr ti : List Sym}
    {F : Sym → Option (UDef V)} {T M E : Sym → Bool}
    (plain : ∀ f, T f = false → M f = false → fn f = (F f).map .user)
    (traced : ∀ f, T f = true → ∃ d, F f = some d ∧ d.isFun = true ∧
      fn f = some (.tracer f) ∧ tprop f = some (.user d))
    (timed : ∀ f, M f = true → ∃ d, F f = some d ∧ d.isFun = true ∧
      fn f = some (.timer f) ∧ mprop f = some (.user d))
    (apart : ∀ f, T f = true → M f = false)
    (memT : ∀ f, f ∈ tr ↔ T f = true)
    (ever : ∀ f, (mprop f).isSome = true ↔ E f = true)
    (sub : ∀ f, M f = true → E f = true) :
    Rel ⟨fn, tprop, tr, mprop, ti⟩ ⟨F, T, M, E⟩ :=
  ⟨plain, traced, timed, apart, memT, ever, sub⟩

theorem traceStep_rel {t : Tab V} {w : Spec.World V} (R : Rel t w) {f : Sym}
    (hM : w.M f = false) (hf : w.F f = none ∨ w.isFun f = true) :
    Rel (traceStep t f)
      { w with T := fun g => w.T g || ([f].contains g && w.isFun g) } := by
  by_cases hT : w.T f = true
  · have e : (fun g => w.T g || ([f].contains g && w.isFun g)) = w.T := by
      funext g
      by_cases hg : g = f
      · subst hg; simp [hT]
      · simp [hg]
    rw [e]
    have := (R.memT f).2 hT
    unfold traceStep; rw [if_pos this]; exact R
  · have hT' : w.T f = false := by simpa using hT
    have hmem : ¬ f ∈ t.traced := fun h => hT ((R.memT f).1 h)
    unfold traceStep; rw [if_neg hmem]
    have hfn := R.plain f hT' hM
    rcases hf with hf | hf
    · have e : (fun g => w.T g || ([f].contains g && w.isFun g)) = w.T := by
        funext g
        by_cases hg : g = f
        · subst hg; simp [Spec.World.isFun, hf]
        · simp [hg]
      rw [e, hfn, hf]; exact R
    · obtain ⟨d, hd, hd2⟩ := isFun_some hf
      have e : (fun g => w.T g || ([f].contains g && w.isFun g)) =
          Spec.put w.T f true := by
        funext g
        by_cases hg : g = f
        · subst hg; simp [hf, put_self]
        · simp [hg, put_ne]
      rw [e, hfn, hd]
      simp only [Option.map_some, trace1, functionp_user, hd2, if_true]
      refine mkRel ?_ ?_ ?_ ?_ ?_ R.ever R.sub
      · intro g h1 h2
        by_cases hg : g = f
        · subst hg; rw [put_self] at h1; cases h1
        · rw [put_ne _ _ hg] at h1
          rw [upd_ne _ _ hg]; exact R.plain g h1 h2
      · intro g h1
        by_cases hg : g = f
        · subst hg
          exact ⟨d, hd, hd2, by rw [upd_self], by rw [upd_self]⟩
        · rw [put_ne _ _ hg] at h1
          obtain ⟨d', a, b, c, e⟩ := R.traced g h1
          exact ⟨d', a, b, by rw [upd_ne _ _ hg]; exact c,
            by rw [upd_ne _ _ hg]; exact e⟩
      · intro g h1
        by_cases hg : g = f
        · subst hg; rw [hM] at h1; cases h1
        · obtain ⟨d', a, b, c, e⟩ := R.timed g h1
          exact ⟨d', a, b, by rw [upd_ne _ _ hg]; exact c, e⟩
      · intro g h1
        by_cases hg : g = f
        · subst hg; exact hM
        · rw [put_ne _ _ hg] at h1; exact R.apart g h1
      · intro g
        by_cases hg : g = f
        · subst hg; simp [put_self]
        · rw [put_ne _ _ hg, ← R.memT g]; simp [hg]

theorem trace_rel {t : Tab V} {w : Spec.World V} (R : Rel t w) (fs : List Sym)
    (h : ∀ f ∈ fs, w.M f = false ∧ (w.F f = none ∨ w.isFun f = true)) :
    Rel (trace t fs)
      { w with T := fun g => w.T g || (fs.contains g && w.isFun g) } := by
  induction fs generalizing t w with
  | nil =>
    have e : (fun g => w.T g || (([] : List Sym).contains g && w.isFun g))
        = w.T := by funext g; simp
    rw [e]; exact R
  | cons f fs ih =>
    have h1 := traceStep_rel R (h f (List.mem_cons_self ..)).1
      (h f (List.mem_cons_self ..)).2
    have h2 := ih h1 (fun g hg => h g (List.mem_cons_of_mem _ hg))
    have e : (fun g => w.T g || ((f :: fs).contains g && w.isFun g)) =
        (fun g => (w.T g || ([f].contains g && w.isFun g)) ||
          (fs.contains g && w.isFun g)) := by
      funext g
      by_cases hg : g = f
      · subst hg; cases w.T g <;> cases w.isFun g <;> simp
      · simp [hg]
    rw [e]; exact h2

theorem untraceStep_rel {t : Tab V} {w : Spec.World V} (R : Rel t w) (f : Sym) :
    Rel (untraceStep t f) { w with T := fun g => w.T g && !([f].contains g) } := by
  by_cases hT : w.T f = true
  · have hmem := (R.memT f).2 hT
    unfold untraceStep; rw [if_pos hmem]
    obtain ⟨d, a, b, c, e⟩ := R.traced f hT
    have hM := R.apart f hT
    have e2 : (fun g => w.T g && !([f].contains g)) = Spec.put w.T f false := by
      funext g
      by_cases hg : g = f
      · subst hg; simp [put_self]
      · simp [hg, put_ne]
    rw [e2]
    simp only [e, Option.getD_some]
    refine mkRel ?_ ?_ ?_ ?_ ?_ R.ever R.sub
    · intro g h1 h2
      by_cases hg : g = f
      · subst hg; rw [upd_self, a]; rfl
      · rw [put_ne _ _ hg] at h1
        rw [upd_ne _ _ hg]; exact R.plain g h1 h2
    · intro g h1
      by_cases hg : g = f
      · subst hg; rw [put_self] at h1; cases h1
      · rw [put_ne _ _ hg] at h1
        rw [upd_ne _ _ hg]; exact R.traced g h1
    · intro g h1
      by_cases hg : g = f
      · subst hg; rw [hM] at h1; cases h1
      · rw [upd_ne _ _ hg]; exact R.timed g h1
    · intro g h1
      by_cases hg : g = f
      · subst hg; exact hM
      · rw [put_ne _ _ hg] at h1; exact R.apart g h1
    · intro g
      by_cases hg : g = f
      · subst hg; simp [put_self]
      · rw [put_ne _ _ hg, ← R.memT g]; simp [hg]
  · have hmem : ¬ f ∈ t.traced := fun h => hT ((R.memT f).1 h)
    have e : (fun g => w.T g && !([f].contains g)) = w.T := by
      funext g
      by_cases hg : g = f
      · subst hg; simp at hT; simp [hT]
      · simp [hg]
    rw [e]
    unfold untraceStep; rw [if_neg hmem]; exact R

theorem untrace_rel {t : Tab V} {w : Spec.World V} (R : Rel t w)
    (fs : List Sym) :
    Rel (untrace t fs) { w with T := fun g => w.T g && !(fs.contains g) } := by
  induction fs generalizing t w with
  | nil =>
    have e : (fun g => w.T g && !(([] : List Sym).contains g)) = w.T := by
      funext g; simp
    rw [e]; exact R
  | cons f fs ih =>
    have h2 := ih (untraceStep_rel R f)
    have e : (fun g => w.T g && !((f :: fs).contains g)) =
        (fun g => (w.T g && !([f].contains g)) && !(fs.contains g)) := by
      funext g
      by_cases hg : g = f
      · subst hg; cases w.T g <;> simp
      · simp [hg]
    rw [e]; exact h2

theorem untrace_after {t : Tab V} {w : Spec.World V} (R : Rel t w)
    (fs : List Sym) :
    Rel (untrace t (if fs.isEmpty then t.traced else fs))
      (Spec.after w (.untrace fs)) := by
  cases fs with
  | nil =>
    have h := untrace_rel R t.traced
    have e : (fun g => w.T g && !(([] : List Sym).isEmpty ||
        ([] : List Sym).contains g)) = (fun g => w.T g && !(t.traced.contains g)) := by
      funext g
      cases hg : w.T g with
      | false => rfl
      | true => have := (R.memT g).2 hg; simp [this]
    unfold Spec.after
    simp only [e]
    exact h
  | cons f fs =>
    have h := untrace_rel R (f :: fs)
    exact h

theorem time_rel {t : Tab V} {w : Spec.World V} (R : Rel t w) (s : St V)
    {f : Sym} (ok : Spec.OkCmd w (.time f)) :
    ∃ t' s' a, time t s f = (t', s', a) ∧
      (∀ (P : Prim V) n, Spec.step P n w s (.time f) = some (s', a)) ∧
      Rel t' (Spec.after w (.time f)) := by
  obtain ⟨hT, hE, hS⟩ := ok
  cases hM : w.M f with
  | true =>
    obtain ⟨d, a, b, c, e⟩ := R.timed f hM
    refine ⟨t, s, .report (s.cnt f), ?_, ?_, ?_⟩
    · unfold time; rw [e]
    · intro P n; simp only [Spec.step, hM, if_true]
    · simp only [Spec.after, hM, if_true]; exact R
  | false =>
    have hE' : w.E f = false := by
      cases h : w.E f with
      | false => rfl
      | true => rw [hE h] at hM; cases hM
    have hmp : t.mprop f = none := by
      cases h : t.mprop f with
      | none => rfl
      | some d =>
        have := (R.ever f).1 (by rw [h]; rfl)
        rw [hE'] at this; cases this
    have hfn := R.plain f hT hM
    by_cases hf : w.isFun f = true
    · obtain ⟨d, hd, hd2⟩ := isFun_some hf
      rw [hd] at hfn
      have hmac : macroFunction (.user d) = false := by
        cases d with
        | mac _ _ => cases hd2
        | _ => rfl
      refine ⟨{ t with mprop := upd t.mprop f (some (.user d)),
                       fn := upd t.fn f (some (.timer f)),
                       timed := f :: t.timed },
        { s with cnt := upd s.cnt f 0 }, .timing, ?_, ?_, ?_⟩
      · unfold time
        simp only [hmp, hfn, Option.map_some, hmac, Bool.false_eq_true, if_false]
      · intro P n
        simp only [Spec.step, hM, hf, if_true, Bool.false_eq_true, if_false]
        rfl
      · simp only [Spec.after, hM, hf, if_true, Bool.false_eq_true, if_false]
        refine mkRel ?_ ?_ ?_ ?_ R.memT ?_ ?_
        · intro g h1 h2
          by_cases hg : g = f
          · subst hg; rw [put_self] at h2; cases h2
          · rw [put_ne _ _ hg] at h2
            rw [upd_ne _ _ hg]; exact R.plain g h1 h2
        · intro g h1
          by_cases hg : g = f
          · subst hg; rw [hT] at h1; cases h1
          · rw [upd_ne _ _ hg]; exact R.traced g h1
        · intro g h1
          by_cases hg : g = f
          · subst hg; exact ⟨d, hd, hd2, by rw [upd_self], by rw [upd_self]⟩
          · rw [put_ne _ _ hg] at h1
            rw [upd_ne _ _ hg, upd_ne _ _ hg]; exact R.timed g h1
        · intro g h1
          by_cases hg : g = f
          · subst hg; rw [hT] at h1; cases h1
          · rw [put_ne _ _ hg]; exact R.apart g h1
        · intro g
          by_cases hg : g = f
          · subst hg; rw [upd_self, put_self]; simp
          · rw [upd_ne _ _ hg, put_ne _ _ hg]; exact R.ever g
        · intro g h1
          by_cases hg : g = f
          · subst hg; rw [put_self]
          · rw [put_ne _ _ hg] at h1 ⊢; exact R.sub g h1
    · refine ⟨t, s, .refused, ?_, ?_, ?_⟩
      · unfold time
        cases hd : w.F f with
        | none => rw [hd] at hfn; simp only [hmp, hfn, Option.map_none]
        | some d =>
          rw [hd] at hfn
          have hmac : macroFunction (.user d) = true := by
            cases d with
            | mac sp b =>
              cases sp with
              | true => exact absurd hd (hS b)
              | false => rfl
            | lam b => simp [Spec.World.isFun, hd, UDef.isFun] at hf
            | code b => simp [Spec.World.isFun, hd, UDef.isFun] at hf
          simp only [hmp, hfn, Option.map_some, hmac, if_true]
      · intro P n
        have hf' : w.isFun f = false := by simpa using hf
        simp only [Spec.step, hM, hf', Bool.false_eq_true, if_false]
      · have hf' : w.isFun f = false := by simpa using hf
        simp only [Spec.after, hM, hf', Bool.false_eq_true, if_false]
        exact R

theorem untime_rel {t : Tab V} {w : Spec.World V} (R : Rel t w)
    {f : Sym} (ok : Spec.OkCmd w (.untime f)) :
    Rel (untime t f) (Spec.after w (.untime f)) := by
  unfold Spec.OkCmd at ok
  unfold Spec.after untime
  cases hM : w.M f with
  | true =>
    obtain ⟨d, a, b, c, e⟩ := R.timed f hM
    have hT : w.T f = false := by
      cases h : w.T f with
      | false => rfl
      | true => rw [R.apart f h] at hM; cases hM
    simp only [e]
    refine mkRel ?_ ?_ ?_ ?_ R.memT R.ever ?_
    · intro g h1 h2
      by_cases hg : g = f
      · subst hg; rw [upd_self, a]; rfl
      · rw [put_ne _ _ hg] at h2
        rw [upd_ne _ _ hg]; exact R.plain g h1 h2
    · intro g h1
      by_cases hg : g = f
      · subst hg; rw [hT] at h1; cases h1
      · rw [upd_ne _ _ hg]; exact R.traced g h1
    · intro g h1
      by_cases hg : g = f
      · subst hg; rw [put_self] at h1; cases h1
      · rw [put_ne _ _ hg] at h1
        rw [upd_ne _ _ hg]; exact R.timed g h1
    · intro g h1
      by_cases hg : g = f
      · subst hg; rw [put_self]
      · rw [put_ne _ _ hg]; exact R.apart g h1
    · intro g h1
      by_cases hg : g = f
      · subst hg; rw [put_self] at h1; cases h1
      · rw [put_ne _ _ hg] at h1; exact R.sub g h1
  | false =>
    have hmp : t.mprop f = none := by
      cases h : t.mprop f with
      | none => rfl
      | some d =>
        have := ok ((R.ever f).1 (by rw [h]; rfl))
        rw [hM] at this; cases this
    have e : Spec.put w.M f false = w.M := by
      funext g
      by_cases hg : g = f
      · subst hg; rw [put_self, hM]
      · rw [put_ne _ _ hg]
    simp only [hmp, e]; exact R

theorem defun_rel {t : Tab V} {w : Spec.World V} (R : Rel t w) {f : Sym}
    (d : UDef V) (hT : w.T f = false) (hM : w.M f = false) :
    Rel { t with fn := upd t.fn f (some (.user d)) }
      (Spec.after w (.defun f d)) := by
  unfold Spec.after
  refine mkRel ?_ ?_ ?_ R.apart R.memT R.ever R.sub
  · intro g h1 h2
    by_cases hg : g = f
    · subst hg; rw [upd_self, put_self]; rfl
    · rw [upd_ne _ _ hg, put_ne _ _ hg]; exact R.plain g h1 h2
  · intro g h1
    by_cases hg : g = f
    · subst hg; rw [hT] at h1; cases h1
    · rw [upd_ne _ _ hg, put_ne _ _ hg]; exact R.traced g h1
  · intro g h1
    by_cases hg : g = f
    · subst hg; rw [hM] at h1; cases h1
    · rw [upd_ne _ _ hg, put_ne _ _ hg]; exact R.timed g h1

theorem fresh_rel (F : Sym → Option (UDef V)) : Rel (fresh F) (Spec.start F) := by
  refine ⟨fun _ _ _ => rfl, ?_, ?_, fun _ _ => rfl, ?_, ?_, ?_⟩ <;>
    intro f <;> simp [fresh, Spec.start]

/-- Commands other than evaluation do the same. -/
theorem step_rel (P : Prim V) {t : Tab V} {w : Spec.World V} (R : Rel t w)
    (s : St V) {c : Cmd V} (ok : Spec.OkCmd w c) (hc : ∀ e, c ≠ .eval e) :
    ∃ t' s' a, (∀ n, step P n t s c = some (t', s', a)) ∧
      (∀ n, Spec.step P n w s c = some (s', a)) ∧ Rel t' (Spec.after w c) := by
  cases c with
  | trace fs => exact ⟨_, s, .done, fun _ => rfl, fun _ => rfl, trace_rel R fs ok⟩
  | untrace fs =>
    exact ⟨_, s, .done, fun _ => rfl, fun _ => rfl, untrace_after R fs⟩
  | time f =>
    obtain ⟨t', s', a, h1, h2, h3⟩ := time_rel R s ok
    exact ⟨t', s', a, fun _ => congrArg some h1, fun n => h2 P n, h3⟩
  | untime f => exact ⟨_, s, .done, fun _ => rfl, fun _ => rfl, untime_rel R ok⟩
  | defun f d =>
    exact ⟨_, s, .done, fun _ => rfl, fun _ => rfl, defun_rel R d ok.1 ok.2⟩
  | eval e => exact absurd rfl (hc e)

theorem step_eval (P : Prim V) (n : Nat) (t : Tab V) (s : St V) (e : Expr V)
    (x : Tab V × St V × Ans V) :
    step P n t s (.eval e) = some x ↔
      ∃ r s', eval P t n 0 [] e s = (r, s') ∧ r ≠ .out ∧
        x = (t, s', .result r) := by
  simp only [step]
  generalize eval P t n 0 [] e s = q
  obtain ⟨r, s'⟩ := q
  constructor
  · intro h
    refine ⟨r, s', rfl, ?_, ?_⟩
    · rintro rfl; cases h
    · cases r <;> first | exact (Option.some.inj h).symm | cases h
  · rintro ⟨r', s'', h1, h2, rfl⟩
    cases h1
    cases r <;> first | rfl | exact absurd rfl h2

theorem sstep_eval (P : Prim V) (n : Nat) (w : Spec.World V) (s : St V)
    (e : Expr V) (x : St V × Ans V) :
    Spec.step P n w s (.eval e) = some x ↔
      ∃ r s', Spec.eval P w.F w.T w.M n 0 [] e s = (r, s') ∧ r ≠ .out ∧
        x = (s', .result r) := by
  simp only [Spec.step]
  generalize Spec.eval P w.F w.T w.M n 0 [] e s = q
  obtain ⟨r, s'⟩ := q
  constructor
  · intro h
    refine ⟨r, s', rfl, ?_, ?_⟩
    · rintro rfl; cases h
    · cases r <;> first | exact (Option.some.inj h).symm | cases h
  · rintro ⟨r', s'', h1, h2, rfl⟩
    cases h1
    cases r <;> first | rfl | exact absurd rfl h2

theorem run_of_spec (P : Prim V) (n : Nat) (cs : List (Cmd V)) :
    ∀ (t : Tab V) (w : Spec.World V) (s : St V), Rel t w → Spec.Careful w cs →
    ∀ w' s' as, Spec.run P n w s cs = some (w', s', as) → ∀ m, 3 * n ≤ m →
    ∃ t', run P m t s cs = some (t', s', as) ∧ Rel t' w' := by
  induction cs with
  | nil =>
    intro t w s R _ w' s' as h m _
    simp only [Spec.run, Option.some.injEq, Prod.mk.injEq] at h
    obtain ⟨rfl, rfl, rfl⟩ := h
    exact ⟨t, rfl, R⟩
  | cons c cs ih =>
    intro t w s R ok w' s' as h m hm
    simp only [Spec.run] at h
    obtain ⟨ok1, ok2⟩ := ok
    have key : ∃ t1 s1 a, step P m t s c = some (t1, s1, a) ∧
        Spec.step P n w s c = some (s1, a) ∧ Rel t1 (Spec.after w c) := by
      by_cases hc : ∃ e, c = .eval e
      · obtain ⟨e, rfl⟩ := hc
        cases hs : Spec.step P n w s (.eval e) with
        | none => rw [hs] at h; cases h
        | some x =>
          obtain ⟨r, s1, h1, h2, rfl⟩ := (sstep_eval P n w s e x).1 hs
          have h3 := (eval_of_spec P R n).1 m _ _ _ _ _ _ hm h1 h2
          exact ⟨t, s1, .result r, (step_eval P m t s e _).2 ⟨r, s1, h3, h2, rfl⟩,
            rfl, R⟩
      · obtain ⟨t1, s1, a, h1, h2, h3⟩ := step_rel P R s ok1
          (fun e he => hc ⟨e, he⟩)
        exact ⟨t1, s1, a, h1 m, h2 n, h3⟩
    obtain ⟨t1, s1, a, h1, h2, h3⟩ := key
    rw [h2] at h
    simp only at h
    cases hr : Spec.run P n (Spec.after w c) s1 cs with
    | none => rw [hr] at h; cases h
    | some y =>
      obtain ⟨w2, s2, as2⟩ := y
      rw [hr] at h
      simp only [Option.some.injEq, Prod.mk.injEq] at h
      obtain ⟨rfl, rfl, rfl⟩ := h
      obtain ⟨t2, h4, h5⟩ := ih t1 _ s1 h3 ok2 _ _ _ hr m hm
      refine ⟨t2, ?_, h5⟩
      simp only [run, h1, h4]

theorem spec_of_run (P : Prim V) (n : Nat) (cs : List (Cmd V)) :
    ∀ (t : Tab V) (w : Spec.World V) (s : St V), Rel t w → Spec.Careful w cs →
    ∀ t' s' as, run P n t s cs = some (t', s', as) → ∀ m, n ≤ m →
    ∃ w', Spec.run P m w s cs = some (w', s', as) ∧ Rel t' w' := by
  induction cs with
  | nil =>
    intro t w s R _ w' s' as h m _
    simp only [run, Option.some.injEq, Prod.mk.injEq] at h
    obtain ⟨rfl, rfl, rfl⟩ := h
    exact ⟨w, rfl, R⟩
  | cons c cs ih =>
    intro t w s R ok t' s' as h m hm
    simp only [run] at h
    obtain ⟨ok1, ok2⟩ := ok
    have key : ∃ t1 s1 a, step P n t s c = some (t1, s1, a) ∧
        Spec.step P m w s c = some (s1, a) ∧ Rel t1 (Spec.after w c) := by
      by_cases hc : ∃ e, c = .eval e
      · obtain ⟨e, rfl⟩ := hc
        cases hs : step P n t s (.eval e) with
        | none => rw [hs] at h; cases h
        | some x =>
          obtain ⟨r, s1, h1, h2, rfl⟩ := (step_eval P n t s e x).1 hs
          have h3 := (spec_of_eval P R n).1 m _ _ _ _ _ _ hm h1 h2
          exact ⟨t, s1, .result r, rfl,
            (sstep_eval P m w s e _).2 ⟨r, s1, h3, h2, rfl⟩, R⟩
      · obtain ⟨t1, s1, a, h1, h2, h3⟩ := step_rel P R s ok1
          (fun e he => hc ⟨e, he⟩)
        exact ⟨t1, s1, a, h1 n, h2 m, h3⟩
    obtain ⟨t1, s1, a, h1, h2, h3⟩ := key
    rw [h1] at h
    simp only at h
    cases hr : run P n t1 s1 cs with
    | none => rw [hr] at h; cases h
    | some y =>
      obtain ⟨w2, s2, as2⟩ := y
      rw [hr] at h
      simp only [Option.some.injEq, Prod.mk.injEq] at h
      obtain ⟨rfl, rfl, rfl⟩ := h
      obtain ⟨t2, h4, h5⟩ := ih t1 _ s1 h3 ok2 _ _ _ hr m hm
      refine ⟨t2, ?_, h5⟩
      simp only [Spec.run, h2, h4]

end Eus.Trc
