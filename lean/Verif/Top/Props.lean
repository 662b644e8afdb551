import Verif.Top.Lemmas
set_option autoImplicit false
namespace Eus.Top
open Spec

/-! ## C195: nested read-eval-print levels -/

/-- Every session, whatever is typed, shows the prompts and values of the specification, and leaves
the special variables as it says: an error or end-of-file on an error level gives up everything down
to the innermost computation that was interrupted, which goes on; and so does `reset`. (With the
selector, for sessions without comma-symbol lines; see `C195_symbol_wrong`.) -/
theorem C195_session_partial (sel : Bool) (inp : List Line) (sp : Nat → Nat)
    (h : sel = true → ∀ id x, Line.sym id x ∉ inp) :
    (session sel inp sp).out = (Spec.session inp sp).out ∧
    ∀ x, (session sel inp sp).sp x = (Spec.session inp sp).glob x := by
  have h0 : ∀ l ∈ inp, sel = true → notSym l := by
    intro l hl hs
    cases l with
    | sym id x => exact absurd hl (h hs id x)
    | form _ _ => trivial
    | blank => trivial
    | eof => trivial
  have hr := eustop_rel sel (inp.length + 1)
    { inp := inp, sp := sp, out := [], minus := 0, plus := (0, 0, 0), star := (0, 0, 0), cb := [] }
    { inp := inp, glob := sp, dyn := [], out := [] } ⟨rfl, rfl, fun _ => rfl⟩ h0
  refine ⟨hr.out, fun x => ?_⟩
  have hk : ∀ (f : Nat) (t : SS), t.dyn = [] → (top f t).dyn = [] := by
    intro f
    induction f with
    | zero => intro t ht; exact ht
    | succ f ih =>
      intro t ht
      have := (rep_keep (f + 1) [] [] t).1
      unfold top
      generalize rep (f + 1) [] [] t = q at this
      obtain ⟨e, u⟩ := q
      have hu : u.dyn = [] := by simpa [names, ht] using this
      cases e with
      | give j => exact ih u hu
      | done v => exact hu
      | quit => exact hu
      | eof => exact hu
  have hd : (Spec.session inp sp).dyn = [] := hk _ _ rfl
  have := hr.sp x
  rw [show (top (inp.length + 1) { inp := inp, glob := sp, dyn := [], out := [] }) = Spec.session inp sp
    from rfl, hd] at this
  exact this

/-- An error inside a `let`, a look around, ^C in a form at the error level, an error there, and ^D:
the interrupted form of level 1 goes on and prints its value. -/
example : (session true [.form 1 (.bind 0 5 .err), .form 2 (.get 0), .form 3 (.seq .intr (.ret 8)),
    .form 4 .err, .eof, .eof, .form 5 (.get 0)] (fun _ => 1)).out =
    [.prompt .T 0, .prompt .E 1, .value (some 2) 5, .prompt .E 1, .prompt .B 2, .prompt .E 3,
     .value (some 3) 8, .prompt .E 1, .prompt .T 0, .value (some 5) 1, .prompt .T 0] := by
  decide +kernel

/-! ### special variables -/

theorem sem_glob (x : Nat) (loop : List Kind → List (Nat × Nat) → SS → End × SS) (ks : List Kind)
    (hl : ∀ ks env s, neverSet x s.inp → (loop ks env s).2.glob x = s.glob x) :
    ∀ (c : Cmp) (env : List (Nat × Nat)) (s : SS),
    (∀ ks env s, neverSet x s.inp → neverSet x (loop ks env s).2.inp) →
    neverSet x s.inp → sets x c = false → (sem loop ks env c s).2.glob x = s.glob x := by
  intro c
  have hin : (∀ ks env s, neverSet x s.inp → neverSet x (loop ks env s).2.inp) →
      ∀ c env s, neverSet x s.inp → neverSet x (sem loop ks env c s).2.inp := by
    intro hp c env s hs id d hd
    have := sem_inp (fun l => ∀ id c, l = Line.form id c → sets x c = false) loop ks
      (fun ks env s h l hl id c e => hp ks env s (fun id c hm => h _ hm id c rfl) id c (e ▸ hl)) c env s
      (fun l hl id c e => hs id c (e ▸ hl))
    exact this _ hd id d rfl
  induction c with
  | ret v => intro env s _ _ _; rfl
  | get y => intro env s _ _ _; rfl
  | set y v =>
    intro env s _ _ hc
    have hy : x ≠ y := by intro e; simp [sets, e] at hc
    have : ∀ d, (assign s.glob y v d).1 x = s.glob x := by
      intro d
      induction d with
      | nil => simp [assign, hy]
      | cons p d ih =>
        obtain ⟨z, w⟩ := p
        unfold assign
        by_cases h : y = z
        · simp [h]
        · simp [h, ih]
    exact this s.dyn
  | seq a b iha ihb =>
    intro env s hp hs hc
    simp only [sets, Bool.or_eq_false_iff] at hc
    have ha := iha env s hp hs hc.1
    have hi := hin hp a env s hs
    simp only [sem]
    cases e : sem loop ks env a s with
    | mk o t =>
      rw [e] at ha hi
      cases o with
      | done v => exact (ihb env t hp hi hc.2).trans ha
      | give j => exact ha
      | quit => exact ha
      | eof => exact ha
  | bind y v c ih => intro env s hp hs hc; exact ih env { s with dyn := (y, v) :: s.dyn } hp hs hc
  | llet y v c ih => intro env s hp hs hc; exact ih _ s hp hs hc
  | err => intro env s _ hs _; simp only [sem, leaveE_snd]; exact hl _ env s hs
  | intr => intro env s _ hs _; simp only [sem, leaveB_snd]; exact hl _ env s hs
  | reset m =>
    intro env s _ hs _
    simp only [sem]
    split
    · rfl
    · rw [leaveE_snd]; exact hl _ env s hs
  | exit => intro env s _ _ _; rfl

theorem rep_neverSet (x : Nat) (f : Nat) (ks : List Kind) (env : List (Nat × Nat)) (s : SS)
    (h : neverSet x s.inp) : neverSet x (rep f ks env s).2.inp := by
  intro id d hd
  exact rep_inp (fun l => ∀ id c, l = Line.form id c → sets x c = false) f ks env s
    (fun l hl id c e => h id c (e ▸ hl)) _ hd id d rfl

theorem rep_glob (x : Nat) : ∀ (f : Nat) (ks : List Kind) (env : List (Nat × Nat)) (s : SS),
    neverSet x s.inp → (rep f ks env s).2.glob x = s.glob x
  | 0, _, _, s, _ => rfl
  | f + 1, ks, env, s, h => by
    unfold rep
    dsimp only
    split
    · rfl
    · rfl
    · rename_i r hr; rw [hr] at h
      exact rep_glob x f _ _ _ (fun id c hm => h id c (List.mem_cons_of_mem _ hm))
    · rename_i id y r hr; rw [hr] at h
      exact rep_glob x f _ _ _ (fun id c hm => h id c (List.mem_cons_of_mem _ hm))
    · rename_i id c r hr
      rw [hr] at h
      have h' : neverSet x r := fun id c hm => h id c (List.mem_cons_of_mem _ hm)
      have hc : sets x c = false := h id c (List.mem_cons_self ..)
      have hs := sem_glob x (rep f) ks (rep_glob x f) c env
        { s with out := s.out ++ [.prompt (kind ks) ks.length], inp := r } (rep_neverSet x f) h' hc
      have hn : neverSet x (sem (rep f) ks env c
          { s with out := s.out ++ [.prompt (kind ks) ks.length], inp := r }).2.inp := by
        intro id d hd
        exact sem_inp (fun l => ∀ id c, l = Line.form id c → sets x c = false) (rep f) ks
          (fun ks env s h l hl id c e => rep_neverSet x f ks env s (fun id c hm => h _ hm id c rfl) id c (e ▸ hl))
          c env _ (fun l hl id c e => h' id c (e ▸ hl)) _ hd id d rfl
      cases e : sem (rep f) ks env c { s with out := s.out ++ [.prompt (kind ks) ks.length], inp := r } with
      | mk o t =>
        rw [e] at hs hn
        cases o with
        | done v => exact (rep_glob x f ks env { t with out := t.out ++ [.value (some id) v] } hn).trans hs
        | give j => exact hs
        | quit => exact hs
        | eof => exact hs

/-- Nothing that is given up leaves a binding behind: a variable to which no form typed assigns has
its old value when the session is back at the end of the top level, after any errors, interrupts,
resets and ends-of-file inside `let`s of the variable. -/
theorem C195_bindings (sel : Bool) (inp : List Line) (sp : Nat → Nat) (x : Nat)
    (h : sel = true → ∀ id y, Line.sym id y ∉ inp) (hx : neverSet x inp) :
    (session sel inp sp).sp x = sp x := by
  rw [(C195_session_partial sel inp sp h).2 x]
  have : ∀ (f : Nat) (t : SS), neverSet x t.inp → (top f t).glob x = t.glob x := by
    intro f
    induction f with
    | zero => intro t _; rfl
    | succ f ih =>
      intro t ht
      have hg := rep_glob x (f + 1) [] [] t ht
      have hn := rep_neverSet x (f + 1) [] [] t ht
      unfold top
      generalize rep (f + 1) [] [] t = q at hg hn
      obtain ⟨e, u⟩ := q
      cases e with
      | give j => exact (ih u hn).trans hg
      | done v => exact hg
      | quit => exact hg
      | eof => exact hg
  exact this _ _ hx

example : neverSet 0 [.form 1 (.bind 0 5 (.seq (.set 1 3) .err)), .form 2 (.bind 0 6 .intr), .form 3 (.reset 0)] := by
  intro id c h
  simp only [List.mem_cons, Line.form.injEq, List.not_mem_nil, or_false] at h
  rcases h with ⟨_, rfl⟩ | ⟨_, rfl⟩ | ⟨_, rfl⟩ <;> rfl

/-! ### interrupts -/

theorem iter_quiet (sel : Bool) : ∀ (f : Nat) (k : Kind) (n : Nat) (env : List (Nat × Nat)) (s : St),
    (∀ l ∈ s.inp, quiet l) →
    (iter sel f k n env s).1 = .done 0 ∧ (iter sel f k n env s).2.sp = s.sp ∧
    ∀ l ∈ (iter sel f k n env s).2.inp, quiet l
  | 0, _, _, _, s, h => ⟨rfl, rfl, h⟩
  | f + 1, k, n, env, s, h => by
    unfold iter
    dsimp only
    cases hi : s.inp with
    | nil => exact ⟨rfl, rfl, by simp⟩
    | cons l r =>
      rw [hi] at h
      have hr : ∀ l ∈ r, quiet l := fun l hl => h l (List.mem_cons_of_mem _ hl)
      cases l with
      | eof => exact ⟨rfl, rfl, hr⟩
      | blank => exact iter_quiet sel f k n env _ hr
      | sym id x => exact iter_quiet sel f k n env _ hr
      | form id c =>
        have hc := h _ (List.mem_cons_self ..)
        cases c with
        | ret v => exact iter_quiet sel f k n env _ hr
        | get x => exact iter_quiet sel f k n env _ hr
        | _ => exact absurd hc (fun h => h)

/-- An interrupt is transparent: if the user only looks around at the prompts it leads to, and then
types ^D, the computation ends as it would have without any interrupt, with the same values of the
special variables. -/
theorem C195_resume (sel : Bool) (f n : Nat) : ∀ (c : Cmp) (env : List (Nat × Nat)) (s s' : St),
    (∀ l ∈ s.inp, quiet l) → (∀ l ∈ s'.inp, quiet l) → s.sp = s'.sp →
    (ev (reploop sel f) n env c s).1 = (ev (reploop sel f) n env (strip c) s').1 ∧
    (ev (reploop sel f) n env c s).2.sp = (ev (reploop sel f) n env (strip c) s').2.sp ∧
    (∀ l ∈ (ev (reploop sel f) n env c s).2.inp, quiet l) ∧
    (∀ l ∈ (ev (reploop sel f) n env (strip c) s').2.inp, quiet l) := by
  have herr : ∀ k env (s : St), (∀ l ∈ s.inp, quiet l) →
      ∃ u, reploop sel f k (n + 1) env s = (.done 0, u) ∧ u.sp = s.sp ∧ ∀ l ∈ u.inp, quiet l := by
    intro k env s hs
    obtain ⟨h1, h2, h3⟩ := iter_quiet sel f k (n + 1) env { s with cb := env } hs
    refine ⟨(reploop sel f k (n + 1) env s).2, ?_, h2, h3⟩
    exact Prod.ext h1 rfl
  intro c
  induction c with
  | ret v => intro env s s' h h' e; exact ⟨rfl, e, h, h'⟩
  | get x => intro env s s' h h' e; exact ⟨by simp [ev, strip, e], e, h, h'⟩
  | set x v => intro env s s' h h' e; exact ⟨rfl, by simp [ev, strip, e], h, h'⟩
  | seq a b iha ihb =>
    intro env s s' h h' e
    obtain ⟨h1, h2, h3, h4⟩ := iha env s s' h h' e
    simp only [ev, strip]
    generalize ev (reploop sel f) n env a s = p at h1 h2 h3 ⊢
    generalize ev (reploop sel f) n env (strip a) s' = q at h1 h2 h4 ⊢
    obtain ⟨o, u⟩ := p
    obtain ⟨o', u'⟩ := q
    simp only at h1
    subst h1
    cases o with
    | done v => exact ihb env u u' h3 h4 h2
    | thr m => exact ⟨rfl, h2, h3, h4⟩
    | exit => exact ⟨rfl, h2, h3, h4⟩
  | bind x v c ih =>
    intro env s s' h h' e
    obtain ⟨h1, h2, h3, h4⟩ := ih env { s with sp := upd s.sp x v } { s' with sp := upd s'.sp x v } h h' (by simp [e])
    simp only [ev, strip]
    exact ⟨h1, by rw [h2, e], h3, h4⟩
  | llet x v c ih => intro env s s' h h' e; exact ih _ s s' h h' e
  | err =>
    intro env s s' h h' e
    obtain ⟨u, hu, hus, hui⟩ := herr .E env s h
    obtain ⟨u', hu', hus', hui'⟩ := herr .E env s' h'
    simp only [ev, strip, hu, hu', euserror]
    exact ⟨trivial, by rw [hus, hus', e], hui, hui'⟩
  | intr =>
    intro env s s' h h' e
    obtain ⟨u, hu, hus, hui⟩ := herr .B env s h
    simp only [ev, strip, hu, sigint]
    exact ⟨trivial, by rw [hus, e], hui, h'⟩
  | reset m =>
    intro env s s' h h' e
    obtain ⟨u, hu, hus, hui⟩ := herr .E env s h
    obtain ⟨u', hu', hus', hui'⟩ := herr .E env s' h'
    simp only [ev, strip]
    by_cases hm : m ≤ n
    · simp only [hm, if_true]; exact ⟨trivial, e, h, h'⟩
    · simp only [hm, if_false, hu, hu', euserror]
      exact ⟨trivial, by rw [hus, hus', e], hui, hui'⟩
  | exit => intro env s s' h h' e; exact ⟨rfl, e, h, h'⟩

example : ∀ l ∈ [Line.form 1 (.get 3), .blank, .sym 2 4, .eof], quiet l := by
  intro l hl
  simp only [List.mem_cons, List.not_mem_nil, or_false] at hl
  rcases hl with rfl | rfl | rfl | rfl <;> trivial

/-! ### the variables `*`, `**`, `***`, `+`, `++`, `+++` -/

theorem printed_append (l r : List Ev) : printed (l ++ r) = printed r ++ printed l := by
  induction l with
  | nil => simp [printed]
  | cons e l ih =>
    cases e with
    | prompt k n => simpa [printed] using ih
    | value id v => cases id <;> simp [printed, ih, List.append_assoc]

theorem three_cons (a : Nat) (l : List Nat) : three (a :: l) = (a, (three l).1, (three l).2.1) := by
  simp [three]

def Stars (s : St) : Prop := s.star = three ((printed s.out).map Prod.snd)

theorem Stars.finish {s : St} (h : Stars s) (id : Option Nat) (v : Nat) : Stars (finish s id v) := by
  unfold Stars at *
  cases id <;> simp only [Top.finish, printed_append, printed, List.nil_append, List.singleton_append,
    List.map_cons, three_cons, h]

theorem Stars.prompt {s : St} (h : Stars s) (k : Kind) (n : Nat) :
    Stars { s with out := s.out ++ [.prompt k n] } := by
  unfold Stars at *
  simpa [printed_append, printed] using h

theorem ev_stars (loop : Kind → Nat → List (Nat × Nat) → St → Out × St) (n : Nat)
    (hl : ∀ k n env s, Stars s → Stars (loop k n env s).2) : ∀ (c : Cmp) (env : List (Nat × Nat)) (s : St),
    Stars s → Stars (ev loop n env c s).2 := by
  have he : ∀ r : Out × St, (euserror n r).2 = r.2 := by
    intro ⟨o, s⟩; cases o <;> simp only [euserror]; split <;> rfl
  have hi : ∀ r : Out × St, (sigint n r).2 = r.2 := by
    intro ⟨o, s⟩; cases o <;> simp only [sigint]; split <;> rfl
  intro c
  induction c with
  | ret v => intro env s h; exact h
  | get x => intro env s h; exact h
  | set x v => intro env s h; exact h
  | seq a b iha ihb =>
    intro env s h
    have ha := iha env s h
    simp only [ev]
    cases e : ev loop n env a s with
    | mk o t =>
      rw [e] at ha
      cases o with
      | done v => exact ihb env t ha
      | thr m => exact ha
      | exit => exact ha
  | bind x v c ih => intro env s h; exact ih env { s with sp := upd s.sp x v } h
  | llet x v c ih => intro env s h; exact ih _ s h
  | err => intro env s h; simp only [ev, he]; exact hl _ _ env s h
  | intr => intro env s h; simp only [ev, hi]; exact hl _ _ env s h
  | reset m =>
    intro env s h
    simp only [ev]
    split
    · exact h
    · rw [he]; exact hl _ _ env s h
  | exit => intro env s h; exact h

theorem iter_stars (sel : Bool) : ∀ (f : Nat) (k : Kind) (n : Nat) (env : List (Nat × Nat)) (s : St),
    Stars s → Stars (iter sel f k n env s).2
  | 0, _, _, _, s, h => h
  | f + 1, k, n, env, s, h => by
    unfold iter
    dsimp only
    have h0 := h.prompt k n
    split
    · exact h0
    · exact h0
    · exact iter_stars sel f k n env _ (Stars.finish (s := { s with out := _, inp := _ }) h0 _ _)
    · exact iter_stars sel f k n env _ (Stars.finish (s := { s with out := _, inp := _, minus := _ }) h0 _ _)
    · rename_i id c r hr
      have := ev_stars (fun k n env s => iter sel f k n env { s with cb := env }) n
        (fun k n env s h => iter_stars sel f k n env { s with cb := env } h) c env
        { s with out := s.out ++ [.prompt k n], inp := r, minus := id } h0
      cases e : ev (fun k n env s => iter sel f k n env { s with cb := env }) n env c
          { s with out := s.out ++ [.prompt k n], inp := r, minus := id } with
      | mk o t =>
        rw [e] at this
        cases o with
        | done v => exact iter_stars sel f k n env _ (Stars.finish this _ _)
        | thr m => exact this
        | exit => exact this

/-- `*`, `**` and `***` are the last three values printed, in every session, whatever errors,
interrupts and resets came between them. -/
theorem C195_stars (sel : Bool) (inp : List Line) (sp : Nat → Nat) :
    (session sel inp sp).star = three ((printed (session sel inp sp).out).map Prod.snd) := by
  have : ∀ (f : Nat) (s : St), Stars s → Stars (eustop sel f s) := by
    intro f
    induction f with
    | zero => intro s h; exact h
    | succ f ih =>
      intro s h
      have hi := iter_stars sel (f + 1) .T 0 [] { s with cb := [] } h
      unfold eustop reploop
      generalize iter sel (f + 1) .T 0 [] { s with cb := [] } = r at hi
      obtain ⟨o, u⟩ := r
      cases o with
      | thr m => exact ih u hi
      | done v => exact hi
      | exit => exact hi
  exact this _ _ rfl

example : (session true [.form 1 (.ret 4), .form 2 .err, .form 3 (.ret 5), .form 4 (.seq .intr (.ret 6)), .form 5 (.ret 7)]
    (fun _ => 0)).star = (6, 7, 5) := by decide +kernel

def PlusInv (s : St) : Prop :=
  s.plus = three ((printed s.out).map Prod.fst) ∧
  ∀ l ∈ s.inp, l ≠ .blank ∧ ∀ id c, l = Line.form id c → noIntr c = true

theorem ev_plus (loop : Kind → Nat → List (Nat × Nat) → St → Out × St) (n : Nat)
    (hl : ∀ k n env s, PlusInv s → PlusInv (loop k n env s).2) : ∀ (c : Cmp) (env : List (Nat × Nat)) (s : St),
    PlusInv s → noIntr c = true →
    PlusInv (ev loop n env c s).2 ∧ ∀ v, (ev loop n env c s).1 = .done v → (ev loop n env c s).2.minus = s.minus := by
  have he : ∀ r : Out × St, (euserror n r).2 = r.2 ∧ ∀ v, (euserror n r).1 ≠ .done v := by
    intro ⟨o, s⟩
    cases o <;> simp only [euserror]
    · exact ⟨trivial, fun _ h => by cases h⟩
    · split <;> exact ⟨rfl, fun _ h => by cases h⟩
    · exact ⟨trivial, fun _ h => by cases h⟩
  intro c
  induction c with
  | ret v => intro env s h _; exact ⟨h, fun _ _ => rfl⟩
  | get x => intro env s h _; exact ⟨h, fun _ _ => rfl⟩
  | set x v => intro env s h _; exact ⟨h, fun _ _ => rfl⟩
  | seq a b iha ihb =>
    intro env s h hc
    simp only [noIntr, Bool.and_eq_true] at hc
    obtain ⟨ha, hm⟩ := iha env s h hc.1
    simp only [ev]
    cases e : ev loop n env a s with
    | mk o t =>
      rw [e] at ha hm
      cases o with
      | done v =>
        obtain ⟨hb, hm'⟩ := ihb env t ha hc.2
        exact ⟨hb, fun w hw => (hm' w hw).trans (hm v rfl)⟩
      | thr m => exact ⟨ha, fun v hv => by cases hv⟩
      | exit => exact ⟨ha, fun v hv => by cases hv⟩
  | bind x v c ih => intro env s h hc; exact ih env { s with sp := upd s.sp x v } h hc
  | llet x v c ih => intro env s h hc; exact ih _ s h hc
  | err =>
    intro env s h _
    simp only [ev, (he _).1]
    exact ⟨hl _ _ env s h, fun v hv => absurd hv ((he _).2 v)⟩
  | intr => intro env s h hc; simp [noIntr] at hc
  | reset m =>
    intro env s h _
    simp only [ev]
    split
    · exact ⟨h, fun v hv => by cases hv⟩
    · rw [(he _).1]; exact ⟨hl _ _ env s h, fun v hv => absurd hv ((he _).2 v)⟩
  | exit => intro env s h _; exact ⟨h, fun v hv => by cases hv⟩

theorem PlusInv.finish {s : St} (h : PlusInv s) (id : Nat) (v : Nat) (hm : s.minus = id) :
    PlusInv (finish s (some id) v) := by
  refine ⟨?_, h.2⟩
  simp only [Top.finish, printed_append, printed, List.nil_append, List.singleton_append,
    List.map_cons, three_cons, ← h.1, hm]

theorem iter_plus (sel : Bool) : ∀ (f : Nat) (k : Kind) (n : Nat) (env : List (Nat × Nat)) (s : St),
    PlusInv s → PlusInv (iter sel f k n env s).2
  | 0, _, _, _, s, h => h
  | f + 1, k, n, env, s, h => by
    unfold iter
    dsimp only
    have h0 : s.plus = three ((printed (s.out ++ [.prompt k n])).map Prod.fst) := by
      rw [printed_append]; simpa [printed] using h.1
    cases hi : s.inp with
    | nil => exact ⟨h0, fun l hl => by cases hl⟩
    | cons l r =>
      have h2 := h.2
      rw [hi] at h2
      have hr : ∀ l ∈ r, l ≠ .blank ∧ ∀ id c, l = Line.form id c → noIntr c = true :=
        fun l hl => h2 l (List.mem_cons_of_mem _ hl)
      cases l with
      | eof => exact ⟨h0, hr⟩
      | blank => exact absurd rfl (h2 _ (List.mem_cons_self ..)).1
      | sym id x => exact iter_plus sel f k n env _ (PlusInv.finish ⟨h0, hr⟩ id _ rfl)
      | form id c =>
        have hc := (h2 _ (List.mem_cons_self ..)).2 id c rfl
        obtain ⟨h3, h4⟩ := ev_plus (fun k n env s => iter sel f k n env { s with cb := env }) n
          (fun k n env s h => iter_plus sel f k n env { s with cb := env } h) c env
          { s with out := s.out ++ [.prompt k n], inp := r, minus := id } ⟨h0, hr⟩ hc
        dsimp only
        cases e : ev (fun k n env s => iter sel f k n env { s with cb := env }) n env c
            { s with out := s.out ++ [.prompt k n], inp := r, minus := id } with
        | mk o t =>
          rw [e] at h3 h4
          cases o with
          | done v => exact iter_plus sel f k n env _ (PlusInv.finish h3 id v (h4 v rfl))
          | thr m => exact h3
          | exit => exact h3

/-- `+`, `++` and `+++` are the last three forms whose values were printed: in sessions without
interrupts and without empty lines. Missing: both, see `C195_plus_wrong` and `C195_blank_wrong`. -/
theorem C195_plus_partial (sel : Bool) (inp : List Line) (sp : Nat → Nat)
    (h : ∀ l ∈ inp, l ≠ .blank ∧ ∀ id c, l = Line.form id c → noIntr c = true) :
    (session sel inp sp).plus = three ((printed (session sel inp sp).out).map Prod.fst) := by
  have : ∀ (f : Nat) (s : St), PlusInv s → PlusInv (eustop sel f s) := by
    intro f
    induction f with
    | zero => intro s h; exact h
    | succ f ih =>
      intro s h
      have hi := iter_plus sel (f + 1) .T 0 [] { s with cb := [] } h
      unfold eustop reploop
      generalize iter sel (f + 1) .T 0 [] { s with cb := [] } = r at hi
      obtain ⟨o, u⟩ := r
      cases o with
      | thr m => exact ih u hi
      | done v => exact hi
      | exit => exact hi
  exact (this _ _ ⟨rfl, h⟩).1

example : (session true [.form 1 (.ret 4), .form 2 .err, .form 3 (.ret 5), .form 4 .err, .form 5 (.ret 6)]
    (fun _ => 0)).plus = (5, 3, 1) := by decide +kernel

/-! ### what does not hold -/

/-- `(reset 1)` at the second error level does not go to level 1: the next prompt is that of level 0. -/
theorem C195_reset_wrong : (session true [.form 1 .err, .form 2 .err, .form 3 (.reset 1), .form 4 (.ret 7)] (fun _ => 0)).out =
    [.prompt .T 0, .prompt .E 1, .prompt .E 2, .prompt .T 0, .value (some 4) 7, .prompt .T 0] := by
  decide +kernel

/-- ^D at the second error level does not go back to the first. -/
theorem C195_eof_wrong : (session true [.form 1 .err, .form 2 .err, .eof, .form 4 (.ret 7)] (fun _ => 0)).out =
    [.prompt .T 0, .prompt .E 1, .prompt .E 2, .prompt .T 0, .value (some 4) 7, .prompt .T 0] := by
  decide +kernel

/-- After an interrupted form (1) has gone on and its value (5) was printed, `*` is that value but
`+` is the form (2) evaluated while it was interrupted. -/
theorem C195_plus_wrong : let s := session true [.form 1 (.seq .intr (.ret 5)), .form 2 (.ret 9), .eof] (fun _ => 0)
    s.out = [.prompt .T 0, .prompt .B 1, .value (some 2) 9, .prompt .B 1, .value (some 1) 5, .prompt .T 0] ∧
    s.star = (5, 9, 0) ∧ s.plus = (2, 2, 0) := by
  decide +kernel

/-- An empty line makes `+` the previous form once more, with NIL as its value. -/
theorem C195_blank_wrong : let s := session true [.form 1 (.ret 5), .blank] (fun _ => 3)
    s.star = (0, 5, 0) ∧ s.plus = (1, 1, 0) := by
  decide +kernel

/-- The variable `x` is 1 where the error happened; a form at the error level binds it to 2, is
interrupted, and goes on. Then `,x` at the error level shows 2: the selector still has the bindings of
the level that was left. Without the selector it is 1. -/
theorem C195_symbol_wrong :
    let inp := [Line.form 1 (.llet 0 1 .err), .sym 2 0, .form 3 (.llet 0 2 .intr), .eof, .sym 4 0]
    (printed (session true inp (fun _ => 0)).out).head? = some (4, 2) ∧
    (printed (session false inp (fun _ => 0)).out).head? = some (4, 1) ∧
    (2, 1) ∈ printed (session true inp (fun _ => 0)).out := by
  decide +kernel

end Eus.Top
