import Verif.Sgn.Spec
set_option autoImplicit false
/-
C201: signals and their handlers.
-/
namespace Eus.Sgn

theorem upd_self {α : Type} (f : Nat → α) (n : Nat) (a : α) : upd f n a n = a := by simp [upd]
theorem upd_ne {α : Type} (f : Nat → α) {n m : Nat} (a : α) (h : m ≠ n) : upd f n a m = f m := by simp [upd, h]

theorem run_append : ∀ (a b : List Ev) (y : Sys), run (a ++ b) y = ((run a y).1 ++ (run b (run a y).2).1, (run b (run a y).2).2)
  | [], b, y => by simp [run]
  | e :: a, b, y => by simp [run, run_append a b]

theorem dead_step (e : Ev) (y : Sys) (h : y.dead = true) : step e y = (.idle, y) := by simp [step, h]

theorem dead_run : ∀ (es : List Ev) (y : Sys), y.dead = true → (run es y).2 = y
  | [], _, _ => rfl
  | e :: es, y, h => by simp only [run, dead_step e y h]; exact dead_run es y h

theorem alive_before (es : List Ev) (y : Sys) (h : (run es y).2.dead = false) : y.dead = false := by
  cases e : y.dead with
  | false => rfl
  | true => rw [dead_run es y e, e] at h; cases h

/-! ### What the steps leave alone -/

theorem postSem_keep (t s : Nat) (r : R) (y : Sys) :
    (postSem t s r y).2.vec = y.vec ∧ (postSem t s r y).2.disp = y.disp ∧ (postSem t s r y).2.saved = y.saved ∧
    (∀ u, u ≠ t → (postSem t s r y).2.pend u = y.pend u) := by
  unfold postSem
  split
  · exact ⟨rfl, rfl, rfl, fun u h => upd_ne _ _ h⟩
  · exact ⟨rfl, rfl, rfl, fun _ _ => rfl⟩

theorem eusint_keep (t s c : Nat) (y : Sys) :
    (eusint t s c y).2.vec = y.vec ∧ (eusint t s c y).2.disp = y.disp ∧ (eusint t s c y).2.saved = y.saved ∧
    (∀ u, u ≠ t → (eusint t s c y).2.pend u = y.pend u) := by
  unfold eusint
  dsimp only
  split
  · have := postSem_keep t s .reaped { y with pend := upd (upd y.pend t s) t 0, code := c }
    refine ⟨this.1, this.2.1, this.2.2.1, fun u h => ?_⟩
    rw [this.2.2.2 u h]
    show upd (upd y.pend t s) t 0 u = y.pend u
    rw [upd_ne _ _ h, upd_ne _ _ h]
  · split
    · exact ⟨rfl, rfl, rfl, fun u h => upd_ne _ _ h⟩
    · split
      · split <;> exact ⟨rfl, rfl, rfl, fun u h => upd_ne _ _ h⟩
      · have := postSem_keep t s .idle { y with pend := upd y.pend t s, code := c }
        refine ⟨this.1, this.2.1, this.2.2.1, fun u h => ?_⟩
        rw [this.2.2.2 u h]
        exact upd_ne _ _ h

theorem arrive_keep (t s c : Nat) (y : Sys) :
    (arrive t s c y).2.vec = y.vec ∧ (arrive t s c y).2.disp = y.disp ∧ (arrive t s c y).2.saved = y.saved ∧
    (∀ u, u ≠ t → (arrive t s c y).2.pend u = y.pend u) := by
  unfold arrive
  split
  · exact ⟨rfl, rfl, rfl, fun _ _ => rfl⟩
  · split
    · split <;> exact ⟨rfl, rfl, rfl, fun _ _ => rfl⟩
    · exact ⟨rfl, rfl, rfl, fun _ _ => rfl⟩
    · exact ⟨rfl, rfl, rfl, fun _ _ => rfl⟩
    · exact eusint_keep t s c y

theorem look_keep (t : Nat) (y : Sys) : (look t y).vec = y.vec ∧ (look t y).disp = y.disp ∧ (look t y).pend = y.pend ∧ (look t y).code = y.code ∧
    (look t y).sem = y.sem ∧ (look t y).dead = y.dead ∧ (look t y).blocked = y.blocked ∧ (look t y).top = y.top ∧ (∀ u, u ≠ t → (look t y).saved u = y.saved u) := by
  unfold look
  split
  · split
    · exact ⟨rfl, rfl, rfl, rfl, rfl, rfl, rfl, rfl, fun _ _ => rfl⟩
    · exact ⟨rfl, rfl, rfl, rfl, rfl, rfl, rfl, rfl, fun u h => upd_ne _ _ h⟩
  · exact ⟨rfl, rfl, rfl, rfl, rfl, rfl, rfl, rfl, fun _ _ => rfl⟩

theorem act_keep (t : Nat) (y : Sys) : (act t y).2.vec = y.vec ∧ (act t y).2.disp = y.disp ∧ (act t y).2.code = y.code ∧
    (act t y).2.sem = y.sem ∧ (act t y).2.dead = y.dead ∧ (act t y).2.blocked = y.blocked ∧ (act t y).2.top = y.top ∧
    (∀ u, u ≠ t → (act t y).2.saved u = y.saved u ∧ (act t y).2.pend u = y.pend u) := by
  unfold act
  split
  · exact ⟨rfl, rfl, rfl, rfl, rfl, rfl, rfl, fun _ _ => ⟨rfl, rfl⟩⟩
  · dsimp only
    split <;> exact ⟨rfl, rfl, rfl, rfl, rfl, rfl, rfl, fun u h => ⟨upd_ne _ _ h, upd_ne _ _ h⟩⟩

theorem act_saved (t : Nat) (y : Sys) : (act t y).2.saved t = none := by
  unfold act
  split
  · assumption
  · dsimp only; split <;> exact upd_self _ _ _

/-- A handler stays, as long as nobody calls `unix:signal` for it. -/
theorem step_keeps_handler (s : Nat) (e : Ev) (h : e.sets s = false) (y : Sys) : (step e y).2.vec s = y.vec s ∧ (step e y).2.disp s = y.disp s := by
  unfold step
  split
  · exact ⟨rfl, rfl⟩
  · cases e with
    | signal s' a =>
      have hne : s ≠ min s' 64 := by
        intro e
        simp only [Ev.sets, beq_eq_false_iff_ne] at h
        exact h e.symm
      simp only [signal]
      split
      · exact ⟨upd_ne _ _ hne, rfl⟩
      · exact ⟨upd_ne _ _ hne, upd_ne _ _ hne⟩
    | arrive t s' c => have := arrive_keep t s' c y; exact ⟨by rw [this.1], by rw [this.2.1]⟩
    | poll t =>
      have h1 := look_keep t y
      have h2 := act_keep t (look t y)
      exact ⟨by show (act t (look t y)).2.vec s = _; rw [h2.1, h1.1], by show (act t (look t y)).2.disp s = _; rw [h2.2.1, h1.2.1]⟩
    | look t => have h1 := look_keep t y; exact ⟨by show (look t y).vec s = _; rw [h1.1], by show (look t y).disp s = _; rw [h1.2.1]⟩
    | act t => have h1 := act_keep t y; exact ⟨by show (act t y).2.vec s = _; rw [h1.1], by show (act t y).2.disp s = _; rw [h1.2.1]⟩

theorem run_keeps_handler (s : Nat) : ∀ (es : List Ev) (y : Sys), (∀ e ∈ es, e.sets s = false) → (run es y).2.vec s = y.vec s ∧ (run es y).2.disp s = y.disp s
  | [], _, _ => ⟨rfl, rfl⟩
  | e :: es, y, h => by
    have h1 := step_keeps_handler s e (h e List.mem_cons_self) y
    have h2 := run_keeps_handler s es (step e y).2 (fun e' he => h e' (List.mem_cons_of_mem _ he))
    exact ⟨h2.1.trans h1.1, h2.2.trans h1.2⟩

/-- What is pending in a thread stays, as long as nothing happens to the thread. -/
theorem step_keeps_pend (t : Nat) (e : Ev) (h : e.of t = false) (y : Sys) : (step e y).2.pend t = y.pend t ∧ (step e y).2.saved t = y.saved t := by
  unfold step
  split
  · exact ⟨rfl, rfl⟩
  · cases e with
    | signal s a => simp only [signal]; split <;> exact ⟨rfl, rfl⟩
    | arrive u s c =>
      have hu : t ≠ u := by simp only [Ev.of, beq_eq_false_iff_ne] at h; exact fun e => h e.symm
      have := arrive_keep u s c y
      exact ⟨this.2.2.2 t hu, by show (arrive u s c y).2.saved t = _; rw [this.2.2.1]⟩
    | poll u =>
      have hu : t ≠ u := by simp only [Ev.of, beq_eq_false_iff_ne] at h; exact fun e => h e.symm
      have h1 := look_keep u y
      have h2 := (act_keep u (look u y)).2.2.2.2.2.2.2 t hu
      exact ⟨by show (act u (look u y)).2.pend t = _; rw [h2.2, h1.2.2.1], by show (act u (look u y)).2.saved t = _; rw [h2.1, h1.2.2.2.2.2.2.2.2 t hu]⟩
    | look u =>
      have hu : t ≠ u := by simp only [Ev.of, beq_eq_false_iff_ne] at h; exact fun e => h e.symm
      have h1 := look_keep u y
      exact ⟨by show (look u y).pend t = _; rw [h1.2.2.1], h1.2.2.2.2.2.2.2.2 t hu⟩
    | act u =>
      have hu : t ≠ u := by simp only [Ev.of, beq_eq_false_iff_ne] at h; exact fun e => h e.symm
      have h2 := (act_keep u y).2.2.2.2.2.2.2 t hu
      exact ⟨h2.2, h2.1⟩

theorem run_keeps_pend (t : Nat) : ∀ (es : List Ev) (y : Sys), (∀ e ∈ es, e.of t = false) → (run es y).2.pend t = y.pend t ∧ (run es y).2.saved t = y.saved t
  | [], _, _ => ⟨rfl, rfl⟩
  | e :: es, y, h => by
    have h1 := step_keeps_pend t e (h e List.mem_cons_self) y
    have h2 := run_keeps_pend t es (step e y).2 (fun e' he => h e' (List.mem_cons_of_mem _ he))
    exact ⟨h2.1.trans h1.1, h2.2.trans h1.2⟩

theorem step_keeps_code (e : Ev) (h : e.isArrival = false) (y : Sys) : (step e y).2.code = y.code := by
  unfold step
  split
  · rfl
  · cases e with
    | signal s a => simp only [signal]; split <;> rfl
    | arrive u s c => cases h
    | poll u => show (act u (look u y)).2.code = _; rw [(act_keep u (look u y)).2.2.1, (look_keep u y).2.2.2.1]
    | look u => exact (look_keep u y).2.2.2.1
    | act u => exact (act_keep u y).2.2.1

theorem run_keeps_code : ∀ (es : List Ev) (y : Sys), (∀ e ∈ es, e.isArrival = false) → (run es y).2.code = y.code
  | [], _, _ => rfl
  | e :: es, y, h =>
    (run_keeps_code es (step e y).2 (fun e' he => h e' (List.mem_cons_of_mem _ he))).trans (step_keeps_code e (h e List.mem_cons_self) y)

/-- A thread that only looks in one piece is never found in the middle. -/
theorem step_saved_none (t : Nat) (e : Ev) (h : e.half = false) (y : Sys) (hs : y.saved t = none) : (step e y).2.saved t = none := by
  unfold step
  split
  · exact hs
  · cases e with
    | signal s a => simp only [signal]; split <;> exact hs
    | arrive u s c => show (arrive u s c y).2.saved t = none; rw [(arrive_keep u s c y).2.2.1]; exact hs
    | poll u =>
      by_cases hu : t = u
      · subst hu; exact act_saved t _
      · show (act u (look u y)).2.saved t = none
        rw [((act_keep u (look u y)).2.2.2.2.2.2.2 t hu).1, (look_keep u y).2.2.2.2.2.2.2.2 t hu]; exact hs
    | look u => cases h
    | act u => cases h

theorem run_saved_none (t : Nat) : ∀ (es : List Ev) (y : Sys), (∀ e ∈ es, e.half = false) → y.saved t = none → (run es y).2.saved t = none
  | [], _, _, hs => hs
  | e :: es, y, h, hs => run_saved_none t es (step e y).2 (fun e' he => h e' (List.mem_cons_of_mem _ he)) (step_saved_none t e (h e List.mem_cons_self) y hs)

/-! ### The theorems -/

theorem arrive_fn {t s c h : Nat} {y : Sys} (ho : Ordinary s) (hd : y.disp s = .caught) (hv : y.vec s = .fn h) :
    arrive t s c y = (.idle, { y with pend := upd y.pend t s, code := c }) := by
  obtain ⟨_, _, _, h1, h2, h3, h4, h5⟩ := ho
  simp [arrive, h5, hd, eusint, h1, h2, h3, h4, postSem, hv]

theorem poll_fn {t h : Nat} {y : Sys} (hs : y.saved t = none) (hp : 0 < y.pend t) (hv : y.vec (y.pend t) = .fn h) :
    act t (look t y) = (.run t h (y.pend t) y.code, { y with saved := upd (upd y.saved t (some (y.pend t, .fn h))) t none, pend := upd y.pend t 0 }) := by
  simp [look, hs, hp, hv, act, upd_self]

theorem signal_sets {s : Nat} (ho : Ordinary s) (a : Arg) (y : Sys) : (signal s a y).2.vec s = a.handler ∧ (signal s a y).2.disp s = a.disp ∧
    (signal s a y).1 = .old (y.vec s) := by
  obtain ⟨_, h1, h2, _⟩ := ho
  have hm : min s 64 = s := Nat.min_eq_left h1
  simp [signal, hm, h2, upd_self]

/-- C201. The handler that was installed last for an ordinary signal is run, in the thread the signal arrived at, when that thread looks for signals next, and is given
the number of the signal, and its code if no other signal arrived at any thread in between.  Partial: nothing may happen to the thread between the arrival and its look, see the theorems
ending in `_wrong`. -/
theorem C201_handled_partial (top : Bool) (es1 es2 mid : List Ev) (t s c h : Nat) (ho : Ordinary s)
    (hwhole : ∀ e ∈ es1 ++ es2, e.half = false) (h2 : ∀ e ∈ es2 ++ mid, e.sets s = false) (hmid : ∀ e ∈ mid, e.of t = false)
    (halive : (run (es1 ++ [.signal s (.obj (.fn h))] ++ es2 ++ [.arrive t s c] ++ mid ++ [.poll t]) (init top)).2.dead = false) :
    ∃ c', (run (es1 ++ [.signal s (.obj (.fn h))] ++ es2 ++ [.arrive t s c] ++ mid ++ [.poll t]) (init top)).1.getLast? = some (.run t h s c') ∧
      ((∀ e ∈ mid, e.isArrival = false) → c' = c) := by
  simp only [List.append_assoc] at halive ⊢
  rw [run_append] at halive ⊢
  simp only at halive ⊢
  obtain ⟨y1, hy1⟩ : ∃ y, y = (run es1 (init top)).2 := ⟨_, rfl⟩
  have hsv1 : y1.saved t = none := by
    rw [hy1]
    exact run_saved_none t es1 _ (fun e he => hwhole e (List.mem_append_left _ he)) rfl
  rw [← hy1] at halive ⊢
  have ha1 := alive_before _ _ halive
  rw [List.singleton_append, run] at halive ⊢
  simp only at halive ⊢
  have hst : step (.signal s (.obj (.fn h))) y1 = signal s (.obj (.fn h)) y1 := by simp [step, ha1]
  obtain ⟨hv2, hd2, _⟩ := signal_sets ho (.obj (.fn h)) y1
  have hsv2 : (signal s (.obj (.fn h)) y1).2.saved t = none := by simp only [signal]; split <;> exact hsv1
  rw [hst] at halive ⊢
  generalize (signal s (.obj (.fn h)) y1).2 = y2 at *
  rw [run_append] at halive ⊢
  simp only at halive ⊢
  obtain ⟨hv3, hd3⟩ := run_keeps_handler s es2 y2 (fun e he => h2 e (List.mem_append_left _ he))
  have hsv3 : (run es2 y2).2.saved t = none := run_saved_none t es2 y2 (fun e he => hwhole e (List.mem_append_right _ he)) hsv2
  rw [hv2] at hv3
  rw [hd2] at hd3
  generalize run es2 y2 = q2 at *
  have ha3 := alive_before _ _ halive
  rw [List.singleton_append, run] at halive ⊢
  have hst3 : step (.arrive t s c) q2.2 = (.idle, { q2.2 with pend := upd q2.2.pend t s, code := c }) := by
    have hs : step (.arrive t s c) q2.2 = arrive t s c q2.2 := by simp [step, ha3]
    rw [hs]
    exact arrive_fn ho hd3 hv3
  simp only [hst3] at halive ⊢
  obtain ⟨y4, hy4⟩ : ∃ y, y = { q2.2 with pend := upd q2.2.pend t s, code := c } := ⟨_, rfl⟩
  rw [← hy4] at halive ⊢
  have hp4 : y4.pend t = s := by rw [hy4]; exact upd_self _ _ _
  have hc4 : y4.code = c := by rw [hy4]
  have hs4 : y4.saved t = none := by rw [hy4]; exact hsv3
  have hv4 : y4.vec s = .fn h := by rw [hy4]; exact hv3
  rw [run_append] at halive ⊢
  simp only at halive ⊢
  obtain ⟨hp5, hs5⟩ := run_keeps_pend t mid y4 hmid
  obtain ⟨hv5, _⟩ := run_keeps_handler s mid y4 (fun e he => h2 e (List.mem_append_right _ he))
  have ha5 := alive_before _ _ halive
  have hc5 := run_keeps_code mid y4
  rw [hp4] at hp5
  rw [hs4] at hs5
  rw [hv4] at hv5
  rw [hc4] at hc5
  generalize run mid y4 = q5 at *
  refine ⟨q5.2.code, ?_, hc5⟩
  have hst5 : step (.poll t) q5.2 = act t (look t q5.2) := by simp [step, ha5]
  have hp := poll_fn (t := t) (h := h) (y := q5.2) hs5 (by rw [hp5]; exact ho.1) (by rw [hp5]; exact hv5)
  rw [hp5] at hp
  simp [run, hst5, hp, List.getLast?_cons, List.getLast?_append]

/-- The case: an interrupt and other things in between. -/
example : (run [.signal 2 (.obj (.fn 9)), .arrive 1 2 5, .signal 10 (.obj (.fn 8)), .poll 0, .poll 1, .poll 1] (init true)).1 =
    [.old .nil, .idle, .old .nil, .idle, .run 1 9 2 5, .idle] := by decide

/-- One that is pending, for counting. -/
def tok (t s : Nat) (y : Sys) : Nat :=
  if y.pend t = s ∨ (y.saved t).map Prod.fst = some s then 1 else 0

theorem tok_le (t s : Nat) (y : Sys) : tok t s y ≤ 1 := by unfold tok; split <;> omega

theorem tok_eq {t s : Nat} {y y' : Sys} (h1 : y'.pend t = y.pend t) (h2 : y'.saved t = y.saved t) : tok t s y' = tok t s y := by
  unfold tok; rw [h1, h2]

theorem tok_le_of {t s : Nat} {y y' : Sys} (h : (y'.pend t = s ∨ (y'.saved t).map Prod.fst = some s) → (y.pend t = s ∨ (y.saved t).map Prod.fst = some s)) :
    tok t s y' ≤ tok t s y := by
  unfold tok
  split
  · next hp => rw [if_pos (h hp)]; omega
  · omega

/-- A pending signal that is saved is still the one that counts. -/
theorem look_tok (t u s : Nat) (y : Sys) : tok t s (look u y) ≤ tok t s y := by
  apply tok_le_of
  have hk := look_keep u y
  rw [hk.2.2.1]
  rintro (hp | hp)
  · exact Or.inl hp
  · by_cases hu : t = u
    · subst hu
      unfold look at hp
      split at hp
      · next hc =>
        split at hp
        · exact Or.inr hp
        · simp only [upd_self, Option.map_some, Option.some.injEq] at hp
          exact Or.inl hp
      · exact Or.inr hp
    · rw [hk.2.2.2.2.2.2.2.2 t hu] at hp
      exact Or.inr hp

theorem act_tok (t u s : Nat) (hs : 0 < s) (y : Sys) : (if (act u y).1.runs t s then 1 else 0) + tok t s (act u y).2 ≤ tok t s y := by
  by_cases hu : t = u
  · subst hu
    unfold act
    split
    · simp [R.runs]
    · next s' h' e =>
      dsimp only
      have hz : ∀ y' : Sys, y'.pend t = 0 → y'.saved t = none → tok t s y' = 0 := by
        intro y' h1 h2
        unfold tok
        rw [h1, h2, if_neg]
        rintro (h | h)
        · omega
        · cases h
      split
      · rw [hz _ (upd_self _ _ _) (upd_self _ _ _)]
        by_cases hr : s' = s
        · subst hr
          simp [R.runs, tok, e]
        · simp [R.runs, hr]
      · rw [hz _ (upd_self _ _ _) (upd_self _ _ _)]
        simp [R.runs]
  · have hk := (act_keep u y).2.2.2.2.2.2.2 t hu
    rw [tok_eq hk.2 hk.1]
    have : (act u y).1.runs t s = false := by
      unfold act
      split
      · rfl
      · dsimp only
        split
        · simp [R.runs, Ne.symm hu]
        · rfl
    simp [this]

theorem arrive_runs (t s u s' c : Nat) (y : Sys) : (arrive u s' c y).1.runs t s = false := by
  have hps : ∀ r (y : Sys), r.runs t s = false → (postSem u s' r y).1.runs t s = false := by
    intro r y h
    unfold postSem
    split
    · rfl
    · exact h
  unfold arrive
  split
  · rfl
  · split
    · split <;> rfl
    · rfl
    · rfl
    · unfold eusint
      dsimp only
      split
      · exact hps _ _ rfl
      · split
        · rfl
        · split
          · split <;> rfl
          · exact hps _ _ rfl

theorem postSem_pend (u s' : Nat) (r : R) (y : Sys) : (postSem u s' r y).2.pend u = y.pend u ∨ (postSem u s' r y).2.pend u = 0 := by
  unfold postSem
  split
  · exact Or.inr (upd_self _ _ _)
  · exact Or.inl rfl

theorem arrive_pend (u s' c : Nat) (y : Sys) : (arrive u s' c y).2.pend u = s' ∨ (arrive u s' c y).2.pend u = 0 ∨ (arrive u s' c y).2.pend u = y.pend u := by
  unfold arrive
  split
  · exact Or.inr (Or.inr rfl)
  · split
    · split <;> exact Or.inr (Or.inr rfl)
    · exact Or.inr (Or.inr rfl)
    · exact Or.inr (Or.inr rfl)
    · unfold eusint
      dsimp only
      split
      · rcases postSem_pend u s' .reaped { y with pend := upd (upd y.pend u s') u 0, code := c } with h | h
        · rw [h]; exact Or.inr (Or.inl (upd_self _ _ _))
        · exact Or.inr (Or.inl h)
      · split
        · exact Or.inl (upd_self _ _ _)
        · split
          · split <;> exact Or.inl (upd_self _ _ _)
          · rcases postSem_pend u s' .idle { y with pend := upd y.pend u s', code := c } with h | h
            · rw [h]; exact Or.inl (upd_self _ _ _)
            · exact Or.inr (Or.inl h)

theorem arrive_tok (t s u s' c : Nat) (hs : 0 < s) (y : Sys) : tok t s (arrive u s' c y).2 ≤ tok t s y + if (Ev.arrive u s' c).brings t s then 1 else 0 := by
  have hk := arrive_keep u s' c y
  by_cases hu : t = u
  · subst hu
    by_cases hb : s' = s
    · subst hb
      have := tok_le t s' (arrive t s' c y).2
      simp [Ev.brings]; omega
    · have : tok t s (arrive t s' c y).2 ≤ tok t s y := by
        apply tok_le_of
        rw [hk.2.2.1]
        rintro (h | h)
        · rcases arrive_pend t s' c y with e | e | e
          · rw [e] at h; exact absurd h hb
          · rw [e] at h; omega
          · rw [e] at h; exact Or.inl h
        · exact Or.inr h
      simp [Ev.brings, hb]; exact this
  · rw [tok_eq (hk.2.2.2 t hu) (by rw [hk.2.2.1])]
    omega

theorem step_tok (t s : Nat) (hs : 0 < s) (e : Ev) (y : Sys) :
    (if (step e y).1.runs t s then 1 else 0) + tok t s (step e y).2 ≤ tok t s y + if e.brings t s then 1 else 0 := by
  unfold step
  split
  · simp [R.runs]
  · cases e with
    | signal s' a =>
      have h1 : (signal s' a y).1.runs t s = false := by simp only [signal]; split <;> rfl
      have h2 : tok t s (signal s' a y).2 = tok t s y := by
        apply tok_eq <;> (simp only [signal]; split <;> rfl)
      simp only [h1, h2]
      simp
    | arrive u s' c =>
      have h1 := arrive_runs t s u s' c y
      have h2 := arrive_tok t s u s' c hs y
      simp only [h1, Bool.false_eq_true, if_false, Nat.zero_add]
      exact h2
    | poll u =>
      have h1 := act_tok t u s hs (look u y)
      have h2 := look_tok t u s y
      simp only [Ev.brings, Bool.false_eq_true, if_false]
      omega
    | look u =>
      have h2 := look_tok t u s y
      simp [R.runs, Ev.brings]; exact h2
    | act u =>
      have h1 := act_tok t u s hs y
      simp only [Ev.brings, Bool.false_eq_true, if_false]
      omega

theorem run_tok (t s : Nat) (hs : 0 < s) : ∀ (es : List Ev) (y : Sys),
    (run es y).1.countP (R.runs t s) + tok t s (run es y).2 ≤ tok t s y + es.countP (Ev.brings t s)
  | [], y => by simp [run]
  | e :: es, y => by
    have h1 := step_tok t s hs e y
    have h2 := run_tok t s hs es (step e y).2
    simp only [run, List.countP_cons]
    omega

/-- C201. For every history, also when a signal arrives in the middle of a look: a handler is run for a signal in a thread at most as often as the signal arrived at that thread. -/
theorem C201_at_most (top : Bool) (es : List Ev) (t s : Nat) (hs : 0 < s) :
    (run es (init top)).1.countP (R.runs t s) ≤ es.countP (Ev.brings t s) := by
  have h := run_tok t s hs es (init top)
  have h0 : tok t s (init top) = 0 := by
    unfold tok init
    rw [if_neg]
    rintro (h | h)
    · simp at h; omega
    · cases h
  omega

example : (run [.signal 2 (.obj (.fn 9)), .arrive 0 2 0, .arrive 0 2 0, .poll 0, .arrive 0 2 0, .poll 0, .poll 0] (init true)).1.countP (R.runs 0 2) = 2 := by decide

/-! ### Threads -/

structure Same (t : Nat) (y z : Sys) : Prop where
  vec : y.vec = z.vec
  disp : y.disp = z.disp
  pend : y.pend t = z.pend t
  saved : y.saved t = z.saved t
  top : y.top = z.top
  blocked : y.blocked t = z.blocked t
  dead : y.dead = z.dead

theorem upd_at {α : Type} (f g : Nat → α) (n : Nat) (a : α) : upd f n a n = upd g n a n := by rw [upd_self, upd_self]

macro "same_tac " h:ident : tactic =>
  `(tactic| (
    have h1 := Same.vec $h
    have h2 := Same.disp $h
    have h3 := Same.pend $h
    have h4 := Same.saved $h
    have h5 := Same.top $h
    have h6 := Same.blocked $h
    have h7 := Same.dead $h
    constructor <;> first | rfl | exact upd_at _ _ _ _ | exact h1 | exact h2 | exact h3 | exact h4 | exact h5 | exact h6 | exact h7))

theorem same_post (t s : Nat) (r : R) {y z : Sys} (h : Same t y z) : (postSem t s r y).1 = (postSem t s r z).1 ∧ Same t (postSem t s r y).2 (postSem t s r z).2 := by
  unfold postSem
  rw [h.vec]
  split
  · exact ⟨rfl, (by same_tac h)⟩
  · exact ⟨rfl, h⟩

theorem same_eusint (t s c : Nat) {y z : Sys} (h : Same t y z) : (eusint t s c y).1 = (eusint t s c z).1 ∧ Same t (eusint t s c y).2 (eusint t s c z).2 := by
  unfold eusint
  dsimp only
  by_cases h1 : s = sigCHLD
  · rw [if_pos h1, if_pos h1]
    exact same_post t s _ (by same_tac h)
  · rw [if_neg h1, if_neg h1]
    by_cases h2 : s = sigFPE ∨ s = sigSEGV ∨ s = sigBUS
    · rw [if_pos h2, if_pos h2]
      exact ⟨rfl, (by same_tac h)⟩
    · rw [if_neg h2, if_neg h2, h.top]
      by_cases h3 : s = sigPIPE ∧ z.top = true
      · rw [if_pos h3, if_pos h3]
        by_cases h4 : t = 0
        · rw [if_pos h4, if_pos h4]
          exact ⟨rfl, (by same_tac h)⟩
        · rw [if_neg h4, if_neg h4]
          exact ⟨rfl, (by same_tac h)⟩
      · rw [if_neg h3, if_neg h3]
        exact same_post t s _ (by same_tac h)

theorem same_arrive (t s c : Nat) {y z : Sys} (h : Same t y z) : (arrive t s c y).1 = (arrive t s c z).1 ∧ Same t (arrive t s c y).2 (arrive t s c z).2 := by
  unfold arrive
  rw [h.blocked, h.disp]
  by_cases h1 : s = sigPIPE ∧ z.blocked t = true
  · rw [if_pos h1, if_pos h1]; exact ⟨rfl, h⟩
  · rw [if_neg h1, if_neg h1]
    split
    · split
      · exact ⟨rfl, h⟩
      · exact ⟨rfl, (by same_tac h)⟩
    · exact ⟨rfl, h⟩
    · exact ⟨rfl, (by same_tac h)⟩
    · exact same_eusint t s c h

theorem same_look (t : Nat) {y z : Sys} (h : Same t y z) : Same t (look t y) (look t z) := by
  unfold look
  rw [h.saved, h.pend, h.vec]
  by_cases h1 : z.saved t = none ∧ 0 < z.pend t
  · rw [if_pos h1, if_pos h1]
    split
    · exact h
    · exact (by same_tac h)
  · rw [if_neg h1, if_neg h1]; exact h

theorem same_act (t : Nat) {y z : Sys} (h : Same t y z) : (act t y).1.noCode = (act t z).1.noCode ∧ Same t (act t y).2 (act t z).2 := by
  unfold act
  rw [h.saved]
  split
  · exact ⟨rfl, h⟩
  · dsimp only
    split
    · exact ⟨rfl, (by same_tac h)⟩
    · exact ⟨rfl, (by same_tac h)⟩

theorem same_own (t : Nat) (e : Ev) (he : e.concerns t = true) {y z : Sys} (h : Same t y z) :
    (step e y).1.noCode = (step e z).1.noCode ∧ Same t (step e y).2 (step e z).2 := by
  unfold step
  rw [h.dead]
  split
  · exact ⟨rfl, h⟩
  · cases e with
    | signal s a =>
      dsimp only [signal]
      rw [h.vec]
      split
      · exact ⟨rfl, ⟨rfl, h.disp, h.pend, h.saved, h.top, h.blocked, h.dead⟩⟩
      · exact ⟨rfl, ⟨rfl, by show upd _ _ _ = upd _ _ _; rw [h.disp], h.pend, h.saved, h.top, h.blocked, h.dead⟩⟩
    | arrive u s c =>
      simp only [Ev.concerns, Ev.of, beq_iff_eq] at he
      subst he
      have := same_arrive u s c h
      exact ⟨congrArg R.noCode this.1, this.2⟩
    | poll u =>
      simp only [Ev.concerns, Ev.of, beq_iff_eq] at he
      subst he
      exact same_act u (same_look u h)
    | look u =>
      simp only [Ev.concerns, Ev.of, beq_iff_eq] at he
      subst he
      exact ⟨rfl, same_look u h⟩
    | act u =>
      simp only [Ev.concerns, Ev.of, beq_iff_eq] at he
      subst he
      exact same_act u h

theorem arrive_top (u s c : Nat) (y : Sys) (t : Nat) (ht : t ≠ u) : (arrive u s c y).2.top = y.top ∧ (arrive u s c y).2.blocked t = y.blocked t := by
  have hp : ∀ r (y : Sys), (postSem u s r y).2.top = y.top ∧ (postSem u s r y).2.blocked = y.blocked := by
    intro r y; unfold postSem; split <;> exact ⟨rfl, rfl⟩
  unfold arrive
  split
  · exact ⟨rfl, rfl⟩
  · split
    · split <;> exact ⟨rfl, rfl⟩
    · exact ⟨rfl, rfl⟩
    · exact ⟨rfl, rfl⟩
    · unfold eusint
      dsimp only
      split
      · exact ⟨(hp _ _).1, by rw [(hp _ _).2]⟩
      · split
        · exact ⟨rfl, rfl⟩
        · split
          · split
            · exact ⟨rfl, upd_ne _ _ ht⟩
            · exact ⟨rfl, rfl⟩
          · exact ⟨(hp _ _).1, by rw [(hp _ _).2]⟩

theorem same_other (t : Nat) (e : Ev) (he : e.concerns t = false) {y z : Sys} (h : Same t y z) (hd : (step e y).2.dead = y.dead) : Same t (step e y).2 z := by
  have hof : e.of t = false := by cases e <;> simp_all [Ev.concerns, Ev.of]
  obtain ⟨hp, hs⟩ := step_keeps_pend t e hof y
  have hrest : (step e y).2.vec = y.vec ∧ (step e y).2.disp = y.disp ∧ (step e y).2.top = y.top ∧ (step e y).2.blocked t = y.blocked t := by
    unfold step
    split
    · exact ⟨rfl, rfl, rfl, rfl⟩
    · cases e with
      | signal s a => simp [Ev.concerns] at he
      | arrive u s c =>
        have hu : t ≠ u := by simp only [Ev.of, beq_eq_false_iff_ne] at hof; exact fun e => hof e.symm
        have hk := arrive_keep u s c y
        have hk' := arrive_top u s c y t hu
        exact ⟨hk.1, hk.2.1, hk'.1, hk'.2⟩
      | poll u =>
        have h1 := look_keep u y
        have h2 := act_keep u (look u y)
        exact ⟨h2.1.trans h1.1, h2.2.1.trans h1.2.1, h2.2.2.2.2.2.2.1.trans h1.2.2.2.2.2.2.2.1, by rw [h2.2.2.2.2.2.1, h1.2.2.2.2.2.2.1]⟩
      | look u => have h1 := look_keep u y; exact ⟨h1.1, h1.2.1, h1.2.2.2.2.2.2.2.1, by show (look u y).blocked t = _; rw [h1.2.2.2.2.2.2.1]⟩
      | act u => have h2 := act_keep u y; exact ⟨h2.1, h2.2.1, h2.2.2.2.2.2.2.1, by show (act u y).2.blocked t = _; rw [h2.2.2.2.2.2.1]⟩
  exact ⟨hrest.1.trans h.vec, hrest.2.1.trans h.disp, hp.trans h.pend, hs.trans h.saved, hrest.2.2.1.trans h.top, hrest.2.2.2.trans h.blocked, hd.trans h.dead⟩

theorem run_same (t : Nat) : ∀ (es : List Ev) (y z : Sys), Same t y z → (run es y).2.dead = false →
    pick t es (run es y).1 = (run (es.filter (Ev.concerns t)) z).1.map R.noCode
  | [], _, _, _, _ => rfl
  | e :: es, y, z, h, ha => by
    have ha1 : (step e y).2.dead = false := alive_before es _ ha
    have ha0 : y.dead = false := alive_before (e :: es) _ ha
    cases he : e.concerns t with
    | true =>
      obtain ⟨h1, h2⟩ := same_own t e he h
      rw [List.filter_cons_of_pos he]
      simp only [run, pick, he, if_true, List.map_cons]
      rw [h1, run_same t es _ _ h2 ha]
    | false =>
      have h2 := same_other t e he h (by rw [ha1, ha0])
      rw [List.filter_cons_of_neg (by simp [he])]
      simp only [run, pick, he, Bool.false_eq_true, if_false]
      exact run_same t es _ _ h2 ha

/-- C201. Threads: as long as the process lives, what happens to a thread, and what `unix:signal` returns, is what would happen without the signals that arrive at the other threads and without
the looks of the other threads; except for the code that is given to a handler. -/
theorem C201_threads (top : Bool) (es : List Ev) (t : Nat) (halive : (run es (init top)).2.dead = false) :
    pick t es (run es (init top)).1 = (run (es.filter (Ev.concerns t)) (init top)).1.map R.noCode :=
  run_same t es _ _ ⟨rfl, rfl, rfl, rfl, rfl, rfl, rfl⟩ halive

example :
    let es : List Ev := [.signal 2 (.obj (.fn 9)), .arrive 1 2 5, .arrive 0 2 6, .poll 0, .look 1, .arrive 0 2 7, .act 1]
    (run es (init true)).2.dead = false ∧ pick 1 es (run es (init true)).1 = [.old .nil, .idle, .idle, .run 1 9 2 0] := by decide

/-- C201, what fails: the code is one variable for all threads; here thread 1 gets the code of the signal that thread 0 got. -/
theorem C201_code_wrong :
    (run [.signal 2 (.obj (.fn 9)), .arrive 1 2 5, .poll 1] (init true)).1 = [.old .nil, .idle, .run 1 9 2 5] ∧
    (run [.signal 2 (.obj (.fn 9)), .arrive 1 2 5, .arrive 0 2 6, .poll 1] (init true)).1 = [.old .nil, .idle, .idle, .run 1 9 2 6] := by decide

/-! ### Semaphores -/

theorem postSem_dead (t s : Nat) (r : R) (y : Sys) : (postSem t s r y).2.dead = y.dead := by
  unfold postSem; split <;> rfl

theorem arrive_sem_mono (u s c : Nat) (y : Sys) (k : Nat) : y.sem k ≤ (arrive u s c y).2.sem k := by
  have hp : ∀ r (y : Sys), y.sem k ≤ (postSem u s r y).2.sem k := by
    intro r y
    unfold postSem
    split
    · next k' _ =>
      show y.sem k ≤ upd y.sem k' (y.sem k' + 1) k
      by_cases e : k = k'
      · subst e; rw [upd_self]; omega
      · rw [upd_ne _ _ e]; omega
    · exact Nat.le_refl _
  unfold arrive
  split
  · exact Nat.le_refl _
  · split
    · split <;> exact Nat.le_refl _
    · exact Nat.le_refl _
    · exact Nat.le_refl _
    · unfold eusint
      dsimp only
      split
      · exact hp _ { y with pend := upd (upd y.pend u s) u 0, code := c }
      · split
        · exact Nat.le_refl _
        · split
          · split <;> exact Nat.le_refl _
          · exact hp _ { y with pend := upd y.pend u s, code := c }

theorem arrive_sem {s k : Nat} (ho : Ordinary s) (u c : Nat) (y : Sys) (hd : y.disp s = .caught) (hv : y.vec s = .sem k) :
    (arrive u s c y).1 = .posted k ∧ (arrive u s c y).2.sem = upd y.sem k (y.sem k + 1) ∧ (arrive u s c y).2.pend u = 0 := by
  obtain ⟨_, _, _, h1, h2, h3, h4, h5⟩ := ho
  simp [arrive, h5, hd, eusint, h1, h2, h3, h4, postSem, hv, upd_self]

theorem step_sem {s k : Nat} (ho : Ordinary s) (e : Ev) (y : Sys) (ha : y.dead = false) (hd : y.disp s = .caught) (hv : y.vec s = .sem k) :
    y.sem k + (if e.comes s then 1 else 0) ≤ (step e y).2.sem k := by
  simp only [step, ha, Bool.false_eq_true, if_false]
  cases e with
  | signal s' a =>
    have hs : (signal s' a y).2.sem = y.sem := by simp only [signal]; split <;> rfl
    show _ ≤ (signal s' a y).2.sem k
    rw [hs]
    simp [Ev.comes]
  | arrive u s' c =>
    by_cases e : s' = s
    · subst e
      show _ ≤ (arrive u s' c y).2.sem k
      rw [(arrive_sem ho u c y hd hv).2.1, upd_self]
      simp [Ev.comes]
    · have := arrive_sem_mono u s' c y k
      simp [Ev.comes, e]; exact this
  | poll u =>
    show _ ≤ (act u (look u y)).2.sem k
    rw [(act_keep u (look u y)).2.2.2.1, (look_keep u y).2.2.2.2.1]
    simp [Ev.comes]
  | look u => show _ ≤ (look u y).sem k; rw [(look_keep u y).2.2.2.2.1]; simp [Ev.comes]
  | act u => show _ ≤ (act u y).2.sem k; rw [(act_keep u y).2.2.2.1]; simp [Ev.comes]

theorem run_sem {s k : Nat} (ho : Ordinary s) : ∀ (es : List Ev) (y : Sys), (∀ e ∈ es, e.sets s = false) → (run es y).2.dead = false → y.disp s = .caught → y.vec s = .sem k →
    y.sem k + es.countP (Ev.comes s) ≤ (run es y).2.sem k
  | [], _, _, _, _, _ => by simp [run]
  | e :: es, y, hn, ha, hd, hv => by
    have h1 := step_sem ho e y (alive_before (e :: es) _ ha) hd hv
    have hk := step_keeps_handler s e (hn e List.mem_cons_self) y
    have h2 := run_sem ho es (step e y).2 (fun e' he => hn e' (List.mem_cons_of_mem _ he)) ha (hk.2.trans hd) (hk.1.trans hv)
    simp only [run, List.countP_cons]
    omega

/-- C201. A semaphore as the handler loses no signal: it has been posted once at least for every arrival of the signal at any thread. -/
theorem C201_semaphore (top : Bool) (es1 es2 : List Ev) (s k : Nat) (ho : Ordinary s) (h2 : ∀ e ∈ es2, e.sets s = false)
    (halive : (run (es1 ++ [.signal s (.obj (.sem k))] ++ es2) (init top)).2.dead = false) :
    (run es1 (init top)).2.sem k + es2.countP (Ev.comes s) ≤ (run (es1 ++ [.signal s (.obj (.sem k))] ++ es2) (init top)).2.sem k := by
  simp only [List.append_assoc] at halive ⊢
  rw [run_append] at halive ⊢
  simp only at halive ⊢
  generalize (run es1 (init top)).2 = y1 at *
  have ha1 := alive_before _ _ halive
  rw [List.singleton_append, run] at halive ⊢
  have hst : step (.signal s (.obj (.sem k))) y1 = signal s (.obj (.sem k)) y1 := by simp [step, ha1]
  simp only [hst] at halive ⊢
  obtain ⟨hv2, hd2, _⟩ := signal_sets ho (.obj (.sem k)) y1
  have hs : (signal s (.obj (.sem k)) y1).2.sem = y1.sem := by simp only [signal]; split <;> rfl
  rw [← hs]
  exact run_sem ho es2 _ h2 halive hd2 hv2

/-- Two signals before anybody looks are two posts. -/
example : (run [.signal 14 (.obj (.sem 3)), .arrive 0 14 0, .arrive 1 14 0, .poll 0, .poll 1] (init true)).1 = [.old .nil, .posted 3, .posted 3, .idle, .idle] ∧
    (run [.signal 14 (.obj (.sem 3)), .arrive 0 14 0, .arrive 1 14 0, .poll 0, .poll 1] (init true)).2.sem 3 = 2 := by decide

/-! ### What fails -/

/-- An alive process in which signals have handlers that are functions. -/
def Ready (y : Sys) (t : Nat) : Prop := y.dead = false ∧ y.saved t = none

/-- C201, what fails: of two signals that arrive at a thread before it looks, the first is lost: its handler is not run. -/
theorem C201_overwrite_wrong (top : Bool) (es : List Ev) (t s1 s2 c1 c2 h1 h2 : Nat) (ho1 : Ordinary s1) (ho2 : Ordinary s2) (hne : s1 ≠ s2)
    (hr : Ready (run es (init top)).2 t) :
    (run [.signal s1 (.obj (.fn h1)), .signal s2 (.obj (.fn h2)), .arrive t s1 c1, .arrive t s2 c2, .poll t, .poll t] (run es (init top)).2).1.drop 2 =
      [.idle, .idle, .run t h2 s2 c2, .idle] := by
  obtain ⟨ha, hs⟩ := hr
  generalize (run es (init top)).2 = y at *
  obtain ⟨p1, q1, r1, a1, b1, d1, e1, f1⟩ := ho1
  obtain ⟨p2, q2, r2, a2, b2, d2, e2, f2⟩ := ho2
  have hm1 : min s1 64 = s1 := Nat.min_eq_left q1
  have hm2 : min s2 64 = s2 := Nat.min_eq_left q2
  simp [run, step, signal, ha, hm1, hm2, r1, r2, arrive, f1, f2, upd, hne, Arg.disp, Arg.handler, eusint, a1, a2, b1, b2, d1, d2, e1, e2, postSem, look, act, hs, p2]

example : Ready (run [.signal 2 (.obj (.fn 9)), .arrive 0 2 5, .poll 0] (init true)).2 0 ∧ Ordinary 2 ∧ Ordinary 14 := by
  refine ⟨⟨by decide, by decide⟩, ?_, ?_⟩ <;> (refine ⟨?_, ?_, ?_, ?_, ?_, ?_, ?_, ?_⟩ <;> decide)

/-- C201, what fails: a signal whose handler is a semaphore does the same to one that is pending. -/
theorem C201_semaphore_wrong (top : Bool) (es : List Ev) (t s1 s2 c1 c2 h1 k : Nat) (ho1 : Ordinary s1) (ho2 : Ordinary s2) (hne : s1 ≠ s2)
    (hr : Ready (run es (init top)).2 t) :
    (run [.signal s1 (.obj (.fn h1)), .signal s2 (.obj (.sem k)), .arrive t s1 c1, .arrive t s2 c2, .poll t] (run es (init top)).2).1.drop 2 =
      [.idle, .posted k, .idle] := by
  obtain ⟨ha, hs⟩ := hr
  generalize (run es (init top)).2 = y at *
  obtain ⟨p1, q1, r1, a1, b1, d1, e1, f1⟩ := ho1
  obtain ⟨p2, q2, r2, a2, b2, d2, e2, f2⟩ := ho2
  have hm1 : min s1 64 = s1 := Nat.min_eq_left q1
  have hm2 : min s2 64 = s2 := Nat.min_eq_left q2
  simp [run, step, signal, ha, hm1, hm2, r1, r2, arrive, f1, f2, upd, hne, Arg.disp, Arg.handler, eusint, a1, a2, b1, b2, d1, d2, e1, e2, postSem, look, act, hs]

/-- C201, what fails: so is a signal that arrives while the thread is about to run a handler. -/
theorem C201_race_wrong (top : Bool) (es : List Ev) (t s1 s2 c1 c2 h1 h2 : Nat) (ho1 : Ordinary s1) (ho2 : Ordinary s2) (hne : s1 ≠ s2)
    (hr : Ready (run es (init top)).2 t) :
    (run [.signal s1 (.obj (.fn h1)), .signal s2 (.obj (.fn h2)), .arrive t s1 c1, .look t, .arrive t s2 c2, .act t, .poll t] (run es (init top)).2).1.drop 2 =
      [.idle, .idle, .idle, .run t h1 s1 c2, .idle] := by
  obtain ⟨ha, hs⟩ := hr
  generalize (run es (init top)).2 = y at *
  obtain ⟨p1, q1, r1, a1, b1, d1, e1, f1⟩ := ho1
  obtain ⟨p2, q2, r2, a2, b2, d2, e2, f2⟩ := ho2
  have hm1 : min s1 64 = s1 := Nat.min_eq_left q1
  have hm2 : min s2 64 = s2 := Nat.min_eq_left q2
  simp [run, step, signal, ha, hm1, hm2, r1, r2, arrive, f1, f2, upd, hne, Arg.disp, Arg.handler, eusint, a1, a2, b1, b2, d1, d2, e1, e2, postSem, look, act, hs, p1]

theorem arrive_pend_chld (u s' c t : Nat) (y : Sys) (h : y.pend t ≠ sigCHLD) : (arrive u s' c y).2.pend t ≠ sigCHLD := by
  by_cases hu : t = u
  · subst hu
    by_cases e : s' = sigCHLD
    · subst e
      unfold arrive
      rw [if_neg (by simp)]
      split
      · rw [if_pos rfl]; exact h
      · exact h
      · exact h
      · unfold eusint
        dsimp only
        rw [if_pos rfl]
        rcases postSem_pend t sigCHLD .reaped { y with pend := upd (upd y.pend t sigCHLD) t 0, code := c } with h' | h'
        · rw [h']; show upd _ t 0 t ≠ _; rw [upd_self]; decide
        · rw [h']; decide
    · rcases arrive_pend t s' c y with e' | e' | e'
      · rw [e']; exact e
      · rw [e']; decide
      · rw [e']; exact h
  · rw [(arrive_keep u s' c y).2.2.2 t hu]; exact h

theorem act_pend (u t : Nat) (y : Sys) : (act u y).2.pend t = 0 ∨ (act u y).2.pend t = y.pend t := by
  by_cases hu : t = u
  · subst hu
    unfold act
    split
    · exact Or.inr rfl
    · dsimp only; split <;> exact Or.inl (upd_self _ _ _)
  · exact Or.inr ((act_keep u y).2.2.2.2.2.2.2 t hu).2

theorem step_no_chld (e : Ev) (y : Sys) (hp : ∀ t, tok t sigCHLD y = 0) : ∀ t, tok t sigCHLD (step e y).2 = 0 := by
  intro t
  have h0 := hp t
  have hpt : y.pend t ≠ sigCHLD := by
    intro e; unfold tok at h0; rw [if_pos (Or.inl e)] at h0; omega
  cases e with
  | arrive u s c =>
    unfold step
    split
    · exact h0
    · have h1 := arrive_pend_chld u s c t y hpt
      have h2 := (arrive_keep u s c y).2.2.1
      show tok t sigCHLD (arrive u s c y).2 = 0
      unfold tok at h0 ⊢
      rw [h2]
      rw [if_neg]
      rintro (h | h)
      · exact h1 h
      · rw [if_pos (Or.inr h)] at h0; omega
  | signal s a => have := step_tok t sigCHLD (by decide) (.signal s a) y; simp only [Ev.brings, Bool.false_eq_true, if_false] at this; omega
  | poll u => have := step_tok t sigCHLD (by decide) (.poll u) y; simp only [Ev.brings, Bool.false_eq_true, if_false] at this; omega
  | look u => have := step_tok t sigCHLD (by decide) (.look u) y; simp only [Ev.brings, Bool.false_eq_true, if_false] at this; omega
  | act u => have := step_tok t sigCHLD (by decide) (.act u) y; simp only [Ev.brings, Bool.false_eq_true, if_false] at this; omega

theorem run_no_chld (t : Nat) : ∀ (es : List Ev) (y : Sys), (∀ u, tok u sigCHLD y = 0) → (run es y).1.countP (R.runs t sigCHLD) = 0
  | [], _, _ => rfl
  | e :: es, y, hp => by
    have h1 := run_no_chld t es (step e y).2 (step_no_chld e y hp)
    simp only [run, List.countP_cons, h1]
    have h2 := step_tok t sigCHLD (by decide) e y
    have h0 := hp t
    cases hr : (step e y).1.runs t sigCHLD with
    | false => rfl
    | true =>
      exfalso
      cases e with
      | arrive u s c =>
        unfold step at hr
        split at hr
        · cases hr
        · rw [arrive_runs] at hr; cases hr
      | signal s a => simp only [hr, Ev.brings, Bool.false_eq_true, if_false, if_true] at h2; omega
      | poll u => simp only [hr, Ev.brings, Bool.false_eq_true, if_false, if_true] at h2; omega
      | look u => simp only [hr, Ev.brings, Bool.false_eq_true, if_false, if_true] at h2; omega
      | act u => simp only [hr, Ev.brings, Bool.false_eq_true, if_false, if_true] at h2; omega

/-- C201, what fails: a function installed for SIGCHLD is accepted and never run, in no history and no thread; -/
theorem C201_child_wrong (top : Bool) (es : List Ev) (t : Nat) :
    (run [.signal sigCHLD (.obj (.fn 9))] (init top)).1 = [.old .nil] ∧ (run es (init top)).1.countP (R.runs t sigCHLD) = 0 := by
  refine ⟨by cases top <;> decide, run_no_chld t es _ (fun u => ?_)⟩
  cases top <;> rfl

/-- and the end of a child process takes away a signal that is pending, say an interrupt. -/
theorem C201_child_erases_wrong (top : Bool) (es : List Ev) (t s c c' h : Nat) (ho : Ordinary s) (hr : Ready (run es (init top)).2 t)
    (hc : (run es (init top)).2.disp sigCHLD = .caught) :
    (run [.signal s (.obj (.fn h)), .arrive t s c, .poll t] (run es (init top)).2).1.drop 1 = [.idle, .run t h s c] ∧
    (run [.signal s (.obj (.fn h)), .arrive t s c, .arrive t sigCHLD c', .poll t] (run es (init top)).2).1.drop 3 = [.idle] := by
  obtain ⟨ha, hs⟩ := hr
  generalize (run es (init top)).2 = y at *
  obtain ⟨p1, q1, r1, a1, b1, d1, e1, f1⟩ := ho
  have hm1 : min s 64 = s := Nat.min_eq_left q1
  constructor
  · simp [run, step, signal, ha, hm1, r1, arrive, f1, upd, Arg.disp, Arg.handler, eusint, a1, b1, d1, e1, postSem, look, act, hs, p1]
  · cases hv : y.vec sigCHLD <;>
    simp [run, step, signal, ha, hm1, r1, arrive, f1, upd, Arg.disp, Arg.handler, eusint, a1, Ne.symm a1, b1, d1, e1, postSem, look, act, hs, hc, hv]

example : (run [.signal 2 (.obj (.fn 9))] (init true)).2.disp sigCHLD = .caught := by decide

/-- C201, what fails: 0 for the default action ((unix:signal s 0), SIG_DFL in C) makes the signal ignored: it does not end the process, whatever comes later. -/
theorem C201_default_wrong (top : Bool) (es1 es2 : List Ev) (t s c : Nat) (ho : Ordinary s) (h2 : ∀ e ∈ es2, e.sets s = false) :
    (run (es1 ++ [.signal s (.int 0)] ++ es2 ++ [.arrive t s c]) (init top)).1.getLast? = some .idle := by
  simp only [List.append_assoc]
  rw [run_append]
  simp only
  generalize run es1 (init top) = q1
  rw [List.singleton_append, run]
  cases ha : q1.2.dead with
  | true =>
    rw [dead_step _ _ ha]
    simp only [run_append, run, dead_step _ _ (show (run es2 q1.2).2.dead = true by rw [dead_run _ _ ha, ha])]
    simp [List.getLast?_cons, List.getLast?_append]
  | false =>
    have hst : step (.signal s (.int 0)) q1.2 = signal s (.int 0) q1.2 := by simp [step, ha]
    obtain ⟨_, hd, _⟩ := signal_sets ho (.int 0) q1.2
    rw [hst]
    simp only [run_append]
    have hk := (run_keeps_handler s es2 _ h2).2.trans hd
    generalize run es2 (signal s (.int 0) q1.2).2 = q2 at *
    have hl : (step (.arrive t s c) q2.2).1 = .idle := by
      unfold step
      split
      · rfl
      · simp [arrive, hk, Arg.disp]
    simp [run, hl, List.getLast?_cons, List.getLast?_append]

/-- Without the call it ends the process. -/
theorem C201_default (top : Bool) (t s c : Nat) (ho : Ordinary s) : (run [.arrive t s c] (init top)).1 = [.died s] := by
  obtain ⟨p1, q1, r1, a1, b1, d1, e1, f1⟩ := ho
  simp [run, step, arrive, init, f1, a1, b1, d1, e1]

/-- C201, what fails: putting back what `unix:signal` returned (as stream.l:385-412 does with SIGALRM) does not put back the default action: the signal, which would have ended the process, is
printed. -/
theorem C201_restore_wrong (top : Bool) (t s c h : Nat) (ho : Ordinary s) :
    (run [.signal s (.obj (.fn h)), .signal s (.obj .nil), .arrive t s c, .poll t] (init top)).1 = [.old .nil, .old (.fn h), .idle, .print t s] := by
  obtain ⟨p1, q1, r1, a1, b1, d1, e1, f1⟩ := ho
  have hm1 : min s 64 = s := Nat.min_eq_left q1
  simp [run, step, signal, init, hm1, r1, arrive, f1, upd, Arg.disp, Arg.handler, eusint, a1, b1, d1, e1, postSem, look, act, p1]

/-- C201. What `unix:signal` returns is what was installed last with it; putting a function back puts it back. -/
theorem C201_old (top : Bool) (es1 es2 : List Ev) (s : Nat) (a b : Arg) (ho : Ordinary s) (h2 : ∀ e ∈ es2, e.sets s = false)
    (halive : (run (es1 ++ [.signal s a] ++ es2 ++ [.signal s b]) (init top)).2.dead = false) :
    (run (es1 ++ [.signal s a] ++ es2 ++ [.signal s b]) (init top)).1.getLast? = some (.old a.asHandler) := by
  simp only [List.append_assoc] at halive ⊢
  rw [run_append] at halive ⊢
  simp only at halive ⊢
  generalize run es1 (init top) = q1 at *
  have ha1 := alive_before _ _ halive
  rw [List.singleton_append, run] at halive ⊢
  have hst : step (.signal s a) q1.2 = signal s a q1.2 := by simp [step, ha1]
  simp only [hst] at halive ⊢
  obtain ⟨hv, _, _⟩ := signal_sets ho a q1.2
  rw [run_append] at halive ⊢
  have hk := (run_keeps_handler s es2 _ h2).1.trans hv
  simp only at halive ⊢
  generalize run es2 (signal s a q1.2).2 = q2 at *
  have ha2 := alive_before _ _ halive
  have hl : (step (.signal s b) q2.2).1 = .old a.handler := by
    have : step (.signal s b) q2.2 = signal s b q2.2 := by simp [step, ha2]
    rw [this, (signal_sets ho b q2.2).2.2, hk]
  have he : a.asHandler = a.handler := by cases a <;> rfl
  rw [he]
  simp [run, hl, List.getLast?_cons, List.getLast?_append]

/-- C201, what fails: in the toplevel a handler for SIGPIPE is never asked: the main thread is thrown to the toplevel (which happens once: the signal stays blocked), and another thread
jumps into the stack of the main thread. -/
theorem C201_pipe_wrong (es : List Ev) (t c h : Nat) (ha : (run es (init true)).2.dead = false) (hb : (run es (init true)).2.blocked t = false)
    (ht : (run es (init true)).2.top = true) :
    (run [.signal sigPIPE (.obj (.fn h)), .arrive t sigPIPE c] (run es (init true)).2).1.drop 1 = [if t = 0 then .thrown else .wild] ∧
    (run [.signal sigPIPE (.obj (.fn h)), .arrive 0 sigPIPE c, .arrive 0 sigPIPE c] (run es (init true)).2).1.drop 2 = [.idle] := by
  generalize (run es (init true)).2 = y at *
  by_cases h0 : t = 0
  · subst h0
    simp [run, step, signal, ha, refused, arrive, hb, upd, Arg.disp, Arg.handler, eusint, ht]
  · cases hb0 : y.blocked 0 <;>
    simp [run, step, signal, ha, refused, arrive, hb, hb0, upd, Arg.disp, Arg.handler, eusint, ht, h0]

example : (run [.signal 2 (.obj (.fn 9)), .arrive 1 2 0, .poll 1] (init true)).2.blocked 1 = false ∧ (run [.signal 2 (.obj (.fn 9)), .arrive 1 2 0, .poll 1] (init true)).2.top = true := by
  decide

/-- Outside the toplevel (a program without (catch 0 …)) it is run as any other. -/
theorem C201_pipe (t c h : Nat) : (run [.signal sigPIPE (.obj (.fn h)), .arrive t sigPIPE c, .poll t] (init false)).1 = [.old .nil, .idle, .run t h sigPIPE c] := by
  simp [run, step, signal, init, refused, arrive, upd, Arg.disp, Arg.handler, eusint, postSem, look, act]

end Eus.Sgn
