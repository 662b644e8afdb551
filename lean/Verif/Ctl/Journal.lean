import Verif.Ctl.Insens
set_option autoImplicit false
/-
In the reference semantics the journal of a program is balanced.
-/
namespace Eus.Ctl

theorem Balanced.append {u w : List Val} (hu : Balanced u) (hw : Balanced w) : Balanced (u ++ w) := by
  induction hu with
  | nil => exact hw
  | other _ ih => exact .other ih
  | pair hi h1 h2 ih1 ih2 =>
    rw [List.cons_append, List.append_assoc, List.cons_append]
    exact .pair hi h1 ih2

/-- What was printed from `s` on is balanced, if the form was left regularly. -/
def Bal (s : St) (r : Exit × St) : Prop :=
  (∀ v, r.1 = .val v → ∃ w, r.2.out = w.reverse ++ s.out ∧ Balanced w) ∧ ∀ d v, r.1 = .exit d v → ∃ w, r.2.out = w.reverse ++ s.out ∧ Balanced w

theorem Bal.refl (s : St) (e : Exit) : Bal s (e, s) := ⟨fun _ _ => ⟨[], by simp, .nil⟩, fun _ _ _ => ⟨[], by simp, .nil⟩⟩

theorem Bal.trans {s s1 : St} {r : Exit × St} {w : List Val} (h1 : s1.out = w.reverse ++ s.out) (h2 : Balanced w) (k : Bal s1 r) : Bal s r := by
  refine ⟨fun v hv => ?_, fun d v hv => ?_⟩
  · obtain ⟨u, k1, k2⟩ := k.1 v hv
    exact ⟨w ++ u, by rw [k1, h1]; simp, h2.append k2⟩
  · obtain ⟨u, k1, k2⟩ := k.2 d v hv
    exact ⟨w ++ u, by rw [k1, h1]; simp, h2.append k2⟩

theorem Bal.andThen {s : St} {r : Exit × St} {f : Val → St → Exit × St} (h : Bal s r) (k : ∀ v s1, Bal s1 (f v s1)) : Bal s (andThen r f) := by
  obtain ⟨e, s1⟩ := r
  cases e with
  | val v =>
    obtain ⟨w, h1, h2⟩ := h.1 v rfl
    exact Bal.trans h1 h2 (k v s1)
  | exit d v => exact h
  | fail => exact ⟨fun v h => (by cases h), fun d v h => (by cases h)⟩
  | timeout => exact ⟨fun v h => (by cases h), fun d v h => (by cases h)⟩

theorem Bal.arrive {s : St} {r : Exit × St} (h : Bal s r) (d : Nat) : Bal s (arrive d r) := by
  obtain ⟨e, s1⟩ := r
  cases e with
  | val v => exact h
  | exit d' v =>
    unfold Ctl.arrive
    dsimp only
    split
    · exact ⟨fun _ _ => h.2 d' v rfl, fun d v h => (by cases h)⟩
    · exact h
  | fail => exact h
  | timeout => exact h

theorem meanCall_bal {P : Prog} (HM : ∀ f, Marked (P.F f) = true) {run : Tm → Env → St → Exit × St} (H : ∀ t E s, Marked t = true → Bal s (run t E s))
    (f : Nat) (E : Env) (s : St) : Bal s (meanCall P run f E s) := (H _ _ _ (HM f)).arrive _

theorem signal_bal {P : Prog} (HM : ∀ f, Marked (P.F f) = true) {run : Tm → Env → St → Exit × St} (H : ∀ t E s, Marked t = true → Bal s (run t E s))
    (E : Env) (s : St) : Bal s (signal P run E s) := by
  unfold signal
  split
  · exact Bal.refl s _
  · exact (meanCall_bal HM H _ E s).andThen fun _ s1 => Bal.refl s1 _

/-- Printing a constant and going on. -/
theorem mean_printed (P : Prog) (n : Nat) (v : Val) (e : Tm) (E : Env) (s : St) :
    mean P n (.progn (.print (.const v)) e) E s = (.timeout, s) ∨
      ∃ m, mean P n (.progn (.print (.const v)) e) E s = mean P (m + 2) e E { s with out := v :: s.out } ∧ n = m + 3 := by
  match n with
  | 0 => exact Or.inl rfl
  | 1 => exact Or.inl rfl
  | 2 => exact Or.inl rfl
  | m + 3 => exact Or.inr ⟨m, rfl, rfl⟩

theorem mean_bal {P : Prog} (HM : ∀ f, Marked (P.F f) = true) : ∀ n t E s, Marked t = true → Bal s (mean P n t E s) := by
  intro n
  induction n using Nat.strongRecOn with
  | _ n ih =>
    cases n with
    | zero => intro t E s _; exact Bal.refl s _
    | succ n =>
      have ih' : ∀ t E s, Marked t = true → Bal s (mean P n t E s) := ih n (by omega)
      intro t E s hm
      cases t with
      | const v => exact Bal.refl s _
      | var x => exact Bal.refl s _
      | setq x e => exact (ih' e E s hm).andThen fun v s1 => ⟨fun _ _ => ⟨[], by simp, .nil⟩, fun _ _ _ => ⟨[], by simp, .nil⟩⟩
      | print e =>
        obtain ⟨k, rfl⟩ : ∃ k, e = .const (.sym k) := by
          cases e with
          | const v => cases v with
            | sym k => exact ⟨k, rfl⟩
            | _ => simp [Marked] at hm
          | _ => simp [Marked] at hm
        rw [mean]
        cases n with
        | zero => exact ⟨fun v h => (by cases h), fun d v h => (by cases h)⟩
        | succ n => exact ⟨fun _ _ => ⟨[.sym k], rfl, .other .nil⟩, fun d v h => (by cases h)⟩
      | progn a b =>
        simp only [Marked, Bool.and_eq_true] at hm
        exact (ih' a E s hm.1).andThen fun _ s1 => ih' b E s1 hm.2
      | ite e a b =>
        simp only [Marked, Bool.and_eq_true] at hm
        refine (ih' e E s hm.1.1).andThen fun v s1 => ?_
        split
        · exact ih' a E s1 hm.1.2
        · exact ih' b E s1 hm.2
      | lett x e b =>
        simp only [Marked, Bool.and_eq_true] at hm
        refine (ih' e E s hm.1).andThen fun v s1 => ?_
        exact ih' b E { s1 with spec := upd s1.spec x v } hm.2
      | call f => exact meanCall_bal HM ih' f E s
      | catch_ tag b =>
        simp only [Marked, Bool.and_eq_true] at hm
        exact (ih' tag E s hm.1).andThen fun v s1 => (ih' b _ s1 hm.2).arrive _
      | throw_ tag e =>
        simp only [Marked, Bool.and_eq_true] at hm
        refine (ih' tag E s hm.1).andThen fun tg s1 => (ih' e E s1 hm.2).andThen fun v s2 => ?_
        split
        · exact Bal.refl s2 _
        · exact signal_bal HM ih' E s2
      | block nm b => exact (ih' b _ s hm).arrive _
      | retfrom nm e =>
        rw [mean]
        split
        · exact (ih' e E s hm).andThen fun v s1 => Bal.refl s1 _
        · exact signal_bal HM ih' E s
      | protect e c =>
        have hx : ∃ i e1 c1, e = .progn (.print (.const (.int i))) e1 ∧ c = .progn (.print (.const (.int (-i)))) c1 ∧ 0 < i ∧ Marked e1 = true ∧ Marked c1 = true := by
          unfold Marked at hm
          split at hm <;> rename_i heq
          all_goals try cases heq
          all_goals try (cases hm; done)
          all_goals
            simp only [Bool.and_eq_true, decide_eq_true_eq, beq_iff_eq] at hm
            obtain ⟨⟨⟨h1, h2⟩, h3⟩, h4⟩ := hm
            subst h2
            exact ⟨_, _, _, rfl, rfl, h1, h3, h4⟩
        obtain ⟨i, e1, c1, rfl, rfl, hi, he, hc⟩ := hx
        rw [mean]
        rcases mean_printed P n (.int i) e1 E s with h | ⟨m, h, hn⟩
        · rw [h]; exact ⟨fun v h => (by cases h), fun d v h => (by cases h)⟩
        · rw [h]
          have g := ih (m + 2) (by omega) e1 E { s with out := .int i :: s.out } he
          -- the cleanup form, from what the body printed on
          have clean : ∀ (F : Env) (s1 : St) (w : List Val) (f : Val → St → Exit × St), s1.out = w.reverse ++ (.int i :: s.out) → Balanced w →
              (∀ v s2, f v s2 = (.timeout, s2) ∨ ∃ x, f v s2 = (x, s2)) →
              Bal s (andThen (mean P n (.progn (.print (.const (.int (-i)))) c1) F s1) f) := by
            intro F s1 w f hw hb hf
            rcases mean_printed P n (.int (-i)) c1 F s1 with h | ⟨m', h, hn'⟩
            · rw [h]; exact ⟨fun v h => (by cases h), fun d v h => (by cases h)⟩
            · rw [h]
              have g2 := ih (m' + 2) (by omega) c1 F { s1 with out := .int (-i) :: s1.out } hc
              have g3 : Bal { s1 with out := .int (-i) :: s1.out } (andThen (mean P (m' + 2) c1 F { s1 with out := .int (-i) :: s1.out }) f) := by
                refine g2.andThen fun v s2 => ?_
                rcases hf v s2 with hf | ⟨x, hf⟩
                · rw [hf]; exact Bal.refl s2 _
                · rw [hf]; exact Bal.refl s2 _
              refine Bal.trans (w := .int i :: (w ++ [.int (-i)])) ?_ (.pair hi hb .nil) g3
              dsimp only
              rw [hw]; simp
          generalize mean P (m + 2) e1 E { s with out := .int i :: s.out } = r at g
          obtain ⟨x, s1⟩ := r
          cases x with
          | val v =>
            obtain ⟨w, g1, g2⟩ := g.1 v rfl
            exact clean E s1 w _ g1 g2 fun _ s2 => Or.inr ⟨.val v, rfl⟩
          | exit d v =>
            obtain ⟨w, g1, g2⟩ := g.2 d v rfl
            exact clean (E.upto d) s1 w _ g1 g2 fun _ s2 => Or.inr ⟨.exit d v, rfl⟩
          | fail => exact ⟨fun v h => (by cases h), fun d v h => (by cases h)⟩
          | timeout => exact ⟨fun v h => (by cases h), fun d v h => (by cases h)⟩
      | loop e b =>
        have hm' := hm
        simp only [Marked, Bool.and_eq_true] at hm
        refine (ih' e E s hm.1).andThen fun v s1 => ?_
        split
        · exact Bal.refl s1 _
        · exact (ih' b E s1 hm.2).andThen fun _ s2 => ih' _ E s2 hm'
      | label u r => exact ih' r E s hm
      | tagbody b c =>
        simp only [Marked, Bool.and_eq_true] at hm
        refine (ih' _ E s (by simp only [Marked, Bool.and_true]; exact hm.2)).andThen fun v s1 => ?_
        split
        · split
          · rename_i next hk
            exact ih' _ E s1 (by simp only [Marked, Bool.and_eq_true]; exact ⟨hm.1, fromTag_marked hk hm.1⟩)
          · exact Bal.refl s1 _
        · exact Bal.refl s1 _
      | error_ => exact signal_bal HM ih' E s

end Eus.Ctl
