import Verif.Cex.Spec
import Verif.Ctl.Sim
set_option autoImplicit false
/-
Calm forms end with a value, which depends on nothing outside.
-/
namespace Eus.Cex
open Eus.Ctl

/-- The outcomes are alike, and values (or there was not enough fuel). -/
def Calmly (xs : List Nat) (s t : St) (r q : Exit × St) : Prop :=
  Alike xs s t r q ∧ ((∃ v, r.1 = .val v) ∨ r.1 = .timeout)

theorem Calmly.refl {xs : List Nat} {s t : St} (h : StEq xs s t) (v : Val) : Calmly xs s t (.val v, s) (.val v, t) := ⟨Alike.refl h _, Or.inl ⟨v, rfl⟩⟩

theorem Calmly.andThen {xs : List Nat} {s t : St} {r q : Exit × St} {f g : Val → St → Exit × St} (h : Calmly xs s t r q)
    (k : ∀ v s1 t1, StEq xs s1 t1 → Calmly xs s1 t1 (f v s1) (g v t1)) : Calmly xs s t (andThen r f) (Ctl.andThen q g) := by
  refine ⟨h.1.andThen fun v s1 t1 hs => (k v s1 t1 hs).1, ?_⟩
  obtain ⟨e, s1⟩ := r
  obtain ⟨e', t1⟩ := q
  obtain ⟨⟨h1, h2, h3⟩, h4⟩ := h
  dsimp only at h1 h2 h3 h4
  rcases h4 with ⟨v, rfl⟩ | rfl
  · exact (k v s1 t1 h2).2
  · exact Or.inr rfl

theorem Calmly.arrive {xs : List Nat} {s t : St} {r q : Exit × St} (h : Calmly xs s t r q) (d d' : Nat) : Calmly xs s t (arrive d r) (arrive d' q) := by
  obtain ⟨e, s1⟩ := r
  obtain ⟨e', t1⟩ := q
  obtain ⟨⟨h1, h2, h3⟩, h4⟩ := h
  dsimp only at h1 h2 h3 h4
  subst h1
  rcases h4 with ⟨v, rfl⟩ | rfl
  · exact ⟨⟨rfl, h2, h3⟩, Or.inl ⟨v, rfl⟩⟩
  · exact ⟨⟨rfl, h2, h3⟩, Or.inr rfl⟩

theorem Calmly.widen {xs : List Nat} {s t : St} {r q : Exit × St} (h : Calmly [] s t r q) (hs : StEq xs s t) : Calmly xs s t r q := ⟨h.1.widen hs, h.2⟩

theorem fromTag_calm {quiet : Nat → Bool} {xs : List Nat} {t : Int} {b k : Tm} (h : fromTag t b = some k) (hs : Calm quiet xs b = true) :
    Calm quiet xs k = true := by
  induction b with
  | label u r ih =>
    simp only [fromTag] at h
    split at h
    · cases h; exact hs
    · exact ih h hs
  | progn a r _ ih =>
    simp only [Calm, Bool.and_eq_true] at hs
    exact ih h hs.2
  | _ => cases h

theorem mean_calm {P : Prog} {quiet : Nat → Bool} (HQ : ∀ f, quiet f = true → Calm quiet [] (P.F f) = true) (n : Nat) :
    ∀ t xs E F s u, Calm quiet xs t = true → StEq xs s u → Calmly xs s u (mean P n t E s) (mean P n t F u) := by
  induction n with
  | zero => intro t xs E F s u _ hs; exact ⟨Alike.refl hs _, Or.inr rfl⟩
  | succ n ih =>
    intro t xs E F s u tm hs
    cases t with
    | const v => exact Calmly.refl hs _
    | var x =>
      have hx : x ∈ xs := by simpa [Calm] using tm
      rw [mean, mean, hs.2 x hx]
      exact Calmly.refl hs _
    | setq x e =>
      simp only [Calm, Bool.and_eq_true, List.contains_iff_mem] at tm
      refine (ih e xs E F s u tm.2 hs).andThen fun v s1 t1 h1 => ⟨⟨rfl, ⟨h1.1, fun y hy => ?_⟩, fun y hy => ?_⟩, Or.inl ⟨v, rfl⟩⟩
      · dsimp only [upd]; split
        · rfl
        · exact h1.2 y hy
      · dsimp only [upd]
        have hyx : y ≠ x := fun h => hy (h ▸ tm.1)
        rw [if_neg hyx, if_neg hyx]
        exact ⟨rfl, rfl⟩
    | print e =>
      refine (ih e xs E F s u tm hs).andThen fun v s1 t1 h1 => ⟨⟨rfl, ⟨?_, h1.2⟩, fun _ _ => ⟨rfl, rfl⟩⟩, Or.inl ⟨v, rfl⟩⟩
      dsimp only; rw [h1.1]
    | progn a b =>
      simp only [Calm, Bool.and_eq_true] at tm
      exact (ih a xs E F s u tm.1 hs).andThen fun v s1 t1 h1 => ih b xs E F s1 t1 tm.2 h1
    | ite e a b =>
      simp only [Calm, Bool.and_eq_true] at tm
      refine (ih e xs E F s u tm.1.1 hs).andThen fun v s1 t1 h1 => ?_
      split
      · exact ih a xs E F s1 t1 tm.1.2 h1
      · exact ih b xs E F s1 t1 tm.2 h1
    | lett x e b =>
      simp only [Calm, Bool.and_eq_true] at tm
      refine (ih e xs E F s u tm.1 hs).andThen fun v s1 t1 h1 => ?_
      have g := ih b (x :: xs) E F { s1 with spec := upd s1.spec x v } { t1 with spec := upd t1.spec x v } tm.2 (h1.upd x v)
      obtain ⟨⟨g1, g2, g3⟩, g4⟩ := g
      refine ⟨⟨g1, ⟨g2.1, fun y hy => ?_⟩, fun y hy => ?_⟩, g4⟩
      · dsimp only [upd]; split
        · rename_i e; subst e; exact h1.2 _ hy
        · exact g2.2 y (List.mem_cons_of_mem _ hy)
      · dsimp only [upd]; split
        · rename_i e; subst e; exact ⟨rfl, rfl⟩
        · rename_i hne
          have := g3 y (by simp [hne, hy])
          dsimp only [upd] at this
          rw [if_neg hne, if_neg hne] at this
          exact this
    | call f => exact ((ih (P.F f) [] _ _ s u (HQ f tm) ⟨hs.1, by simp⟩).widen hs).arrive _ _
    | catch_ tag b =>
      simp only [Calm, Bool.and_eq_true] at tm
      exact (ih tag xs E F s u tm.1 hs).andThen fun v s1 t1 h1 => (ih b xs _ _ s1 t1 tm.2 h1).arrive _ _
    | throw_ tag e => cases tm
    | block m b => exact (ih b xs _ _ s u tm hs).arrive _ _
    | retfrom m e => cases tm
    | protect e c =>
      simp only [Calm, Bool.and_eq_true] at tm
      have g := ih e xs E F s u tm.1 hs
      rw [mean, mean]
      generalize mean P n e E s = r at g ⊢
      generalize mean P n e F u = q at g ⊢
      obtain ⟨e1, s1⟩ := r
      obtain ⟨e2, t1⟩ := q
      obtain ⟨⟨h1, h2, h3⟩, h4⟩ := g
      dsimp only at h1 h2 h3 h4
      subst h1
      rcases h4 with ⟨v, rfl⟩ | rfl
      · have := (ih c xs E F s1 t1 tm.2 h2).andThen (f := fun _ s => (.val v, s)) (g := fun _ s => (.val v, s)) fun _ s2 t2 hh => Calmly.refl hh v
        exact ⟨this.1.trans h3, this.2⟩
      · exact ⟨⟨rfl, h2, h3⟩, Or.inr rfl⟩
    | loop e b =>
      have tm' := tm
      simp only [Calm, Bool.and_eq_true] at tm
      refine (ih e xs E F s u tm.1 hs).andThen fun v s1 t1 h1 => ?_
      split
      · exact Calmly.refl h1 _
      · exact (ih b xs E F s1 t1 tm.2 h1).andThen fun _ s2 t2 h2 => ih _ xs E F s2 t2 tm' h2
    | label _ r => exact ih r xs E F s u tm hs
    | tagbody b c =>
      simp only [Calm, Bool.and_eq_true] at tm
      refine (ih _ xs E F s u (by simp only [Calm, Bool.and_true]; exact tm.2) hs).andThen fun v s1 t1 h1 => ?_
      split
      · split
        · rename_i next hk
          exact ih _ xs E F s1 t1 (by simp only [Calm, Bool.and_eq_true]; exact ⟨tm.1, fromTag_calm hk tm.1⟩) h1
        · exact Calmly.refl h1 _
      · exact Calmly.refl h1 _
    | error_ => cases tm

/-- A cleanup form that ends does so in any state, and changes nothing. -/
theorem calm_any {P : Prog} {quiet : Nat → Bool} (HQ : ∀ f, quiet f = true → Calm quiet [] (P.F f) = true) {t : Tm} (ht : Calm quiet [] t = true)
    {E : Env} {s : St} {x : Exit × St} (h : EvM (fun m => mean P m t E s) x) (hx : x.1 ≠ .timeout) :
    ∃ v, x.1 = .val v ∧ x.2.spec = s.spec ∧ ∀ F sp, EvM (fun m => mean P m t F ⟨sp, s.out⟩) (.val v, ⟨sp, x.2.out⟩) := by
  obtain ⟨N, hN⟩ := h
  have g := mean_calm HQ N t [] E E s s ht ⟨rfl, by simp⟩
  have e := hN N (le_refl _)
  dsimp only at e
  rw [e] at g
  obtain ⟨v, hv⟩ : ∃ v, x.1 = .val v := by
    rcases g.2 with h | h
    · exact h
    · exact absurd h hx
  refine ⟨v, hv, funext fun y => (g.1.2.2 y (by simp)).1, fun F sp => ⟨N, fun m hm => ?_⟩⟩
  have g2 := mean_calm HQ m t [] E F s ⟨sp, s.out⟩ ht ⟨rfl, by simp⟩
  have e2 := hN m hm
  dsimp only at e2 ⊢
  rw [e2] at g2
  obtain ⟨⟨k1, k2, k3⟩, _⟩ := g2
  have a1 : (mean P m t F ⟨sp, s.out⟩).1 = .val v := by rw [← k1, hv]
  have a2 : (mean P m t F ⟨sp, s.out⟩).2.out = x.2.out := k2.1.symm
  have a3 : (mean P m t F ⟨sp, s.out⟩).2.spec = sp := funext fun y => (k3 y (by simp)).2
  generalize mean P m t F ⟨sp, s.out⟩ = q at a1 a2 a3
  obtain ⟨q1, q2, q3⟩ := q
  dsimp only at a1 a2 a3
  rw [a1, a2, a3]

end Eus.Cex
