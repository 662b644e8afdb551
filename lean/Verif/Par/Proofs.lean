import Verif.Par.Spec
import Mathlib.Data.List.Nodup
set_option autoImplicit false
namespace Eus.Par

theorem upd_self {α : Type} (f : Nat → α) (t : Nat) (x : α) : upd f t x t = x := if_pos rfl
theorem upd_ne {α : Type} (f : Nat → α) {t u : Nat} (x : α) (h : u ≠ t) : upd f t x u = f u := if_neg h

/-! ### The memory port -/

/-- Inside the protected region. -/
def PPc.inside : PPc → Prop
  | .r1 | .r2 _ | .w1 _ | .w2 => True
  | _ => False

/-- The port's state: who is inside, if anybody, and what the semaphores and the history look like then. -/
def Port.Inv (s : Port) : Prop :=
  ((∀ t, ¬ (s.pc t).inside) ∧ s.semIn + s.semOut = 1 ∧ s.taken = s.returned.map Prod.snd ∧ (s.semIn = 0 → s.written.map Prod.snd = s.taken)
      ∧ (s.semIn = 1 → s.written.map Prod.snd = s.taken ++ [s.buf]))
  ∨ (s.semIn = 0 ∧ s.semOut = 0 ∧ ∃ t, (∀ u, u ≠ t → ¬ (s.pc u).inside) ∧
      ((s.pc t = .r1 ∧ s.taken = s.returned.map Prod.snd ∧ s.written.map Prod.snd = s.taken ++ [s.buf])
       ∨ (∃ v, s.pc t = .r2 v ∧ s.taken = s.returned.map Prod.snd ++ [v] ∧ s.written.map Prod.snd = s.taken)
       ∨ (∃ v, s.pc t = .w1 v ∧ s.taken = s.returned.map Prod.snd ∧ s.written.map Prod.snd = s.taken)
       ∨ (s.pc t = .w2 ∧ s.taken = s.returned.map Prod.snd ∧ s.written.map Prod.snd = s.taken ++ [s.buf])))

theorem Port.inv_init : Port.init.Inv := by
  refine Or.inl ⟨fun t => id, rfl, rfl, fun _ => rfl, fun h => by cases h⟩

theorem outside_upd {s : Port} {t : Nat} {x : PPc} (h : ∀ u, u ≠ t → ¬ (s.pc u).inside) (hx : ¬ x.inside) : ∀ u, ¬ (upd s.pc t x u).inside := by
  intro u
  by_cases e : u = t
  · rw [e, upd_self]; exact hx
  · rw [upd_ne _ _ e]; exact h u e

theorem others_upd {s : Port} {t : Nat} {x : PPc} (h : ∀ u, u ≠ t → ¬ (s.pc u).inside) : ∀ u, u ≠ t → ¬ (upd s.pc t x u).inside := by
  intro u e
  rw [upd_ne _ _ e]; exact h u e

/-- A step of a thread outside the region that stays outside. -/
theorem Port.inv_outside {s : Port} {t : Nat} {x : PPc} (h : s.Inv) (ht : ¬ (s.pc t).inside) (hx : ¬ x.inside) : Port.Inv { s with pc := upd s.pc t x } := by
  rcases h with ⟨h1, h2⟩ | ⟨h1, h2, u, h3, h4⟩
  · exact Or.inl ⟨outside_upd (fun u _ => h1 u) hx, h2⟩
  · have hu : u ≠ t := by
      rintro rfl
      apply ht
      rcases h4 with ⟨e, _⟩ | ⟨v, e, _⟩ | ⟨v, e, _⟩ | ⟨e, _⟩ <;> rw [e] <;> trivial
    refine Or.inr ⟨h1, h2, u, ?_, ?_⟩
    · intro w hw
      by_cases e : w = t
      · simp only [e, upd_self]; exact hx
      · simp only [upd_ne _ _ e]; exact h3 w hw
    · simp only [upd_ne _ _ hu]
      exact h4

theorem Port.inv_step {s s' : Port} {e : PEv} (h : s.Inv) (hs : s.step e = some s') : s'.Inv := by
  cases e with
  | read t =>
    simp only [Port.step] at hs
    split at hs
    · next hp =>
      cases hs
      exact Port.inv_outside h (by rw [hp]; exact id) id
    · cases hs
  | write t v =>
    simp only [Port.step] at hs
    split at hs
    · next hp =>
      cases hs
      exact Port.inv_outside h (by rw [hp]; exact id) id
    · cases hs
  | go t =>
    cases hp : s.pc t with
    | out => simp only [Port.step, hp] at hs; cases hs
    | r0 =>
      simp only [Port.step, hp] at hs
      split at hs
      · next hi =>
        cases hs
        rcases h with ⟨h1, h2, h3, h4, h5⟩ | ⟨h1, h2, _⟩
        · have e1 : s.semIn = 1 := by omega
          refine Or.inr ⟨?_, ?_, t, others_upd fun u _ => h1 u, Or.inl ⟨upd_self _ _ _, h3, h5 e1⟩⟩ <;> simp only <;> omega
        · omega
      · cases hs
    | r1 =>
      simp only [Port.step, hp] at hs
      cases hs
      rcases h with ⟨h1, _⟩ | ⟨h1, h2, u, h3, h4⟩
      · exact absurd (show (s.pc t).inside by rw [hp]; trivial) (h1 t)
      · have hu : t = u := Decidable.byContradiction fun e => h3 t e (by rw [hp]; trivial)
        subst hu
        rw [hp] at h4
        rcases h4 with ⟨_, a, b⟩ | ⟨v, e, _⟩ | ⟨v, e, _⟩ | ⟨e, _⟩
        · refine Or.inr ⟨h1, h2, t, others_upd h3, Or.inr (Or.inl ⟨_, upd_self _ _ _, ?_, ?_⟩)⟩
          · simp only [a]
          · simp only [b]
        · cases e
        · cases e
        · cases e
    | r2 v =>
      simp only [Port.step, hp] at hs
      cases hs
      rcases h with ⟨h1, _⟩ | ⟨h1, h2, u, h3, h4⟩
      · exact absurd (show (s.pc t).inside by rw [hp]; trivial) (h1 t)
      · have hu : t = u := Decidable.byContradiction fun e => h3 t e (by rw [hp]; trivial)
        subst hu
        rw [hp] at h4
        rcases h4 with ⟨e, _⟩ | ⟨w, e, a, b⟩ | ⟨w, e, _⟩ | ⟨e, _⟩
        · cases e
        · cases e
          refine Or.inl ⟨outside_upd h3 id, ?_, ?_, fun _ => b, fun e => ?_⟩
          · simp only; omega
          · simp only [a, List.map_append, List.map_cons, List.map_nil]
          · simp only at e; omega
        · cases e
        · cases e
    | w0 v =>
      simp only [Port.step, hp] at hs
      split at hs
      · next hi =>
        cases hs
        rcases h with ⟨h1, h2, h3, h4, h5⟩ | ⟨h1, h2, _⟩
        · have e1 : s.semIn = 0 := by omega
          refine Or.inr ⟨e1, ?_, t, others_upd fun u _ => h1 u, Or.inr (Or.inr (Or.inl ⟨v, upd_self _ _ _, h3, h4 e1⟩))⟩
          simp only; omega
        · omega
      · cases hs
    | w1 v =>
      simp only [Port.step, hp] at hs
      cases hs
      rcases h with ⟨h1, _⟩ | ⟨h1, h2, u, h3, h4⟩
      · exact absurd (show (s.pc t).inside by rw [hp]; trivial) (h1 t)
      · have hu : t = u := Decidable.byContradiction fun e => h3 t e (by rw [hp]; trivial)
        subst hu
        rw [hp] at h4
        rcases h4 with ⟨e, _⟩ | ⟨w, e, _⟩ | ⟨w, e, a, b⟩ | ⟨e, _⟩
        · cases e
        · cases e
        · cases e
          refine Or.inr ⟨h1, h2, t, others_upd h3, Or.inr (Or.inr (Or.inr ⟨upd_self _ _ _, a, ?_⟩))⟩
          simp only [List.map_append, List.map_cons, List.map_nil, b]
        · cases e
    | w2 =>
      simp only [Port.step, hp] at hs
      cases hs
      rcases h with ⟨h1, _⟩ | ⟨h1, h2, u, h3, h4⟩
      · exact absurd (show (s.pc t).inside by rw [hp]; trivial) (h1 t)
      · have hu : t = u := Decidable.byContradiction fun e => h3 t e (by rw [hp]; trivial)
        subst hu
        rw [hp] at h4
        rcases h4 with ⟨e, _⟩ | ⟨w, e, _⟩ | ⟨w, e, _⟩ | ⟨_, a, b⟩
        · cases e
        · cases e
        · cases e
        · refine Or.inl ⟨outside_upd h3 id, ?_, a, fun e => ?_, fun _ => b⟩
          · simp only; omega
          · simp only at e; omega

theorem Port.inv_run (es : List PEv) : ∀ s s' : Port, s.Inv → Port.run es s = some s' → s'.Inv := by
  induction es with
  | nil => intro s s' h e; cases e; exact h
  | cons e es ih =>
    intro s s' h hr
    simp only [Port.run] at hr
    cases hs : s.step e with
    | none => rw [hs] at hr; cases hr
    | some q => rw [hs] at hr; exact ih q s' (Port.inv_step h hs) hr

theorem storedBy_append (t : Nat) (l : List (Nat × Nat)) (p : Nat × Nat) :
    storedBy t (l ++ [p]) = storedBy t l ++ (if p.1 = t then [p.2] else []) := by
  unfold storedBy
  rw [List.filter_append, List.map_append]
  congr 1
  by_cases h : p.1 = t <;> simp [h]

/-- Every value a thread writes is stored once, in order. -/
theorem Port.stored_run (es : List PEv) : ∀ (s s' : Port) (t : Nat), Port.run es s = some s' →
    storedBy t s'.written ++ pending (s'.pc t) = storedBy t s.written ++ pending (s.pc t) ++ wcalls t es := by
  induction es with
  | nil => intro s s' t e; cases e; simp [wcalls]
  | cons e es ih =>
    intro s s' t hr
    simp only [Port.run] at hr
    cases hs : s.step e with
    | none => rw [hs] at hr; cases hr
    | some q =>
      rw [hs] at hr
      rw [ih q s' t hr]
      cases e with
      | read u =>
        simp only [Port.step] at hs
        split at hs
        · next hp =>
          cases hs
          simp only [wcalls]
          by_cases hu : t = u
          · subst hu; rw [upd_self, hp]; rfl
          · rw [upd_ne _ _ hu]
        · cases hs
      | write u v =>
        simp only [Port.step] at hs
        split at hs
        · next hp =>
          cases hs
          simp only [wcalls]
          by_cases hu : t = u
          · subst hu; rw [upd_self, hp, if_pos rfl]; simp [pending]
          · rw [upd_ne _ _ hu, if_neg (Ne.symm hu)]
        · cases hs
      | go u =>
        simp only [wcalls]
        congr 1
        cases hp : s.pc u with
        | out => simp only [Port.step, hp] at hs; cases hs
        | r0 =>
          simp only [Port.step, hp] at hs
          split at hs
          · cases hs
            by_cases hu : t = u
            · subst hu; simp only [upd_self, hp]; rfl
            · simp only [upd_ne _ _ hu]
          · cases hs
        | r1 =>
          simp only [Port.step, hp] at hs
          cases hs
          by_cases hu : t = u
          · subst hu; simp only [upd_self, hp]; rfl
          · simp only [upd_ne _ _ hu]
        | r2 v =>
          simp only [Port.step, hp] at hs
          cases hs
          by_cases hu : t = u
          · subst hu; simp only [upd_self, hp]; rfl
          · simp only [upd_ne _ _ hu]
        | w0 v =>
          simp only [Port.step, hp] at hs
          split at hs
          · cases hs
            by_cases hu : t = u
            · subst hu; simp only [upd_self, hp]; rfl
            · simp only [upd_ne _ _ hu]
          · cases hs
        | w1 v =>
          simp only [Port.step, hp] at hs
          cases hs
          simp only [storedBy_append]
          by_cases hu : t = u
          · subst hu; simp [upd_self, hp, pending]
          · simp [upd_ne _ _ hu, if_neg (Ne.symm hu)]
        | w2 =>
          simp only [Port.step, hp] at hs
          cases hs
          by_cases hu : t = u
          · subst hu; simp only [upd_self, hp]; rfl
          · simp only [upd_ne _ _ hu]

/-- Nobody can move. -/
theorem Port.stuck {s : Port} (h : s.Inv) (hs : ∀ t, s.step (.go t) = none) :
    (s.written.map Prod.snd = s.taken ∧ ∀ t, s.pc t = .out ∨ s.pc t = .r0)
    ∨ (s.written.map Prod.snd = s.taken ++ [s.buf] ∧ ∀ t, s.pc t = .out ∨ ∃ v, s.pc t = .w0 v) := by
  rcases h with ⟨h1, h2, _, h4, h5⟩ | ⟨_, _, t, _, h4⟩
  · by_cases hi : s.semIn = 0
    · refine Or.inl ⟨h4 hi, fun t => ?_⟩
      have a := h1 t
      have b := hs t
      cases hp : s.pc t <;> rw [hp] at a <;> simp only [Port.step, hp] at b
      · exact Or.inl rfl
      · exact Or.inr rfl
      · exact absurd trivial a
      · exact absurd trivial a
      · rw [if_pos (by omega)] at b; cases b
      · exact absurd trivial a
      · exact absurd trivial a
    · refine Or.inr ⟨h5 (by omega), fun t => ?_⟩
      have a := h1 t
      have b := hs t
      cases hp : s.pc t <;> rw [hp] at a <;> simp only [Port.step, hp] at b
      · exact Or.inl rfl
      · rw [if_pos (by omega)] at b; cases b
      · exact absurd trivial a
      · exact absurd trivial a
      · exact Or.inr ⟨_, rfl⟩
      · exact absurd trivial a
      · exact absurd trivial a
  · have b := hs t
    rcases h4 with ⟨e, _⟩ | ⟨v, e, _⟩ | ⟨v, e, _⟩ | ⟨e, _⟩ <;> simp only [Port.step, e] at b <;> cases b

/-! ### The barrier -/

structure Barrier.Inv (s : Barrier) : Prop where
  two : 2 ≤ s.n
  count : s.count = s.arrivals % s.n
  holder : ∀ t, (s.pc t = .count ∨ ∃ c, s.pc t = .got c) → s.holder = some t
  got : ∀ t c, s.pc t = .got c → c = s.count
  nodup : s.waiters.Nodup
  mem : ∀ t, t ∈ s.waiters ↔ s.pc t = .wait
  before : ∀ t, t ∈ s.waiters → s.arrival t < s.arrivals
  wake : ∀ t, s.pc t = .wake → Complete s.n (s.arrival t) s.arrivals
  length : s.waiters.length = s.arrivals % s.n + s.arrivals / s.n * (s.n - 2)

theorem Barrier.inv_init (n : Nat) (h : 2 ≤ n) : (Barrier.init n).Inv := by
  refine ⟨h, ?_, ?_, ?_, List.nodup_nil, ?_, ?_, ?_, ?_⟩
  · simp [Barrier.init]
  · intro t h
    rcases h with h | ⟨c, h⟩ <;> cases h
  · intro t c h; cases h
  · intro t; simp [Barrier.init]
  · intro t h; cases h
  · intro t h; cases h
  · simp [Barrier.init]

theorem complete_last {n a m : Nat} (ha : a ≤ m) (hm : m % n + 1 = n) : Complete n a (m + 1) := by
  unfold Complete
  have h1 : a / n ≤ m / n := Nat.div_le_div_right ha
  have h2 := Nat.div_add_mod m n
  have h3 : (a / n + 1) * n ≤ (m / n + 1) * n := Nat.mul_le_mul_right _ (by omega)
  have h4 : (m / n + 1) * n = n * (m / n) + n := by rw [Nat.add_mul, Nat.one_mul, Nat.mul_comm]
  omega

theorem complete_mono {n a m : Nat} (h : Complete n a m) : Complete n a (m + 1) := Nat.le_succ_of_le h

theorem mod_succ {m n : Nat} (h : m % n + 1 ≠ n) (hn : 0 < n) : (m + 1) % n = m % n + 1 ∧ (m + 1) / n = m / n := by
  have h1 := Nat.div_add_mod m n
  have h2 := Nat.mod_lt m hn
  have e : m + 1 = (m % n + 1) + n * (m / n) := by omega
  constructor
  · rw [e, Nat.add_mul_mod_self_left, Nat.mod_eq_of_lt (by omega)]
  · rw [e, Nat.add_mul_div_left _ _ hn, Nat.div_eq_of_lt (by omega), Nat.zero_add]

theorem mod_last {m n : Nat} (h : m % n + 1 = n) (hn : 0 < n) : (m + 1) % n = 0 ∧ (m + 1) / n = m / n + 1 := by
  have h1 := Nat.div_add_mod m n
  have e : m + 1 = 0 + n * (m / n + 1) := by rw [Nat.mul_add]; omega
  constructor
  · rw [e, Nat.add_mul_mod_self_left]
    simp
  · rw [e, Nat.add_mul_div_left _ _ hn, Nat.zero_div, Nat.zero_add]

theorem upd_cases {α : Type} {f : Nat → α} {t u : Nat} {x y : α} (h : upd f t x u = y) : (u = t ∧ x = y) ∨ (u ≠ t ∧ f u = y) := by
  by_cases e : u = t
  · subst e; rw [upd_self] at h; exact Or.inl ⟨rfl, h⟩
  · rw [upd_ne _ _ e] at h; exact Or.inr ⟨e, h⟩

theorem Barrier.inv_step {s s' : Barrier} {e : BEv} (h : s.Inv) (he : ∀ t, e ≠ .spurious t) (hs : s.step e = some s') : s'.Inv := by
  obtain ⟨two, count, holder, got, nodup, mem, before, wake, length⟩ := h
  cases e with
  | spurious t => exact absurd rfl (he t)
  | wait t =>
    simp only [Barrier.step] at hs
    split at hs
    · next hp =>
      cases hs
      refine ⟨two, count, ?_, ?_, nodup, ?_, before, ?_, length⟩
      · intro u hu
        rcases hu with hu | ⟨c, hu⟩
        · rcases upd_cases hu with ⟨_, e⟩ | ⟨_, e⟩
          · cases e
          · exact holder u (Or.inl e)
        · rcases upd_cases hu with ⟨_, e⟩ | ⟨_, e⟩
          · cases e
          · exact holder u (Or.inr ⟨c, e⟩)
      · intro u c hu
        rcases upd_cases hu with ⟨_, e⟩ | ⟨_, e⟩
        · cases e
        · exact got u c e
      · intro u
        by_cases e : u = t
        · subst e
          simp only [upd_self]
          rw [mem, hp]
          simp
        · simp only [upd_ne _ _ e]; exact mem u
      · intro u hu
        rcases upd_cases hu with ⟨_, e⟩ | ⟨_, e⟩
        · cases e
        · exact wake u e
    · cases hs
  | go t w =>
    cases hp : s.pc t with
    | out => simp only [Barrier.step, hp] at hs; cases hs
    | wait => simp only [Barrier.step, hp] at hs; cases hs
    | lock =>
      simp only [Barrier.step, hp] at hs
      split at hs
      · next hn =>
        cases hs
        have none_in : ∀ u, ¬ (s.pc u = .count ∨ ∃ c, s.pc u = .got c) := fun u hu => by
          have := holder u hu
          rw [hn] at this; cases this
        refine ⟨two, count, ?_, ?_, nodup, ?_, before, ?_, length⟩
        · intro u hu
          rcases hu with hu | ⟨c, hu⟩
          · rcases upd_cases hu with ⟨e, _⟩ | ⟨_, e⟩
            · rw [e]
            · exact absurd (Or.inl e) (none_in u)
          · rcases upd_cases hu with ⟨_, e⟩ | ⟨_, e⟩
            · cases e
            · exact absurd (Or.inr ⟨c, e⟩) (none_in u)
        · intro u c hu
          rcases upd_cases hu with ⟨_, e⟩ | ⟨_, e⟩
          · cases e
          · exact got u c e
        · intro u
          by_cases e : u = t
          · subst e
            simp only [upd_self]
            rw [mem, hp]
            simp
          · simp only [upd_ne _ _ e]; exact mem u
        · intro u hu
          rcases upd_cases hu with ⟨_, e⟩ | ⟨_, e⟩
          · cases e
          · exact wake u e
      · cases hs
    | count =>
      simp only [Barrier.step, hp] at hs
      cases hs
      refine ⟨two, count, ?_, ?_, nodup, ?_, before, ?_, length⟩
      · intro u hu
        rcases hu with hu | ⟨c, hu⟩
        · rcases upd_cases hu with ⟨_, e⟩ | ⟨_, e⟩
          · cases e
          · exact holder u (Or.inl e)
        · rcases upd_cases hu with ⟨e, _⟩ | ⟨_, e⟩
          · rw [e]; exact holder t (Or.inl hp)
          · exact holder u (Or.inr ⟨c, e⟩)
      · intro u c hu
        rcases upd_cases hu with ⟨_, e⟩ | ⟨_, e⟩
        · cases e; rfl
        · exact got u c e
      · intro u
        by_cases e : u = t
        · subst e
          simp only [upd_self]
          rw [mem, hp]
          simp
        · simp only [upd_ne _ _ e]; exact mem u
      · intro u hu
        rcases upd_cases hu with ⟨_, e⟩ | ⟨_, e⟩
        · cases e
        · exact wake u e
    | wake =>
      simp only [Barrier.step, hp] at hs
      split at hs
      · cases hs
        refine ⟨two, count, ?_, ?_, nodup, ?_, before, ?_, length⟩
        · intro u hu
          rcases hu with hu | ⟨c, hu⟩
          · rcases upd_cases hu with ⟨_, e⟩ | ⟨_, e⟩
            · cases e
            · exact holder u (Or.inl e)
          · rcases upd_cases hu with ⟨_, e⟩ | ⟨_, e⟩
            · cases e
            · exact holder u (Or.inr ⟨c, e⟩)
        · intro u c hu
          rcases upd_cases hu with ⟨_, e⟩ | ⟨_, e⟩
          · cases e
          · exact got u c e
        · intro u
          by_cases e : u = t
          · subst e
            simp only [upd_self]
            rw [mem, hp]
            simp
          · simp only [upd_ne _ _ e]; exact mem u
        · intro u hu
          rcases upd_cases hu with ⟨_, e⟩ | ⟨_, e⟩
          · cases e
          · exact wake u e
      · cases hs
    | got c =>
      have hc := got t c hp
      have hh := holder t (Or.inr ⟨c, hp⟩)
      have only : ∀ u, u ≠ t → ¬ (s.pc u = .count ∨ ∃ c, s.pc u = .got c) := fun u hu hx => by
        have := holder u hx
        rw [hh] at this
        exact hu (Option.some.inj this).symm
      have htw : t ∉ s.waiters := fun h => by
        have := (mem t).mp h
        rw [hp] at this; cases this
      simp only [Barrier.step, hp] at hs
      split at hs
      · next hn =>
        have hm : s.arrivals % s.n + 1 = s.n := by omega
        obtain ⟨m1, m2⟩ := mod_last hm (by omega)
        have hne : s.waiters ≠ [] := by
          intro h0
          rw [h0] at length
          simp at length
          omega
        rw [if_neg hne] at hs
        split at hs
        · next hw =>
          cases hs
          have hwt : w ≠ t := fun e => htw (e ▸ hw)
          refine ⟨two, m1.symm, ?_, ?_, nodup.erase w, ?_, ?_, ?_, ?_⟩
          · intro u hu
            rcases hu with hu | ⟨c, hu⟩
            · rcases upd_cases hu with ⟨_, e⟩ | ⟨hut, e⟩
              · cases e
              · rcases upd_cases e with ⟨_, e⟩ | ⟨_, e⟩
                · cases e
                · exact absurd (Or.inl e) (only u hut)
            · rcases upd_cases hu with ⟨_, e⟩ | ⟨hut, e⟩
              · cases e
              · rcases upd_cases e with ⟨_, e⟩ | ⟨_, e⟩
                · cases e
                · exact absurd (Or.inr ⟨c, e⟩) (only u hut)
          · intro u c hu
            rcases upd_cases hu with ⟨_, e⟩ | ⟨hut, e⟩
            · cases e
            · rcases upd_cases e with ⟨_, e⟩ | ⟨_, e⟩
              · cases e
              · exact absurd (Or.inr ⟨c, e⟩) (only u hut)
          · intro u
            simp only
            rw [nodup.mem_erase_iff]
            by_cases e : u = t
            · subst e
              rw [upd_self]
              simp [htw]
            · rw [upd_ne _ _ e]
              by_cases e' : u = w
              · subst e'
                rw [upd_self]
                simp
              · rw [upd_ne _ _ e', mem]
                simp [e']
          · intro u hu
            simp only at hu ⊢
            have hu := List.mem_of_mem_erase hu
            have : u ≠ t := fun e => htw (e ▸ hu)
            rw [upd_ne _ _ this]
            have := before u hu
            omega
          · intro u hu
            simp only at hu ⊢
            rcases upd_cases hu with ⟨_, e⟩ | ⟨hut, e⟩
            · cases e
            · rw [upd_ne _ _ hut]
              rcases upd_cases e with ⟨e, _⟩ | ⟨_, e⟩
              · subst e
                exact complete_last (Nat.le_of_lt (before u hw)) hm
              · exact complete_mono (wake u e)
          · simp only [m1, m2]
            rw [List.length_erase_of_mem hw, length]
            rw [Nat.add_mul, Nat.one_mul]
            omega
        · cases hs
      · next hn =>
        have hm : s.arrivals % s.n + 1 ≠ s.n := by omega
        obtain ⟨m1, m2⟩ := mod_succ hm (by omega)
        cases hs
        refine ⟨two, by simp only [m1]; omega, ?_, ?_, ?_, ?_, ?_, ?_, ?_⟩
        · intro u hu
          rcases hu with hu | ⟨c, hu⟩
          · rcases upd_cases hu with ⟨_, e⟩ | ⟨hut, e⟩
            · cases e
            · exact absurd (Or.inl e) (only u hut)
          · rcases upd_cases hu with ⟨_, e⟩ | ⟨hut, e⟩
            · cases e
            · exact absurd (Or.inr ⟨c, e⟩) (only u hut)
        · intro u c hu
          rcases upd_cases hu with ⟨_, e⟩ | ⟨hut, e⟩
          · cases e
          · exact absurd (Or.inr ⟨c, e⟩) (only u hut)
        · exact List.nodup_append.mpr ⟨nodup, List.nodup_singleton t, fun a ha b hb => by
            rw [List.mem_singleton] at hb
            rw [hb]
            exact fun e => htw (e ▸ ha)⟩
        · intro u
          simp only [List.mem_append, List.mem_singleton]
          by_cases e : u = t
          · subst e; rw [upd_self]; simp
          · rw [upd_ne _ _ e, mem]; simp [e]
        · intro u hu
          simp only [List.mem_append, List.mem_singleton] at hu ⊢
          by_cases e : u = t
          · subst e; rw [upd_self]; omega
          · rw [upd_ne _ _ e]
            rcases hu with hu | hu
            · have := before u hu; omega
            · exact absurd hu e
        · intro u hu
          simp only at hu ⊢
          rcases upd_cases hu with ⟨_, e⟩ | ⟨hut, e⟩
          · cases e
          · rw [upd_ne _ _ hut]
            exact complete_mono (wake u e)
        · simp only [m1, m2, List.length_append, List.length_singleton, length]
          omega

theorem Barrier.n_step {s s' : Barrier} {e : BEv} (hs : s.step e = some s') : s'.n = s.n := by
  cases e with
  | spurious t =>
    simp only [Barrier.step] at hs
    split at hs
    · cases hs; rfl
    · cases hs
  | wait t =>
    simp only [Barrier.step] at hs
    split at hs
    · cases hs; rfl
    · cases hs
  | go t w =>
    simp only [Barrier.step] at hs
    split at hs
    · cases hs
    · split at hs
      · cases hs; rfl
      · cases hs
    · cases hs; rfl
    · split at hs
      · split at hs
        · cases hs; rfl
        · split at hs
          · cases hs; rfl
          · cases hs
      · cases hs; rfl
    · cases hs
    · split at hs
      · cases hs; rfl
      · cases hs

theorem Barrier.inv_run (es : List BEv) : ∀ s s' : Barrier, s.Inv → Honest es → Barrier.run es s = some s' → s'.Inv ∧ s'.n = s.n := by
  induction es with
  | nil => intro s s' h _ e; cases e; exact ⟨h, rfl⟩
  | cons e es ih =>
    intro s s' h hh hr
    simp only [Barrier.run] at hr
    cases hs : s.step e with
    | none => rw [hs] at hr; cases hr
    | some q =>
      rw [hs] at hr
      obtain ⟨a, b⟩ := ih q s' (Barrier.inv_step h (hh e List.mem_cons_self) hs) (fun x hx => hh x (List.mem_cons_of_mem _ hx)) hr
      exact ⟨a, b.trans (Barrier.n_step hs)⟩

/-! ### Timers -/

/-- A timer after m live ticks. -/
structure Timer.At (s : Timer) (n m : Nat) : Prop where
  interval : s.interval = n
  current : s.current = n - (m % n : Nat)
  count : s.runCount = (m / n : Nat)

theorem Timer.at_step {s s' : Timer} {e : TEv} {n m : Nat} (hn : 0 < n) (h : s.At n m) (hf : ∀ k, e ≠ .interval k) (hs : s.step e = some s') :
    (e = .tick → s'.At n (m + if s.running then 1 else 0) ∧ s'.running = s.running) ∧ (e = .stop → s'.At n m ∧ s'.running = false)
    ∧ (e = .start → s'.At n m ∧ s'.running = true) ∧ (e ≠ .tick → e ≠ .stop → e ≠ .start → s'.At n m ∧ s'.running = s.running) := by
  obtain ⟨h1, h2, h3⟩ := h
  cases e with
  | tick =>
    refine ⟨fun _ => ?_, fun h => (by cases h), fun h => (by cases h), fun h => absurd rfl h⟩
    simp only [Timer.step] at hs
    have hlt := Nat.mod_lt m hn
    split at hs
    · next hr =>
      rw [hr]
      simp only [if_true]
      split at hs
      · next hc =>
        have hm : m % n + 1 = n := by omega
        obtain ⟨m1, m2⟩ := mod_last hm hn
        cases hs
        refine ⟨⟨h1, ?_, ?_⟩, hr⟩
        · simp only [m1, h1]; omega
        · simp only [m2, h3]; omega
      · next hc =>
        have hm : m % n + 1 ≠ n := by omega
        obtain ⟨m1, m2⟩ := mod_succ hm hn
        cases hs
        refine ⟨⟨h1, ?_, ?_⟩, hr⟩
        · simp only [m1]; omega
        · simp only [m2, h3]
    · next hr =>
      cases hs
      rw [if_neg hr]
      exact ⟨⟨h1, h2, h3⟩, rfl⟩
  | stop => cases hs; exact ⟨fun h => (by cases h), fun _ => ⟨⟨h1, h2, h3⟩, rfl⟩, fun h => (by cases h), fun _ h => absurd rfl h⟩
  | start => cases hs; exact ⟨fun h => (by cases h), fun h => (by cases h), fun _ => ⟨⟨h1, h2, h3⟩, rfl⟩, fun _ _ h => absurd rfl h⟩
  | interval k => exact absurd rfl (hf k)
  | wake =>
    refine ⟨fun h => (by cases h), fun h => (by cases h), fun h => (by cases h), fun _ _ _ => ?_⟩
    simp only [Timer.step] at hs
    split at hs
    · cases hs; exact ⟨⟨h1, h2, h3⟩, rfl⟩
    · cases hs
  | look =>
    refine ⟨fun h => (by cases h), fun h => (by cases h), fun h => (by cases h), fun _ _ _ => ?_⟩
    simp only [Timer.step] at hs
    split at hs
    · cases hs; exact ⟨⟨h1, h2, h3⟩, rfl⟩
    · cases hs
  | clear =>
    refine ⟨fun h => (by cases h), fun h => (by cases h), fun h => (by cases h), fun _ _ _ => ?_⟩
    simp only [Timer.step] at hs
    split at hs
    · split at hs
      · cases hs
      · cases hs; exact ⟨⟨h1, h2, h3⟩, rfl⟩
    · cases hs

theorem Timer.at_run (es : List TEv) : ∀ (s s' : Timer) (n m : Nat), 0 < n → s.At n m → Fixed es → Timer.run es s = some s' →
    s'.At n (m + liveTicks es s.running) := by
  induction es with
  | nil => intro s s' n m _ h _ e; cases e; exact h
  | cons e es ih =>
    intro s s' n m hn h hf hr
    simp only [Timer.run] at hr
    cases hs : s.step e with
    | none => rw [hs] at hr; cases hr
    | some q =>
      rw [hs] at hr
      obtain ⟨a, b, c, d⟩ := Timer.at_step hn h (hf e List.mem_cons_self) hs
      have hf' : Fixed es := fun x hx => hf x (List.mem_cons_of_mem _ hx)
      cases e with
      | tick =>
        have := ih q s' n _ hn (a rfl).1 hf' hr
        rw [(a rfl).2] at this
        rw [Nat.add_assoc] at this
        exact this
      | stop => have := ih q s' n _ hn (b rfl).1 hf' hr; rw [(b rfl).2] at this; exact this
      | start => have := ih q s' n _ hn (c rfl).1 hf' hr; rw [(c rfl).2] at this; exact this
      | interval k =>
        have h4 := d (by simp) (by simp) (by simp)
        have := ih q s' n _ hn h4.1 hf' hr; rw [h4.2] at this; exact this
      | wake =>
        have h4 := d (by simp) (by simp) (by simp)
        have := ih q s' n _ hn h4.1 hf' hr; rw [h4.2] at this; exact this
      | look =>
        have h4 := d (by simp) (by simp) (by simp)
        have := ih q s' n _ hn h4.1 hf' hr; rw [h4.2] at this; exact this
      | clear =>
        have h4 := d (by simp) (by simp) (by simp)
        have := ih q s' n _ hn h4.1 hf' hr; rw [h4.2] at this; exact this

/-- Firings are accounted for, between two runs of the timer's thread. -/
def Timer.Acc (s : Timer) : Prop :=
  0 ≤ s.sem ∧ ((s.seen = none ∧ s.runCount = s.runs + s.missed + s.sem) ∨ (s.seen = some (-1) ∧ s.runCount = s.runs + s.missed + s.sem + 1))

theorem Timer.acc_other {s s' : Timer} {e : TEv} (h : s.Acc) (h1 : e ≠ .look) (h2 : e ≠ .clear) (hs : s.step e = some s') : s'.Acc := by
  unfold Timer.Acc at h ⊢
  cases e with
  | tick =>
    simp only [Timer.step] at hs
    split at hs
    · split at hs
      · cases hs
        simp only
        obtain ⟨a, b⟩ := h
        refine ⟨by omega, ?_⟩
        rcases b with ⟨b, c⟩ | ⟨b, c⟩
        · exact Or.inl ⟨b, by omega⟩
        · exact Or.inr ⟨b, by omega⟩
      · cases hs; exact h
    · cases hs; exact h
  | stop => cases hs; exact h
  | start => cases hs; exact h
  | interval k => cases hs; exact h
  | look => exact absurd rfl h1
  | clear => exact absurd rfl h2
  | wake =>
    simp only [Timer.step] at hs
    split at hs
    · next hc =>
      cases hs
      obtain ⟨a, b⟩ := h
      refine ⟨by simp only; omega, Or.inr ⟨rfl, ?_⟩⟩
      rcases b with ⟨_, c⟩ | ⟨b, _⟩
      · simp only; omega
      · rw [hc.1] at b; cases b
    · cases hs

theorem Timer.acc_look {s s' s'' : Timer} (h : s.Acc) (hs : s.step .look = some s') (hs' : s'.step .clear = some s'') : s''.Acc := by
  simp only [Timer.step] at hs
  split at hs
  · next hc =>
    cases hs
    obtain ⟨a, b⟩ := h
    simp only [Timer.step] at hs'
    split at hs'
    · cases hs'
    · cases hs'
      refine ⟨Int.le_refl _, Or.inl ⟨rfl, ?_⟩⟩
      rcases b with ⟨b, _⟩ | ⟨_, c⟩
      · rw [hc] at b; cases b
      · simp only; omega
  · cases hs

theorem Timer.acc_run (es : List TEv) : ∀ s s' : Timer, s.Acc → Timer.run (atonce es) s = some s' → s'.Acc := by
  induction es with
  | nil => intro s s' h e; cases e; exact h
  | cons e es ih =>
    intro s s' h hr
    have hat : atonce (e :: es) = (if e = .look then [.look, .clear] else if e = .clear then [] else [e]) ++ atonce es := by
      simp [atonce]
    rw [hat] at hr
    by_cases h1 : e = .look
    · rw [if_pos h1] at hr
      simp only [List.cons_append, List.nil_append, Timer.run] at hr
      cases hs : s.step .look with
      | none => rw [hs] at hr; cases hr
      | some q =>
        rw [hs] at hr
        simp only [Option.bind_some] at hr
        cases hs' : q.step .clear with
        | none => simp only [hs', Option.bind_none] at hr; cases hr
        | some q' =>
          simp only [hs', Option.bind_some] at hr
          exact ih q' s' (Timer.acc_look h hs hs') hr
    · rw [if_neg h1] at hr
      by_cases h2 : e = .clear
      · rw [if_pos h2] at hr
        exact ih s s' h hr
      · rw [if_neg h2] at hr
        simp only [List.cons_append, List.nil_append, Timer.run] at hr
        cases hs : s.step e with
        | none => rw [hs] at hr; cases hr
        | some q => rw [hs] at hr; exact ih q s' (Timer.acc_other h h1 h2 hs) hr

end Eus.Par
