import Verif.Spv.Spec
set_option autoImplicit false
namespace Eus.Spv

theorem upd_self {α : Type} (f : Nat → α) (n : Nat) (a : α) : upd f n a n = a := by simp [upd]
theorem upd_ne {α : Type} (f : Nat → α) {n m : Nat} (a : α) (h : m ≠ n) : upd f n a m = f m := by simp [upd, h]

/-- The old values in the frames are the values without the binding. -/
def Sav (b : Nat → Option Nat) : List (Nat × Option Nat) → List (Nat × Option Nat) → Prop
  | [], [] => True
  | (y, o) :: f, (z, _) :: l => y = z ∧ o = look y b l ∧ Sav b f l
  | _, _ => False

theorem look_assign_self {x : Nat} {v : Option Nat} {b : Nat → Option Nat} : ∀ {l : List (Nat × Option Nat)}, has x l = true → look x b (assign x v l) = v
  | [], h => by cases h
  | (y, w) :: l, h => by
    unfold has at h
    unfold assign
    split at h
    · rename_i e; subst e; simp [look]
    · rename_i e
      rw [if_neg e]
      simp only [look, if_neg e]
      exact look_assign_self h

theorem look_assign_ne {x y : Nat} (h : y ≠ x) {v : Option Nat} {b : Nat → Option Nat} : ∀ (l : List (Nat × Option Nat)), look y b (assign x v l) = look y b l
  | [] => rfl
  | (z, w) :: l => by
    unfold assign
    by_cases e : x = z
    · subst e; simp [look, h]
    · rw [if_neg e]
      simp only [look]
      split
      · rfl
      · exact look_assign_ne h l

theorem has_assign (x y : Nat) (v : Option Nat) : ∀ (l : List (Nat × Option Nat)), has y (assign x v l) = has y l
  | [] => rfl
  | (z, w) :: l => by
    unfold assign
    by_cases e : x = z
    · rw [if_pos e]; rfl
    · rw [if_neg e]
      simp only [has]
      split
      · rfl
      · exact has_assign x y v l

theorem look_none {x : Nat} {b : Nat → Option Nat} : ∀ {l : List (Nat × Option Nat)}, has x l = false → look x b l = b x
  | [], _ => rfl
  | (y, w) :: l, h => by
    unfold has at h
    split at h
    · cases h
    · rename_i e
      simp only [look, if_neg e]
      exact look_none h

theorem look_congr {x : Nat} {b b' : Nat → Option Nat} : ∀ {l : List (Nat × Option Nat)}, (has x l = false → b x = b' x) → look x b l = look x b' l
  | [], h => h rfl
  | (y, w) :: l, h => by
    unfold has at h
    simp only [look]
    split
    · rfl
    · rename_i e
      rw [if_neg e] at h
      exact look_congr h

theorem sav_length {b : Nat → Option Nat} : ∀ {f l : List (Nat × Option Nat)}, Sav b f l → f.length = l.length
  | [], [], _ => rfl
  | [], _ :: _, h => by cases h
  | (_, _) :: _, [], h => by cases h
  | (y, o) :: f, (z, v) :: l, h => by
    have := sav_length h.2.2
    simp [this]

theorem sav_assign {b : Nat → Option Nat} (x : Nat) (v : Option Nat) : ∀ {f l : List (Nat × Option Nat)}, Sav b f l → Sav b f (assign x v l)
  | [], [], _ => trivial
  | [], _ :: _, h => by cases h
  | (_, _) :: _, [], h => by cases h
  | (y, o) :: f, (z, w) :: l, h => by
    obtain ⟨h1, h2, h3⟩ := h
    unfold assign
    by_cases e : x = z
    · rw [if_pos e]; exact ⟨h1, h2, h3⟩
    · rw [if_neg e]
      refine ⟨h1, ?_, sav_assign x v h3⟩
      rw [look_assign_ne (by rw [h1]; exact fun h => e h.symm)]
      exact h2

theorem sav_congr {b b' : Nat → Option Nat} : ∀ {f l : List (Nat × Option Nat)}, (∀ x, has x l = true → b x = b' x) → Sav b f l → Sav b' f l
  | [], [], _, _ => trivial
  | [], _ :: _, _, h => by cases h
  | (_, _) :: _, [], _, h => by cases h
  | (y, o) :: f, (z, w) :: l, hb, h => by
    obtain ⟨h1, h2, h3⟩ := h
    refine ⟨h1, ?_, sav_congr (fun x hx => hb x (by simp only [has]; split; rfl; exact hx)) h3⟩
    rw [h2]
    exact look_congr fun _ => hb y (by subst h1; simp [has])

def VT.kind : VT → Kind
  | .const => .plain
  | .var => .plain
  | .glob => .shared
  | .spec _ => .thread

/-- The machine and the specification. -/
structure Inv (s : Sys) (a : A) : Prop where
  kind : ∀ x, a.kind x = (s.vt x).kind
  noconst : ∀ x, s.vt x ≠ .const
  range : ∀ x i, s.vt x = .spec i → i < s.next
  inj : ∀ x y i, s.vt x = .spec i → s.vt y = .spec i → x = y
  next : s.next = 3 + a.count
  count : a.count ≤ 509
  fresh : ∀ t i, s.next ≤ i → (s.thr t).tab i = some 0
  lex : ∀ t, (s.thr t).lex = []
  plain : ∀ t x, has x (a.stack t) = true → a.kind x ≠ .plain
  uniq : ∀ t u x, a.kind x = .shared → has x (a.stack t) = true → has x (a.stack u) = true → t = u
  sav : ∀ t, Sav (a.base t) (s.thr t).frames (a.stack t)
  tab : ∀ t x i, s.vt x = .spec i → (s.thr t).tab i = a.value t x
  cell : ∀ t x, a.kind x ≠ .thread → (∀ u, u ≠ t → has x (a.stack u) = false) → s.cell x = a.value t x
  stk : ∀ t x, a.kind x = .thread → (x, none) ∉ a.stack t
  own : ∀ t x, a.kind x = .thread → a.own t x = none → s.cell x = none

theorem init_inv : Inv init A.init where
  kind _ := rfl
  noconst _ h := by cases h
  range _ _ h := by cases h
  inj _ _ _ h := by cases h
  next := rfl
  count := by decide
  fresh _ _ _ := rfl
  lex _ := rfl
  plain _ _ h := by cases h
  uniq _ _ _ _ h := by cases h
  sav _ := trivial
  tab _ _ _ h := by cases h
  cell _ _ _ _ := rfl
  stk _ _ h := by cases h
  own _ _ h := by cases h

theorem look_unb {x : Nat} {b : Nat → Option Nat} : ∀ {l : List (Nat × Option Nat)}, look x b l = none → (x, none) ∈ l ∨ b x = none
  | [], h => Or.inr h
  | (y, w) :: l, h => by
    simp only [look] at h
    split at h
    · rename_i e; subst e; subst h; exact Or.inl (by simp)
    · rcases look_unb h with h | h
      · exact Or.inl (List.mem_cons_of_mem _ h)
      · exact Or.inr h

theorem Inv.unb {s : Sys} {a : A} (h : Inv s a) (t x : Nat) (hk : a.kind x = .thread) (hv : a.value t x = none) : s.cell x = none := by
  rcases look_unb hv with h1 | h1
  · exact absurd h1 (h.stk t x hk)
  · simp only [A.base, hk, if_true] at h1
    exact h.own t x hk h1

/-! assignment -/

theorem assign_kind (a : A) (t x : Nat) (v : Option Nat) : (a.assign t x v).kind = a.kind ∧ (a.assign t x v).count = a.count := by
  unfold A.assign
  split
  · exact ⟨rfl, rfl⟩
  · split <;> exact ⟨rfl, rfl⟩

theorem assign_has (a : A) (t x : Nat) (v : Option Nat) (u y : Nat) : has y ((a.assign t x v).stack u) = has y (a.stack u) := by
  unfold A.assign
  split
  · by_cases h : u = t
    · subst h; simp only [upd_self]; exact has_assign _ _ _ _
    · simp only [upd_ne _ _ h]
  · split <;> rfl

theorem assign_value_self (a : A) (t x : Nat) (v : Option Nat) : (a.assign t x v).value t x = v := by
  unfold A.assign
  split
  · rename_i h
    simp only [A.value, upd_self]
    exact look_assign_self h
  · rename_i h
    have h : has x (a.stack t) = false := by simpa using h
    split
    · rename_i hk
      simp only [A.value, look_none h, A.base, hk, if_true, upd_self]
    · rename_i hk
      simp only [A.value, look_none h, A.base, if_neg hk, upd_self]

theorem assign_base_ne (a : A) (t x : Nat) (v : Option Nat) (u y : Nat) (h : y ≠ x) : (a.assign t x v).base u y = a.base u y := by
  unfold A.assign
  split
  · rfl
  · split
    · simp only [A.base]
      split
      · by_cases hu : u = t
        · subst hu; rw [upd_self, upd_ne _ _ h]
        · rw [upd_ne _ _ hu]
      · rfl
    · simp only [A.base]
      split
      · rfl
      · rw [upd_ne _ _ h]

theorem assign_value_ne (a : A) (t x : Nat) (v : Option Nat) (u y : Nat) (h : y ≠ x) : (a.assign t x v).value u y = a.value u y := by
  have hb := assign_base_ne a t x v u y h
  unfold A.value
  rw [look_congr (b' := a.base u) fun _ => hb]
  unfold A.assign
  split
  · by_cases hu : u = t
    · subst hu; simp only [upd_self]; exact look_assign_ne h _
    · simp only [upd_ne _ _ hu]
  · split <;> rfl

theorem assign_value_thread (a : A) (t x : Nat) (v : Option Nat) (u : Nat) (hk : a.kind x = .thread) (hu : u ≠ t) :
    (a.assign t x v).value u x = a.value u x := by
  unfold A.assign
  cases hh : has x (a.stack t) with
  | true => simp only [if_true, A.value, upd_ne _ _ hu]; rfl
  | false =>
    simp only [Bool.false_eq_true, if_false, if_pos hk, A.value]
    refine look_congr fun _ => ?_
    simp only [A.base, hk, if_true, upd_ne _ _ hu]

theorem assign_value_shared (a : A) (t x : Nat) (v : Option Nat) (u : Nat) (hk : a.kind x ≠ .thread) (hu : has x (a.stack u) = false)
    (ht : has x (a.stack t) = false) : (a.assign t x v).value u x = v := by
  unfold A.assign A.value
  rw [ht]
  simp only [Bool.false_eq_true, if_false, if_neg hk]
  rw [look_none hu]
  simp only [A.base, if_neg hk, upd_self]

theorem assign_sav (a : A) (t x : Nat) (v : Option Nat) (hf : a.Free t x) (u : Nat) {f : List (Nat × Option Nat)} (h : Sav (a.base u) f (a.stack u)) :
    Sav ((a.assign t x v).base u) f ((a.assign t x v).stack u) := by
  have key : Sav (a.base u) f ((a.assign t x v).stack u) := by
    unfold A.assign
    split
    · by_cases hu : u = t
      · subst hu; simp only [upd_self]; exact sav_assign _ _ h
      · simp only [upd_ne _ _ hu]; exact h
    · split <;> exact h
  refine sav_congr (fun y hy => ?_) key
  rw [assign_has] at hy
  by_cases hxy : y = x
  · subst hxy
    unfold A.assign
    split
    · rfl
    · rename_i hn
      split
      · rename_i hk
        simp only [A.base, hk, if_true]
        by_cases hu : u = t
        · subst hu; exact absurd hy hn
        · rw [upd_ne _ _ hu]
      · rename_i hk
        by_cases hu : u = t
        · subst hu; exact absurd hy hn
        · rw [hf hk u hu] at hy; cases hy
  · exact (assign_base_ne a t x v u y hxy).symm

theorem mem_assign {x y : Nat} {v w : Option Nat} : ∀ {l : List (Nat × Option Nat)}, (y, w) ∈ assign x v l → (y, w) ∈ l ∨ (y = x ∧ w = v)
  | [], h => by cases h
  | (z, u) :: l, h => by
    unfold assign at h
    split at h
    · rename_i e
      rcases List.mem_cons.1 h with h | h
      · cases h; exact Or.inr ⟨e.symm, rfl⟩
      · exact Or.inl (List.mem_cons_of_mem _ h)
    · rcases List.mem_cons.1 h with h | h
      · rw [h]; exact Or.inl (by simp)
      · rcases mem_assign h with h | h
        · exact Or.inl (List.mem_cons_of_mem _ h)
        · exact Or.inr h

theorem assign_stk (a : A) (t x : Nat) (v : Option Nat) (hv : v ≠ none ∨ a.kind x ≠ .thread) (u y : Nat) (hk : a.kind y = .thread)
    (h : (y, none) ∉ a.stack u) : (y, none) ∉ (a.assign t x v).stack u := by
  unfold A.assign
  split
  · by_cases hu : u = t
    · subst hu
      simp only [upd_self]
      intro hm
      rcases mem_assign hm with hm | ⟨e, hm'⟩
      · exact h hm
      · subst e
        rcases hv with hv | hv
        · exact hv hm'.symm
        · exact hv hk
    · simp only [upd_ne _ _ hu]; exact h
  · split <;> exact h

theorem assign_own (a : A) (t x : Nat) (v : Option Nat) (hv : v ≠ none ∨ a.kind x ≠ .thread) (u y : Nat) (hk : a.kind y = .thread)
    (h : (a.assign t x v).own u y = none) : a.own u y = none := by
  unfold A.assign at h
  split at h
  · exact h
  · split at h
    · rename_i hx
      by_cases hu : u = t
      · subst hu
        simp only [upd_self] at h
        by_cases hy : y = x
        · subst hy
          rw [upd_self] at h
          rcases hv with hv | hv
          · exact absurd h hv
          · exact absurd hk hv
        · rw [upd_ne _ _ hy] at h; exact h
      · simp only [upd_ne _ _ hu] at h; exact h
    · exact h

theorem setTab_self (s : Sys) (t i : Nat) (v : Option Nat) : ((s.setTab t i v).thr t).tab = upd (s.thr t).tab i v := by simp [Sys.setTab, upd_self]
theorem setTab_ne (s : Sys) (t i : Nat) (v : Option Nat) {u : Nat} (h : u ≠ t) : (s.setTab t i v).thr u = s.thr u := by simp [Sys.setTab, upd_ne _ _ h]
theorem setTab_frames (s : Sys) (t i : Nat) (v : Option Nat) (u : Nat) :
    ((s.setTab t i v).thr u).frames = (s.thr u).frames ∧ ((s.setTab t i v).thr u).lex = (s.thr u).lex := by
  by_cases h : u = t
  · subst h; simp [Sys.setTab, upd_self]
  · rw [setTab_ne _ _ _ _ h]; exact ⟨rfl, rfl⟩

theorem kind_thread {s : Sys} {a : A} (h : Inv s a) {x : Nat} (hk : a.kind x = .thread) : ∃ i, s.vt x = .spec i := by
  rw [h.kind] at hk
  cases e : s.vt x with
  | spec i => exact ⟨i, rfl⟩
  | _ => rw [e] at hk; cases hk

theorem spec_kind {s : Sys} {a : A} (h : Inv s a) {x i : Nat} (hv : s.vt x = .spec i) : a.kind x = .thread := by
  rw [h.kind, hv]; rfl

theorem assign_local {s : Sys} {a : A} (h : Inv s a) {t x i : Nat} {v : Option Nat} (hx : s.vt x = .spec i) (hv : v ≠ none) :
    Inv (s.setTab t i v) (a.assign t x v) := by
  have hk := spec_kind h hx
  obtain ⟨k1, k2⟩ := assign_kind a t x v
  have hf : a.Free t x := fun h => absurd hk h
  constructor
  · intro y; rw [k1]; exact h.kind y
  · exact h.noconst
  · exact h.range
  · exact h.inj
  · rw [k2]; exact h.next
  · rw [k2]; exact h.count
  · intro u j hj
    by_cases hu : u = t
    · subst hu
      have := h.range x i hx
      have hj' : s.next ≤ j := hj
      rw [setTab_self, upd_ne _ _ (by omega)]
      exact h.fresh u j hj
    · rw [setTab_ne _ _ _ _ hu]; exact h.fresh u j hj
  · intro u; rw [(setTab_frames s t i v u).2]; exact h.lex u
  · intro u y hy; rw [k1]; rw [assign_has] at hy; exact h.plain u y hy
  · intro u w y hy h1 h2; rw [k1] at hy; rw [assign_has] at h1 h2; exact h.uniq u w y hy h1 h2
  · intro u; rw [(setTab_frames s t i v u).1]; exact assign_sav a t x v hf u (h.sav u)
  · intro u y j hj
    by_cases hu : u = t
    · subst hu
      rw [setTab_self]
      by_cases hy : y = x
      · subst hy
        have hj' : s.vt y = .spec j := hj
        rw [hx] at hj'
        cases hj'
        rw [upd_self, assign_value_self]
      · rw [upd_ne _ _ (fun e => hy (by subst e; exact h.inj y x _ hj hx)), assign_value_ne _ _ _ _ _ _ hy]
        exact h.tab u y j hj
    · rw [setTab_ne _ _ _ _ hu]
      by_cases hy : y = x
      · subst hy; rw [assign_value_thread _ _ _ _ _ hk hu]; exact h.tab u y j hj
      · rw [assign_value_ne _ _ _ _ _ _ hy]; exact h.tab u y j hj
  · intro u y hy hh
    rw [k1] at hy
    rw [assign_value_ne _ _ _ _ _ _ (by rintro rfl; exact hy hk)]
    exact h.cell u y hy (fun w hw => by have := hh w hw; rw [assign_has] at this; exact this)
  · intro u y hy; rw [k1] at hy; exact assign_stk a t x v (Or.inl hv) u y hy (h.stk u y hy)
  · intro u y hy ho; rw [k1] at hy; exact h.own u y hy (assign_own a t x v (Or.inl hv) u y hy ho)

theorem assign_shared {s : Sys} {a : A} (h : Inv s a) {t x : Nat} (v : Option Nat) (hk : a.kind x ≠ .thread) (hf : a.Free t x) :
    Inv (s.setCell x v) (a.assign t x v) := by
  obtain ⟨k1, k2⟩ := assign_kind a t x v
  constructor
  · intro y; rw [k1]; exact h.kind y
  · exact h.noconst
  · exact h.range
  · exact h.inj
  · rw [k2]; exact h.next
  · rw [k2]; exact h.count
  · exact h.fresh
  · exact h.lex
  · intro u y hy; rw [k1]; rw [assign_has] at hy; exact h.plain u y hy
  · intro u w y hy h1 h2; rw [k1] at hy; rw [assign_has] at h1 h2; exact h.uniq u w y hy h1 h2
  · intro u; exact assign_sav a t x v hf u (h.sav u)
  · intro u y j hj
    have hy : y ≠ x := by rintro rfl; exact hk (spec_kind h hj)
    rw [assign_value_ne _ _ _ _ _ _ hy]
    exact h.tab u y j hj
  · intro u y hy hh
    rw [k1] at hy
    have hh' : ∀ w, w ≠ u → has y (a.stack w) = false := fun w hw => by have := hh w hw; rw [assign_has] at this; exact this
    by_cases hyx : y = x
    · subst hyx
      simp only [Sys.setCell, upd_self]
      by_cases hu : u = t
      · subst hu; rw [assign_value_self]
      · rw [assign_value_shared a t y v u hk (hf hk u hu) (hh' t (fun e => hu e.symm))]
    · simp only [Sys.setCell, upd_ne _ _ hyx]
      rw [assign_value_ne _ _ _ _ _ _ hyx]
      exact h.cell u y hy hh'
  · intro u y hy; rw [k1] at hy; exact assign_stk a t x v (Or.inr hk) u y hy (h.stk u y hy)
  · intro u y hy ho
    rw [k1] at hy
    have hyx : y ≠ x := by rintro rfl; exact hk hy
    simp only [Sys.setCell, upd_ne _ _ hyx]
    exact h.own u y hy (assign_own a t x v (Or.inr hk) u y hy ho)

/-! a binding -/

def A.push (a : A) (t x : Nat) (v : Option Nat) : A := { a with stack := upd a.stack t ((x, v) :: a.stack t) }

theorem push_has (a : A) (t x : Nat) (v : Option Nat) (u y : Nat) (h : has y ((a.push t x v).stack u) = true) : (u = t ∧ y = x) ∨ has y (a.stack u) = true := by
  by_cases hu : u = t
  · subst hu
    simp only [A.push, upd_self, has] at h
    split at h
    · exact Or.inl ⟨rfl, by assumption⟩
    · exact Or.inr h
  · simp only [A.push, upd_ne _ _ hu] at h; exact Or.inr h

theorem push_has_self (a : A) (t x : Nat) (v : Option Nat) : has x ((a.push t x v).stack t) = true := by simp [A.push, upd_self, has]

theorem push_has_of (a : A) (t x : Nat) (v : Option Nat) (u y : Nat) (h : has y ((a.push t x v).stack u) = false) : has y (a.stack u) = false := by
  by_cases hu : u = t
  · subst hu
    simp only [A.push, upd_self, has] at h
    split at h
    · cases h
    · exact h
  · simp only [A.push, upd_ne _ _ hu] at h; exact h

theorem push_value_self (a : A) (t x : Nat) (v : Option Nat) : (a.push t x v).value t x = v := by simp [A.push, A.value, upd_self, look]

theorem push_value_ne (a : A) (t x : Nat) (v : Option Nat) (u y : Nat) (h : u ≠ t ∨ y ≠ x) : (a.push t x v).value u y = a.value u y := by
  by_cases hu : u = t
  · subst hu
    have hy : y ≠ x := by rcases h with h | h; exact absurd rfl h; exact h
    simp only [A.push, A.value, upd_self, look, if_neg hy]
    rfl
  · simp only [A.push, A.value, upd_ne _ _ hu]
    rfl

theorem bind_inv {s : Sys} {a : A} (h : Inv s a) {t x v : Nat} (hk : a.kind x ≠ .plain) (hf : a.Free t x) :
    Inv (bindspecial t x (some v) s) (a.push t x (some v)) := by
  have hpl : ∀ u y, has y ((a.push t x (some v)).stack u) = true → a.kind y ≠ .plain := by
    intro u y hy
    rcases push_has _ _ _ _ _ _ hy with ⟨_, rfl⟩ | hy
    · exact hk
    · exact h.plain u y hy
  have hun : ∀ u w y, a.kind y = .shared → has y ((a.push t x (some v)).stack u) = true → has y ((a.push t x (some v)).stack w) = true → u = w := by
    intro u w y hy h1 h2
    rcases push_has _ _ _ _ _ _ h1 with ⟨e1, e2⟩ | h1
    · rcases push_has _ _ _ _ _ _ h2 with ⟨e3, _⟩ | h2
      · rw [e1, e3]
      · by_cases hw : w = t
        · rw [e1, hw]
        · have := hf (by rw [← e2, hy]; simp) w hw
          rw [← e2, h2] at this
          cases this
    · rcases push_has _ _ _ _ _ _ h2 with ⟨e3, e4⟩ | h2
      · by_cases hu : u = t
        · rw [e3, hu]
        · have := hf (by rw [← e4, hy]; simp) u hu
          rw [← e4, h1] at this
          cases this
      · exact h.uniq u w y hy h1 h2
  have hst : ∀ u y, a.kind y = .thread → (y, none) ∉ (a.push t x (some v)).stack u := by
    intro u y hy hm
    by_cases hu : u = t
    · subst hu
      simp only [A.push, upd_self, List.mem_cons] at hm
      rcases hm with hm | hm
      · cases hm
      · exact h.stk u y hy hm
    · simp only [A.push, upd_ne _ _ hu] at hm; exact h.stk u y hy hm
  by_cases hg : s.vt x = .glob
  · have hks : a.kind x = .shared := by rw [h.kind, hg]; rfl
    have hkt : a.kind x ≠ .thread := by rw [hks]; simp
    have hc := h.cell t x hkt (hf hkt)
    simp only [bindspecial, hg, if_true]
    constructor
    · exact h.kind
    · exact h.noconst
    · exact h.range
    · exact h.inj
    · exact h.next
    · exact h.count
    · intro u j hj
      by_cases hu : u = t
      · subst hu; simp only [upd_self]; exact h.fresh u j hj
      · simp only [upd_ne _ _ hu]; exact h.fresh u j hj
    · intro u
      by_cases hu : u = t
      · subst hu; simp only [upd_self]; exact h.lex u
      · simp only [upd_ne _ _ hu]; exact h.lex u
    · exact hpl
    · exact hun
    · intro u
      by_cases hu : u = t
      · subst hu
        simp only [A.push, upd_self]
        exact ⟨rfl, hc, h.sav u⟩
      · simp only [A.push, upd_ne _ _ hu]; exact h.sav u
    · intro u y j hj
      have hy : y ≠ x := by rintro rfl; exact hkt (spec_kind h hj)
      rw [push_value_ne _ _ _ _ _ _ (Or.inr hy), ← h.tab u y j hj]
      by_cases hu : u = t
      · subst hu; simp only [upd_self]; rfl
      · simp only [upd_ne _ _ hu]; rfl
    · intro u y hy hh
      by_cases hyx : y = x
      · subst hyx
        by_cases hu : u = t
        · subst hu; simp only [Sys.setCell, upd_self]; rw [push_value_self]
        · have := hh t (fun e => hu e.symm)
          rw [push_has_self] at this
          cases this
      · simp only [Sys.setCell, upd_ne _ _ hyx]
        rw [push_value_ne _ _ _ _ _ _ (Or.inr hyx)]
        exact h.cell u y hy (fun w hw => push_has_of _ _ _ _ _ _ (hh w hw))
    · exact hst
    · intro u y hy ho
      have hyx : y ≠ x := by rintro rfl; exact hkt hy
      simp only [Sys.setCell, upd_ne _ _ hyx]
      exact h.own u y hy ho
  · have hkt : a.kind x = .thread := by
      rw [h.kind] at hk ⊢
      cases e : s.vt x with
      | const => rw [e] at hk; exact absurd rfl hk
      | var => rw [e] at hk; exact absurd rfl hk
      | glob => exact absurd e hg
      | spec i => rfl
    obtain ⟨i, hi⟩ := kind_thread h hkt
    simp only [bindspecial, hi, VT.index]
    rw [if_neg (by simp)]
    have hr := h.range x i hi
    constructor
    · exact h.kind
    · exact h.noconst
    · exact h.range
    · exact h.inj
    · exact h.next
    · exact h.count
    · intro u j hj
      have hj' : s.next ≤ j := hj
      by_cases hu : u = t
      · subst hu; simp only [upd_self, setTab_self]; rw [upd_ne _ _ (by omega)]; exact h.fresh u j hj
      · simp only [upd_ne _ _ hu, setTab_ne _ _ _ _ hu]; exact h.fresh u j hj
    · intro u
      by_cases hu : u = t
      · subst hu; simp only [upd_self]; rw [(setTab_frames s u i _ u).2]; exact h.lex u
      · simp only [upd_ne _ _ hu, setTab_ne _ _ _ _ hu]; exact h.lex u
    · exact hpl
    · exact hun
    · intro u
      by_cases hu : u = t
      · subst hu
        simp only [A.push, upd_self, (setTab_frames s u i _ u).1]
        exact ⟨rfl, h.tab u x i hi, h.sav u⟩
      · simp only [A.push, upd_ne _ _ hu, setTab_ne _ _ _ _ hu]; exact h.sav u
    · intro u y j hj
      have hj' : s.vt y = .spec j := hj
      by_cases hu : u = t
      · subst hu
        simp only [upd_self, setTab_self]
        by_cases hy : y = x
        · subst hy
          rw [hi] at hj'
          cases hj'
          rw [upd_self, push_value_self]
        · rw [upd_ne _ _ (fun e => hy (by subst e; exact h.inj y x _ hj hi)), push_value_ne _ _ _ _ _ _ (Or.inr hy)]
          exact h.tab u y j hj
      · simp only [upd_ne _ _ hu, setTab_ne _ _ _ _ hu]
        rw [push_value_ne _ _ _ _ _ _ (Or.inl hu)]
        exact h.tab u y j hj
    · intro u y hy hh
      have hyx : y ≠ x := by rintro rfl; exact hy hkt
      rw [push_value_ne _ _ _ _ _ _ (Or.inr hyx)]
      exact h.cell u y hy (fun w hw => push_has_of _ _ _ _ _ _ (hh w hw))
    · exact hst
    · exact h.own

end Eus.Spv
