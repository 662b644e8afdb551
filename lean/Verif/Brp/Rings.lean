import Verif.Brp.Lemmas
set_option autoImplicit false
set_option linter.unusedSectionVars false
namespace Eus.Brp

variable {V : Type}

/-- From each element of a list to the next. -/
def steps : List V → List (V × V)
  | x :: y :: r => (x, y) :: steps (y :: r)
  | _ => []

theorem zip_steps : ∀ (x : V) (r : List V), (x :: r).zip r = steps (x :: r) := by
  intro x r
  induction r generalizing x with
  | nil => rfl
  | cons y r ih => simp [steps, ← ih]

theorem sides_steps (x : V) (r : List V) (l : V) (h : (x :: r).getLast? = some l) :
    sides (x :: r) = (l, x) :: steps (x :: r) := by
  simp [sides, h, ← zip_steps]

theorem steps_concat : ∀ (l : List V) (y a : V), steps (l ++ [y, a]) = steps (l ++ [y]) ++ [(y, a)] := by
  intro l
  induction l with
  | nil => intro y a; rfl
  | cons x l ih =>
    intro y a
    cases l with
    | nil => rfl
    | cons z l => simp only [List.cons_append, steps] at ih ⊢; rw [ih]

theorem steps_reverse : ∀ (l : List V), steps l.reverse = ((steps l).map Prod.swap).reverse := by
  intro l
  induction l with
  | nil => rfl
  | cons x l ih =>
    cases l with
    | nil => rfl
    | cons y r =>
      have : (x :: y :: r).reverse = r.reverse ++ [y, x] := by simp
      rw [this, steps_concat]
      have : (y :: r).reverse = r.reverse ++ [y] := by simp
      rw [this] at ih
      rw [ih]
      simp [steps]

theorem sides_reverse (l : List V) : (sides l.reverse).Perm ((sides l).map Prod.swap) := by
  cases l with
  | nil => exact List.Perm.refl _
  | cons x r =>
    obtain ⟨z, hz⟩ : ∃ z, (x :: r).getLast? = some z := ⟨_, List.getLast?_eq_some_getLast (by simp)⟩
    rw [sides_steps x r z hz]
    obtain ⟨y, s, hy⟩ : ∃ y s, (x :: r).reverse = y :: s := by
      cases h : (x :: r).reverse with
      | nil => simp at h
      | cons y s => exact ⟨y, s, rfl⟩
    have hyz : y = z := by
      have : (x :: r).reverse.head? = some y := by rw [hy]; rfl
      rw [List.head?_reverse, hz] at this
      exact (Option.some.inj this).symm
    have hl : (y :: s).getLast? = some x := by rw [← hy, List.getLast?_reverse]; rfl
    rw [hy, sides_steps y s x hl, ← hy, steps_reverse, hyz]
    simp only [List.map_cons, Prod.swap]
    exact List.Perm.cons _ (List.reverse_perm _)

theorem sides_snd (l : List V) : (sides l).map Prod.snd = l := by
  unfold sides
  split
  · rename_i h; simp [List.getLast?_eq_none_iff.1 h]
  · rw [List.map_snd_zip]; simp

theorem sides_nodup {l : List V} (h : l.Nodup) : (sides l).Nodup := by
  have : ((sides l).map Prod.snd).Nodup := by rw [sides_snd]; exact h
  rw [List.Nodup, List.pairwise_map] at this
  exact this.imp (fun h e => h (congrArg Prod.snd e))

theorem mem_sides {l : List V} {a b : V} (h : (a, b) ∈ sides l) : a ∈ l ∧ b ∈ l := by
  unfold sides at h
  split at h
  · simp at h
  · rename_i z hz
    have := List.of_mem_zip h
    refine ⟨?_, this.2⟩
    rcases List.mem_cons.1 this.1 with h | h
    · rw [h]; exact List.mem_of_getLast? hz
    · exact h

/-- Where a side is in the list of corners. -/
theorem sides_index {l : List V} {a b : V} (h : (a, b) ∈ sides l) :
    ∃ i j, l[i]? = some a ∧ l[j]? = some b ∧ (i + 1 = j ∨ (j = 0 ∧ i + 1 = l.length)) := by
  obtain ⟨j, hj⟩ := List.getElem?_of_mem h
  unfold sides at hj
  split at hj
  · simp at hj
  · rename_i z hz
    rw [List.getElem?_zip_eq_some] at hj
    obtain ⟨h1, h2⟩ := hj
    cases j with
    | zero =>
      simp at h1
      rw [List.getLast?_eq_getElem?] at hz
      have : 0 < l.length := (List.getElem?_eq_some_iff.1 h2).1
      exact ⟨l.length - 1, 0, by rw [hz, h1], h2, Or.inr ⟨rfl, by omega⟩⟩
    | succ j =>
      simp at h1
      exact ⟨j, j + 1, h1, h2, Or.inl rfl⟩

theorem nodup_index {l : List V} (h : l.Nodup) {i j : Nat} {a : V} (hi : l[i]? = some a) (hj : l[j]? = some a) : i = j := by
  exact (List.getElem?_inj (List.getElem?_eq_some_iff.1 hi).1 h).1 (hi.trans hj.symm)

theorem sides_asymm {l : List V} (h : l.Nodup) (h3 : 3 ≤ l.length) {a b : V} (h1 : (a, b) ∈ sides l) :
    (b, a) ∉ sides l := by
  intro h2
  obtain ⟨i, j, ia, jb, hij⟩ := sides_index h1
  obtain ⟨i', j', ib, ja, hij'⟩ := sides_index h2
  have e1 := nodup_index h ia ja
  have e2 := nodup_index h jb ib
  omega

theorem fit_of {fs : List (List V)} (h : ∀ vs ∈ fs, vs.Nodup ∧ 3 ≤ vs.length) (hn : (fs.flatMap sides).Nodup) : Fit fs := by
  refine ⟨?_, hn, ?_⟩
  · intro vs hvs e
    have := (h vs hvs).2
    rw [e] at this; simp at this
  · intro vs hvs a b hab
    exact sides_asymm (h vs hvs).1 (h vs hvs).2 hab

/-! ### the loops -/

/-- From each element to the next, at last to `f`. -/
def nxt (f : V) : List V → List (V × V)
  | [] => []
  | x :: r => (x, r.headD f) :: nxt f r

theorem nxt_steps (f : V) : ∀ (x : V) (r : List V) (l : V), (x :: r).getLast? = some l →
    nxt f (x :: r) = steps (x :: r) ++ [(l, f)] := by
  intro x r
  induction r generalizing x with
  | nil => intro l h; simp at h; subst h; rfl
  | cons y r ih =>
    intro l h
    rw [List.getLast?_cons_cons] at h
    rw [nxt, ih y l h]; rfl

theorem nxt_sides (x : V) (r : List V) : (nxt x (x :: r)).Perm (sides (x :: r)) := by
  obtain ⟨z, hz⟩ : ∃ z, (x :: r).getLast? = some z := ⟨_, List.getLast?_eq_some_getLast (by simp)⟩
  rw [nxt_steps x x r z hz, sides_steps x r z hz]
  exact List.perm_append_singleton _ _

/-- Both ways along the sides of a ring. -/
def R (l : List V) : List (V × V) := sides l ++ (sides l).map Prod.swap

/-- Both ways along the lines between two rings. -/
def Z (t b : List V) : List (V × V) := t.zip b ++ b.zip t

/-- Both ways along the lines from a pole to a ring. -/
def Cn (p : V) (l : List V) : List (V × V) := l.map (fun b => (b, p)) ++ l.map (fun b => (p, b))

/-- From each element but the first of the one list to that of the other, at last between the firsts. -/
def back (tf bf : V) : List V → List V → List (V × V)
  | _ :: ts, _ :: bs => (bs.headD bf, ts.headD tf) :: back tf bf ts bs
  | _, _ => []

theorem back_eq (tf bf : V) : ∀ (ts bs : List V) (t b : V), ts.length = bs.length →
    back tf bf (t :: ts) (b :: bs) = bs.zip ts ++ [(bf, tf)] := by
  intro ts
  induction ts with
  | nil =>
    intro bs t b h
    cases bs with
    | nil => rfl
    | cons c bs => simp at h
  | cons u ts ih =>
    intro bs t b h
    cases bs with
    | nil => simp at h
    | cons c bs =>
      rw [back, ih bs u c (by simpa using h)]
      simp

theorem sideLoop_perm (tf bf : V) : ∀ (T B : List V), T.length = B.length →
    ((sideLoop tf bf T B).flatMap sides).Perm
      (T.zip B ++ (nxt bf B ++ (back tf bf T B ++ (nxt tf T).map Prod.swap))) := by
  intro T
  induction T with
  | nil =>
    intro B h
    cases B with
    | nil => exact List.Perm.refl _
    | cons b B => simp at h
  | cons t ts ih =>
    intro B h
    cases B with
    | nil => simp at h
    | cons b bs =>
      have ih := ih bs (by simpa using h)
      simp only [sideLoop, List.flatMap_cons]
      refine (List.Perm.append_left _ ih).trans ?_
      classical
      rw [List.perm_iff_count]
      intro x
      simp only [sides, List.getLast?_cons_cons, List.getLast?_singleton, nxt, back, List.zip_cons_cons, List.zip_nil_right,
        List.count_append, List.count_cons, List.count_nil, List.map_cons, Prod.swap]
      omega

theorem sideFaces_perm (T B : List V) (h : T.length = B.length) :
    ((sideFaces T B).flatMap sides).Perm ((sides T).map Prod.swap ++ (Z T B ++ sides B)) := by
  cases T with
  | nil =>
    cases B with
    | nil => exact List.Perm.refl _
    | cons b bs => simp at h
  | cons t ts =>
    cases B with
    | nil => simp at h
    | cons b bs =>
      refine (sideLoop_perm t b _ _ h).trans ?_
      rw [back_eq t b ts bs t b (by simpa using h)]
      have h1 := nxt_sides b bs
      have h2 := (nxt_sides t ts).map Prod.swap
      have h3 : (bs.zip ts ++ [(b, t)]).Perm ((b :: bs).zip (t :: ts)) := List.perm_append_singleton _ _
      refine ((List.Perm.refl _).append (h1.append (h3.append h2))).trans ?_
      classical
      rw [List.perm_iff_count]
      intro x
      simp only [Z, List.count_append]
      omega

theorem conicLoop_perm (p f : V) : ∀ (B : List V),
    ((conicLoop p f B).flatMap sides).Perm
      ((nxt f B).map Prod.swap ++ (B.map (fun b => (b, p)) ++ (nxt f B).map (fun q => (p, q.2)))) := by
  intro B
  induction B with
  | nil => exact List.Perm.refl _
  | cons b bs ih =>
    simp only [conicLoop, List.flatMap_cons]
    refine (List.Perm.append_left _ ih).trans ?_
    classical
    rw [List.perm_iff_count]
    intro x
    simp only [sides, List.getLast?_cons_cons, List.getLast?_singleton, nxt, List.zip_cons_cons, List.zip_nil_right,
      List.count_append, List.count_cons, List.count_nil, List.map_cons, Prod.swap]
    omega

theorem conicFaces_perm (p : V) (B : List V) :
    ((conicFaces p B).flatMap sides).Perm ((sides B).map Prod.swap ++ Cn p B) := by
  cases B with
  | nil => exact List.Perm.refl _
  | cons b bs =>
    refine (conicLoop_perm p b _).trans ?_
    refine ((nxt_sides b bs).map Prod.swap).append ?_
    unfold Cn
    refine (List.Perm.refl _).append ?_
    have := (nxt_sides b bs).map (fun q => (p, q.2))
    refine this.trans ?_
    have e : (sides (b :: bs)).map (fun q : V × V => (p, q.2)) = ((sides (b :: bs)).map Prod.snd).map (fun x => (p, x)) := by
      rw [List.map_map]; rfl
    rw [e, sides_snd]

/-! ### no line twice -/

theorem mem_R {l : List V} {a b : V} (h : (a, b) ∈ R l) : a ∈ l ∧ b ∈ l := by
  rcases List.mem_append.1 h with h | h
  · exact mem_sides h
  · obtain ⟨⟨x, y⟩, hxy, e⟩ := List.mem_map.1 h
    simp only [Prod.swap, Prod.mk.injEq] at e
    obtain ⟨rfl, rfl⟩ := e
    exact ⟨(mem_sides hxy).2, (mem_sides hxy).1⟩

theorem R_swap {l : List V} {a b : V} (h : (a, b) ∈ R l) : (b, a) ∈ R l := by
  unfold R at *
  rcases List.mem_append.1 h with h | h
  · exact List.mem_append_right _ (List.mem_map.2 ⟨_, h, rfl⟩)
  · obtain ⟨⟨x, y⟩, hxy, e⟩ := List.mem_map.1 h
    simp only [Prod.swap, Prod.mk.injEq] at e
    obtain ⟨rfl, rfl⟩ := e
    exact List.mem_append_left _ hxy

theorem R_nodup {l : List V} (h : l.Nodup) (h3 : 3 ≤ l.length) : (R l).Nodup := by
  refine List.nodup_append.2 ⟨sides_nodup h, ?_, ?_⟩
  · refine List.pairwise_map.2 ((sides_nodup h).imp ?_)
    rintro ⟨a, b⟩ ⟨c, d⟩ hne e
    simp only [Prod.swap, Prod.mk.injEq] at e
    exact hne (by rw [e.1, e.2])
  · rintro ⟨a, b⟩ hab q hq rfl
    obtain ⟨⟨x, y⟩, hxy, e⟩ := List.mem_map.1 hq
    simp only [Prod.swap, Prod.mk.injEq] at e
    obtain ⟨rfl, rfl⟩ := e
    exact sides_asymm h h3 hab hxy

theorem mem_zip {t b : List V} {x y : V} (h : (x, y) ∈ t.zip b) : x ∈ t ∧ y ∈ b := List.of_mem_zip h

theorem zip_swap (t b : List V) {x y : V} (h : (x, y) ∈ t.zip b) : (y, x) ∈ b.zip t := by
  obtain ⟨j, hj⟩ := List.getElem?_of_mem h
  rw [List.getElem?_zip_eq_some] at hj
  refine List.mem_of_getElem? (i := j) ?_
  rw [List.getElem?_zip_eq_some]
  exact ⟨hj.2, hj.1⟩

theorem mem_Z {t b : List V} {x y : V} (h : (x, y) ∈ Z t b) : (x ∈ t ∧ y ∈ b) ∨ (x ∈ b ∧ y ∈ t) := by
  rcases List.mem_append.1 h with h | h
  · exact Or.inl (mem_zip h)
  · exact Or.inr (mem_zip h)

theorem Z_swap {t b : List V} {x y : V} (h : (x, y) ∈ Z t b) : (y, x) ∈ Z t b := by
  rcases List.mem_append.1 h with h | h
  · exact List.mem_append_right _ (zip_swap _ _ h)
  · exact List.mem_append_left _ (zip_swap _ _ h)

theorem zip_nodup {t b : List V} (h : t.Nodup) : (t.zip b).Nodup := by
  induction t generalizing b with
  | nil => simp
  | cons x t ih =>
    cases b with
    | nil => simp
    | cons y b =>
      have := List.nodup_cons.1 h
      rw [List.zip_cons_cons]
      refine List.nodup_cons.2 ⟨fun hm => this.1 (mem_zip hm).1, ih this.2⟩

theorem Z_nodup {t b : List V} (ht : t.Nodup) (hb : b.Nodup) (hd : ∀ x ∈ t, x ∉ b) : (Z t b).Nodup := by
  refine List.nodup_append.2 ⟨zip_nodup ht, zip_nodup hb, ?_⟩
  rintro ⟨x, y⟩ h1 q h2 rfl
  exact hd x (mem_zip h1).1 (mem_zip h2).1

theorem mem_Cn {p : V} {l : List V} {x y : V} (h : (x, y) ∈ Cn p l) : (x ∈ l ∧ y = p) ∨ (x = p ∧ y ∈ l) := by
  unfold Cn at h
  simp only [List.mem_append, List.mem_map, Prod.mk.injEq] at h
  rcases h with ⟨b, hb, rfl, rfl⟩ | ⟨b, hb, rfl, rfl⟩
  · exact Or.inl ⟨hb, rfl⟩
  · exact Or.inr ⟨rfl, hb⟩

theorem Cn_swap {p : V} {l : List V} {x y : V} (h : (x, y) ∈ Cn p l) : (y, x) ∈ Cn p l := by
  unfold Cn at *
  simp only [List.mem_append, List.mem_map, Prod.mk.injEq] at *
  rcases h with ⟨b, hb, rfl, rfl⟩ | ⟨b, hb, rfl, rfl⟩
  · exact Or.inr ⟨_, hb, rfl, rfl⟩
  · exact Or.inl ⟨_, hb, rfl, rfl⟩

theorem Cn_nodup {p : V} {l : List V} (h : l.Nodup) (hp : p ∉ l) : (Cn p l).Nodup := by
  refine List.nodup_append.2 ⟨?_, ?_, ?_⟩
  · exact List.pairwise_map.2 (h.imp (fun hne e => hne (congrArg Prod.fst e)))
  · exact List.pairwise_map.2 (h.imp (fun hne e => hne (congrArg Prod.snd e)))
  · rintro ⟨x, y⟩ h1 q h2 rfl
    simp only [List.mem_map, Prod.mk.injEq] at h1 h2
    obtain ⟨b, hb, rfl, rfl⟩ := h1
    obtain ⟨c, hc, h3, rfl⟩ := h2
    exact hp (h3 ▸ hb)

/-- A side of a ring is between two different corners. -/
theorem next_ne {l : List V} (h : l.Nodup) (h3 : 3 ≤ l.length) {a b : V} (hab : (a, b) ∈ sides l) : a ≠ b := by
  rintro rfl; exact sides_asymm h h3 hab hab

theorem sideLoop_mem (tf bf : V) : ∀ (T B : List V), ∀ vs ∈ sideLoop tf bf T B,
    ∃ b b' t t', vs = [b, b', t', t] ∧ (b, b') ∈ nxt bf B ∧ (t, t') ∈ nxt tf T := by
  intro T
  induction T with
  | nil => intro B vs h; simp [sideLoop] at h
  | cons t ts ih =>
    intro B vs h
    cases B with
    | nil => simp [sideLoop] at h
    | cons b bs =>
      simp only [sideLoop, List.mem_cons] at h
      rcases h with rfl | h
      · exact ⟨b, bs.headD bf, t, ts.headD tf, rfl, by simp [nxt], by simp [nxt]⟩
      · obtain ⟨x, x', y, y', h1, h2, h3⟩ := ih bs vs h
        exact ⟨x, x', y, y', h1, by simp [nxt, h2], by simp [nxt, h3]⟩

theorem sideFaces_nodup {T B : List V} (hT : T.Nodup) (hB : B.Nodup) (h3 : 3 ≤ T.length) (hl : T.length = B.length)
    (hd : ∀ x ∈ T, x ∉ B) : ∀ vs ∈ sideFaces T B, vs.Nodup ∧ 3 ≤ vs.length := by
  intro vs hvs
  cases T with
  | nil => simp at h3
  | cons t0 ts =>
    cases B with
    | nil => simp at hl
    | cons b0 bs =>
      obtain ⟨b, b', t, t', rfl, h1, h2⟩ := sideLoop_mem t0 b0 _ _ vs hvs
      have h1 := (nxt_sides b0 bs).mem_iff.1 h1
      have h2 := (nxt_sides t0 ts).mem_iff.1 h2
      have n1 := next_ne hB (by omega) h1
      have n2 := next_ne hT h3 h2
      have m1 := mem_sides h1
      have m2 := mem_sides h2
      have d : ∀ x ∈ t0 :: ts, ∀ y ∈ b0 :: bs, y ≠ x := fun x hx y hy e => hd x hx (e ▸ hy)
      refine ⟨?_, by simp⟩
      simp [n1, Ne.symm n2, d t m2.1 b m1.1, d t m2.1 b' m1.2, d t' m2.2 b m1.1, d t' m2.2 b' m1.2]

theorem conicLoop_mem (p f : V) : ∀ (B : List V), ∀ vs ∈ conicLoop p f B,
    ∃ b b', vs = [b, p, b'] ∧ (b, b') ∈ nxt f B := by
  intro B
  induction B with
  | nil => intro vs h; simp [conicLoop] at h
  | cons b bs ih =>
    intro vs h
    simp only [conicLoop, List.mem_cons] at h
    rcases h with rfl | h
    · exact ⟨b, bs.headD f, rfl, by simp [nxt]⟩
    · obtain ⟨x, x', h1, h2⟩ := ih vs h
      exact ⟨x, x', h1, by simp [nxt, h2]⟩

theorem conicFaces_nodup {p : V} {B : List V} (hB : B.Nodup) (h3 : 3 ≤ B.length) (hp : p ∉ B) :
    ∀ vs ∈ conicFaces p B, vs.Nodup ∧ 3 ≤ vs.length := by
  intro vs hvs
  cases B with
  | nil => simp at h3
  | cons b0 bs =>
    obtain ⟨b, b', rfl, h1⟩ := conicLoop_mem p b0 _ vs hvs
    have h1 := (nxt_sides b0 bs).mem_iff.1 h1
    have n1 := next_ne hB h3 h1
    have m1 := mem_sides h1
    refine ⟨?_, by simp⟩
    have e1 : b ≠ p := fun e => hp (e ▸ m1.1)
    have e2 : p ≠ b' := fun e => hp (e ▸ m1.2)
    simp [n1, e1, e2]

theorem sideFaces_length {T B : List V} (h : T.length = B.length) : (sideFaces T B).length = T.length := by
  have key : ∀ (tf bf : V) (T B : List V), T.length = B.length → (sideLoop tf bf T B).length = T.length := by
    intro tf bf T
    induction T with
    | nil => intro B _; simp [sideLoop]
    | cons t ts ih =>
      intro B h
      cases B with
      | nil => simp at h
      | cons b bs => simp [sideLoop, ih bs (by simpa using h)]
  cases T with
  | nil => rfl
  | cons t ts =>
    cases B with
    | nil => simp at h
    | cons b bs => exact key t b _ _ h

theorem conicFaces_length (p : V) (B : List V) : (conicFaces p B).length = B.length := by
  have key : ∀ (f : V) (B : List V), (conicLoop p f B).length = B.length := by
    intro f B
    induction B with
    | nil => rfl
    | cons b bs ih => simp [conicLoop, ih]
  cases B with
  | nil => rfl
  | cons b bs => exact key b _

end Eus.Brp
