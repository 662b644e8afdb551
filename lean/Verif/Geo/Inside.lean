import Verif.Geo.Dist
set_option autoImplicit false
/- Convex polygons, volumes: proofs. -/
namespace Eus.Geo

theorem mem_pairs_closed {K : Type} [Field K] (v : V3 K) (vs : List (V3 K)) (s : V3 K × V3 K) : s ∈ pairs (closed v vs) ↔ s ∈ sides (v :: vs) := by
  obtain ⟨l1, x, e1, e2⟩ := closed_pairs v vs
  rw [e1, e2]
  simp only [List.mem_cons, List.mem_append, List.not_mem_nil, or_false]
  exact or_comm

/-! ### :insidep -/

/-- What the loop says of one side. -/
theorem insideLoop_spec (n : V3 ℝ) (eps : ℝ) (p : V3 ℝ) : ∀ (vs : List (V3 ℝ)) (v : V3 ℝ),
    (insideLoop n eps p v vs = .border → ∃ s ∈ pairs (v :: vs), s.1 ≠ s.2 ∧ |n.dot (triArea s.1 s.2 p) / dist s.1 s.2| < eps ∧
      ∃ t, t * (s.2.sub s.1).dot (s.2.sub s.1) = (s.2.sub s.1).dot (p.sub s.1) ∧ -eps ≤ t ∧ t ≤ 1 + eps) ∧
    (insideLoop n eps p v vs = .outside → ∃ s ∈ pairs (v :: vs), n.dot (triArea s.1 s.2 p) < 0 ∧ (s.1 ≠ s.2 → n.dot (triArea s.1 s.2 p) / dist s.1 s.2 ≤ -eps)) ∧
    (insideLoop n eps p v vs = .inside → ∀ s ∈ pairs (v :: vs), s.1 ≠ s.2 → -eps < n.dot (triArea s.1 s.2 p) / dist s.1 s.2 ∨ 0 ≤ n.dot (triArea s.1 s.2 p)) := by
  intro vs
  induction vs with
  | nil => intro v; simp [insideLoop, pairs]
  | cons w vs ih =>
    intro v
    have hd : dist v w ≠ 0 ↔ v ≠ w := by
      constructor
      · rintro h rfl; exact h (dist_self' _)
      · intro h h0
        have := dir_ne h
        rw [dist_comm', dist, Real.sqrt_eq_zero (dot_self_nonneg _)] at h0
        exact this.ne' h0
    have hdn : 0 ≤ dist v w := dist_nonneg' _ _
    obtain ⟨i1, i2, i3⟩ := ih w
    rw [insideLoop]
    simp only [triangle_eq, pairs]
    have lift : ∀ {P : V3 ℝ × V3 ℝ → Prop}, (∃ s ∈ pairs (w :: vs), P s) → ∃ s ∈ (v, w) :: pairs (w :: vs), P s :=
      fun ⟨s, h1, h2⟩ => ⟨s, List.mem_cons_of_mem _ h1, h2⟩
    by_cases h1 : dist v w ≠ 0 ∧ epsEq (n.dot (triArea v w p) / dist v w) 0 eps = true
    · rw [if_pos h1]
      have hvw := hd.1 h1.1
      have habs : |n.dot (triArea v w p) / dist v w| < eps := by
        have := h1.2
        simp only [epsEq, sub_zero, decide_eq_true_eq] at this
        exact this
      by_cases h2 : epsInRange 0 ((w.sub v).dot (p.sub v) / (w.sub v).dot (w.sub v)) 1 eps = true
      · rw [if_pos h2]
        refine ⟨fun _ => ⟨(v, w), List.mem_cons_self, hvw, habs, _, div_mul_cancel₀ _ (dir_ne hvw).ne', ?_⟩, fun h => (by cases h), fun h => (by cases h)⟩
        simp only [epsInRange, Bool.and_eq_true, decide_eq_true_eq, zero_sub] at h2
        exact h2
      · rw [if_neg h2]
        refine ⟨fun h => lift (i1 h), fun h => lift (i2 h), fun h s hs hne => ?_⟩
        rcases List.mem_cons.1 hs with rfl | hs
        · exact Or.inl (neg_lt_of_abs_lt habs)
        · exact i3 h s hs hne
    · rw [if_neg h1]
      by_cases h2 : n.dot (triArea v w p) < 0
      · rw [if_pos h2]
        refine ⟨fun h => (by cases h), fun _ => ⟨(v, w), List.mem_cons_self, h2, fun hne => ?_⟩, fun h => (by cases h)⟩
        by_contra hc
        apply h1
        refine ⟨hd.2 hne, ?_⟩
        simp only [epsEq, sub_zero, decide_eq_true_eq]
        rw [abs_lt]
        refine ⟨not_le.1 hc, ?_⟩
        have : n.dot (triArea v w p) / dist v w < 0 := div_neg_of_neg_of_pos h2 (lt_of_le_of_ne hdn (Ne.symm (hd.2 hne)))
        have := not_le.1 hc
        simp only at this
        linarith
      · rw [if_neg h2]
        refine ⟨fun h => lift (i1 h), fun h => lift (i2 h), fun h s hs hne => ?_⟩
        rcases List.mem_cons.1 hs with rfl | hs
        · exact Or.inr (not_lt.1 h2)
        · exact i3 h s hs hne

theorem triArea_at {K : Type} [Field K] (n a b p q : V3 K) (t : K) :
    n.dot (triArea a b (at3 p q t)) = (1 - t) * n.dot (triArea a b p) + t * n.dot (triArea a b q) := by
  simp only [triArea, V3.dot, V3.sub, V3.cross, at3]; ring

theorem hull_left {K : Type} [Field K] [LinearOrder K] [IsStrictOrderedRing K] (n : V3 K) (poly : List (V3 K)) (hc : Convex n poly) {p : V3 K} (hp : Hull poly p) :
    ∀ s ∈ sides poly, 0 ≤ n.dot (triArea s.1 s.2 p) := by
  induction hp with
  | vertex h => intro s hs; exact hc s hs _ h
  | between h1 h2 h0 h1' ih1 ih2 =>
    intro s hs
    rw [triArea_at]
    exact add_nonneg (mul_nonneg (sub_nonneg.2 h1') (ih1 s hs)) (mul_nonneg h0 (ih2 s hs))

/-- Turns of a convex polygon. -/
theorem convex_turns {K : Type} [Field K] [LinearOrder K] [IsStrictOrderedRing K] (n : V3 K) (v : V3 K) (vs : List (V3 K)) (hc : Convex n (v :: vs)) :
    convexp (closed v vs) n = true := by
  unfold convexp
  rw [convexLoop_iff]
  have key : ∀ (l : List (V3 K)), (∀ s ∈ pairs l, ∀ p ∈ l, 0 ≤ n.dot (triArea s.1 s.2 p)) → NoRightTurn n l := by
    intro l
    induction l with
    | nil => intro _; trivial
    | cons a l ih =>
      intro h
      cases l with
      | nil => trivial
      | cons b l =>
        cases l with
        | nil => trivial
        | cons c l =>
          refine ⟨h (a, b) (by simp [pairs]) c (by simp), ih fun s hs p hp => h s ?_ p (List.mem_cons_of_mem _ hp)⟩
          rw [pairs]; exact List.mem_cons_of_mem _ hs
  apply key
  intro s hs p hp
  have hs' : s ∈ sides (v :: vs) := by
    cases hl : vs with
    | nil =>
      subst hl
      simp [closed, pairs] at hs
      simpa [sides] using hs
    | cons w ws =>
      rw [← hl]
      have e : closed v vs ++ (closed v vs).tail.head?.toList = (v :: vs).getLast (by simp) :: ((v :: vs) ++ [v]) := by simp [closed]
      rw [e] at hs
      have e2 : pairs ((v :: vs).getLast (by simp) :: ((v :: vs) ++ [v])) = ((v :: vs).getLast (by simp), v) :: sides (v :: vs) := by
        rw [sides_eq]; simp [pairs]
      rw [e2] at hs
      rcases List.mem_cons.1 hs with rfl | hs
      · rw [← mem_pairs_closed]; simp [closed, pairs]
      · exact hs
  refine hc s hs' p ?_
  rcases List.mem_append.1 hp with hp | hp
  · exact mem_closed v vs hp
  · simp [closed] at hp; rw [hp]; exact List.mem_cons_self

/-! ### Volume of a pyramid -/

section
variable {K : Type} [Field K]

theorem cross_par (n u w : V3 K) (hn : n.dot n = 1) (hu : n.dot u = 0) (hw : n.dot w = 0) : u.cross w = V3.scale (n.dot (u.cross w)) n := by
  simp only [V3.dot] at hn hu hw
  ext <;> simp only [V3.cross, V3.scale, V3.dot]
  · linear_combination (-(u.y * w.z - u.z * w.y)) * hn - (n.z * w.y - n.y * w.z) * hu - (n.y * u.z - n.z * u.y) * hw
  · linear_combination (-(u.z * w.x - u.x * w.z)) * hn - (n.x * w.z - n.z * w.x) * hu - (n.z * u.x - n.x * u.z) * hw
  · linear_combination (-(u.x * w.y - u.y * w.x)) * hn - (n.y * w.x - n.x * w.y) * hu - (n.x * u.y - n.y * u.x) * hw

theorem scale_sum (n : V3 K) (l : List (V3 K × V3 K)) (f : V3 K × V3 K → V3 K) (h : ∀ s ∈ l, f s = V3.scale (n.dot (f s)) n) :
    V3.sum (l.map f) = V3.scale (n.dot (V3.sum (l.map f))) n := by
  induction l with
  | nil => ext <;> simp [V3.sum, V3.scale, V3.dot]
  | cons s l ih =>
    have h1 := h s List.mem_cons_self
    have h2 := ih fun t ht => h t (List.mem_cons_of_mem _ ht)
    simp only [List.map_cons, V3.sum]
    generalize f s = a at *
    generalize V3.sum (l.map f) = b at *
    have hx := congrArg V3.x h1; have hy := congrArg V3.y h1; have hz := congrArg V3.z h1
    have gx := congrArg V3.x h2; have gy := congrArg V3.y h2; have gz := congrArg V3.z h2
    simp only [V3.scale, V3.dot] at hx hy hz gx gy gz
    ext <;> simp only [V3.add, V3.scale, V3.dot]
    · linear_combination hx + gx
    · linear_combination hy + gy
    · linear_combination hz + gz

/-- The vector area seen from any point. -/
theorem chain_cross (o : V3 K) : ∀ (vs : List (V3 K)) (a w : V3 K),
    V3.sum ((pairs (a :: (vs ++ [w]))).map fun p => (p.1.sub o).cross (p.2.sub o)) =
      (V3.sum ((pairs (a :: (vs ++ [w]))).map fun p => p.1.cross p.2)).add ((o.cross a).sub (o.cross w)) := by
  intro vs
  induction vs with
  | nil =>
    intro a w
    ext <;> simp only [List.nil_append, pairs, List.map_cons, List.map_nil, V3.sum, V3.add, V3.sub, V3.cross] <;> ring
  | cons b vs ih =>
    intro a w
    have := ih b w
    simp only [List.cons_append, pairs, List.map_cons, V3.sum]
    rw [this]
    generalize V3.sum ((pairs (b :: (vs ++ [w]))).map fun p => p.1.cross p.2) = S
    ext <;> simp only [V3.add, V3.sub, V3.cross] <;> ring

theorem vectorArea_from (o v : V3 K) (vs : List (V3 K)) :
    V3.sum ((sides (v :: vs)).map fun p => (p.1.sub o).cross (p.2.sub o)) = vectorArea (v :: vs) := by
  unfold vectorArea
  rw [sides_eq, chain_cross]
  ext <;> simp only [V3.add, V3.sub, V3.cross] <;> ring

theorem vectorArea_par (n o v : V3 K) (vs : List (V3 K)) (hn : n.dot n = 1) (h : ∀ p ∈ v :: vs, n.dot (p.sub o) = 0) :
    vectorArea (v :: vs) = V3.scale (n.dot (vectorArea (v :: vs))) n := by
  rw [← vectorArea_from o]
  apply scale_sum n
  intro s hs
  have hm : s.1 ∈ v :: vs ∧ s.2 ∈ v :: vs := by
    simp only [sides] at hs
    have h1 := List.of_mem_zip hs
    refine ⟨h1.1, ?_⟩
    rcases List.mem_append.1 h1.2 with h | h
    · exact List.mem_cons_of_mem _ h
    · rw [List.mem_singleton.1 h]; exact List.mem_cons_self
  exact cross_par n _ _ hn (h _ hm.1) (h _ hm.2)

/-- Cutting a polygon along a diagonal. -/
theorem vectorArea_cut (v w : V3 K) (vs ws : List (V3 K)) :
    vectorArea (v :: (vs ++ w :: ws)) = (vectorArea (v :: (vs ++ [w]))).add (vectorArea (v :: w :: ws)) := by
  unfold vectorArea
  rw [sides_eq, sides_eq, sides_eq]
  have e1 : v :: (vs ++ w :: ws ++ [v]) = v :: (vs ++ w :: (ws ++ [v])) := by simp
  have e2 : v :: (vs ++ [w] ++ [v]) = v :: (vs ++ w :: [v]) := by simp
  rw [e1, e2, pairs_append vs v w (ws ++ [v]), pairs_append vs v w [v]]
  simp only [List.cons_append, pairs, List.map_append, V3.sum_append, List.map_cons, List.map_nil, V3.sum]
  generalize V3.sum ((pairs (v :: (vs ++ [w]))).map fun p => p.1.cross p.2) = S
  generalize V3.sum ((pairs (w :: (ws ++ [v]))).map fun p => p.1.cross p.2) = T
  ext <;> simp only [V3.add, V3.cross] <;> ring

end

end Eus.Geo
