import Verif.Geo.Spec
import Mathlib.Tactic.Linarith
import Mathlib.Tactic.Ring
import Mathlib.Tactic.LinearCombination
import Mathlib.Tactic.FieldSimp
import Mathlib.Tactic.Positivity
import Mathlib.Data.Nat.Cast.Order.Ring
import Mathlib.Tactic.Tauto
set_option autoImplicit false
/- Polygons: proofs. -/
namespace Eus.Geo

section
variable {K : Type} [Field K]

theorem V3.add_zero' (a : V3 K) : a.add ⟨0, 0, 0⟩ = a := by ext <;> simp [V3.add]
theorem V3.zero_add' (a : V3 K) : V3.add ⟨0, 0, 0⟩ a = a := by ext <;> simp [V3.add]
theorem V3.add_assoc' (a b c : V3 K) : (a.add b).add c = a.add (b.add c) := by ext <;> simp only [V3.add] <;> ring
theorem V3.add_comm' (a b : V3 K) : a.add b = b.add a := by ext <;> simp only [V3.add] <;> ring

theorem triangle_eq (a b c n : V3 K) : triangle a b c n = n.dot (triArea a b c) := by
  simp only [triangle, triArea, V3.triple, V3.dot, V3.cross, V3.sub]; ring

theorem dot_add (n a b : V3 K) : n.dot (a.add b) = n.dot a + n.dot b := by simp only [V3.dot, V3.add]; ring

theorem V3.sum_append (l m : List (V3 K)) : V3.sum (l ++ m) = (V3.sum l).add (V3.sum m) := by
  induction l with
  | nil => simp [V3.sum, V3.zero_add']
  | cons a l ih => simp only [List.cons_append, V3.sum, ih, V3.add_assoc']

/-- Consecutive pairs of a chain. -/
def pairs : List (V3 K) → List (V3 K × V3 K)
  | a :: b :: vs => (a, b) :: pairs (b :: vs)
  | _ => []

theorem pairs_append (l : List (V3 K)) : ∀ (a x : V3 K) (m : List (V3 K)), pairs (a :: (l ++ x :: m)) = pairs (a :: (l ++ [x])) ++ pairs (x :: m) := by
  induction l with
  | nil => intro a x m; simp [pairs]
  | cons b l ih => intro a x m; simp only [List.cons_append, pairs]; rw [ih b x m]

/-- The sides are the pairs of the chain that comes back to its first vertex. -/
theorem sides_eq (v : V3 K) (vs : List (V3 K)) : sides (v :: vs) = pairs (v :: (vs ++ [v])) := by
  unfold sides
  suffices h : ∀ (vs : List (V3 K)) (a w : V3 K), (a :: vs).zip (vs ++ [w]) = pairs (a :: (vs ++ [w])) from h vs v v
  intro vs
  induction vs with
  | nil => intro a w; simp [pairs]
  | cons b vs ih => intro a w; simp only [List.cons_append, List.zip_cons_cons, pairs]; rw [ih b w]

/-- The pairs of the slot vertices: the last side comes first. -/
theorem closed_pairs (v : V3 K) (vs : List (V3 K)) : ∃ l1 s, sides (v :: vs) = l1 ++ [s] ∧ pairs (closed v vs) = s :: l1 := by
  rw [sides_eq]
  have hsplit : ∃ l x, v :: vs = l ++ [x] := ⟨(v :: vs).dropLast, (v :: vs).getLast (by simp), (List.dropLast_append_getLast (by simp)).symm⟩
  obtain ⟨l, x, hl⟩ := hsplit
  have hlast : (v :: vs).getLast (by simp) = x := by simp [hl]
  have hc : pairs (closed v vs) = (x, v) :: pairs (v :: vs) := by
    unfold closed; rw [hlast]; rfl
  cases l with
  | nil =>
    simp at hl
    obtain ⟨rfl, rfl⟩ := hl
    exact ⟨[], (v, v), by simp [pairs], by rw [hc]; simp [pairs]⟩
  | cons a l =>
    simp only [List.cons_append, List.cons.injEq] at hl
    obtain ⟨rfl, rfl⟩ := hl
    refine ⟨pairs (v :: (l ++ [x])), (x, v), ?_, by rw [hc]⟩
    rw [List.append_assoc, List.singleton_append, pairs_append]
    rfl

theorem areaLoop_eq (c n : V3 K) : ∀ (vs : List (V3 K)) (s : K),
    areaLoop c n vs s = s + ((pairs vs).map fun p => n.dot (triArea p.1 p.2 c)).sum := by
  intro vs
  induction vs with
  | nil => intro s; simp [areaLoop, pairs]
  | cons a vs ih =>
    cases vs with
    | nil => intro s; simp [areaLoop, pairs]
    | cons b vs =>
      intro s
      simp only [areaLoop, pairs, List.map_cons, List.sum_cons]
      rw [ih, triangle_eq]; ring

theorem chain_tele (c n : V3 K) : ∀ (vs : List (V3 K)) (a w : V3 K),
    ((pairs (a :: (vs ++ [w]))).map fun p => n.dot (triArea p.1 p.2 c)).sum =
      n.dot (V3.sum ((pairs (a :: (vs ++ [w]))).map fun p => p.1.cross p.2)) + n.dot (w.cross c) - n.dot (a.cross c) := by
  intro vs
  induction vs with
  | nil =>
    intro a w
    simp only [List.nil_append, pairs, List.map_cons, List.map_nil, List.sum_cons, List.sum_nil, V3.sum, triArea, V3.dot, V3.cross, V3.sub, V3.add]
    ring
  | cons b vs ih =>
    intro a w
    simp only [List.cons_append, pairs, List.map_cons, List.sum_cons, V3.sum, dot_add]
    rw [ih b w]
    simp only [triArea, V3.dot, V3.cross, V3.sub]
    ring

theorem fanArea_eq (o n : V3 K) (poly : List (V3 K)) : fanArea o n poly = n.dot (vectorArea poly) := by
  cases poly with
  | nil => simp [fanArea, vectorArea, sides, V3.sum, V3.dot]
  | cons v vs =>
    unfold fanArea vectorArea
    rw [sides_eq, chain_tele]
    ring

theorem closed_sum (f : V3 K × V3 K → K) (v : V3 K) (vs : List (V3 K)) : ((pairs (closed v vs)).map f).sum = ((sides (v :: vs)).map f).sum := by
  obtain ⟨l1, s, h1, h2⟩ := closed_pairs v vs
  rw [h1, h2]
  simp only [List.map_cons, List.sum_cons, List.map_append, List.sum_append, List.map_nil, List.sum_nil]
  ring

theorem closed_sumV (f : V3 K × V3 K → V3 K) (v : V3 K) (vs : List (V3 K)) : V3.sum ((pairs (closed v vs)).map f) = V3.sum ((sides (v :: vs)).map f) := by
  obtain ⟨l1, s, h1, h2⟩ := closed_pairs v vs
  rw [h1, h2]
  simp only [List.map_cons, List.map_append, V3.sum_append, V3.sum, List.map_nil, V3.add_zero']
  exact V3.add_comm' _ _

variable [LinearOrder K] [IsStrictOrderedRing K]

theorem area_eq (v : V3 K) (vs : List (V3 K)) (n : V3 K) : area (closed v vs) n = n.dot (vectorArea (v :: vs)) / 2 := by
  unfold area
  rw [areaLoop_eq, zero_add, closed_sum, ← fanArea_eq (vectorMean (closed v vs))]
  rfl

theorem faceNormal_eq (v : V3 K) (vs : List (V3 K)) : faceNormal0 (v :: vs) = some (vectorArea (v :: vs)) := by
  unfold faceNormal0 vectorArea
  rw [sides_eq]
  suffices h : ∀ (vs : List (V3 K)) (a w acc : V3 K), newell a vs w acc = (V3.sum ((pairs (a :: (vs ++ [w]))).map fun p => p.1.cross p.2)).add acc by
    simp only [h, V3.add_zero']
  intro vs
  induction vs with
  | nil => intro a w acc; simp only [newell, List.nil_append, pairs, List.map_cons, List.map_nil, V3.sum, V3.add_zero']
  | cons b vs ih =>
    intro a w acc
    simp only [newell, List.cons_append, pairs, List.map_cons, V3.sum]
    rw [ih, V3.add_assoc', V3.add_comm' (a.cross b) acc, V3.add_comm' (a.cross b), V3.add_assoc', V3.add_comm' acc]

/-! ### Centre of gravity -/

theorem centroidLoop_eq (c n : V3 K) : ∀ (vs : List (V3 K)) (t : K) (g : V3 K),
    centroidLoop c n vs (t, g) = (t + ((pairs vs).map fun p => n.dot (triArea p.1 p.2 c)).sum,
      g.add (V3.sum ((pairs vs).map fun p => V3.scale (n.dot (triArea p.1 p.2 c)) (V3.scale (1 / 3) (c.add (p.1.add p.2)))))) := by
  intro vs
  induction vs with
  | nil => intro t g; simp [centroidLoop, pairs, V3.sum, V3.add_zero']
  | cons a vs ih =>
    cases vs with
    | nil => intro t g; simp [centroidLoop, pairs, V3.sum, V3.add_zero']
    | cons b vs =>
      intro t g
      simp only [centroidLoop, pairs, List.map_cons, List.sum_cons, V3.sum]
      rw [ih, triangle_eq]
      congr 1
      · ring
      · rw [V3.add_assoc']
        congr 2
        ext <;> simp only [V3.scale] <;> ring

/-- Moving the common point of two triangles on the plane. -/
theorem moment_step (a b c o n : V3 K) (ha : n.dot (a.sub o) = 0) (hb : n.dot (b.sub o) = 0) (hc : n.dot (c.sub o) = 0) :
    V3.scale (n.dot (triArea a b c)) (V3.scale (1 / 3) (c.add (a.add b))) =
      (V3.scale (n.dot (triArea a b o)) (V3.scale (1 / 3) (o.add (a.add b)))).add
        ((V3.scale (n.dot (triArea b c o)) (V3.scale (1 / 3) (o.add (b.add c)))).sub
          (V3.scale (n.dot (triArea a c o)) (V3.scale (1 / 3) (o.add (a.add c))))) := by
  simp only [V3.dot, V3.sub] at ha hb hc
  ext <;> simp only [V3.scale, V3.add, V3.sub, V3.dot, triArea, V3.cross]
  · linear_combination (1/3 : K) * ((b.y - o.y) * (c.z - o.z) - (b.z - o.z) * (c.y - o.y)) * ha - (1/3 : K) * ((a.y - o.y) * (c.z - o.z) - (a.z - o.z) * (c.y - o.y)) * hb + (1/3 : K) * ((a.y - o.y) * (b.z - o.z) - (a.z - o.z) * (b.y - o.y)) * hc
  · linear_combination (1/3 : K) * ((b.z - o.z) * (c.x - o.x) - (b.x - o.x) * (c.z - o.z)) * ha - (1/3 : K) * ((a.z - o.z) * (c.x - o.x) - (a.x - o.x) * (c.z - o.z)) * hb + (1/3 : K) * ((a.z - o.z) * (b.x - o.x) - (a.x - o.x) * (b.z - o.z)) * hc
  · linear_combination (1/3 : K) * ((b.x - o.x) * (c.y - o.y) - (b.y - o.y) * (c.x - o.x)) * ha - (1/3 : K) * ((a.x - o.x) * (c.y - o.y) - (a.y - o.y) * (c.x - o.x)) * hb + (1/3 : K) * ((a.x - o.x) * (b.y - o.y) - (a.y - o.y) * (b.x - o.x)) * hc

theorem moment_tele (c o n : V3 K) (hc : n.dot (c.sub o) = 0) : ∀ (vs : List (V3 K)) (a w : V3 K),
    (∀ p ∈ a :: (vs ++ [w]), n.dot (p.sub o) = 0) →
    V3.sum ((pairs (a :: (vs ++ [w]))).map fun s => V3.scale (n.dot (triArea s.1 s.2 c)) (V3.scale (1 / 3) (c.add (s.1.add s.2)))) =
      (V3.sum ((pairs (a :: (vs ++ [w]))).map fun s => V3.scale (n.dot (triArea s.1 s.2 o)) (V3.scale (1 / 3) (o.add (s.1.add s.2))))).add
        ((V3.scale (n.dot (triArea w c o)) (V3.scale (1 / 3) (o.add (w.add c)))).sub
          (V3.scale (n.dot (triArea a c o)) (V3.scale (1 / 3) (o.add (a.add c))))) := by
  intro vs
  induction vs with
  | nil =>
    intro a w h
    simp only [List.nil_append, pairs, List.map_cons, List.map_nil, V3.sum, V3.add_zero']
    exact moment_step a w c o n (h a (by simp)) (h w (by simp)) hc
  | cons b vs ih =>
    intro a w h
    simp only [List.cons_append, pairs, List.map_cons, V3.sum]
    rw [ih b w (fun p hp => h p (by simp only [List.cons_append, List.mem_cons] at hp ⊢; tauto)), moment_step a b c o n (h a (by simp)) (h b (by simp)) hc]
    ext <;> simp only [V3.add, V3.sub] <;> ring

theorem fanMoment_eq (c o n : V3 K) (poly : List (V3 K)) (hc : n.dot (c.sub o) = 0) (h : ∀ p ∈ poly, n.dot (p.sub o) = 0) :
    fanMoment c n poly = fanMoment o n poly := by
  cases poly with
  | nil => simp [fanMoment, sides, V3.sum]
  | cons v vs =>
    unfold fanMoment
    rw [sides_eq, moment_tele c o n hc vs v v]
    · ext <;> simp only [V3.add, V3.sub] <;> ring
    · intro p hp
      apply h
      simp only [List.mem_cons, List.mem_append, List.not_mem_nil, or_false] at hp ⊢
      tauto

theorem vplus_dot (n : V3 K) (k : K) (vs : List (V3 K)) : ∀ r : V3 K, (∀ v ∈ vs, n.dot v = k) →
    n.dot (vs.foldl (fun r v => v.add r) r) = n.dot r + vs.length * k := by
  induction vs with
  | nil => intro r _; simp
  | cons a vs ih =>
    intro r h
    rw [List.foldl_cons, ih _ (fun v hv => h v (by simp [hv])), dot_add, h a (by simp)]
    push_cast [List.length_cons]; ring

theorem mean_dot (n : V3 K) (k : K) (vs : List (V3 K)) (hne : vs ≠ []) (h : ∀ v ∈ vs, n.dot v = k) : n.dot (vectorMean vs) = k := by
  unfold vectorMean vplus
  have hs : ∀ (s : K) (a : V3 K), n.dot (V3.scale s a) = s * n.dot a := by intro s a; simp only [V3.dot, V3.scale]; ring
  rw [hs, vplus_dot n k vs _ h]
  have hl : (vs.length : K) ≠ 0 := by
    have := List.length_pos_iff.2 hne
    positivity
  have h0 : n.dot ⟨0, 0, 0⟩ = 0 := by simp [V3.dot]
  rw [h0]
  field_simp
  ring

theorem mem_closed (v : V3 K) (vs : List (V3 K)) {p : V3 K} (hp : p ∈ closed v vs) : p ∈ v :: vs := by
  unfold closed at hp
  rcases List.mem_cons.1 hp with rfl | hp
  · exact List.getLast_mem _
  · exact hp

theorem dot_sub (n a b : V3 K) : n.dot (a.sub b) = n.dot a - n.dot b := by simp only [V3.dot, V3.sub]; ring

theorem centroid_spec (v : V3 K) (vs : List (V3 K)) (n o : V3 K) (hplane : ∀ p ∈ v :: vs, n.dot p = n.dot o) (A : K) (g : V3 K)
    (h : centroid (closed v vs) n = some (A, g)) :
    A = area (closed v vs) n ∧ A ≠ 0 ∧ fanArea o n (v :: vs) = 2 * A ∧ fanMoment o n (v :: vs) = V3.scale (2 * A) g := by
  unfold centroid at h
  rw [centroidLoop_eq, closed_sum, closed_sumV, zero_add, V3.zero_add'] at h
  simp only at h
  have hA : ((sides (v :: vs)).map fun p => n.dot (triArea p.1 p.2 (vectorMean (closed v vs)))).sum = n.dot (vectorArea (v :: vs)) := fanArea_eq _ _ _
  have hM : V3.sum ((sides (v :: vs)).map fun s => V3.scale (n.dot (triArea s.1 s.2 (vectorMean (closed v vs)))) (V3.scale (1 / 3) ((vectorMean (closed v vs)).add (s.1.add s.2)))) = fanMoment o n (v :: vs) := by
    refine fanMoment_eq (vectorMean (closed v vs)) o n (v :: vs) ?_ ?_
    · rw [dot_sub, mean_dot n (n.dot o) (closed v vs) (by simp [closed]) (fun p hp => hplane p (mem_closed v vs hp)), sub_self]
    · intro p hp; rw [dot_sub, hplane p hp, sub_self]
  rw [hA, hM] at h
  split at h
  · cases h
  · rename_i hne
    simp only [Option.some.injEq, Prod.mk.injEq] at h
    obtain ⟨rfl, rfl⟩ := h
    refine ⟨(area_eq v vs n).symm, by simpa using hne, ?_, ?_⟩
    · rw [fanArea_eq]; ring
    · have : (2 : K) * (n.dot (vectorArea (v :: vs)) / 2) = n.dot (vectorArea (v :: vs)) := by ring
      rw [this]
      ext <;> simp only [V3.scale] <;> field_simp

/-! ### Concave vertices -/

theorem eliminate_spec (n : V3 K) : ∀ (k : Nat) (vs : List (V3 K)), k > vs.length →
    ∃ l f, eliminate n k vs = some (l, f) ∧ NoRightTurn n l ∧ l.Sublist vs ∧ l.head? = vs.head? ∧ l.getLast? = vs.getLast? ∧
      (f = false → l.tail.head? = vs.tail.head?) ∧ (f = true → l.length < vs.length) ∧ (NoRightTurn n vs → l = vs) := by
  intro k
  induction k with
  | zero => intro vs h; exact absurd h (by omega)
  | succ k ih =>
    intro vs hk
    match vs, hk with
    | [], _ => exact ⟨[], false, rfl, trivial, List.Sublist.refl _, rfl, rfl, fun _ => rfl, fun h => by simp at h, fun _ => rfl⟩
    | [a], _ => exact ⟨[a], false, rfl, trivial, List.Sublist.refl _, rfl, rfl, fun _ => rfl, fun h => by simp at h, fun _ => rfl⟩
    | [a, b], _ => exact ⟨[a, b], false, rfl, trivial, List.Sublist.refl _, rfl, rfl, fun _ => rfl, fun h => by simp at h, fun _ => rfl⟩
    | a :: b :: c :: vs, hk =>
      simp only [List.length_cons] at hk
      unfold eliminate
      by_cases ht : triangle a b c n < 0
      · rw [if_pos ht]
        obtain ⟨l, f, he, hn, hs, hh, hl, _, _, hid⟩ := ih (a :: c :: vs) (by simp only [List.length_cons]; omega)
        rw [he]
        refine ⟨l, true, rfl, hn, hs.trans ?_, hh, ?_, fun h => by simp at h, fun _ => ?_, fun hno => ?_⟩
        · exact List.Sublist.cons_cons a (List.sublist_cons_self b (c :: vs))
        · rw [hl]; simp [List.getLast?_cons_cons]
        · have := hs.length_le; simp only [List.length_cons] at this ⊢; omega
        · rw [triangle_eq] at ht; exact absurd hno.1 (not_le.2 ht)
      · rw [if_neg ht]
        obtain ⟨l, f, he, hn, hs, hh, hl, hsec, hlen, hid⟩ := ih (b :: c :: vs) (by simp only [List.length_cons]; omega)
        rw [he]
        have hnot : 0 ≤ n.dot (triArea a b c) := by rw [← triangle_eq]; exact not_lt.1 ht
        obtain ⟨l', rfl⟩ : ∃ l', l = b :: l' := by
          cases l with
          | nil => simp at hh
          | cons x l' => simp at hh; exact ⟨l', by rw [hh]⟩
        cases f with
        | true =>
          have hlen' := hlen rfl
          simp only [List.length_cons] at hlen'
          obtain ⟨m, g, he2, hn2, hs2, hh2, hl2, hsec2, hlen2, hid2⟩ := ih (a :: b :: l') (by simp only [List.length_cons]; omega)
          refine ⟨m, g, he2, hn2, hs2.trans (List.Sublist.cons_cons a hs), hh2, ?_, fun hg => ?_, fun hg => ?_, fun hno => ?_⟩
          · rw [hl2, List.getLast?_cons_cons, hl]; simp [List.getLast?_cons_cons]
          · rw [hsec2 hg]; rfl
          · have := hlen2 hg; simp only [List.length_cons] at this ⊢; omega
          · have := hid hno.2
            rw [← this] at hlen
            exact absurd (hlen rfl) (lt_irrefl _)
        | false =>
          have hs2 := hsec rfl
          obtain ⟨l'', rfl⟩ : ∃ l'', l' = c :: l'' := by
            cases l' with
            | nil => simp at hs2
            | cons x l'' => simp at hs2; exact ⟨l'', by rw [hs2]⟩
          refine ⟨_, false, rfl, ⟨hnot, hn⟩, List.Sublist.cons_cons a hs, rfl, ?_, fun _ => rfl, fun h => by simp at h, fun hno => ?_⟩
          · rw [List.getLast?_cons_cons, hl]; simp [List.getLast?_cons_cons]
          · rw [hid hno.2]

theorem convexLoop_iff (n : V3 K) : ∀ vs : List (V3 K), convexLoop n vs = true ↔ NoRightTurn n vs := by
  intro vs
  match vs with
  | [] => simp [convexLoop, NoRightTurn]
  | [a] => simp [convexLoop, NoRightTurn]
  | [a, b] => simp [convexLoop, NoRightTurn]
  | a :: b :: c :: vs =>
    simp only [convexLoop, NoRightTurn]
    rw [triangle_eq, ← convexLoop_iff n (b :: c :: vs)]
    split
    · rename_i h; simp [h]
    · rename_i h; simp [not_lt.1 h]

end

end Eus.Geo
