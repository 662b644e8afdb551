import Verif.Hul.Spec
import Mathlib.Tactic.Ring
import Mathlib.Tactic.Linarith
import Mathlib.Tactic.LinearCombination
set_option autoImplicit false
namespace Eus.Hul

variable {K : Type} [CommRing K] [LinearOrder K] [IsStrictOrderedRing K]

/-! ### extremes -/

theorem findExtream_mem (key : Pt K → K) (test : K → K → Bool) : ∀ (s : List (Pt K)) (v : Pt K),
    findExtream key test v s ∈ v :: s := by
  intro s
  induction s with
  | nil => intro v; simp [findExtream]
  | cons w s ih =>
    intro v
    simp only [findExtream]
    have := ih (if test (key w) (key v) then w else v)
    rcases List.mem_cons.1 this with h | h
    · rw [h]; split <;> simp
    · simp [h]

/-- With a test that is a total order (or its strict part) the extreme one is found. -/
theorem findExtream_le (key : Pt K → K) (test : K → K → Bool) (le : K → K → Prop)
    (htr : ∀ a b c, le a b → le b c → le a c) (hrf : ∀ a, le a a)
    (ht : ∀ a b, test a b = true → le b a) (hf : ∀ a b, test a b = false → le a b) :
    ∀ (s : List (Pt K)) (v : Pt K), ∀ p ∈ v :: s, le (key p) (key (findExtream key test v s)) := by
  intro s
  induction s with
  | nil => intro v p hp; simp at hp; subst hp; exact hrf _
  | cons w s ih =>
    intro v p hp
    simp only [findExtream]
    have h0 := ih (if test (key w) (key v) then w else v)
    have hmid : le (key v) (key (if test (key w) (key v) then w else v)) ∧
        le (key w) (key (if test (key w) (key v) then w else v)) := by
      cases e : test (key w) (key v) with
      | true => simp only [if_true]; exact ⟨ht _ _ e, hrf _⟩
      | false => simp only [Bool.false_eq_true, if_false]; exact ⟨hrf _, hf _ _ e⟩
    have hx := h0 _ (List.mem_cons_self)
    rcases List.mem_cons.1 hp with rfl | hp
    · exact htr _ _ _ hmid.1 hx
    · rcases List.mem_cons.1 hp with rfl | hp
      · exact htr _ _ _ hmid.2 hx
      · exact h0 p (List.mem_cons_of_mem _ hp)

theorem leftmost_max (v : Pt K) (s : List (Pt K)) (l r : Pt K) :
    leftmost v s l r ∈ v :: s ∧ ∀ p ∈ v :: s, tri p l r ≤ tri (leftmost v s l r) l r := by
  refine ⟨findExtream_mem _ _ s v, ?_⟩
  exact findExtream_le (fun x => tri x l r) _ (fun a b => a ≤ b) (fun _ _ _ => le_trans) le_refl
    (fun a b h => le_of_lt (of_decide_eq_true h)) (fun a b h => not_lt.1 (of_decide_eq_false h)) s v

theorem findExtream_neg (key key' : Pt K → K) (h : ∀ p, key' p = -key p) : ∀ (s : List (Pt K)) (v : Pt K),
    findExtream key (fun a b => decide (a < b)) v s = findExtream key' (fun a b => decide (b < a)) v s := by
  intro s
  induction s with
  | nil => intro v; rfl
  | cons w s ih =>
    intro v
    simp only [findExtream]
    have : (if decide (key w < key v) = true then w else v) = if decide (key' v < key' w) = true then w else v := by
      have : decide (key w < key v) = decide (key' v < key' w) := by
        rw [h, h]; apply decide_eq_decide.2; exact neg_lt_neg_iff.symm
      rw [this]
    exact (congrArg (fun z => findExtream key (fun a b => decide (a < b)) z s) this).trans (ih _)

theorem tri_swap (a b c : Pt K) : tri a c b = -tri a b c := by unfold tri; ring
theorem tri_rot (a b c : Pt K) : tri b c a = tri a b c := by unfold tri; ring

/-- The right side is the left side of the way back. -/
theorem rightmost_eq (v : Pt K) (s : List (Pt K)) (l r : Pt K) : rightmost v s l r = leftmost v s r l :=
  findExtream_neg _ _ (fun p => tri_swap p l r) s v

theorem rightPoints_eq (s : List (Pt K)) (l r : Pt K) : rightPoints s l r = leftPoints s r l := by
  unfold rightPoints leftPoints
  congr 1; funext p
  apply decide_eq_decide.2
  have : tri r p l = -tri l p r := by unfold tri; ring
  rw [this]; exact neg_neg_iff_pos.symm

theorem mem_leftPoints (s : List (Pt K)) (l r p : Pt K) : p ∈ leftPoints s l r ↔ p ∈ s ∧ 0 < tri l r p := by
  unfold leftPoints
  rw [List.mem_filter]
  have : tri l p r = -tri l r p := tri_swap l r p
  simp only [decide_eq_true_eq, this, Left.neg_neg_iff]

/-! ### one chain -/

/-- `u` is a direction at `l` with all of `S` on its right. -/
def Sup (S : List (Pt K)) (u : K × K) (l : Pt K) : Prop :=
  ∀ q ∈ S, u.1 * (q.y - l.y) - u.2 * (q.x - l.x) ≤ 0

/-- From `a` to `b` is a side, gone round clockwise. -/
def Side' (S : List (Pt K)) (a b : Pt K) : Prop :=
  (a.x ≠ b.x ∨ a.y ≠ b.y) ∧ ∀ p ∈ S, tri a b p ≤ 0

theorem wedge (u : K × K) (l r h q : Pt K) (hh : 0 < tri l r h)
    (hur : u.1 * (r.y - l.y) - u.2 * (r.x - l.x) < 0)
    (huh : u.1 * (h.y - l.y) - u.2 * (h.x - l.x) ≤ 0)
    (huq : u.1 * (q.y - l.y) - u.2 * (q.x - l.x) ≤ 0)
    (hq : 0 < tri l h q) : 0 < tri l r q := by
  by_contra hc
  have hc : tri l r q ≤ 0 := not_lt.1 hc
  have key : (u.1 * (q.y - l.y) - u.2 * (q.x - l.x)) * tri l r h =
      -(tri l h q) * (u.1 * (r.y - l.y) - u.2 * (r.x - l.x)) +
      tri l r q * (u.1 * (h.y - l.y) - u.2 * (h.x - l.x)) := by unfold tri; ring
  have h1 : (u.1 * (q.y - l.y) - u.2 * (q.x - l.x)) * tri l r h ≤ 0 := mul_nonpos_of_nonpos_of_nonneg huq hh.le
  have h2 : 0 < -(tri l h q) * (u.1 * (r.y - l.y) - u.2 * (r.x - l.x)) := mul_pos_of_neg_of_neg (by linarith) hur
  have h3 : 0 ≤ tri l r q * (u.1 * (h.y - l.y) - u.2 * (h.x - l.x)) := mul_nonneg_of_nonpos_of_nonpos hc huh
  linarith

theorem wedge_empty (u : K × K) (l r h q : Pt K) (hh : 0 < tri l r h)
    (hur : u.1 * (r.y - l.y) - u.2 * (r.x - l.x) < 0)
    (huh : u.1 * (h.y - l.y) - u.2 * (h.x - l.x) = 0)
    (huq : u.1 * (q.y - l.y) - u.2 * (q.x - l.x) ≤ 0) : ¬ 0 < tri l h q := by
  intro hq
  have key : (u.1 * (q.y - l.y) - u.2 * (q.x - l.x)) * tri l r h =
      -(tri l h q) * (u.1 * (r.y - l.y) - u.2 * (r.x - l.x)) +
      tri l r q * (u.1 * (h.y - l.y) - u.2 * (h.x - l.x)) := by unfold tri; ring
  have h1 : (u.1 * (q.y - l.y) - u.2 * (q.x - l.x)) * tri l r h ≤ 0 := mul_nonpos_of_nonpos_of_nonneg huq hh.le
  have h2 : 0 < -(tri l h q) * (u.1 * (r.y - l.y) - u.2 * (r.x - l.x)) := mul_pos_of_neg_of_neg (by linarith) hur
  rw [huh, mul_zero, add_zero] at key
  linarith

/-- The same at the other end. -/
theorem wedge' (u : K × K) (l r h q : Pt K) (hh : 0 < tri l r h)
    (hur : u.1 * (l.y - r.y) - u.2 * (l.x - r.x) < 0)
    (huh : u.1 * (h.y - r.y) - u.2 * (h.x - r.x) ≤ 0)
    (huq : u.1 * (q.y - r.y) - u.2 * (q.x - r.x) ≤ 0)
    (hq : 0 < tri h r q) : 0 < tri l r q := by
  by_contra hc
  have hc : tri l r q ≤ 0 := not_lt.1 hc
  have key : (u.1 * (q.y - r.y) - u.2 * (q.x - r.x)) * tri l r h =
      -(tri h r q) * (u.1 * (l.y - r.y) - u.2 * (l.x - r.x)) +
      tri l r q * (u.1 * (h.y - r.y) - u.2 * (h.x - r.x)) := by unfold tri; ring
  have h1 : (u.1 * (q.y - r.y) - u.2 * (q.x - r.x)) * tri l r h ≤ 0 := mul_nonpos_of_nonpos_of_nonneg huq hh.le
  have h2 : 0 < -(tri h r q) * (u.1 * (l.y - r.y) - u.2 * (l.x - r.x)) := mul_pos_of_neg_of_neg (by linarith) hur
  have h3 : 0 ≤ tri l r q * (u.1 * (h.y - r.y) - u.2 * (h.x - r.x)) := mul_nonneg_of_nonpos_of_nonpos hc huh
  linarith

theorem wedge_empty' (u : K × K) (l r h q : Pt K) (hh : 0 < tri l r h)
    (hur : u.1 * (l.y - r.y) - u.2 * (l.x - r.x) < 0)
    (huh : u.1 * (h.y - r.y) - u.2 * (h.x - r.x) = 0)
    (huq : u.1 * (q.y - r.y) - u.2 * (q.x - r.x) ≤ 0) : ¬ 0 < tri h r q := by
  intro hq
  have key : (u.1 * (q.y - r.y) - u.2 * (q.x - r.x)) * tri l r h =
      -(tri h r q) * (u.1 * (l.y - r.y) - u.2 * (l.x - r.x)) +
      tri l r q * (u.1 * (h.y - r.y) - u.2 * (h.x - r.x)) := by unfold tri; ring
  have h1 : (u.1 * (q.y - r.y) - u.2 * (q.x - r.x)) * tri l r h ≤ 0 := mul_nonpos_of_nonpos_of_nonneg huq hh.le
  have h2 : 0 < -(tri h r q) * (u.1 * (l.y - r.y) - u.2 * (l.x - r.x)) := mul_pos_of_neg_of_neg (by linarith) hur
  rw [huh, mul_zero, add_zero] at key
  linarith

theorem length_leftPoints_lt (s : List (Pt K)) (l r h : Pt K) (hm : h ∈ s) (h0 : ¬ 0 < tri l r h) :
    (leftPoints s l r).length < s.length := by
  unfold leftPoints
  apply List.length_filter_lt_length_iff_exists.2
  refine ⟨h, hm, ?_⟩
  have : tri l h r = -tri l r h := tri_swap l r h
  simp only [decide_eq_true_eq, this, Left.neg_neg_iff]
  exact h0

theorem tri_self1 (a b : Pt K) : tri a b a = 0 := by unfold tri; ring
theorem tri_self2 (a b : Pt K) : tri a b b = 0 := by unfold tri; ring

theorem ne_of_tri {l r h : Pt K} (hh : 0 < tri l r h) : l.x ≠ h.x ∨ l.y ≠ h.y := by
  by_contra hc
  have h1 : l.x = h.x := by by_contra e; exact hc (Or.inl e)
  have h2 : l.y = h.y := by by_contra e; exact hc (Or.inr e)
  have : tri l r h = 0 := by unfold tri; rw [h1, h2]; ring
  linarith

theorem ne_of_tri' {l r h : Pt K} (hh : 0 < tri l r h) : h.x ≠ r.x ∨ h.y ≠ r.y := by
  by_contra hc
  have h1 : h.x = r.x := by by_contra e; exact hc (Or.inl e)
  have h2 : h.y = r.y := by by_contra e; exact hc (Or.inr e)
  have : tri l r h = 0 := by unfold tri; rw [h1, h2]; ring
  linarith

/-- Where a point is. -/
def xy (p : Pt K) : K × K := (p.x, p.y)

theorem tri_xy (a b : Pt K) {p q : Pt K} (h : xy p = xy q) : tri a b p = tri a b q := by
  have hx : p.x = q.x := congrArg Prod.fst h
  have hy : p.y = q.y := congrArg Prod.snd h
  unfold tri; rw [hx, hy]

theorem ids_of_xy {S L : List (Pt K)} (hid : ∀ p ∈ S, ∀ q ∈ S, p.id = q.id → p = q) (hL : ∀ p ∈ L, p ∈ S)
    (h : (L.map xy).Nodup) : (L.map (·.id)).Nodup := by
  refine List.pairwise_map.2 ((List.pairwise_map.1 h).imp_of_mem ?_)
  intro p q hp hq hne e
  exact hne (congrArg xy (hid p (hL p hp) q (hL q hq) e))

/-- `quickhull-left` gives a chain of sides from `l` to `r`. -/
theorem left_chain (S : List (Pt K)) :
    ∀ (n : Nat) (s : List (Pt K)) (l r : Pt K) (ul ur : K × K), s.length < n → l ∈ S → r ∈ S →
      (l.x ≠ r.x ∨ l.y ≠ r.y) → (∀ q, q ∈ s ↔ q ∈ S ∧ 0 < tri l r q) →
      Sup S ul l → (ul.1 * (r.y - l.y) - ul.2 * (r.x - l.x) < 0 ∨ s = []) →
      Sup S ur r → (ur.1 * (l.y - r.y) - ur.2 * (l.x - r.x) < 0 ∨ s = []) →
      ∃ C, quickhullLeft n s l r = some (l :: (C ++ [r])) ∧ (∀ p ∈ C, p ∈ s) ∧
        (l :: (C ++ [r])).IsChain (Side' S) ∧ ((l :: (C ++ [r])).map xy).Nodup := by
  intro n
  induction n with
  | zero => intro s l r ul ur h; omega
  | succ n ih =>
    intro s l r ul ur hn hl hr hne hs hAl hBl hAr hBr
    have hidne : xy l ≠ xy r := by
      intro e
      rcases hne with h | h
      · exact h (congrArg Prod.fst e)
      · exact h (congrArg Prod.snd e)
    cases s with
    | nil =>
      refine ⟨[], by simp [quickhullLeft], by simp, ?_, by simp [hidne]⟩
      simp only [List.nil_append, List.isChain_cons_cons, List.isChain_singleton, and_true]
      refine ⟨hne, ?_⟩
      intro p hp
      by_contra hc
      have := (hs p).2 ⟨hp, not_le.1 hc⟩
      simp at this
    | cons v s =>
      have hBl : ul.1 * (r.y - l.y) - ul.2 * (r.x - l.x) < 0 := by
        rcases hBl with h | h
        · exact h
        · simp at h
      have hBr : ur.1 * (l.y - r.y) - ur.2 * (l.x - r.x) < 0 := by
        rcases hBr with h | h
        · exact h
        · simp at h
      obtain ⟨hm, hmax⟩ := leftmost_max v s l r
      simp only [quickhullLeft]
      generalize leftmost v s l r = h at hm hmax
      have hhS := (hs h).1 hm
      have hh := hhS.2
      have hmax' : ∀ p ∈ v :: s, tri l r p ≤ tri l r h := by
        intro p hp
        have := hmax p hp
        rw [← tri_rot p l r, ← tri_rot h l r] at this
        exact this
      -- all of S is on the right of the line through h parallel to that from l to r
      have hAh : Sup S (r.x - l.x, r.y - l.y) h := by
        intro q hq
        have e : (r.x - l.x) * (q.y - h.y) - (r.y - l.y) * (q.x - h.x) = tri l r q - tri l r h := by
          unfold tri; ring
        simp only
        rw [e]
        by_cases hql : 0 < tri l r q
        · have := hmax' q ((hs q).2 ⟨hq, hql⟩); linarith
        · have := not_lt.1 hql; linarith
      have hs1 : ∀ q, q ∈ leftPoints (v :: s) l h ↔ q ∈ S ∧ 0 < tri l h q := by
        intro q
        rw [mem_leftPoints, hs]
        constructor
        · rintro ⟨⟨h1, -⟩, h2⟩; exact ⟨h1, h2⟩
        · rintro ⟨h1, h2⟩
          exact ⟨⟨h1, wedge ul l r h q hh hBl (hAl h hhS.1) (hAl q h1) h2⟩, h2⟩
      have hs2 : ∀ q, q ∈ leftPoints (v :: s) h r ↔ q ∈ S ∧ 0 < tri h r q := by
        intro q
        rw [mem_leftPoints, hs]
        constructor
        · rintro ⟨⟨h1, -⟩, h2⟩; exact ⟨h1, h2⟩
        · rintro ⟨h1, h2⟩
          exact ⟨⟨h1, wedge' ur l r h q hh hBr (hAr h hhS.1) (hAr q h1) h2⟩, h2⟩
      have hlen1 := length_leftPoints_lt (v :: s) l h h hm (by rw [tri_self2]; exact lt_irrefl 0)
      have hlen2 := length_leftPoints_lt (v :: s) h r h hm (by rw [tri_self1]; exact lt_irrefl 0)
      obtain ⟨C1, e1, c1, k1, n1⟩ := ih (leftPoints (v :: s) l h) l h ul (r.x - l.x, r.y - l.y) (by omega) hl hhS.1
        (ne_of_tri hh) hs1 hAl
        (by
          rcases lt_or_eq_of_le (hAl h hhS.1) with h1 | h1
          · exact Or.inl h1
          · right
            apply List.eq_nil_iff_forall_not_mem.2
            intro q hq
            have := (hs1 q).1 hq
            exact wedge_empty ul l r h q hh hBl h1 (hAl q this.1) this.2)
        hAh
        (by
          left; simp only
          have : (r.x - l.x) * (l.y - h.y) - (r.y - l.y) * (l.x - h.x) = -tri l r h := by unfold tri; ring
          rw [this]; linarith)
      obtain ⟨C2, e2, c2, k2, n2⟩ := ih (leftPoints (v :: s) h r) h r (r.x - l.x, r.y - l.y) ur (by omega) hhS.1 hr
        (ne_of_tri' hh) hs2 hAh
        (by
          left; simp only
          have : (r.x - l.x) * (r.y - h.y) - (r.y - l.y) * (r.x - h.x) = -tri l r h := by unfold tri; ring
          rw [this]; linarith)
        hAr
        (by
          rcases lt_or_eq_of_le (hAr h hhS.1) with h1 | h1
          · exact Or.inl h1
          · right
            apply List.eq_nil_iff_forall_not_mem.2
            intro q hq
            have := (hs2 q).1 hq
            exact wedge_empty' ur l r h q hh hBr h1 (hAr q this.1) this.2)
      refine ⟨C1 ++ h :: C2, ?_, ?_, ?_, ?_⟩
      · rw [e1, e2]
        simp only [delete1]
        rw [List.eraseP_cons_of_pos (by simp)]
        simp
      · intro p hp
        rcases List.mem_append.1 hp with hp | hp
        · exact ((mem_leftPoints _ _ _ _).1 (c1 p hp)).1
        · rcases List.mem_cons.1 hp with rfl | hp
          · exact hm
          · exact ((mem_leftPoints _ _ _ _).1 (c2 p hp)).1
      · have : l :: ((C1 ++ h :: C2) ++ [r]) = (l :: C1) ++ h :: (C2 ++ [r]) := by simp
        rw [this, List.isChain_split]
        exact ⟨by simpa using k1, k2⟩
      · have : l :: ((C1 ++ h :: C2) ++ [r]) = (l :: C1) ++ (h :: (C2 ++ [r])) := by simp
        rw [this, List.map_append]
        have n1' : ((l :: C1).map xy).Nodup := by
          have : l :: (C1 ++ [h]) = (l :: C1) ++ [h] := by simp
          rw [this, List.map_append] at n1
          exact (List.nodup_append.1 n1).1
        refine List.nodup_append.2 ⟨n1', n2, ?_⟩
        intro a ha b hb hab
        subst hab
        obtain ⟨p, hp, rfl⟩ := List.mem_map.1 ha
        obtain ⟨q, hq, hpq⟩ := List.mem_map.1 hb
        -- every point of the first part is left of l h or l itself; of the second left of h r, or h, or r
        have hp' : p ∈ S ∧ (p = l ∨ 0 < tri l h p) := by
          rcases List.mem_cons.1 hp with rfl | hp
          · exact ⟨hl, Or.inl rfl⟩
          · exact ⟨((hs1 p).1 (c1 p hp)).1, Or.inr ((hs1 p).1 (c1 p hp)).2⟩
        have hq' : q ∈ S ∧ (q = h ∨ q = r ∨ 0 < tri h r q) := by
          rcases List.mem_cons.1 hq with rfl | hq
          · exact ⟨hhS.1, Or.inl rfl⟩
          · rcases List.mem_append.1 hq with hq | hq
            · exact ⟨((hs2 q).1 (c2 q hq)).1, Or.inr (Or.inr ((hs2 q).1 (c2 q hq)).2)⟩
            · simp at hq; subst hq; exact ⟨hr, Or.inr (Or.inl rfl)⟩
        have ht : ∀ u v, tri u v q = tri u v p := fun u v => tri_xy u v hpq
        have hadd : tri l r q = tri l h q + tri h r q + tri l r h := by unfold tri; ring
        rcases hp'.2 with h1 | h1
        · subst h1
          rcases hq'.2 with h2 | h2 | h2
          · rw [← h2, ht, tri_self1] at hh; exact lt_irrefl _ hh
          · exact hidne (by rw [← h2, hpq])
          · have : tri h r p = tri p h r := by rw [← tri_rot p h r]
            rw [ht, this, tri_swap] at h2; linarith
        · rw [← ht] at h1
          rcases hq'.2 with h2 | h2 | h2
          · rw [h2, tri_self2] at h1; exact lt_irrefl _ h1
          · rw [h2, tri_swap] at h1; linarith
          · have hq3 : 0 < tri l r q := by rw [hadd]; linarith
            have := hmax' q ((hs q).2 ⟨hq'.1, hq3⟩)
            linarith

theorem left_shape : ∀ (n : Nat) (s : List (Pt K)) (l r : Pt K) (X : List (Pt K)),
    quickhullLeft n s l r = some X → ∃ C, X = l :: (C ++ [r]) := by
  intro n
  induction n with
  | zero => intro s l r X h; simp [quickhullLeft] at h
  | succ n ih =>
    intro s l r X h
    cases s with
    | nil => simp only [quickhullLeft, Option.some.injEq] at h; exact ⟨[], by simp [← h]⟩
    | cons v s =>
      simp only [quickhullLeft] at h
      split at h
      · rename_i a b ha hb
        obtain ⟨Ca, rfl⟩ := ih _ _ _ _ ha
        obtain ⟨Cb, rfl⟩ := ih _ _ _ _ hb
        simp only [delete1] at h
        rw [List.eraseP_cons_of_pos (by simp)] at h
        simp only [Option.some.injEq] at h
        exact ⟨Ca ++ leftmost v s l r :: Cb, by rw [← h]; simp⟩
      · simp at h

/-- `quickhull-right`, without `l`, is the left chain of the way back, without its last point. -/
theorem right_chain : ∀ (n : Nat) (s : List (Pt K)) (l r : Pt K) (C : List (Pt K)),
    quickhullLeft n s r l = some (r :: (C ++ [l])) → ((r :: (C ++ [l])).map (·.id)).Nodup →
    ∃ R, quickhullRight n s l r = some R ∧ delete1 l R = r :: C := by
  intro n
  induction n with
  | zero => intro s l r C h; simp [quickhullLeft] at h
  | succ n ih =>
    intro s l r C h hn
    cases s with
    | nil =>
      simp only [quickhullLeft, Option.some.injEq, List.cons.injEq, true_and] at h
      have hC : C = [] := by
        cases C with
        | nil => rfl
        | cons a C => simp at h
      subst hC
      refine ⟨[l, r], by simp [quickhullRight], ?_⟩
      simp [delete1]
    | cons v s =>
      simp only [quickhullLeft] at h
      simp only [quickhullRight, rightmost_eq, rightPoints_eq]
      generalize leftmost v s r l = p at h
      split at h
      · rename_i a b ha hb
        obtain ⟨Ca, rfl⟩ := left_shape _ _ _ _ _ ha
        obtain ⟨Cb, rfl⟩ := left_shape _ _ _ _ _ hb
        simp only [delete1] at h
        rw [List.eraseP_cons_of_pos (by simp)] at h
        simp only [Option.some.injEq, List.cons_append, List.append_assoc, List.singleton_append, List.cons.injEq,
          true_and] at h
        have hC : C = Ca ++ p :: Cb := by
          have : (Ca ++ p :: Cb) ++ [l] = C ++ [l] := by rw [← h]; simp
          exact (List.append_cancel_right this).symm
        subst hC
        have hn1 : ((r :: (Ca ++ [p])).map (·.id)).Nodup := by
          have : r :: ((Ca ++ p :: Cb) ++ [l]) = (r :: (Ca ++ [p])) ++ (Cb ++ [l]) := by simp
          rw [this, List.map_append] at hn
          exact (List.nodup_append.1 hn).1
        have hn2 : ((p :: (Cb ++ [l])).map (·.id)).Nodup := by
          have : r :: ((Ca ++ p :: Cb) ++ [l]) = (r :: Ca) ++ (p :: (Cb ++ [l])) := by simp
          rw [this, List.map_append] at hn
          exact (List.nodup_append.1 hn).2.1
        obtain ⟨R2, e2, d2⟩ := ih _ _ _ _ ha hn1
        obtain ⟨R1, e1, d1⟩ := ih _ _ _ _ hb hn2
        refine ⟨delete1 p R2 ++ R1, by rw [e2, e1], ?_⟩
        rw [d2]
        unfold delete1 at d1 ⊢
        rw [List.eraseP_append_right, d1]
        · simp
        · intro q hq hql
          have hql : q.id = l.id := by simpa using hql
          have : r :: ((Ca ++ p :: Cb) ++ [l]) = (r :: Ca) ++ (p :: (Cb ++ [l])) := by simp
          rw [this, List.map_append] at hn
          exact (List.nodup_append.1 hn).2.2 q.id (List.mem_map_of_mem hq) l.id (List.mem_map_of_mem (by simp)) hql
      · simp at h

/-! ### C190 -/

/-- C190.  `quickhull` of points in the plane gives their convex hull, counter-clockwise.  For all lists
of points (not all with the same x: see below), in any order, with points that coincide, are on one
line, or have the same distance; exact arithmetic.  The recursion ends, at a depth of at most the number of
points. -/
theorem C190_quickhull_partial (v : Pt K) (s : List (Pt K)) (hid : ∀ p ∈ v :: s, ∀ q ∈ v :: s, p.id = q.id → p = q)
    (hx : ∃ p ∈ v :: s, ∃ q ∈ v :: s, p.x ≠ q.x) (n : Nat) (hn : s.length + 1 < n) :
    ∃ H, quickhull n v s = some H ∧ IsHull (v :: s) H := by
  have m0 := findExtream_mem (fun p : Pt K => p.x) (fun a b => decide (a ≤ b)) s v
  have m1 := findExtream_mem (fun p : Pt K => p.x) (fun a b => decide (b ≤ a)) s v
  have l0 := findExtream_le (fun p : Pt K => p.x) (fun a b => decide (a ≤ b)) (fun a b => b ≤ a)
    (fun _ _ _ h1 h2 => le_trans h2 h1) le_refl (fun a b h => of_decide_eq_true h)
    (fun a b h => le_of_lt (not_le.1 (of_decide_eq_false h))) s v
  have l1 := findExtream_le (fun p : Pt K => p.x) (fun a b => decide (b ≤ a)) (fun a b => a ≤ b)
    (fun _ _ _ => le_trans) le_refl (fun a b h => of_decide_eq_true h)
    (fun a b h => le_of_lt (not_le.1 (of_decide_eq_false h))) s v
  simp only [quickhull]
  generalize findExtream (fun p : Pt K => p.x) (fun a b => decide (a ≤ b)) v s = s0 at m0 l0
  generalize findExtream (fun p : Pt K => p.x) (fun a b => decide (b ≤ a)) v s = s1 at m1 l1
  have hlt : s0.x < s1.x := by
    obtain ⟨p, hp, q, hq, hne⟩ := hx
    rcases lt_or_gt_of_ne hne with h | h
    · exact lt_of_le_of_lt (l0 p hp) (lt_of_lt_of_le h (l1 q hq))
    · exact lt_of_le_of_lt (l0 q hq) (lt_of_lt_of_le h (l1 p hp))
  have lenle : ∀ a b : Pt K, (leftPoints (v :: s) a b).length < n := by
    intro a b
    have : (leftPoints (v :: s) a b).length ≤ (v :: s).length := List.length_filter_le _ _
    simp only [List.length_cons] at this; omega
  have A0 : Sup (v :: s) ((0 : K), 1) s0 := by
    intro q hq; have := l0 q hq; simp only at this ⊢; linarith
  have A1 : Sup (v :: s) ((0 : K), -1) s1 := by
    intro q hq; have := l1 q hq; simp only at this ⊢; linarith
  obtain ⟨CL, e1, c1, k1, n1⟩ := left_chain (v :: s) n _ s0 s1 (0, 1) (0, -1) (lenle s0 s1) m0 m1
    (Or.inl hlt.ne) (mem_leftPoints _ _ _) A0 (Or.inl (by simp only; linarith)) A1 (Or.inl (by simp only; linarith))
  obtain ⟨CR, e2, c2, k2, n2⟩ := left_chain (v :: s) n _ s1 s0 (0, -1) (0, 1) (lenle s1 s0) m1 m0
    (Or.inl hlt.ne') (mem_leftPoints _ _ _) A1 (Or.inl (by simp only; linarith)) A0 (Or.inl (by simp only; linarith))
  obtain ⟨R, e3, d3⟩ := right_chain n _ s0 s1 CR e2 (ids_of_xy hid (fun p hp => by
    rcases List.mem_cons.1 hp with rfl | hp
    · exact m1
    · rcases List.mem_append.1 hp with hp | hp
      · exact ((mem_leftPoints _ _ _ _).1 (c2 p hp)).1
      · simp at hp; subst hp; exact m0) n2)
  rw [rightPoints_eq, e1, e3]
  simp only [d3]
  have d4 : delete1 s1 (s1 :: CR) = CR := by simp [delete1]
  rw [d4]
  have hflip : ∀ a b, Side' (v :: s) a b → Side (v :: s) b a := by
    rintro a b ⟨h1, h2⟩
    refine ⟨?_, ?_⟩
    · rcases h1 with h1 | h1
      · exact Or.inl h1.symm
      · exact Or.inr h1.symm
    · intro p hp
      have := h2 p hp
      unfold LeftOf
      have e : (a.x - b.x) * (p.y - b.y) - (a.y - b.y) * (p.x - b.x) = -tri a b p := by unfold tri; ring
      rw [e]; linarith
  refine ⟨_, rfl, ?_, ?_, ?_, ?_⟩
  · intro p hp
    rw [List.mem_reverse] at hp
    rcases List.mem_append.1 hp with hp | hp
    · rcases List.mem_cons.1 hp with rfl | hp
      · exact m0
      · rcases List.mem_append.1 hp with hp | hp
        · exact ((mem_leftPoints _ _ _ _).1 (c1 p hp)).1
        · simp at hp; subst hp; exact m1
    · exact ((mem_leftPoints _ _ _ _).1 (c2 p hp)).1
  · rw [List.map_reverse]
    refine List.pairwise_reverse.2 (List.Pairwise.imp (fun h => Ne.symm h) ?_)
    rw [List.map_append]
    have n2' : (CR.map xy).Nodup := by
      have : s1 :: (CR ++ [s0]) = [s1] ++ (CR ++ [s0]) := rfl
      rw [this, List.map_append, List.map_append] at n2
      exact (List.nodup_append.1 (List.nodup_append.1 n2).2.1).1
    refine List.nodup_append.2 ⟨n1, n2', ?_⟩
    intro a ha b hb hab
    subst hab
    obtain ⟨p, hp, rfl⟩ := List.mem_map.1 ha
    obtain ⟨q, hq, hpq⟩ := List.mem_map.1 hb
    have hq' := (mem_leftPoints _ _ _ _).1 (c2 q hq)
    have hp' : p ∈ v :: s ∧ tri s1 s0 p ≤ 0 := by
      rcases List.mem_cons.1 hp with rfl | hp
      · exact ⟨m0, by rw [tri_self2]⟩
      · rcases List.mem_append.1 hp with hp | hp
        · have := (mem_leftPoints _ _ _ _).1 (c1 p hp)
          refine ⟨this.1, ?_⟩
          have e : tri s1 s0 p = -tri s0 s1 p := by unfold tri; ring
          rw [e]; linarith [this.2]
        · simp at hp; subst hp; exact ⟨m1, by rw [tri_self1]⟩
    have := tri_xy s1 s0 hpq
    linarith [hq'.2, hp'.2]
  · rw [List.isChain_reverse]
    have : (s0 :: (CL ++ [s1]) ++ CR) = (s0 :: CL) ++ s1 :: CR := by simp
    rw [this, List.isChain_split]
    refine ⟨?_, ?_⟩
    · have k1' : ((s0 :: CL) ++ [s1]).IsChain (Side' (v :: s)) := by simpa using k1
      exact k1'.imp (fun a b h => hflip a b h)
    · have k2' : ((s1 :: CR) ++ [s0]).IsChain (Side' (v :: s)) := by simpa using k2
      exact (List.isChain_append.1 k2').1.imp (fun a b h => hflip a b h)
  · have k2' : ((s1 :: CR) ++ [s0]).IsChain (Side' (v :: s)) := by simpa using k2
    have hlast := (List.isChain_append.1 k2').2.2
    obtain ⟨z, hz⟩ : ∃ z, (s1 :: CR).getLast? = some z := ⟨_, List.getLast?_eq_some_getLast (by simp)⟩
    refine ⟨z, s0, ?_, ?_, hflip _ _ (hlast z hz s0 (by simp))⟩
    · rw [List.head?_reverse]
      have : (s0 :: (CL ++ [s1]) ++ CR) = (s0 :: CL) ++ (s1 :: CR) := by simp
      rw [this, List.getLast?_append, hz]; rfl
    · rw [List.getLast?_reverse]; rfl

/-- A square with a point inside, one on a side, and one corner twice. -/
example : quickhull (K := Int) 9 ⟨0, 1, 1⟩ [⟨1, 0, 0⟩, ⟨2, 2, 0⟩, ⟨3, 2, 2⟩, ⟨4, 0, 2⟩, ⟨5, 1, 0⟩, ⟨6, 2, 2⟩] =
    some [⟨1, 0, 0⟩, ⟨2, 2, 0⟩, ⟨6, 2, 2⟩, ⟨4, 0, 2⟩] := by decide +kernel

/-- Points with the same x: whatever they are, the result is one of them, twice. -/
theorem C190_vertical_wrong (v : Pt K) (s : List (Pt K)) (hx : ∀ p ∈ s, p.x = v.x) (n : Nat) :
    ∃ p, quickhull (n + 1) v s = some [p, p] := by
  have same : ∀ (test : K → K → Bool) (s : List (Pt K)) (v : Pt K), (∀ a, test a a = true) → (∀ p ∈ s, p.x = v.x) →
      findExtream (fun p : Pt K => p.x) test v s = (s.getLast?).getD v := by
    intro test s
    induction s with
    | nil => intro v _ _; rfl
    | cons w s ih =>
      intro v ht h
      have hw := h w (by simp)
      simp only [findExtream, hw, ht, if_true]
      rw [ih w ht (fun p hp => by rw [h p (by simp [hp]), hw])]
      cases s with
      | nil => rfl
      | cons u s =>
        rw [List.getLast?_cons_cons]
        simp [List.getLast?_cons]
  have e0 := same (fun a b => decide (a ≤ b)) s v (fun a => by simp) hx
  have e1 := same (fun a b => decide (b ≤ a)) s v (fun a => by simp) hx
  have z : ∀ p : Pt K, leftPoints (v :: s) p p = [] := by
    intro p
    apply List.eq_nil_iff_forall_not_mem.2
    intro q hq
    have := ((mem_leftPoints _ _ _ _).1 hq).2
    have e : tri p p q = 0 := by unfold tri; ring
    rw [e] at this; exact lt_irrefl _ this
  refine ⟨(s.getLast?).getD v, ?_⟩
  simp only [quickhull, e0, e1, rightPoints_eq, z]
  simp [quickhullLeft, quickhullRight, delete1]

example : quickhull (K := Int) 5 ⟨0, 1, 0⟩ [⟨1, 1, 5⟩, ⟨2, 1, 3⟩] = some [⟨2, 1, 3⟩, ⟨2, 1, 3⟩] := by decide +kernel

end Eus.Hul
