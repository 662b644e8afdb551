import Verif.Mat.Store
import Mathlib.Algebra.BigOperators.Intervals
import Mathlib.Tactic.FieldSimp
import Mathlib.Tactic.Ring
import Mathlib.LinearAlgebra.Matrix.Determinant.Basic
import Mathlib.LinearAlgebra.Matrix.Block
import Mathlib.LinearAlgebra.Matrix.NonsingularInverse
set_option autoImplicit false
set_option linter.unusedSectionVars false
/-
LU decomposition: the invariant of `decompose`, and what `solve` and `lu-determinant` make of it.
-/
namespace Eus.Mat
open Finset

theorem sumFrom_eq {K : Type} [Field K] (f : Nat → K) : ∀ n, sumFrom (· + ·) 0 n f = ∑ i ∈ range n, f i
  | 0 => rfl
  | n + 1 => by
    have := sumFrom_eq f n
    simp only [sumFrom] at this ⊢
    rw [List.range_succ, sum_range_succ, ← this]
    simp

/-- p is a permutation of 0, ..., s-1. -/
structure Perm (s : Nat) (p : Nat → Nat) : Prop where
  lt : ∀ i, i < s → p i < s
  inj : ∀ i j, i < s → j < s → p i = p j → i = j
  surj : ∀ r, r < s → ∃ i, i < s ∧ p i = r

section
variable {K : Type} [Field K]

theorem loop_sub (f : Nat → K) (t : K) : ∀ n, loop n (fun j t => t - f j) t = t - ∑ j ∈ range n, f j
  | 0 => by simp [loop]
  | n + 1 => by rw [loop, loop_sub f t n, sum_range_succ]; ring

/-! ### Elimination -/

theorem upd_same (a : Nat → Nat → K) (i j : Nat) (x : K) : upd a i j x i j = x := by simp [upd]

theorem upd_other (a : Nat → Nat → K) {i j i' j' : Nat} (x : K) (h : ¬ (i' = i ∧ j' = j)) : upd a i j x i' j' = a i' j' := by
  simp only [upd, if_neg h]

/-- Subtracting a multiple of row k from row i. -/
theorem row_sub (a : Nat → Nat → K) (ri rk k : Nat) (al : K) (hne : rk ≠ ri) : ∀ n,
    ∀ r j, loop n (fun e a => upd a ri (k + 1 + e) (a ri (k + 1 + e) - al * a rk (k + 1 + e))) a r j =
      if r = ri ∧ k < j ∧ j < k + 1 + n then a ri j - al * a rk j else a r j := by
  intro n
  refine loop_inv (fun n a' => ∀ r j, a' r j = if r = ri ∧ k < j ∧ j < k + 1 + n then a ri j - al * a rk j else a r j) _ a ?_ n ?_
  · intro r j; rw [if_neg (by omega)]
  · intro e a' _ ih r j
    have e1 : a' ri (k + 1 + e) = a ri (k + 1 + e) := by rw [ih, if_neg (by omega)]
    have e2 : a' rk (k + 1 + e) = a rk (k + 1 + e) := by rw [ih, if_neg (by omega)]
    by_cases h : r = ri ∧ j = k + 1 + e
    · obtain ⟨rfl, rfl⟩ := h
      rw [upd_same, e1, e2, if_pos ⟨rfl, by omega, by omega⟩]
    · rw [upd_other _ _ h, ih]
      by_cases h2 : r = ri ∧ k < j ∧ j < k + 1 + e
      · rw [if_pos h2, if_pos (by omega)]
      · rw [if_neg h2, if_neg (by omega)]

theorem eliminate_eq (s : Nat) (a : Nat → Nat → K) (p : Nat → Nat) (hp : Perm s p) (k : Nat) (hk : k < s) :
    ∀ i j, i < s → j < s → eliminate s a p k (p i) j =
      if i < k then a (p i) j else
      if i = k then (if j = k then 1 / a (p k) k else a (p k) j) else
      if j < k then a (p i) j else
      if j = k then a (p i) k * (1 / a (p k) k) else a (p i) j - a (p i) k * (1 / a (p k) k) * a (p k) j := by
  have key : ∀ n, n ≤ s - (k + 1) →
      let a0 := upd a (p k) k (1 / a (p k) k)
      ∀ i j, i < s → j < s → loop n (fun d a =>
        let i := k + 1 + d
        let al := a (p i) k * a (p k) k
        let a := upd a (p i) k al
        loop (s - (k + 1)) (fun e a => upd a (p i) (k + 1 + e) (a (p i) (k + 1 + e) - al * a (p k) (k + 1 + e))) a) a0 (p i) j =
      if k < i ∧ i < k + 1 + n then
        if j < k then a (p i) j else
        if j = k then a (p i) k * (1 / a (p k) k) else a (p i) j - a (p i) k * (1 / a (p k) k) * a (p k) j
      else a0 (p i) j := by
    intro n hn a0
    refine loop_inv (fun n a' => n ≤ s - (k + 1) → ∀ i j, i < s → j < s → a' (p i) j =
      if k < i ∧ i < k + 1 + n then
        if j < k then a (p i) j else
        if j = k then a (p i) k * (1 / a (p k) k) else a (p i) j - a (p i) k * (1 / a (p k) k) * a (p k) j
      else a0 (p i) j) _ a0 ?_ n ?_ hn
    · intro _ i j _ _; rw [if_neg (by omega)]
    · intro d a' _ ih hd i j hi hj
      have ih := ih (by omega)
      have hne : p k ≠ p (k + 1 + d) := fun e => by have := hp.inj _ _ hk (by omega) e; omega
      have c1 : ∀ j, j < s → a' (p (k + 1 + d)) j = a (p (k + 1 + d)) j := fun j hj => by
        rw [ih (k + 1 + d) j (by omega) hj, if_neg (by omega)]
        exact upd_other _ _ (fun h => hne h.1.symm)
      have c2 : a' (p k) k = 1 / a (p k) k := by
        rw [ih k k hk hk, if_neg (by omega)]; exact upd_same _ _ _ _
      have c3 : ∀ j, k < j → j < s → a' (p k) j = a (p k) j := fun j h1 h2 => by
        rw [ih k j hk h2, if_neg (by omega)]
        exact upd_other _ _ (fun h => by omega)
      dsimp only
      rw [row_sub _ _ _ _ _ hne, c1 k hk, c2]
      by_cases h : i = k + 1 + d
      · subst h
        rw [if_pos (show k < k + 1 + d ∧ k + 1 + d < k + 1 + (d + 1) by omega)]
        by_cases h1 : k < j
        · rw [if_pos ⟨rfl, h1, by omega⟩, if_neg (by omega), if_neg (by omega), upd_other _ _ (fun h => by omega),
            upd_other _ _ (fun h => hne h.1), c1 j hj, c3 j h1 hj]
        · rw [if_neg (fun h => h1 h.2.1)]
          by_cases h2 : j = k
          · subst h2
            rw [upd_same, if_neg (by omega), if_pos rfl]
          · rw [upd_other _ _ (fun h => h2 h.2), c1 j hj, if_pos (by omega)]
      · have hpi : p i ≠ p (k + 1 + d) := fun e => h (hp.inj _ _ hi (by omega) e)
        rw [if_neg (fun h => hpi h.1), upd_other _ _ (fun h => hpi h.1), ih i j hi hj]
        by_cases h1 : k < i ∧ i < k + 1 + d
        · rw [if_pos h1, if_pos (show k < i ∧ i < k + 1 + (d + 1) by omega)]
        · rw [if_neg h1, if_neg (show ¬ (k < i ∧ i < k + 1 + (d + 1)) by omega)]
  intro i j hi hj
  rw [eliminate]
  refine (key (s - (k + 1)) (Nat.le_refl _) i j hi hj).trans ?_
  by_cases h1 : k < i
  · rw [if_pos (show k < i ∧ i < k + 1 + (s - (k + 1)) by omega), if_neg (show ¬ i < k by omega), if_neg (show ¬ i = k by omega)]
  · rw [if_neg (show ¬ (k < i ∧ i < k + 1 + (s - (k + 1))) by omega)]
    by_cases h2 : i = k
    · subst h2
      rw [if_neg (by omega), if_pos rfl]
      by_cases h3 : j = i
      · subst h3; rw [if_pos rfl]; exact upd_same _ _ _ _
      · rw [if_neg h3]; exact upd_other _ _ (fun h => h3 h.2)
    · rw [if_pos (by omega)]
      exact upd_other _ _ (fun h => h2 (hp.inj _ _ hi hk h.1))

/-! ### The factors -/

/-- The upper triangular factor. -/
def U (r : Nat → Nat → K) (m j : Nat) : K := if j < m then 0 else if j = m then 1 / r m m else r m j

/-- One summand of the product of the factors. -/
def term (r : Nat → Nat → K) (i j m : Nat) : K := if m < i then r i m * U r m j else if m = i then U r i j else 0

/-- What is left to decompose. -/
def rest (r : Nat → Nat → K) (k i j : Nat) : K := if i < k then 0 else if j < k then 0 else r i j

structure Inv (s : Nat) (A : Nat → Nat → K) (k : Nat) (a : Nat → Nat → K) (p : Nat → Nat) : Prop where
  perm : Perm s p
  diag : ∀ m, m < k → a (p m) m ≠ 0
  prod : ∀ i j, i < s → j < s → A (p i) j = ∑ m ∈ range k, term (fun i j => a (p i) j) i j m + rest (fun i j => a (p i) j) k i j

theorem inv_zero (s : Nat) (A : Nat → Nat → K) : Inv s A 0 A (fun i => i) where
  perm := ⟨fun _ h => h, fun _ _ _ _ h => h, fun r h => ⟨r, h, rfl⟩⟩
  diag := fun m h => by omega
  prod := fun i j _ _ => by simp [rest]

theorem perm_swap (s : Nat) (p : Nat → Nat) (hp : Perm s p) (k l : Nat) (hk : k < s) (hl : l < s) : Perm s (swapP p k l) where
  lt := fun i hi => by
    simp only [swapP]
    split
    · exact hp.lt k hk
    · split
      · exact hp.lt l hl
      · exact hp.lt i hi
  inj := fun i j hi hj h => by
    have := hp.inj i j hi hj
    have := hp.inj k j hk hj
    have := hp.inj i k hi hk
    have := hp.inj l j hl hj
    have := hp.inj i l hi hl
    have := hp.inj k l hk hl
    have := hp.inj l k hl hk
    simp only [swapP] at h
    split at h <;> split at h <;> (try split at h) <;> (try split at h) <;> first | omega | (have := this; simp_all)
  surj := fun r hr => by
    obtain ⟨i, hi, rfl⟩ := hp.surj r hr
    by_cases h1 : i = k
    · subst h1; exact ⟨l, hl, by simp [swapP]⟩
    · by_cases h2 : i = l
      · subst h2
        exact ⟨k, hk, by simp only [swapP]; rw [if_neg (fun h => h1 h.symm)]; simp⟩
      · exact ⟨i, hi, by simp only [swapP]; rw [if_neg h2, if_neg h1]⟩

theorem inv_swap (s : Nat) (A : Nat → Nat → K) (k : Nat) (a : Nat → Nat → K) (p : Nat → Nat) (h : Inv s A k a p) (hk : k < s)
    (l : Nat) (hkl : k ≤ l) (hl : l < s) : Inv s A k a (swapP p k l) where
  perm := perm_swap s p h.perm k l hk hl
  diag := fun m hm => by
    have : swapP p k l m = p m := by simp only [swapP]; rw [if_neg (by omega), if_neg (by omega)]
    rw [this]; exact h.diag m hm
  prod := fun i j hi hj => by
    -- the row i is row i' of the old numbering
    obtain ⟨i', hi', e, hlt⟩ : ∃ i', i' < s ∧ swapP p k l i = p i' ∧ ((i < k ∧ i' = i) ∨ (k ≤ i ∧ k ≤ i')) := by
      simp only [swapP]
      by_cases h1 : i = l
      · exact ⟨k, hk, by rw [if_pos h1], Or.inr ⟨by omega, by omega⟩⟩
      · by_cases h2 : i = k
        · exact ⟨l, hl, by rw [if_neg h1, if_pos h2], Or.inr ⟨by omega, by omega⟩⟩
        · exact ⟨i, hi, by rw [if_neg h1, if_neg h2], by omega⟩
    have low : ∀ m, m < k → swapP p k l m = p m := fun m hm => by
      simp only [swapP]; rw [if_neg (by omega), if_neg (by omega)]
    rw [e, h.prod i' j hi' hj]
    congr 1
    · refine sum_congr rfl fun m hm => ?_
      have hm : m < k := mem_range.mp hm
      simp only [term, U]
      rcases hlt with ⟨h1, rfl⟩ | ⟨h1, h2⟩
      · simp only [low m hm, e]
      · rw [if_pos (show m < i' by omega), if_pos (show m < i by omega)]
        simp only [low m hm, e]
    · simp only [rest, e]
      rcases hlt with ⟨h1, rfl⟩ | ⟨h1, h2⟩
      · rfl
      · rw [if_neg (show ¬ i' < k by omega), if_neg (show ¬ i < k by omega)]

theorem inv_eliminate (s : Nat) (A : Nat → Nat → K) (k : Nat) (a : Nat → Nat → K) (p : Nat → Nat) (h : Inv s A k a p) (hk : k < s)
    (hpiv : a (p k) k ≠ 0) : Inv s A (k + 1) (eliminate s a p k) p := by
  have ee := eliminate_eq s a p h.perm k hk
  refine ⟨h.perm, fun m hm => ?_, fun i j hi hj => ?_⟩
  · rw [ee m m (by omega) (by omega)]
    by_cases h1 : m < k
    · rw [if_pos h1]; exact h.diag m h1
    · have : m = k := by omega
      subst this
      rw [if_neg (by omega), if_pos rfl, if_pos rfl]
      exact one_div_ne_zero hpiv
  · rw [h.prod i j hi hj, sum_range_succ, add_assoc]
    have hU : ∀ m, m < k → U (fun i j => a (p i) j) m j = U (fun i j => eliminate s a p k (p i) j) m j := fun m hm => by
      simp only [U]
      rw [ee m m (by omega) (by omega), if_pos hm, ee m j (by omega) hj, if_pos hm]
    congr 1
    · refine sum_congr rfl fun m hm => ?_
      have hm : m < k := mem_range.mp hm
      simp only [term]
      by_cases h1 : m < i
      · rw [if_pos h1, if_pos h1, ← hU m hm, ee i m hi (by omega)]
        by_cases h2 : i < k
        · rw [if_pos h2]
        · rw [if_neg h2]
          by_cases h3 : i = k
          · rw [if_pos h3, if_neg (by omega), h3]
          · rw [if_neg h3, if_pos hm]
      · rw [if_neg h1, if_neg h1]
        by_cases h2 : m = i
        · subst h2
          rw [if_pos rfl, if_pos rfl, hU m hm]
        · rw [if_neg h2, if_neg h2]
    · simp only [term, rest, U]
      rcases Nat.lt_trichotomy i k with h1 | h1 | h1
      · have n1 : ¬ k < i := by omega
        have n2 : ¬ k = i := by omega
        have n3 : i < k + 1 := by omega
        simp only [h1, n1, n2, n3, if_true, if_false, add_zero]
      · subst h1
        have n3 : i < i + 1 := by omega
        simp only [n3, lt_irrefl, if_true, if_false, add_zero]
        rcases Nat.lt_trichotomy j i with h2 | h2 | h2
        · rw [if_pos h2, if_pos h2]
        · subst h2
          have n4 : ¬ j < j := by omega
          rw [ee j j hi hi]
          simp only [n4, if_true, if_false]
          field_simp
        · have n4 : ¬ j < i := by omega
          have n5 : ¬ j = i := by omega
          rw [ee i j hi hj]
          simp only [n4, n5, lt_irrefl, if_true, if_false]
      · have n1 : ¬ i < k := by omega
        have n2 : ¬ i = k := by omega
        have n3 : ¬ i < k + 1 := by omega
        have e1 : eliminate s a p k (p i) k = a (p i) k * (1 / a (p k) k) := by
          rw [ee i k hi hk]
          simp only [n1, n2, lt_irrefl, if_true, if_false]
        simp only [n1, n3, h1, if_true, if_false, e1]
        rcases Nat.lt_trichotomy j k with h2 | h2 | h2
        · have n4 : j < k + 1 := by omega
          simp only [h2, n4, if_true, mul_zero, add_zero]
        · subst h2
          have n4 : j < j + 1 := by omega
          rw [ee j j hk hk]
          simp only [n4, lt_irrefl, if_true, if_false, add_zero]
          field_simp
        · have n4 : ¬ j < k := by omega
          have n5 : ¬ j = k := by omega
          have n6 : ¬ j < k + 1 := by omega
          rw [ee k j hk hj, ee i j hi hj]
          simp only [n1, n2, n4, n5, n6, lt_irrefl, if_true, if_false]
          ring

end

section
variable {K : Type} [Field K] [LinearOrder K]

theorem pivot_spec (a : Nat → Nat → K) (p : Nat → Nat) (k n : Nat) :
    k ≤ (pivot a p k n).1 ∧ (pivot a p k n).1 < k + 1 + n ∧ (pivot a p k n).2 = |a (p (pivot a p k n).1) k| := by
  rw [pivot]
  refine loop_inv (fun n (q : Nat × K) => k ≤ q.1 ∧ q.1 < k + 1 + n ∧ q.2 = |a (p q.1) k|) _ _ ⟨Nat.le_refl _, by omega, rfl⟩ n ?_
  rintro d q _ ⟨h1, h2, h3⟩
  split
  · exact ⟨by dsimp only; omega, by dsimp only; omega, rfl⟩
  · exact ⟨h1, by omega, h3⟩

theorem decompose_inv (eps : K) (heps : 0 < eps) (s : Nat) (A : Nat → Nat → K) : ∀ k, k ≤ s → ∀ a p, decompose eps s A k = some (a, p) → Inv s A k a p
  | 0, _, a, p, h => by
    simp only [decompose, Option.some.injEq, Prod.mk.injEq] at h
    obtain ⟨rfl, rfl⟩ := h
    exact inv_zero s A
  | k + 1, hk, a, p, h => by
    rw [decompose] at h
    cases hd : decompose eps s A k with
    | none => rw [hd] at h; cases h
    | some q =>
      obtain ⟨a0, p0⟩ := q
      have ih := decompose_inv eps heps s A k (by omega) a0 p0 hd
      rw [hd] at h
      simp only [Option.bind_some] at h
      obtain ⟨l1, l2, l3⟩ := pivot_spec a0 p0 k (s - (k + 1))
      generalize hl : pivot a0 p0 k (s - (k + 1)) = l at *
      split at h
      · cases h
      · rename_i hge
        simp only [Option.some.injEq, Prod.mk.injEq] at h
        obtain ⟨rfl, rfl⟩ := h
        refine inv_eliminate s A k a0 _ (inv_swap s A k a0 p0 ih (by omega) l.1 l1 (by omega)) (by omega) ?_
        intro h0
        have : swapP p0 k l.1 k = p0 l.1 := by
          simp only [swapP]
          by_cases e : k = l.1
          · rw [if_pos e, ← e]
          · rw [if_neg e]; simp
        rw [this] at h0
        rw [l3, h0] at hge
        exact hge (by simpa [abs] using heps)
end

section
variable {K : Type} [Field K]

/-! ### Substitution -/

theorem forward_eq (a : Nat → Nat → K) (p : Nat → Nat) (s : Nat) (b x : Nat → K) :
    ∀ i, i < s → forward false a p s b x i + ∑ j ∈ range i, a (p i) j * forward false a p s b x j = b (p i) := by
  rw [forward]
  refine loop_inv (fun n (y : Nat → K) => ∀ i, i < n → y i + ∑ j ∈ range i, a (p i) j * y j = b (p i)) _ _ (fun i hi => by omega) s ?_
  intro n y _ ih i hi
  have hs : ∀ m, m ≤ n → ∑ j ∈ range m, a (p m) j * (if j = n then loop n (fun j t => t - a (p n) j * y j) (if false = true then y (p n) else b (p n)) else y j) = ∑ j ∈ range m, a (p m) j * y j := fun m hm =>
    sum_congr rfl fun j hj => by rw [if_neg (by have := mem_range.mp hj; omega)]
  rw [hs i (by omega)]
  by_cases h : i = n
  · subst h
    rw [if_pos rfl, loop_sub]
    simp
  · rw [if_neg h]
    exact ih i (by omega)

theorem backward_eq (a : Nat → Nat → K) (p : Nat → Nat) (s : Nat) (y : Nat → K) :
    ∀ i, i < s → backward a p s y i = (y i - ∑ e ∈ range (s - 1 - i), a (p i) (i + 1 + e) * backward a p s y (i + 1 + e)) * a (p i) i := by
  rw [backward]
  have := loop_inv (fun d (x : Nat → K) => d ≤ s → (∀ i, i < s - d → x i = y i) ∧
    ∀ i, s - d ≤ i → i < s → x i = (y i - ∑ e ∈ range (s - 1 - i), a (p i) (i + 1 + e) * x (i + 1 + e)) * a (p i) i)
    (fun d x =>
      let i := s - 1 - d
      let t := loop d (fun e t => t - a (p i) (i + 1 + e) * x (i + 1 + e)) (x i)
      fun i' => if i' = i then t * a (p i) i else x i') y
    (fun _ => ⟨fun _ _ => rfl, fun i h1 h2 => by omega⟩) s ?_ (Nat.le_refl s)
  · intro i hi
    exact this.2 i (by omega) hi
  · intro d x _ ih hd
    obtain ⟨i1, i2⟩ := ih (by omega)
    dsimp only
    refine ⟨fun i hi => by rw [if_neg (by omega)]; exact i1 i (by omega), fun i h1 h2 => ?_⟩
    have hs : ∀ n, ∑ e ∈ range n, a (p i) (i + 1 + e) * (if i + 1 + e = s - 1 - d then loop d (fun e t => t - a (p (s - 1 - d)) (s - 1 - d + 1 + e) * x (s - 1 - d + 1 + e)) (x (s - 1 - d)) * a (p (s - 1 - d)) (s - 1 - d) else x (i + 1 + e)) =
        ∑ e ∈ range n, a (p i) (i + 1 + e) * x (i + 1 + e) := fun n => sum_congr rfl fun e _ => by rw [if_neg (by omega)]
    rw [hs]
    by_cases h : i = s - 1 - d
    · rw [if_pos h, ← h, loop_sub, i1 i (by omega), show s - 1 - i = d by omega]
    · rw [if_neg h]
      exact i2 i (by omega) h2

/-- The upper factor times the solution is the vector of the forward substitution. -/
theorem upper_mul (a : Nat → Nat → K) (p : Nat → Nat) (s : Nat) (y : Nat → K) (i : Nat) (hi : i < s) (hd : a (p i) i ≠ 0) :
    ∑ j ∈ range s, U (fun i j => a (p i) j) i j * backward a p s y j = y i := by
  have hs : s = i + (1 + (s - 1 - i)) := by omega
  rw [hs, sum_range_add, sum_range_add, ← hs]
  have z : ∑ j ∈ range i, U (fun i j => a (p i) j) i j * backward a p s y j = 0 :=
    sum_eq_zero fun j hj => by simp only [U]; rw [if_pos (mem_range.mp hj), zero_mul]
  have o : ∑ j ∈ range 1, U (fun i j => a (p i) j) i (i + j) * backward a p s y (i + j) = 1 / a (p i) i * backward a p s y i := by
    rw [sum_range_one]; simp [U]
  have t : ∑ e ∈ range (s - 1 - i), U (fun i j => a (p i) j) i (i + (1 + e)) * backward a p s y (i + (1 + e)) =
      ∑ e ∈ range (s - 1 - i), a (p i) (i + 1 + e) * backward a p s y (i + 1 + e) :=
    sum_congr rfl fun e _ => by simp only [U]; rw [if_neg (by omega), if_neg (by omega), ← Nat.add_assoc]
  rw [z, o, t]
  have := backward_eq a p s y i hi
  generalize (∑ e ∈ range (s - 1 - i), a (p i) (i + 1 + e) * backward a p s y (i + 1 + e)) = w at *
  rw [this]
  field_simp
  ring

theorem solve_eq (A a : Nat → Nat → K) (p : Nat → Nat) (s : Nat) (h : Inv s A s a p) (b x : Nat → K) :
    ∀ r, r < s → ∑ j ∈ range s, A r j * solve false a p s b x j = b r := by
  intro r hr
  obtain ⟨i, hi, rfl⟩ := h.perm.surj r hr
  rw [solve]
  have fe := forward_eq a p s b x i hi
  generalize hy : forward false a p s b x = y at *
  have hA : ∀ j ∈ range s, A (p i) j * backward a p s y j = ∑ m ∈ range s, term (fun i j => a (p i) j) i j m * backward a p s y j := by
    intro j hj
    have hj := mem_range.mp hj
    rw [h.prod i j hi hj, rest, if_pos hi, add_zero, sum_mul]
  rw [sum_congr rfl hA, sum_comm]
  have ht : ∀ m ∈ range s, ∑ j ∈ range s, term (fun i j => a (p i) j) i j m * backward a p s y j =
      (if m < i then a (p i) m * y m else if m = i then y i else 0) := by
    intro m hm
    have hm := mem_range.mp hm
    have um := upper_mul a p s y m hm (h.diag m hm)
    simp only [term]
    by_cases h1 : m < i
    · rw [if_pos h1]
      simp only [if_pos h1]
      rw [← um, mul_sum]
      exact sum_congr rfl fun j _ => by ring
    · rw [if_neg h1]
      simp only [if_neg h1]
      by_cases h2 : m = i
      · subst h2
        simp only [if_true]
        exact um
      · simp [h2]
  rw [sum_congr rfl ht]
  have hs : s = i + (1 + (s - 1 - i)) := by omega
  rw [hs, sum_range_add, sum_range_add, sum_range_one]
  have z : ∑ e ∈ range (s - 1 - i), (if i + (1 + e) < i then a (p i) (i + (1 + e)) * y (i + (1 + e)) else if i + (1 + e) = i then y i else 0) = 0 :=
    sum_eq_zero fun e _ => by rw [if_neg (by omega), if_neg (by omega)]
  have l : ∑ m ∈ range i, (if m < i then a (p i) m * y m else if m = i then y i else 0) = ∑ m ∈ range i, a (p i) m * y m :=
    sum_congr rfl fun m hm => by rw [if_pos (mem_range.mp hm)]
  rw [z, l]
  simp only [Nat.add_zero, Nat.lt_irrefl, if_false, if_true, add_zero]
  rw [add_comm]
  exact fe

/-! ### Determinant -/

/-- The permutation of rows. -/
noncomputable def Perm.equiv {s : Nat} {p : Nat → Nat} (h : Perm s p) : Equiv.Perm (Fin s) :=
  Equiv.ofBijective (fun i => ⟨p i, h.lt i i.isLt⟩)
    ⟨fun i j e => Fin.ext (h.inj i j i.isLt j.isLt (by simpa using e)),
     fun r => by obtain ⟨i, hi, e⟩ := h.surj r r.isLt; exact ⟨⟨i, hi⟩, Fin.ext e⟩⟩

theorem det_eq (A a : Nat → Nat → K) (p : Nat → Nat) (s : Nat) (h : Inv s A s a p) :
    (Equiv.Perm.sign h.perm.equiv : ℤ) * (Matrix.of fun i j : Fin s => A i j).det = ∏ i ∈ range s, 1 / a (p i) i := by
  let L : Matrix (Fin s) (Fin s) K := Matrix.of fun i j => if j < i then a (p i) j else if j = i then 1 else 0
  let V : Matrix (Fin s) (Fin s) K := Matrix.of fun i j => U (fun i j => a (p i) j) i j
  have hLV : (Matrix.of fun i j : Fin s => A i j).submatrix h.perm.equiv id = L * V := by
    ext i j
    rw [Matrix.mul_apply]
    have e := h.prod i j i.isLt j.isLt
    rw [rest, if_pos i.isLt, add_zero, ← Fin.sum_univ_eq_sum_range (fun m => term (fun i j => a (p i) j) i j m)] at e
    simp only [Matrix.submatrix_apply, Matrix.of_apply, id]
    refine Eq.trans (show _ = A (p i) j from rfl) (e.trans (sum_congr rfl fun m _ => ?_))
    simp only [L, V, term, Matrix.of_apply, Fin.lt_def, Fin.ext_iff]
    split
    · rfl
    · split
      · rename_i h2; rw [h2, one_mul]
      · rw [zero_mul]
  have hL : L.det = 1 := by
    rw [Matrix.det_of_isLowerTriangular (M := L) (by
      intro i j hij
      have hij : i < j := hij
      simp only [L, Matrix.of_apply, if_neg (not_lt.mpr hij.le), if_neg hij.ne'])]
    exact prod_eq_one fun i _ => by simp [L]
  have hV : V.det = ∏ i ∈ range s, 1 / a (p i) i := by
    rw [Matrix.det_of_isUpperTriangular (M := V) (by
      intro i j hij
      have hij : (j : Nat) < i := hij
      simp only [V, U, Matrix.of_apply, if_pos hij])]
    rw [← Fin.prod_univ_eq_prod_range (fun i => 1 / a (p i) i)]
    exact prod_congr rfl fun i _ => by simp [V, U]
  have := congrArg Matrix.det hLV
  rw [Matrix.det_permute, Matrix.det_mul, hL, hV, one_mul] at this
  exact this

theorem luDet_eq (a : Nat → Nat → K) (p : Nat → Nat) (s : Nat) : luDeterminant a p s = ∏ i ∈ range s, 1 / a (p i) i := by
  have : ∀ n, loop n (fun i v => v * a (p i) i) 1 = ∏ i ∈ range n, a (p i) i := by
    intro n
    induction n with
    | zero => rfl
    | succ n ih => rw [loop, ih, prod_range_succ]
  rw [luDeterminant, this, prod_div_distrib]
  simp

end
end Eus.Mat
