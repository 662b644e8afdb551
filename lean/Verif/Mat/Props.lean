import Verif.Mat.Lu
import Mathlib.Data.Rat.Defs
import Mathlib.Algebra.Order.Ring.Rat
import Mathlib.Tactic.LinearCombination
import Mathlib.Tactic.NormNum
set_option autoImplicit false
set_option linter.unusedSectionVars false
/-
C103 matrix products; C104 results stored into arguments; C105 linear equations and inverses; C106 rotations; C107 determinants; C108 comparison of vectors; C109 integer vectors.
-/
namespace Eus.Mat
open Finset

/-! ### C103 matrix products -/

section
variable {K : Type} (add mul : K → K → K) (zero : K)

/-- C103. `(m* a b r)` puts the sums of products of the original elements, added in order of the index, in r, and changes nothing else, also if r is a or b (but not both), whatever the rounding of addition and multiplication.  Matrices of other shapes are an error.  Partial: see `C103_square_wrong`. -/
theorem C103_product_partial (S : Store K) (a b r : Mtx) :
    (a.cols = b.rows → r.rows = a.rows → r.cols = b.cols →
      (a.ent = r.ent → a.cols = r.cols) → ¬ (a.ent = r.ent ∧ b.ent = r.ent) →
      ∃ S', mTimes add mul zero S a b r = some S' ∧
        r.becomes S S' (fun i j => sumFrom add zero a.cols (fun k => mul (a.at S i k) (b.at S k j)))) ∧
    (¬ (a.cols = b.rows ∧ r.rows = a.rows ∧ r.cols = b.cols) → mTimes add mul zero S a b r = none) :=
  ⟨fun h1 h2 h3 h4 h5 => mTimes_spec add mul zero S a b r h1 h2 h3 h4 h5, fun h => by rw [mTimes, if_neg h]⟩

/-- The elements of a product of square matrices. -/
def square (n : Nat) (f g : Nat → Nat → K) : Nat → Nat → K := fun i j => sumFrom add zero n fun k => mul (f i k) (g k j)

theorem sumFrom_congr {n : Nat} {f g : Nat → K} (h : ∀ k, k < n → f k = g k) : sumFrom add zero n f = sumFrom add zero n g := by
  simp only [sumFrom]
  congr 1
  exact List.map_congr_left fun k hk => h k (List.mem_range.mp hk)

theorem chain_aux (n : Nat) (r : Mtx) (hr : r.rows = n ∧ r.cols = n) : ∀ (more : List Mtx) (S : Store K),
    (∀ m ∈ more, m.rows = n ∧ m.cols = n ∧ m.ent ≠ r.ent) → ∀ f, (∀ i j, i < n → j < n → r.at S i j = f i j) →
    ∃ S', more.foldlM (fun S m => mTimes add mul zero S r m r) S = some S' ∧
      r.becomes S S' (more.foldl (fun f m => square add mul zero n f (m.at S)) f)
  | [], S, _, f, hf => ⟨S, rfl, fun i j hi hj => by rw [hr.1] at hi; rw [hr.2] at hj; exact hf i j hi hj, fun _ _ => rfl⟩
  | m :: more, S, h, f, hf => by
    obtain ⟨m1, m2, m3⟩ := h m (List.mem_cons_self ..)
    obtain ⟨S1, e1, b1, b2⟩ := mTimes_spec add mul zero S r m r (by rw [hr.2, m1]) rfl (by rw [hr.2, m2]) (fun _ => rfl) (fun h => m3 h.2)
    obtain ⟨S2, e2, c1, c2⟩ := chain_aux n r hr more S1 (fun m' hm' => h m' (List.mem_cons_of_mem _ hm')) (square add mul zero n f (m.at S)) (by
      intro i j hi hj
      rw [b1 i j (by rw [hr.1]; exact hi) (by rw [hr.2]; exact hj), square, hr.2]
      exact sumFrom_congr add zero fun k hk => by rw [hf i k hi hk])
    refine ⟨S2, by rw [List.foldlM_cons, e1]; exact e2, fun i j hi hj => ?_, fun v hv => by rw [c2 v hv, b2 v hv]⟩
    rw [c1 i j hi hj, List.foldl_cons]
    have : ∀ (l : List Mtx) (g : Nat → Nat → K), (∀ m ∈ l, m.ent ≠ r.ent) →
        l.foldl (fun f m => square add mul zero n f (m.at S1)) g = l.foldl (fun f m => square add mul zero n f (m.at S)) g := by
      intro l
      induction l with
      | nil => intros; rfl
      | cons m' l ih =>
        intro g hl
        rw [List.foldl_cons, List.foldl_cons, ih _ fun x hx => hl x (List.mem_cons_of_mem _ hx)]
        have : m'.at S1 = m'.at S := by
          funext i j
          simp only [Mtx.at]
          rw [b2 _ (hl m' (List.mem_cons_self ..))]
        rw [this]
    rw [this more _ fun m' hm' => (h m' (List.mem_cons_of_mem _ hm')).2.2]

/-- C103. `(m** a b m ...)` of square matrices of the same size is ((a b) m) ..., in a new matrix, and nothing else is changed.  Partial: see `C103_chain_wrong`. -/
theorem C103_chain_partial (n : Nat) (S : Store K) (a b r : Mtx) (more : List Mtx)
    (h : ∀ m ∈ a :: b :: more, m.rows = n ∧ m.cols = n ∧ m.ent ≠ r.ent) (hr : r.rows = n ∧ r.cols = n) :
    ∃ S', mTimesAll add mul zero S a b r more = some S' ∧
      r.becomes S S' (more.foldl (fun f m => square add mul zero n f (m.at S)) (square add mul zero n (a.at S) (b.at S))) := by
  obtain ⟨a1, a2, a3⟩ := h a (by simp)
  obtain ⟨b1, b2, b3⟩ := h b (by simp)
  obtain ⟨S1, e1, c1, c2⟩ := mTimes_spec add mul zero S a b r (by omega) (by omega) (by omega) (fun _ => by omega) (fun h => b3 h.2)
  obtain ⟨S2, e2, d1, d2⟩ := chain_aux add mul zero n r hr more S1 (fun m hm => h m (by simp [hm])) (square add mul zero n (a.at S) (b.at S)) (by
    intro i j hi hj
    rw [c1 i j (by omega) (by omega), square, a2])
  refine ⟨S2, by rw [mTimesAll, e1]; exact e2, fun i j hi hj => ?_, fun v hv => by rw [d2 v hv, c2 v hv]⟩
  rw [d1 i j hi hj]
  have : ∀ (l : List Mtx) (g : Nat → Nat → K), (∀ m ∈ l, m.ent ≠ r.ent) →
      l.foldl (fun f m => square add mul zero n f (m.at S1)) g = l.foldl (fun f m => square add mul zero n f (m.at S)) g := by
    intro l
    induction l with
    | nil => intros; rfl
    | cons m' l ih =>
      intro g hl
      rw [List.foldl_cons, List.foldl_cons, ih _ fun x hx => hl x (List.mem_cons_of_mem _ hx)]
      have : m'.at S1 = m'.at S := by
        funext i j
        simp only [Mtx.at]
        rw [c2 _ (hl m' (List.mem_cons_self ..))]
      rw [this]
  rw [this more _ fun m hm => (h m (by simp [hm])).2.2]

end

/-- Vectors with the given elements. -/
def ofLists {K : Type} [Zero K] (l : List (List K)) : Store K := fun v i => (l.getD v []).getD i 0

example : ∃ S', mTimes (· + ·) (· * ·) (0 : Int) (ofLists [[1, 2, 3, 4], [5, 6, 7, 8]]) ⟨0, 0, 2, 2⟩ ⟨1, 1, 2, 2⟩ ⟨1, 1, 2, 2⟩ = some S' ∧
    (List.range 4).map (S' 1) = [19, 22, 43, 50] ∧ (List.range 4).map (S' 0) = [1, 2, 3, 4] := ⟨_, rfl, by decide +kernel, by decide +kernel⟩

/-- C103 fails for `(m* a a a)`, the square of a matrix stored in itself: the second column is computed from the new first one. -/
theorem C103_square_wrong : ∃ S S' : Store Int, mTimes (· + ·) (· * ·) 0 S ⟨0, 0, 2, 2⟩ ⟨0, 0, 2, 2⟩ ⟨0, 0, 2, 2⟩ = some S' ∧
    ¬ Mtx.becomes ⟨0, 0, 2, 2⟩ S S' (square (· + ·) (· * ·) 0 2 (Mtx.at ⟨0, 0, 2, 2⟩ S) (Mtx.at ⟨0, 0, 2, 2⟩ S)) := by
  refine ⟨ofLists [[1, 1, 1, 1]], _, rfl, fun h => ?_⟩
  exact absurd (h.1 0 1 (by decide) (by decide)) (by decide +kernel)

/-- C103 fails for `(m** a b c)` with matrices of 2 by 3, 3 by 3 and 3 by 2: the product exists, but the matrix of the first one is used to hold it, and m* gives an error. -/
theorem C103_chain_wrong (S : Store Int) : ∃ a b c : Mtx, a.cols = b.rows ∧ b.cols = c.rows ∧
    ∀ r : Mtx, r.ent ∉ [a.ent, b.ent, c.ent] → mTimesAll (· + ·) (· * ·) 0 S a b r [c] = none := by
  refine ⟨⟨0, 0, 2, 3⟩, ⟨1, 1, 3, 3⟩, ⟨2, 2, 3, 2⟩, rfl, rfl, fun r _ => ?_⟩
  rw [mTimesAll]
  by_cases h : r.rows = 2 ∧ r.cols = 3
  · cases hm : mTimes (· + ·) (· * ·) (0 : Int) S ⟨0, 0, 2, 3⟩ ⟨1, 1, 3, 3⟩ r with
    | none => rfl
    | some S1 =>
      rw [Option.bind_some, List.foldlM_cons, mTimes, if_neg (by simp [h])]
      rfl
  · rw [mTimes, if_neg (by simpa using h)]
    rfl

/-! ### C104 storing into the arguments -/

section
variable {K : Type} (add sub mul : K → K → K) (zero : K)

/-- C104. `(v+ a b r)` and `(v- a b r)` put the sums or differences of the original elements in r, for all a, b and r, the same ones or not. -/
theorem C104_sum (op : K → K → K) (S : Store K) (a b r : Vec) :
    if a.size = b.size ∧ r.size = a.size then
      ∃ S', vzip op S a b r = some S' ∧ r.becomes S S' fun i => op (S a.ent i) (S b.ent i)
    else vzip op S a b r = none := by
  split
  · rename_i h
    rw [vzip, if_pos h]
    refine ⟨_, rfl, fun v i => ?_⟩
    rw [zip_loop S r.ent (fun i S => op (S a.ent i) (S b.ent i)) (fun i S S' h => by simp only [h]), h.2]
  · rename_i h
    rw [vzip, if_neg h]

/-- C104. `(scale k a r)` likewise. -/
theorem C104_scale (S : Store K) (k : K) (a r : Vec) :
    if r.size = a.size then ∃ S', scale mul S k a r = some S' ∧ r.becomes S S' fun i => mul k (S a.ent i)
    else scale mul S k a r = none := by
  split
  · rename_i h
    rw [scale, if_pos h]
    refine ⟨_, rfl, fun v i => ?_⟩
    rw [zip_loop S r.ent (fun i S => mul k (S a.ent i)) (fun i S S' h => by simp only [h]), h]
  · rename_i h
    rw [scale, if_neg h]

/-- C104. `(transform m v r)` and `(transform v m r)` likewise: r may be v. -/
theorem C104_transform (S : Store K) (m : Mtx) (v r : Vec) :
    (if m.cols = v.size ∧ r.size = m.rows then
      ∃ S', transformMV add mul zero S m v r = some S' ∧
        r.becomes S S' fun i => sumFrom add zero m.cols fun j => mul (m.at S i j) (S v.ent j)
    else transformMV add mul zero S m v r = none) ∧
    (if m.rows = v.size ∧ r.size = m.cols then
      ∃ S', transformVM add mul zero S v m r = some S' ∧
        r.becomes S S' fun j => sumFrom add zero m.rows fun i => mul (m.at S i j) (S v.ent i)
    else transformVM add mul zero S v m r = none) := by
  constructor
  · split
    · rename_i h
      rw [transformMV, if_pos h]
      refine ⟨_, rfl, fun v' i => ?_⟩
      rw [store_loop, h.2]
      simp only [accum_eq, Mtx.at]
    · rename_i h
      rw [transformMV, if_neg h]
  · split
    · rename_i h
      rw [transformVM, if_pos h]
      refine ⟨_, rfl, fun v' i => ?_⟩
      rw [store_loop, h.2]
      simp only [accum_eq, Mtx.at, Nat.add_comm]
    · rename_i h
      rw [transformVM, if_neg h]

/-- C104. `(transpose m r)` likewise: r is m, or shares nothing with it. -/
theorem C104_transpose (S : Store K) (m r : Mtx) (h : r = m ∨ r.id ≠ m.id ∧ r.ent ≠ m.ent) :
    if r.rows = m.cols ∧ r.cols = m.rows then ∃ S', transpose S m r = some S' ∧ r.becomes S S' (fun i j => m.at S j i)
    else transpose S m r = none := by
  split
  · rename_i h1
    exact transpose_spec S m r h1.1 h1.2 h
  · rename_i h1
    rw [transpose, if_neg h1]

/-- C104. `(v* a b r)`, the cross product, if r is another vector.  Partial: see `C104_cross_wrong`. -/
theorem C104_cross_partial (S : Store K) (a b r : Vec) (ha : a.size = 3) (hb : b.size = 3) (hr : r.size = 3) (h1 : a.ent ≠ r.ent) (h2 : b.ent ≠ r.ent) :
    ∃ S', vcross sub mul S a b r = some S' ∧ r.becomes S S' fun i =>
      sub (mul (S a.ent ((i + 1) % 3)) (S b.ent ((i + 2) % 3))) (mul (S a.ent ((i + 2) % 3)) (S b.ent ((i + 1) % 3))) := by
  rw [vcross, if_pos ⟨ha, hb, hr⟩]
  refine ⟨_, rfl, fun v i => ?_⟩
  dsimp only
  rw [hr]
  by_cases hv : v = r.ent
  · subst hv
    match i with
    | 0 => simp [Store.set]
    | 1 => simp [Store.set, h1, h2]
    | 2 => simp [Store.set, h1, h2]
    | i + 3 =>
      rw [set_other _ _ (by omega), set_other _ _ (by omega), set_other _ _ (by omega), if_neg (by omega)]
  · rw [set_vec _ _ hv, set_vec _ _ hv, set_vec _ _ hv, if_neg (fun h => hv h.1)]

end

example : ∃ S', transpose (ofLists [[1, 2, 3, 4]] : Store Int) ⟨0, 0, 2, 2⟩ ⟨0, 0, 2, 2⟩ = some S' ∧ (List.range 4).map (S' 0) = [1, 3, 2, 4] :=
  ⟨_, rfl, by decide +kernel⟩
example : ∃ S', transformMV (· + ·) (· * ·) (0 : Int) (ofLists [[1, 2, 3, 4], [5, 6]]) ⟨0, 0, 2, 2⟩ ⟨1, 2⟩ ⟨1, 2⟩ = some S' ∧ (List.range 2).map (S' 1) = [17, 39] :=
  ⟨_, rfl, by decide +kernel⟩

/-- C104 fails for `(v* a b a)`: a × b is not what is stored in a. -/
theorem C104_cross_wrong : ∃ S S' : Store Int, vcross (· - ·) (· * ·) S ⟨0, 3⟩ ⟨1, 3⟩ ⟨0, 3⟩ = some S' ∧
    S' 0 1 ≠ S 0 2 * S 1 0 - S 0 0 * S 1 2 :=
  ⟨ofLists [[1, 0, 0], [0, 1, 1]], _, rfl, by decide +kernel⟩

/-! ### C105 equations and inverses -/

section
variable {K : Type} [Field K] [LinearOrder K]

/-- C105. If lu-decompose gives a decomposition of m (not NIL), then the x that lu-solve computes from it for b into a vector other than b satisfies m x = b.  Partial: without rounding; see also `C105_overwrite_wrong`. -/
theorem C105_solve_partial (eps : K) (heps : 0 < eps) (s : Nat) (m a : Nat → Nat → K) (p : Nat → Nat) (h : decompose eps s m s = some (a, p))
    (b x : Nat → K) : ∀ i, i < s → mulVec s m (solve false a p s b x) i = b i := by
  intro i hi
  rw [mulVec, sumFrom_eq]
  exact solve_eq m a p s (decompose_inv eps heps s m s (Nat.le_refl _) a p h) b x i hi

/-- The right inverse that inverse-matrix computes. -/
theorem inverse_right (eps : K) (heps : 0 < eps) (s : Nat) (m r : Nat → Nat → K) (h : inverseMatrix eps s m = some r) :
    ∀ i k, i < s → k < s → mulMat s m r i k = if i = k then 1 else 0 := by
  rw [inverseMatrix, Option.map_eq_some_iff] at h
  obtain ⟨⟨a, p⟩, hd, rfl⟩ := h
  intro i k hi hk
  have hr : ∀ n, n ≤ s → ∀ j k, j < s → k < s → loop n (fun i r =>
      let rvec := solve false a p s (fun k => if k = i then 1 else 0) (fun _ => 0)
      loop s (fun j r => upd r j i (rvec j)) r) (fun _ _ => (0 : K)) j k =
      if k < n then solve false a p s (fun k' => if k' = k then 1 else 0) (fun _ => 0) j else 0 := by
    intro n hn
    refine loop_inv (fun n (r : Nat → Nat → K) => ∀ j k, j < s → k < s → r j k = if k < n then solve false a p s (fun k' => if k' = k then 1 else 0) (fun _ => 0) j else 0)
      _ _ (fun _ _ _ _ => by simp) n ?_
    intro c r _ ih j k hj hk
    have inner : ∀ (f : Nat → K) t, ∀ j k, loop t (fun j r => upd r j c (f j)) r j k = if k = c ∧ j < t then f j else r j k := by
      intro f t
      refine loop_inv (fun t (r' : Nat → Nat → K) => ∀ j k, r' j k = if k = c ∧ j < t then f j else r j k) _ _ (fun _ _ => by simp) t ?_
      intro t r' _ ih j k
      by_cases h : j = t ∧ k = c
      · obtain ⟨rfl, rfl⟩ := h
        rw [upd_same, if_pos ⟨rfl, by omega⟩]
      · rw [upd_other _ _ h, ih]
        by_cases h2 : k = c ∧ j < t
        · rw [if_pos h2, if_pos ⟨h2.1, by omega⟩]
        · rw [if_neg h2, if_neg (fun h3 => h2 ⟨h3.1, by have : j ≠ t := fun e => h ⟨e, h3.1⟩; omega⟩)]
    rw [inner]
    by_cases h : k = c
    · subst h
      rw [if_pos ⟨rfl, hj⟩, if_pos (by omega)]
    · rw [if_neg (fun h2 => h h2.1), ih j k hj hk]
      by_cases h2 : k < c
      · rw [if_pos h2, if_pos (by omega)]
      · rw [if_neg h2, if_neg (by omega)]
  rw [mulMat]
  have e := C105_solve_partial eps heps s m a p hd (fun k' => if k' = k then 1 else 0) (fun _ => 0) i hi
  rw [mulVec] at e
  rw [← e]
  exact sumFrom_congr _ _ fun j hj => by
    dsimp only
    rw [hr s (Nat.le_refl _) j k hj hk, if_pos hk]

theorem toMatrix_mul (s : Nat) (a b : Nat → Nat → K) :
    (Matrix.of fun i j : Fin s => a i j) * (Matrix.of fun i j : Fin s => b i j) = Matrix.of fun i j : Fin s => mulMat s a b i j := by
  ext i k
  rw [Matrix.mul_apply, Matrix.of_apply, mulMat, sumFrom_eq, ← Fin.sum_univ_eq_sum_range (fun j => a i j * b j k)]
  rfl

/-- m has an inverse: r with m r = 1 and r m = 1. -/
def IsInverse (s : Nat) (m r : Nat → Nat → K) : Prop :=
  ∀ i k, i < s → k < s → mulMat s m r i k = (if i = k then 1 else 0) ∧ mulMat s r m i k = if i = k then 1 else 0

/-- C105. If inverse-matrix returns a matrix, it is the inverse, on both sides; so for a matrix without an inverse it returns the symbol `degenerated`.  Partial: without rounding; see `C105_small_wrong`. -/
theorem C105_inverse_partial (eps : K) (heps : 0 < eps) (s : Nat) (m : Nat → Nat → K) :
    (∀ r, inverseMatrix eps s m = some r → IsInverse s m r) ∧
    ((¬ ∃ r, IsInverse s m r) → inverseMatrix eps s m = none) := by
  have key : ∀ r, inverseMatrix eps s m = some r → IsInverse s m r := by
    intro r h i k hi hk
    have h1 := inverse_right eps heps s m r h
    refine ⟨h1 i k hi hk, ?_⟩
    have e : (Matrix.of fun i j : Fin s => m i j) * (Matrix.of fun i j : Fin s => r i j) = 1 := by
      rw [toMatrix_mul]
      ext i k
      rw [Matrix.of_apply, h1 i k i.isLt k.isLt, Matrix.one_apply]
      simp [Fin.ext_iff]
    have e2 := mul_eq_one_comm.mp e
    rw [toMatrix_mul] at e2
    have := congrFun (congrFun e2 ⟨i, hi⟩) ⟨k, hk⟩
    rw [Matrix.of_apply, Matrix.one_apply] at this
    simpa [Fin.ext_iff] using this
  refine ⟨key, fun h => ?_⟩
  cases hr : inverseMatrix eps s m with
  | none => rfl
  | some r => exact absurd ⟨r, key r hr⟩ h

/-- C105. If simultaneous-equation returns a vector, it is the one and only solution of m x = v.  Partial: without rounding. -/
theorem C105_equation_partial (eps : K) (heps : 0 < eps) (s : Nat) (m : Nat → Nat → K) (v x : Nat → K)
    (h : simultaneousEquation eps s m v = some x) :
    (∀ i, i < s → mulVec s m x i = v i) ∧
    ∀ y, (∀ i, i < s → mulVec s m y i = v i) → ∀ i, i < s → y i = x i := by
  rw [simultaneousEquation, Option.map_eq_some_iff] at h
  obtain ⟨⟨a, p⟩, hd, rfl⟩ := h
  have hx : ∀ i, i < s → mulVec s m (solve false a p s v fun _ => 0) i = v i := C105_solve_partial eps heps s m a p hd v (fun _ => 0)
  refine ⟨hx, fun y hy => ?_⟩
  generalize (solve false a p s v fun _ => 0) = x at *
  obtain ⟨r, hr⟩ : ∃ r, inverseMatrix eps s m = some r := ⟨_, by rw [inverseMatrix, hd]; rfl⟩
  have hi := (C105_inverse_partial eps heps s m).1 r hr
  have step : ∀ z : Nat → K, (∀ i, i < s → mulVec s m z i = v i) → ∀ i, i < s → z i = ∑ j ∈ range s, r i j * v j := by
    intro z hz i hi'
    have : ∑ j ∈ range s, r i j * v j = ∑ j ∈ range s, r i j * ∑ k ∈ range s, m j k * z k :=
      sum_congr rfl fun j hj => by rw [← hz j (mem_range.mp hj), mulVec, sumFrom_eq]
    rw [this]
    simp only [mul_sum]
    rw [sum_comm]
    have : ∀ k ∈ range s, ∑ j ∈ range s, r i j * (m j k * z k) = if k = i then z i else 0 := by
      intro k hk
      have hk := mem_range.mp hk
      have e := (hi i k hi' hk).2
      rw [mulMat, sumFrom_eq] at e
      simp only [← mul_assoc]
      rw [← sum_mul, e]
      by_cases h : i = k
      · subst h; simp
      · rw [if_neg h, if_neg (fun e => h e.symm), zero_mul]
    rw [sum_congr rfl this, sum_ite_eq', if_pos (mem_range.mpr hi')]
  intro i hi'
  rw [step y hy i hi', step x hx i hi']

end

/-- A matrix with the given rows. -/
def ofRows {K : Type} [Zero K] (l : List (List K)) : Nat → Nat → K := fun i j => (l.getD i []).getD j 0

theorem exchanged : (decompose (1/10000000000 : Rat) 2 (ofRows [[0, 1], [1, 0]]) 2).isSome = true := by decide +kernel

theorem inverted : (inverseMatrix (1/10000000000 : Rat) 3 (ofRows [[0, 1, 2], [1, 0, 3], [4, -3, 8]])).isSome = true := by decide +kernel

example : ∃ r : Nat → Nat → Rat, inverseMatrix (1/10000000000 : Rat) 3 (ofRows [[0, 1, 2], [1, 0, 3], [4, -3, 8]]) = some r ∧
    (List.range 3).map (fun i => (List.range 3).map (r i)) = [[-9/2, 7, -3/2], [-2, 4, -1], [3/2, -2, 1/2]] := by
  exact ⟨_, (Option.some_get inverted).symm, by decide +kernel⟩

/-- C105 fails for small numbers: the matrix ((0.00000000001)) has an inverse, but is called degenerated. -/
theorem C105_small_wrong : ∃ m r : Nat → Nat → Rat, IsInverse 1 m r ∧ inverseMatrix (1/10000000000 : Rat) 1 m = none := by
  refine ⟨fun _ _ => 1/100000000000, fun _ _ => 100000000000, fun i k hi hk => ?_, ?_⟩
  · obtain rfl : i = 0 := by omega
    obtain rfl : k = 0 := by omega
    decide +kernel
  · rw [inverseMatrix, Option.map_eq_none_iff]
    exact Option.isNone_iff_eq_none.mp (by decide +kernel)

/-- C105 fails for `(lu-solve a p b b)`: with the exchange of rows, elements of b are overwritten before they are used. -/
theorem C105_overwrite_wrong : ∃ (m a : Nat → Nat → Rat) (p : Nat → Nat) (b : Nat → Rat), decompose (1/10000000000 : Rat) 2 m 2 = some (a, p) ∧
    mulVec 2 m (solve true a p 2 b b) 0 ≠ b 0 := by
  exact ⟨ofRows [[0, 1], [1, 0]], _, _, fun i => [1, 2].getD i 0, (Option.some_get exchanged).symm, by decide +kernel⟩

/-! ### C107 determinants -/

section
variable {K : Type} [Field K] [LinearOrder K]

/-- C107. lu-determinant of a decomposition of m is the determinant of m times the sign of the permutation that lu-decompose returned.  Partial: without rounding; it is not the determinant, see `C107_sign_wrong`. -/
theorem C107_determinant_partial (eps : K) (heps : 0 < eps) (s : Nat) (m a : Nat → Nat → K) (p : Nat → Nat) (h : decompose eps s m s = some (a, p)) :
    ∃ σ : Equiv.Perm (Fin s), (∀ i, (σ i : Nat) = p i) ∧
      luDeterminant a p s = (Equiv.Perm.sign σ : ℤ) * (Matrix.of fun i j : Fin s => m i j).det := by
  have hi := decompose_inv eps heps s m s (Nat.le_refl _) a p h
  exact ⟨hi.perm.equiv, fun _ => rfl, by rw [luDet_eq, det_eq m a p s hi]⟩

end

/-- C107 fails for ((0 1) (1 0)): the result is 1, the determinant is -1. -/
theorem C107_sign_wrong : ∃ (m a : Nat → Nat → Rat) (p : Nat → Nat), decompose (1/10000000000 : Rat) 2 m 2 = some (a, p) ∧
    luDeterminant a p 2 = 1 ∧ (Matrix.of fun i j : Fin 2 => m i j).det = -1 := by
  refine ⟨ofRows [[0, 1], [1, 0]], _, _, (Option.some_get exchanged).symm, by decide +kernel, ?_⟩
  rw [Matrix.det_fin_two]
  decide +kernel

/-! ### C106 rotations -/

section
variable {K : Type} [Field K]

/-- The first three rows and columns are the same. -/
def Same3 (a b : Nat → Nat → K) : Prop := ∀ i j, i < 3 → j < 3 → a i j = b i j

/-- The matrix of the rotation by an angle with cosine c and sine s: the three axes. -/
def axisMatrix (c s : K) : Axis → (Nat → Nat → K)
  | .x => ofRows [[1, 0, 0], [0, c, -s], [0, s, c]]
  | .y => ofRows [[c, 0, s], [0, 1, 0], [-s, 0, c]]
  | .z => ofRows [[c, -s, 0], [s, c, 0], [0, 0, 1]]
  | .mx => ofRows [[1, 0, 0], [0, c, s], [0, -s, c]]
  | .my => ofRows [[c, 0, -s], [0, 1, 0], [s, 0, c]]
  | .mz => ofRows [[c, s, 0], [-s, c, 0], [0, 0, 1]]

theorem lt3 {i : Nat} (h : i < 3) : i = 0 ∨ i = 1 ∨ i = 2 := by omega

/-- C106. rotate-matrix in world coordinates multiplies the rotation on the left, in local coordinates on the right; rotation-matrix is the rotation; rotate-vector multiplies the vector by it. -/
theorem C106_rotate (m : Nat → Nat → K) (v : Nat → K) (c s : K) (ax : Axis) :
    Same3 (rotateMatrix m c s ax true) (mulMat 3 (axisMatrix c s ax) m) ∧
    Same3 (rotateMatrix m c s ax false) (mulMat 3 m (axisMatrix c s ax)) ∧
    Same3 (rotationMatrix c s ax) (axisMatrix c s ax) ∧
    ∀ w, rotateVector v c s ax = some w → ∀ i, i < 3 → w i = mulVec 3 (axisMatrix c s ax) v i := by
  refine ⟨fun i j hi hj => ?_, fun i j hi hj => ?_, fun i j hi hj => ?_, fun w hw i hi => ?_⟩
  · rcases lt3 hi with rfl | rfl | rfl <;> rcases lt3 hj with rfl | rfl | rfl <;> cases ax <;>
      simp [rotateMatrix, Axis.coef, loop, upd, mulMat, sumFrom, List.range_succ, axisMatrix, ofRows] <;> ring
  · rcases lt3 hi with rfl | rfl | rfl <;> rcases lt3 hj with rfl | rfl | rfl <;> cases ax <;>
      simp [rotateMatrix, Axis.coef, loop, upd, mulMat, sumFrom, List.range_succ, axisMatrix, ofRows] <;> ring
  · rcases lt3 hi with rfl | rfl | rfl <;> rcases lt3 hj with rfl | rfl | rfl <;> cases ax <;>
      simp [rotationMatrix, mat9, axisMatrix, ofRows]
  · cases ax <;> simp only [rotateVector, Option.some.injEq, reduceCtorEq] at hw <;> subst hw <;>
      rcases lt3 hi with rfl | rfl | rfl <;>
      simp [mulVec, sumFrom, List.range_succ, axisMatrix, ofRows]

/-- C106. rotation-matrix about a vector u of length 1: the result is orthogonal, leaves u as it is, and turns each vector w orthogonal to u to c w + s (u × w). -/
theorem C106_about (c s x y z : K) (h1 : c * c + s * s = 1) (h2 : x * x + y * y + z * z = 1) :
    Same3 (mulMat 3 (rotationAbout c s x y z) (fun i j => rotationAbout c s x y z j i)) (fun i j => if i = j then 1 else 0) ∧
    (∀ i, i < 3 → mulVec 3 (rotationAbout c s x y z) (fun i => [x, y, z].getD i 0) i = [x, y, z].getD i 0) ∧
    ∀ w : Nat → K, w 0 * x + w 1 * y + w 2 * z = 0 → ∀ i, i < 3 →
      mulVec 3 (rotationAbout c s x y z) w i = c * w i + s * [y * w 2 - z * w 1, z * w 0 - x * w 2, x * w 1 - y * w 0].getD i 0 := by
  have hz : z * z = 1 - x * x - y * y := by linear_combination h2
  have hs : s * s = 1 - c * c := by linear_combination h1
  refine ⟨fun i j hi hj => ?_, fun i hi => ?_, fun w hw i hi => ?_⟩
  · rcases lt3 hi with rfl | rfl | rfl <;> rcases lt3 hj with rfl | rfl | rfl <;>
      simp [mulMat, sumFrom, List.range_succ, rotationAbout, mat9]
    · linear_combination (x^2 * (1-c)^2 + s^2) * h2 + (1 - x^2) * h1
    · linear_combination (x*y * (1-c)^2) * h2 - x*y * h1
    · linear_combination (x*z * (1-c)^2) * h2 - x*z * h1
    · linear_combination (x*y * (1-c)^2) * h2 - x*y * h1
    · linear_combination (y^2 * (1-c)^2 + s^2) * h2 + (1 - y^2) * h1
    · linear_combination (y*z * (1-c)^2) * h2 - y*z * h1
    · linear_combination (x*z * (1-c)^2) * h2 - x*z * h1
    · linear_combination (y*z * (1-c)^2) * h2 - y*z * h1
    · linear_combination (z^2 * (1-c)^2 + s^2) * h2 + (1 - z^2) * h1
  · rcases lt3 hi with rfl | rfl | rfl <;>
      simp [mulVec, sumFrom, List.range_succ, rotationAbout, mat9]
    · linear_combination x * (1 - c) * h2
    · linear_combination y * (1 - c) * h2
    · linear_combination z * (1 - c) * h2
  · rcases lt3 hi with rfl | rfl | rfl <;>
      simp [mulVec, sumFrom, List.range_succ, rotationAbout, mat9]
    · linear_combination x * (1 - c) * hw
    · linear_combination y * (1 - c) * hw
    · linear_combination z * (1 - c) * hw

/-- C106. rotate-matrix of 2 by 2 matrices: in world coordinates the rotation is multiplied on the left.  Partial: see `C106_local_wrong`. -/
theorem C106_two_partial (m : Nat → Nat → K) (c s : K) (i j : Nat) (hi : i < 2) (hj : j < 2) :
    rotateMatrix2 m c s true i j = mulMat 2 (ofRows [[c, -s], [s, c]]) m i j := by
  rcases (by omega : i = 0 ∨ i = 1) with rfl | rfl <;> rcases (by omega : j = 0 ∨ j = 1) with rfl | rfl <;>
    simp [rotateMatrix2, mulMat, sumFrom, List.range_succ, ofRows, sub_eq_add_neg]

end

example : ((3 : Rat)/5) * (3/5) + 4/5 * (4/5) = 1 ∧ (2 : Rat)/3 * (2/3) + 2/3 * (2/3) + 1/3 * (1/3) = 1 := by norm_num

/-- C106 fails for 2 by 2 matrices in local coordinates: the rotation is multiplied on the left there too. -/
theorem C106_local_wrong : ∃ (m : Nat → Nat → Rat) (c s : Rat), c * c + s * s = 1 ∧
    rotateMatrix2 m c s false 0 0 ≠ mulMat 2 m (ofRows [[c, -s], [s, c]]) 0 0 :=
  ⟨ofRows [[1, 1], [0, 1]], 0, 1, by decide +kernel, by decide +kernel⟩

/-! ### C108 comparison -/

section
variable {K : Type} [LinearOrder K]

/-- C108. `(v< a b)` is T exactly if no element of a is larger than that of b, and `(v> a b)` exactly if none is smaller.  Partial: the manual says "every element is smaller", see `C108_less_wrong`. -/
theorem C108_less_partial (n : Nat) (a b : Nat → K) :
    (vless n a b = true ↔ ∀ i, i < n → a i ≤ b i) ∧ (vgreater n a b = true ↔ ∀ i, i < n → b i ≤ a i) := by
  constructor
  · simp [vless, List.all_eq_true]
  · simp [vgreater, List.all_eq_true]

theorem vmin_aux (j : Nat) : ∀ (more : List (Nat → K)) (r : Nat → K),
    ((vmin r more j = r j ∨ ∃ v ∈ more, vmin r more j = v j) ∧ vmin r more j ≤ r j ∧ ∀ v ∈ more, vmin r more j ≤ v j)
  | [], r => ⟨Or.inl rfl, le_refl _, fun v hv => by cases hv⟩
  | v :: more, r => by
    obtain ⟨h1, h2, h3⟩ := vmin_aux j more (fun j => if v j < r j then v j else r j)
    have e : vmin r (v :: more) = vmin (fun j => if v j < r j then v j else r j) more := rfl
    rw [e]
    generalize vmin (fun j => if v j < r j then v j else r j) more j = x at *
    by_cases h : v j < r j
    · simp only [if_pos h] at h1 h2
      refine ⟨?_, h2.trans h.le, fun w hw => ?_⟩
      · rcases h1 with h1 | ⟨w, hw, h1⟩
        · exact Or.inr ⟨v, List.mem_cons_self .., h1⟩
        · exact Or.inr ⟨w, List.mem_cons_of_mem _ hw, h1⟩
      · rcases List.mem_cons.mp hw with rfl | hw
        · exact h2
        · exact h3 w hw
    · simp only [if_neg h] at h1 h2
      refine ⟨?_, h2, fun w hw => ?_⟩
      · rcases h1 with h1 | ⟨w, hw, h1⟩
        · exact Or.inl h1
        · exact Or.inr ⟨w, List.mem_cons_of_mem _ hw, h1⟩
      · rcases List.mem_cons.mp hw with rfl | hw
        · exact h2.trans (not_lt.mp h)
        · exact h3 w hw

theorem vmax_aux (j : Nat) : ∀ (more : List (Nat → K)) (r : Nat → K),
    ((vmax r more j = r j ∨ ∃ v ∈ more, vmax r more j = v j) ∧ r j ≤ vmax r more j ∧ ∀ v ∈ more, v j ≤ vmax r more j)
  | [], r => ⟨Or.inl rfl, le_refl _, fun v hv => by cases hv⟩
  | v :: more, r => by
    obtain ⟨h1, h2, h3⟩ := vmax_aux j more (fun j => if v j > r j then v j else r j)
    have e : vmax r (v :: more) = vmax (fun j => if v j > r j then v j else r j) more := rfl
    rw [e]
    generalize vmax (fun j => if v j > r j then v j else r j) more j = x at *
    by_cases h : v j > r j
    · simp only [if_pos h] at h1 h2
      refine ⟨?_, h.le.trans h2, fun w hw => ?_⟩
      · rcases h1 with h1 | ⟨w, hw, h1⟩
        · exact Or.inr ⟨v, List.mem_cons_self .., h1⟩
        · exact Or.inr ⟨w, List.mem_cons_of_mem _ hw, h1⟩
      · rcases List.mem_cons.mp hw with rfl | hw
        · exact h2
        · exact h3 w hw
    · simp only [if_neg h] at h1 h2
      refine ⟨?_, h2, fun w hw => ?_⟩
      · rcases h1 with h1 | ⟨w, hw, h1⟩
        · exact Or.inl h1
        · exact Or.inr ⟨w, List.mem_cons_of_mem _ hw, h1⟩
      · rcases List.mem_cons.mp hw with rfl | hw
        · exact (not_lt.mp h).trans h2
        · exact h3 w hw

/-- C108. vmin and vmax give the smallest and largest element of each index, and minimal-box the same two vectors. -/
theorem C108_min_max (v : Nat → K) (more : List (Nat → K)) (j : Nat) :
    (∃ w ∈ v :: more, vmin v more j = w j) ∧ (∀ w ∈ v :: more, vmin v more j ≤ w j) ∧
    (∃ w ∈ v :: more, vmax v more j = w j) ∧ (∀ w ∈ v :: more, w j ≤ vmax v more j) ∧
    (minimalBox v more).1 j = vmin v more j ∧ (minimalBox v more).2 j = vmax v more j := by
  obtain ⟨a1, a2, a3⟩ := vmin_aux j more v
  obtain ⟨b1, b2, b3⟩ := vmax_aux j more v
  have box : ∀ (more : List (Nat → K)) (lo hi : Nat → K), (∀ j, lo j ≤ hi j) →
      more.foldl (fun q f =>
        ((fun j => if f j < q.1 j then f j else q.1 j,
          fun j => if f j < q.1 j then q.2 j else if f j > q.2 j then f j else q.2 j) : (Nat → K) × (Nat → K))) (lo, hi) = (vmin lo more, vmax hi more) := by
    intro more
    induction more with
    | nil => intros; rfl
    | cons f more ih =>
      intro lo hi hl
      have e : (fun j => if f j < lo j then hi j else if f j > hi j then f j else hi j) = fun j => if f j > hi j then f j else hi j := by
        funext j
        by_cases h : f j < lo j
        · rw [if_pos h, if_neg (not_lt.mpr (h.le.trans (hl j)))]
        · rw [if_neg h]
      rw [List.foldl_cons]
      dsimp only
      rw [e, ih _ _ (fun j => by
        split <;> split
        · exact le_refl _
        · rename_i h _; exact h.le.trans (hl j)
        · rename_i h; exact (hl j).trans (le_of_lt h)
        · exact hl j)]
      rfl
  refine ⟨?_, ?_, ?_, ?_, ?_, ?_⟩
  · rcases a1 with h | ⟨w, hw, h⟩
    · exact ⟨v, List.mem_cons_self .., h⟩
    · exact ⟨w, List.mem_cons_of_mem _ hw, h⟩
  · intro w hw
    rcases List.mem_cons.mp hw with rfl | hw
    · exact a2
    · exact a3 w hw
  · rcases b1 with h | ⟨w, hw, h⟩
    · exact ⟨v, List.mem_cons_self .., h⟩
    · exact ⟨w, List.mem_cons_of_mem _ hw, h⟩
  · intro w hw
    rcases List.mem_cons.mp hw with rfl | hw
    · exact b2
    · exact b3 w hw
  · rw [minimalBox, box more v v fun _ => le_refl _]
  · rw [minimalBox, box more v v fun _ => le_refl _]

end

/-- C108 fails: `(v< a a)` is T, though no element is smaller than itself. -/
theorem C108_less_wrong : ∃ (n : Nat) (a : Nat → Int), 0 < n ∧ vless n a a = true ∧ ¬ ∀ i, i < n → a i < a i :=
  ⟨1, fun _ => 0, by decide, rfl, fun h => absurd (h 0 (by decide)) (by decide)⟩

/-! ### C109 integer vectors -/

theorem iInner_eq (a b : Nat → BitVec 64) : ∀ n, iInner n a b = BitVec.ofInt 64 (sumFrom (· + ·) 0 n fun i => (a i).toInt * (b i).toInt)
  | 0 => rfl
  | n + 1 => by
    have ih := iInner_eq a b n
    simp only [iInner, sumFrom] at ih ⊢
    rw [loop, ih, List.range_succ]
    simp [BitVec.ofInt_add, BitVec.ofInt_mul]

/-- C109. `(v. a b)` of integer vectors is the sum of the products, if it is an integer of 64 bits.  Partial: see `C109_inner_wrong`. -/
theorem C109_inner_partial (n : Nat) (a b : Nat → BitVec 64) (z : Int) (hz : z = sumFrom (· + ·) 0 n fun i => (a i).toInt * (b i).toInt)
    (h1 : -2^63 ≤ z) (h2 : z < 2^63) : (iInner n a b).toInt = z := by
  rw [iInner_eq, ← hz]
  exact BitVec.toInt_ofInt_eq_self (by decide) (by simpa using h1) (by simpa using h2)

/-- C109. `(v-abs a b)` of integer vectors: the distances of the elements, if they are less than 2^31.  Partial: see `C109_abs_wrong`. -/
theorem C109_abs_partial (a b : BitVec 64) (h : (a.toInt - b.toInt).natAbs < 2^31) : (iMinusAbs a b).toInt = (a.toInt - b.toInt).natAbs := by
  have e : (a - b).setWidth 32 = BitVec.ofInt 32 (a.toInt - b.toInt) := by
    apply BitVec.eq_of_toInt_eq
    rw [BitVec.toInt_setWidth, BitVec.toInt_ofInt]
    have := BitVec.toNat_sub a b
    have ha := BitVec.toInt_eq_toNat_cond a
    have hb := BitVec.toInt_eq_toNat_cond b
    have : ((a - b).toNat : Int) % 2^32 = (a.toInt - b.toInt) % 2^32 := by
      have := a.isLt
      have := b.isLt
      split at ha <;> split at hb <;> omega
    simp only [Int.bmod, show ((2 ^ 32 : Nat) : Int) = 2 ^ 32 by norm_num, this]
  have hd : ((a - b).setWidth 32).toInt = a.toInt - b.toInt := by
    rw [e]
    exact BitVec.toInt_ofInt_eq_self (by decide) (by simp; omega) (by simp; omega)
  rw [iMinusAbs]
  generalize (a - b).setWidth 32 = x at *
  rw [BitVec.toInt_signExtend_of_le (by decide)]
  by_cases hs : x.slt 0 = true
  · rw [if_pos hs]
    have : x.toInt < 0 := by simpa [BitVec.slt] using hs
    rw [BitVec.toInt_neg, hd]
    rw [Int.bmod_eq_of_le] <;> omega
  · rw [if_neg hs]
    have : ¬ x.toInt < 0 := by simpa [BitVec.slt] using hs
    omega

example : ((3 : BitVec 64).toInt - (10 : BitVec 64).toInt).natAbs < 2^31 ∧ (iMinusAbs 3 10).toInt = 7 := by decide

/-- C109 fails for large elements: the inner product of (2^32) and (2^32) is 0. -/
theorem C109_inner_wrong : (iInner 1 (fun _ => 4294967296) (fun _ => 4294967296)).toInt = 0 := by decide

/-- C109 fails for a distance of 2^32: v-abs gives 0. -/
theorem C109_abs_wrong : ((4294967296 : BitVec 64).toInt - (0 : BitVec 64).toInt).natAbs = 4294967296 ∧ (iMinusAbs 4294967296 0).toInt = 0 := by decide

end Eus.Mat
