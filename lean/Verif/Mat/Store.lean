import Verif.Mat.Spec
import Mathlib.Tactic.Linarith
set_option autoImplicit false
/-
Lemmas on loops that store vectors and matrices.
-/
namespace Eus.Mat

theorem loop_inv {σ : Type} (P : Nat → σ → Prop) (f : Nat → σ → σ) (s : σ) (h0 : P 0 s) :
    ∀ n, (∀ i s, i < n → P i s → P (i + 1) (f i s)) → P n (loop n f s)
  | 0, _ => h0
  | n + 1, h => h n _ (Nat.lt_succ_self n) (loop_inv P f s h0 n fun i s hi => h i s (by omega))

theorem loop_congr {σ : Type} {f g : Nat → σ → σ} (s : σ) : ∀ n, (∀ i, i < n → f i = g i) → loop n f s = loop n g s
  | 0, _ => rfl
  | n + 1, h => by rw [loop, loop, loop_congr s n fun i hi => h i (by omega), h n (Nat.lt_succ_self n)]

theorem accum_eq {K : Type} (add : K → K → K) (zero : K) (f : Nat → K) : ∀ n, accum add zero n f = sumFrom add zero n f
  | 0 => rfl
  | n + 1 => by
    have := accum_eq add zero f n
    simp only [accum, sumFrom] at this ⊢
    rw [loop, this, List.range_succ]
    simp

theorem accum_congr {K : Type} (add : K → K → K) (zero : K) {f g : Nat → K} (n : Nat) (h : ∀ k, k < n → f k = g k) :
    accum add zero n f = accum add zero n g :=
  loop_congr zero n fun k hk => by rw [h k hk]

theorem set_same {K : Type} (S : Store K) (v i : Nat) (x : K) : S.set v i x v i = x := by simp [Store.set]

theorem set_other {K : Type} (S : Store K) {v i v' i' : Nat} (x : K) (h : ¬ (v' = v ∧ i' = i)) : S.set v i x v' i' = S v' i' := by
  simp only [Store.set, if_neg h]

theorem set_vec {K : Type} (S : Store K) {v i v' : Nat} (x : K) (h : v' ≠ v) : S.set v i x v' = S v' := by
  funext i'; exact set_other S x fun hc => h hc.1

theorem index_inj {n p q p' q' : Nat} (hq : q < n) (hq' : q' < n) (h : p * n + q = p' * n + q') : p = p' ∧ q = q' := by
  have hn : 0 < n := by omega
  have h1 : (p * n + q) / n = p := by
    rw [Nat.add_comm, Nat.add_mul_div_right _ _ hn, Nat.div_eq_of_lt hq, Nat.zero_add]
  have h2 : (p' * n + q') / n = p' := by
    rw [Nat.add_comm, Nat.add_mul_div_right _ _ hn, Nat.div_eq_of_lt hq', Nat.zero_add]
  have : p = p' := by rw [← h1, ← h2, h]
  subst this
  exact ⟨rfl, by omega⟩

section
variable {K : Type}

/-- A loop that stores fv 0, ..., fv (n-1) into a vector. -/
theorem store_loop (S : Store K) (v : Nat) (fv : Nat → K) (n : Nat) :
    ∀ v' i, loop n (fun i S => S.set v i (fv i)) S v' i = if v' = v ∧ i < n then fv i else S v' i := by
  refine loop_inv (fun n S' => ∀ v' i, S' v' i = if v' = v ∧ i < n then fv i else S v' i) _ S (by simp) n ?_
  intro k S' _ ih v' i
  by_cases h : v' = v ∧ i = k
  · obtain ⟨rfl, rfl⟩ := h
    rw [set_same]; simp
  · rw [set_other _ _ h, ih]
    by_cases h2 : v' = v ∧ i < k
    · rw [if_pos h2, if_pos ⟨h2.1, by omega⟩]
    · rw [if_neg h2, if_neg (fun h3 => by
        rcases h3 with ⟨a, b⟩
        exact h2 ⟨a, by have : i ≠ k := fun e => h ⟨a, e⟩; omega⟩)]

/-- A loop that computes each element from elements of the same index. -/
theorem zip_loop (S : Store K) (r : Nat) (g : Nat → Store K → K) (hg : ∀ i S S', (∀ v, S v i = S' v i) → g i S = g i S') (n : Nat) :
    ∀ v' i, loop n (fun i S => S.set r i (g i S)) S v' i = if v' = r ∧ i < n then g i S else S v' i := by
  refine loop_inv (fun n S' => ∀ v' i, S' v' i = if v' = r ∧ i < n then g i S else S v' i) _ S (by simp) n ?_
  intro k S' _ ih v' i
  have e : g k S' = g k S := hg k S' S fun v => by rw [ih, if_neg (by omega)]
  by_cases h : v' = r ∧ i = k
  · obtain ⟨rfl, rfl⟩ := h
    rw [set_same, e]; simp
  · rw [set_other _ _ h, ih]
    by_cases h2 : v' = r ∧ i < k
    · rw [if_pos h2, if_pos ⟨h2.1, by omega⟩]
    · rw [if_neg h2, if_neg (fun h3 => by
        rcases h3 with ⟨a, b⟩
        exact h2 ⟨a, by have : i ≠ k := fun e => h ⟨a, e⟩; omega⟩)]

/-- A loop that stores row i of a matrix. -/
theorem row_loop (S : Store K) (v w i : Nat) (fv : Nat → K) : ∀ n, n ≤ w →
    (∀ v', v' ≠ v → loop n (fun j S => S.set v (i * w + j) (fv j)) S v' = S v') ∧
    ∀ p q, q < w → loop n (fun j S => S.set v (i * w + j) (fv j)) S v (p * w + q) = if p = i ∧ q < n then fv q else S v (p * w + q) := by
  intro n hn
  refine loop_inv (fun n S' => n ≤ w → (∀ v', v' ≠ v → S' v' = S v') ∧ ∀ p q, q < w → S' v (p * w + q) = if p = i ∧ q < n then fv q else S v (p * w + q))
    _ S (fun _ => by simp) n ?_ hn
  intro j S' _ ih hj
  obtain ⟨i1, i2⟩ := ih (by omega)
  refine ⟨fun v' hv => by rw [set_vec _ _ hv, i1 v' hv], fun p q hq => ?_⟩
  by_cases h : p = i ∧ q = j
  · obtain ⟨rfl, rfl⟩ := h
    rw [set_same]; simp
  · rw [set_other _ _ (fun hc => h (index_inj hq (by omega) hc.2)), i2 p q hq]
    by_cases h2 : p = i ∧ q < j
    · rw [if_pos h2, if_pos ⟨h2.1, by omega⟩]
    · rw [if_neg h2, if_neg (fun h3 => h2 ⟨h3.1, by have : q ≠ j := fun e => h ⟨h3.1, e⟩; omega⟩)]

/-- A loop that stores column i of a matrix. -/
theorem col_loop (S : Store K) (v w i : Nat) (hi : i < w) (fv : Nat → K) : ∀ n,
    (∀ v', v' ≠ v → loop n (fun j S => S.set v (i + j * w) (fv j)) S v' = S v') ∧
    ∀ p q, q < w → loop n (fun j S => S.set v (i + j * w) (fv j)) S v (p * w + q) = if q = i ∧ p < n then fv p else S v (p * w + q) := by
  intro n
  refine loop_inv (fun n S' => (∀ v', v' ≠ v → S' v' = S v') ∧ ∀ p q, q < w → S' v (p * w + q) = if q = i ∧ p < n then fv p else S v (p * w + q))
    _ S (by simp) n ?_
  rintro j S' _ ⟨i1, i2⟩
  refine ⟨fun v' hv => by rw [set_vec _ _ hv, i1 v' hv], fun p q hq => ?_⟩
  by_cases h : q = i ∧ p = j
  · obtain ⟨rfl, rfl⟩ := h
    rw [Nat.add_comm q, set_same]; simp
  · rw [set_other _ _ (fun hc => by
      have := index_inj (p := p) (q := q) (p' := j) (q' := i) hq hi (by omega)
      exact h ⟨this.2, this.1⟩), i2 p q hq]
    by_cases h2 : q = i ∧ p < j
    · rw [if_pos h2, if_pos ⟨h2.1, by omega⟩]
    · rw [if_neg h2, if_neg (fun h3 => h2 ⟨h3.1, by have : p ≠ j := fun e => h ⟨h3.1, e⟩; omega⟩)]

variable (add mul : K → K → K) (zero : K)

/-- The element of the product. -/
def prod (S : Store K) (a b : Mtx) (i j : Nat) : K := accum add zero a.cols (fun k => mul (S a.ent (i * a.cols + k)) (S b.ent (j + k * b.cols)))

theorem mTimes_rows (S : Store K) (a b r : Mtx) (hab : a.ent = r.ent → a.cols = b.cols) (hb : b.ent ≠ r.ent) : ∀ n,
    let S' := loop n (fun i S =>
        let fv := fun j => accum add zero a.cols (fun k => mul (S a.ent (i * a.cols + k)) (S b.ent (j + k * b.cols)))
        loop b.cols (fun j S => S.set r.ent (i * b.cols + j) (fv j)) S) S
    (∀ v, v ≠ r.ent → S' v = S v) ∧
    ∀ p q, q < b.cols → S' r.ent (p * b.cols + q) = if p < n then prod add mul zero S a b p q else S r.ent (p * b.cols + q) := by
  intro n
  refine loop_inv (fun n S' => (∀ v, v ≠ r.ent → S' v = S v) ∧
    ∀ p q, q < b.cols → S' r.ent (p * b.cols + q) = if p < n then prod add mul zero S a b p q else S r.ent (p * b.cols + q)) _ S (by simp) n ?_
  rintro i S' _ ⟨i1, i2⟩
  have e : ∀ j, j < b.cols → accum add zero a.cols (fun k => mul (S' a.ent (i * a.cols + k)) (S' b.ent (j + k * b.cols))) = prod add mul zero S a b i j := by
    intro j _
    refine accum_congr add zero _ fun k hk => ?_
    rw [i1 _ hb]
    by_cases ha : a.ent = r.ent
    · have hc := hab ha
      rw [ha, hc, i2 i k (by omega), if_neg (by omega)]
    · rw [i1 _ ha]
  obtain ⟨l1, l2⟩ := row_loop S' r.ent b.cols i (fun j => accum add zero a.cols (fun k => mul (S' a.ent (i * a.cols + k)) (S' b.ent (j + k * b.cols)))) b.cols (Nat.le_refl _)
  refine ⟨fun v hv => by rw [l1 v hv, i1 v hv], fun p q hq => ?_⟩
  rw [l2 p q hq]
  by_cases hp : p = i
  · subst hp
    rw [if_pos ⟨rfl, hq⟩, if_pos (by omega), e q hq]
  · rw [if_neg (fun h => hp h.1), i2 p q hq]
    by_cases h2 : p < i
    · rw [if_pos h2, if_pos (by omega)]
    · rw [if_neg h2, if_neg (by omega)]

theorem mTimes_cols (S : Store K) (a b r : Mtx) (hb : b.ent = r.ent) (ha : a.ent ≠ r.ent) : ∀ n, n ≤ b.cols →
    let S' := loop n (fun i S =>
        let fv := fun j => accum add zero a.cols (fun k => mul (S a.ent (j * a.cols + k)) (S b.ent (i + k * b.cols)))
        loop a.rows (fun j S => S.set r.ent (i + j * b.cols) (fv j)) S) S
    (∀ v, v ≠ r.ent → S' v = S v) ∧
    ∀ p q, q < b.cols → S' r.ent (p * b.cols + q) = if q < n ∧ p < a.rows then prod add mul zero S a b p q else S r.ent (p * b.cols + q) := by
  intro n hn
  refine loop_inv (fun n S' => n ≤ b.cols → (∀ v, v ≠ r.ent → S' v = S v) ∧
    ∀ p q, q < b.cols → S' r.ent (p * b.cols + q) = if q < n ∧ p < a.rows then prod add mul zero S a b p q else S r.ent (p * b.cols + q)) _ S (fun _ => by simp) n ?_ hn
  intro i S' _ ih hi
  obtain ⟨i1, i2⟩ := ih (by omega)
  have e : ∀ p, accum add zero a.cols (fun k => mul (S' a.ent (p * a.cols + k)) (S' b.ent (i + k * b.cols))) = prod add mul zero S a b p i := by
    intro p
    refine accum_congr add zero _ fun k hk => ?_
    rw [i1 _ ha, hb, Nat.add_comm i, i2 k i (by omega), if_neg (by omega)]
  obtain ⟨l1, l2⟩ := col_loop S' r.ent b.cols i (by omega) (fun j => accum add zero a.cols (fun k => mul (S' a.ent (j * a.cols + k)) (S' b.ent (i + k * b.cols)))) a.rows
  refine ⟨fun v hv => by rw [l1 v hv, i1 v hv], fun p q hq => ?_⟩
  rw [l2 p q hq]
  by_cases hp : q = i ∧ p < a.rows
  · obtain ⟨rfl, hp⟩ := hp
    rw [if_pos ⟨rfl, hp⟩, if_pos ⟨by omega, hp⟩, e p]
  · rw [if_neg hp, i2 p q hq]
    by_cases h2 : q < i ∧ p < a.rows
    · rw [if_pos h2, if_pos ⟨by omega, h2.2⟩]
    · rw [if_neg h2, if_neg (fun h => h2 ⟨by have : q ≠ i := fun e => hp ⟨e, h.2⟩; omega, h.2⟩)]

theorem prod_eq (S : Store K) (a b : Mtx) (h : a.cols = b.rows) (i j : Nat) :
    prod add mul zero S a b i j = sumFrom add zero a.cols (fun k => mul (a.at S i k) (b.at S k j)) := by
  rw [prod, accum_eq]
  simp only [Mtx.at, Nat.add_comm]

theorem mTimes_spec (S : Store K) (a b r : Mtx) (h1 : a.cols = b.rows) (h2 : r.rows = a.rows) (h3 : r.cols = b.cols)
    (hab : a.ent = r.ent → a.cols = r.cols) (hne : ¬ (a.ent = r.ent ∧ b.ent = r.ent)) :
    ∃ S', mTimes add mul zero S a b r = some S' ∧
      r.becomes S S' (fun i j => sumFrom add zero a.cols (fun k => mul (a.at S i k) (b.at S k j))) := by
  rw [mTimes, if_pos ⟨h1, h2, h3⟩]
  by_cases hb : b.ent ≠ r.ent
  · rw [if_pos hb]
    obtain ⟨q1, q2⟩ := mTimes_rows add mul zero S a b r (fun h => by rw [← h3]; exact hab h) hb a.rows
    refine ⟨_, rfl, fun i j hi hj => ?_, q1⟩
    rw [Mtx.at, h3, q2 i j (by omega), if_pos (by omega), prod_eq add mul zero S a b h1]
  · rw [if_neg hb]
    have hb : b.ent = r.ent := by simpa using hb
    obtain ⟨q1, q2⟩ := mTimes_cols add mul zero S a b r hb (fun ha => hne ⟨ha, hb⟩) b.cols (Nat.le_refl _)
    refine ⟨_, rfl, fun i j hi hj => ?_, q1⟩
    rw [Mtx.at, h3, q2 i j (by omega), if_pos ⟨by omega, by omega⟩, prod_eq add mul zero S a b h1]

/-! ### Transposition -/

theorem transpose_other (S : Store K) (m r : Mtx) (hr : r.ent ≠ m.ent) (h1 : r.cols = m.rows) : ∀ n, n ≤ m.rows →
    let S' := loop n (fun i S => loop m.cols (fun j S => S.set r.ent (j * m.rows + i) (S m.ent (i * m.cols + j))) S) S
    (∀ v, v ≠ r.ent → S' v = S v) ∧ ∀ p q, q < m.rows → p < m.cols → S' r.ent (p * m.rows + q) = if q < n then S m.ent (q * m.cols + p) else S r.ent (p * m.rows + q) := by
  intro n hn
  refine loop_inv (fun n S' => n ≤ m.rows → (∀ v, v ≠ r.ent → S' v = S v) ∧ ∀ p q, q < m.rows → p < m.cols → S' r.ent (p * m.rows + q) = if q < n then S m.ent (q * m.cols + p) else S r.ent (p * m.rows + q))
    _ S (fun _ => by simp) n ?_ hn
  intro i S' _ ih hi
  obtain ⟨i1, i2⟩ := ih (by omega)
  have inner : ∀ k, k ≤ m.cols →
      let S2 := loop k (fun j S => S.set r.ent (j * m.rows + i) (S m.ent (i * m.cols + j))) S'
      (∀ v, v ≠ r.ent → S2 v = S' v) ∧ ∀ p q, q < m.rows → S2 r.ent (p * m.rows + q) = if q = i ∧ p < k then S' m.ent (q * m.cols + p) else S' r.ent (p * m.rows + q) := by
    intro k hk
    refine loop_inv (fun k S2 => (∀ v, v ≠ r.ent → S2 v = S' v) ∧ ∀ p q, q < m.rows → S2 r.ent (p * m.rows + q) = if q = i ∧ p < k then S' m.ent (q * m.cols + p) else S' r.ent (p * m.rows + q))
      _ S' (by simp) k ?_
    rintro j S2 _ ⟨j1, j2⟩
    refine ⟨fun v hv => by rw [set_vec _ _ hv, j1 v hv], fun p q hq => ?_⟩
    by_cases h : q = i ∧ p = j
    · obtain ⟨rfl, rfl⟩ := h
      rw [set_same, if_pos ⟨rfl, by omega⟩, j1 _ (fun e => hr e.symm)]
    · rw [set_other _ _ (fun hc => by
        have := index_inj (p := p) (q := q) (p' := j) (q' := i) hq (by omega) hc.2
        exact h ⟨this.2, this.1⟩), j2 p q hq]
      by_cases h2 : q = i ∧ p < j
      · rw [if_pos h2, if_pos ⟨h2.1, by omega⟩]
      · rw [if_neg h2, if_neg (fun h3 => h2 ⟨h3.1, by have : p ≠ j := fun e => h ⟨h3.1, e⟩; omega⟩)]
  obtain ⟨k1, k2⟩ := inner m.cols (Nat.le_refl _)
  refine ⟨fun v hv => by rw [k1 v hv, i1 v hv], fun p q hq hp => ?_⟩
  rw [k2 p q hq]
  by_cases h : q = i
  · subst h
    rw [if_pos ⟨rfl, hp⟩, if_pos (by omega), i1 _ (fun e => hr e.symm)]
  · rw [if_neg (fun h2 => h h2.1), i2 p q hq hp]
    by_cases h2 : q < i
    · rw [if_pos h2, if_pos (by omega)]
    · rw [if_neg h2, if_neg (by omega)]

/-- Exchanging (i, j) and (j, i) for all j ≤ i. -/
theorem transpose_row (S' : Store K) (e n i : Nat) (hi : i < n) : ∀ k, k ≤ i + 1 →
    let S2 := loop k (fun j S =>
        let x := S e (j * n + i)
        let S := S.set e (j * n + i) (S e (n * i + j))
        S.set e (n * i + j) x) S'
    (∀ v, v ≠ e → S2 v = S' v) ∧ ∀ p q, p < n → q < n →
      S2 e (p * n + q) = if p = i ∧ q < k ∨ q = i ∧ p < k then S' e (q * n + p) else S' e (p * n + q) := by
  intro k hk
  refine loop_inv (fun k S2 => k ≤ i + 1 → (∀ v, v ≠ e → S2 v = S' v) ∧ ∀ p q, p < n → q < n →
      S2 e (p * n + q) = if p = i ∧ q < k ∨ q = i ∧ p < k then S' e (q * n + p) else S' e (p * n + q)) _ S' (fun _ => by simp) k ?_ hk
  intro j S2 _ ih hj
  obtain ⟨j1, j2⟩ := ih (by omega)
  have hjn : j < n := by omega
  have a1 : S2 e (j * n + i) = S' e (j * n + i) := by rw [j2 j i hjn hi, if_neg (by omega)]
  have a2 : S2 e (n * i + j) = S' e (i * n + j) := by rw [Nat.mul_comm n i, j2 i j hi hjn, if_neg (by omega)]
  refine ⟨fun v hv => ?_, fun p q hp hq => ?_⟩
  · dsimp only
    rw [set_vec _ _ hv, set_vec _ _ hv, j1 v hv]
  · dsimp only
    rw [a1, a2, Nat.mul_comm n i]
    by_cases h : p = i ∧ q = j
    · obtain ⟨rfl, rfl⟩ := h
      rw [set_same, if_pos (Or.inl ⟨rfl, by omega⟩)]
    · rw [set_other _ _ (fun hc => h (index_inj hq hjn hc.2))]
      by_cases h' : q = i ∧ p = j
      · obtain ⟨rfl, rfl⟩ := h'
        rw [set_same, if_pos (Or.inr ⟨rfl, by omega⟩)]
      · rw [set_other _ _ (fun hc => h' (by
          have := index_inj (p := p) (q := q) (p' := j) (q' := i) hq hi hc.2
          exact ⟨this.2, this.1⟩)), j2 p q hp hq]
        have : (p = i ∧ q < j ∨ q = i ∧ p < j) ↔ (p = i ∧ q < j + 1 ∨ q = i ∧ p < j + 1) := by omega
        simp only [this]

theorem transpose_square (S : Store K) (e n : Nat) : ∀ t, t ≤ n →
    let S' := loop t (fun i S => loop (i + 1) (fun j S =>
        let x := S e (j * n + i)
        let S := S.set e (j * n + i) (S e (n * i + j))
        S.set e (n * i + j) x) S) S
    (∀ v, v ≠ e → S' v = S v) ∧ ∀ p q, p < n → q < n → S' e (p * n + q) = if p < t ∧ q < t then S e (q * n + p) else S e (p * n + q) := by
  intro t ht
  refine loop_inv (fun t S' => t ≤ n → (∀ v, v ≠ e → S' v = S v) ∧ ∀ p q, p < n → q < n → S' e (p * n + q) = if p < t ∧ q < t then S e (q * n + p) else S e (p * n + q))
    _ S (fun _ => by simp) t ?_ ht
  intro i S' _ ih hi
  obtain ⟨i1, i2⟩ := ih (by omega)
  obtain ⟨k1, k2⟩ := transpose_row S' e n i (by omega) (i + 1) (Nat.le_refl _)
  refine ⟨fun v hv => by rw [k1 v hv, i1 v hv], fun p q hp hq => ?_⟩
  rw [k2 p q hp hq]
  by_cases h : p = i ∧ q < i + 1 ∨ q = i ∧ p < i + 1
  · rw [if_pos h, if_pos (by omega), i2 q p hq hp, if_neg (by omega)]
  · rw [if_neg h, i2 p q hp hq]
    by_cases h2 : p < i ∧ q < i
    · rw [if_pos h2, if_pos (by omega)]
    · rw [if_neg h2, if_neg (by omega)]

theorem transpose_spec (S : Store K) (m r : Mtx) (h1 : r.rows = m.cols) (h2 : r.cols = m.rows)
    (h : r = m ∨ r.id ≠ m.id ∧ r.ent ≠ m.ent) :
    ∃ S', transpose S m r = some S' ∧ r.becomes S S' (fun i j => m.at S j i) := by
  rw [transpose, if_pos ⟨h1, h2⟩]
  rcases h with rfl | ⟨h3, h4⟩
  · rw [if_pos rfl]
    obtain ⟨k1, k2⟩ := transpose_square S r.ent r.cols r.rows (by omega)
    refine ⟨_, rfl, fun i j hi hj => ?_, k1⟩
    rw [Mtx.at, k2 i j (by omega) hj, if_pos (by omega)]
    rfl
  · rw [if_neg h3]
    obtain ⟨k1, k2⟩ := transpose_other S m r h4 h2 m.rows (Nat.le_refl _)
    refine ⟨_, rfl, fun i j hi hj => ?_, k1⟩
    rw [Mtx.at, h2, k2 i j (by omega) (by omega), if_pos (by omega)]
    rfl

end
end Eus.Mat
