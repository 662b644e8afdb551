import Verif.Geo.Spec
import Mathlib.Tactic.Linarith
import Mathlib.Tactic.Ring
import Mathlib.Algebra.BigOperators.Fin
import Mathlib.Algebra.Order.BigOperators.Group.Finset
import Mathlib.Data.Nat.Bitwise
import Mathlib.Tactic.NormNum
import Mathlib.Data.List.Nodup
import Mathlib.Data.List.Range
set_option autoImplicit false
/- Boxes: proofs. -/
namespace Eus.Geo

section
variable {K : Type} [Field K] [LinearOrder K] {n : Nat}

theorem le_vmin (m : K) (i : Fin n) (vs : List (Fin n → K)) : ∀ v, m ≤ vmin v vs i ↔ ∀ p ∈ v :: vs, m ≤ p i := by
  induction vs with
  | nil => intro v; simp [vmin]
  | cons w vs ih =>
    intro v
    have h : vmin v (w :: vs) = vmin (fun j => if w j < v j then w j else v j) vs := rfl
    rw [h, ih]
    simp only [List.mem_cons, forall_eq_or_imp]
    split
    · rename_i hlt
      exact ⟨fun ⟨a, b⟩ => ⟨a.trans hlt.le, a, b⟩, fun ⟨_, b⟩ => b⟩
    · rename_i hge
      exact ⟨fun ⟨a, b⟩ => ⟨a, a.trans (not_lt.1 hge), b⟩, fun ⟨a, _, b⟩ => ⟨a, b⟩⟩

theorem vmax_le (m : K) (i : Fin n) (vs : List (Fin n → K)) : ∀ v, vmax v vs i ≤ m ↔ ∀ p ∈ v :: vs, p i ≤ m := by
  induction vs with
  | nil => intro v; simp [vmax]
  | cons w vs ih =>
    intro v
    have h : vmax v (w :: vs) = vmax (fun j => if w j > v j then w j else v j) vs := rfl
    rw [h, ih]
    simp only [List.mem_cons, forall_eq_or_imp]
    split
    · rename_i hlt
      exact ⟨fun ⟨a, b⟩ => ⟨hlt.le.trans a, a, b⟩, fun ⟨_, b⟩ => b⟩
    · rename_i hge
      exact ⟨fun ⟨a, b⟩ => ⟨a, (not_lt.1 hge).trans a, b⟩, fun ⟨a, _, b⟩ => ⟨a, b⟩⟩

theorem vmin_le {i : Fin n} {v : Fin n → K} {vs : List (Fin n → K)} {p : Fin n → K} (hp : p ∈ v :: vs) : vmin v vs i ≤ p i :=
  (le_vmin _ i vs v).1 le_rfl p hp

theorem le_vmax {i : Fin n} {v : Fin n → K} {vs : List (Fin n → K)} {p : Fin n → K} (hp : p ∈ v :: vs) : p i ≤ vmax v vs i :=
  (vmax_le _ i vs v).1 le_rfl p hp

theorem vless_iff (a b : Fin n → K) : vless a b = true ↔ ∀ i, a i ≤ b i := by simp [vless]
theorem vgreater_iff (a b : Fin n → K) : vgreater a b = true ↔ ∀ i, b i ≤ a i := by simp [vgreater]

theorem inner_iff (b : Box n K) (p : Fin n → K) : b.inner p = true ↔ b.Mem p := by
  unfold Box.inner Box.Mem
  rw [Bool.and_eq_true, vless_iff, vgreater_iff]
  exact ⟨fun h i => ⟨h.2 i, h.1 i⟩, fun h => ⟨fun i => (h i).2, fun i => (h i).1⟩⟩

theorem init_mem (v : Fin n → K) (vs : List (Fin n → K)) {p : Fin n → K} (hp : p ∈ v :: vs) : (Box.init v vs none).Mem p :=
  fun _ => ⟨vmin_le hp, le_vmax hp⟩

theorem init_least (v : Fin n → K) (vs : List (Fin n → K)) (c : Box n K) (h : ∀ p ∈ v :: vs, c.Mem p) :
    ∀ i, c.minpoint i ≤ (Box.init v vs none).minpoint i ∧ (Box.init v vs none).maxpoint i ≤ c.maxpoint i :=
  fun i => ⟨(le_vmin _ i vs v).2 fun p hp => (h p hp i).1, (vmax_le _ i vs v).2 fun p hp => (h p hp i).2⟩

theorem init_proper (v : Fin n → K) (vs : List (Fin n → K)) : (Box.init v vs none).Proper :=
  fun i => (init_mem v vs (List.mem_cons_self ..) i).1.trans (init_mem v vs (List.mem_cons_self ..) i).2

/-- What `:init2` makes of two points in order. -/
theorem init2_eq {a b : Fin n → K} (h : ∀ i, a i ≤ b i) : Box.init2 a b none = ⟨a, b⟩ := by
  unfold Box.init2 Box.growIf
  simp only
  congr 1
  · funext i; simp only [vmin, List.foldl_cons, List.foldl_nil]; split
    · rename_i hc; exact absurd (h i) (not_le.2 hc)
    · rfl
  · funext i; simp only [vmax, List.foldl_cons, List.foldl_nil]; split
    · rfl
    · rename_i hc; exact le_antisymm (h i) (not_lt.1 hc)

theorem interP_iff (a b : Box n K) : a.interP b = true ↔ ∀ i, vmax a.minpoint [b.minpoint] i ≤ vmin a.maxpoint [b.maxpoint] i := by
  unfold Box.interP; exact vless_iff _ _

theorem common_iff (a b : Box n K) (p : Fin n → K) :
    (a.Mem p ∧ b.Mem p) ↔ ∀ i, vmax a.minpoint [b.minpoint] i ≤ p i ∧ p i ≤ vmin a.maxpoint [b.maxpoint] i := by
  unfold Box.Mem
  constructor
  · rintro ⟨h1, h2⟩ i
    refine ⟨(vmax_le _ _ _ _).2 ?_, (le_vmin _ _ _ _).2 ?_⟩
    · simp only [List.mem_cons, List.not_mem_nil, or_false, forall_eq_or_imp, forall_eq]; exact ⟨(h1 i).1, (h2 i).1⟩
    · simp only [List.mem_cons, List.not_mem_nil, or_false, forall_eq_or_imp, forall_eq]; exact ⟨(h1 i).2, (h2 i).2⟩
  · intro h
    refine ⟨fun i => ⟨?_, ?_⟩, fun i => ⟨?_, ?_⟩⟩
    · exact (le_vmax (by simp)).trans (h i).1
    · exact (h i).2.trans (vmin_le (by simp))
    · exact (le_vmax (p := b.minpoint) (by simp)).trans (h i).1
    · exact (h i).2.trans (vmin_le (p := b.maxpoint) (by simp))

theorem interP_common (a b : Box n K) : a.interP b = true ↔ ∃ p, a.Mem p ∧ b.Mem p := by
  rw [interP_iff]
  constructor
  · intro h
    exact ⟨vmax a.minpoint [b.minpoint], (common_iff a b _).2 fun i => ⟨le_rfl, h i⟩⟩
  · rintro ⟨p, hp⟩ i
    have := (common_iff a b p).1 hp i
    exact this.1.trans this.2

theorem inter_none (a b : Box n K) :
    (a.inter b none = none ∧ ¬ ∃ p, a.Mem p ∧ b.Mem p) ∨ ∃ c, a.inter b none = some c ∧ c.Proper ∧ ∀ p, c.Mem p ↔ (a.Mem p ∧ b.Mem p) := by
  unfold Box.inter
  simp only
  by_cases h : vless (vmax a.minpoint [b.minpoint]) (vmin a.maxpoint [b.maxpoint]) = true
  · right
    rw [if_pos h]
    have h' := (vless_iff _ _).1 h
    rw [init2_eq h']
    exact ⟨_, rfl, h', fun p => (common_iff a b p).symm⟩
  · left
    rw [if_neg h]
    exact ⟨rfl, fun hc => h ((interP_common a b).2 hc)⟩

theorem boxIntersection_none (bs : List (Box n K)) : ∀ b : Box n K, b.Proper →
    (boxIntersection none b bs = none ∧ ¬ ∃ p, ∀ c ∈ b :: bs, c.Mem p) ∨
    ∃ r, boxIntersection none b bs = some r ∧ r.Proper ∧ ∀ p, r.Mem p ↔ ∀ c ∈ b :: bs, c.Mem p := by
  induction bs with
  | nil => intro b hb; right; exact ⟨b, rfl, hb, fun p => by simp⟩
  | cons d bs ih =>
    intro b hb
    rcases inter_none b d with ⟨h, hno⟩ | ⟨c, h, hc, hmem⟩
    · left
      refine ⟨by unfold boxIntersection; rw [h], ?_⟩
      rintro ⟨p, hp⟩
      exact hno ⟨p, hp b (by simp), hp d (by simp)⟩
    · have he : boxIntersection none b (d :: bs) = boxIntersection none c bs := by
        conv_lhs => unfold boxIntersection
        rw [h]
      have hall : ∀ p, (∀ e ∈ c :: bs, e.Mem p) ↔ ∀ e ∈ b :: d :: bs, e.Mem p := by
        intro p
        simp only [List.mem_cons, forall_eq_or_imp, hmem, and_assoc]
      rcases ih c hc with ⟨h', hno⟩ | ⟨r, h', hr, hm⟩
      · left; rw [he]; exact ⟨h', fun ⟨p, hp⟩ => hno ⟨p, (hall p).2 hp⟩⟩
      · right; rw [he]; exact ⟨r, h', hr, fun p => (hm p).trans (hall p)⟩

theorem union_eq (a b : Box n K) (ha : a.Proper) (_hb : b.Proper) :
    a.union b none = ⟨vmin a.minpoint [b.minpoint], vmax a.maxpoint [b.maxpoint]⟩ := by
  unfold Box.union
  exact init2_eq fun i => (vmin_le (p := a.minpoint) (by simp)).trans ((ha i).trans (le_vmax (p := a.maxpoint) (by simp)))

theorem boxUnion_spec (tol : Option K) (bs : List (Box n K)) : ∀ b : Box n K, b.Proper → (∀ c ∈ bs, c.Proper) →
    (boxUnion tol b bs).Proper ∧
    (∀ i m, m ≤ (boxUnion tol b bs).minpoint i ↔ ∀ c ∈ b :: bs, m ≤ c.minpoint i) ∧
    (∀ i m, (boxUnion tol b bs).maxpoint i ≤ m ↔ ∀ c ∈ b :: bs, c.maxpoint i ≤ m) := by
  induction bs with
  | nil => intro b hb _; exact ⟨hb, fun i m => by simp [boxUnion], fun i m => by simp [boxUnion]⟩
  | cons d bs ih =>
    intro b hb hbs
    have he : boxUnion tol b (d :: bs) = boxUnion tol (b.union d none) bs := rfl
    have hu := union_eq b d hb (hbs d (by simp))
    have hp : (b.union d none).Proper := by
      rw [hu]
      exact fun i => (vmin_le (p := b.minpoint) (by simp)).trans ((hb i).trans (le_vmax (p := b.maxpoint) (by simp)))
    obtain ⟨h1, h2, h3⟩ := ih (b.union d none) hp (fun c hc => hbs c (by simp [hc]))
    rw [he]
    refine ⟨h1, fun i m => ?_, fun i m => ?_⟩
    · rw [h2]
      simp only [List.mem_cons, forall_eq_or_imp, hu, le_vmin, List.not_mem_nil, or_false, forall_eq, and_assoc]
    · rw [h3]
      simp only [List.mem_cons, forall_eq_or_imp, hu, vmax_le, List.not_mem_nil, or_false, forall_eq, and_assoc]

variable [IsStrictOrderedRing K]

theorem grow_mem (b : Box n K) (hb : b.Proper) {s : K} (hs : 0 ≤ s) {p : Fin n → K} (hp : b.Mem p) : (b.grow s).Mem p := by
  intro i
  have h := mul_nonneg hs (sub_nonneg.2 (hb i))
  have := hp i
  unfold Box.grow
  simp only
  exact ⟨by linarith, by linarith⟩

theorem foldl_sum {α : Type} (f : α → K) (l : List α) : ∀ s, l.foldl (fun s i => s + f i) s = s + (l.map f).sum := by
  induction l with
  | nil => intro s; simp
  | cons a l ih => intro s; simp only [List.foldl_cons, ih, List.map_cons, List.sum_cons]; ring

theorem vdot_eq (a b : Fin n → K) : vdot a b = ∑ i, a i * b i := by
  unfold vdot
  rw [foldl_sum, zero_add, Fin.sum_univ_def]

theorem extreme_mem (b : Box n K) (hb : b.Proper) (dir : Fin n → K) : b.Mem (b.extreme dir) := by
  intro i
  unfold Box.extreme
  split
  · exact ⟨hb i, le_rfl⟩
  · exact ⟨le_rfl, hb i⟩

theorem extreme_max (b : Box n K) (dir p : Fin n → K) (hp : b.Mem p) : vdot dir p ≤ vdot dir (b.extreme dir) := by
  rw [vdot_eq, vdot_eq]
  apply Finset.sum_le_sum
  intro i _
  unfold Box.extreme
  split
  · rename_i h; exact mul_le_mul_of_nonneg_left (hp i).2 h.le
  · rename_i h; exact mul_le_mul_of_nonpos_left (hp i).1 (not_lt.1 h)

theorem vdot_neg (dir p : Fin n → K) : vdot (fun i => -1 * dir i) p = - vdot dir p := by
  rw [vdot_eq, vdot_eq, ← Finset.sum_neg_distrib]
  exact Finset.sum_congr rfl fun i _ => by ring

theorem below_iff (a b : Box n K) (ha : a.Proper) (hb : b.Proper) (dir : Fin n → K) :
    a.below b dir = true ↔ ∀ p q, a.Mem p → b.Mem q → vdot dir p < vdot dir q := by
  unfold Box.below
  rw [decide_eq_true_iff]
  constructor
  · intro h p q hp hq
    have h1 := extreme_max a dir p hp
    have h2 := extreme_max b (fun i => -1 * dir i) q hq
    rw [vdot_neg, vdot_neg] at h2
    linarith
  · intro h
    exact h _ _ (extreme_mem a ha dir) (extreme_mem b hb _)

theorem corners_length (b : Box n K) : b.corners.length = 2 ^ n := by simp [Box.corners]

theorem mem_corners (b : Box n K) (p : Fin n → K) :
    p ∈ b.corners ↔ ∃ up : Fin n → Bool, p = fun j => if up j then b.maxpoint j else b.minpoint j := by
  unfold Box.corners
  simp only [List.mem_reverse, List.mem_map, List.mem_range]
  constructor
  · rintro ⟨i, _, rfl⟩
    exact ⟨fun j => i.testBit j, rfl⟩
  · rintro ⟨up, rfl⟩
    refine ⟨Nat.ofBits up, Nat.ofBits_lt_two_pow up, ?_⟩
    funext j
    simp

theorem corners_nodup (b : Box n K) (hb : ∀ i, b.minpoint i < b.maxpoint i) : b.corners.Nodup := by
  unfold Box.corners
  rw [List.nodup_reverse]
  refine List.Nodup.map_on ?_ List.nodup_range
  intro x hx y hy h
  rw [List.mem_range] at hx hy
  apply Nat.eq_of_testBit_eq
  intro j
  by_cases hj : j < n
  · have := congrFun h ⟨j, hj⟩
    have hlt := hb ⟨j, hj⟩
    simp only at this
    cases hxb : x.testBit j <;> cases hyb : y.testBit j <;> simp [hxb, hyb] at this ⊢
    · exact hlt.ne this
    · exact hlt.ne' this
  · have h2 : 2 ^ n ≤ 2 ^ j := Nat.pow_le_pow_right (by norm_num) (not_lt.1 hj)
    rw [Nat.testBit_lt_two_pow (hx.trans_le h2), Nat.testBit_lt_two_pow (hy.trans_le h2)]

end

end Eus.Geo
