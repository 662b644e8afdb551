import Verif.Dtr.Model
import Verif.Dtr.Spec
import Mathlib.Data.List.Nodup
import Mathlib.Tactic.Linarith
set_option autoImplicit false
/-
C206: distance maps.
-/
namespace Eus.Dtr

def lex (p q : Pos) : Prop := p.1 < q.1 ∨ (p.1 = q.1 ∧ (p.2.1 < q.2.1 ∨ (p.2.1 = q.2.1 ∧ p.2.2 < q.2.2)))

theorem mem_loops {n : Nat} {p : Pos} : p ∈ loops n ↔ p.1 < n ∧ p.2.1 < n ∧ p.2.2 < n := by
  obtain ⟨i, j, k⟩ := p
  simp [loops]

theorem loops_sorted (n : Nat) : (loops n).Pairwise lex := by
  unfold loops
  rw [List.pairwise_flatMap]
  refine ⟨fun i _ => ?_, ?_⟩
  · rw [List.pairwise_flatMap]
    refine ⟨fun j _ => ?_, ?_⟩
    · rw [List.pairwise_map]
      exact (List.pairwise_lt_range (n := n)).imp fun h => .inr ⟨rfl, .inr ⟨rfl, h⟩⟩
    · refine (List.pairwise_lt_range (n := n)).imp fun {a b} h x hx y hy => ?_
      simp only [List.mem_map] at hx hy
      obtain ⟨_, _, rfl⟩ := hx
      obtain ⟨_, _, rfl⟩ := hy
      exact .inr ⟨rfl, .inl h⟩
  · refine (List.pairwise_lt_range (n := n)).imp fun {a b} h x hx y hy => ?_
    simp only [List.mem_map, List.mem_flatMap] at hx hy
    obtain ⟨_, _, _, _, rfl⟩ := hx
    obtain ⟨_, _, _, _, rfl⟩ := hy
    exact .inl h

/-! One sweep. -/

theorem relax_le (d : Pos → Nat) (p q : Pos) : relax d p q ≤ d q := by
  unfold relax upd
  split
  · rename_i h; rw [h]; exact Nat.min_le_left _ _
  · exact Nat.le_refl _

theorem relax_other (d : Pos → Nat) (p q : Pos) (h : q ≠ p) : relax d p q = d q := by simp [relax, upd, h]

theorem sweep_le : ∀ (l : List (Pos)) (d : Pos → Nat) (q : Pos), l.foldl relax d q ≤ d q
  | [], _, _ => Nat.le_refl _
  | p :: l, d, q => Nat.le_trans (sweep_le l (relax d p) q) (relax_le d p q)

theorem sweep_other : ∀ (l : List (Pos)) (d : Pos → Nat) (q : Pos), q ∉ l → l.foldl relax d q = d q
  | [], _, _, _ => rfl
  | p :: l, d, q, h => by
    simp only [List.mem_cons, not_or] at h
    rw [List.foldl_cons, sweep_other l _ q h.2, relax_other d p q h.1]

inductive Nb : Pos → Pos → Prop
  | x0 (i j k : Nat) : Nb (i, j, k) (i - 1, j, k)
  | x1 (i j k : Nat) : Nb (i, j, k) (i + 1, j, k)
  | y0 (i j k : Nat) : Nb (i, j, k) (i, j - 1, k)
  | y1 (i j k : Nat) : Nb (i, j, k) (i, j + 1, k)
  | z0 (i j k : Nat) : Nb (i, j, k) (i, j, k - 1)
  | z1 (i j k : Nat) : Nb (i, j, k) (i, j, k + 1)

theorem calc6_le {d : Pos → Nat} {p q : Pos} (h : Nb p q) : calcDistance6 d p ≤ d q := by
  cases h <;> simp only [calcDistance6] <;> omega

theorem calc6_some (d : Pos → Nat) (p : Pos) : ∃ q, Nb p q ∧ calcDistance6 d p = d q := by
  obtain ⟨i, j, k⟩ := p
  have h : ∀ a b c e f g : Nat, min a (min b (min c (min e (min f g)))) = a ∨ min a (min b (min c (min e (min f g)))) = b ∨ min a (min b (min c (min e (min f g)))) = c ∨
    min a (min b (min c (min e (min f g)))) = e ∨ min a (min b (min c (min e (min f g)))) = f ∨ min a (min b (min c (min e (min f g)))) = g := by
    intro a b c e f g; omega
  rcases h (d (i, j, k - 1)) (d (i, j, k + 1)) (d (i - 1, j, k)) (d (i + 1, j, k)) (d (i, j - 1, k)) (d (i, j + 1, k)) with h | h | h | h | h | h
  · exact ⟨_, .z0 i j k, h⟩
  · exact ⟨_, .z1 i j k, h⟩
  · exact ⟨_, .x0 i j k, h⟩
  · exact ⟨_, .x1 i j k, h⟩
  · exact ⟨_, .y0 i j k, h⟩
  · exact ⟨_, .y1 i j k, h⟩

/-- an element is at most one more than a neighbour whose value is final before -/
theorem sweep_nb {l1 l2 : List (Pos)} {d : Pos → Nat} {p q : Pos} (hn : Nb p q) (hp : p ∉ l2) (hq : q ∉ l2) (hpq : q ≠ p) :
    (l1 ++ p :: l2).foldl relax d p ≤ 1 + (l1 ++ p :: l2).foldl relax d q := by
  rw [List.foldl_append, List.foldl_cons, sweep_other l2 _ p hp, sweep_other l2 _ q hq, relax_other _ p q hpq]
  have : relax (l1.foldl relax d) p p = min (l1.foldl relax d p) (1 + calcDistance6 (l1.foldl relax d) p) := by simp [relax, upd]
  rw [this]
  have := calc6_le (d := l1.foldl relax d) hn
  omega

theorem lex_irrefl (p : Pos) : ¬ lex p p := by unfold lex; omega

theorem up_sweep {n : Nat} {d : Pos → Nat} {p q : Pos} (hp : p.1 < n ∧ p.2.1 < n ∧ p.2.2 < n) (hn : Nb (up p) q) (hq : lex q (up p)) :
    ((loops n).map up).foldl relax d (up p) ≤ 1 + ((loops n).map up).foldl relax d q := by
  obtain ⟨l1, l2, e⟩ := List.append_of_mem (mem_loops.2 hp)
  have hs := loops_sorted n
  rw [e, List.pairwise_append, List.pairwise_cons] at hs
  have key : ∀ r : Pos, (r = up p ∨ lex r (up p)) → r ∉ l2.map up := by
    intro r hr hm
    obtain ⟨s, hs', rfl⟩ := List.mem_map.1 hm
    have := hs.2.1.1 s hs'
    rcases hr with hr | hr
    · simp only [up, Prod.mk.injEq] at hr
      simp only [lex] at this
      omega
    · simp only [lex, up] at this hr
      omega
  rw [e, List.map_append, List.map_cons]
  refine sweep_nb hn (key _ (.inl rfl)) (key _ (.inr hq)) ?_
  intro h
  rw [h] at hq
  exact lex_irrefl _ hq

theorem down_sweep {n : Nat} {d : Pos → Nat} {p q : Pos} (hp : p.1 < n ∧ p.2.1 < n ∧ p.2.2 < n) (hn : Nb (down n p) q) (hq : lex (down n p) q) :
    ((loops n).map (down n)).foldl relax d (down n p) ≤ 1 + ((loops n).map (down n)).foldl relax d q := by
  obtain ⟨l1, l2, e⟩ := List.append_of_mem (mem_loops.2 hp)
  have hs := loops_sorted n
  have hmem : ∀ s ∈ l2, s.1 < n ∧ s.2.1 < n ∧ s.2.2 < n := by
    intro s h
    apply mem_loops.1
    rw [e]
    simp [h]
  rw [e, List.pairwise_append, List.pairwise_cons] at hs
  have key : ∀ r : Pos, (r = down n p ∨ lex (down n p) r) → r ∉ l2.map (down n) := by
    intro r hr hm
    obtain ⟨s, hs', rfl⟩ := List.mem_map.1 hm
    have := hs.2.1.1 s hs'
    have h2 := hmem s hs'
    rcases hr with hr | hr
    · simp only [down, Prod.mk.injEq] at hr
      simp only [lex] at this
      omega
    · simp only [lex, down] at this hr
      omega
  rw [e, List.map_append, List.map_cons]
  refine sweep_nb hn (key _ (.inl rfl)) (key _ (.inr hq)) ?_
  intro h
  rw [h] at hq
  exact lex_irrefl _ hq

/-! Upper bound -/

theorem climb {n : Nat} {g : Nat → Nat} (h : ∀ x, 1 ≤ x → x < n → g (x + 1) ≤ 1 + g x) : ∀ (a x : Nat), 1 ≤ x → x + a ≤ n → g (x + a) ≤ g x + a
  | 0, _, _, _ => Nat.le_refl _
  | a + 1, x, h1, h2 => by
    have := climb h a x h1 (by omega)
    have := h (x + a) (by omega) (by omega)
    rw [show x + (a + 1) = x + a + 1 by omega]
    omega

theorem descend {n : Nat} {g : Nat → Nat} (h : ∀ x, 1 ≤ x → x < n → g x ≤ 1 + g (x + 1)) : ∀ (a x : Nat), 1 ≤ x → x + a ≤ n → g x ≤ g (x + a) + a
  | 0, _, _, _ => Nat.le_refl _
  | a + 1, x, h1, h2 => by
    have := descend h a x h1 (by omega)
    have := h (x + a) (by omega) (by omega)
    rw [show x + (a + 1) = x + a + 1 by omega]
    omega

theorem climb3 {n : Nat} {f : Pos → Nat}
    (hx : ∀ i j k, Cell n (i, j, k) → i < n → f (i + 1, j, k) ≤ 1 + f (i, j, k))
    (hy : ∀ i j k, Cell n (i, j, k) → j < n → f (i, j + 1, k) ≤ 1 + f (i, j, k))
    (hz : ∀ i j k, Cell n (i, j, k) → k < n → f (i, j, k + 1) ≤ 1 + f (i, j, k))
    (i j k a b c : Nat) (h1 : Cell n (i, j, k)) (h2 : Cell n (i + a, j + b, k + c)) : f (i + a, j + b, k + c) ≤ f (i, j, k) + (a + b + c) := by
  simp only [Cell] at *
  have e1 := climb (n := n) (g := fun x => f (x, j, k)) (fun x p q => hx x j k ⟨⟨p, by omega⟩, by omega⟩ q) a i (by omega) (by omega)
  have e2 := climb (n := n) (g := fun x => f (i + a, x, k)) (fun x p q => hy (i + a) x k ⟨by omega, by omega, by omega⟩ q) b j (by omega) (by omega)
  have e3 := climb (n := n) (g := fun x => f (i + a, j + b, x)) (fun x p q => hz (i + a) (j + b) x ⟨by omega, by omega, by omega⟩ q) c k (by omega) (by omega)
  omega

theorem descend3 {n : Nat} {f : Pos → Nat}
    (hx : ∀ i j k, Cell n (i, j, k) → i < n → f (i, j, k) ≤ 1 + f (i + 1, j, k))
    (hy : ∀ i j k, Cell n (i, j, k) → j < n → f (i, j, k) ≤ 1 + f (i, j + 1, k))
    (hz : ∀ i j k, Cell n (i, j, k) → k < n → f (i, j, k) ≤ 1 + f (i, j, k + 1))
    (i j k a b c : Nat) (h1 : Cell n (i, j, k)) (h2 : Cell n (i + a, j + b, k + c)) : f (i, j, k) ≤ f (i + a, j + b, k + c) + (a + b + c) := by
  simp only [Cell] at *
  have e1 := descend (n := n) (g := fun x => f (x, j, k)) (fun x p q => hx x j k ⟨⟨p, by omega⟩, by omega⟩ q) a i (by omega) (by omega)
  have e2 := descend (n := n) (g := fun x => f (i + a, x, k)) (fun x p q => hy (i + a) x k ⟨by omega, by omega, by omega⟩ q) b j (by omega) (by omega)
  have e3 := descend (n := n) (g := fun x => f (i + a, j + b, x)) (fun x p q => hz (i + a) (j + b) x ⟨by omega, by omega, by omega⟩ q) c k (by omega) (by omega)
  omega

theorem up_of {n i j k : Nat} (h : Cell n (i, j, k)) : ∃ p : Pos, (p.1 < n ∧ p.2.1 < n ∧ p.2.2 < n) ∧ (i, j, k) = up p := by
  refine ⟨(i - 1, j - 1, k - 1), ?_, ?_⟩
  · simp only [Cell] at h ⊢; omega
  · simp only [Cell, up, Prod.mk.injEq] at h ⊢; omega

theorem down_of {n i j k : Nat} (h : Cell n (i, j, k)) : ∃ p : Pos, (p.1 < n ∧ p.2.1 < n ∧ p.2.2 < n) ∧ (i, j, k) = down n p := by
  refine ⟨(n - i, n - j, n - k), ?_, ?_⟩
  · simp only [Cell] at h ⊢; omega
  · simp only [Cell, down, Prod.mk.injEq] at h ⊢; omega

theorem up_step {n i j k : Nat} {d : Pos → Nat} {q : Pos} (h : Cell n (i, j, k)) (hn : Nb (i, j, k) q) (hq : lex q (i, j, k)) :
    ((loops n).map up).foldl relax d (i, j, k) ≤ 1 + ((loops n).map up).foldl relax d q := by
  obtain ⟨p, hp, e⟩ := up_of h
  rw [e] at hn hq ⊢
  exact up_sweep hp hn hq

theorem down_step {n i j k : Nat} {d : Pos → Nat} {q : Pos} (h : Cell n (i, j, k)) (hn : Nb (i, j, k) q) (hq : lex (i, j, k) q) :
    ((loops n).map (down n)).foldl relax d (i, j, k) ≤ 1 + ((loops n).map (down n)).foldl relax d q := by
  obtain ⟨p, hp, e⟩ := down_of h
  rw [e] at hn hq ⊢
  exact down_sweep hp hn hq

theorem calc_le (n : Nat) (d : Pos → Nat) (p q : Pos) (hp : Cell n p) (hq : Cell n q) : calcDistance n d p ≤ d q + steps p q := by
  obtain ⟨i, j, k⟩ := p
  obtain ⟨x, y, z⟩ := q
  unfold calcDistance
  generalize hd' : ((loops n).map up).foldl relax d = d'
  have h1 := climb3 (n := n) (f := d')
    (fun i j k h hi => by subst hd'; exact up_step (by simp only [Cell] at *; omega) (.x0 (i + 1) j k) (by simp [lex]))
    (fun i j k h hi => by subst hd'; exact up_step (by simp only [Cell] at *; omega) (.y0 i (j + 1) k) (by simp [lex]))
    (fun i j k h hi => by subst hd'; exact up_step (by simp only [Cell] at *; omega) (.z0 i j (k + 1)) (by simp [lex]))
    x y z (i - x) (j - y) (k - z) hq (by simp only [Cell] at *; omega)
  have h2 := descend3 (n := n) (f := ((loops n).map (down n)).foldl relax d')
    (fun i j k h hi => down_step h (.x1 i j k) (by simp [lex]))
    (fun i j k h hi => down_step h (.y1 i j k) (by simp [lex]))
    (fun i j k h hi => down_step h (.z1 i j k) (by simp [lex]))
    i j k (x - i) (y - j) (z - k) hp (by simp only [Cell] at *; omega)
  have h3 : d' (x, y, z) ≤ d (x, y, z) := by subst hd'; exact sweep_le _ _ _
  have e : (x + (i - x), y + (j - y), z + (k - z)) = (i + (x - i), j + (y - j), k + (z - k)) := by
    simp only [Prod.mk.injEq]; omega
  rw [e] at h1
  have h4 := sweep_le ((loops n).map (down n)) d' (i + (x - i), j + (y - j), k + (z - k))
  simp only [steps, gap]
  omega

/-! Lower bound -/

structure Inv (B : Nat) (O : Pos → Prop) (d : Pos → Nat) : Prop where
  bound : ∀ p, d p ≤ B
  low : ∀ p, d p = B ∨ ∃ q, O q ∧ steps p q ≤ d p

theorem steps_nb {p r : Pos} (h : Nb p r) (q : Pos) : steps p q ≤ 1 + steps r q := by
  cases h <;> simp only [steps, gap] <;> omega

theorem relax_inv {B : Nat} {O : Pos → Prop} {d : Pos → Nat} (h : Inv B O d) (p : Pos) : Inv B O (relax d p) where
  bound q := Nat.le_trans (relax_le d p q) (h.bound q)
  low q := by
    by_cases e : q = p
    · subst e
      have hv : relax d q q = min (d q) (1 + calcDistance6 d q) := by simp [relax, upd]
      obtain ⟨r, hn, hr⟩ := calc6_some d q
      rw [hv, hr]
      rcases Nat.le_total (d q) (1 + d r) with hc | hc
      · rw [Nat.min_eq_left hc]; exact h.low q
      · rw [Nat.min_eq_right hc]
        rcases h.low r with hB | ⟨s, hs, hle⟩
        · have := h.bound q
          omega
        · exact .inr ⟨s, hs, by have := steps_nb hn s; omega⟩
    · rw [relax_other d p q e]; exact h.low q

theorem sweep_inv {B : Nat} {O : Pos → Prop} : ∀ (l : List (Pos)) {d : Pos → Nat}, Inv B O d → Inv B O (l.foldl relax d)
  | [], _, h => h
  | p :: l, _, h => sweep_inv l (relax_inv h p)

theorem calc_inv {B n : Nat} {O : Pos → Prop} {d : Pos → Nat} (h : Inv B O d) : Inv B O (calcDistance n d) := sweep_inv _ (sweep_inv _ h)

/-! init-distance -/

theorem init_eq (n : Nat) (c : Pos → Bool) (d : Pos → Nat) (q : Pos) : initDistance n c d q = if ∃ p ∈ loops n, c p = true ∧ q = up p then 0 else d q := by
  unfold initDistance
  generalize loops n = l
  induction l generalizing d with
  | nil => simp
  | cons p l ih =>
    rw [List.foldl_cons, ih]
    by_cases hl : ∃ r ∈ l, c r = true ∧ q = up r
    · rw [if_pos hl, if_pos]
      obtain ⟨r, hr, h⟩ := hl
      exact ⟨r, List.mem_cons_of_mem _ hr, h⟩
    · rw [if_neg hl]
      by_cases hc : c p = true
      · rw [if_pos hc]
        by_cases hq : q = up p
        · rw [if_pos ⟨p, List.mem_cons_self, hc, hq⟩]
          exact if_pos hq
        · rw [if_neg]
          · exact if_neg hq
          · rintro ⟨r, hr, h⟩
            rcases List.mem_cons.1 hr with rfl | hr
            · exact hq h.2
            · exact hl ⟨r, hr, h⟩
      · rw [if_neg hc, if_neg]
        rintro ⟨r, hr, h⟩
        rcases List.mem_cons.1 hr with rfl | hr
        · exact hc h.1
        · exact hl ⟨r, hr, h⟩

/-- obstacle at cell q (counted from 1) in the array of collisions (counted from 0) -/
def Obst (n : Nat) (c : Pos → Bool) (q : Pos) : Prop := Cell n q ∧ c (q.1 - 1, q.2.1 - 1, q.2.2 - 1) = true

theorem obst_iff (n : Nat) (c : Pos → Bool) (q : Pos) : (∃ p ∈ loops n, c p = true ∧ q = up p) ↔ Obst n c q := by
  constructor
  · rintro ⟨p, hp, hc, rfl⟩
    rw [mem_loops] at hp
    obtain ⟨i, j, k⟩ := p
    refine ⟨?_, by simpa [up] using hc⟩
    simp only [Cell, up] at *
    omega
  · rintro ⟨hq, hc⟩
    refine ⟨_, mem_loops.2 ?_, hc, ?_⟩
    · simp only [Cell] at *; omega
    · obtain ⟨i, j, k⟩ := q
      simp only [Cell, up, Prod.mk.injEq] at *; omega

/-- `(init-distance c distance) (calc-distance c distance)` for one array after the other -/
def run (n : Nat) (cs : List (Pos → Bool)) (d : Pos → Nat) : Pos → Nat := cs.foldl (fun d c => calcDistance n (initDistance n c d)) d

theorem steps_self (p : Pos) : steps p p = 0 := by simp [steps, gap]

theorem run_inv (n B : Nat) : ∀ (cs : List (Pos → Bool)) (O : Pos → Prop) (d : Pos → Nat), Inv B O d → (∀ q, O q → Cell n q ∧ d q = 0) →
    Inv B (fun q => O q ∨ ∃ c ∈ cs, Obst n c q) (run n cs d) ∧ ∀ q, (O q ∨ ∃ c ∈ cs, Obst n c q) → Cell n q ∧ run n cs d q = 0
  | [], O, d, hI, h0 => by
    have e : (fun q => O q ∨ ∃ c ∈ ([] : List (Pos → Bool)), Obst n c q) = O := by funext q; simp
    refine ⟨by rw [e]; exact hI, ?_⟩
    rintro q (h | ⟨c, hc, _⟩)
    · exact h0 q h
    · simp at hc
  | c :: cs, O, d, hI, h0 => by
    have hi : ∀ q, initDistance n c d q ≤ d q := by
      intro q; rw [init_eq]; split <;> omega
    have hI1 : Inv B (fun q => O q ∨ Obst n c q) (initDistance n c d) := by
      refine ⟨fun p => Nat.le_trans (hi p) (hI.bound p), fun p => ?_⟩
      rw [init_eq]
      split
      · rename_i h
        exact .inr ⟨p, .inr ((obst_iff n c p).1 h), by rw [steps_self]⟩
      · rcases hI.low p with h | ⟨q, hq, h⟩
        · exact .inl h
        · exact .inr ⟨q, .inl hq, h⟩
    have hz : ∀ q, (O q ∨ Obst n c q) → Cell n q ∧ calcDistance n (initDistance n c d) q = 0 := by
      intro q hq
      have hc : Cell n q := hq.elim (fun h => (h0 q h).1) (fun h => h.1)
      refine ⟨hc, ?_⟩
      have h1 := calc_le n (initDistance n c d) q q hc hc
      rw [steps_self] at h1
      have h2 : initDistance n c d q = 0 := by
        rw [init_eq]
        split
        · rfl
        · rename_i h
          rcases hq with hq | hq
          · exact (h0 q hq).2
          · exact absurd ((obst_iff n c q).2 hq) h
      omega
    obtain ⟨r1, r2⟩ := run_inv n B cs _ _ (calc_inv hI1) hz
    have e : (fun q => O q ∨ ∃ c' ∈ c :: cs, Obst n c' q) = fun q => (O q ∨ Obst n c q) ∨ ∃ c' ∈ cs, Obst n c' q := by
      funext q
      simp [or_assoc]
    refine ⟨by rw [e]; exact r1, fun q hq => r2 q ?_⟩
    have := congrFun e q
    rw [this] at hq
    exact hq

/-- C206: every cell of the map holds the number of steps to the nearest obstacle, of all the obstacles up to now; the initial value where that is more. -/
theorem C206_distance (n B : Nat) (cs : List (Pos → Bool)) (c : Pos → Bool) (p : Pos) (hp : Cell n p) :
    IsDist B (fun q => Cell n q ∧ ∃ c' ∈ cs ++ [c], c' (q.1 - 1, q.2.1 - 1, q.2.2 - 1) = true) p (run n (cs ++ [c]) (fun _ => B) p) := by
  have e : (fun q => False ∨ ∃ c' ∈ cs ++ [c], Obst n c' q) = fun q => Cell n q ∧ ∃ c' ∈ cs ++ [c], c' (q.1 - 1, q.2.1 - 1, q.2.2 - 1) = true := by
    funext q
    apply propext
    constructor
    · rintro (h | ⟨c', h1, h2, h3⟩)
      · exact h.elim
      · exact ⟨h2, c', h1, h3⟩
    · rintro ⟨h2, c', h1, h3⟩
      exact .inr ⟨c', h1, h2, h3⟩
  obtain ⟨r1, r2⟩ := run_inv n B (cs ++ [c]) (fun _ => False) (fun _ => B) ⟨fun _ => Nat.le_refl _, fun _ => .inl rfl⟩ (fun _ h => h.elim)
  rw [e] at r1
  have hle : ∀ q, (Cell n q ∧ ∃ c' ∈ cs ++ [c], c' (q.1 - 1, q.2.1 - 1, q.2.2 - 1) = true) → run n (cs ++ [c]) (fun _ => B) p ≤ steps p q := by
    intro q hq
    have hq' : (fun q => False ∨ ∃ c' ∈ cs ++ [c], Obst n c' q) q := by rw [e]; exact hq
    have hrun : run n (cs ++ [c]) (fun _ => B) = calcDistance n (initDistance n c (run n cs fun _ => B)) := by simp [run]
    rw [hrun]
    -- the map is already a fixed point at q
    have hI := run_inv n B cs (fun _ => False) (fun _ => B) ⟨fun _ => Nat.le_refl _, fun _ => .inl rfl⟩ (fun _ h => h.elim)
    have hz : initDistance n c (run n cs fun _ => B) q = 0 := by
      rw [init_eq]
      split
      · rfl
      · rename_i h
        rcases hq' with h' | ⟨c', hm, hO⟩
        · exact h'.elim
        · rcases List.mem_append.1 hm with hm | hm
          · exact (hI.2 q (.inr ⟨c', hm, hO⟩)).2
          · rw [List.mem_singleton] at hm
            subst hm
            exact absurd ((obst_iff n c' q).2 hO) h
    have := calc_le n (initDistance n c (run n cs fun _ => B)) p q hp hq.1
    omega
  refine ⟨r1.bound p, hle, ?_⟩
  rcases r1.low p with h | ⟨q, hq, h⟩
  · exact .inl h
  · exact .inr ⟨q, hq, Nat.le_antisymm (hle q hq) h⟩

/-- C206: elements outside of the cells (the border) keep their values. -/
theorem C206_border (n : Nat) (c : Pos → Bool) (d : Pos → Nat) (p : Pos) (hp : ¬ Cell n p) : calcDistance n (initDistance n c d) p = d p := by
  have h1 : p ∉ (loops n).map (down n) := by
    rintro h
    obtain ⟨q, hq, rfl⟩ := List.mem_map.1 h
    rw [mem_loops] at hq
    apply hp
    simp only [Cell, down]
    omega
  have h2 : p ∉ (loops n).map up := by
    rintro h
    obtain ⟨q, hq, rfl⟩ := List.mem_map.1 h
    rw [mem_loops] at hq
    apply hp
    simp only [Cell, up]
    omega
  unfold calcDistance
  rw [sweep_other _ _ _ h1, sweep_other _ _ _ h2, init_eq, if_neg]
  rw [obst_iff]
  exact fun h => hp h.1

/-! A map of 3×3×3 cells. -/

example : let d := run 3 [fun p => p = (0, 2, 0), fun p => p = (2, 0, 1)] (fun _ => 100)
    d (1, 3, 1) = 0 ∧ d (3, 1, 2) = 0 ∧ d (2, 2, 2) = 2 ∧ d (1, 1, 1) = 2 ∧ d (3, 3, 3) = 3 := by decide +kernel

example : Cell 3 (3, 3, 3) ∧ Cell 3 (1, 3, 1) := by simp [Cell]

/-- C206: obstacles that have gone stay in the map, unless it is filled again. -/
theorem C206_removed_wrong : run 1 [fun _ => true, fun _ => false] (fun _ => 9) (1, 1, 1) = 0 := by decide

end Eus.Dtr
