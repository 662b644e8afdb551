import Verif.Lib.Spec
set_option autoImplicit false
/-
Lemmas for qsort.l.
-/
namespace Eus.Lib

section
variable {α κ : Type} (pred : κ → κ → Bool) (key : α → κ)

abbrev Lt (x y : α) : Prop := pred (key x) (key y) = true

theorem scanDown_spec (a : Nat → α) (d : α) (j : Nat) : ∀ k, j ≤ k →
    j ≤ scanDown pred key a d j k ∧ scanDown pred key a d j k ≤ k ∧
    (∀ i, scanDown pred key a d j k ≤ i → i < k → ¬ Lt pred key (a i) d) ∧
    (scanDown pred key a d j k = j ∨ Lt pred key (a (scanDown pred key a d j k - 1)) d)
  | 0, h => by
    have : j = 0 := by omega
    subst this
    simp [scanDown]
  | k + 1, h => by
    simp only [scanDown]
    by_cases h1 : k + 1 ≤ j
    · simp only [h1, if_true]
      refine ⟨h, Nat.le_refl _, fun i h1 h2 => by omega, Or.inl (by omega)⟩
    · simp only [h1, if_false]
      by_cases h2 : pred (key (a k)) (key d) = true
      · simp only [h2, if_true]
        refine ⟨h, Nat.le_refl _, fun i h1 h2 => by omega, Or.inr (by simpa using h2)⟩
      · simp only [h2]
        obtain ⟨q1, q2, q3, q4⟩ := scanDown_spec a d j k (by omega)
        refine ⟨q1, by simp; omega, fun i h3 h4 => ?_, q4⟩
        by_cases h5 : i = k
        · subst h5; exact h2
        · exact q3 i h3 (by omega)

theorem scanUp_spec (a : Nat → α) (d : α) : ∀ n j,
    j ≤ scanUp pred key a d n j ∧ scanUp pred key a d n j ≤ j + n ∧
    (∀ i, j ≤ i → i < scanUp pred key a d n j → Lt pred key (a i) d) ∧
    (scanUp pred key a d n j = j + n ∨ ¬ Lt pred key (a (scanUp pred key a d n j)) d)
  | 0, j => by simp [scanUp]; omega
  | n + 1, j => by
    simp only [scanUp]
    by_cases h2 : pred (key (a j)) (key d) = true
    · simp only [h2, if_true]
      obtain ⟨q1, q2, q3, q4⟩ := scanUp_spec a d n (j + 1)
      refine ⟨by omega, by omega, fun i h3 h4 => ?_, q4.imp (fun q => by omega) id⟩
      by_cases h5 : i = j
      · subst h5; exact h2
      · exact q3 i (by omega) h4
    · simp only [h2]
      exact ⟨Nat.le_refl _, by simp, fun i h3 h4 => by simp at h4; omega, Or.inr h2⟩

variable {pred key}

/-- a' is a rearrangement of the part [s, e) of a, and equal to a elsewhere. -/
def Re (a a' : Nat → α) (s e : Nat) : Prop :=
  ∃ f g : Nat → Nat, (∀ i, g (f i) = i) ∧ (∀ i, f (g i) = i) ∧ (∀ i, ¬ (s ≤ i ∧ i < e) → f i = i) ∧ ∀ i, a' i = a (f i)

theorem Re.refl (a : Nat → α) (s e : Nat) : Re a a s e := ⟨id, id, fun _ => rfl, fun _ => rfl, fun _ _ => rfl, fun _ => rfl⟩

theorem Re.trans {a b c : Nat → α} {s e : Nat} : Re a b s e → Re b c s e → Re a c s e
  | ⟨f, g, h1, h2, h3, h4⟩, ⟨f', g', k1, k2, k3, k4⟩ =>
    ⟨fun i => f (f' i), fun i => g' (g i), fun i => by simp [h1, k1], fun i => by simp [h2, k2],
      fun i hi => by show f (f' i) = i; rw [k3 i hi, h3 i hi], fun i => by rw [k4, h4]⟩

theorem Re.widen {a b : Nat → α} {s e s' e' : Nat} (hs : s' ≤ s) (he : e ≤ e') : Re a b s e → Re a b s' e'
  | ⟨f, g, h1, h2, h3, h4⟩ => ⟨f, g, h1, h2, fun i hi => h3 i (by omega), h4⟩

theorem Re.out {a b : Nat → α} {s e : Nat} : Re a b s e → ∀ i, ¬ (s ≤ i ∧ i < e) → b i = a i
  | ⟨_, _, _, _, h3, h4⟩, i, hi => by rw [h4, h3 i hi]

theorem Re.inside {a b : Nat → α} {s e : Nat} : Re a b s e → ∀ i, s ≤ i → i < e → ∃ i', s ≤ i' ∧ i' < e ∧ b i = a i'
  | ⟨f, g, h1, h2, h3, h4⟩, i, hs, he => by
    refine ⟨f i, ?_⟩
    have : s ≤ f i ∧ f i < e := by
      refine Classical.byContradiction fun hc => ?_
      have h5 := h3 (f i) hc
      have h6 : f i = i := by have := congrArg g h5; rwa [h1, h1] at this
      rw [h6] at hc
      exact hc ⟨hs, he⟩
    exact ⟨this.1, this.2, h4 i⟩

theorem Re.exchange (a : Nat → α) {k j s e : Nat} (h1 : s ≤ j) (h2 : j < e) (h3 : s ≤ k) (h4 : k < e) :
    Re a (Lib.exchange a k j) s e := by
  refine ⟨fun i => if i = j then k else if i = k then j else i, fun i => if i = j then k else if i = k then j else i, ?_, ?_, ?_, ?_⟩
  · intro i; dsimp only
    by_cases hj : i = j
    · subst hj
      by_cases hk : k = i
      · simp [hk]
      · simp [hk]
    · by_cases hk : i = k
      · simp [hk]
      · simp [hj, hk]
  · intro i; dsimp only
    by_cases hj : i = j
    · subst hj
      by_cases hk : k = i
      · simp [hk]
      · simp [hk]
    · by_cases hk : i = k
      · simp [hk]
      · simp [hj, hk]
  · intro i hi; dsimp only
    rw [if_neg (by omega), if_neg (by omega)]
  · intro i
    simp only [Lib.exchange]
    split
    · rfl
    · split <;> rfl

def PartOk (pred : κ → κ → Bool) (key : α → κ) (a : Nat → α) (d : α) (s e : Nat) : Option (Part α) → Prop
  | none => False
  | some .low => ∀ i, s ≤ i → i < e → ¬ Lt pred key (a i) d
  | some (.split j a') => s < j ∧ j < e ∧ Re a a' s e ∧ (∀ i, s ≤ i → i < j → Lt pred key (a' i) d) ∧
      ∀ i, j ≤ i → i < e → ¬ Lt pred key (a' i) d

theorem part_spec (hir : ∀ x, ¬ Lt pred key x x) (a0 : Nat → α) (d : α) (s e : Nat) (hd : a0 s = d) (hse : s < e) :
    ∀ n a j k, k < n + j → s ≤ j → j ≤ k → k ≤ e → Re a0 a s e →
      (∀ i, s ≤ i → i < j → Lt pred key (a i) d) → (∀ i, k ≤ i → i < e → ¬ Lt pred key (a i) d) →
      (j = s ∧ k = e ∧ a = a0 ∨ s < j ∧ k < e) → PartOk pred key a0 d s e (part pred key s d n a j k)
  | 0, a, j, k, hn, _, hjk, _, _, _, _, _ => by omega
  | n + 1, a, j, k, hn, hsj, hjk, hke, hre, hlo, hhi, hph => by
    simp only [part]
    by_cases h0 : k ≤ j
    · rw [if_pos h0]
      have : k = j := by omega
      subst this
      rcases hph with ⟨h1, h2, _⟩ | ⟨h1, h2⟩
      · omega
      · exact ⟨h1, h2, hre, hlo, hhi⟩
    · rw [if_neg h0]
      obtain ⟨d1, d2, d3, d4⟩ := scanDown_spec pred key a d j k hjk
      generalize scanDown pred key a d j k = k' at d1 d2 d3 d4
      have hhi' : ∀ i, k' ≤ i → i < e → ¬ Lt pred key (a i) d := fun i h1 h2 => by
        by_cases h3 : i < k
        · exact d3 i h1 h3
        · exact hhi i (by omega) h2
      by_cases h1 : k' ≤ s
      · rw [if_pos h1]
        rcases hph with ⟨_, _, h4⟩ | ⟨h4, h5⟩
        · subst h4
          exact fun i h2 h3 => hhi' i (by omega) h3
        · omega
      · rw [if_neg h1]
        obtain ⟨u1, u2, u3, u4⟩ := scanUp_spec pred key a d (k' - j) j
        generalize scanUp pred key a d (k' - j) j = j' at u1 u2 u3 u4
        have hlo' : ∀ i, s ≤ i → i < j' → Lt pred key (a i) d := fun i h1 h2 => by
          by_cases h3 : i < j
          · exact hlo i h1 h3
          · exact u3 i (by omega) h2
        by_cases h2 : k' ≤ j'
        · rw [if_pos h2]
          have : j' = k' := by omega
          subst this
          rcases hph with ⟨h4, h5, h6⟩ | ⟨h4, h5⟩
          · subst h6
            have := hlo' s (Nat.le_refl _) (by omega)
            rw [hd] at this
            exact absurd this (hir d)
          · exact ⟨by omega, by omega, hre, hlo', hhi'⟩
        · rw [if_neg h2]
          have hk' : Lt pred key (a (k' - 1)) d := by
            rcases d4 with d4 | d4
            · omega
            · exact d4
          have hj' : ¬ Lt pred key (a j') d := by
            rcases u4 with u4 | u4
            · omega
            · exact u4
          have hne : j' ≠ k' - 1 := fun h => hj' (h ▸ hk')
          refine part_spec hir a0 d s e hd hse n _ (j' + 1) (k' - 1) (by omega) (by omega) (by omega) (by omega)
            (hre.trans (Re.exchange a (by omega) (by omega) (by omega) (by omega))) ?_ ?_ (Or.inr ⟨by omega, by omega⟩)
          · intro i h3 h4
            simp only [exchange]
            by_cases h5 : i = j'
            · rw [if_pos h5]; exact hk'
            · rw [if_neg h5, if_neg (by omega)]; exact hlo' i h3 (by omega)
          · intro i h3 h4
            simp only [exchange]
            rw [if_neg (by omega)]
            by_cases h5 : i = k' - 1
            · rw [if_pos h5]; exact hj'
            · rw [if_neg h5]; exact hhi' i (by omega) h4

theorem quickSort_spec (hir : ∀ x, ¬ Lt pred key x x) (htr : ∀ x y z, Lt pred key x y → Lt pred key y z → Lt pred key x z) :
    ∀ n (a : Nat → α) s e, e < n + s → 0 < n →
      ∃ a', quickSort pred key n a s e = some a' ∧ Re a a' s e ∧
        ∀ i j, s ≤ i → i < j → j < e → ¬ Lt pred key (a' j) (a' i)
  | 0, _, _, _, _, h => by omega
  | n + 1, a, s, e, h, _ => by
    simp only [quickSort]
    by_cases h0 : e ≤ s + 1
    · rw [if_pos h0]
      exact ⟨a, rfl, Re.refl a s e, fun i j h1 h2 h3 => by omega⟩
    · rw [if_neg h0]
      have hp := part_spec hir a (a s) s e rfl (by omega) (e + 1) a s e (by omega) (Nat.le_refl _) (by omega) (Nat.le_refl _)
        (Re.refl a s e) (fun i h1 h2 => by omega) (fun i h1 h2 => by omega) (Or.inl ⟨rfl, rfl, rfl⟩)
      generalize part pred key s (a s) (e + 1) a s e = o at hp
      match o, hp with
      | some .low, hp =>
        obtain ⟨a', q1, q2, q3⟩ := quickSort_spec hir htr n a (s + 1) e (by omega) (by omega)
        refine ⟨a', q1, q2.widen (by omega) (Nat.le_refl _), fun i j h1 h2 h3 => ?_⟩
        by_cases h4 : i = s
        · subst h4
          obtain ⟨i', p1, p2, p3⟩ := q2.inside j (by omega) h3
          rw [p3, q2.out i (by omega)]
          exact hp i' (by omega) p2
        · exact q3 i j (by omega) h2 h3
      | some (.split m a1), ⟨h1, h2, h3, h4, h5⟩ =>
        obtain ⟨a2, q1, q2, q3⟩ := quickSort_spec hir htr n a1 s m (by omega) (by omega)
        obtain ⟨a3, r1, r2, r3⟩ := quickSort_spec hir htr n a2 m e (by omega) (by omega)
        refine ⟨a3, by simp only [q1, Option.bind_some]; exact r1,
          (h3.trans (q2.widen (Nat.le_refl _) (by omega))).trans (r2.widen (by omega) (Nat.le_refl _)), fun i j k1 k2 k3 hlt => ?_⟩
        by_cases hj : j < m
        · rw [r2.out i (by omega), r2.out j (by omega)] at hlt
          exact q3 i j k1 k2 hj hlt
        · by_cases hi : i < m
          · rw [r2.out i (by omega)] at hlt
            obtain ⟨i', p1, p2, p3⟩ := q2.inside i k1 hi
            obtain ⟨j', p4, p5, p6⟩ := r2.inside j (by omega) k3
            rw [p3, p6, q2.out j' (by omega)] at hlt
            exact h5 j' p4 p5 (htr _ _ _ hlt (h4 i' p1 p2))
          · exact r3 i j (by omega) k2 k3 hlt

end

theorem range_perm {n : Nat} (f g : Nat → Nat) (h1 : ∀ i, g (f i) = i) (h2 : ∀ i, f (g i) = i) (h3 : ∀ i, ¬ (0 ≤ i ∧ i < n) → f i = i) :
    ((List.range n).map f).Perm (List.range n) := by
  have hn : ((List.range n).map f).Nodup := by
    rw [List.Nodup, List.pairwise_map]
    refine List.Pairwise.imp ?_ (List.nodup_range (n := n))
    intro a b hab hc
    exact hab (by have := congrArg g hc; rwa [h1, h1] at this)
  rw [List.perm_ext_iff_of_nodup hn List.nodup_range]
  intro x
  simp only [List.mem_map, List.mem_range]
  constructor
  · rintro ⟨y, hy, rfl⟩
    refine Classical.byContradiction fun hc => ?_
    have h5 := h3 (f y) (by omega)
    have := congrArg g h5
    rw [h1, h1] at this
    omega
  · intro hx
    refine ⟨g x, ?_, h2 x⟩
    refine Classical.byContradiction fun hc => ?_
    have h5 := h3 (g x) (by omega)
    rw [h2] at h5
    omega

theorem Re.perm {α : Type} {a a' : Nat → α} {n : Nat} : Re a a' 0 n → ((List.range n).map a').Perm ((List.range n).map a)
  | ⟨f, g, h1, h2, h3, h4⟩ => by
    have e : (List.range n).map a' = ((List.range n).map f).map a := by
      rw [List.map_map]; exact List.map_congr_left fun i _ => h4 i
    rw [e]
    exact (range_perm f g h1 h2 h3).map a

theorem map_getD {α : Type} (d : α) : ∀ l : List α, (List.range l.length).map (fun i => l.getD i d) = l := by
  intro l
  apply List.ext_getElem
  · simp
  · intro i h1 h2
    simp [List.getElem?_eq_getElem h2]

theorem pairwise_range {α : Type} (R : α → α → Prop) (a : Nat → α) (n : Nat) (h : ∀ i j, i < j → j < n → R (a i) (a j)) :
    ((List.range n).map a).Pairwise R := by
  rw [List.pairwise_iff_getElem]
  intro i j hi hj hij
  simp only [List.getElem_map, List.getElem_range]
  exact h i j hij (by simpa using hj)

end Eus.Lib
