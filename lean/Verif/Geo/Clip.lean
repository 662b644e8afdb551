import Verif.Geo.Spec
import Mathlib.Tactic.Linarith
import Mathlib.Tactic.Ring
import Mathlib.Tactic.FieldSimp
import Mathlib.Tactic.LinearCombination
import Mathlib.Tactic.FinCases
import Mathlib.Tactic.Positivity
import Mathlib.Data.Finset.Card
import Mathlib.Data.Fintype.Basic
set_option autoImplicit false
/- Clipping: proofs. -/
namespace Eus.Geo

section
variable {K : Type} [Field K] [LinearOrder K] [IsStrictOrderedRing K]

/-! ### homo-viewport-clip -/

/-- The parameters allowed by a pair of window coordinates. -/
def okAt (t : K) (w : K × K) : Prop := 0 ≤ w.1 + t * (w.2 - w.1)

theorem both_neg {w : K × K} {t : K} (h1 : w.1 < 0) (h2 : w.2 < 0) (h0 : 0 ≤ t) (h1' : t ≤ 1) : ¬ okAt t w := by
  unfold okAt
  have : w.1 + t * (w.2 - w.1) = (1 - t) * w.1 + t * w.2 := by ring
  rw [this]
  rcases eq_or_lt_of_le h0 with rfl | h0
  · simp [h1]
  · nlinarith

theorem hclipStep_spec {t : K × K} {w : K × K} (hw : ¬ (w.1 < 0 ∧ w.2 < 0)) (ht0 : 0 ≤ t.1) (ht1 : t.2 ≤ 1) :
    0 ≤ (hclipStep t w).1 ∧ (hclipStep t w).2 ≤ 1 ∧
      ∀ s, 0 ≤ s → s ≤ 1 → (((hclipStep t w).1 ≤ s ∧ s ≤ (hclipStep t w).2) ↔ ((t.1 ≤ s ∧ s ≤ t.2) ∧ okAt s w)) := by
  unfold hclipStep
  by_cases h : w.1 < 0 ∨ w.2 < 0
  · rw [if_pos h]
    simp only
    by_cases h1 : w.1 < 0
    · have h2 : 0 ≤ w.2 := by by_contra hc; exact hw ⟨h1, not_le.1 hc⟩
      have hden : w.1 - w.2 < 0 := by linarith
      have hok : ∀ s, okAt s w ↔ w.1 / (w.1 - w.2) ≤ s := by
        intro s
        unfold okAt
        rw [div_le_iff_of_neg hden]
        constructor <;> intro h <;> linarith
      have hnn : 0 ≤ w.1 / (w.1 - w.2) := div_nonneg_of_nonpos h1.le hden.le
      rw [if_pos h1]
      by_cases hg : w.1 / (w.1 - w.2) > t.1
      · rw [if_pos hg]
        refine ⟨hnn, ht1, fun s _ _ => ?_⟩
        rw [hok]
        constructor
        · rintro ⟨ha, hb⟩; exact ⟨⟨hg.le.trans ha, hb⟩, ha⟩
        · rintro ⟨⟨_, hb⟩, ha⟩; exact ⟨ha, hb⟩
      · rw [if_neg hg]
        refine ⟨ht0, ht1, fun s _ _ => ?_⟩
        rw [hok]
        constructor
        · rintro ⟨ha, hb⟩; exact ⟨⟨ha, hb⟩, (not_lt.1 hg).trans ha⟩
        · rintro ⟨hab, _⟩; exact hab
    · have h2 : w.2 < 0 := h.resolve_left h1
      have h1' : 0 ≤ w.1 := not_lt.1 h1
      have hden : 0 < w.1 - w.2 := by linarith
      have hok : ∀ s, okAt s w ↔ s ≤ w.1 / (w.1 - w.2) := by
        intro s
        unfold okAt
        rw [le_div_iff₀ hden]
        constructor <;> intro h <;> linarith
      rw [if_neg h1]
      by_cases hg : w.1 / (w.1 - w.2) < t.2
      · rw [if_pos hg]
        refine ⟨ht0, hg.le.trans ht1, fun s _ _ => ?_⟩
        rw [hok]
        constructor
        · rintro ⟨ha, hb⟩; exact ⟨⟨ha, hb.trans hg.le⟩, hb⟩
        · rintro ⟨⟨ha, _⟩, hb⟩; exact ⟨ha, hb⟩
      · rw [if_neg hg]
        refine ⟨ht0, ht1, fun s _ _ => ?_⟩
        rw [hok]
        constructor
        · rintro ⟨ha, hb⟩; exact ⟨⟨ha, hb⟩, hb.trans (not_lt.1 hg)⟩
        · rintro ⟨hab, _⟩; exact hab
  · rw [if_neg h]
    have h1 : 0 ≤ w.1 := not_lt.1 fun hc => h (Or.inl hc)
    have h2 : 0 ≤ w.2 := not_lt.1 fun hc => h (Or.inr hc)
    refine ⟨ht0, ht1, fun s hs0 hs1 => ?_⟩
    have : okAt s w := by
      unfold okAt
      have : w.1 + s * (w.2 - w.1) = (1 - s) * w.1 + s * w.2 := by ring
      rw [this]
      have := mul_nonneg (sub_nonneg.2 hs1) h1
      have := mul_nonneg hs0 h2
      linarith
    exact ⟨fun h => ⟨h, this⟩, fun h => h.1⟩

theorem hclip_fold (ws : List (K × K)) : ∀ {t : K × K}, (∀ w ∈ ws, ¬ (w.1 < 0 ∧ w.2 < 0)) → 0 ≤ t.1 → t.2 ≤ 1 →
    0 ≤ (ws.foldl hclipStep t).1 ∧ (ws.foldl hclipStep t).2 ≤ 1 ∧
      ∀ s, 0 ≤ s → s ≤ 1 → (((ws.foldl hclipStep t).1 ≤ s ∧ s ≤ (ws.foldl hclipStep t).2) ↔
        ((t.1 ≤ s ∧ s ≤ t.2) ∧ ∀ w ∈ ws, okAt s w)) := by
  induction ws with
  | nil => intro t _ h0 h1; exact ⟨h0, h1, fun s _ _ => by simp⟩
  | cons w ws ih =>
    intro t hw h0 h1
    obtain ⟨a0, a1, a⟩ := hclipStep_spec (hw w (by simp)) h0 h1
    obtain ⟨b0, b1, b⟩ := ih (t := hclipStep t w) (fun v hv => hw v (by simp [hv])) a0 a1
    refine ⟨b0, b1, fun s hs0 hs1 => ?_⟩
    rw [List.foldl_cons, b s hs0 hs1, a s hs0 hs1]
    simp only [List.mem_cons, forall_eq_or_imp, and_assoc]

theorem inView4_iff (p q : V4 K) (t : K) :
    InView4 (p.at q t) ↔ ∀ w ∈ (windowcoords p).zip (windowcoords q), okAt t w := by
  simp only [windowcoords, List.zip_cons_cons, List.zip_nil_right, List.mem_cons, List.not_mem_nil, or_false, forall_eq_or_imp, forall_eq, okAt, InView4, V4.at]
  constructor
  · rintro ⟨h1, h2, h3, h4, h5, h6⟩
    refine ⟨?_, ?_, ?_, ?_, ?_, ?_⟩ <;> linarith
  · rintro ⟨h1, h2, h3, h4, h5, h6⟩
    refine ⟨?_, ?_, ?_, ?_, ?_, ?_⟩ <;> linarith

theorem V4.at_zero (p q : V4 K) : p.at q 0 = p := by simp [V4.at]
theorem V4.at_one (p q : V4 K) : p.at q 1 = q := by simp [V4.at]

theorem homo_spec (p q : V4 K) :
    (homoVpclip p q = .nil ∧ ∀ t, 0 ≤ t → t ≤ 1 → ¬ InView4 (p.at q t)) ∨
    ∃ t1 t2, homoVpclip p q = .seg (p.at q t1) (p.at q t2) ∧ 0 ≤ t1 ∧ t1 ≤ t2 ∧ t2 ≤ 1 ∧
      ∀ t, 0 ≤ t → t ≤ 1 → (InView4 (p.at q t) ↔ t1 ≤ t ∧ t ≤ t2) := by
  unfold homoVpclip
  simp only
  by_cases hb : ((windowcoords p).zip (windowcoords q)).any (fun w => decide (w.1 < 0) && decide (w.2 < 0)) = true
  · left
    rw [if_pos hb]
    refine ⟨rfl, fun t h0 h1 hv => ?_⟩
    rw [List.any_eq_true] at hb
    obtain ⟨w, hw, hneg⟩ := hb
    simp only [Bool.and_eq_true, decide_eq_true_eq] at hneg
    exact both_neg hneg.1 hneg.2 h0 h1 ((inView4_iff p q t).1 hv w hw)
  · rw [if_neg hb]
    have hws : ∀ w ∈ (windowcoords p).zip (windowcoords q), ¬ (w.1 < 0 ∧ w.2 < 0) := by
      intro w hw hc
      exact hb (List.any_eq_true.2 ⟨w, hw, by simp [hc.1, hc.2]⟩)
    obtain ⟨h0, h1, h⟩ := hclip_fold _ (t := (0, 1)) hws le_rfl le_rfl
    generalize ((windowcoords p).zip (windowcoords q)).foldl hclipStep (0, 1) = r at *
    have hiff : ∀ t, 0 ≤ t → t ≤ 1 → (InView4 (p.at q t) ↔ r.1 ≤ t ∧ t ≤ r.2) := by
      intro t ht0 ht1
      rw [inView4_iff, h t ht0 ht1]
      exact ⟨fun hh => ⟨⟨ht0, ht1⟩, hh⟩, fun hh => hh.2⟩
    by_cases hr : r.2 ≥ r.1
    · right
      rw [if_pos hr]
      refine ⟨r.1, r.2, ?_, h0, hr, h1, hiff⟩
      congr 1
      · split
        · rfl
        · rename_i hc; rw [not_not.1 hc, V4.at_zero]
      · split
        · rfl
        · rename_i hc; rw [not_not.1 hc, V4.at_one]
    · left
      rw [if_neg hr]
      refine ⟨rfl, fun t ht0 ht1 hv => hr ?_⟩
      obtain ⟨ha, hb⟩ := (hiff t ht0 ht1).1 hv
      exact ha.trans hb

/-! ### viewportclip -/

/-- The four numbers that are not negative in the view. -/
def fi (i : Fin 4) (p : V3 K) : K :=
  match i with
  | 0 => p.z + p.x
  | 1 => p.z - p.x
  | 2 => p.z + p.y
  | 3 => p.z - p.y

theorem inView_iff (p : V3 K) : InView p ↔ ∀ i, 0 ≤ fi i p := by
  constructor
  · rintro ⟨h1, h2, h3, h4⟩ i
    fin_cases i <;> simp only [fi] <;> linarith
  · intro h
    have h0 := h 0; have h1 := h 1; have h2 := h 2; have h3 := h 3
    simp only [fi] at h0 h1 h2 h3
    refine ⟨?_, ?_, ?_, ?_⟩ <;> linarith

theorem fi_at (i : Fin 4) (p q : V3 K) (t : K) : fi i (at3 p q t) = fi i p + t * (fi i q - fi i p) := by
  fin_cases i <;> simp only [fi, at3] <;> ring

/-- The plane a code is clipped with. -/
def sel (c : Nat) : Fin 4 := if c &&& 1 ≠ 0 then 0 else if c &&& 2 ≠ 0 then 1 else if c &&& 4 ≠ 0 then 2 else 3

theorem clipPoint_eq (c : Nat) (p q : V3 K) (h : fi (sel c) p - fi (sel c) q ≠ 0) :
    clipPoint c p q = some (at3 p q (fi (sel c) p / (fi (sel c) p - fi (sel c) q))) := by
  have key : ∀ f d : K, d ≠ 0 → f / d * d = f := fun f d hd => div_mul_cancel₀ f hd
  unfold clipPoint
  by_cases h1 : c &&& 1 ≠ 0
  · have hs : sel c = 0 := by simp only [sel, if_pos h1]
    rw [hs] at h ⊢
    simp only [fi] at h ⊢
    have hd : p.x - q.x - (q.z - p.z) = p.z + p.x - (q.z + q.x) := by ring
    rw [if_pos h1, hd, if_neg h]
    have hk := key (p.z + p.x) _ h
    congr 1
    ext <;> simp only [at3]
    · linear_combination hk
    · ring
    · ring
  rw [if_neg h1]
  by_cases h2 : c &&& 2 ≠ 0
  · have hs : sel c = 1 := by simp only [sel, if_neg h1, if_pos h2]
    rw [hs] at h ⊢
    simp only [fi] at h ⊢
    have hd : q.x - p.x - (q.z - p.z) = p.z - p.x - (q.z - q.x) := by ring
    rw [if_pos h2, hd, if_neg h]
    have hk := key (p.z - p.x) _ h
    congr 1
    ext <;> simp only [at3]
    · linear_combination (-1 : K) * hk
    · ring
    · ring
  rw [if_neg h2]
  by_cases h3 : c &&& 4 ≠ 0
  · have hs : sel c = 2 := by simp only [sel, if_neg h1, if_neg h2, if_pos h3]
    rw [hs] at h ⊢
    simp only [fi] at h ⊢
    have hd : p.y - q.y - (q.z - p.z) = p.z + p.y - (q.z + q.y) := by ring
    rw [if_pos h3, hd, if_neg h]
    have hk := key (p.z + p.y) _ h
    congr 1
    ext <;> simp only [at3]
    · ring
    · linear_combination hk
    · ring
  rw [if_neg h3]
  have hs : sel c = 3 := by simp only [sel, if_neg h1, if_neg h2, if_neg h3]
  rw [hs] at h ⊢
  simp only [fi] at h ⊢
  have hd : q.y - p.y - (q.z - p.z) = p.z - p.y - (q.z - q.y) := by ring
  rw [hd, if_neg h]
  have hk := key (p.z - p.y) _ h
  congr 1
  ext <;> simp only [at3]
  · ring
  · linear_combination (-1 : K) * hk
  · ring

/-- For a point that is not behind the viewer, the bits of the code are the planes it is outside of. -/
theorem code_cases (p : V3 K) (hz : 0 ≤ p.z) :
    ∃ cx cy : Nat, clipcode p = cx + cy ∧ (cx = 0 ∨ cx = 1 ∨ cx = 2) ∧ (cy = 0 ∨ cy = 4 ∨ cy = 8) ∧
      (cx = 1 ↔ fi 0 p < 0) ∧ (cx = 2 ↔ fi 1 p < 0) ∧ (cy = 4 ↔ fi 2 p < 0) ∧ (cy = 8 ↔ fi 3 p < 0) := by
  refine ⟨clipX p, clipY p, rfl, ?_, ?_, ?_, ?_, ?_, ?_⟩
  · unfold clipX; split_ifs <;> simp
  · unfold clipY; split_ifs <;> simp
  · unfold clipX; simp only [fi]; split_ifs with a b
    · simp; linarith
    · simp; linarith
    · simp; linarith
  · unfold clipX; simp only [fi]; split_ifs with a b
    · simp; linarith
    · simp; linarith
    · simp; linarith
  · unfold clipY; simp only [fi]; split_ifs with a b
    · simp; linarith
    · simp; linarith
    · simp; linarith
  · unfold clipY; simp only [fi]; split_ifs with a b
    · simp; linarith
    · simp; linarith
    · simp; linarith

theorem code_zero (p : V3 K) (hz : 0 ≤ p.z) : clipcode p = 0 ↔ InView p := by
  obtain ⟨cx, cy, hc, hx, hy, h0, h1, h2, h3⟩ := code_cases p hz
  rw [inView_iff, hc]
  constructor
  · intro h i
    have hx0 : cx = 0 := by omega
    have hy0 : cy = 0 := by omega
    subst hx0 hy0
    simp at h0 h1 h2 h3
    fin_cases i <;> assumption
  · intro h
    have a0 := h 0; have a1 := h 1; have a2 := h 2; have a3 := h 3
    have b0 : cx ≠ 1 := fun e => absurd (h0.1 e) (not_lt.2 a0)
    have b1 : cx ≠ 2 := fun e => absurd (h1.1 e) (not_lt.2 a1)
    have b2 : cy ≠ 4 := fun e => absurd (h2.1 e) (not_lt.2 a2)
    have b3 : cy ≠ 8 := fun e => absurd (h3.1 e) (not_lt.2 a3)
    omega

theorem sel_neg (p : V3 K) (hz : 0 ≤ p.z) (hne : clipcode p ≠ 0) : fi (sel (clipcode p)) p < 0 := by
  obtain ⟨cx, cy, hc, hx, hy, h0, h1, h2, h3⟩ := code_cases p hz
  rw [hc] at hne ⊢
  rcases hx with rfl | rfl | rfl <;> rcases hy with rfl | rfl | rfl
  · exact absurd rfl hne
  · exact h2.1 rfl
  · exact h3.1 rfl
  · exact h0.1 rfl
  · exact h0.1 rfl
  · exact h0.1 rfl
  · exact h1.1 rfl
  · exact h1.1 rfl
  · exact h1.1 rfl

theorem sel_other (p q : V3 K) (hz : 0 ≤ p.z) (hz' : 0 ≤ q.z) (hne : clipcode p ≠ 0) (hand : clipcode p &&& clipcode q = 0) :
    0 ≤ fi (sel (clipcode p)) q := by
  obtain ⟨cx, cy, hc, hx, hy, h0, h1, h2, h3⟩ := code_cases p hz
  obtain ⟨dx, dy, hd, hx', hy', k0, k1, k2, k3⟩ := code_cases q hz'
  rw [hc] at hne hand ⊢
  rw [hd] at hand
  have n0 : dx ≠ 1 → 0 ≤ fi 0 q := fun h => not_lt.1 fun hc => h (k0.2 hc)
  have n1 : dx ≠ 2 → 0 ≤ fi 1 q := fun h => not_lt.1 fun hc => h (k1.2 hc)
  have n2 : dy ≠ 4 → 0 ≤ fi 2 q := fun h => not_lt.1 fun hc => h (k2.2 hc)
  have n3 : dy ≠ 8 → 0 ≤ fi 3 q := fun h => not_lt.1 fun hc => h (k3.2 hc)
  clear h0 h1 h2 h3 k0 k1 k2 k3 hc hd
  rcases hx with rfl | rfl | rfl <;> rcases hy with rfl | rfl | rfl <;>
    rcases hx' with rfl | rfl | rfl <;> rcases hy' with rfl | rfl | rfl <;>
    first
    | exact absurd rfl hne
    | exact absurd hand (by decide)
    | exact n0 (by decide)
    | exact n1 (by decide)
    | exact n2 (by decide)
    | exact n3 (by decide)

theorem and_outside (p q : V3 K) (hz : 0 ≤ p.z) (hz' : 0 ≤ q.z) (hand : clipcode p &&& clipcode q ≠ 0) :
    ∃ i, fi i p < 0 ∧ fi i q < 0 := by
  obtain ⟨cx, cy, hc, hx, hy, h0, h1, h2, h3⟩ := code_cases p hz
  obtain ⟨dx, dy, hd, hx', hy', k0, k1, k2, k3⟩ := code_cases q hz'
  rw [hc, hd] at hand
  have m0 : cx = 1 → dx = 1 → ∃ i, fi i p < 0 ∧ fi i q < 0 := fun a b => ⟨0, h0.1 a, k0.1 b⟩
  have m1 : cx = 2 → dx = 2 → ∃ i, fi i p < 0 ∧ fi i q < 0 := fun a b => ⟨1, h1.1 a, k1.1 b⟩
  have m2 : cy = 4 → dy = 4 → ∃ i, fi i p < 0 ∧ fi i q < 0 := fun a b => ⟨2, h2.1 a, k2.1 b⟩
  have m3 : cy = 8 → dy = 8 → ∃ i, fi i p < 0 ∧ fi i q < 0 := fun a b => ⟨3, h3.1 a, k3.1 b⟩
  clear h0 h1 h2 h3 k0 k1 k2 k3 hc hd
  rcases hx with rfl | rfl | rfl <;> rcases hy with rfl | rfl | rfl <;>
    rcases hx' with rfl | rfl | rfl <;> rcases hy' with rfl | rfl | rfl <;>
    first
    | exact absurd hand (by decide)
    | exact m0 rfl rfl
    | exact m1 rfl rfl
    | exact m2 rfl rfl
    | exact m3 rfl rfl

/-- Planes that some end is outside of. -/
def open_ (p q : V3 K) : Finset (Fin 4) := Finset.univ.filter fun i => fi i p < 0 ∨ fi i q < 0

theorem fi_mem {i : Fin 4} {p q : V3 K} {t : K} (h0 : 0 ≤ t) (h1 : t ≤ 1) (hp : 0 ≤ fi i p) (hq : 0 ≤ fi i q) : 0 ≤ fi i (at3 p q t) := by
  rw [fi_at]
  have : fi i p + t * (fi i q - fi i p) = (1 - t) * fi i p + t * fi i q := by ring
  rw [this]
  have := mul_nonneg (sub_nonneg.2 h1) hp
  have := mul_nonneg h0 hq
  linarith

theorem at3_zero (p q : V3 K) : at3 p q 0 = p := by simp [at3]
theorem at3_one (p q : V3 K) : at3 p q 1 = q := by simp [at3]
theorem at3_at3_right (p q : V3 K) (s t : K) : at3 p (at3 p q s) t = at3 p q (t * s) := by
  ext <;> simp only [at3] <;> ring
theorem at3_at3_left (p q : V3 K) (s t : K) : at3 (at3 p q s) q t = at3 p q (s + t * (1 - s)) := by
  ext <;> simp only [at3] <;> ring

theorem z_at {p q : V3 K} {t : K} (h0 : 0 ≤ t) (h1 : t ≤ 1) (hp : 0 ≤ p.z) (hq : 0 ≤ q.z) : 0 ≤ (at3 p q t).z := by
  have : (at3 p q t).z = (1 - t) * p.z + t * q.z := by simp only [at3]; ring
  rw [this]
  have := mul_nonneg (sub_nonneg.2 h1) hp
  have := mul_nonneg h0 hq
  linarith

/-- What `viewportclip` returns, with so much fuel. -/
def Clipped (p q : V3 K) (r : Clip (V3 K)) : Prop :=
  (r = .nil ∧ ∀ t, 0 ≤ t → t ≤ 1 → ¬ InView (at3 p q t)) ∨
  ∃ t1 t2, r = .seg (at3 p q t1) (at3 p q t2) ∧ 0 ≤ t1 ∧ t1 ≤ t2 ∧ t2 ≤ 1 ∧
    ∀ t, 0 ≤ t → t ≤ 1 → (InView (at3 p q t) ↔ ∃ s, 0 ≤ s ∧ s ≤ 1 ∧ at3 p q t = at3 (at3 p q t1) (at3 p q t2) s)

theorem vpclip_spec : ∀ (k : Nat) (p q : V3 K), 0 ≤ p.z → 0 ≤ q.z → k > (open_ p q).card → Clipped p q (vpclip k p q) := by
  intro k
  induction k with
  | zero => intro p q _ _ h; exact absurd h (by omega)
  | succ k ih =>
    intro p q hp hq hk
    unfold vpclip
    simp only
    by_cases hz : clipcode p = 0 ∧ clipcode q = 0
    · rw [if_pos hz]
      right
      refine ⟨0, 1, by rw [at3_zero, at3_one], le_rfl, zero_le_one, le_rfl, fun t h0 h1 => ?_⟩
      have hv1 := (inView_iff p).1 ((code_zero p hp).1 hz.1)
      have hv2 := (inView_iff q).1 ((code_zero q hq).1 hz.2)
      rw [at3_zero, at3_one]
      exact ⟨fun _ => ⟨t, h0, h1, rfl⟩, fun _ => (inView_iff _).2 fun i => fi_mem h0 h1 (hv1 i) (hv2 i)⟩
    rw [if_neg hz]
    by_cases hand : clipcode p &&& clipcode q ≠ 0
    · rw [if_pos hand]
      left
      refine ⟨rfl, fun t h0 h1 hv => ?_⟩
      obtain ⟨i, h1', h2'⟩ := and_outside p q hp hq hand
      have := (inView_iff _).1 hv i
      rw [fi_at] at this
      exact both_neg (w := (fi i p, fi i q)) h1' h2' h0 h1 this
    rw [if_neg hand]
    have hand0 : clipcode p &&& clipcode q = 0 := not_not.1 hand
    by_cases hc1 : clipcode p ≠ 0
    · rw [if_pos hc1]
      have hneg := sel_neg p hp hc1
      have hoth := sel_other p q hp hq hc1 hand0
      generalize hi : sel (clipcode p) = i at hneg hoth
      have hden : fi i p - fi i q < 0 := by linarith
      rw [clipPoint_eq _ p q (by rw [hi]; exact hden.ne), hi]
      simp only [if_true]
      generalize hs : fi i p / (fi i p - fi i q) = s
      have hs0 : 0 ≤ s := hs ▸ div_nonneg_of_nonpos hneg.le hden.le
      have hs1 : s ≤ 1 := by rw [← hs, div_le_one_of_neg hden]; linarith
      have hsf : s * (fi i p - fi i q) = fi i p := by rw [← hs]; exact div_mul_cancel₀ _ hden.ne
      have hr0 : fi i (at3 p q s) = 0 := by rw [fi_at]; linarith
      have hcard : (open_ (at3 p q s) q).card < (open_ p q).card := by
        apply Finset.card_lt_card
        rw [Finset.ssubset_iff_of_subset]
        · refine ⟨i, by simp [open_, hneg], ?_⟩
          simp [open_, hr0, hoth]
        · intro j hj
          simp only [open_, Finset.mem_filter, Finset.mem_univ, true_and] at hj ⊢
          by_contra hc
          rw [not_or, not_lt, not_lt] at hc
          rcases hj with hj | hj
          · exact absurd (fi_mem hs0 hs1 hc.1 hc.2) (not_le.2 hj)
          · exact absurd hc.2 (not_le.2 hj)
      have hout : ∀ t, 0 ≤ t → t ≤ 1 → InView (at3 p q t) → s ≤ t := by
        intro t h0 h1 hv
        have := (inView_iff _).1 hv i
        rw [fi_at] at this
        by_contra hc
        have hlt := not_le.1 hc
        nlinarith
      have hpar : ∀ t, s ≤ t → t ≤ 1 → ∃ t', 0 ≤ t' ∧ t' ≤ 1 ∧ at3 p q t = at3 (at3 p q s) q t' := by
        intro t h0 h1
        rcases eq_or_lt_of_le hs1 with rfl | hlt
        · have : t = 1 := le_antisymm h1 h0
          subst this
          exact ⟨0, le_rfl, zero_le_one, by rw [at3_zero]⟩
        · have hpos : 0 < 1 - s := by linarith
          refine ⟨(t - s) / (1 - s), div_nonneg (by linarith) hpos.le, by rw [div_le_one hpos]; linarith, ?_⟩
          rw [at3_at3_left, div_mul_cancel₀ _ hpos.ne']
          congr 1; ring
      rcases ih (at3 p q s) q (z_at hs0 hs1 hp hq) hq (by omega) with ⟨hn, hno⟩ | ⟨t1, t2, hse, h0, h12, h1, hiff⟩
      · left
        refine ⟨hn, fun t ht0 ht1 hv => ?_⟩
        obtain ⟨t', ha, hb, he⟩ := hpar t (hout t ht0 ht1 hv) ht1
        rw [he] at hv
        exact hno t' ha hb hv
      · right
        have hm : 0 ≤ 1 - s := by linarith
        refine ⟨s + t1 * (1 - s), s + t2 * (1 - s), ?_, by positivity, ?_, ?_, ?_⟩
        · rw [hse, at3_at3_left, at3_at3_left]
        · have := mul_le_mul_of_nonneg_right h12 hm; linarith
        · have := mul_le_mul_of_nonneg_right h1 hm; linarith
        · intro t ht0 ht1
          constructor
          · intro hv
            obtain ⟨t', ha, hb, he⟩ := hpar t (hout t ht0 ht1 hv) ht1
            rw [he] at hv ⊢
            obtain ⟨u, hu0, hu1, hu⟩ := (hiff t' ha hb).1 hv
            exact ⟨u, hu0, hu1, by rw [hu, at3_at3_left, at3_at3_left]⟩
          · rintro ⟨u, hu0, hu1, hu⟩
            have hcomb : at3 (at3 p q (s + t1 * (1 - s))) (at3 p q (s + t2 * (1 - s))) u = at3 (at3 p q s) q (t1 + u * (t2 - t1)) := by
              ext <;> simp only [at3] <;> ring
            rw [hu, hcomb]
            have hx := mul_nonneg hu0 (sub_nonneg.2 h12)
            have hy := mul_le_mul_of_nonneg_right hu1 (sub_nonneg.2 h12)
            refine (hiff _ (by linarith) (by linarith)).2 ⟨u, hu0, hu1, ?_⟩
            ext <;> simp only [at3] <;> ring
    · rw [if_neg hc1]
      have hc10 : clipcode p = 0 := not_not.1 hc1
      have hc2 : clipcode q ≠ 0 := fun h => hz ⟨hc10, h⟩
      have hneg := sel_neg q hq hc2
      have hoth := sel_other q p hq hp hc2 (by rw [Nat.and_comm]; exact hand0)
      generalize hi : sel (clipcode q) = i at hneg hoth
      have hden : 0 < fi i p - fi i q := by linarith
      rw [clipPoint_eq _ p q (by rw [hi]; exact hden.ne'), hi]
      simp only
      rw [if_neg (by rw [hc10]; exact hc2)]
      generalize hs : fi i p / (fi i p - fi i q) = s
      have hs0 : 0 ≤ s := hs ▸ div_nonneg hoth hden.le
      have hs1 : s ≤ 1 := by rw [← hs, div_le_one hden]; linarith
      have hsf : s * (fi i p - fi i q) = fi i p := by rw [← hs]; exact div_mul_cancel₀ _ hden.ne'
      have hr0 : fi i (at3 p q s) = 0 := by rw [fi_at]; linarith
      have hcard : (open_ p (at3 p q s)).card < (open_ p q).card := by
        apply Finset.card_lt_card
        rw [Finset.ssubset_iff_of_subset]
        · refine ⟨i, by simp [open_, hneg], ?_⟩
          simp [open_, hr0, hoth]
        · intro j hj
          simp only [open_, Finset.mem_filter, Finset.mem_univ, true_and] at hj ⊢
          by_contra hc
          rw [not_or, not_lt, not_lt] at hc
          rcases hj with hj | hj
          · exact absurd hc.1 (not_le.2 hj)
          · exact absurd (fi_mem hs0 hs1 hc.1 hc.2) (not_le.2 hj)
      have hout : ∀ t, 0 ≤ t → t ≤ 1 → InView (at3 p q t) → t ≤ s := by
        intro t h0 h1 hv
        have := (inView_iff _).1 hv i
        rw [fi_at] at this
        by_contra hc
        have hlt := not_le.1 hc
        nlinarith
      have hpar : ∀ t, 0 ≤ t → t ≤ s → ∃ t', 0 ≤ t' ∧ t' ≤ 1 ∧ at3 p q t = at3 p (at3 p q s) t' := by
        intro t h0 h1
        rcases eq_or_lt_of_le hs0 with rfl | hlt
        · have : t = 0 := le_antisymm h1 h0
          subst this
          exact ⟨0, le_rfl, zero_le_one, by rw [at3_zero, at3_zero]⟩
        · refine ⟨t / s, div_nonneg h0 hlt.le, by rw [div_le_one hlt]; exact h1, ?_⟩
          rw [at3_at3_right, div_mul_cancel₀ _ hlt.ne']
      rcases ih p (at3 p q s) hp (z_at hs0 hs1 hp hq) (by omega) with ⟨hn, hno⟩ | ⟨t1, t2, hse, h0, h12, h1, hiff⟩
      · left
        refine ⟨hn, fun t ht0 ht1 hv => ?_⟩
        obtain ⟨t', ha, hb, he⟩ := hpar t ht0 (hout t ht0 ht1 hv)
        rw [he] at hv
        exact hno t' ha hb hv
      · right
        refine ⟨t1 * s, t2 * s, ?_, by positivity, ?_, ?_, ?_⟩
        · rw [hse, at3_at3_right, at3_at3_right]
        · exact mul_le_mul_of_nonneg_right h12 hs0
        · have := mul_le_mul_of_nonneg_right h1 hs0; linarith
        · intro t ht0 ht1
          constructor
          · intro hv
            obtain ⟨t', ha, hb, he⟩ := hpar t ht0 (hout t ht0 ht1 hv)
            rw [he] at hv ⊢
            obtain ⟨u, hu0, hu1, hu⟩ := (hiff t' ha hb).1 hv
            exact ⟨u, hu0, hu1, by rw [hu, at3_at3_right, at3_at3_right]⟩
          · rintro ⟨u, hu0, hu1, hu⟩
            have hcomb : at3 (at3 p q (t1 * s)) (at3 p q (t2 * s)) u = at3 p (at3 p q s) (t1 + u * (t2 - t1)) := by
              ext <;> simp only [at3] <;> ring
            rw [hu, hcomb]
            have hx := mul_nonneg hu0 (sub_nonneg.2 h12)
            have hy := mul_le_mul_of_nonneg_right hu1 (sub_nonneg.2 h12)
            refine (hiff _ (by linarith) (by linarith)).2 ⟨u, hu0, hu1, ?_⟩
            ext <;> simp only [at3] <;> ring

end

end Eus.Geo
