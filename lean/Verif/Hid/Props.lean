import Verif.Hid.Model
import Mathlib.Tactic.Linarith
import Mathlib.Tactic.FieldSimp
import Mathlib.Tactic.Ring
import Mathlib.Tactic.NormNum
import Mathlib.Tactic.Positivity
set_option autoImplicit false
/-
C226.
-/
namespace Eus.Hid

theorem den_pos {wp wn p : ℚ} (hp : 0 < wp) (hn : 0 < wn) (h0 : 0 ≤ p) (h1 : p ≤ 1) : 0 < p * wp + wn * (1 - p) := by
  rcases h0.eq_or_lt with e | e
  · subst e; simpa using hn
  · have := mul_pos e hp
    have := mul_nonneg hn.le (by linarith : 0 ≤ 1 - p)
    linarith

/-- C226.  The point of the edge with the parameter `homo2real p` appears in the picture exactly at p: a and b are any of the coordinates of the ends before
the division by the weights. -/
theorem C226_perspective (wp wn p a b : ℚ) (hp : 0 < wp) (hn : 0 < wn) (h0 : 0 ≤ p) (h1 : p ≤ 1) :
    let t := homo2real wp wn p
    between a b t / between wp wn t = between (a / wp) (b / wn) p ∧ 0 ≤ t ∧ t ≤ 1 := by
  have hd := den_pos hp hn h0 h1
  have hd' := hd.ne'
  have hw : between wp wn (homo2real wp wn p) = wp * wn / (p * wp + wn * (1 - p)) := by
    unfold between homo2real
    field_simp
    ring
  refine ⟨?_, div_nonneg (mul_nonneg h0 hp.le) hd.le, (div_le_one hd).2 (by have := mul_nonneg hn.le (by linarith : 0 ≤ 1 - p); linarith)⟩
  rw [hw]
  unfold between homo2real
  field_simp
  ring

theorem homo_mono {wp wn p q : ℚ} (hp : 0 < wp) (hn : 0 < wn) (h0 : 0 ≤ p) (hpq : p < q) (h1 : q ≤ 1) : homo2real wp wn p < homo2real wp wn q := by
  unfold homo2real
  rw [div_lt_div_iff₀ (den_pos hp hn h0 (by linarith)) (den_pos hp hn (by linarith) h1)]
  have : 0 < wp * wn * (q - p) := mul_pos (mul_pos hp hn) (by linarith)
  nlinarith

theorem homo_zero (wp wn : ℚ) : homo2real wp wn 0 = 0 := by simp [homo2real]
theorem homo_one {wp : ℚ} (wn : ℚ) (hp : 0 < wp) : homo2real wp wn 1 = 1 := by simp [homo2real, hp.ne']

theorem insert_mem (c : Cut) (l : List Cut) (x : Cut) : x ∈ insertCut c l ↔ x = c ∨ x ∈ l := by
  induction l with
  | nil => simp [insertCut]
  | cons d l ih =>
    unfold insertCut
    split
    · simp
    · simp only [List.mem_cons, ih]
      constructor
      · rintro (h | h | h) <;> simp [h]
      · rintro (h | h | h) <;> simp [h]

theorem insert_sorted (c : Cut) (l : List Cut) (h : l.Pairwise fun a b => a.p ≤ b.p) : (insertCut c l).Pairwise fun a b => a.p ≤ b.p := by
  induction l with
  | nil => simp [insertCut]
  | cons d l ih =>
    unfold insertCut
    rw [List.pairwise_cons] at h
    split
    · rename_i hcd
      rw [List.pairwise_cons]
      refine ⟨?_, List.pairwise_cons.2 h⟩
      intro x hx
      rcases List.mem_cons.1 hx with e | e
      · rw [e]; exact hcd
      · exact hcd.trans (h.1 x e)
    · rename_i hcd
      rw [List.pairwise_cons]
      refine ⟨?_, ih h.2⟩
      intro x hx
      rcases (insert_mem c l x).1 hx with e | e
      · rw [e]; exact (not_le.1 hcd).le
      · exact h.1 x e

theorem sort_mem (l : List Cut) (x : Cut) : x ∈ sortCuts l ↔ x ∈ l := by
  induction l with
  | nil => simp [sortCuts]
  | cons c l ih =>
    have : sortCuts (c :: l) = insertCut c (sortCuts l) := rfl
    rw [this, insert_mem, ih, List.mem_cons]

theorem sort_sorted (l : List Cut) : (sortCuts l).Pairwise fun a b => a.p ≤ b.p := by
  induction l with
  | nil => simp [sortCuts]
  | cons c l ih => exact insert_sorted c _ ih

theorem add_mem (wp wn : ℚ) (hp : 0 < wp) (hn : 0 < wn) : ∀ (cuts : List ℚ) (segs : List Cut), (∀ c ∈ cuts, 0 ≤ c ∧ c ≤ 1) → ∀ x,
    x ∈ cuts.foldl (addSegment wp wn) segs ↔ x ∈ segs ∨ ∃ c ∈ cuts, x = ⟨c, homo2real wp wn c, true⟩ := by
  intro cuts
  induction cuts with
  | nil => intro segs _ x; simp
  | cons c cuts ih =>
    intro segs h x
    rw [List.foldl_cons, ih _ fun d hd => h d (by simp [hd])]
    have hc := h c (by simp)
    have ht := (C226_perspective wp wn c 0 0 hp hn hc.1 hc.2).2
    simp only [addSegment, if_pos ht, List.mem_cons]
    constructor
    · rintro ((e | e) | ⟨d, hd, e⟩)
      · exact .inr ⟨c, .inl rfl, e⟩
      · exact .inl e
      · exact .inr ⟨d, .inr hd, e⟩
    · rintro (e | ⟨d, rfl | hd, e⟩)
      · exact .inl (.inr e)
      · exact .inl (.inl e)
      · exact .inr ⟨d, hd, e⟩

theorem mark_head (faces : List Face) (a : Cut) (l : List Cut) : ∃ a' l', mark faces (a :: l) = a' :: l' ∧ a'.t = a.t := by
  cases l with
  | nil => exact ⟨a, [], rfl, rfl⟩
  | cons b l => exact ⟨_, _, rfl, rfl⟩

theorem collect_mark (faces : List Face) (flag : Bool) (a b : Cut) (l : List Cut) :
    collect flag (mark faces (a :: b :: l)) =
      if visible faces ((a.p + b.p) / 2) ((a.t + b.t) / 2) = flag then (a.t, b.t) :: collect flag (mark faces (b :: l))
      else collect flag (mark faces (b :: l)) := by
  obtain ⟨b', l', h1, h2⟩ := mark_head faces b l
  rw [mark, h1, collect, h2]

theorem collect_after (faces : List Face) (flag : Bool) : ∀ (l : List Cut) (a : Cut), ((a :: l).Pairwise fun a b => a.t ≤ b.t) →
    ∀ s ∈ collect flag (mark faces (a :: l)), a.t ≤ s.1 := by
  intro l
  induction l with
  | nil => intro a _ s hs; exact absurd hs (by simp [mark, collect])
  | cons b l ih =>
    intro a h s hs
    rw [List.pairwise_cons] at h
    have hab := h.1 b (by simp)
    rw [collect_mark] at hs
    split at hs
    · rcases List.mem_cons.1 hs with e | e
      · rw [e]
      · exact hab.trans (ih b h.2 s e)
    · exact hab.trans (ih b h.2 s hs)

/-- between two neighbours the test at the middle tells what is true of all points -/
theorem collect_spec (faces : List Face) (flag : Bool) (x : ℚ) (W : ℚ → Bool) : ∀ (l : List Cut) (a : Cut),
    ((a :: l).Pairwise fun a b => a.t ≤ b.t) → a.t < x → (∃ e ∈ l, x < e.t) → (∀ e ∈ l, e.t ≠ x) →
    (∀ (b c : Cut), [b, c] <:+: (a :: l) → b.t < x → x < c.t → visible faces ((b.p + c.p) / 2) ((b.t + c.t) / 2) = W x) →
    ((∃ s ∈ collect flag (mark faces (a :: l)), s.1 < x ∧ x < s.2) ↔ W x = flag) := by
  intro l
  induction l with
  | nil => intro a _ _ h; obtain ⟨e, he, _⟩ := h; exact absurd he (by simp)
  | cons b l ih =>
    intro a hs hax hex hne hW
    rw [collect_mark]
    have hs' := List.pairwise_cons.1 hs
    by_cases hxb : x < b.t
    · have hv := hW a b ⟨[], l, rfl⟩ hax hxb
      rw [hv]
      constructor
      · rintro ⟨s, hsm, h1, h2⟩
        split at hsm
        · assumption
        · have := collect_after faces flag l b hs'.2 s hsm
          linarith
      · intro h
        rw [if_pos h]
        exact ⟨(a.t, b.t), by simp, hax, hxb⟩
    · have hbx : b.t < x := lt_of_le_of_ne (not_lt.1 hxb) (hne b (by simp))
      have := ih b hs'.2 hbx (by
          obtain ⟨e, he, hxe⟩ := hex
          rcases List.mem_cons.1 he with q | q
          · subst q; exact absurd hxe hxb
          · exact ⟨e, q, hxe⟩) (fun e he => hne e (by simp [he]))
        (fun c d hcd => hW c d (hcd.trans (List.suffix_cons a (b :: l)).isInfix))
      rw [← this]
      split
      · constructor
        · rintro ⟨s, hsm, h1, h2⟩
          rcases List.mem_cons.1 hsm with e | e
          · rw [e] at h2; exact absurd h2 (by simp only [not_lt]; exact hbx.le)
          · exact ⟨s, e, h1, h2⟩
        · rintro ⟨s, hsm, h1, h2⟩
          exact ⟨s, by simp [hsm], h1, h2⟩
      · exact Iff.rfl

/-- C226.  The parts of an edge that are drawn (flag true) are exactly the points no face hides, and the others (flag false) the rest, provided faces begin and
cease to hide the edge only at its intersections with other edges in the picture, and a face hides only what lies in the box of its image.  Only the
intersections themselves are excepted. -/
theorem C226_parts (wp wn : ℚ) (hp : 0 < wp) (hn : 0 < wn) (faces : List Face) (cuts : List ℚ) (hc : ∀ c ∈ cuts, 0 ≤ c ∧ c ≤ 1)
    (hconst : ∀ f ∈ faces, ∀ x y, 0 < x → x < y → y < 1 → (∀ c ∈ cuts, ¬ (x ≤ homo2real wp wn c ∧ homo2real wp wn c ≤ y)) → f.hides x = f.hides y)
    (hbox : ∀ f ∈ faces, ∀ p, 0 < p → p < 1 → f.hides (homo2real wp wn p) = true → f.box p = true)
    (flag : Bool) (x : ℚ) (hx0 : 0 < x) (hx1 : x < 1) (hxc : ∀ c ∈ cuts, homo2real wp wn c ≠ x) :
    (∃ s ∈ parts wp wn faces cuts flag, s.1 < x ∧ x < s.2) ↔ (decide (∀ f ∈ faces, f.hides x = false)) = flag := by
  unfold parts
  set L := sortCuts (cuts.foldl (addSegment wp wn) start) with hL
  have hm : ∀ e, e ∈ L ↔ e = ⟨0, 0, true⟩ ∨ e = ⟨1, 1, true⟩ ∨ ∃ c ∈ cuts, e = ⟨c, homo2real wp wn c, true⟩ := by
    intro e
    rw [hL, sort_mem, add_mem wp wn hp hn cuts start hc]
    simp [start, or_assoc]
  have hin : ∀ e ∈ L, 0 ≤ e.p ∧ e.p ≤ 1 ∧ e.t = homo2real wp wn e.p := by
    intro e he
    rcases (hm e).1 he with q | q | ⟨c, h1, q⟩
    · subst q; exact ⟨le_refl _, zero_le_one, (homo_zero _ _).symm⟩
    · subst q; exact ⟨zero_le_one, le_refl _, (homo_one _ hp).symm⟩
    · subst q; exact ⟨(hc c h1).1, (hc c h1).2, rfl⟩
  have hsort : L.Pairwise fun a b => a.p ≤ b.p := sort_sorted _
  have htm : ∀ a ∈ L, ∀ b ∈ L, a.p ≤ b.p → a.t ≤ b.t := by
    intro a ha b hb hab
    obtain ⟨h1, h2, h3⟩ := hin a ha
    obtain ⟨h4, h5, h6⟩ := hin b hb
    rw [h3, h6]
    rcases hab.eq_or_lt with e | e
    · rw [e]
    · exact (homo_mono hp hn h1 e h5).le
  have hts : L.Pairwise fun a b => a.t ≤ b.t := hsort.imp_of_mem fun ha hb h => htm _ ha _ hb h
  cases hLc : L with
  | nil => exact absurd ((hm ⟨0, 0, true⟩).2 (.inl rfl)) (by rw [hLc]; simp)
  | cons a l =>
    rw [hLc] at hts hsort
    have ha0 : a.t ≤ 0 := by
      have h0 : (⟨0, 0, true⟩ : Cut) ∈ a :: l := by rw [← hLc]; exact (hm _).2 (.inl rfl)
      rcases List.mem_cons.1 h0 with e | e
      · rw [← e]
      · exact (List.pairwise_cons.1 hts).1 _ e
    have hone : ∃ e ∈ l, x < e.t := by
      have h1 : (⟨1, 1, true⟩ : Cut) ∈ a :: l := by rw [← hLc]; exact (hm _).2 (.inr (.inl rfl))
      rcases List.mem_cons.1 h1 with e | e
      · rw [← e] at ha0; exact absurd ha0 (by norm_num)
      · exact ⟨_, e, hx1⟩
    refine collect_spec faces flag x (fun x => decide (∀ f ∈ faces, f.hides x = false)) l a hts (by linarith) hone ?_ ?_
    · intro e he
      have : e ∈ L := by rw [hLc]; simp [he]
      rcases (hm e).1 this with q | q | ⟨c, h1, q⟩
      · subst q; exact hx0.ne
      · subst q; exact hx1.ne'
      · subst q; exact hxc c h1
    · intro b c hbc hbx hxc'
      have hbL : b ∈ L := by rw [hLc]; exact hbc.subset (by simp)
      have hcL : c ∈ L := by rw [hLc]; exact hbc.subset (by simp)
      obtain ⟨hb0, hb1, hbt⟩ := hin b hbL
      obtain ⟨hc0, hc1, hct⟩ := hin c hcL
      have hbcp : b.p < c.p := by
        rcases lt_or_ge b.p c.p with h | h
        · exact h
        · have := htm c hcL b hbL h; linarith
      -- no cut lies strictly between
      have hgap : ∀ d ∈ L, d.t ≤ b.t ∨ c.t ≤ d.t := by
        intro d hd
        obtain ⟨pre, post, hpq⟩ := hbc
        have hd' : d ∈ pre ++ [b, c] ++ post := by rw [hpq, ← hLc]; exact hd
        rw [← hpq] at hts
        simp only [List.append_assoc, List.cons_append, List.nil_append, List.mem_append, List.mem_cons] at hd'
        simp only [List.append_assoc, List.cons_append, List.nil_append] at hts
        rw [List.pairwise_append] at hts
        obtain ⟨_, t2, t3⟩ := hts
        rw [List.pairwise_cons, List.pairwise_cons] at t2
        rcases hd' with h | h | h | h
        · exact .inl (t3 d h b (by simp))
        · rw [h]; exact .inl (le_refl _)
        · rw [h]; exact .inr (le_refl _)
        · exact .inr (t2.2.1 d h)
      have hc01 : 0 ≤ b.t := by rw [hbt]; exact (C226_perspective wp wn b.p 0 0 hp hn hb0 hb1).2.1
      have hc11 : c.t ≤ 1 := by rw [hct]; exact (C226_perspective wp wn c.p 0 0 hp hn hc0 hc1).2.2
      have hsame : ∀ f ∈ faces, ∀ y z, b.t < y → y < c.t → b.t < z → z < c.t → f.hides y = f.hides z := by
        intro f hf y z h1 h2 h3 h4
        have key : ∀ y z, b.t < y → y < z → z < c.t → f.hides y = f.hides z := by
          intro y z h1 h2 h3
          refine hconst f hf y z (by linarith) h2 (by linarith) ?_
          intro d hd ⟨q1, q2⟩
          rcases hgap _ ((hm ⟨d, homo2real wp wn d, true⟩).2 (.inr (.inr ⟨d, hd, rfl⟩))) with h | h <;> simp only at h <;> linarith
        rcases lt_trichotomy y z with h | h | h
        · exact key y z h1 h h4
        · rw [h]
        · exact (key z y h3 h h2).symm
      have hpm1 : b.p < (b.p + c.p) / 2 := by linarith
      have hpm2 : (b.p + c.p) / 2 < c.p := by linarith
      have hq1 : b.t < homo2real wp wn ((b.p + c.p) / 2) := by rw [hbt]; exact homo_mono hp hn hb0 hpm1 (by linarith)
      have hq2 : homo2real wp wn ((b.p + c.p) / 2) < c.t := by rw [hct]; exact homo_mono hp hn (by linarith) hpm2 hc1
      rw [Bool.eq_iff_iff, decide_eq_true_eq]
      unfold visible
      rw [List.all_eq_true]
      constructor
      · intro h f hf
        have h1 := h f hf
        by_contra hne
        have hx' : f.hides x = true := by simpa using hne
        have h2 : f.hides ((b.t + c.t) / 2) = true := by rw [hsame f hf _ x (by linarith) (by linarith) hbx hxc']; exact hx'
        have h3 : f.box ((b.p + c.p) / 2) = true := by
          apply hbox f hf _ (by linarith) (by linarith)
          rw [hsame f hf _ x hq1 hq2 hbx hxc']; exact hx'
        rw [h2, h3] at h1
        exact absurd h1 (by decide)
      · intro h f hf
        have h2 : f.hides ((b.t + c.t) / 2) = false := by rw [hsame f hf _ x (by linarith) (by linarith) hbx hxc']; exact h f hf
        rw [h2]
        simp

/-- an edge with weights 1 and 3, of which a face hides the part after the first intersection -/
def face1 : Face := ⟨fun p => decide (1 / 2 ≤ p), fun t => decide (1 / 4 ≤ t)⟩
example : parts 1 3 [face1] [1 / 2] true = [(0, 1 / 4)] ∧ parts 1 3 [face1] [1 / 2] false = [(1 / 4, 1)] := by
  constructor <;> norm_num [parts, addSegment, start, homo2real, sortCuts, insertCut, mark, collect, visible, face1]

end Eus.Hid
