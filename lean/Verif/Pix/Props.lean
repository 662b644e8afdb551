import Verif.Pix.Spec
import Verif.Arr.Props
import Mathlib.Tactic.Ring
set_option autoImplicit false
/-
C208: operations on pictures.
-/
namespace Eus.Pix
open Eus.Arr

/-! ### lemmas -/

theorem uniq (W : Nat) : ∀ (y y' x x' : Nat), x < W → x' < W → y * W + x = y' * W + x' → y = y' ∧ x = x' := by
  intro y y' x x' h h' e
  have h1 : (y * W + x) / W = y := by rw [Nat.mul_comm, Nat.mul_add_div (by omega), Nat.div_eq_of_lt h]; rfl
  have h2 : (y' * W + x') / W = y' := by rw [Nat.mul_comm, Nat.mul_add_div (by omega), Nat.div_eq_of_lt h']; rfl
  have h3 : y = y' := by rw [← h1, ← h2, e]
  subst h3
  exact ⟨rfl, by omega⟩

theorem idx_lt (W H x y : Nat) (hx : x < W) (hy : y < H) : y * W + x < W * H := by
  have : (y + 1) * W ≤ H * W := Nat.mul_le_mul_right _ hy
  rw [Nat.add_mul, Nat.mul_comm H] at this
  omega

theorem fold_writes {γ : Type} (S : List Nat → γ → Option (List Nat)) (N : Nat) (f g : γ → Nat) : ∀ (l : List γ) (d : List Nat),
    d.length = N → (∀ c ∈ l, f c < N ∧ ∀ d : List Nat, d.length = N → S d c = some (d.set (f c) (g c))) →
    (∀ c ∈ l, ∀ c' ∈ l, f c = f c' → g c = g c') →
    ∃ r, l.foldlM S d = some r ∧ r.length = N ∧ (∀ c ∈ l, r[f c]? = some (g c)) ∧ (∀ k, (∀ c ∈ l, f c ≠ k) → r[k]? = d[k]?)
  | [], d, hd, _, _ => ⟨d, rfl, hd, by simp, by simp⟩
  | c :: l, d, hd, hs, hc => by
    obtain ⟨r, h1, h2, h3, h4⟩ := fold_writes S N f g l (d.set (f c) (g c)) (by simpa using hd)
      (fun c' h => hs c' (List.mem_cons_of_mem _ h))
      (fun a ha b hb => hc a (List.mem_cons_of_mem _ ha) b (List.mem_cons_of_mem _ hb))
    refine ⟨r, ?_, h2, ?_, ?_⟩
    · rw [List.foldlM_cons, (hs c (by simp)).2 d hd]; exact h1
    · intro c0 h0
      by_cases hex : ∃ c' ∈ l, f c' = f c0
      · obtain ⟨c', hm, e⟩ := hex
        rw [← e, h3 c' hm, hc c' (List.mem_cons_of_mem _ hm) c0 h0 e]
      · rcases List.mem_cons.1 h0 with e | hm
        · subst e
          rw [h4 _ (fun c' hm e => hex ⟨c', hm, e⟩), List.getElem?_set_self]
          rw [hd]; exact (hs c0 (by simp)).1
        · exact absurd ⟨c0, hm, rfl⟩ hex
    · intro k hk
      rw [h4 k (fun c' h => hk c' (List.mem_cons_of_mem _ h)), List.getElem?_set_ne (hk c (by simp))]

theorem mem_cells (h w : Nat) (c : Nat × Nat) : c ∈ cells h w ↔ c.1 < h ∧ c.2 < w := by
  obtain ⟨j, i⟩ := c
  simp [cells]

theorem at_some (m : Img) (hm : m.ent.length = m.w * m.h) (x y : Nat) (hx : x < m.w) (hy : y < m.h) :
    ∃ a, m.ent[y * m.w + x]? = some a ∧ m.at x y = some a ∧ a ∈ m.ent := by
  have h := idx_lt m.w m.h x y hx hy
  rw [← hm] at h
  exact ⟨m.ent[y * m.w + x], List.getElem?_eq_getElem h, List.getElem?_eq_getElem h, List.getElem_mem h⟩

theorem img_ext (l l' : List Nat) (w h : Nat) (hl : l.length = w * h) (hl' : l'.length = w * h)
    (H : ∀ x y, x < w → y < h → l[y * w + x]? = l'[y * w + x]?) : l = l' := by
  apply List.ext_getElem?
  intro k
  by_cases hk : k < w * h
  · have hw : 0 < w := by rcases Nat.eq_zero_or_pos w with e | e
                          · subst e; simp at hk
                          · exact e
    have := H (k % w) (k / w) (Nat.mod_lt _ hw) (Nat.div_lt_of_lt_mul hk)
    rwa [Nat.mul_comm, Nat.div_add_mod] at this
  · rw [List.getElem?_eq_none (by omega), List.getElem?_eq_none (by omega)]

theorem ok_of (l : List Nat) (w h : Nat) (hl : l.length = w * h)
    (H : ∀ x y, x < w → y < h → ∃ a, l[y * w + x]? = some a ∧ a < 256) : Img.Ok ⟨w, h, l⟩ := by
  refine ⟨hl, ?_⟩
  intro p hp
  obtain ⟨k, hk, e⟩ := List.mem_iff_getElem.1 hp
  have hk' : k < w * h := by rw [← hl]; exact hk
  have hw : 0 < w := by rcases Nat.eq_zero_or_pos w with e | e
                        · subst e; simp at hk'
                        · exact e
  obtain ⟨a, h1, h2⟩ := H (k % w) (k / w) (Nat.mod_lt _ hw) (Nat.div_lt_of_lt_mul hk')
  rw [Nat.mul_comm, Nat.div_add_mod, List.getElem?_eq_getElem (show k < l.length from hk)] at h1
  have h1 := Option.some.inj h1
  have e : l[k] = p := e
  omega

theorem copyRows_spec (src : List Nat) (w : Nat) (a b : Nat → Nat) : ∀ (n : Nat) (d : List Nat),
    (∀ j < n, a j + w ≤ d.length ∧ b j + w ≤ src.length) → (∀ j j', j < j' → j' < n → a j + w ≤ a j') →
    ∃ r, copyRows src w a b n d = .ok r ∧ r.length = d.length ∧ (∀ j < n, ∀ i < w, r[a j + i]? = src[b j + i]?) ∧
      (∀ k, (∀ j < n, ¬ (a j ≤ k ∧ k < a j + w)) → r[k]? = d[k]?)
  | 0, d, _, _ => ⟨d, rfl, rfl, by simp, by simp⟩
  | n + 1, d, hb, ho => by
    obtain ⟨r, h1, h2, h3, h4⟩ := copyRows_spec src w a b n d (fun j hj => hb j (by omega)) (fun j j' h h' => ho j j' h (by omega))
    have hn := hb n (by omega)
    obtain ⟨r', g1, g2, g3⟩ := C71_vectors false r src (a n) (a n + w) (b n) src.length (by omega) (by omega) (by omega) (by omega) (by simp)
    have emin : min (a n + w - a n) (src.length - b n) = w := by omega
    rw [emin] at g3
    refine ⟨r', ?_, by omega, ?_, ?_⟩
    · simp only [copyRows, h1]; exact g1
    · intro j hj i hi
      have hj' := hb j hj
      rw [g3 _ (by omega)]
      by_cases e : j = n
      · subst e
        rw [if_pos (by omega)]
        congr 1; omega
      · have := ho j n (by omega) (by omega)
        rw [if_neg (by omega)]
        exact h3 j (by omega) i hi
    · intro k hk
      by_cases hkl : k < d.length
      · rw [g3 _ (by omega), if_neg (by have := hk n (by omega); omega)]
        exact h4 k (fun j hj => hk j (by omega))
      · rw [List.getElem?_eq_none (by omega), List.getElem?_eq_none (by omega)]

/-! ### halves and doubles -/

/-- C208.  `halve-image`: every pixel of the result is the mean of the four pixels it covers, rounded down. -/
theorem C208_halve (m : Img) (hm : m.Ok) (d : List Nat) (hd : d.length = m.w / 2 * (m.h / 2)) :
    ∃ r, halve m d = some r ∧ r.Ok ∧ r.w = m.w / 2 ∧ r.h = m.h / 2 ∧ ∀ x y, x < m.w / 2 → y < m.h / 2 →
      ∃ a b c e, m.at (2 * x) (2 * y) = some a ∧ m.at (2 * x + 1) (2 * y) = some b ∧ m.at (2 * x) (2 * y + 1) = some c ∧
        m.at (2 * x + 1) (2 * y + 1) = some e ∧ r.at x y = some ((a + b + c + e) / 4) := by
  have four : ∀ x y, x < m.w / 2 → y < m.h / 2 → ∃ a b c e,
      (m.ent[m.w * y * 2 + x * 2]? = some a ∧ m.at (2 * x) (2 * y) = some a ∧ a ∈ m.ent) ∧
      (m.ent[m.w * y * 2 + x * 2 + 1]? = some b ∧ m.at (2 * x + 1) (2 * y) = some b ∧ b ∈ m.ent) ∧
      (m.ent[m.w * y * 2 + m.w + x * 2]? = some c ∧ m.at (2 * x) (2 * y + 1) = some c ∧ c ∈ m.ent) ∧
      (m.ent[m.w * y * 2 + x * 2 + m.w + 1]? = some e ∧ m.at (2 * x + 1) (2 * y + 1) = some e ∧ e ∈ m.ent) := by
    intro x y hx hy
    obtain ⟨a, ha⟩ := at_some m hm.size (2 * x) (2 * y) (by omega) (by omega)
    obtain ⟨b, hb⟩ := at_some m hm.size (2 * x + 1) (2 * y) (by omega) (by omega)
    obtain ⟨c, hc⟩ := at_some m hm.size (2 * x) (2 * y + 1) (by omega) (by omega)
    obtain ⟨e, he⟩ := at_some m hm.size (2 * x + 1) (2 * y + 1) (by omega) (by omega)
    rw [show 2 * y * m.w + 2 * x = m.w * y * 2 + x * 2 by ring] at ha
    rw [show 2 * y * m.w + (2 * x + 1) = m.w * y * 2 + x * 2 + 1 by ring] at hb
    rw [show (2 * y + 1) * m.w + 2 * x = m.w * y * 2 + m.w + x * 2 by ring] at hc
    rw [show (2 * y + 1) * m.w + (2 * x + 1) = m.w * y * 2 + x * 2 + m.w + 1 by ring] at he
    exact ⟨a, b, c, e, ha, hb, hc, he⟩
  let g : Nat × Nat → Nat := fun c => ((m.ent[m.w * c.1 * 2 + c.2 * 2]?.getD 0 + m.ent[m.w * c.1 * 2 + c.2 * 2 + 1]?.getD 0 +
    m.ent[m.w * c.1 * 2 + m.w + c.2 * 2]?.getD 0 + m.ent[m.w * c.1 * 2 + c.2 * 2 + m.w + 1]?.getD 0) / 4) % 256
  obtain ⟨r, h1, h2, h3, -⟩ := fold_writes (halveStep m) (m.w / 2 * (m.h / 2)) (fun c => m.w / 2 * c.1 + c.2) g (cells (m.h / 2) (m.w / 2)) d hd
    (by
      intro c hc
      obtain ⟨hc1, hc2⟩ := (mem_cells _ _ _).1 hc
      have hlt := idx_lt (m.w / 2) (m.h / 2) c.2 c.1 hc2 hc1
      rw [Nat.mul_comm c.1] at hlt
      refine ⟨hlt, ?_⟩
      intro d' hd'
      obtain ⟨a, b, e, f, ha, hb, he, hf⟩ := four c.2 c.1 hc2 hc1
      simp only [halveStep, g, ha.1, hb.1, he.1, hf.1, Option.bind_some, Option.getD_some, wr]
      rw [if_pos (by omega)])
    (by
      intro c hc c' hc' e
      obtain ⟨hc1, hc2⟩ := (mem_cells _ _ _).1 hc
      obtain ⟨hc1', hc2'⟩ := (mem_cells _ _ _).1 hc'
      have := uniq (m.w / 2) c.1 c'.1 c.2 c'.2 hc2 hc2' (by rw [Nat.mul_comm c.1, Nat.mul_comm c'.1]; exact e)
      rw [Prod.ext this.1 this.2])
  have key : ∀ x y, x < m.w / 2 → y < m.h / 2 → ∃ a b c e, m.at (2 * x) (2 * y) = some a ∧ m.at (2 * x + 1) (2 * y) = some b ∧
      m.at (2 * x) (2 * y + 1) = some c ∧ m.at (2 * x + 1) (2 * y + 1) = some e ∧ r[y * (m.w / 2) + x]? = some ((a + b + c + e) / 4) ∧
      (a + b + c + e) / 4 < 256 := by
    intro x y hx hy
    obtain ⟨a, b, c, e, ha, hb, hc, he⟩ := four x y hx hy
    have := h3 (y, x) ((mem_cells _ _ _).2 ⟨hy, hx⟩)
    simp only [g, ha.1, hb.1, hc.1, he.1, Option.getD_some] at this
    have b1 := hm.bytes a ha.2.2
    have b2 := hm.bytes b hb.2.2
    have b3 := hm.bytes c hc.2.2
    have b4 := hm.bytes e he.2.2
    have hlt : (a + b + c + e) / 4 < 256 := by omega
    rw [Nat.mod_eq_of_lt hlt, Nat.mul_comm] at this
    exact ⟨a, b, c, e, ha.2.1, hb.2.1, hc.2.1, he.2.1, this, hlt⟩
  refine ⟨⟨m.w / 2, m.h / 2, r⟩, by simp only [halve, h1]; rfl, ?_, rfl, rfl, ?_⟩
  · apply ok_of _ _ _ h2
    intro x y hx hy
    obtain ⟨a, b, c, e, -, -, -, -, h, h'⟩ := key x y hx hy
    exact ⟨_, h, h'⟩
  · intro x y hx hy
    obtain ⟨a, b, c, e, p1, p2, p3, p4, h, -⟩ := key x y hx hy
    exact ⟨a, b, c, e, p1, p2, p3, p4, h⟩

/-- C208.  `double-image`: every pixel becomes a square of four. -/
theorem C208_double (m : Img) (hm : m.Ok) (d : List Nat) (hd : d.length = m.w * 2 * (m.h * 2)) :
    ∃ r, double m d = some r ∧ r.Ok ∧ r.w = m.w * 2 ∧ r.h = m.h * 2 ∧ ∀ x y, x < m.w * 2 → y < m.h * 2 → r.at x y = m.at (x / 2) (y / 2) := by
  have hf : ∀ c : (Nat × Nat) × Nat, m.w * 2 * c.1.1 * 2 + (c.2 / 2) * (m.w * 2) + c.1.2 * 2 + c.2 % 2 = (2 * c.1.1 + c.2 / 2) * (m.w * 2) + (2 * c.1.2 + c.2 % 2) := by
    intro c; ring
  have hmem : ∀ c : (Nat × Nat) × Nat, c ∈ ((cells m.h m.w).flatMap fun c => [(c, 3), (c, 2), (c, 1), (c, 0)]) ↔ c.1.1 < m.h ∧ c.1.2 < m.w ∧ c.2 < 4 := by
    rintro ⟨c, t⟩
    simp only [List.mem_flatMap, mem_cells, List.mem_cons, List.not_mem_nil, or_false, Prod.mk.injEq]
    constructor
    · rintro ⟨c', ⟨h1, h2⟩, h⟩
      rcases h with ⟨e, h⟩ | ⟨e, h⟩ | ⟨e, h⟩ | ⟨e, h⟩ <;> subst e <;> exact ⟨h1, h2, by omega⟩
    · rintro ⟨h1, h2, h3⟩
      refine ⟨c, ⟨h1, h2⟩, ?_⟩
      simp only [true_and]
      omega
  let g : (Nat × Nat) × Nat → Nat := fun c => m.ent[m.w * c.1.1 + c.1.2]?.getD 0 % 256
  obtain ⟨r, h1, h2, h3, -⟩ := fold_writes (doubleStep m) (m.w * 2 * (m.h * 2)) (fun c => (2 * c.1.1 + c.2 / 2) * (m.w * 2) + (2 * c.1.2 + c.2 % 2)) g
    ((cells m.h m.w).flatMap fun c => [(c, 3), (c, 2), (c, 1), (c, 0)]) d hd
    (by
      intro c hc
      obtain ⟨hc1, hc2, hc3⟩ := (hmem c).1 hc
      have hlt := idx_lt (m.w * 2) (m.h * 2) (2 * c.1.2 + c.2 % 2) (2 * c.1.1 + c.2 / 2) (by omega) (by omega)
      refine ⟨hlt, ?_⟩
      intro d' hd'
      obtain ⟨a, ha, -, -⟩ := at_some m hm.size c.1.2 c.1.1 hc2 hc1
      rw [Nat.mul_comm] at ha
      simp only [doubleStep, g, ha, Option.bind_some, Option.getD_some, wr, hf]
      rw [if_pos (by omega)])
    (by
      intro c hc c' hc' e
      obtain ⟨hc1, hc2, hc3⟩ := (hmem c).1 hc
      obtain ⟨hc1', hc2', hc3'⟩ := (hmem c').1 hc'
      have := uniq (m.w * 2) _ _ _ _ (by omega) (by omega) e
      have e1 : c.1.1 = c'.1.1 := by omega
      have e2 : c.1.2 = c'.1.2 := by omega
      simp only [g, e1, e2])
  have key : ∀ x y, x < m.w * 2 → y < m.h * 2 → ∃ a, r[y * (m.w * 2) + x]? = some a ∧ m.at (x / 2) (y / 2) = some a ∧ a < 256 := by
    intro x y hx hy
    obtain ⟨a, ha, hat, hin⟩ := at_some m hm.size (x / 2) (y / 2) (by omega) (by omega)
    rw [Nat.mul_comm] at ha
    have hb := hm.bytes a hin
    have := h3 ((y / 2, x / 2), 2 * (y % 2) + x % 2) ((hmem _).2 ⟨by simp only; omega, by simp only; omega, by simp only; omega⟩)
    simp only [g, ha, Option.getD_some, Nat.mod_eq_of_lt hb] at this
    rw [show 2 * (y / 2) + (2 * (y % 2) + x % 2) / 2 = y by omega, show 2 * (x / 2) + (2 * (y % 2) + x % 2) % 2 = x by omega] at this
    exact ⟨a, this, hat, hb⟩
  refine ⟨⟨m.w * 2, m.h * 2, r⟩, by simp only [double, h1]; rfl, ?_, rfl, rfl, ?_⟩
  · apply ok_of _ _ _ h2
    intro x y hx hy
    obtain ⟨a, h, -, h'⟩ := key x y hx hy
    exact ⟨a, h, h'⟩
  · intro x y hx hy
    obtain ⟨a, h, h', -⟩ := key x y hx hy
    rw [h']; exact h

/-- C208.  Doubling a picture and halving it gives the picture again. -/
theorem C208_double_halve (m : Img) (hm : m.Ok) (d d' : List Nat) (hd : d.length = m.w * 2 * (m.h * 2)) (hd' : d'.length = m.w * m.h) :
    ∃ r, double m d = some r ∧ halve r d' = some m := by
  obtain ⟨r, h1, h2, h3, h4, h5⟩ := C208_double m hm d hd
  have ew : r.w / 2 = m.w := by omega
  have eh : r.h / 2 = m.h := by omega
  obtain ⟨s, g1, g2, g3, g4, g5⟩ := C208_halve r h2 d' (by rw [ew, eh]; exact hd')
  refine ⟨r, h1, ?_⟩
  rw [g1]
  rw [ew] at g3 g5
  rw [eh] at g4 g5
  obtain ⟨sw, sh, se⟩ := s
  obtain ⟨mw, mh, me⟩ := m
  simp only at g3 g4 g5 h5 hd' ew eh
  subst g3 g4
  have : se = me := by
    apply img_ext se me sw sh g2.size hm.size
    intro x y hx hy
    obtain ⟨a, b, c, e, p1, p2, p3, p4, p5⟩ := g5 x y hx hy
    rw [h5 _ _ (by omega) (by omega)] at p1 p2 p3 p4
    rw [show 2 * x / 2 = x by omega, show 2 * y / 2 = y by omega] at p1
    rw [show (2 * x + 1) / 2 = x by omega, show 2 * y / 2 = y by omega, p1] at p2
    rw [show 2 * x / 2 = x by omega, show (2 * y + 1) / 2 = y by omega, p1] at p3
    rw [show (2 * x + 1) / 2 = x by omega, show (2 * y + 1) / 2 = y by omega, p1] at p4
    have p2 := Option.some.inj p2
    have p3 := Option.some.inj p3
    have p4 := Option.some.inj p4
    subst p2 p3 p4
    rw [show (a + a + a + a) / 4 = a by omega] at p5
    have p5 : se[y * sw + x]? = some a := p5
    have p1 : me[y * sw + x]? = some a := p1
    rw [p5, p1]
  rw [this]

example : (double ⟨2, 1, [7, 9]⟩ (List.replicate 8 0)).map (·.ent) = some [7, 7, 9, 9, 7, 7, 9, 9] := by decide
example : halve ⟨3, 2, [1, 2, 50, 3, 6, 60]⟩ [0] = some ⟨1, 1, [3]⟩ := by decide

/-! ### windows -/

/-- C208.  `:subimage` of a window inside of the picture: the pixels of the window. -/
theorem C208_subimage (m : Img) (hm : m.Ok) (x y sw sh : Nat) (hx : x + sw ≤ m.w) (hy : y + sh ≤ m.h) :
    ∃ r, subimage m x y sw sh = .ok r ∧ r.Ok ∧ r.w = sw ∧ r.h = sh ∧ ∀ i j, i < sw → j < sh → r.at i j = m.at (x + i) (y + j) := by
  obtain ⟨r, h1, h2, h3, -⟩ := copyRows_spec m.ent sw (fun j => j * sw) (fun j => (y + j) * m.w + x) sh (List.replicate (sw * sh) 0)
    (by
      intro j hj
      simp only [List.length_replicate, hm.size]
      constructor
      · have : (j + 1) * sw ≤ sh * sw := Nat.mul_le_mul_right _ hj
        rw [Nat.add_mul, Nat.mul_comm sh] at this; omega
      · have : (y + j + 1) * m.w ≤ m.h * m.w := Nat.mul_le_mul_right _ (by omega)
        rw [Nat.add_mul, Nat.mul_comm m.h] at this; omega)
    (by
      intro j j' h h'
      have : (j + 1) * sw ≤ j' * sw := Nat.mul_le_mul_right _ h
      rw [Nat.add_mul] at this
      omega)
  rw [List.length_replicate] at h2
  have key : ∀ i j, i < sw → j < sh → r[j * sw + i]? = m.at (x + i) (y + j) := by
    intro i j hi hj
    rw [h3 j hj i hi]
    unfold Img.at
    congr 1; omega
  refine ⟨⟨sw, sh, r⟩, by simp only [subimage, h1], ?_, rfl, rfl, key⟩
  apply ok_of _ _ _ h2
  intro i j hi hj
  obtain ⟨a, -, ha, hin⟩ := at_some m hm.size (x + i) (y + j) (by omega) (by omega)
  exact ⟨a, by rw [key i j hi hj, ha], hm.bytes a hin⟩

/-- C208.  `:patch-in` of a picture that fits: the window gets its pixels, all others stay. -/
theorem C208_patch_in (m p : Img) (hm : m.Ok) (hp : p.Ok) (xs ys : Nat) (hx : xs + p.w ≤ m.w) (hy : ys + p.h ≤ m.h) :
    ∃ r, patchIn m xs ys p = .ok r ∧ r.Ok ∧ r.w = m.w ∧ r.h = m.h ∧ ∀ x y, x < m.w → y < m.h →
      r.at x y = if xs ≤ x ∧ x < xs + p.w ∧ ys ≤ y ∧ y < ys + p.h then p.at (x - xs) (y - ys) else m.at x y := by
  obtain ⟨r, h1, h2, h3, h4⟩ := copyRows_spec p.ent p.w (fun y => (ys + y) * m.w + xs) (fun y => y * p.w) p.h m.ent
    (by
      intro j hj
      simp only [hp.size, hm.size]
      constructor
      · have : (ys + j + 1) * m.w ≤ m.h * m.w := Nat.mul_le_mul_right _ (by omega)
        rw [Nat.add_mul, Nat.mul_comm m.h] at this; omega
      · have : (j + 1) * p.w ≤ p.h * p.w := Nat.mul_le_mul_right _ hj
        rw [Nat.add_mul, Nat.mul_comm p.h] at this; omega)
    (by
      intro j j' h h'
      have : (ys + j + 1) * m.w ≤ (ys + j') * m.w := Nat.mul_le_mul_right _ (by omega)
      rw [Nat.add_mul] at this
      omega)
  have key : ∀ x y, x < m.w → y < m.h →
      r[y * m.w + x]? = if xs ≤ x ∧ x < xs + p.w ∧ ys ≤ y ∧ y < ys + p.h then p.at (x - xs) (y - ys) else m.at x y := by
    intro x y hx' hy'
    by_cases hin : xs ≤ x ∧ x < xs + p.w ∧ ys ≤ y ∧ y < ys + p.h
    · rw [if_pos hin]
      have := h3 (y - ys) (by omega) (x - xs) (by omega)
      rw [show ys + (y - ys) = y by omega, show y * m.w + xs + (x - xs) = y * m.w + x by omega] at this
      exact this
    · rw [if_neg hin]
      apply h4
      intro j hj hk
      obtain ⟨e1, e2⟩ := uniq m.w y (ys + j) x (xs + (y * m.w + x - ((ys + j) * m.w + xs))) hx' (by omega) (by omega)
      omega
  refine ⟨⟨m.w, m.h, r⟩, by simp only [patchIn, h1], ?_, rfl, rfl, key⟩
  apply ok_of _ _ _ (by rw [h2, hm.size])
  intro x y hx' hy'
  rw [key x y hx' hy']
  split
  · obtain ⟨a, -, ha, hin⟩ := at_some p hp.size (x - xs) (y - ys) (by omega) (by omega)
    exact ⟨a, ha, hp.bytes a hin⟩
  · obtain ⟨a, -, ha, hin⟩ := at_some m hm.size x y hx' hy'
    exact ⟨a, ha, hm.bytes a hin⟩

/-- C208.  What is patched in is what is taken out of the same window. -/
theorem C208_patch_subimage (m p : Img) (hm : m.Ok) (hp : p.Ok) (xs ys : Nat) (hx : xs + p.w ≤ m.w) (hy : ys + p.h ≤ m.h) :
    ∃ r, patchIn m xs ys p = .ok r ∧ subimage r xs ys p.w p.h = .ok p := by
  obtain ⟨r, h1, h2, h3, h4, h5⟩ := C208_patch_in m p hm hp xs ys hx hy
  obtain ⟨s, g1, g2, g3, g4, g5⟩ := C208_subimage r h2 xs ys p.w p.h (by omega) (by omega)
  refine ⟨r, h1, ?_⟩
  rw [g1]
  obtain ⟨sw, sh, se⟩ := s
  obtain ⟨pw, ph, pe⟩ := p
  simp only at g3 g4
  subst g3 g4
  have : se = pe := by
    apply img_ext se pe sw sh g2.size hp.size
    intro i j hi hj
    have a1 := g5 i j hi hj
    simp only at hx hy h5
    rw [h5 _ _ (by omega) (by omega), if_pos (by omega), show xs + i - xs = i by omega, show ys + j - ys = j by omega] at a1
    exact a1
  rw [this]

/-- C208.  Patching in what was taken out of the window changes nothing. -/
theorem C208_subimage_patch (m : Img) (hm : m.Ok) (x y sw sh : Nat) (hx : x + sw ≤ m.w) (hy : y + sh ≤ m.h) :
    ∃ s, subimage m x y sw sh = .ok s ∧ patchIn m x y s = .ok m := by
  obtain ⟨s, g1, g2, g3, g4, g5⟩ := C208_subimage m hm x y sw sh hx hy
  obtain ⟨r, h1, h2, h3, h4, h5⟩ := C208_patch_in m s hm g2 x y (by omega) (by omega)
  refine ⟨s, g1, ?_⟩
  rw [h1]
  obtain ⟨rw', rh, re⟩ := r
  obtain ⟨mw, mh, me⟩ := m
  simp only at h3 h4
  subst h3 h4
  have : re = me := by
    apply img_ext re me rw' rh h2.size hm.size
    intro i j hi hj
    have a1 := h5 i j hi hj
    split at a1
    · rename_i hin
      rw [g5 _ _ (by omega) (by omega), show x + (i - x) = i by omega, show y + (j - y) = j by omega] at a1
      exact a1
    · exact a1
  rw [this]

example : subimage ⟨3, 2, [1, 2, 3, 4, 5, 6]⟩ 1 0 2 2 = .ok ⟨2, 2, [2, 3, 5, 6]⟩ := by decide
example : patchIn ⟨3, 2, [1, 2, 3, 4, 5, 6]⟩ 1 1 ⟨2, 1, [8, 9]⟩ = .ok ⟨3, 2, [1, 2, 3, 4, 8, 9]⟩ := by decide

/-- C208 fails for windows wider than what is left: the pixels of the next row are taken, without an error. -/
theorem C208_subimage_wrong : subimage ⟨3, 2, [1, 2, 3, 4, 5, 6]⟩ 2 0 2 1 = .ok ⟨2, 1, [3, 4]⟩ := by decide

/-- C208 fails: `:pixel` of single channel images does not depend on the column at all. -/
theorem C208_pixel_wrong (m : Img) (x x' y : Nat) : pixel m x y = pixel m x' y ∧
    pixel ⟨2, 2, [1, 2, 3, 4]⟩ 1 1 = some 2 ∧ Img.at ⟨2, 2, [1, 2, 3, 4]⟩ 1 1 = some 4 ∧
    (setPixel ⟨2, 2, [1, 2, 3, 4]⟩ 1 1 9).map (·.ent) = some [1, 9, 3, 4] := ⟨rfl, by decide⟩

/-! ### tables -/

/-- C208.  `look-up`: every pixel is replaced by its entry in the table; what lies behind in the result stays. -/
theorem C208_look_up (table : List Nat) : ∀ (img result : List Nat), img.length ≤ result.length → (∀ p ∈ img, p < table.length) →
    ∃ r, lookUp img result table = some r ∧ r.length = result.length ∧
      (∀ (i p : Nat), img[i]? = some p → r[i]? = (table[p]?).map (· % 256)) ∧ ∀ i, img.length ≤ i → r[i]? = result[i]? := by
  intro img
  induction img with
  | nil => intro result _ _; exact ⟨result, rfl, rfl, by simp, by simp⟩
  | cons p img ih =>
    intro result hl hp
    match result, hl with
    | q :: result, hl =>
      obtain ⟨r, h1, h2, h3, h4⟩ := ih result (by simpa using hl) (fun p h => hp p (List.mem_cons_of_mem _ h))
      have hpt := hp p (by simp)
      refine ⟨table[p] % 256 :: r, ?_, by simp [h2], ?_, ?_⟩
      · have h1 : lookLoop table img result = some r := h1
        simp [lookUp, lookLoop, h1, hpt]
      · intro i q' hi
        cases i with
        | zero =>
          simp only [List.getElem?_cons_zero, Option.some.injEq] at hi ⊢
          subst hi
          rw [List.getElem?_eq_getElem hpt]; rfl
        | succ i => exact h3 i q' (by simpa using hi)
      · intro i hi
        cases i with
        | zero => simp at hi
        | succ i => exact h4 i (by simpa using hi)

/-- C208.  Two tables one after the other are their composition. -/
theorem C208_look_up_twice (t1 t2 : List Nat) (img : List Nat) (h1 : ∀ p ∈ img, p < t1.length) (hb : ∀ v ∈ t1, v < 256 ∧ v < t2.length) :
    ((lookUp img img t1).bind fun r => lookUp r r t2) = lookUp img img (t1.map fun v => (t2[v]?).getD 0) := by
  have key : ∀ (l : List Nat), (∀ p ∈ l, p < t1.length) →
      ∃ r s, lookLoop t1 l l = some r ∧ lookLoop t2 r r = some s ∧ lookLoop (t1.map fun v => (t2[v]?).getD 0) l l = some s := by
    intro l
    induction l with
    | nil => intro _; exact ⟨[], [], rfl, rfl, rfl⟩
    | cons p l ih =>
      intro hl
      obtain ⟨r, s, e1, e2, e3⟩ := ih (fun p h => hl p (List.mem_cons_of_mem _ h))
      have hp := hl p (by simp)
      have hv := hb t1[p] (List.getElem_mem hp)
      refine ⟨t1[p] % 256 :: r, t2[t1[p]] % 256 :: s, ?_, ?_, ?_⟩
      · simp [lookLoop, e1, hp]
      · simp [lookLoop, e2, Nat.mod_eq_of_lt hv.1, hv.2]
      · simp [lookLoop, e3, hp, hv.2]
  obtain ⟨r, s, e1, e2, e3⟩ := key img h1
  simp only [lookUp, e1, Option.bind_some, e2, e3]

example : lookUp [2, 0, 1] [9, 9, 9, 9] [10, 20, 300] = some [44, 10, 20, 9] := by decide

/-! ### colours -/

theorem splitLoop_spec (rgb : List Nat) : ∀ (n s : Nat) (r g b : List Nat), 3 * (s + n) ≤ rgb.length →
    s + n ≤ r.length → s + n ≤ g.length → s + n ≤ b.length → (∀ p ∈ rgb, p < 256) →
    ∃ r' g' b', splitLoop n s rgb r g b = some (r', g', b') ∧ r'.length = r.length ∧ g'.length = g.length ∧ b'.length = b.length ∧
      (∀ i, r'[i]? = if s ≤ i ∧ i < s + n then rgb[3 * i]? else r[i]?) ∧
      (∀ i, g'[i]? = if s ≤ i ∧ i < s + n then rgb[3 * i + 1]? else g[i]?) ∧
      (∀ i, b'[i]? = if s ≤ i ∧ i < s + n then rgb[3 * i + 2]? else b[i]?)
  | 0, s, r, g, b, _, _, _, _, _ => ⟨r, g, b, rfl, rfl, rfl, rfl, by intro i; rw [if_neg (by omega)], by intro i; rw [if_neg (by omega)],
      by intro i; rw [if_neg (by omega)]⟩
  | n + 1, s, r, g, b, h, hr, hg, hb, hby => by
    obtain ⟨r', g', b', e, l1, l2, l3, p1, p2, p3⟩ := splitLoop_spec rgb n (s + 1) (r.set s (rgb[3 * s]'(by omega)))
      (g.set s (rgb[3 * s + 1]'(by omega))) (b.set s (rgb[3 * s + 2]'(by omega))) (by omega) (by simp; omega) (by simp; omega) (by simp; omega) hby
    have c1 := hby _ (List.getElem_mem (show 3 * s < rgb.length by omega))
    have c2 := hby _ (List.getElem_mem (show 3 * s + 1 < rgb.length by omega))
    have c3 := hby _ (List.getElem_mem (show 3 * s + 2 < rgb.length by omega))
    have aux : ∀ (q q' : List Nat) (o : Nat) (ho : 3 * s + o < rgb.length), s < q.length →
        (∀ i, q'[i]? = if s + 1 ≤ i ∧ i < s + 1 + n then rgb[3 * i + o]? else (q.set s rgb[3 * s + o])[i]?) →
        ∀ i, q'[i]? = if s ≤ i ∧ i < s + (n + 1) then rgb[3 * i + o]? else q[i]? := by
      intro q q' o ho hq hh i
      rw [hh i]
      by_cases hi : i = s
      · subst hi
        rw [if_neg (by omega), if_pos (by omega), List.getElem?_set_self hq, List.getElem?_eq_getElem ho]
      · rw [List.getElem?_set_ne (by omega)]
        by_cases hin : s + 1 ≤ i ∧ i < s + 1 + n
        · rw [if_pos hin, if_pos (by omega)]
        · rw [if_neg hin, if_neg (by omega)]
    refine ⟨r', g', b', ?_, by simpa using l1, by simpa using l2, by simpa using l3, aux r r' 0 (by omega) (by omega) p1,
      aux g g' 1 (by omega) (by omega) p2, aux b b' 2 (by omega) (by omega) p3⟩
    simp only [splitLoop, List.getElem?_eq_getElem (show 3 * s < rgb.length by omega), List.getElem?_eq_getElem (show 3 * s + 1 < rgb.length by omega),
      List.getElem?_eq_getElem (show 3 * s + 2 < rgb.length by omega), Option.bind_some, wr, Nat.mod_eq_of_lt c1, Nat.mod_eq_of_lt c2, Nat.mod_eq_of_lt c3]
    rw [if_pos (by omega)]
    simp only [Option.bind_some]
    rw [if_pos (by omega)]
    simp only [Option.bind_some]
    rw [if_pos (by omega)]
    simp only [Option.bind_some]
    exact e

theorem mergeLoop_spec (r g b : List Nat) : ∀ (n s : Nat) (rgb : List Nat), 3 * (s + n) ≤ rgb.length →
    s + n ≤ r.length → s + n ≤ g.length → s + n ≤ b.length → (∀ p ∈ r, p < 256) → (∀ p ∈ g, p < 256) → (∀ p ∈ b, p < 256) →
    ∃ q, mergeLoop r g b n s rgb = some q ∧ q.length = rgb.length ∧ (∀ k, k < 3 * s → q[k]? = rgb[k]?) ∧
      ∀ i, s ≤ i → i < s + n → q[3 * i]? = r[i]? ∧ q[3 * i + 1]? = g[i]? ∧ q[3 * i + 2]? = b[i]?
  | 0, s, rgb, _, _, _, _, _, _, _ => ⟨rgb, rfl, rfl, fun _ _ => rfl, by intro i h1 h2; omega⟩
  | n + 1, s, rgb, h, hr, hg, hb, b1, b2, b3 => by
    have c1 := b1 _ (List.getElem_mem (show s < r.length by omega))
    have c2 := b2 _ (List.getElem_mem (show s < g.length by omega))
    have c3 := b3 _ (List.getElem_mem (show s < b.length by omega))
    obtain ⟨q, e, l, p1, p2⟩ := mergeLoop_spec r g b n (s + 1) (((rgb.set (3 * s) (r[s]'(by omega))).set (3 * s + 1) (g[s]'(by omega))).set (3 * s + 2) (b[s]'(by omega)))
      (by simp; omega) (by omega) (by omega) (by omega) b1 b2 b3
    refine ⟨q, ?_, by simpa using l, ?_, ?_⟩
    · simp only [mergeLoop, List.getElem?_eq_getElem (show s < r.length by omega), List.getElem?_eq_getElem (show s < g.length by omega),
        List.getElem?_eq_getElem (show s < b.length by omega), Option.bind_some, wr, Nat.mod_eq_of_lt c1, Nat.mod_eq_of_lt c2, Nat.mod_eq_of_lt c3]
      rw [if_pos (by omega)]
      simp only [Option.bind_some, List.length_set]
      rw [if_pos (by omega)]
      simp only [Option.bind_some, List.length_set]
      rw [if_pos (by omega)]
      simp only [Option.bind_some]
      exact e
    · intro k hk
      rw [p1 k (by omega), List.getElem?_set_ne (by omega), List.getElem?_set_ne (by omega), List.getElem?_set_ne (by omega)]
    · intro i h1 h2
      by_cases hi : i = s
      · subst hi
        rw [p1 _ (by omega), p1 _ (by omega), p1 _ (by omega)]
        refine ⟨?_, ?_, ?_⟩
        · rw [List.getElem?_set_ne (by omega), List.getElem?_set_ne (by omega), List.getElem?_set_self (by omega), List.getElem?_eq_getElem]
        · rw [List.getElem?_set_ne (by omega), List.getElem?_set_self (by simp; omega), List.getElem?_eq_getElem]
        · rw [List.getElem?_set_self (by simp; omega), List.getElem?_eq_getElem]
      · exact p2 i (by omega) (by omega)

/-- C208.  `split-rgb` and then `merge-rgb` give the coloured picture again, whatever was in the string merged into. -/
theorem C208_rgb (rgb r g b old : List Nat) (n : Nat) (hn : rgb.length = 3 * n) (ho : old.length = 3 * n) (hby : ∀ p ∈ rgb, p < 256)
    (hr : r.length = n) (hg : g.length = n) (hb : b.length = n) :
    ∃ r' g' b', splitRGB rgb r g b = some (r', g', b') ∧
      (∀ i, i < n → r'[i]? = rgb[3 * i]? ∧ g'[i]? = rgb[3 * i + 1]? ∧ b'[i]? = rgb[3 * i + 2]?) ∧ mergeRGB old r' g' b' = some rgb := by
  have e3 : rgb.length / 3 = n := by omega
  obtain ⟨r', g', b', e, l1, l2, l3, p1, p2, p3⟩ := splitLoop_spec rgb n 0 r g b (by omega) (by omega) (by omega) (by omega) hby
  have get : ∀ i, i < n → r'[i]? = rgb[3 * i]? ∧ g'[i]? = rgb[3 * i + 1]? ∧ b'[i]? = rgb[3 * i + 2]? := by
    intro i hi
    rw [p1, p2, p3, if_pos (by omega), if_pos (by omega), if_pos (by omega)]
    exact ⟨rfl, rfl, rfl⟩
  have bytes : ∀ (q : List Nat) (o : Nat), q.length = n → (∀ i, i < n → q[i]? = rgb[3 * i + o]?) → ∀ p ∈ q, p < 256 := by
    intro q o hq hh p hp
    obtain ⟨k, hk, e⟩ := List.mem_iff_getElem.1 hp
    have := hh k (by omega)
    rw [List.getElem?_eq_getElem hk, e] at this
    exact hby p (List.mem_of_getElem? this.symm)
  have e4 : (old.length + 2) / 3 = n := by omega
  obtain ⟨q, m1, m2, -, m4⟩ := mergeLoop_spec r' g' b' n 0 old (by omega) (by omega) (by omega) (by omega)
    (bytes r' 0 (by omega) fun i hi => (get i hi).1) (bytes g' 1 (by omega) fun i hi => (get i hi).2.1) (bytes b' 2 (by omega) fun i hi => (get i hi).2.2)
  refine ⟨r', g', b', by rw [splitRGB, e3]; exact e, get, ?_⟩
  rw [mergeRGB, e4, m1]
  congr 1
  apply List.ext_getElem?
  intro k
  by_cases hk : k < 3 * n
  · obtain ⟨a1, a2, a3⟩ := m4 (k / 3) (by omega) (by omega)
    obtain ⟨g1, g2, g3⟩ := get (k / 3) (by omega)
    have : k % 3 = 0 ∨ k % 3 = 1 ∨ k % 3 = 2 := by omega
    rcases this with h | h | h
    · rw [show k = 3 * (k / 3) by omega, a1, g1]
    · rw [show k = 3 * (k / 3) + 1 by omega, a2, g2]
    · rw [show k = 3 * (k / 3) + 2 by omega, a3, g3]
  · rw [List.getElem?_eq_none (by omega), List.getElem?_eq_none (by omega)]

example : splitRGB [1, 2, 3, 4, 5, 6] [0, 0] [0, 0] [0, 0] = some ([1, 4], [2, 5], [3, 6]) := by decide

theorem mergeLoop_none (r g b : List Nat) : ∀ (n s : Nat) (rgb : List Nat), rgb.length < 3 * (s + n) → 0 < n → mergeLoop r g b n s rgb = none
  | n + 1, s, rgb, h, _ => by
    rw [mergeLoop]
    cases r[s]? <;> [rfl; skip]
    cases g[s]? <;> [rfl; skip]
    cases b[s]? <;> [rfl; skip]
    simp only [Option.bind_some, wr]
    split
    · simp only [Option.bind_some, List.length_set]
      split
      · simp only [Option.bind_some, List.length_set]
        split
        · simp only [Option.bind_some]
          apply mergeLoop_none
          · simp; omega
          · omega
        · rfl
      · rfl
    · rfl

/-- C208 fails: `merge-rgb` into a string whose length is no multiple of three always writes behind its end. -/
theorem C208_merge_wrong (rgb r g b : List Nat) (h : rgb.length % 3 ≠ 0) : mergeRGB rgb r g b = none := by
  apply mergeLoop_none
  · omega
  · omega

/-! ### filters -/

/-- C208 fails: `convolve3` reads behind the end of every picture with at least two rows and columns. -/
theorem C208_convolve_wrong (f : List Nat → Nat) (m : Img) (hm : m.Ok) (hw : 2 ≤ m.w) (hh : 2 ≤ m.h) (d : List Nat) : convolve3 f m d = none := by
  have hc : (m.h - 2, m.w - 2) ∈ cells (m.h - 1) (m.w - 1) := by rw [mem_cells]; simp only; omega
  have hbad : convReads m (m.h - 1) (m.w - 1) = none := by
    have e : m.ent[m.w * (m.h - 1) + (m.w - 1) + m.w + 1]? = none := by
      apply List.getElem?_eq_none
      rw [hm.size]
      have : m.w * m.h = m.w * (m.h - 1) + m.w := by
        conv_lhs => rw [show m.h = m.h - 1 + 1 by omega]
        ring
      omega
    simp only [convReads, List.mapM_cons, List.mapM_nil, e]
    simp
  unfold convolve3
  generalize cells (m.h - 1) (m.w - 1) = l at hc
  induction l generalizing d with
  | nil => simp at hc
  | cons c l ih =>
    rw [List.foldlM_cons]
    rcases List.mem_cons.1 hc with e | hin
    · rw [← e]
      simp only [show m.h - 2 + 1 = m.h - 1 by omega, show m.w - 2 + 1 = m.w - 1 by omega, hbad, Option.bind_none]
      rfl
    · cases hs : ((convReads m (c.1 + 1) (c.2 + 1)).bind fun l => wr d (m.w * (c.1 + 1) + (c.2 + 1)) (f l)) with
      | none => rfl
      | some d' => exact ih d' hin

example : Img.Ok ⟨2, 2, [1, 2, 3, 4]⟩ := ⟨rfl, by decide⟩

theorem medRound_eq : ∀ (n med cindex : Nat), cindex ≤ n → medRound (n + 1) med med cindex = some med
  | 0, med, c, h => by simp only [medRound, if_true]; rw [if_pos (by omega)]
  | n + 1, med, c, h => by
    rw [medRound, if_pos rfl]
    split
    · rfl
    · exact medRound_eq n med (c - 1) (by omega)

theorem medRound_lt : ∀ (n med v cindex : Nat), v < med → 1 ≤ cindex → cindex ≤ n → medRound (n + 1) med v cindex = some med
  | 0, med, v, c, h, h1, h2 => by omega
  | n + 1, med, v, c, h, h1, h2 => by
    rw [medRound, if_neg (by omega), if_neg (by omega), if_pos h1]
    split
    · rfl
    · exact medRound_lt n med v (c - 1) h (by omega) (by omega)

/-- C208 fails: the value `median-image` computes for a window of 2 to 10 pixels a side is the larger one of the first and the last pixel,
not the median. -/
theorem C208_median_wrong (size : Nat) (seq : List Nat) (h2 : 2 ≤ size) (hl : seq.length = size * size) (h10 : size ≤ 10) :
    median size seq = some (max (seq.headD 0) (seq.getLastD 0)) := by
  have hs : 4 ≤ size * size := Nat.mul_le_mul h2 h2
  have hs' : size * size ≤ 100 := Nat.mul_le_mul h10 h10
  rw [median, if_neg (by omega)]
  generalize seq.headD 0 = a
  generalize seq.getLastD 0 = b
  rcases Nat.lt_trichotomy b a with h | h | h
  · rw [medRound_lt _ _ _ _ h (by omega) (by omega), Nat.max_eq_left (by omega)]
  · subst h
    rw [medRound_eq _ _ _ (by omega), Nat.max_self]
  · rw [medRound, if_neg (by omega), if_pos h, if_neg (by omega), medRound_eq _ _ _ (by omega), Nat.max_eq_right (by omega)]

/-- C208.  A window of one pixel is right. -/
theorem C208_median_partial (v : Nat) : median 1 [v] = some v := by simp [median, medRound]

example : median 3 [1, 5, 5, 5, 5, 5, 5, 5, 9] = some 9 := by decide

end Eus.Pix
