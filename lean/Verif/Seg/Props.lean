import Verif.Seg.Model
import Verif.Seg.Spec
import Mathlib.Data.List.Perm.Basic
import Mathlib.Data.List.Nodup
set_option autoImplicit false
/-
C225.
-/
namespace Eus.Seg

theorem findNext_some {nv : Nat} {segs : List Seg} {s : Seg} (h : findNext nv segs = some s) : s ∈ segs ∧ (s.1 = nv ∨ s.2 = nv) := by
  refine ⟨List.mem_of_find?_eq_some h, ?_⟩
  have := List.find?_some h
  simpa using this

theorem findNext_none {nv : Nat} {segs : List Seg} (h : findNext nv segs = none) : ends nv segs = 0 := by
  induction segs with
  | nil => rfl
  | cons s l ih =>
    rw [findNext, List.find?_cons] at h
    split at h
    · exact absurd h (by simp)
    · rename_i hs
      simp only [Bool.or_eq_false_iff, decide_eq_false_iff_not] at hs
      simp [ends, hs.1, hs.2, ih h]

theorem undirected_other {nv : Nat} {s : Seg} (h : s.1 = nv ∨ s.2 = nv) : undirected (nv, other nv s) = undirected s := by
  obtain ⟨a, b⟩ := s
  simp only at h
  unfold other undirected
  simp only
  by_cases hb : nv = b
  · subst hb
    simp only [if_true]
    split <;> split
    · rename_i h1 h2
      have : a = nv := by omega
      simp [this]
    · rfl
    · rfl
    · omega
  · have ha : a = nv := by rcases h with h | h; exact h; exact absurd h.symm hb
    subst ha
    simp [hb]

theorem walk_perm : ∀ (f nv : Nat) (segs : List Seg),
    (((walk f nv segs).1 ++ (walk f nv segs).2.2).map undirected).Perm (segs.map undirected) := by
  intro f
  induction f with
  | zero => intro nv segs; simp [walk]
  | succ f ih =>
    intro nv segs
    rw [walk]
    cases h : findNext nv segs with
    | none => simp
    | some s =>
      obtain ⟨h1, h2⟩ := findNext_some h
      have h3 := ih (other nv s) (segs.erase s)
      have h4 := (List.perm_cons_erase h1).map undirected
      simp only [List.cons_append, List.map_cons, undirected_other h2]
      exact (h3.cons _).trans h4.symm

theorem walk_path : ∀ (f nv : Nat) (segs : List Seg), Path nv (walk f nv segs).1 (walk f nv segs).2.1 := by
  intro f
  induction f with
  | zero => intro nv segs; simp [walk, Path]
  | succ f ih =>
    intro nv segs
    rw [walk]
    cases h : findNext nv segs with
    | none => simp [Path]
    | some s => exact ⟨rfl, ih _ _⟩

theorem walk_stuck : ∀ (f nv : Nat) (segs : List Seg), segs.length ≤ f → ends (walk f nv segs).2.1 (walk f nv segs).2.2 = 0 := by
  intro f
  induction f with
  | zero =>
    intro nv segs h
    have : segs = [] := List.length_eq_zero_iff.1 (by omega)
    subst this
    simp [walk, ends]
  | succ f ih =>
    intro nv segs h
    rw [walk]
    cases hn : findNext nv segs with
    | none => exact findNext_none hn
    | some s =>
      apply ih
      rw [List.length_erase_of_mem (findNext_some hn).1]
      omega

theorem ends_undirected (p : Nat) (s : Seg) :
    (if (undirected s).1 = p then 1 else 0) + (if (undirected s).2 = p then 1 else 0) = (if s.1 = p then 1 else 0) + (if s.2 = p then 1 else 0) := by
  unfold undirected
  split
  · rfl
  · exact Nat.add_comm _ _

theorem ends_map (p : Nat) : ∀ (l : List Seg), ends p (l.map undirected) = ends p l := by
  intro l
  induction l with
  | nil => rfl
  | cons s l ih => simp only [List.map_cons, ends, ih, ends_undirected]

theorem ends_perm (p : Nat) {l l' : List Seg} (h : l.Perm l') : ends p l = ends p l' := by
  induction h with
  | nil => rfl
  | cons x _ ih => simp [ends, ih]
  | swap x y l => simp only [ends]; omega
  | trans _ _ h1 h2 => rw [h1, h2]

theorem ends_append (p : Nat) : ∀ (l l' : List Seg), ends p (l ++ l') = ends p l + ends p l' := by
  intro l l'
  induction l with
  | nil => simp [ends]
  | cons s l ih => simp only [List.cons_append, ends, ih]; omega

theorem ends_walk (p f nv : Nat) (segs : List Seg) : ends p (walk f nv segs).1 + ends p (walk f nv segs).2.2 = ends p segs := by
  have := ends_perm p (walk_perm f nv segs)
  rw [ends_map, ends_map, ends_append] at this
  exact this

theorem path_ends (p : Nat) : ∀ (l : List Seg) (a b : Nat), Path a l b →
    (ends p l + (if a = p then 1 else 0) + (if b = p then 1 else 0)) % 2 = 0 := by
  intro l
  induction l with
  | nil =>
    intro a b h
    simp only [Path] at h
    subst h
    simp only [ends]
    split <;> rfl
  | cons s l ih =>
    intro a b h
    obtain ⟨h1, h2⟩ := h
    have := ih s.2 b h2
    subst h1
    simp only [ends]
    omega

/-- what is true of the first loop: a path, nothing left over at its end, all segments accounted for -/
theorem findLoop_spec (s : Seg) (segs : List Seg) :
    let r := findLoop (s :: segs)
    ((r.1.1 ++ r.2).map undirected).Perm ((s :: segs).map undirected) ∧
    ∃ b, Path s.1 r.1.1 b ∧ ends b r.2 = 0 ∧ (r.1.2 = true ↔ s.1 = b) := by
  refine ⟨?_, (walk segs.length s.2 segs).2.1, ⟨rfl, walk_path _ _ _⟩, walk_stuck _ _ _ (Nat.le_refl _), by simp [findLoop]⟩
  simp only [findLoop, List.cons_append, List.map_cons]
  exact (walk_perm _ _ _).cons _

theorem findLoop_length (s : Seg) (segs : List Seg) : (findLoop (s :: segs)).2.length ≤ segs.length := by
  have := (findLoop_spec s segs).1.length_eq
  simp only [List.map_append, List.length_append, List.length_map, List.length_cons, findLoop] at this ⊢
  omega

/-- C225.  Every segment is used exactly once, with one of its two directions. -/
theorem C225_segments (segs : List Seg) : ((polygons segs).flatMap fun c => c.1.map undirected).Perm (segs.map undirected) := by
  suffices H : ∀ (f : Nat) (segs : List Seg), segs.length ≤ f → ((construct f segs).flatMap fun c => c.1.map undirected).Perm (segs.map undirected) from
    H _ segs (Nat.le_refl _)
  intro f
  induction f with
  | zero =>
    intro segs h
    have : segs = [] := List.length_eq_zero_iff.1 (by omega)
    subst this
    simp [construct]
  | succ f ih =>
    intro segs h
    cases segs with
    | nil => simp [construct]
    | cons s segs =>
      have h1 := (findLoop_spec s segs).1
      have h2 := ih (findLoop (s :: segs)).2 (by have := findLoop_length s segs; simp only [List.length_cons] at h; omega)
      rw [construct, List.flatMap_cons]
      refine (List.Perm.append_left _ h2).trans ?_
      rw [← List.map_append]
      exact h1

/-- C225.  Each polygon or line is a path, and what is called a polygon returns to its start. -/
theorem C225_paths (segs : List Seg) (c : List Seg × Bool) (hc : c ∈ polygons segs) :
    ∃ a b, Path a c.1 b ∧ c.1 ≠ [] ∧ (c.2 = true ↔ a = b) := by
  suffices H : ∀ (f : Nat) (segs : List Seg), c ∈ construct f segs → ∃ a b, Path a c.1 b ∧ c.1 ≠ [] ∧ (c.2 = true ↔ a = b) from H _ _ hc
  intro f
  induction f with
  | zero => intro segs h; exact absurd h (by simp [construct])
  | succ f ih =>
    intro segs h
    cases segs with
    | nil => exact absurd h (by simp [construct])
    | cons s segs =>
      rw [construct] at h
      rcases List.mem_cons.1 h with e | e
      · obtain ⟨b, h1, _, h3⟩ := (findLoop_spec s segs).2
        rw [e]
        exact ⟨s.1, b, h1, by simp [findLoop], h3⟩
      · exact ih _ e

/-- C225.  If an even number of segments ends at every point, as on the border of a region, all of them become polygons: no line remains. -/
theorem C225_closed (segs : List Seg) (hev : ∀ p, ends p segs % 2 = 0) (c : List Seg × Bool) (hc : c ∈ polygons segs) : c.2 = true := by
  suffices H : ∀ (f : Nat) (segs : List Seg), (∀ p, ends p segs % 2 = 0) → c ∈ construct f segs → c.2 = true from H _ _ hev hc
  intro f
  induction f with
  | zero => intro segs _ h; exact absurd h (by simp [construct])
  | succ f ih =>
    intro segs hev h
    cases segs with
    | nil => exact absurd h (by simp [construct])
    | cons s segs =>
      rw [construct] at h
      obtain ⟨hp, b, h1, h2, h3⟩ := findLoop_spec s segs
      have hsum : ∀ p, ends p (findLoop (s :: segs)).1.1 + ends p (findLoop (s :: segs)).2 = ends p (s :: segs) := by
        intro p
        have := ends_perm p hp
        rw [ends_map, ends_map, ends_append] at this
        exact this
      have hab : s.1 = b := by
        refine Classical.byContradiction fun hne => ?_
        have h4 := path_ends b _ _ _ h1
        have h5 := hsum b
        have h6 := hev b
        rw [if_neg hne] at h4
        simp only [if_true] at h4
        omega
      rcases List.mem_cons.1 h with e | e
      · rw [e]; exact h3.2 hab
      · refine ih _ ?_ e
        intro p
        have h4 := path_ends p _ _ _ h1
        have h5 := hsum p
        have h6 := hev p
        rw [hab] at h4
        split at h4 <;> omega

theorem ends_count (p : Nat) : ∀ (l : List Seg), ends p l = (l.map Prod.fst).count p + (l.map Prod.snd).count p := by
  intro l
  induction l with
  | nil => rfl
  | cons s l ih =>
    simp only [ends, ih, List.map_cons, List.count_cons, beq_iff_eq]
    omega

theorem path_count (p : Nat) : ∀ (l : List Seg) (a b : Nat), Path a l b →
    (l.map Prod.fst).count p + (if b = p then 1 else 0) = (l.map Prod.snd).count p + (if a = p then 1 else 0) := by
  intro l
  induction l with
  | nil => intro a b h; simp only [Path] at h; subst h; rfl
  | cons s l ih =>
    intro a b h
    obtain ⟨h1, h2⟩ := h
    have := ih s.2 b h2
    subst h1
    simp only [List.map_cons, List.count_cons, beq_iff_eq]
    omega

theorem ends_le {segs : List Seg} {c : List Seg × Bool} (hc : c ∈ polygons segs) (p : Nat) : ends p c.1 ≤ ends p segs := by
  have h := ends_perm p (C225_segments segs)
  rw [ends_map] at h
  rw [← h]
  clear h
  generalize polygons segs = L at hc
  induction L with
  | nil => exact absurd hc (by simp)
  | cons d L ih =>
    rw [List.flatMap_cons, ends_append]
    rcases List.mem_cons.1 hc with e | e
    · subst e; rw [ends_map]; omega
    · have := ih e; omega

/-- C225.  If at most two segments end at each point, no polygon passes twice through a point. -/
theorem C225_simple_partial (segs : List Seg) (h2 : ∀ p, ends p segs ≤ 2) (c : List Seg × Bool) (hc : c ∈ polygons segs) (hcl : c.2 = true) :
    (c.1.map Prod.fst).Nodup := by
  obtain ⟨a, b, h3, _, h4⟩ := C225_paths segs c hc
  have hab := h4.1 hcl
  subst hab
  rw [List.nodup_iff_count_le_one]
  intro p
  have h5 := path_count p _ _ _ h3
  have h6 := ends_count p c.1
  have h7 := ends_le hc p
  have h8 := h2 p
  omega

/-- C225 fails.  Where two regions touch in a point, both become one polygon, which passes twice through the point. -/
theorem C225_simple_wrong : polygons [(0, 1), (1, 2), (2, 0), (0, 3), (3, 4), (4, 0)] = [([(0, 1), (1, 2), (2, 0), (0, 3), (3, 4), (4, 0)], true)] := by decide

/-- two squares with mixed directions, and a line -/
example : polygons [(0, 1), (2, 1), (2, 3), (0, 3), (10, 11), (5, 6), (6, 7), (5, 7)] =
    [([(0, 1), (1, 2), (2, 3), (3, 0)], true), ([(10, 11)], false), ([(5, 6), (6, 7), (7, 5)], true)] := by decide

example : ∀ p, ends p [(0, 1), (2, 1), (2, 3), (0, 3)] % 2 = 0 ∧ ends p [(0, 1), (2, 1), (2, 3), (0, 3)] ≤ 2 := by
  intro p
  simp only [ends]
  repeat' split
  all_goals omega

end Eus.Seg
