import Verif.Gtm.Model
import Mathlib.Data.List.Nodup
import Mathlib.Data.List.Perm.Subperm
import Mathlib.Data.List.Range
set_option autoImplicit false
/-
C227.
-/
namespace Eus.Gtm

def value (l : Name) : Nat := l.foldl (fun a d => 10 * a + (d - 48)) 0

theorem value_digits (n : Nat) : value (digits n) = n := by
  induction n using Nat.strongRecOn with
  | _ n ih =>
    rw [digits]
    split
    · simp [value]
    · have := ih (n / 10) (by omega)
      unfold value at this ⊢
      rw [List.foldl_append, this]
      simp
      omega

theorem name_inj (pre : Name) (i j : Nat) (h : pre ++ digits i = pre ++ digits j) : i = j := by
  have := List.append_cancel_left h
  rw [← value_digits i, this, value_digits]

/-- the loop stops at the first index that is free, unless its bound is reached before -/
theorem loop_spec (pre : Name) (pkg : Nat) : ∀ (f : Nat) (s : St),
    (∃ k, k < f ∧ (∀ j < k, pre ++ digits (s.index + j) ∈ s.own pkg) ∧ pre ++ digits (s.index + k) ∉ s.own pkg ∧
      gentemp f s pre pkg = some (intern { s with index := s.index + k } pkg (pre ++ digits (s.index + k)))) ∨
    ∀ j < f, pre ++ digits (s.index + j) ∈ s.own pkg := by
  intro f
  induction f with
  | zero => intro s; right; intro j hj; omega
  | succ f ih =>
    intro s
    by_cases h : pre ++ digits s.index ∈ s.own pkg
    · have e : gentemp (f + 1) s pre pkg = gentemp f { s with index := s.index + 1 } pre pkg := by
        rw [gentemp, if_pos (by simpa [findSymbol] using h)]
      rcases ih { s with index := s.index + 1 } with ⟨k, h1, h2, h3, h4⟩ | h2
      · left
        have a : s.index + 1 + k = s.index + (k + 1) := by omega
        simp only [a] at h3 h4
        refine ⟨k + 1, by omega, ?_, h3, by rw [e, h4]⟩
        intro j hj
        cases j with
        | zero => exact h
        | succ j =>
          have := h2 j (by omega)
          have b : s.index + 1 + j = s.index + (j + 1) := by omega
          simp only [b] at this
          exact this
      · right
        intro j hj
        cases j with
        | zero => exact h
        | succ j =>
          have := h2 j (by omega)
          have b : s.index + 1 + j = s.index + (j + 1) := by omega
          simp only [b] at this
          exact this
    · left
      refine ⟨0, by omega, fun j hj => by omega, h, ?_⟩
      rw [gentemp, if_neg (by simpa [findSymbol] using h)]
      rfl

theorem pigeon (pre : Name) (i : Nat) (l : List Name) : ¬ ∀ j < l.length + 1, pre ++ digits (i + j) ∈ l := by
  intro h
  have hn : ((List.range (l.length + 1)).map fun j => pre ++ digits (i + j)).Nodup := by
    apply List.Nodup.map _ List.nodup_range
    intro a b e
    have := name_inj pre _ _ e
    omega
  have hs : ((List.range (l.length + 1)).map fun j => pre ++ digits (i + j)) ⊆ l := by
    intro x hx
    obtain ⟨j, hj, rfl⟩ := List.mem_map.1 hx
    exact h j (List.mem_range.1 hj)
  have := (hn.subperm hs).length_le
  rw [List.length_map, List.length_range] at this
  omega

/-- C227.  gentemp ends, after no more rounds than the package has symbols.  The name is the prefix with the first index, from the counter on, for which the
package itself has no symbol.  If no used package exports a symbol of this form, the symbol is a new one of the package, and nothing else changes but the
counter. -/
theorem C227_fresh_partial (s : St) (pre : Name) (pkg : Nat) (hu : ∀ u ∈ s.use pkg, ∀ i, pre ++ digits i ∉ s.ext u) :
    ∃ i, s.index ≤ i ∧ (∀ j, s.index ≤ j → j < i → pre ++ digits j ∈ s.own pkg) ∧ pre ++ digits i ∉ s.own pkg ∧
      gentemp ((s.own pkg).length + 1) s pre pkg = some ((pkg, pre ++ digits i),
        { s with index := i, own := fun q => if q = pkg then (pre ++ digits i) :: s.own q else s.own q }) := by
  rcases loop_spec pre pkg ((s.own pkg).length + 1) s with ⟨k, _, h2, h3, h4⟩ | h
  · refine ⟨s.index + k, by omega, ?_, h3, ?_⟩
    · intro j h5 h6
      have := h2 (j - s.index) (by omega)
      rwa [show s.index + (j - s.index) = j by omega] at this
    · rw [h4]
      unfold intern
      rw [if_neg h3]
      have : (s.use pkg).find? (fun u => decide (pre ++ digits (s.index + k) ∈ s.ext u)) = none := by
        rw [List.find?_eq_none]
        intro u hu'
        simpa using hu u hu' (s.index + k)
      simp only [this]
  · exact absurd h (pigeon pre s.index (s.own pkg))

/-- what interning keeps -/
theorem intern_keeps (s : St) (pkg : Nat) (n : Name) : (intern s pkg n).2.use = s.use ∧ (intern s pkg n).2.ext = s.ext ∧
    ∀ q, ∀ m ∈ s.own q, m ∈ (intern s pkg n).2.own q := by
  unfold intern
  split
  · exact ⟨rfl, rfl, fun _ _ h => h⟩
  · split
    · exact ⟨rfl, rfl, fun _ _ h => h⟩
    · refine ⟨rfl, rfl, fun q m h => ?_⟩
      show m ∈ (if q = pkg then n :: s.own q else s.own q)
      split
      · exact List.mem_cons_of_mem _ h
      · exact h

/-- C227.  However a program mixes prefixes and packages, and whatever symbols are read in between, all symbols it generates are different from each other and
from the symbols that the packages had before, if no used package exports a symbol of the form asked for. -/
theorem C227_history_partial : ∀ (ops : List Op) (s : St),
    (∀ pre pkg, Op.gen pre pkg ∈ ops → ∀ u ∈ s.use pkg, ∀ i, pre ++ digits i ∉ s.ext u) →
    ∃ r t, run ops s = some (r, t) ∧ r.Nodup ∧ (∀ x ∈ r, x.2 ∉ s.own x.1) ∧
      r.length = (ops.filter fun o => match o with | .gen _ _ => true | .read _ _ => false).length := by
  intro ops
  induction ops with
  | nil => intro s _; exact ⟨[], s, rfl, List.nodup_nil, by simp, rfl⟩
  | cons o ops ih =>
    intro s hs
    cases o with
    | read n pkg =>
      obtain ⟨h1, h2, h3⟩ := intern_keeps s pkg n
      obtain ⟨r, t, e1, e2, e3, e4⟩ := ih (intern s pkg n).2 (by
        intro pre p hp; rw [h1, h2]; exact hs pre p (by simp [hp]))
      exact ⟨r, t, by rw [run, e1], e2, fun x hx hm => e3 x hx (h3 _ _ hm), by simpa using e4⟩
    | gen pre pkg =>
      obtain ⟨i, _, _, hi, hg⟩ := C227_fresh_partial s pre pkg (hs pre pkg (by simp))
      obtain ⟨r, t, e1, e2, e3, e4⟩ := ih { s with index := i, own := fun q => if q = pkg then (pre ++ digits i) :: s.own q else s.own q } (by
        intro pre' p hp; exact hs pre' p (by simp [hp]))
      refine ⟨(pkg, pre ++ digits i) :: r, t, ?_, ?_, ?_, ?_⟩
      · rw [run, hg]; simp only [e1]
      · rw [List.nodup_cons]
        refine ⟨fun hm => e3 _ hm ?_, e2⟩
        simp
      · intro x hx
        rcases List.mem_cons.1 hx with e | e
        · rw [e]; exact hi
        · intro hm
          apply e3 x e
          show x.2 ∈ (if x.1 = pkg then (pre ++ digits i) :: s.own x.1 else s.own x.1)
          split
          · exact List.mem_cons_of_mem _ hm
          · exact hm
      · simp [e4]

/-- C227.  Where a used package exports a symbol with the next name, gentemp gives back that symbol, which is not new, and it does so again at every call:
find-symbol does not look into used packages, but intern does. -/
theorem C227_inherited_wrong (s : St) (pre : Name) (pkg : Nat) (h1 : pre ++ digits s.index ∉ s.own pkg)
    (h2 : ∃ u ∈ s.use pkg, pre ++ digits s.index ∈ s.ext u) (n : Nat) :
    ∃ u ∈ s.use pkg, pre ++ digits s.index ∈ s.ext u ∧
      run (List.replicate n (.gen pre pkg)) s = some (List.replicate n (u, pre ++ digits s.index), s) := by
  cases hf : (s.use pkg).find? (fun u => decide (pre ++ digits s.index ∈ s.ext u)) with
  | none =>
    rw [List.find?_eq_none] at hf
    obtain ⟨u, a, b⟩ := h2
    exact absurd b (by simpa using hf u a)
  | some u =>
    refine ⟨u, List.mem_of_find?_eq_some hf, by simpa using List.find?_some hf, ?_⟩
    have hg : gentemp ((s.own pkg).length + 1) s pre pkg = some ((u, pre ++ digits s.index), s) := by
      rw [gentemp, if_neg (by simpa [findSymbol] using h1)]
      unfold intern
      rw [if_neg h1, hf]
    induction n with
    | zero => rfl
    | succ n ih =>
      rw [List.replicate_succ, run, hg]
      simp only [ih]
      rfl

/-- a program in package 0, which uses package 1: T and T1 as prefixes, and a symbol T11 that is read -/
def start : St := ⟨0, fun p => if p = 0 then [[84, 48]] else [], fun _ => [], fun p => if p = 0 then [1] else []⟩
example : (run [.gen [84] 0, .gen [84, 49] 0, .read [84, 49, 49] 0, .gen [84] 0] start).map (·.1) =
    some [(0, [84, 49]), (0, [84, 49, 49]), (0, [84, 50])] := by
  simp [run, gentemp, findSymbol, intern, start, digits]

end Eus.Gtm
