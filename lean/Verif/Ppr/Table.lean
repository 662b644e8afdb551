import Mathlib.Data.List.Basic
import Verif.Ppr.Spec
set_option autoImplicit false
/-
`tprint` (lisp/l/pprint.l:145-160): the objects of a list in columns.

An object is the text `princ` writes for it; its `print-size` is the number of characters of that text.  For symbols
and strings this is so (lispio.c:141-142, `C174_print_size` below); for other objects `print-size` estimates.
-/
namespace Eus.Ppr.Tab

/-- pprint.l:154: the width of the column for an object. -/
def leng (tab : Nat) (x : List Nat) : Nat := tab * (1 + x.length / tab)

/-- pprint.l:158-159: `(princ one-obj) (spaces (- leng size))` -/
def cell (tab : Nat) (x : List Nat) : List Nat := x ++ List.replicate (leng tab x - x.length) 32

/-- pprint.l:150-160, the loop; `rest` is the room on the line. -/
def loop (tab indent : Nat) (platen : Int) : List (List Nat) → Int → List Nat
  | [], _ => []
  | x :: xs, rest =>
    if (leng tab x : Int) > rest then
      -- pprint.l:155-157: `(terpri) (spaces indent)`; `rest` is `platen - pos` with `pos` already `indent`
      (10 :: List.replicate indent 32) ++ (cell tab x ++ loop tab indent platen xs (platen - indent - leng tab x))
    else cell tab x ++ loop tab indent platen xs (rest - leng tab x)

/-- pprint.l:145-160 `(tprint obj tab indent platen cpos)`, for `tab` positive. -/
def tprint (xs : List (List Nat)) (tab : Nat) (indent : Nat := 0) (platen : Int := 79) (cpos : Nat := 0) : List Nat :=
  List.replicate (indent - cpos) 32 ++ loop tab indent platen xs (platen - indent)

/-! ### The table -/

/-- A cell: the text and spaces, at least one, up to the next multiple of `tab`. -/
def IsCell (tab : Nat) (x c : List Nat) : Prop :=
  ∃ k, c = x ++ List.replicate k 32 ∧ 1 ≤ k ∧ k ≤ tab ∧ tab ∣ c.length

/-- Lines of cells, no cell on a line that could have been on the line before, no line but of one object wider than
`room`. -/
structure IsTable (tab : Nat) (room : Int) (xs : List (List Nat)) (lines : List (List (List Nat))) : Prop where
  /-- the cells, line after line, are those of the objects in turn -/
  cells : List.Forall₂ (IsCell tab) xs lines.flatten
  /-- there is a first line -/
  first : lines ≠ []
  /-- the others are not empty -/
  others : ∀ l ∈ lines.tail, l ≠ []
  /-- no line is wider than the room, unless it has only one cell or none -/
  width : ∀ l ∈ lines, (l.flatten.length : Int) ≤ room ∨ l.length ≤ 1
  /-- each line is full: the next cell would not fit -/
  greedy : ∀ a b l l', lines = a ++ l :: l' :: b → ∀ c ∈ l'.head?, room < (l.flatten.length + c.length : Nat)

/-- The text of the lines: each but the first after a newline and `indent` spaces. -/
def text (indent : Nat) : List (List (List Nat)) → List Nat
  | [] => []
  | [l] => l.flatten
  | l :: r => l.flatten ++ (10 :: List.replicate indent 32) ++ text indent r

theorem leng_cell (tab : Nat) (ht : 0 < tab) (x : List Nat) : (cell tab x).length = leng tab x ∧ IsCell tab x (cell tab x) := by
  have h1 : x.length < leng tab x := by
    unfold leng; rw [Nat.mul_add, Nat.mul_one]
    have := Nat.div_add_mod x.length tab
    have := Nat.mod_lt x.length ht
    omega
  have h2 : leng tab x ≤ x.length + tab := by
    unfold leng; rw [Nat.mul_add, Nat.mul_one]
    have := Nat.div_add_mod x.length tab
    omega
  have h3 : (cell tab x).length = leng tab x := by
    unfold cell; rw [List.length_append, List.length_replicate]; omega
  exact ⟨h3, _, rfl, by omega, by omega, by rw [h3]; exact ⟨_, rfl⟩⟩

/-- The loop with a line begun: `l` is what is on it. -/
theorem loop_table (tab indent : Nat) (platen : Int) (ht : 0 < tab) (xs : List (List Nat)) :
    ∀ (l : List (List Nat)), ((l.flatten.length : Int) ≤ platen - indent ∨ l.length ≤ 1) →
      ∃ m ls, loop tab indent platen xs (platen - indent - l.flatten.length) = text indent (m :: ls) ∧
        List.Forall₂ (IsCell tab) xs ((m :: ls).flatten) ∧ (∀ k ∈ ls, k ≠ []) ∧
        (∀ k ∈ (l ++ m) :: ls, (k.flatten.length : Int) ≤ platen - indent ∨ k.length ≤ 1) ∧
        (∀ a b k k', (l ++ m) :: ls = a ++ k :: k' :: b → ∀ c ∈ k'.head?, platen - indent < (k.flatten.length + c.length : Nat)) := by
  induction xs with
  | nil =>
    intro l hl
    refine ⟨[], [], rfl, by simp, by simp, by simpa using hl, ?_⟩
    intro a b k k' h
    have := congrArg List.length h
    simp at this
    omega
  | cons x xs ih =>
    intro l hl
    obtain ⟨hc, hcell⟩ := leng_cell tab ht x
    rw [loop]
    split
    · rename_i hgt
      obtain ⟨m, ls, e, h1, h2, h3, h4⟩ := ih [cell tab x] (Or.inr (Nat.le_refl 1))
      simp only [List.flatten_cons, List.flatten_nil, List.append_nil, hc] at e
      rw [e]
      refine ⟨[], (cell tab x :: m) :: ls, ?_, ?_, ?_, ?_, ?_⟩
      · cases ls <;> simp [text]
      · simpa using ⟨hcell, by simpa using h1⟩
      · intro k hk
        rcases List.mem_cons.1 hk with rfl | hk
        · simp
        · exact h2 k hk
      · intro k hk
        rcases List.mem_cons.1 hk with rfl | hk
        · simpa using hl
        · exact h3 k hk
      · intro a b k k' h c hcm
        cases a with
        | nil =>
          simp only [List.nil_append, List.append_nil, List.cons.injEq] at h
          obtain ⟨rfl, rfl, _⟩ := h
          simp only [List.head?_cons, Option.mem_some_iff] at hcm
          subst hcm
          rw [hc]; push_cast; omega
        | cons a0 a =>
          simp only [List.cons_append, List.cons.injEq] at h
          exact h4 a b k k' h.2 c hcm
    · rename_i hgt
      have hfl : (l ++ [cell tab x]).flatten.length = l.flatten.length + leng tab x := by simp [hc]
      obtain ⟨m, ls, e, h1, h2, h3, h4⟩ := ih (l ++ [cell tab x]) (Or.inl (by rw [hfl]; push_cast; omega))
      rw [hfl] at e
      have e' : loop tab indent platen xs (platen - indent - l.flatten.length - leng tab x) = text indent (m :: ls) := by
        rw [← e]; congr 1; push_cast; omega
      rw [e']
      refine ⟨cell tab x :: m, ls, ?_, ?_, h2, ?_, ?_⟩
      · cases ls <;> simp [text]
      · simpa using ⟨hcell, by simpa using h1⟩
      · simpa using h3
      · simpa using h4

/-- **C174**: `tprint` writes the objects in order, each padded with at least one space to a multiple of `tab`, in lines
of at most `platen - indent` columns after the indentation (a wider object has a line of its own), and begins a new
line only when the next column does not fit. -/
theorem C174_table (xs : List (List Nat)) (tab indent cpos : Nat) (platen : Int) (ht : 0 < tab) :
    ∃ lines, IsTable tab (platen - indent) xs lines ∧
      tprint xs tab indent platen cpos = List.replicate (indent - cpos) 32 ++ text indent lines := by
  obtain ⟨m, ls, e, h1, h2, h3, h4⟩ := loop_table tab indent platen ht xs [] (Or.inr (by simp))
  simp only [List.flatten_nil, List.length_nil, Int.natCast_zero, Int.sub_zero] at e
  exact ⟨m :: ls, ⟨h1, by simp, by simpa using h2, by simpa using h3, by simpa using h4⟩, by rw [tprint, e]⟩

example : tprint [nm "alpha", nm "b", nm "gamma-ray", nm "d"] 6 2 22 =
    nm "  alpha b     \n  gamma-ray   d     " := by decide +kernel

/-- `print-size` is the number of characters for symbols and strings. -/
theorem C174_print_size (fbound : Rd.T → Bool) (p : Rd.PCfg) (x : Rd.T) (h : (∃ n, x = .sym n) ∨ ∃ s, x = .str s) :
    ∃ txt, princ p x = .ok txt ∧ size (real fbound) x = .ok txt.length := by
  rcases h with ⟨n, rfl⟩ | ⟨s, rfl⟩
  · refine ⟨_, rfl, ?_⟩
    simp [size, real, prnt, atomSize]
  · refine ⟨_, rfl, ?_⟩
    simp [size, real, prnt, atomSize]

/-- A first object that is too wide leaves an empty line. -/
example : tprint [nm "abc"] 4 0 3 = nm "\nabc " := by decide +kernel

end Eus.Ppr.Tab
