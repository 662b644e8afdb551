import Verif.Htm.Spec
set_option autoImplicit false
/-
C216: HTML.
-/
namespace Eus.Htm

theorem loop_nil (all s : List Char) : skipLoop all [] s = s := by
  unfold skipLoop; rfl

theorem loop_end (all left : List Char) : skipLoop all left [] = [] := by
  cases left <;> unfold skipLoop <;> rfl

theorem loop_hit (all left s : List Char) (c : Char) : skipLoop all (c :: left) (c :: s) = skipLoop all left s := by
  rw [skipLoop, if_pos rfl]

theorem loop_miss (all left s : List Char) (c d : Char) (h : d ≠ c) : skipLoop all (c :: left) (d :: s) = skipLoop all all s := by
  rw [skipLoop, if_neg h]

/-- no three dashes -/
def NoDashes : List Char → Prop
  | [] => True
  | c :: l => (c = '-' → ∀ r, l ≠ '-' :: '-' :: r) ∧ NoDashes l

/-- no end of a comment -/
def NoEnd : List Char → Prop
  | [] => True
  | c :: l => (c = '-' → ∀ r, l ≠ '-' :: '>' :: r) ∧ NoEnd l

theorem skip_all (rest : List Char) : ∀ (n : Nat) (s : List Char), s.length ≤ n → NoEnd s → NoDashes (s ++ ['-', '-']) → skipLoop ['-', '-', '>'] ['-', '-', '>'] (s ++ '-' :: '-' :: '>' :: rest) = rest := by
  intro n
  induction n with
  | zero =>
    intro s hl _ _
    have : s = [] := List.length_eq_zero_iff.1 (by omega)
    subst this
    simp only [List.nil_append]
    rw [loop_hit, loop_hit, loop_hit, loop_nil]
  | succ n ih =>
    intro s hl he hd
    cases s with
    | nil =>
      simp only [List.nil_append]
      rw [loop_hit, loop_hit, loop_hit, loop_nil]
    | cons a s =>
      simp only [List.length_cons] at hl
      simp only [List.cons_append] at hd ⊢
      obtain ⟨e1, e2⟩ := he
      obtain ⟨d1, d2⟩ := hd
      by_cases ha : a = '-'
      · subst ha
        rw [loop_hit]
        cases s with
        | nil => exact absurd rfl (d1 rfl [])
        | cons b s =>
          simp only [List.length_cons] at hl
          simp only [List.cons_append] at d1 d2 ⊢
          obtain ⟨f1, f2⟩ := e2
          obtain ⟨c1, c2⟩ := d2
          by_cases hb : b = '-'
          · subst hb
            rw [loop_hit]
            cases s with
            | nil => exact absurd rfl (d1 (by simp) ['-'])
            | cons c s =>
              simp only [List.length_cons] at hl
              simp only [List.cons_append] at *
              have hc : c ≠ '>' := fun e => e1 (by simp) s (by rw [e])
              rw [loop_miss _ _ _ _ _ hc]
              exact ih s (by omega) f2.2 c2.2
          · rw [loop_miss _ _ _ _ _ hb]
            exact ih s (by omega) f2 c2
      · rw [loop_miss _ _ _ _ _ ha]
        exact ih s (by omega) e2 d2

/-- C216.  A comment is skipped to its end `-->`, if there are no three dashes in a row. -/
theorem C216_comment_partial (s rest : List Char) (he : NoEnd s) (hd : NoDashes (s ++ ['-', '-'])) : skipComment (s ++ '-' :: '-' :: '>' :: rest) = rest :=
  skip_all rest s.length s (Nat.le_refl _) he hd

/-- C216 fails: the end of a comment is missed after another dash; all that follows up to the end of the next comment is lost, and everything if there is none. -/
theorem C216_comment_wrong (rest : List Char) : skipComment ('-' :: '-' :: '-' :: '>' :: rest) = skipComment rest ∧
    ((∀ c ∈ rest, c ≠ '-') → skipComment ('-' :: '-' :: '-' :: '>' :: rest) = []) := by
  have h1 : skipComment ('-' :: '-' :: '-' :: '>' :: rest) = skipComment rest := by
    unfold skipComment
    rw [loop_hit, loop_hit, loop_miss _ _ _ _ _ (by decide), loop_miss _ _ _ _ _ (by decide)]
  refine ⟨h1, ?_⟩
  intro h
  rw [h1]
  unfold skipComment
  clear h1
  induction rest with
  | nil => exact loop_end _ _
  | cons c l ih =>
    rw [loop_miss _ _ _ _ _ (h c List.mem_cons_self)]
    exact ih (fun d hd => h d (List.mem_cons_of_mem _ hd))

theorem slash_ne (t : String) : "/" ++ t ≠ t := by
  intro h
  have := congrArg String.length h
  rw [String.length_append] at this
  have h1 : ("/" : String).length = 1 := by decide
  omega

theorem loop_out (t : String) : ∀ (l rest : List Item) (result : List (List Item)), (∀ i ∈ l, Other t i) →
    extractLoop t (l ++ rest) false [] result = extractLoop t rest false [] result := by
  intro l
  induction l with
  | nil => intro rest result _; rfl
  | cons i l ih =>
    intro rest result h
    have hi := h i List.mem_cons_self
    have hl := ih rest result (fun j hj => h j (List.mem_cons_of_mem _ hj))
    cases i with
    | tag n a =>
      simp only [Other] at hi
      simp only [List.cons_append, extractLoop]
      rw [if_neg hi.1, if_neg hi.2]
      simpa using hl
    | text s => simp only [List.cons_append, extractLoop]; simpa using hl

theorem loop_in (t : String) : ∀ (l rest res : List Item) (result : List (List Item)), (∀ i ∈ l, Other t i) →
    extractLoop t (l ++ rest) true res result = extractLoop t rest true (l.reverse ++ res) result := by
  intro l
  induction l with
  | nil => intro rest res result _; rfl
  | cons i l ih =>
    intro rest res result h
    have hi := h i List.mem_cons_self
    have hl := ih rest (i :: res) result (fun j hj => h j (List.mem_cons_of_mem _ hj))
    rw [List.reverse_cons, List.append_assoc, List.singleton_append, ← hl]
    cases i with
    | tag n a =>
      simp only [Other] at hi
      simp only [List.cons_append, extractLoop]
      rw [if_neg hi.1, if_neg hi.2]
      simp
    | text s => simp only [List.cons_append, extractLoop]; simp

theorem loop_doc (t : String) : ∀ (l : List (List String × List Item × List Item)) (before : List Item) (result : List (List Item)), (∀ i ∈ before, Other t i) →
    (∀ p ∈ l, (∀ i ∈ p.2.1, Other t i) ∧ ∀ i ∈ p.2.2, Other t i) →
    extractLoop t (document t before l) false [] result = result.reverse ++ l.map (fun p => p.2.1) := by
  intro l
  induction l with
  | nil =>
    intro before result hb _
    have := loop_out t before [] result hb
    rw [List.append_nil] at this
    simp only [document, this, extractLoop, List.map_nil, List.append_nil]
  | cons p l ih =>
    intro before result hb hl
    obtain ⟨args, inside, after⟩ := p
    obtain ⟨h1, h2⟩ := hl _ List.mem_cons_self
    simp only at h1 h2
    have e : document t before ((args, inside, after) :: l) = before ++ (Item.tag t args :: (inside ++ (Item.tag ("/" ++ t) [] :: document t after l))) := by
      simp [document]
    rw [e, loop_out t before _ result hb]
    rw [extractLoop, if_pos rfl, loop_in t inside _ _ _ h1]
    rw [extractLoop, if_neg (slash_ne t), if_pos rfl]
    rw [ih after _ h2 (fun q hq => hl q (List.mem_cons_of_mem _ hq))]
    simp

/-- C216.  extract-html gives what is inside of each element with the tag, in order, if the elements are not nested. -/
theorem C216_extract_partial (t : String) (before : List Item) (l : List (List String × List Item × List Item)) (hb : ∀ i ∈ before, Other t i)
    (hl : ∀ p ∈ l, (∀ i ∈ p.2.1, Other t i) ∧ ∀ i ∈ p.2.2, Other t i) : extractHtml t (document t before l) = l.map (fun p => p.2.1) := by
  unfold extractHtml
  rw [loop_doc t l before [] hb hl]
  rfl

/-- C216 fails for nested elements: the rest of the outer element after the inner one is lost, and an empty list is added. -/
theorem C216_nested_wrong (t : String) (a b c : List Item) (ha : ∀ i ∈ a, Other t i) (hb : ∀ i ∈ b, Other t i) (hc : ∀ i ∈ c, Other t i) :
    extractHtml t (.tag t [] :: (a ++ (.tag t [] :: (b ++ (.tag ("/" ++ t) [] :: (c ++ [.tag ("/" ++ t) []])))))) = [a ++ b, []] := by
  unfold extractHtml
  rw [extractLoop, if_pos rfl, loop_in t a _ _ _ ha, extractLoop, if_pos rfl, loop_in t b _ _ _ hb, extractLoop, if_neg (slash_ne t), if_pos rfl,
    loop_out t c _ _ hc, extractLoop, if_neg (slash_ne t), if_pos rfl, extractLoop]
  simp

/-- C216.  remove-html-tags leaves exactly the texts, in order. -/
theorem C216_remove_tags (l : List Item) : removeTags l = l.filterMap (fun i => match i with | .tag _ _ => none | .text s => some (.text s)) := by
  unfold removeTags
  induction l with
  | nil => rfl
  | cons i l ih => cases i <;> simp [ih]

/-- C216.  A format string made with escape-tilda is shown as the text. -/
theorem C216_tilda (s : List Char) : shown (escapeTilda s) = some s := by
  induction s with
  | nil => rfl
  | cons c s ih =>
    unfold escapeTilda
    split
    · rename_i h
      subst h
      simp [shown, ih]
    · rename_i h
      rw [shown]
      · rw [ih]; rfl
      · intro l e; exact absurd e h
      · intro e; exact absurd e h

/-- C216.  transpose-list: element j of row i is element i of row j, and there are as many rows as the first row has elements. -/
theorem C216_transpose {α : Type} (s : List (List (Option α))) (i j : Nat) :
    (transposeList s).length = (s.headD []).length ∧
    (i < (s.headD []).length → j < s.length → (((transposeList s)[i]?.getD [])[j]?).join = ((s[j]?.getD [])[i]?).join) := by
  unfold transposeList
  constructor
  · simp
  · intro hi hj
    rw [List.getElem?_map, List.getElem?_range hi]
    simp only [Option.map_some, Option.getD_some, List.getElem?_map]
    rw [List.getElem?_eq_getElem hj]
    simp

/-- C216.  Transposing a table twice gives it again, if it has a row that is not empty and all rows are of the same length. -/
theorem C216_transpose_twice_partial {α : Type} (r : List (Option α)) (s : List (List (Option α))) (h0 : 0 < r.length) (h : ∀ x ∈ s, x.length = r.length) :
    transposeList (transposeList (r :: s)) = r :: s := by
  have hlen : ∀ x ∈ r :: s, x.length = r.length := by
    intro x hx
    rcases List.mem_cons.1 hx with e | e
    · rw [e]
    · exact h x e
  have hh : ((transposeList (r :: s)).headD []).length = (r :: s).length := by
    unfold transposeList
    simp only [List.headD_cons]
    cases hr : r.length with
    | zero => omega
    | succ n => simp [List.range_succ_eq_map]
  apply List.ext_getElem?
  intro j
  rw [show transposeList (transposeList (r :: s)) = (List.range ((transposeList (r :: s)).headD []).length).map (fun i => (transposeList (r :: s)).map (fun row => (row[i]?).join)) from rfl, hh, List.getElem?_map]
  by_cases hj : j < (r :: s).length
  · rw [List.getElem?_range hj, List.getElem?_eq_getElem hj]
    simp only [Option.map_some, Option.some.injEq]
    unfold transposeList
    simp only [List.headD_cons, List.map_map]
    apply List.ext_getElem?
    intro i
    rw [List.getElem?_map]
    have hl := hlen _ (List.getElem_mem hj)
    by_cases hi : i < r.length
    · rw [List.getElem?_range hi]
      simp only [Option.map_some, Function.comp, List.getElem?_map]
      rw [List.getElem?_eq_getElem hj]
      simp only [Option.map_some, Option.join_some]
      rw [List.getElem?_eq_getElem (by omega)]
      rfl
    · rw [List.getElem?_eq_none (by simpa using hi), List.getElem?_eq_none (by omega)]
      rfl
  · rw [List.getElem?_eq_none (by simpa using hj), List.getElem?_eq_none (by simpa using hj)]
    rfl

/-- C216 fails for a table whose first row is shorter: what is longer is lost. -/
theorem C216_transpose_wrong {α : Type} (s : List (List (Option α))) : transposeList ([] :: s) = [] := rfl

example : skipComment " a - b -- c -->x".toList = "x".toList := by
  apply C216_comment_partial " a - b -- c ".toList "x".toList
  · simp [NoEnd]
  · simp [NoDashes]
example : extractHtml "b" [.text "x", .tag "b" [], .text "y", .tag "i" [], .tag "/b" [], .text "z", .tag "b" ["k"], .tag "/b" []] = [[.text "y", .tag "i" []], []] := by decide
example : escapeTilda "a~b".toList = "a~~b".toList := by decide
example : transposeList [[some 1, some 2], [some 3, some 4], [some 5, some 6]] = [[some 1, some 3, some 5], [some 2, some 4, some 6]] := by decide

end Eus.Htm
