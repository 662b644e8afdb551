import Verif.Utt.Spec
set_option autoImplicit false
namespace Eus.Utt
open Spec

/-! ### escape-xml-string -/

/-- The characters of one character of the text. -/
def ent (c : Nat) : List Nat :=
  if c = 60 then [38, 108, 116, 59] else if c = 62 then [38, 103, 116, 59]
  else if c = 38 then [38, 97, 109, 112, 59] else if c = 27 then [94] else [c]

theorem xml_eq (s : List Nat) : xml s = s.flatMap ent := rfl

theorem put_mid (a : List Nat) (x c : Nat) (b : List Nat) (i : Nat) (h : i = a.length) :
    put (a ++ x :: b) i c = some (a ++ c :: b) := by
  subst h
  unfold put
  rw [if_pos (by simp)]
  simp [List.set_append_right]

theorem escStep_spec (c : Nat) (a junk rest : List Nat) (h : junk.length = (ent c).length) :
    escStep c a.length (a ++ (junk ++ rest)) = some (a.length + (ent c).length - 1, (a ++ ent c) ++ rest) := by
  unfold escStep
  by_cases h1 : c = 60
  · subst h1
    match junk, h with
    | [x, y, z, w], _ =>
      have e1 := put_mid a x 38 (y :: z :: w :: rest) _ rfl
      have e2 := put_mid (a ++ [38]) y 108 (z :: w :: rest) (a.length + 1) (by simp)
      have e3 := put_mid (a ++ [38, 108]) z 116 (w :: rest) (a.length + 2) (by simp)
      have e4 := put_mid (a ++ [38, 108, 116]) w 59 rest (a.length + 3) (by simp)
      simp only [List.append_assoc, List.cons_append, List.nil_append] at e1 e2 e3 e4
      simp [e1, e2, e3, e4, ent]
  by_cases h2 : c = 62
  · subst h2
    match junk, h with
    | [x, y, z, w], _ =>
      have e1 := put_mid a x 38 (y :: z :: w :: rest) _ rfl
      have e2 := put_mid (a ++ [38]) y 103 (z :: w :: rest) (a.length + 1) (by simp)
      have e3 := put_mid (a ++ [38, 103]) z 116 (w :: rest) (a.length + 2) (by simp)
      have e4 := put_mid (a ++ [38, 103, 116]) w 59 rest (a.length + 3) (by simp)
      simp only [List.append_assoc, List.cons_append, List.nil_append] at e1 e2 e3 e4
      simp [e1, e2, e3, e4, ent]
  by_cases h3 : c = 38
  · subst h3
    match junk, h with
    | [x, y, z, w, v], _ =>
      have e1 := put_mid a x 38 (y :: z :: w :: v :: rest) _ rfl
      have e2 := put_mid (a ++ [38]) y 97 (z :: w :: v :: rest) (a.length + 1) (by simp)
      have e3 := put_mid (a ++ [38, 97]) z 109 (w :: v :: rest) (a.length + 2) (by simp)
      have e4 := put_mid (a ++ [38, 97, 109]) w 112 (v :: rest) (a.length + 3) (by simp)
      have e5 := put_mid (a ++ [38, 97, 109, 112]) v 59 rest (a.length + 4) (by simp)
      simp only [List.append_assoc, List.cons_append, List.nil_append] at e1 e2 e3 e4 e5
      simp [e1, e2, e3, e4, e5, ent]
  by_cases h4 : c = 27
  · subst h4
    match junk, h with
    | [x], _ =>
      have e1 := put_mid a x 94 rest _ rfl
      simp [e1, ent]
  · have he : ent c = [c] := by simp [ent, h1, h2, h3, h4]
    rw [he] at h ⊢
    match junk, h with
    | [x], _ =>
      have e1 := put_mid a x c rest _ rfl
      simp [h1, h2, h3, h4, e1]

theorem ent_pos (c : Nat) : 1 ≤ (ent c).length := by
  unfold ent; repeat' split
  all_goals simp

theorem escLoop_spec (s : List Nat) : ∀ (a junk : List Nat), junk.length = (s.flatMap ent).length →
    escLoop s a.length (a ++ junk) = some (a ++ s.flatMap ent) := by
  induction s with
  | nil => intro a junk h; simp at h; subst h; simp [escLoop]
  | cons c s ih =>
    intro a junk h
    simp only [List.flatMap_cons, List.length_append] at h
    have e : junk = junk.take (ent c).length ++ junk.drop (ent c).length := (List.take_append_drop _ _).symm
    have hs := escStep_spec c a (junk.take (ent c).length) (junk.drop (ent c).length)
      (by rw [List.length_take]; omega)
    rw [← e] at hs
    simp only [escLoop, hs, Option.bind_some]
    have hp := ent_pos c
    have := ih (a ++ ent c) (junk.drop (ent c).length) (by rw [List.length_drop]; omega)
    rw [List.length_append] at this
    rw [show a.length + (ent c).length - 1 + 1 = a.length + (ent c).length by omega, this]
    simp

theorem escape_len (s : List Nat) :
    s.length + s.count 60 * 3 + s.count 62 * 3 + s.count 38 * 4 = (s.flatMap ent).length := by
  induction s with
  | nil => rfl
  | cons c s ih =>
    simp only [List.flatMap_cons, List.length_append, List.length_cons, List.count_cons, ← ih]
    unfold ent
    by_cases h1 : c = 60
    · subst h1; simp; omega
    by_cases h2 : c = 62
    · subst h2; simp; omega
    by_cases h3 : c = 38
    · subst h3; simp; omega
    by_cases h4 : c = 27
    · subst h4; simp; omega
    · simp [h1, h2, h3, h4]; omega

theorem escape_eq (s : List Nat) : escape s = some (xml s) := by
  have := escLoop_spec s [] (List.replicate (s.length + s.count 60 * 3 + s.count 62 * 3 + s.count 38 * 4) 0)
    (by rw [List.length_replicate]; exact escape_len s)
  simpa [escape, xml_eq] using this

theorem unescape_ent (c : Nat) (r : List Nat) :
    unescape (ent c ++ r) = (if c = 27 then 94 else c) :: unescape r := by
  by_cases h1 : c = 60
  · subst h1; simp [ent, unescape]
  by_cases h2 : c = 62
  · subst h2; simp [ent, unescape]
  by_cases h3 : c = 38
  · subst h3; simp [ent, unescape]
  by_cases h4 : c = 27
  · subst h4; simp [ent, unescape]
  · have he : ent c = [c] := by simp [ent, h1, h2, h3, h4]
    rw [he, if_neg h4]
    show unescape (c :: r) = _
    rw [unescape]
    all_goals first | (intros; omega) | skip

theorem unescape_xml (s : List Nat) : unescape (xml s) = shown s := by
  rw [xml_eq]
  induction s with
  | nil => simp [shown, unescape]
  | cons c s ih => rw [List.flatMap_cons, unescape_ent, ih]; simp [shown]

theorem xml_plain (s : List Nat) : 60 ∉ xml s ∧ 62 ∉ xml s ∧ (34 ∉ s → 34 ∉ xml s) := by
  rw [xml_eq]
  have h : ∀ c, 60 ∉ ent c ∧ 62 ∉ ent c ∧ (c ≠ 34 → 34 ∉ ent c) := by
    intro c
    by_cases h1 : c = 60
    · subst h1; decide
    by_cases h2 : c = 62
    · subst h2; decide
    by_cases h3 : c = 38
    · subst h3; decide
    by_cases h4 : c = 27
    · subst h4; decide
    · have he : ent c = [c] := by simp [ent, h1, h2, h3, h4]
      rw [he]
      exact ⟨by simp; omega, by simp; omega, by simp; omega⟩
  refine ⟨?_, ?_, ?_⟩
  · simp only [List.mem_flatMap, not_exists, not_and]; exact fun c _ => (h c).1
  · simp only [List.mem_flatMap, not_exists, not_and]; exact fun c _ => (h c).2.1
  · intro hs
    simp only [List.mem_flatMap, not_exists, not_and]
    exact fun c hc => (h c).2.2 (fun e => hs (e ▸ hc))

/-! ### scanning -/

theorem fold_text (t : List (List Nat)) (s : List Nat) (h : 60 ∉ s) : s.foldl step (.text t) = .text t := by
  induction s with
  | nil => rfl
  | cons c s ih =>
    simp only [List.mem_cons, not_or] at h
    simp only [List.foldl_cons, step]
    rw [if_neg (fun e => h.1 e.symm)]
    exact ih h.2

theorem fold_quoted (t : List (List Nat)) (s : List Nat) (h : plain s) : ∀ cur,
    s.foldl step (.quoted t cur) = .quoted t (cur ++ s) := by
  induction s with
  | nil => intro cur; simp
  | cons c s ih =>
    intro cur
    obtain ⟨h1, h2⟩ := h
    simp only [List.mem_cons, not_or] at h1 h2
    simp only [List.foldl_cons, step]
    rw [if_neg (fun e => h2.1 e.symm), if_neg (fun e => h1.1 e.symm), ih ⟨h1.2, h2.2⟩]
    simp

theorem dec_plain (n : Nat) : plain (dec n) := by
  induction n using Nat.strongRecOn with
  | _ n ih =>
    unfold dec
    split
    · rename_i h
      constructor <;> simp <;> omega
    · rename_i h
      have h1 := ih (n / 10) (by omega)
      have : n % 10 < 10 := Nat.mod_lt _ (by omega)
      constructor
      · simp only [List.mem_append, List.mem_singleton, not_or]; exact ⟨h1.1, by omega⟩
      · simp only [List.mem_append, List.mem_singleton, not_or]; exact ⟨h1.2, by omega⟩

theorem printStr_plain (s : List Nat) (h : 34 ∉ s ∧ 92 ∉ s) : printStr s = 34 :: (s ++ [34]) := by
  unfold printStr
  have : (s.flatMap fun c => if c = 34 ∨ c = 92 then [92, c] else [c]) = s := by
    induction s with
    | nil => rfl
    | cons c s ih =>
      simp only [List.mem_cons, not_or] at h
      rw [List.flatMap_cons, if_neg (by omega), ih ⟨h.1.2, h.2.2⟩]
      rfl
  rw [this]; rfl

theorem printStr_not_lt (s : List Nat) (h : 60 ∉ s) : 60 ∉ printStr s := by
  unfold printStr
  simp only [List.cons_append, List.mem_cons, List.mem_append, List.mem_flatMap, List.not_mem_nil, not_or, or_false]
  refine ⟨by omega, ?_, by omega⟩
  rintro ⟨c, hc, hm⟩
  split at hm
  · rename_i h'
    simp at hm
    omega
  · simp at hm; exact h (hm ▸ hc)

end Eus.Utt
