import Verif.Str.Path
set_option autoImplicit false
/-
C45: comparison of strings.  C82: trimming.  C83: case.  C84: substringp.  C85: URL escapes.
C86: numbered file names.  C87: pathnames.
-/
namespace Eus.Str

/-! ### C45 -/

/-- The order: `string<` and its kin decide the lexicographic order of strings without zero bytes. -/
theorem C45_order_partial (s t : List Nat) (hs : NoNul s) (ht : NoNul t) :
    (STR_LT s t = true ↔ Before s t) ∧ (STR_LE s t = true ↔ Before s t ∨ s = t) ∧
    (STR_GT s t = true ↔ Before t s) ∧ (STR_GE s t = true ↔ Before t s ∨ s = t) := by
  obtain ⟨h1, h2, h3⟩ := strcmp_spec s t hs ht
  unfold STR_LT STR_LE STR_GT STR_GE
  simp only [decide_eq_true_eq]
  refine ⟨h1, ?_, h2, ?_⟩
  · rw [← h1, ← h3]; omega
  · rw [← h2, ← h3]; omega

example : STR_LT [97, 98] [97, 98, 99] = true ∧ STR_GT [200] [97, 98] = true ∧ Before [97, 98] [97, 98, 99] :=
  ⟨by decide, by decide, Or.inl ⟨99, [], rfl⟩⟩

/-- `string=` on whole strings of up to 100000000 characters, of any bytes. -/
theorem C45_eq_partial (s t : List Nat) (hs : s.length ≤ 100000000) (ht : t.length ≤ 100000000) : string_eq s t = .ok (decide (s = t)) :=
  string_eq_whole s t hs ht

/-- Exactly one of `string<`, `string=` and `string>` holds. -/
theorem C45_trichotomy_partial (s t : List Nat) (hs : NoNul s) (ht : NoNul t) (hs' : s.length ≤ 100000000) (ht' : t.length ≤ 100000000) :
    (STR_LT s t = true ∧ string_eq s t = .ok false ∧ STR_GT s t = false) ∨
    (STR_LT s t = false ∧ string_eq s t = .ok true ∧ STR_GT s t = false) ∨
    (STR_LT s t = false ∧ string_eq s t = .ok false ∧ STR_GT s t = true) := by
  obtain ⟨h1, h2, h3⟩ := strcmp_spec s t hs ht
  rw [string_eq_whole s t hs' ht']
  unfold STR_LT STR_GT
  rcases lt_trichotomy (strcmp s t) 0 with h | h | h
  · left
    refine ⟨by simpa using h, ?_, by simpa using le_of_lt h⟩
    rw [decide_eq_false (by rw [← h3]; omega)]
  · right; left
    refine ⟨by simp [h], ?_, by simp [h]⟩
    rw [decide_eq_true (h3.1 h)]
  · right; right
    refine ⟨by simpa using le_of_lt h, ?_, by simpa using h⟩
    rw [decide_eq_false (by rw [← h3]; omega)]

/-- `string=` with positions compares the parts they delimit. -/
theorem C45_bounds_partial (s t : List Nat) (i j k l : Nat) (h1 : i ≤ min j s.length) (h2 : k ≤ min l t.length) :
    string_eq s t i j k l = .ok (decide (Seg s i j = Seg t k l)) := by
  unfold string_eq
  rw [STRINGEQ_spec id s t i j k l h1 h2]
  simp

example : string_eq [97, 98, 99, 100] [120, 98, 99] 1 3 1 3 = .ok true := by decide

/-- `string-equal` compares letters without regard to their case. -/
theorem C45_equal_partial (s t : List Nat) (i j k l : Nat) (h1 : i ≤ min j s.length) (h2 : k ≤ min l t.length) :
    string_equal s t i j k l = .ok (decide ((Seg s i j).map up = (Seg t k l).map up)) := by
  unfold string_equal
  rw [STRINGEQ_spec fold s t i j k l h1 h2, show fold = up from funext fold_up]

example : string_equal [97, 66, 64] [65, 98, 64] = .ok true ∧ string_equal [97, 66, 64] [65, 98, 96] = .ok false := by decide

/-- `a\0b` and `a\0c`: different strings, and neither before the other, according to `string<` and
`string>`; both `string<=` and `string>=` hold. -/
theorem C45_nul_wrong : string_eq [97, 0, 98] [97, 0, 99] = .ok false ∧ Before [97, 0, 98] [97, 0, 99] ∧
    STR_LT [97, 0, 98] [97, 0, 99] = false ∧ STR_GE [97, 0, 98] [97, 0, 99] = true :=
  ⟨by decide, Or.inr ⟨[97, 0], 98, 99, [], [], rfl, rfl, by decide⟩, by decide, by decide⟩

/-- Strings that differ after 100000000 characters only are `string=`. -/
theorem C45_long_wrong (s : List Nat) (hs : s.length = 100000000) (c d : Nat) (hcd : c ≠ d) :
    string_eq (s ++ [c]) (s ++ [d]) = .ok true ∧ s ++ [c] ≠ s ++ [d] := by
  constructor
  · have := C45_bounds_partial (s ++ [c]) (s ++ [d]) 0 100000000 0 100000000 (by omega) (by omega)
    refine this.trans ?_
    congr 1
    rw [decide_eq_true_eq, Seg, Seg, List.take_append_of_le_length (by omega), List.take_append_of_le_length (by omega)]
  · simpa using hcd

/-- There are such strings. -/
example : ∃ s : List Nat, s.length = 100000000 := ⟨List.replicate 100000000 97, List.length_replicate⟩

/-- Positions are not checked: `(string= "abc" "xyz" :start1 5 :start2 5)` is true, and a start of -2
reads outside the string. -/
theorem C45_start_wrong : string_eq [97, 98, 99] [120, 121, 122] 5 100000000 5 100000000 = .ok true ∧
    string_eq [97, 98, 99] [97, 98, 99] (-2) 100000000 (-2) 100000000 = .ub := by decide

/-! ### C82 -/

/-- `string-trim`: the characters of the bag are gone from both ends, and nothing else. -/
theorem C82_trim_partial (bag str : List Nat) (hb : 0 ∉ bag) : ∃ r, string_trim bag str = .ok r ∧ Trimmed bag str r := trim_spec bag str hb

/-- `string-left-trim` and `string-right-trim` take the longest runs of characters of the bag. -/
theorem C82_left_right_partial (bag str : List Nat) (hb : 0 ∉ bag) :
    (∃ a r, string_left_trim bag str = .ok r ∧ str = a ++ r ∧ (∀ c ∈ a, c ∈ bag) ∧ ∀ c ∈ r.head?, c ∉ bag) ∧
    (∃ r b, string_right_trim bag str = .ok r ∧ str = r ++ b ∧ (∀ c ∈ b, c ∈ bag) ∧ ∀ c ∈ r.getLast?, c ∉ bag) := by
  constructor
  · exact ⟨str.takeWhile (· ∈ bag), str.dropWhile (· ∈ bag), left_trim_spec bag str hb, List.takeWhile_append_dropWhile.symm,
      takeWhile_mem bag str, head_dropWhile bag str⟩
  · refine ⟨str.rdropWhile (· ∈ bag), str.rtakeWhile (· ∈ bag), right_trim_spec bag str hb, (List.rdropWhile_append_rtakeWhile).symm, ?_, ?_⟩
    · intro c hc
      have := List.mem_rtakeWhile_imp hc
      simpa using this
    · intro c hc
      rw [List.rdropWhile, List.getLast?_reverse] at hc
      exact head_dropWhile _ _ c hc

example : string_trim [32, 46] [32, 46, 97, 32, 98, 46] = .ok [97, 32, 98] ∧ string_trim [32] [32, 32, 32] = .ok [] := by decide

/-- With a zero in the bag the ends of the string are not found. -/
theorem C82_nul_wrong : string_left_trim [0, 32] [32, 32] = .ub ∧ string_right_trim [0, 32] [32, 32] = .ub := by decide

/-! ### C83 -/

/-- `string-upcase` and `string-downcase` change exactly the letters between `start` and `end`. -/
theorem C83_case_partial (str : List Nat) (i j : Nat) (hj : j ≤ str.length) :
    string_upcase str i (some (j : Int)) = .ok (str.mapIdx fun n c => if i ≤ n ∧ n < j then up c else c) ∧
    string_downcase str i (some (j : Int)) = .ok (str.mapIdx fun n c => if i ≤ n ∧ n < j then low c else c) := by
  unfold string_upcase string_downcase
  rw [Option.getD_some, caseLoop_spec _ _ _ _ _ (by omega) hj, caseLoop_spec _ _ _ _ _ (by omega) hj,
    show char_upcase = up from funext upcase_up, show char_downcase = low from funext downcase_low]
  exact ⟨rfl, rfl⟩

/-- Without positions, the whole string. -/
theorem C83_whole (str : List Nat) : string_upcase str = .ok (str.map up) ∧ string_downcase str = .ok (str.map low) := by
  obtain ⟨h1, h2⟩ := C83_case_partial str 0 str.length (le_refl _)
  have e : ∀ f : Nat → Nat, (str.mapIdx fun n c => if 0 ≤ n ∧ n < str.length then f c else c) = str.map f := by
    intro f
    apply List.ext_getElem (by simp)
    intro n a b
    simp only [List.length_mapIdx] at a
    rw [List.getElem_mapIdx, if_pos (by omega), List.getElem_map]
  rw [e] at h1 h2
  exact ⟨h1, h2⟩

example : string_upcase [97, 98, 45, 99] 1 (some 4) = .ok [97, 66, 45, 67] := by decide

/-- An end beyond the string is not noticed: the functions write outside it. -/
theorem C83_end_wrong (str : List Nat) (j : Nat) (hj : str.length < j) : string_upcase str 0 (some (j : Int)) = .ub ∧ string_downcase str 0 (some (j : Int)) = .ub := by
  unfold string_upcase string_downcase
  exact ⟨caseLoop_ub _ 0 _ _ _ _ (by simp; omega), caseLoop_ub _ 0 _ _ _ _ (by simp; omega)⟩

/-! ### C84 -/

/-- `substringp` tells whether the first string occurs in the second, but for case. -/
theorem C84_substringp_partial (sub str : List Nat) (hs : sub.length ≤ 100000000) : ∃ b, substringp sub str = .ok b ∧ (b = true ↔ PartOf sub str) := by
  unfold substringp
  by_cases hle : sub.length ≤ str.length
  · obtain ⟨b, e1, e2⟩ := subLoop_spec sub str hs hle (str.length + 2) 0 (by omega) (by omega)
    refine ⟨b, e1, e2.trans ⟨?_, ?_⟩⟩
    · rintro ⟨k, -, h2, h3⟩
      refine ⟨str.take k, (str.drop k).take sub.length, (str.drop k).drop sub.length, ?_, h3⟩
      rw [List.append_assoc, List.take_append_drop, List.take_append_drop]
    · rintro ⟨a, m, b, rfl, hm⟩
      have hl := congrArg List.length hm
      simp only [List.length_map] at hl
      refine ⟨a.length, by omega, by simp; omega, ?_⟩
      rw [List.append_assoc, List.drop_left, ← hl, List.take_left, hm]
  · rw [subLoop, if_pos (by omega)]
    refine ⟨false, rfl, ?_⟩
    constructor
    · intro h; cases h
    · rintro ⟨a, m, b, rfl, hm⟩
      have hl := congrArg List.length hm
      simp only [List.length_map, List.length_append] at hl hle
      omega

example : substringp [66, 99] [97, 98, 67, 100] = .ok true ∧ substringp [98, 100] [97, 98, 67, 100] = .ok false := by decide

/-! ### C85 -/

/-- Escaping and unescaping give the text back, for every printer case and read base. -/
theorem C85_roundtrip_partial (base : Nat) (down queryp : Bool) (s : List Nat) (h : ∀ c ∈ s, c < 256 ∧ c ≠ 13) :
    unescape_url base queryp (escape_url down queryp s) = .ok s := unescape_escape base down queryp s h

example : escape_url true true [97, 32, 43, 37, 200] = [97, 43, 37, 50, 98, 37, 50, 53, 37, 99, 56] := by decide

/-- The escaped text consists of unreserved characters, `%` and `+`. -/
theorem C85_safe_partial (down queryp : Bool) (s : List Nat) (h : ∀ c ∈ s, c < 256 ∧ c ≠ 13) :
    ∀ c ∈ escape_url down queryp s, unreserved c = true ∨ c = 37 ∨ c = 43 := by
  intro c hc
  unfold escape_url at hc
  rw [List.mem_flatMap] at hc
  obtain ⟨d, hd, hc⟩ := hc
  obtain ⟨h1, h2⟩ := h d hd
  have key : ∀ (down : Bool) (d : Fin 256), ∀ c ∈ hex2 down d, unreserved c = true := by decide +kernel
  split at hc
  · rename_i hu
    simp only [List.mem_singleton] at hc
    subst hc; exact Or.inl hu
  · split at hc
    · simp only [List.mem_singleton] at hc; exact Or.inr (Or.inr hc)
    · rcases List.mem_cons.1 hc with hc | hc
      · exact Or.inr (Or.inl hc)
      · exact Or.inl (key down ⟨d, h1⟩ c hc)

/-- A carriage return becomes a newline, unescaped. -/
theorem C85_return_wrong : unescape_url 10 true (escape_url true true [97, 13, 10]) = .ok [97, 10, 10] ∧
    10 ∈ escape_url true true [97, 13, 10] := by decide

/-! ### C86 -/

/-- `digits-string` in base 10 writes the last digits of a number, exactly as many as asked for. -/
theorem C86_digits_partial (down : Bool) (d n : Nat) : ∃ ds, digits_string down (d + 1) n 10 = some ds ∧ ds.length = d + 1 ∧
    (∀ c ∈ ds, 48 ≤ c ∧ c ≤ 57) ∧ decVal ds = n % 10 ^ (d + 1) := digits_string_spec down d n

example : digits_string true 4 57 10 = some [48, 48, 53, 55] := by decide

/-- Numbers with at most as many digits give different file names. -/
theorem C86_distinct (down : Bool) (head ext : List Nat) (d m n : Nat) (hm : m < 10 ^ (d + 1)) (hn : n < 10 ^ (d + 1))
    (h : sequential_file_name down head m ext (d + 1) = sequential_file_name down head n ext (d + 1)) : m = n := by
  obtain ⟨ds, e1, l1, -, v1⟩ := digits_string_spec down d m
  obtain ⟨es, e2, l2, -, v2⟩ := digits_string_spec down d n
  unfold sequential_file_name at h
  rw [e1, e2] at h
  simp only [Option.map_some, Option.some.injEq, List.append_cancel_left_eq, List.append_assoc] at h
  have : ds = es := (List.append_inj h (by rw [l1, l2])).1
  rw [this, v2, Nat.mod_eq_of_lt hm, ] at v1
  rw [← v1, Nat.mod_eq_of_lt hn]

example : sequential_file_name true [97] 12 [108] = some [97, 48, 48, 49, 50, 46, 108] := by decide

/-- In another base: `(digits-string 255 2 16)` is "55", and `(digits-string 64 3 16)` "044". -/
theorem C86_base_wrong : digits_string true 2 255 16 = some [53, 53] ∧ digits_string true 3 64 16 = some [48, 52, 52] := by decide

/-! ### C87 -/

/-- The name of a parsed pathname is the text it was parsed from, with repeated slashes collapsed. -/
theorem C87_namestring_partial (s : List Nat) (hc : 58 ∉ s) (ht : s.head? ≠ some 126) : ∃ p, parse s = .ok p ∧ namestring p = collapse s := by
  by_cases h0 : s = []
  · subst h0; exact ⟨_, rfl, rfl⟩
  · obtain ⟨p, e, hp⟩ := parse_spec s h0 hc ht
    exact ⟨p, e, namestring_parsed hp⟩

/-- Parsing the name of a parsed pathname gives the same pathname. -/
theorem C87_parse_partial (s : List Nat) (hc : 58 ∉ s) (ht : s.head? ≠ some 126) : ∃ p, parse s = .ok p ∧ parse (namestring p) = .ok p := by
  by_cases h0 : s = []
  · subst h0; exact ⟨_, rfl, rfl⟩
  · obtain ⟨p, e, hp⟩ := parse_spec s h0 hc ht
    have hh := collapse_head? s
    obtain ⟨p', e', hp'⟩ := parse_spec (collapse s) (by intro h; rw [h] at hh; cases s <;> simp_all)
      (by rw [collapse_sq]; exact fun h => hc (mem_sq _ _ _ h)) (by rw [hh]; exact ht)
    refine ⟨p, e, ?_⟩
    rw [namestring_parsed hp, e']
    congr 1
    exact parsed_unique hp' hp (by rw [collapse_sq, collapse_sq]; exact (sq_idem s).2)

/-- "/a//b/c.tar.gz" -/
def pathEx : List Nat := [47, 97, 47, 47, 98, 47, 99, 46, 116, 97, 114, 46, 103, 122]

example : parse pathEx = .ok { directory := [.root, .name [97], .name [98]], name := some [99, 46, 116, 97, 114], type := some [103, 122] } := by
  decide

/-- What follows the last slash. -/
def lastPart : List Nat → List Nat
  | [] => []
  | c :: r => if c = 47 ∨ 47 ∈ r then lastPart r else c :: r

theorem mem_sq_false (r : List Nat) : 47 ∈ sq false r ↔ 47 ∈ r := by
  induction r with
  | nil => simp [sq]
  | cons c r ih =>
    by_cases hc : c = 47
    · simp [sq, hc]
    · simp [sq, hc, ih, Ne.symm hc]

theorem lastPart_sq (r : List Nat) : ∀ b, lastPart (sq b r) = lastPart r := by
  induction r with
  | nil => intro b; cases b <;> rfl
  | cons c r ih =>
    intro b
    by_cases hc : c = 47
    · subst hc
      cases b <;> simp [sq, lastPart, ih]
    · cases b <;> simp only [sq, hc, if_false, lastPart, false_or, mem_sq_false, ih] <;> by_cases hr : 47 ∈ r <;>
        simp [hr, sq_no]

theorem lastPart_no {w : List Nat} (h : 47 ∉ w) : lastPart w = w := by
  cases w with
  | nil => rfl
  | cons c r =>
    simp only [List.mem_cons, not_or] at h
    rw [lastPart, if_neg]
    rintro (h' | h')
    · exact h.1 h'.symm
    · exact h.2 h'

theorem lastPart_join : ∀ (L : List (List Nat)) (w : List Nat), 47 ∉ w → lastPart (join L ++ w) = w
  | [], w, h => lastPart_no h
  | v :: L, w, h => by
    have ih := lastPart_join L w h
    rw [join]
    have : ∀ v : List Nat, lastPart (v ++ 47 :: (join L ++ w)) = lastPart (join L ++ w) := by
      intro v
      induction v with
      | nil => simp [lastPart]
      | cons c v ihv => rw [List.cons_append, lastPart, if_pos (by simp), ihv]
    rw [List.append_assoc, List.cons_append, this, ih]

/-- The components of a parsed pathname: the directory begins with the root exactly when the text begins with a slash, and its names are not
empty and have no slash.  When what follows the last slash is ".." or has no period, it is the name, and there is no type; otherwise the last period
separates the name from the type. -/
theorem C87_components_partial (s : List Nat) (hc : 58 ∉ s) (ht : s.head? ≠ some 126) (h0 : s ≠ []) :
    ∃ p, parse s = .ok p ∧
      (∃ L : List (List Nat), p.directory = (if s.head? = some 47 then [.root] else []) ++ L.map .name ∧ ∀ d ∈ L, d ≠ [] ∧ 47 ∉ d) ∧
      (lastPart s = [46, 46] ∨ 46 ∉ lastPart s → p.name = (if lastPart s = [] then none else some (lastPart s)) ∧ p.type = none) ∧
      (∀ a b, lastPart s ≠ [46, 46] → lastPart s = a ++ 46 :: b → 46 ∉ b → p.name = (if a = [] then none else some a) ∧ p.type = some b) := by
  obtain ⟨p, e, hp⟩ := parse_spec s h0 hc ht
  obtain ⟨L, w, h1, h2, h3, h4, h5⟩ := hp.parts
  have hw : lastPart s = w := by
    have := congrArg lastPart h4
    rw [lastPart_join L w h3, lastPart_sq] at this
    rw [this]
    split
    · next hh =>
      cases s with
      | nil => simp at hh
      | cons c r =>
        simp only [List.head?_cons, Option.some.injEq] at hh
        subst hh
        simp [lastPart]
    · rfl
  refine ⟨p, e, ⟨L, h1, h2⟩, ?_, ?_⟩
  · rw [hw]
    rintro (h | h)
    · obtain ⟨ha, hb⟩ := h5.dots h
      rw [ha, h]; exact ⟨by simp, hb⟩
    · by_cases hd : w = [46, 46]
      · rw [hd] at h; simp at h
      · exact h5.nodot hd h
  · rw [hw]
    intro a b hd hab hb
    exact h5.dot a b hd hab hb

example : lastPart pathEx = [99, 46, 116, 97, 114] ++ 46 :: [103, 122] := by decide

/-- Defaults fill in what is missing; merging with several defaults does not depend on the grouping. -/
theorem C87_merge (p d e : Path) :
    (∀ v, p.host = some v → (merge p d).host = some v) ∧ (p.host = none → (merge p d).host = d.host) ∧
    (∀ v, p.device = some v → (merge p d).device = some v) ∧ (p.device = none → (merge p d).device = d.device) ∧
    (p.directory ≠ [] → (merge p d).directory = p.directory) ∧ (p.directory = [] → (merge p d).directory = d.directory) ∧
    (∀ v, p.name = some v → (merge p d).name = some v) ∧ (p.name = none → (merge p d).name = d.name) ∧
    (∀ v, p.type = some v → (merge p d).type = some v) ∧ (p.type = none → (merge p d).type = d.type) ∧
    (∀ v, p.version = some v → (merge p d).version = some v) ∧ (p.version = none → (merge p d).version = d.version) ∧
    merge (merge p d) e = merge p (merge d e) ∧ merge p p = p := by
  refine ⟨?_, ?_, ?_, ?_, ?_, ?_, ?_, ?_, ?_, ?_, ?_, ?_, ?_⟩
  iterate 12 (simp +contextual [merge])
  constructor
  · unfold merge
    simp only [Path.mk.injEq, Option.or_assoc, true_and, and_true]
    by_cases h : p.directory = []
    · simp [h]
    · simp [h]
  · unfold merge
    cases p
    simp

example : namestring (merge { name := some [97] } { directory := [.root], name := some [98], type := some [108] }) = [47, 97, 46, 108] := by decide

/-- The colon after the host is lost: "h:a" gives "ha"; and "h:" is an error. -/
theorem C87_host_wrong : (∃ p, parse [104, 58, 97] = .ok p ∧ namestring p = [104, 97]) ∧ parse [104, 58] = .err :=
  ⟨⟨_, rfl, rfl⟩, rfl⟩

end Eus.Str
