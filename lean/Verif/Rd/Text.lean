import Verif.Rd.Ints
set_option autoImplicit false
namespace Eus.Rd
open Eus.Num

/-! ### strings -/

theorem sgl_iff (c : Nat) : syntaxtype c = .sglescape ↔ c = 92 := by
  constructor
  · intro h
    unfold syntaxtype chartype at h
    by_contra hc
    split_ifs at h
  · rintro rfl; rfl

theorem readstring_body (s rest : List Nat) : readstring (strBody s ++ 34 :: rest) = (s, rest) := by
  induction s with
  | nil => rw [strBody, List.nil_append, readstring.eq_def]; simp only [if_true]
  | cons c s ih =>
    rw [strBody]
    by_cases h : c = 34 ∨ c = 92
    · rw [if_pos h]
      have e : [92, c] ++ strBody s ++ 34 :: rest = 92 :: c :: (strBody s ++ 34 :: rest) := by simp
      rw [e, readstring.eq_def]
      simp only
      rw [if_neg (by decide), if_pos (show syntaxtype 92 = .sglescape from rfl), ih]
    · rw [if_neg h]
      have e : [c] ++ strBody s ++ 34 :: rest = c :: (strBody s ++ 34 :: rest) := by simp
      rw [e, readstring.eq_def]
      simp only
      rw [if_neg (by omega), if_neg (by rw [sgl_iff]; omega), ih]

theorem read1_string (base n : Nat) (s rest : List Nat) :
    read1 base (n + 1) (printstr s ++ rest) = (.val (.str s), rest) := by
  have e : printstr s ++ rest = 34 :: (strBody s ++ 34 :: rest) := by simp [printstr]
  have h34 : syntaxtype 34 = .termmacro := rfl
  rw [e, read1.eq_def]
  simp only [h34]
  rw [readstring_body]
  simp

/-! ### the printer's buffer -/

/-- the characters written for one character of a name -/
def escChar (lower : Bool) (c : Nat) : List Nat :=
  if chartype c = .multiescape then [92, if lower then to_lower c else c]
  else [if lower then to_lower c else c]

theorem multi_iff (c : Nat) : chartype c = .multiescape ↔ c = 124 := by
  constructor
  · intro h
    unfold chartype at h
    by_contra hc
    split_ifs at h
  · rintro rfl; rfl

theorem fillB_spec (lower : Bool) : ∀ (s : List Nat) (i : Nat),
    (i + s.length ≤ 255 + i ∧ s.length ≤ 255 ∨ 124 ∉ s) →
    ∃ a b, s = a ++ b ∧ fillB lower i s = some (a.flatMap (escChar lower), b) ∧
      (i < s.length → i < 256 → a ≠ [])
  | [], i, _ => ⟨[], [], rfl, rfl, fun h => by simp at h⟩
  | c :: s, i, h => by
    rw [fillB]
    by_cases hc : i < s.length + 1 ∧ i < 256
    · rw [if_pos hc]
      have he : (if chartype c = CT.multiescape then [92, if lower = true then to_lower c else c]
          else [if lower = true then to_lower c else c]) = escChar lower c := rfl
      have hno : ¬ (i + (escChar lower c).length > 256) := by
        unfold escChar
        rcases h with h | h
        · simp only [List.length_cons] at h
          split_ifs <;> simp <;> omega
        · have : chartype c ≠ .multiescape := by
            rw [Ne, multi_iff]; rintro rfl; simp at h
          rw [if_neg this]; simp; omega
      simp only [he]
      rw [if_neg hno]
      obtain ⟨a, b, e1, e2, _⟩ := fillB_spec lower s (i + (escChar lower c).length) (by
        rcases h with h | h
        · left; simp only [List.length_cons] at h; omega
        · right; intro hm; exact h (by simp [hm]))
      refine ⟨c :: a, b, by rw [e1]; rfl, ?_, fun _ _ => by simp⟩
      rw [e2]; simp
    · rw [if_neg hc]
      exact ⟨[], c :: s, rfl, rfl, fun h1 h2 => absurd ⟨by simpa using h1, h2⟩ hc⟩

theorem symBody_spec (lower : Bool) : ∀ (n : Nat) (s : List Nat), s.length ≤ n →
    (s.length ≤ 255 ∨ 124 ∉ s) → symBody lower n s = some (s.flatMap (escChar lower))
  | _, [], _, _ => by unfold symBody; rfl
  | 0, _ :: _, h, _ => by simp at h
  | n + 1, c :: s, h, hb => by
    rw [symBody]
    obtain ⟨a, b, e1, e2, e3⟩ := fillB_spec lower (c :: s) 0 (by
      rcases hb with hb | hb
      · left; omega
      · right; exact hb)
    have ha := e3 (by simp) (by omega)
    rw [e2]
    have hlen : (c :: s).length = a.length + b.length := by rw [e1]; simp
    have hpos : 0 < a.length := List.length_pos_iff.2 ha
    simp only
    rw [symBody_spec lower n b (by omega) (by
      rcases hb with hb | hb
      · left; omega
      · right; intro hm; apply hb; rw [e1]; simp [hm])]
    simp [e1]

/-! ### names without bars -/

theorem plain_char (base : Nat) (name : List Nat) (h : needEscape base name = false) (c : Nat) (hc : c ∈ name) :
    chartype c = .constituent ∧ islower c = false ∧ c ≠ 58 ∧ c ≠ 96 ∧ hasMacro c = false := by
  unfold needEscape at h
  rw [Bool.or_eq_false_iff] at h
  have := h.1
  rw [List.any_eq_false] at this
  have := this c hc
  simp only [Bool.or_eq_true, decide_eq_true_eq, not_or, Bool.not_eq_true, ne_eq, not_not] at this
  exact ⟨this.1.1.1.1, this.1.1.1.2, this.1.1.2, this.1.2, this.2⟩

theorem plain_lower (c : Nat) (h : chartype c = .constituent ∧ islower c = false ∧ c ≠ 58 ∧ c ≠ 96 ∧ hasMacro c = false)
    (lower : Bool) :
    let c' := if lower then to_lower c else c
    syntaxtype c' = .constituent ∧ c' ≠ 58 ∧ to_upper c' = c := by
  obtain ⟨h1, h2, h3, h4, h5⟩ := h
  have hc : syntaxtype c = .constituent := by unfold syntaxtype; rw [if_neg h4]; exact h1
  have hu : to_upper c = c := by unfold to_upper; rw [h2]; simp
  cases lower with
  | false => exact ⟨hc, h3, hu⟩
  | true =>
    simp only [if_true]
    unfold to_lower
    by_cases hup : isupper c = true
    · rw [if_pos hup]
      unfold isupper at hup
      simp only [Bool.and_eq_true, decide_eq_true_eq] at hup
      refine ⟨?_, by omega, ?_⟩
      · unfold syntaxtype chartype
        rw [if_neg (by omega), if_neg (by omega), if_neg (by omega), if_neg (by omega), if_neg (by omega),
          if_neg (by omega), if_neg (by omega), if_neg (by omega)]
      · unfold to_upper islower
        rw [if_pos (by simp; omega)]; omega
    · rw [if_neg hup]; exact ⟨hc, h3, hu⟩

theorem printname_plain (p : PCfg) (name : List Nat) (hb : name.length ≤ 255 ∨ 124 ∉ name)
    (h : needEscape p.base name = false) :
    printname p name = some (name.map fun c => if p.down then to_lower c else c) := by
  unfold printname
  simp only [h, Bool.not_false, Bool.true_and, Bool.false_eq_true, if_false]
  rw [symBody_spec _ _ _ (Nat.le_refl _) hb]
  simp only [Option.some.injEq]
  have : ∀ l : List Nat, (∀ c ∈ l, chartype c = .constituent) →
      l.flatMap (escChar p.down) = l.map fun c => if p.down then to_lower c else c := by
    intro l
    induction l with
    | nil => intro _; rfl
    | cons a l ih =>
      intro hl
      have ha := hl a (by simp)
      rw [List.flatMap_cons, List.map_cons, ih (fun c hc => hl c (by simp [hc]))]
      unfold escChar
      rw [ha, if_neg (by decide)]; rfl
  exact this name (fun c hc => (plain_char _ _ h c hc).1)

theorem printname_esc (p : PCfg) (name : List Nat) (hb : name.length ≤ 255 ∨ 124 ∉ name)
    (h : needEscape p.base name = true) :
    printname p name = some (124 :: name.flatMap (escChar false) ++ [124]) := by
  unfold printname
  simp only [h, Bool.not_true, Bool.false_and, if_true]
  rw [symBody_spec _ _ _ (Nat.le_refl _) hb]

/-- reading unescaped characters, with a colon possibly before -/
theorem step8_name (name : List Nat) (lower : Bool) (t : Tok) (rest : List Nat)
    (h : ∀ c ∈ name, chartype c = .constituent ∧ islower c = false ∧ c ≠ 58 ∧ c ≠ 96 ∧ hasMacro c = false)
    (hr : Delim rest) (hl : t.tok.length + name.length < 1024) :
    step8 t (name.map (fun c => if lower then to_lower c else c) ++ rest) =
      .done ⟨t.tok ++ name, t.escaped, t.colon⟩ rest := by
  rw [step8_plain _ t rest _ hr (by simpa using hl)]
  · have : (name.map (fun c => if lower then to_lower c else c)).map to_upper = name := by
      rw [List.map_map]
      conv_rhs => rw [← List.map_id name]
      apply List.map_congr_left
      intro c hc
      exact (plain_lower c (h c hc) lower).2.2
    rw [this]
  · intro c hc
    obtain ⟨d, hd, rfl⟩ := List.mem_map.1 hc
    have := plain_lower d (h d hd) lower
    exact ⟨this.1, this.2.1⟩

theorem nameChar_syntax (c : Nat) (h : NameChar c) (h' : c ≠ 124) :
    syntaxtype c ≠ .sglescape ∧ syntaxtype c ≠ .multiescape ∧ syntaxtype c ≠ .illegal := by
  obtain ⟨h1, h2, h3⟩ := h
  refine ⟨by rw [Ne, sgl_iff]; exact h2, ?_, ?_⟩
  · unfold syntaxtype
    split_ifs
    · decide
    · rw [Ne, multi_iff]; exact h'
  · unfold syntaxtype chartype
    split_ifs <;> first | decide | (exfalso; omega)

/-- reading between bars -/
theorem step9_name : ∀ (name : List Nat) (t : Tok) (rest : List Nat), (∀ c ∈ name, NameChar c) →
    Delim rest → t.tok.length + name.length < 1024 → t.escaped = true →
    step9 t (name.flatMap (escChar false) ++ 124 :: rest) = .done ⟨t.tok ++ name, true, t.colon⟩ rest
  | [], t, rest, _, hr, hl, he => by
    simp only [List.flatMap_nil, List.nil_append, List.append_nil]
    simp only [List.length_nil] at hl
    rw [step9_bar _ _ (by omega), step8_delim _ rest hr (by simpa using hl)]
  | c :: name, t, rest, h, hr, hl, he => by
    simp only [List.length_cons] at hl
    have ih := step9_name name (t.putEsc c) rest (fun x hx => h x (by simp [hx])) hr
      (by simp only [Tok.putEsc, List.length_append, List.length_singleton]; omega) rfl
    have hc := h c (by simp)
    rw [List.flatMap_cons]
    have fin : step9 (t.putEsc c) (name.flatMap (escChar false) ++ 124 :: rest) =
        .done ⟨t.tok ++ c :: name, true, t.colon⟩ rest := by
      rw [ih]; simp [Tok.putEsc]
    by_cases h124 : c = 124
    · subst h124
      have e : escChar false 124 = [92, 124] := rfl
      rw [e]
      simp only [List.cons_append, List.nil_append]
      rw [step9_esc _ _ _ (by omega)]; exact fin
    · have e : escChar false c = [c] := by
        unfold escChar; rw [if_neg (by rw [multi_iff]; exact h124)]; rfl
      rw [e]
      simp only [List.cons_append, List.nil_append]
      obtain ⟨a1, a2, a3⟩ := nameChar_syntax c hc h124
      rw [step9_put _ _ _ (by omega) a1 a2 a3]; exact fin

/-! ### which tokens are numbers -/

theorem is_digit_iff (base c : Nat) : is_digit base c = true ↔
    ((48 ≤ c ∧ c ≤ 57 ∧ c < 48 + base) ∨ (65 ≤ c ∧ c < 65 + (base - 10))) := by
  unfold is_digit
  by_cases h1 : c < 48
  · rw [if_pos h1]; simp; omega
  · rw [if_neg h1]
    by_cases h2 : base ≤ 10
    · rw [if_pos h2]; simp; omega
    · rw [if_neg h2]
      by_cases h3 : c ≤ 57
      · rw [if_pos h3]; simp; omega
      · rw [if_neg h3]
        by_cases h4 : 65 ≤ c ∧ c < 65 + base - 10
        · rw [if_pos h4]; simp; omega
        · rw [if_neg h4]; simp; omega

theorem allDigits_iff (base : Nat) (l : List Nat) : AllDigits base l ↔ l.all (is_digit base) = true := by
  rw [List.all_eq_true]
  unfold AllDigits
  exact ⟨fun h c hc => (is_digit_iff base c).2 (h c hc), fun h c hc => (is_digit_iff base c).1 (h c hc)⟩

theorem takeWhile_digits (base : Nat) (l : List Nat) : AllDigits base (l.takeWhile (is_digit base)) := by
  rw [allDigits_iff, List.all_eq_true]
  induction l with
  | nil => intro c hc; simp at hc
  | cons a l ih =>
    intro c hc
    rw [List.takeWhile_cons] at hc
    by_cases ha : is_digit base a = true
    · rw [if_pos ha] at hc
      rcases List.mem_cons.1 hc with rfl | hc
      · exact ha
      · exact ih c hc
    · rw [if_neg ha] at hc; simp at hc

theorem drop_nil_digits (base : Nat) (l : List Nat) (h : l.dropWhile (is_digit base) = []) :
    AllDigits base l := by
  have := List.takeWhile_append_dropWhile (p := is_digit base) (l := l)
  rw [h, List.append_nil] at this
  rw [← this]; exact takeWhile_digits base l

theorem isExp_mem (c : Nat) (h : isExp c = true) : c ∈ [68, 69, 70, 76, 100, 101, 102, 108] := by
  unfold isExp to_upper islower at h
  simp only [List.mem_cons, List.not_mem_nil, or_false]
  by_cases hl : 97 ≤ c ∧ c ≤ 122
  · simp [hl] at h; omega
  · have : (decide (97 ≤ c) && decide (c ≤ 122)) = false := by
      rw [Bool.and_eq_false_iff]; simp; omega
    simp [this] at h; omega

theorem expKind_spec (base : Nat) (x : Nat) (r : List Nat) (hx : isExp x = true)
    (h : expKind base r ≠ .symbol) : Exponent base (x :: r) := by
  have hx' := isExp_mem x hx
  unfold expKind at h
  cases r with
  | nil => exact ⟨x, [], [], rfl, hx', Or.inl rfl, by intro c hc; simp at hc⟩
  | cons c r =>
    have hd : (if c = 43 ∨ c = 45 then r else c :: r).dropWhile (is_digit base) = [] := by
      by_contra hh; apply h; simp only; rw [if_neg hh]
    by_cases hs : c = 43 ∨ c = 45
    · rw [if_pos hs] at hd
      have : r.dropWhile (is_digit base) = [] := hd
      refine ⟨x, [c], r, rfl, hx', ?_, drop_nil_digits base r this⟩
      rcases hs with rfl | rfl
      · exact Or.inr (Or.inl rfl)
      · exact Or.inr (Or.inr rfl)
    · rw [if_neg hs] at hd
      have : (c :: r).dropWhile (is_digit base) = [] := hd
      exact ⟨x, [], c :: r, rfl, hx', Or.inl rfl, drop_nil_digits base _ this⟩

theorem numKind_spec (base : Nat) (a : List Nat) (h : numKind base a ≠ .symbol) :
    ∃ ds, AllDigits base ds ∧
      ((ds ≠ [] ∧ a = ds) ∨ (a = ds ++ [46]) ∨
       (∃ es, es ≠ [] ∧ AllDigits base es ∧ a = ds ++ 46 :: es) ∨
       (∃ es x, AllDigits base es ∧ Exponent base x ∧ a = ds ++ 46 :: (es ++ x)) ∨
       (ds ≠ [] ∧ ∃ x, Exponent base x ∧ a = ds ++ x) ∨
       (ds ≠ [] ∧ ∃ es, es ≠ [] ∧ AllDigits base es ∧ a = ds ++ 47 :: es)) := by
  unfold numKind at h
  cases a with
  | nil => exact absurd rfl h
  | cons c t =>
    have hsplit := List.takeWhile_append_dropWhile (p := is_digit base) (l := c :: t)
    have hds := takeWhile_digits base (c :: t)
    have hnil : (c :: t).takeWhile (is_digit base) = [] → is_digit base c = false := by
      intro hh
      by_contra hc
      rw [Bool.not_eq_false] at hc
      rw [List.takeWhile_cons, if_pos hc] at hh
      simp at hh
    generalize (c :: t).takeWhile (is_digit base) = ds at hsplit hds hnil
    simp only at h
    by_cases hfirst : (is_digit base c || decide (c = 46)) = true
    · rw [if_pos hfirst] at h
      simp only [Bool.or_eq_true, decide_eq_true_eq] at hfirst
      refine ⟨ds, hds, ?_⟩
      generalize (c :: t).dropWhile (is_digit base) = dr at h hsplit
      cases dr with
      | nil =>
        left
        rw [List.append_nil] at hsplit
        exact ⟨by rw [hsplit]; simp, hsplit.symm⟩
      | cons d r1 =>
        have hne : d ≠ 46 → ds ≠ [] := by
          intro hd hh
          have := hnil hh
          rw [hh] at hsplit
          have hdc : d = c := by simpa using (List.cons.inj hsplit).1
          rw [this] at hfirst
          simp at hfirst
          omega
        simp only at h
        by_cases hd : d = 46
        · subst hd
          rw [if_pos rfl] at h
          by_cases hr : r1 = []
          · subst hr
            right; left; exact hsplit.symm
          · rw [if_neg hr] at h
            have hsplit1 := List.takeWhile_append_dropWhile (p := is_digit base) (l := r1)
            have hes := takeWhile_digits base r1
            generalize r1.takeWhile (is_digit base) = es at hsplit1 hes
            generalize r1.dropWhile (is_digit base) = dr at h hsplit1
            cases dr with
            | nil =>
              right; right; left
              rw [List.append_nil] at hsplit1
              exact ⟨r1, hr, hsplit1 ▸ hes, hsplit.symm⟩
            | cons e r2 =>
              simp only at h
              right; right; right; left
              by_cases he : isExp e = true
              · rw [if_pos he] at h
                exact ⟨es, e :: r2, hes, expKind_spec base e r2 he h, by rw [hsplit1, hsplit]⟩
              · rw [if_neg he] at h; exact absurd rfl h
        · rw [if_neg hd] at h
          have hne' := hne hd
          by_cases hd' : d = 47
          · subst hd'
            rw [if_pos rfl] at h
            by_cases hr : r1 = []
            · rw [if_pos hr] at h; exact absurd rfl h
            · rw [if_neg hr] at h
              right; right; right; right; right
              have : r1.dropWhile (is_digit base) = [] := by
                by_contra hh; rw [if_neg hh] at h; exact h rfl
              exact ⟨hne', r1, hr, drop_nil_digits base r1 this, hsplit.symm⟩
          · rw [if_neg hd'] at h
            right; right; right; right; left
            by_cases he : isExp d = true
            · rw [if_pos he] at h
              exact ⟨hne', d :: r1, expKind_spec base d r1 he h, hsplit.symm⟩
            · rw [if_neg he] at h; exact absurd rfl h
    · rw [if_neg hfirst] at h; exact absurd rfl h

theorem tokKind_number (base : Nat) (tok : List Nat) (h : tokKind base tok ≠ .symbol) :
    NumberSyntax base tok := by
  unfold tokKind at h
  cases tok with
  | nil => exact absurd rfl h
  | cons c r =>
    simp only at h
    by_cases hs : c = 43 ∨ c = 45
    · rw [if_pos hs] at h
      obtain ⟨ds, hds, hh⟩ := numKind_spec base r h
      refine ⟨[c], r, rfl, ?_, ds, hds, ?_⟩
      · rcases hs with rfl | rfl
        · exact Or.inr (Or.inl rfl)
        · exact Or.inr (Or.inr rfl)
      · rcases hh with hh | hh | hh
        · exact Or.inl hh
        · refine Or.inr (Or.inl ⟨hh, ?_⟩)
          rw [hh]; intro h2; simp at h2
        · exact Or.inr (Or.inr hh)
    · rw [if_neg hs] at h
      by_cases hd : c :: r = [46]
      · rw [if_pos hd] at h; exact absurd rfl h
      · rw [if_neg hd] at h
        obtain ⟨ds, hds, hh⟩ := numKind_spec base _ h
        refine ⟨[], c :: r, rfl, Or.inl rfl, ds, hds, ?_⟩
        rcases hh with hh | hh | hh
        · exact Or.inl hh
        · exact Or.inr (Or.inl ⟨hh, hd⟩)
        · exact Or.inr (Or.inr hh)

/-! ### symbols -/

/-- what the text of an object other than a comment begins with -/
def Head (h : List Nat) : Prop :=
  ∃ c w, h = c :: w ∧ c < 128 ∧ syntaxtype c ≠ .white ∧ c ≠ 59 ∧ c ≠ 41 ∧
    (c = 46 → ∃ d w', w = d :: w' ∧ d < 128 ∧ syntaxtype d = .constituent)

theorem read1_bar (base n : Nat) (s : List Nat) :
    read1 base (n + 1) (124 :: s) = finish base (step9 ⟨[], true, none⟩ s) := by
  have h : syntaxtype 124 = .multiescape := rfl
  rw [read1.eq_def]; simp only [h]

theorem sym_read (p : PCfg) (name : List Nat) (h : GoodName p.base name) :
    ∃ txt, printname p name = some txt ∧ txt ≠ [] ∧
      (∀ rest n, Delim rest → read1 p.base (n + 1) (txt ++ rest) = (.val (.sym name), rest)) := by
  obtain ⟨hc, hs, hb, hn, ha⟩ := h
  cases he : needEscape p.base name with
  | true =>
    refine ⟨_, printname_esc p name hb he, by simp, ?_⟩
    intro rest n hr
    have e : 124 :: name.flatMap (escChar false) ++ [124] ++ rest =
        124 :: (name.flatMap (escChar false) ++ 124 :: rest) := by simp
    rw [e, read1_bar, step9_name name _ rest hc hr (by simpa using hs) rfl]
    rfl
  | false =>
    refine ⟨_, printname_plain p name hb he, ?_, ?_⟩
    · intro hh
      rw [List.map_eq_nil_iff] at hh
      subst hh
      simp [needEscape] at he
    · intro rest n hr
      have hpl := plain_char p.base name he
      have hk : tokKind p.base name = .symbol := by
        by_contra hk
        have := hn (tokKind_number p.base name hk)
        rw [allDigits_iff] at this
        unfold needEscape at he
        rw [Bool.or_eq_false_iff, this] at he
        exact absurd he.2 (by decide)
      cases name with
      | nil => simp [needEscape] at he
      | cons c w =>
        have h1 := plain_lower c (hpl c (by simp)) p.down
        simp only at h1
        rw [List.map_cons, List.cons_append, read1_constituent _ _ _ _ h1.1, if_neg h1.2.1, h1.2.2]
        simp only [List.length_cons] at hs
        rw [step8_name w p.down _ rest (fun x hx => hpl x (by simp [hx])) hr (by simp; omega)]
        simp only [finish, step10, List.singleton_append, Bool.false_eq_true, if_false, hk, readsymbol]

theorem numKind_colon (base : Nat) (w : List Nat) : numKind base (58 :: w) = .symbol := by
  have : is_digit base 58 = false := by
    by_contra h
    rw [Bool.not_eq_false, is_digit_iff] at h
    omega
  unfold numKind
  simp [this]

theorem key_read (p : PCfg) (name : List Nat) (h : GoodKey name) :
    ∃ txt, printname p name = some txt ∧
      (∀ rest n, Delim rest → read1 p.base (n + 1) (58 :: txt ++ rest) = (.val (.key name), rest)) := by
  obtain ⟨hc, hs, hb⟩ := h
  have h58 : syntaxtype 58 = .constituent := rfl
  have hu : to_upper 58 = 58 := rfl
  cases he : needEscape p.base name with
  | true =>
    refine ⟨_, printname_esc p name hb he, ?_⟩
    intro rest n hr
    have e : 58 :: (124 :: name.flatMap (escChar false) ++ [124]) ++ rest =
        58 :: 124 :: (name.flatMap (escChar false) ++ 124 :: rest) := by simp
    rw [e, read1_constituent _ _ _ _ h58, if_pos rfl, hu, step8_bar _ _ (by simp),
      step9_name name _ rest hc hr (by simp; omega) rfl]
    rfl
  | false =>
    refine ⟨_, printname_plain p name hb he, ?_⟩
    intro rest n hr
    have hpl := plain_char p.base name he
    rw [List.cons_append, read1_constituent _ _ _ _ h58, if_pos rfl, hu,
      step8_name name p.down _ rest hpl hr (by simp; omega)]
    have hk : tokKind p.base (58 :: name) = .symbol := by
      rw [tokKind, if_neg (by decide), if_neg (by simp), numKind_colon]
    simp only [finish, step10, List.singleton_append, Bool.false_eq_true, if_false, hk, readsymbol]
    rfl

end Eus.Rd
