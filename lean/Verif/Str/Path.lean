import Verif.Str.Proofs
set_option autoImplicit false
namespace Eus.Str

theorem findIdx_first (c : Nat) : ∀ (w r : List Nat), c ∉ w → (w ++ c :: r).findIdx? (· = c) = some w.length
  | [], r, _ => by simp [List.findIdx?_cons]
  | a :: w, r, h => by
    have ha : a ≠ c := fun e => h (by simp [e])
    rw [List.cons_append, List.findIdx?_cons, if_neg (by simpa using ha), findIdx_first c w r (fun hc => h (by simp [hc]))]
    rfl

theorem position_some {c : Nat} {s w r : List Nat} {i : Nat} (h : s.drop i = w ++ c :: r) (hw : c ∉ w) :
    position c s i = some (i + w.length) := by
  unfold position
  rw [h, findIdx_first c w r hw]
  simp [Nat.add_comm]

theorem position_none {c : Nat} {s : List Nat} {i : Nat} (h : c ∉ s.drop i) : position c s i = none := by
  unfold position
  rw [Option.map_eq_none_iff, List.findIdx?_eq_none_iff]
  intro x hx
  simp only [decide_eq_false_iff_not]
  rintro rfl
  exact h hx

theorem split_first (c : Nat) (l : List Nat) : c ∉ l ∨ ∃ w r, l = w ++ c :: r ∧ c ∉ w := by
  induction l with
  | nil => simp
  | cons a l ih =>
    by_cases h : a = c
    · subst h; exact Or.inr ⟨[], l, rfl, by simp⟩
    · rcases ih with ih | ⟨w, r, rfl, hw⟩
      · left; simp [Ne.symm h, ih]
      · exact Or.inr ⟨a :: w, r, rfl, by simp [Ne.symm h, hw]⟩

theorem subseq_drop {s w r : List Nat} {i : Nat} (h : s.drop i = w ++ r) : subseq s i (i + w.length) = w := by
  unfold subseq
  rw [List.drop_take, h, show i + w.length - i = w.length by omega]
  simp

theorem subseq_end (s : List Nat) (i : Nat) : subseq s i s.length = s.drop i := by
  unfold subseq; rw [List.take_length]

theorem drop_after {s w r : List Nat} {i c : Nat} (h : s.drop i = w ++ c :: r) : s.drop (i + w.length + 1) = r := by
  rw [show i + w.length + 1 = i + (w.length + 1) by omega, ← List.drop_drop, h]
  simp

/-- `collapse` knowing whether a slash came just before. -/
def sq : Bool → List Nat → List Nat
  | _, [] => []
  | true, c :: r => if c = 47 then sq true r else c :: sq false r
  | false, c :: r => if c = 47 then 47 :: sq true r else c :: sq false r

theorem sq_collapse : ∀ (r : List Nat), collapse r = sq false r ∧ collapse (47 :: r) = 47 :: sq true r
  | [] => ⟨rfl, rfl⟩
  | [c] => by
    constructor
    · by_cases h : c = 47 <;> simp [collapse, sq, h]
    · by_cases h : c = 47 <;> simp [collapse, sq, h]
  | c :: d :: r => by
    obtain ⟨h1, h2⟩ := sq_collapse (d :: r)
    have a1 : collapse (c :: d :: r) = sq false (c :: d :: r) := by
      by_cases hc : c = 47
      · subst hc; rw [h2]; simp [sq]
      · rw [collapse, if_neg (by tauto), h1]
        conv_rhs => rw [sq, if_neg hc]
    refine ⟨a1, ?_⟩
    by_cases hc : c = 47
    · subst hc
      rw [collapse, if_pos ⟨rfl, rfl⟩, h2]
      conv_rhs => rw [sq, if_pos rfl]
    · rw [collapse, if_neg (by tauto), a1]
      conv_rhs => rw [sq, if_neg hc]
      rw [sq, if_neg hc]

theorem sq_false_word : ∀ (w r : List Nat), 47 ∉ w → sq false (w ++ 47 :: r) = w ++ 47 :: sq true r
  | [], r, _ => by simp [sq]
  | a :: w, r, h => by
    have ha : a ≠ 47 := fun e => h (by simp [e])
    rw [List.cons_append, sq, if_neg ha, sq_false_word w r (fun hc => h (by simp [hc])), List.cons_append]

theorem sq_true_word {w r : List Nat} (h : 47 ∉ w) (hw : w ≠ []) : sq true (w ++ 47 :: r) = w ++ 47 :: sq true r := by
  cases w with
  | nil => exact absurd rfl hw
  | cons a w =>
    have ha : a ≠ 47 := fun e => h (by simp [e])
    rw [List.cons_append, sq, if_neg ha, sq_false_word w r (fun hc => h (by simp [hc])), List.cons_append]

theorem sq_no : ∀ (b : Bool) (w : List Nat), 47 ∉ w → sq b w = w
  | b, [], _ => by cases b <;> rfl
  | b, a :: w, h => by
    have ha : a ≠ 47 := fun e => h (by simp [e])
    have := sq_no false w (fun hc => h (by simp [hc]))
    cases b <;> rw [sq, if_neg ha, this]

/-- The text of a list of directory names. -/
def join : List (List Nat) → List Nat
  | [] => []
  | w :: L => w ++ 47 :: join L

def Names (L : List (List Nat)) : Prop := ∀ w ∈ L, w ≠ [] ∧ 47 ∉ w

theorem dirNames_map (L : List (List Nat)) : dirNames (L.map .name) = join L := by
  induction L with
  | nil => rfl
  | cons w L ih => rw [List.map_cons, dirNames, join, ih]

theorem dirLoop_spec (pn : List Nat) : ∀ (n i : Nat) (ds : List Dir), pn.length + 1 ≤ n + i → i ≤ pn.length →
    ∃ L i', dirLoop pn n i ds = ((L.map Dir.name).reverse ++ ds, i') ∧ i' ≤ pn.length ∧ i ≤ i' ∧ 47 ∉ pn.drop i' ∧ Names L ∧
      join L ++ pn.drop i' = sq true (pn.drop i)
  | 0, i, ds, h, hi => by omega
  | n + 1, i, ds, h, hi => by
    rw [dirLoop]
    rcases split_first 47 (pn.drop i) with hno | ⟨w, r, e, hw⟩
    · rw [position_none hno]
      exact ⟨[], i, rfl, hi, le_refl i, hno, by simp [Names], by rw [sq_no _ _ hno]; rfl⟩
    · rw [position_some e hw]
      dsimp only
      have el := congrArg List.length e
      simp only [List.length_drop, List.length_append, List.length_cons] at el
      rw [subseq_drop e]
      obtain ⟨L, i', h1, h2, h3, h4, h5, h6⟩ := dirLoop_spec pn n (i + w.length + 1) (if w.length > 0 then .name w :: ds else ds) (by omega) (by omega)
      rw [drop_after e] at h6
      by_cases hw0 : w = []
      · subst hw0
        rw [h1]
        refine ⟨L, i', by simp, h2, by omega, h4, h5, ?_⟩
        rw [h6, e]
        simp [sq]
      · have : w.length > 0 := List.length_pos_iff.2 hw0
        rw [h1, if_pos this]
        refine ⟨w :: L, i', by simp, h2, by omega, h4, ?_, ?_⟩
        · intro v hv
          rcases List.mem_cons.1 hv with rfl | hv
          · exact ⟨hw0, hw⟩
          · exact h5 v hv
        · rw [e, sq_true_word hw hw0, join, List.append_assoc, List.cons_append, h6]

theorem join_unique : ∀ (L L' : List (List Nat)) (w w' : List Nat), Names L → Names L' → 47 ∉ w → 47 ∉ w' → join L ++ w = join L' ++ w' →
    L = L' ∧ w = w'
  | [], [], w, w', _, _, _, _, h => ⟨rfl, h⟩
  | [], v :: L', w, w', _, _, hw, _, h => by
    rw [join, join, List.nil_append, List.append_assoc] at h
    exact absurd (by rw [h]; simp) hw
  | v :: L, [], w, w', _, _, _, hw, h => by
    rw [join, join, List.nil_append, List.append_assoc] at h
    exact absurd (by rw [← h]; simp) hw
  | v :: L, v' :: L', w, w', hL, hL', hw, hw', h => by
    rw [join, join, List.append_assoc, List.append_assoc, List.cons_append, List.cons_append] at h
    have key : ∀ (a b x y : List Nat), 47 ∉ a → 47 ∉ b → a ++ 47 :: x = b ++ 47 :: y → a = b ∧ x = y := by
      intro a
      induction a with
      | nil =>
        intro b x y _ hb hh
        cases b with
        | nil => simpa using hh
        | cons c b => simp at hh; exact absurd (by simp [hh.1]) hb
      | cons c a ih =>
        intro b x y ha hb hh
        cases b with
        | nil => simp at hh; exact absurd (by simp [hh.1]) ha
        | cons d b =>
          simp only [List.cons_append, List.cons.injEq] at hh
          obtain ⟨e1, e2⟩ := ih b x y (fun hc => ha (by simp [hc])) (fun hc => hb (by simp [hc])) hh.2
          exact ⟨by rw [hh.1, e1], e2⟩
    obtain ⟨e1, e2⟩ := key v v' _ _ (hL v (by simp)).2 (hL' v' (by simp)).2 h
    obtain ⟨e3, e4⟩ := join_unique L L' w w' (fun x hx => hL x (by simp [hx])) (fun x hx => hL' x (by simp [hx])) hw hw' e2
    exact ⟨by rw [e1, e3], e4⟩

theorem split_last (c : Nat) (l : List Nat) : c ∉ l ∨ ∃ a b, l = a ++ c :: b ∧ c ∉ b := by
  induction l with
  | nil => simp
  | cons x l ih =>
    rcases ih with ih | ⟨a, b, rfl, hb⟩
    · by_cases h : x = c
      · subst h; exact Or.inr ⟨[], l, rfl, ih⟩
      · left; simp [Ne.symm h, ih]
    · exact Or.inr ⟨x :: a, b, rfl, hb⟩

theorem split_last_unique {c : Nat} {a b a' b' : List Nat} (h : a ++ c :: b = a' ++ c :: b') (hb : c ∉ b) (hb' : c ∉ b') : a = a' ∧ b = b' := by
  induction a generalizing a' with
  | nil =>
    cases a' with
    | nil => simpa using h
    | cons x a' => simp at h; exact absurd (by rw [h.2]; simp) hb
  | cons x a ih =>
    cases a' with
    | nil => simp at h; exact absurd (by rw [← h.2]; simp) hb'
    | cons y a' =>
      simp only [List.cons_append, List.cons.injEq] at h
      obtain ⟨e1, e2⟩ := ih h.2
      exact ⟨by rw [h.1, e1], e2⟩

theorem periodLoop_spec (pn a b : List Nat) (hb : 46 ∉ b) : ∀ (n i : Nat) (m : List Nat), pn.drop i = m ++ b → m.length + 1 ≤ n →
    (m = [] ∨ ∃ m', m = m' ++ [46]) → periodLoop pn n i = i + m.length
  | 0, i, m, _, h, _ => by omega
  | n + 1, i, m, e, h, hm => by
    rw [periodLoop]
    rcases hm with rfl | ⟨m', rfl⟩
    · rw [position_none (by rw [e]; simpa using hb)]
      simp
    · rcases split_first 46 (m' ++ [46]) with hno | ⟨w, r, e', hw⟩
      · simp at hno
      · rw [e', List.append_assoc, List.cons_append] at e
        rw [position_some e hw]
        dsimp only
        have el := congrArg List.length e'
        rw [List.length_append, List.length_append] at el
        simp only [List.length_cons, List.length_nil] at el
        simp only [List.length_append, List.length_cons, List.length_nil] at h
        rw [periodLoop_spec pn a b hb n (i + w.length + 1) r (drop_after e) (by omega) ?_]
        · simp only [List.length_append, List.length_cons, List.length_nil]; omega
        · rcases List.eq_nil_or_concat r with rfl | ⟨r', x, rfl⟩
          · exact Or.inl rfl
          · right
            refine ⟨r', ?_⟩
            have e'' : m' ++ [46] = (w ++ 46 :: r') ++ [x] := by simpa using e'
            have := (List.append_inj' e'' rfl).2
            simp only [List.cons.injEq, and_true] at this
            rw [← this, List.concat_eq_append]

/-- The name and the type in the last part of a file name. -/
structure NameOf (w : List Nat) (name type : Option (List Nat)) : Prop where
  dots : w = [46, 46] → name = some w ∧ type = none
  nodot : w ≠ [46, 46] → 46 ∉ w → name = (if w = [] then none else some w) ∧ type = none
  dot : ∀ a b, w ≠ [46, 46] → w = a ++ 46 :: b → 46 ∉ b → name = (if a = [] then none else some a) ∧ type = some b

theorem NameOf.text {w : List Nat} {name type : Option (List Nat)} (h : NameOf w name type) :
    name.getD [] ++ ftype type = w := by
  by_cases hd : w = [46, 46]
  · obtain ⟨rfl, rfl⟩ := h.dots hd
    simp [ftype]
  · rcases split_last 46 w with hno | ⟨a, b, e, hb⟩
    · obtain ⟨rfl, rfl⟩ := h.nodot hd hno
      split <;> simp_all [ftype]
    · obtain ⟨rfl, rfl⟩ := h.dot a b hd e hb
      rw [ftype, e]
      split <;> simp_all

theorem NameOf.unique {w : List Nat} {n n' t t' : Option (List Nat)} (h : NameOf w n t) (h' : NameOf w n' t') : n = n' ∧ t = t' := by
  by_cases hd : w = [46, 46]
  · obtain ⟨rfl, rfl⟩ := h.dots hd
    obtain ⟨rfl, rfl⟩ := h'.dots hd
    exact ⟨rfl, rfl⟩
  · rcases split_last 46 w with hno | ⟨a, b, e, hb⟩
    · obtain ⟨rfl, rfl⟩ := h.nodot hd hno
      obtain ⟨rfl, rfl⟩ := h'.nodot hd hno
      exact ⟨rfl, rfl⟩
    · obtain ⟨rfl, rfl⟩ := h.dot a b hd e hb
      obtain ⟨rfl, rfl⟩ := h'.dot a b hd e hb
      exact ⟨rfl, rfl⟩

/-- What `parse` makes of a name. -/
structure Parsed (pn : List Nat) (p : Path) : Prop where
  host : p.host = none
  device : p.device = none
  version : p.version = none
  parts : ∃ L w, p.directory = (if pn.head? = some 47 then [.root] else []) ++ L.map .name ∧ Names L ∧ 47 ∉ w ∧
    join L ++ w = sq true (if pn.head? = some 47 then pn.drop 1 else pn) ∧ NameOf w p.name p.type

theorem parse_spec (pn : List Nat) (h0 : pn ≠ []) (hc : 58 ∉ pn) (ht : pn.head? ≠ some 126) : ∃ p, parse pn = .ok p ∧ Parsed pn p := by
  unfold parse
  have hl : pn.length ≠ 0 := by simpa using h0
  rw [if_neg hl, position_none (by simpa using hc)]
  dsimp only
  rw [if_neg (by omega)]
  have hd : ∀ k : Nat, k ≠ 0 → (pn.getD 0 0 = k ↔ pn.head? = some k) := by
    intro k hk
    cases pn with
    | nil => exact absurd rfl h0
    | cons a l => simp
  rw [if_neg (show ¬ pn.getD 0 0 = 126 by rw [hd 126 (by omega)]; exact ht)]
  have e : (if pn.getD 0 0 = 47 then ([Dir.root], 0 + 1) else ([], 0)) =
      ((if pn.head? = some 47 then [Dir.root] else []), if pn.head? = some 47 then 1 else 0) := by
    by_cases h : pn.head? = some 47
    · rw [if_pos ((hd 47 (by omega)).2 h), if_pos h, if_pos h]
    · rw [if_neg (fun hh => h ((hd 47 (by omega)).1 hh)), if_neg h, if_neg h]
  rw [e]
  dsimp only
  obtain ⟨L, i', h1, h2, h3, h4, h5, h6⟩ := dirLoop_spec pn (pn.length + 1) (if pn.head? = some 47 then 1 else 0)
    (if pn.head? = some 47 then [.root] else []) (by omega) (by split <;> omega)
  rw [h1]
  dsimp only
  rw [subseq_end]
  have hparts : ∀ name type, NameOf (pn.drop i') name type → Parsed pn
      { directory := ((L.map Dir.name).reverse ++ if pn.head? = some 47 then [Dir.root] else []).reverse, name, type } := by
    intro name type hn
    refine ⟨rfl, rfl, rfl, L, pn.drop i', ?_, h5, h4, ?_, hn⟩
    · dsimp only
      rw [List.reverse_append, List.reverse_reverse]
      congr 1
      split <;> rfl
    · rw [h6]
      split <;> rfl
  by_cases hdd : pn.drop i' = [46, 46]
  · rw [if_pos hdd]
    exact ⟨_, rfl, hparts _ _ ⟨fun _ => ⟨rfl, rfl⟩, fun h => absurd hdd h, fun _ _ h => absurd hdd h⟩⟩
  · rw [if_neg hdd]
    rcases split_last 46 (pn.drop i') with hno | ⟨a, b, e1, hb⟩
    · rw [position_none hno]
      refine ⟨_, rfl, hparts _ _ ⟨fun h => absurd h hdd, fun _ _ => ⟨?_, rfl⟩, fun a b _ h' _ => absurd (by rw [h']; simp) hno⟩⟩
      by_cases hn : pn.drop i' = []
      · rw [if_pos hn, if_neg (by rw [List.drop_eq_nil_iff] at hn; omega)]
      · rw [if_neg hn, if_pos (by rw [List.drop_eq_nil_iff] at hn; omega)]
    · rcases split_first 46 (pn.drop i') with hno | ⟨w, r, e2, hw⟩
      · exact absurd (by rw [e1]; simp) hno
      · rw [position_some e2 hw]
        dsimp only
        have hr : ∃ m, r = m ++ b ∧ (m = [] ∨ ∃ m', m = m' ++ [46]) := by
          rcases split_last 46 r with hno | ⟨a', b', e3, hb'⟩
          · have := split_last_unique (e2.symm.trans e1) hno hb
            exact ⟨[], by simp [this.2], Or.inl rfl⟩
          · have e4 : (w ++ 46 :: a') ++ 46 :: b' = a ++ 46 :: b := by
              rw [← e1, e2, e3]; simp
            have := split_last_unique e4 hb' hb
            exact ⟨a' ++ [46], by rw [e3, this.2]; simp, Or.inr ⟨a', rfl⟩⟩
        obtain ⟨m, rfl, hm⟩ := hr
        have el := congrArg List.length e2
        simp only [List.length_drop, List.length_append, List.length_cons] at el
        have ep := periodLoop_spec pn a b hb (pn.length + 1) (i' + w.length + 1) m (drop_after e2) (by omega) hm
        rw [ep]
        have el1 := congrArg List.length e1
        simp only [List.length_drop, List.length_append, List.length_cons] at el1
        have ea : i' + w.length + 1 + m.length - 1 = i' + a.length := by omega
        rw [ea, subseq_drop e1, subseq_end]
        have eb : pn.drop (i' + w.length + 1 + m.length) = b := by
          rw [show i' + w.length + 1 + m.length = i' + a.length + 1 by omega]
          exact drop_after e1
        rw [eb]
        refine ⟨_, rfl, hparts _ _ ⟨fun h => absurd h hdd, fun _ h => absurd (by rw [e1]; simp) h, fun a' b' _ h' hb' => ?_⟩⟩
        obtain ⟨rfl, rfl⟩ := split_last_unique (e1.symm.trans h') hb hb'
        exact ⟨rfl, rfl⟩

theorem collapse_head (pn : List Nat) : collapse pn = (if pn.head? = some 47 then 47 :: sq true (pn.drop 1) else sq true pn) := by
  cases pn with
  | nil => rfl
  | cons a l =>
    by_cases h : a = 47
    · subst h
      rw [(sq_collapse l).2]; simp
    · rw [(sq_collapse (a :: l)).1]
      simp [h, sq]

theorem namestring_parsed {pn : List Nat} {p : Path} (h : Parsed pn p) : namestring p = collapse pn := by
  obtain ⟨L, w, hd, hL, hw, e, hn⟩ := h.parts
  unfold namestring
  rw [h.host, h.device, Option.getD_none, List.nil_append, List.nil_append, List.append_assoc, hn.text, collapse_head, directory_string, hd]
  by_cases h47 : pn.head? = some 47
  · rw [if_pos h47] at e
    rw [if_pos h47, if_pos h47]
    dsimp only [List.singleton_append]
    rw [dirNames_map, List.cons_append, e]
  · rw [if_neg h47] at e
    rw [if_neg h47, if_neg h47, List.nil_append, ← e, ← dirNames_map]
    cases L with
    | nil => rfl
    | cons v L => rfl

theorem sq_idem : ∀ (r : List Nat), sq true (sq true r) = sq true r ∧ sq false (sq false r) = sq false r
  | [] => ⟨rfl, rfl⟩
  | c :: r => by
    obtain ⟨h1, h2⟩ := sq_idem r
    constructor
    · by_cases h : c = 47
      · rw [sq, if_pos h]; exact h1
      · rw [sq, if_neg h, sq, if_neg h, h2]
    · by_cases h : c = 47
      · rw [sq, if_pos h, sq, if_pos rfl, h1]
      · rw [sq, if_neg h, sq, if_neg h, h2]

theorem mem_sq : ∀ (b : Bool) (r : List Nat) (c : Nat), c ∈ sq b r → c ∈ r
  | b, [], c, h => by cases b <;> exact h
  | true, a :: r, c, h => by
    rw [sq] at h
    by_cases ha : a = 47
    · rw [if_pos ha] at h; exact List.mem_cons_of_mem _ (mem_sq true r c h)
    · rw [if_neg ha] at h
      rcases List.mem_cons.1 h with rfl | h
      · simp
      · exact List.mem_cons_of_mem _ (mem_sq false r c h)
  | false, a :: r, c, h => by
    rw [sq] at h
    by_cases ha : a = 47
    · rw [if_pos ha] at h
      rcases List.mem_cons.1 h with rfl | h
      · simp [ha]
      · exact List.mem_cons_of_mem _ (mem_sq true r c h)
    · rw [if_neg ha] at h
      rcases List.mem_cons.1 h with rfl | h
      · simp
      · exact List.mem_cons_of_mem _ (mem_sq false r c h)

theorem collapse_sq (pn : List Nat) : collapse pn = sq false pn := (sq_collapse pn).1

theorem collapse_head? (pn : List Nat) : (collapse pn).head? = pn.head? := by
  cases pn with
  | nil => rfl
  | cons a l =>
    rw [collapse_sq, sq]
    split <;> simp_all

theorem parsed_unique {pn pn' : List Nat} {p p' : Path} (h : Parsed pn p) (h' : Parsed pn' p') (e : collapse pn = collapse pn') : p = p' := by
  obtain ⟨L, w, hd, hL, hw, e1, hn⟩ := h.parts
  obtain ⟨L', w', hd', hL', hw', e1', hn'⟩ := h'.parts
  have hh : pn.head? = pn'.head? := by rw [← collapse_head? pn, e, collapse_head? pn']
  have : join L ++ w = join L' ++ w' := by
    rw [e1, e1']
    rw [collapse_head, collapse_head] at e
    by_cases h47 : pn.head? = some 47
    · have h47' : pn'.head? = some 47 := by rw [← hh]; exact h47
      rw [if_pos h47, if_pos h47'] at e ⊢
      simpa using e
    · have h47' : ¬ pn'.head? = some 47 := by rw [← hh]; exact h47
      rw [if_neg h47, if_neg h47'] at e ⊢
      exact e
  obtain ⟨rfl, rfl⟩ := join_unique L L' w w' hL hL' hw hw' this
  obtain ⟨en, et⟩ := hn.unique hn'
  rw [hh, ← hd'] at hd
  cases p
  cases p'
  simp only [Path.mk.injEq]
  exact ⟨h.host.trans h'.host.symm, h.device.trans h'.device.symm, hd, en, et, h.version.trans h'.version.symm⟩

end Eus.Str
