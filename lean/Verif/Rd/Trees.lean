import Verif.Rd.Text
set_option autoImplicit false
namespace Eus.Rd
open Eus.Num

/-! ### the text of an atom -/

theorem posVal_ge (base : Nat) (ds : List Nat) (h : ds.head? = some 0 → ds = [0]) (hne : ds ≠ []) :
    ds.length = 1 ∨ base ^ (ds.length - 1) ≤ posVal base ds := by
  cases ds with
  | nil => exact absurd rfl hne
  | cons d l =>
    by_cases hd : d = 0
    · subst hd; left; rw [h rfl]; rfl
    · right
      simp only [posVal, List.length_cons, Nat.add_sub_cancel]
      have : 1 * base ^ l.length ≤ d * base ^ l.length := Nat.mul_le_mul_right _ (by omega)
      omega

theorem canonical_wf (n : Num) (h : n.Canonical) : n.WF := by
  cases n with
  | fix w => exact h
  | big v => exact h.1

/-- The text of an integer: it is a numeral, and reads back. -/
theorem int_read (p : PCfg) (hb : 2 ≤ p.base) (hb' : p.base ≤ 36) (n : Num) (hn : n.Canonical)
    (hg : GoodInt p.base n.val) :
    ∃ txt, printnum p.base p.down n 0 0 = some txt ∧ Numeral p.base txt n.val ∧
      (∀ rest k, Delim rest → read1 p.base (k + 1) (txt ++ rest) = (.val (.int n), rest)) := by
  obtain ⟨ds, h1, h2, h3, h5, h4⟩ := printnum_spec p.base p.down hb hb' n (canonical_wf n hn) (by
    rintro v rfl hz
    exact hn.2.1 (by rw [hz]; unfold InFix; omega))
  have hf := forall2_digitChar p.down p.base hb' ds h2
  have hlt := posVal_lt p.base ds h2
  have hge := posVal_ge p.base ds h5 h1
  have hnum : Numeral p.base ((if n.val < 0 then [45] else []) ++ ds.map (digitChar p.down)) n.val := by
    by_cases hneg : n.val < 0
    · rw [if_pos hneg]
      exact Or.inr (Or.inr ⟨_, n.val.natAbs, rfl, ⟨ds, h1, h2, hf, h3⟩, by omega⟩)
    · rw [if_neg hneg]
      exact Or.inl ⟨n.val.natAbs, ⟨ds, h1, h2, hf, h3⟩, by omega⟩
  refine ⟨_, h4, hnum, ?_⟩
  intro rest k hr
  obtain ⟨g1, g2⟩ := hg
  have hlen : ds.length ≤ 1022 := by
    rcases hge with hge | hge
    · omega
    · by_contra hc
      have : p.base ^ 1022 ≤ p.base ^ (ds.length - 1) := Nat.pow_le_pow_right (by omega) (by omega)
      omega
  have hlt' : n.val.natAbs < p.base ^ ds.length := by
    rcases hlt with hlt | hlt
    · omega
    · exact absurd hlt.1 h1
  obtain ⟨m, m1, m2, m3⟩ := read1_numeral p.base hb hb' _ rest n.val hnum (by
    rintro ⟨s1, s2⟩
    rcases g2 with g2 | g2 | g2
    · exact s2 g2
    · have hneg : ¬ n.val < 0 := by
        have : (0:Int) ≤ (p.base:Int) ^ 7 := by positivity
        omega
      rw [if_neg hneg] at s1
      simp only [List.nil_append, List.length_map] at s1
      have : p.base ^ ds.length ≤ p.base ^ 7 := Nat.pow_le_pow_right (by omega) (by omega)
      have h7 : ((p.base ^ 7 : Nat) : Int) = (p.base : Int) ^ 7 := by push_cast; rfl
      omega
    · have hpos : (0:Int) < (p.base:Int) ^ 6 := by positivity
      have hneg : n.val < 0 := by omega
      rw [if_pos hneg] at s1
      simp only [List.singleton_append, List.length_cons, List.length_map] at s1
      have : p.base ^ ds.length ≤ p.base ^ 6 := Nat.pow_le_pow_right (by omega) (by omega)
      have h7 : ((p.base ^ 6 : Nat) : Int) = (p.base : Int) ^ 6 := by push_cast; rfl
      omega) (by
    split_ifs <;> simp <;> omega) hr k
  rw [m3, canon_unique_num m n m1 hn m2]

theorem head_of_plain (c : Nat) (w : List Nat) (h : syntaxtype c = .constituent) (h1 : c < 128)
    (h2 : c ≠ 46) : Head (c :: w) := by
  refine ⟨c, w, rfl, h1, by rw [h]; decide, ?_, ?_, fun hh => absurd hh h2⟩
  · rintro rfl; exact absurd h (by decide)
  · rintro rfl; exact absurd h (by decide)

theorem lower_facts (c : Nat) (lower : Bool) : 
    (c < 128 → (if lower then to_lower c else c) < 128) ∧
    ((if lower then to_lower c else c) = 46 → c = 46) := by
  cases lower with
  | false => simp
  | true =>
    simp only [if_true]
    unfold to_lower isupper
    by_cases h : 65 ≤ c ∧ c ≤ 90
    · rw [if_pos (by simp [h])]; omega
    · rw [if_neg (by simp; omega)]; omega

theorem sym_head (p : PCfg) (name : List Nat) (h : GoodName p.base name) (h1 : name ≠ [46])
    (h2 : ∀ c w, name = 46 :: c :: w → c < 128) (txt : List Nat) (ht : printname p name = some txt) :
    Head txt := by
  obtain ⟨hc, hs, hb, hn, ha⟩ := h
  cases he : needEscape p.base name with
  | true =>
    rw [printname_esc p name hb he] at ht
    rw [← Option.some.inj ht]
    exact ⟨124, _, rfl, by decide, by decide, by decide, by decide, fun h => absurd h (by decide)⟩
  | false =>
    rw [printname_plain p name hb he] at ht
    rw [← Option.some.inj ht]
    have hpl := plain_char p.base name he
    cases name with
    | nil => simp [needEscape] at he
    | cons c w =>
      have hp := plain_lower c (hpl c (by simp)) p.down
      have hlf := lower_facts c p.down
      rw [List.map_cons]
      by_cases h46 : c = 46
      · subst h46
        cases w with
        | nil => exact absurd rfl h1
        | cons d w =>
          have hpd := plain_lower d (hpl d (by simp)) p.down
          have hlf' := lower_facts d p.down
          have e : (if p.down = true then to_lower 46 else 46) = 46 := by cases p.down <;> rfl
          simp only at hpd
          rw [e]
          refine ⟨46, _, rfl, by decide, by decide, by decide, by decide, fun _ => ⟨_, _, rfl, ?_, hpd.1⟩⟩
          exact hlf'.1 (h2 d w rfl)
      · exact head_of_plain _ _ hp.1 (hlf.1 (ha c (by simp))) (fun hh => h46 (hlf.2 hh))

/-- the text of an atom -/
theorem atom_read (p : PCfg) (hb : 2 ≤ p.base) (hb' : p.base ≤ 36) (len : Nat) (t : T)
    (hg : GoodTree p.base len t) (ht : ∀ a d, t ≠ .cons a d) :
    ∃ txt, printAtom p t = some txt ∧ Head txt ∧
      (∀ rest k, Delim rest → read1 p.base (k + 1) (txt ++ rest) = (.val t, rest)) := by
  cases t with
  | int n =>
    obtain ⟨txt, e, hnum, hr⟩ := int_read p hb hb' n hg.1 hg.2
    refine ⟨txt, e, ?_, hr⟩
    obtain ⟨c, w, rfl, h1, h2, h3, h4⟩ := numeral_head _ _ _ hnum
    have := (numeral_plain _ _ _ hnum).2 c (by simp)
    exact head_of_plain c w this.1 h1 h4
  | str s =>
    refine ⟨printstr s, rfl, ⟨34, _, rfl, by decide, by decide, by decide, by decide, fun h => absurd h (by decide)⟩, ?_⟩
    intro rest k _
    exact read1_string p.base k s rest
  | sym n =>
    obtain ⟨txt, e, _, hr⟩ := sym_read p n hg.1
    exact ⟨txt, e, sym_head p n hg.1 hg.2.1 hg.2.2 txt e, hr⟩
  | key n =>
    obtain ⟨txt, e, hr⟩ := key_read p n hg
    refine ⟨58 :: txt, by simp [printAtom, e], ?_, hr⟩
    exact head_of_plain 58 txt rfl (by decide) (by decide)
  | pkgsym _ _ _ => exact absurd hg (by simp [GoodTree])
  | float _ => exact absurd hg (by simp [GoodTree])
  | ratio _ => exact absurd hg (by simp [GoodTree])
  | cons a d => exact absurd rfl (ht a d)

/-! ### lists -/

theorem nextch_head (c : Nat) (s : List Nat) (h1 : c < 128) (h2 : syntaxtype c ≠ .white) (h3 : c ≠ 59) :
    nextch (c :: s) = .ch c s := by
  rw [nextch, if_neg (by omega), if_neg (by omega), if_neg h2, if_neg h3]

theorem readTail_space (base n : Nat) (s : List Nat) : readTail base n (32 :: s) = readTail base n s := by
  cases n with
  | zero => rw [readTail, readTail]
  | succ n =>
    have h : nextch (32 :: s) = nextch s := by
      rw [nextch, if_neg (by decide), if_neg (by decide), if_pos (by decide)]
    rw [readTail.eq_def, readTail.eq_def]
    simp only [h]

theorem readTail_close (base n : Nat) (s : List Nat) : readTail base (n + 1) (41 :: s) = (.val NIL, s) := by
  rw [readTail.eq_def]
  have h : nextch (41 :: s) = .ch 41 s := nextch_head 41 s (by decide) (by decide) (by decide)
  simp only [h]
  rfl

/-- reading one element of a list -/
theorem readTail_elem (base n : Nat) (h r rest : List Nat) (t l : T) (hh : Head h)
    (e : read1 base (n + 1) (h ++ r) = (.val t, r)) (e' : readTail base (n + 1) r = (.val l, rest)) :
    readTail base (n + 2) (h ++ r) = (.val (.cons t l), rest) := by
  obtain ⟨c, w, rfl, h1, h2, h3, h4, h5⟩ := hh
  rw [List.cons_append] at e ⊢
  rw [readTail.eq_def]
  have hn : nextch (c :: (w ++ r)) = .ch c (w ++ r) := nextch_head c _ h1 h2 h3
  simp only [hn]
  rw [if_neg h4]
  by_cases h46 : c = 46
  · subst h46
    obtain ⟨d, w', rfl, d1, d2⟩ := h5 rfl
    rw [if_pos rfl]
    rw [read1_constituent _ _ _ _ (by rfl), if_neg (by decide), show to_upper 46 = 46 from rfl] at e
    simp only [List.cons_append] at e ⊢
    rw [if_neg (by omega), if_pos d2, e]
    simp only [e']
  · rw [if_neg h46, e]
    simp only [e']

/-- reading the dotted end of a list -/
theorem readTail_dot (base n : Nat) (h rest : List Nat) (t : T)
    (e : read1 base n (h ++ 41 :: rest) = (.val t, 41 :: rest)) :
    readTail base (n + 2) (46 :: 32 :: (h ++ 41 :: rest)) = (.val t, rest) := by
  rw [readTail.eq_def]
  have hn : nextch (46 :: 32 :: (h ++ 41 :: rest)) = .ch 46 (32 :: (h ++ 41 :: rest)) :=
    nextch_head 46 _ (by decide) (by decide) (by decide)
  have hw : syntaxtype 32 = .white := rfl
  have e1 : read1 base (n + 1) (32 :: (h ++ 41 :: rest)) = (.val t, 41 :: rest) := by
    rw [read1.eq_def]; simp only [hw]; exact e
  have hcl : nextch (41 :: rest) = .ch 41 rest := nextch_head 41 _ (by decide) (by decide) (by decide)
  simp only [hn]
  rw [if_neg (by decide), if_pos (by trivial), if_neg (by decide), if_neg (by rw [hw]; decide), if_pos hw, e1]
  simp only [hcl, if_true]

theorem read1_paren (base n : Nat) (s : List Nat) : read1 base (n + 1) (40 :: s) = readTail base n s := by
  have h : syntaxtype 40 = .termmacro := rfl
  rw [read1.eq_def]; simp only [h, if_true]

theorem read1_quote (base n : Nat) (s rest : List Nat) (t : T) (e : read1 base n s = (.val t, rest)) :
    read1 base (n + 1) (39 :: s) = (.val (.cons QUOTE (.cons t NIL)), rest) := by
  have h : syntaxtype 39 = .termmacro := rfl
  rw [read1.eq_def]; simp only [h]
  rw [if_neg (by decide), if_neg (by decide), if_neg (by decide), if_neg (by decide), if_pos (by trivial), e]

theorem read1_function (base n : Nat) (s rest : List Nat) (t : T) (e : read1 base n s = (.val t, rest)) :
    read1 base (n + 2) (35 :: 39 :: s) = (.val (.cons FUNCTION (.cons t NIL)), rest) := by
  have h : syntaxtype 35 = .nontermacro := rfl
  rw [read1.eq_def]; simp only [h]
  rw [if_neg (by decide), if_neg (by decide), if_neg (by decide), if_neg (by decide), if_neg (by decide),
    if_pos (by trivial), readsharp.eq_def]
  simp only
  rw [if_neg (by decide), if_neg (by decide)]
  simp only
  rw [if_neg (by decide), if_pos (by trivial), e]

/-- the printer, list by list -/
theorem prin1_cons (p : PCfg) (a d : T) (lev : Int) (h : 0 < lev) :
    (∃ x, a = QUOTE ∧ d = .cons x NIL ∧ prin1 p (.cons a d) lev = (prin1 p x (lev - 2)).map (39 :: ·)) ∨
    (∃ x, a = FUNCTION ∧ d = .cons x NIL ∧
      prin1 p (.cons a d) lev = (prin1 p x (lev - 2)).map (fun t => 35 :: 39 :: t)) ∨
    prin1 p (.cons a d) lev = listText (prin1 p a (lev - 1)) (printRest p d p.prlength (lev - 1)) := by
  rw [prin1.eq_def]
  simp only
  rw [if_neg (by omega)]
  cases d with
  | cons x r =>
    by_cases hq : a = QUOTE ∧ r = NIL
    · left
      have e : quoteMark a (.cons x r) = some [39] := by unfold quoteMark; simp only; rw [if_pos hq]
      refine ⟨x, hq.1, by rw [hq.2], ?_⟩
      rw [e]; simp only; rw [prin1Cadr]; rfl
    · right
      by_cases hf : a = FUNCTION ∧ r = NIL
      · left
        have e : quoteMark a (.cons x r) = some [35, 39] := by
          unfold quoteMark; simp only; rw [if_neg hq, if_pos hf]
        refine ⟨x, hf.1, by rw [hf.2], ?_⟩
        rw [e]; simp only; rw [prin1Cadr]; rfl
      · right
        have e : quoteMark a (.cons x r) = none := by
          unfold quoteMark; simp only; rw [if_neg hq, if_neg hf]
        rw [e]
  | _ => right; right; rfl

theorem prin1_atom (p : PCfg) (t : T) (lev : Int) (h : 0 < lev) (ht : ∀ a d, t ≠ .cons a d) :
    prin1 p t lev = printAtom p t := by
  cases t with
  | cons a d => exact absurd rfl (ht a d)
  | _ => rw [prin1.eq_def]; simp only; rw [if_neg (by omega)]

theorem printRest_atom (p : PCfg) (t : T) (len : Nat) (lev : Int) (h : 0 < lev)
    (ht : ∀ a d, t ≠ .cons a d) (hn : t ≠ NIL) :
    printRest p t len lev = (printAtom p t).map fun h => [32, 46, 32] ++ h ++ [41] := by
  cases t with
  | cons a d => exact absurd rfl (ht a d)
  | _ => rw [printRest.eq_def]; simp only; rw [if_neg hn, if_neg (by omega)]

/-- `t` prints and reads back -/
def PrintsReads (p : PCfg) (t : T) : Prop :=
  ∀ lev : Int, depth t < lev → ∃ txt, prin1 p t lev = some txt ∧ Head txt ∧
    ∀ rest k, Delim rest → txt.length ≤ k → read1 p.base k (txt ++ rest) = (.val t, rest)

/-- the rest of a list prints and reads back -/
def RestReads (p : PCfg) (t : T) : Prop :=
  ∀ (lev : Int) (len : Nat), depth t < lev + 1 → 0 < lev → spine t < len →
    ∃ txt, printRest p t len lev = some txt ∧ txt ≠ [] ∧ (∀ rest, Delim (txt ++ rest)) ∧
    ∀ rest k, txt.length ≤ k → readTail p.base k (txt ++ rest) = (.val t, rest)

theorem delim_cons (c : Nat) (s : List Nat) (h : EndsToken c) : Delim (c :: s) := by
  intro x hx
  simp only [List.head?_cons, Option.mem_def, Option.some.injEq] at hx
  rw [← hx]; exact h

theorem tree_read (p : PCfg) (hb : 2 ≤ p.base) (hb' : p.base ≤ 36) (t : T)
    (hg : GoodTree p.base p.prlength t) :
    PrintsReads p t ∧ RestReads p t ∧ ∀ x r, t = .cons x r → PrintsReads p x := by
  have atoms : ∀ t : T, (∀ a d, t ≠ .cons a d) → GoodTree p.base p.prlength t →
      PrintsReads p t ∧ RestReads p t ∧ ∀ x r, t = .cons x r → PrintsReads p x := by
    intro t ht hg
    obtain ⟨txt, e1, e2, e3⟩ := atom_read p hb hb' _ t hg ht
    refine ⟨?_, ?_, fun x r e => absurd e (ht x r)⟩
    · intro lev hlev
      refine ⟨txt, by rw [prin1_atom p t lev (by omega) ht, e1], e2, ?_⟩
      intro rest k hr hk
      obtain ⟨c, w, rfl, _⟩ := e2
      simp only [List.length_cons] at hk
      obtain ⟨k', rfl⟩ : ∃ k', k = k' + 1 := ⟨k - 1, by omega⟩
      exact e3 rest k' hr
    · intro lev len _ hlev _
      by_cases hn : t = NIL
      · refine ⟨[41], by rw [hn, printRest.eq_def]; simp [NIL], by simp, ?_, ?_⟩
        · intro rest; exact delim_cons 41 _ (Or.inr (by decide))
        · intro rest k hk
          simp only [List.length_singleton] at hk
          obtain ⟨k', rfl⟩ : ∃ k', k = k' + 1 := ⟨k - 1, by omega⟩
          rw [hn]; exact readTail_close p.base k' rest
      · refine ⟨[32, 46, 32] ++ txt ++ [41], by rw [printRest_atom p t len lev hlev ht hn, e1]; rfl,
          by simp, ?_, ?_⟩
        · intro rest; exact delim_cons 32 _ (Or.inl (by decide))
        · intro rest k hk
          have e : [32, 46, 32] ++ txt ++ [41] ++ rest = 32 :: 46 :: 32 :: (txt ++ 41 :: rest) := by simp
          simp only [List.length_append, List.length_cons, List.length_nil] at hk
          obtain ⟨k', rfl⟩ : ∃ k', k = k' + 3 := ⟨k - 3, by omega⟩
          rw [e, readTail_space]
          exact readTail_dot p.base (k' + 1) txt rest t (e3 _ k' (delim_cons 41 _ (Or.inr (by decide))))
  induction t with
  | cons a d iha ihd =>
    obtain ⟨ga, gd, gs⟩ := hg
    obtain ⟨a1, _, _⟩ := iha ga
    obtain ⟨_, d2, d3⟩ := ihd gd
    refine ⟨?_, ?_, ?_⟩
    · intro lev hlev
      have hda : depth a + 2 ≤ depth (.cons a d) := by simp [depth]
      have hdd : depth d ≤ depth (.cons a d) := by simp [depth]
      rcases prin1_cons p a d lev (by omega) with ⟨x, rfl, rfl, e⟩ | ⟨x, rfl, rfl, e⟩ | e
      · have hdx : depth x + 2 ≤ depth (.cons x NIL) := by simp [depth]
        obtain ⟨txt, x1, x2, x3⟩ := d3 x NIL rfl (lev - 2) (by omega)
        refine ⟨39 :: txt, by rw [e, x1]; rfl,
          ⟨39, _, rfl, by decide, by decide, by decide, by decide, fun h => absurd h (by decide)⟩, ?_⟩
        intro rest k hr hk
        simp only [List.length_cons] at hk
        obtain ⟨k', rfl⟩ : ∃ k', k = k' + 1 := ⟨k - 1, by omega⟩
        exact read1_quote _ _ _ _ _ (x3 rest k' hr (by omega))
      · have hdx : depth x + 2 ≤ depth (.cons x NIL) := by simp [depth]
        obtain ⟨txt, x1, x2, x3⟩ := d3 x NIL rfl (lev - 2) (by omega)
        refine ⟨35 :: 39 :: txt, by rw [e, x1]; rfl,
          ⟨35, _, rfl, by decide, by decide, by decide, by decide, fun h => absurd h (by decide)⟩, ?_⟩
        intro rest k hr hk
        simp only [List.length_cons] at hk
        obtain ⟨k', rfl⟩ : ∃ k', k = k' + 2 := ⟨k - 2, by omega⟩
        exact read1_function _ _ _ _ _ (x3 rest k' hr (by omega))
      · obtain ⟨ta, x1, x2, x3⟩ := a1 (lev - 1) (by omega)
        obtain ⟨td, y1, y2, y3, y4⟩ := d2 (lev - 1) p.prlength (by omega) (by omega) gs
        refine ⟨40 :: ta ++ td, by rw [e, x1, y1]; rfl,
          ⟨40, _, rfl, by decide, by decide, by decide, by decide, fun h => absurd h (by decide)⟩, ?_⟩
        intro rest k hr hk
        have hta : 0 < ta.length := by obtain ⟨c, w, rfl, _⟩ := x2; simp
        have htd : 0 < td.length := List.length_pos_iff.2 y2
        simp only [List.cons_append, List.length_cons, List.length_append] at hk
        obtain ⟨k', rfl⟩ : ∃ k', k = k' + 3 := ⟨k - 3, by omega⟩
        have e2 : 40 :: ta ++ td ++ rest = 40 :: (ta ++ (td ++ rest)) := by simp
        rw [e2, read1_paren]
        exact readTail_elem _ _ _ _ _ _ _ x2 (x3 _ _ (y3 rest) (by omega)) (y4 rest _ (by omega))
    · intro lev len hdep hlev hsp
      have hda : depth a + 2 ≤ depth (.cons a d) := by simp [depth]
      have hdd : depth d ≤ depth (.cons a d) := by simp [depth]
      simp only [spine] at hsp
      obtain ⟨ta, x1, x2, x3⟩ := a1 lev (by omega)
      obtain ⟨td, y1, y2, y3, y4⟩ := d2 lev (len - 1) (by omega) hlev (by omega)
      have e : printRest p (.cons a d) len lev = some (32 :: ta ++ td) := by
        rw [printRest.eq_def]; simp only; rw [if_neg (by omega), x1, y1]
      refine ⟨_, e, by simp, ?_, ?_⟩
      · intro rest; exact delim_cons 32 _ (Or.inl (by decide))
      · intro rest k hk
        have hta : 0 < ta.length := by obtain ⟨c, w, rfl, _⟩ := x2; simp
        have htd : 0 < td.length := List.length_pos_iff.2 y2
        simp only [List.cons_append, List.length_cons, List.length_append] at hk
        obtain ⟨k', rfl⟩ : ∃ k', k = k' + 2 := ⟨k - 2, by omega⟩
        have e2 : 32 :: ta ++ td ++ rest = 32 :: (ta ++ (td ++ rest)) := by simp
        rw [e2, readTail_space]
        exact readTail_elem _ _ _ _ _ _ _ x2 (x3 _ _ (y3 rest) (by omega)) (y4 rest _ (by omega))
    · rintro x r e
      obtain ⟨rfl, rfl⟩ := T.cons.inj e
      exact a1
  | _ => exact atoms _ (by simp) hg

/-! ### `read` -/

/-- the first character of what `read` reads -/
def First (txt : List Nat) : Prop :=
  ∃ c w, txt = c :: w ∧ c < 128 ∧ syntaxtype c ≠ .white ∧ c ≠ 59 ∧ c ≠ 41

theorem Head.first {txt : List Nat} (h : Head txt) : First txt := by
  obtain ⟨c, w, h1, h2, h3, h4, h5, _⟩ := h
  exact ⟨c, w, h1, h2, h3, h4, h5⟩

theorem reader_of_first (base : Nat) (txt rest : List Nat) (h : First txt) :
    reader base (txt ++ rest) =
      match read1 base ((txt ++ rest).length + 1) (txt ++ rest) with
      | (.unbound, rest) => (.val NIL, rest)
      | r => r := by
  obtain ⟨c, w, rfl, h1, h2, h3, h4⟩ := h
  rw [List.cons_append]
  unfold reader
  have hn : nextch (c :: (w ++ rest)) = .ch c (w ++ rest) := nextch_head c _ h1 h2 h3
  rw [skipParens, hn]
  simp only [if_neg h4, List.length_cons]
  rfl

theorem reader_of_read1 (base : Nat) (txt rest : List Nat) (t : T) (h : First txt)
    (e : read1 base ((txt ++ rest).length + 1) (txt ++ rest) = (.val t, rest)) :
    reader base (txt ++ rest) = (.val t, rest) := by
  rw [reader_of_first base txt rest h, e]

theorem sym_first (p : PCfg) (name : List Nat) (h : GoodName p.base name) (txt : List Nat)
    (ht : printname p name = some txt) : First txt := by
  obtain ⟨hc, hs, hb, hn, ha⟩ := h
  cases he : needEscape p.base name with
  | true =>
    rw [printname_esc p name hb he] at ht
    rw [← Option.some.inj ht]
    exact ⟨124, _, rfl, by decide, by decide, by decide, by decide⟩
  | false =>
    rw [printname_plain p name hb he] at ht
    rw [← Option.some.inj ht]
    have hpl := plain_char p.base name he
    cases name with
    | nil => simp [needEscape] at he
    | cons c w =>
      have hp := plain_lower c (hpl c (by simp)) p.down
      have hlf := lower_facts c p.down
      rw [List.map_cons]
      refine ⟨_, _, rfl, hlf.1 (ha c (by simp)), by rw [hp.1]; decide, ?_, ?_⟩
      · intro hh; simp only [hh] at hp; exact absurd hp.1 (by decide)
      · intro hh; simp only [hh] at hp; exact absurd hp.1 (by decide)

end Eus.Rd
