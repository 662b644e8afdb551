import Mathlib.Data.List.Range
import Verif.Rd.Trees
import Verif.Ary.Spec
set_option autoImplicit false
/-
Lemmas for C202.
-/
namespace Eus.Ary
open Eus.Rd Eus.Num

theorem delim_append (t s : List Nat) (hne : t ≠ []) (h : Delim t) : Delim (t ++ s) := by
  cases t with
  | nil => exact absurd rfl hne
  | cons c t => exact h

/-- The text is read as t. -/
def ReadsAs (base : Nat) (txt : List Nat) (t : T) : Prop :=
  Head txt ∧ ∀ rest k, Delim rest → txt.length ≤ k → read1 base k (txt ++ rest) = (.val t, rest)

theorem head_pos {txt : List Nat} (h : Head txt) : 0 < txt.length := by
  obtain ⟨c, w, rfl, _⟩ := h
  simp

/-- A list of the trees `g index`, `g (index + P)`, … -/
def rowsT (g : Nat → T) (P : Nat) : Nat → Nat → T
  | 0, _ => NIL
  | k + 1, index => .cons (g index) (rowsT g P k (index + P))

/-- Nested lists with the elements `x index`, `x (index + 1)`, … -/
def tree (x : Nat → T) : List Nat → Nat → T
  | [], index => x index
  | d :: ds, index => rowsT (tree x ds) (total ds) d index

/-- One list: its elements are read one by one. -/
theorem rows_reads (base : Nat) (f : Nat → Option (List Nat × Nat)) (g : Nat → T) (P : Nat) :
    ∀ (k index nx : Nat), (∀ i, i < k → ∃ t, f (index + i * P) = some (t, P) ∧ ReadsAs base t (g (index + i * P))) →
      ∃ txt nx', rows f k index nx = some (txt, nx') ∧ (0 < k → nx' = P) ∧ (k = 0 → nx' = nx) ∧
        (∀ rest, Delim (txt ++ 41 :: rest) ∨ 0 < k) ∧ (0 < k → Head txt ∨ ∃ h w, txt = h ++ w ∧ Head h) ∧
        ∀ rest kk, txt.length + 1 ≤ kk → readTail base kk (txt ++ 41 :: rest) = (.val (rowsT g P k index), rest)
  | 0, index, nx, _ => by
    refine ⟨[], nx, rfl, by omega, fun _ => rfl, fun rest => Or.inl (delim_cons 41 rest (Or.inr (by decide))), by omega, ?_⟩
    intro rest kk hk
    obtain ⟨n, rfl⟩ : ∃ n, kk = n + 1 := ⟨kk - 1, by simp at hk; omega⟩
    exact readTail_close base n rest
  | k + 1, index, nx, h => by
    obtain ⟨t, ht, hr⟩ := h 0 (by omega)
    simp only [Nat.zero_mul, Nat.add_zero] at ht hr
    obtain ⟨txt, nx', e1, e2, e3, e4, e5, e6⟩ := rows_reads base f g P k (index + P) P (fun i hi => by
      have := h (i + 1) (by omega)
      have hx : index + P + i * P = index + (i + 1) * P := by rw [Nat.add_mul]; omega
      rw [hx]; exact this)
    refine ⟨t ++ sep k ++ txt, nx', ?_, ?_, by omega, fun _ => Or.inr (by omega), fun _ => Or.inr ⟨t, sep k ++ txt, by simp, hr.1⟩, ?_⟩
    · rw [rows, ht]
      simp only [e1]
    · intro _
      by_cases hk : 0 < k
      · exact e2 hk
      · exact e3 (by omega)
    · intro rest kk hkk
      have hpos := head_pos hr.1
      by_cases hk : 0 < k
      · simp only [sep, if_pos hk, List.append_assoc, List.length_append, List.length_cons, List.length_nil] at hkk ⊢
        obtain ⟨n, rfl⟩ : ∃ n, kk = n + 2 := ⟨kk - 2, by omega⟩
        refine readTail_elem base n t (32 :: (txt ++ 41 :: rest)) rest (g index) _ hr.1 (hr.2 _ _ (delim_cons 32 _ (Or.inl (by decide))) (by omega)) ?_
        rw [readTail_space]
        exact e6 rest (n + 1) (by omega)
      · have hk0 : k = 0 := by omega
        subst hk0
        simp only [rows, Option.some.injEq, Prod.mk.injEq] at e1
        obtain ⟨rfl, _⟩ := e1
        simp only [sep, Nat.lt_irrefl, if_false, List.append_nil, List.append_assoc, List.nil_append] at hkk ⊢
        obtain ⟨n, rfl⟩ : ∃ n, kk = n + 2 := ⟨kk - 2, by omega⟩
        refine readTail_elem base n t (41 :: rest) rest (g index) _ hr.1 (hr.2 _ _ (delim_cons 41 _ (Or.inr (by decide))) (by omega)) ?_
        exact readTail_close base n rest

theorem prinary_reads (base : Nat) (e : Nat → Option (List Nat)) (x : Nat → T) :
    ∀ (ds : List Nat) (index : Nat), (∀ i, i < total ds → ∃ t, e (index + i) = some t ∧ ReadsAs base t (x (index + i))) →
      ∃ txt, prinary e ds index = some (txt, total ds) ∧ ReadsAs base txt (tree x ds index)
  | [], index, h => by
    obtain ⟨t, ht, hr⟩ := h 0 (by simp [total])
    exact ⟨t, by rw [Nat.add_zero] at ht; simp [prinary, ht, total], hr⟩
  | d :: ds, index, h => by
    obtain ⟨txt, nx, e1, e2, e3, _, _, e6⟩ := rows_reads base (prinary e ds) (tree x ds) (total ds) d index 0 (fun i hi => by
      apply prinary_reads base e x ds
      intro j hj
      have hlt : i * total ds + j < total (d :: ds) := by
        show _ < d * total ds
        calc i * total ds + j < i * total ds + total ds := by omega
          _ = (i + 1) * total ds := by rw [Nat.add_mul]; omega
          _ ≤ d * total ds := Nat.mul_le_mul_right _ hi
      have := h (i * total ds + j) hlt
      rw [← Nat.add_assoc] at this
      exact this)
    refine ⟨40 :: txt ++ [41], ?_, ?_, ?_⟩
    · rw [prinary, e1]
      simp only [total]
      by_cases hd : 0 < d
      · rw [e2 hd, Nat.mul_comm]
      · have : d = 0 := by omega
        subst this; simp
    · exact ⟨40, txt ++ [41], rfl, by decide, by decide, by decide, by decide, by intro h; omega⟩
    · intro rest k _ hk
      simp only [List.cons_append, List.length_cons, List.length_append, List.length_nil] at hk
      obtain ⟨n, rfl⟩ : ∃ n, k = n + 1 := ⟨k - 1, by omega⟩
      simp only [List.cons_append, List.append_assoc, List.nil_append]
      rw [read1_paren, e6 rest n (by omega)]
      rfl

/-! ### the dimensions -/

theorem rowsT_conses (g : Nat → T) (P : Nat) : ∀ (k index : Nat), (conses (rowsT g P k index)).length = k
  | 0, _ => rfl
  | k + 1, index => by simp [rowsT, conses, rowsT_conses g P k]

theorem listDims_tree (x : Nat → T) : ∀ (ds : List Nat) (d index : Nat), ds.length + 1 ≤ 7 → 0 < d → (∀ d ∈ ds, 0 < d) →
    (∀ a b, x index ≠ .cons a b) → listDims (tree x (d :: ds) index) = some (d :: ds)
  | [], d, index, _, hd, _, hx => by
    obtain ⟨k, rfl⟩ : ∃ k, d = k + 1 := ⟨d - 1, by omega⟩
    have hl := rowsT_conses x 1 (k + 1) index
    show listDims (rowsT (tree x []) 1 (k + 1) index) = _
    have htr : tree x [] = x := by funext i; rfl
    rw [htr]
    rw [rowsT] at hl ⊢
    cases hxi : x index with
    | cons a b => exact absurd hxi (hx a b)
    | _ => rw [hxi] at hl; simp only [listDims, hl]
  | d' :: ds, d, index, hr, hd, hds, hx => by
    obtain ⟨k, rfl⟩ : ∃ k, d = k + 1 := ⟨d - 1, by omega⟩
    have ih := listDims_tree x ds d' index (by simp at hr; omega) (hds d' (by simp)) (fun d hd => hds d (List.mem_cons_of_mem _ hd)) hx
    obtain ⟨k', hk'⟩ : ∃ k, d' = k + 1 := ⟨d' - 1, by have := hds d' (by simp); omega⟩
    have hl := rowsT_conses (tree x (d' :: ds)) (total (d' :: ds)) (k + 1) index
    show listDims (rowsT (tree x (d' :: ds)) (total (d' :: ds)) (k + 1) index) = _
    rw [rowsT] at hl ⊢
    subst hk'
    have hc : ∃ a b, tree x ((k' + 1) :: ds) index = .cons a b := ⟨_, _, rfl⟩
    obtain ⟨a, b, hab⟩ := hc
    rw [hab] at ih hl ⊢
    simp only [listDims, ih, Option.map_some, hl]

/-! ### the contents -/

def putAll : Nat → List T → Ent → Option Ent
  | _, [], v => some v
  | n, x :: xs, v => (v.put n x).bind (putAll (n + 1) xs)

theorem putAll_append : ∀ (xs ys : List T) (n : Nat) (v : Ent), putAll n (xs ++ ys) v = (putAll n xs v).bind (putAll (n + xs.length) ys)
  | [], ys, n, v => by simp [putAll]
  | x :: xs, ys, n, v => by
    simp only [List.cons_append, putAll]
    cases v.put n x with
    | none => rfl
    | some v' =>
      simp only [Option.bind_some]
      rw [putAll_append xs ys, List.length_cons, Nat.add_assoc, Nat.add_comm 1]

/-- x index, …, x (index + n - 1) -/
def els (x : Nat → T) (index n : Nat) : List T := (List.range' index n).map x

theorem els_append (x : Nat → T) (index m n : Nat) : els x index (m + n) = els x index m ++ els x (index + m) n := by
  unfold els
  rw [← List.map_append, List.range'_append_1]

theorem els_length (x : Nat → T) (index n : Nat) : (els x index n).length = n := by simp [els]

theorem fillRow_eq (major : Nat) : ∀ (xs : List T) (inc offset : Nat) (v : Ent), inc + xs.length ≤ major → fillRow major inc xs offset v = putAll offset xs v
  | [], _, _, _, _ => rfl
  | x :: xs, inc, offset, v, h => by
    simp only [List.length_cons] at h
    simp only [fillRow, putAll]
    cases v.put offset x with
    | none => rfl
    | some v' =>
      simp only [Option.bind_some]
      rw [if_neg (by omega)]
      exact fillRow_eq major xs (inc + 1) (offset + 1) v' (by omega)

theorem foldl_total : ∀ (ds : List Nat) (a : Nat), ds.foldl (· * ·) a = a * total ds
  | [], a => by simp [total]
  | d :: ds, a => by rw [List.foldl_cons, foldl_total ds, total, Nat.mul_assoc]

theorem conses_rowsT_1 (x : Nat → T) : ∀ (k index : Nat), conses (rowsT x 1 k index) = els x index k
  | 0, _ => rfl
  | k + 1, index => by
    rw [rowsT, conses, conses_rowsT_1 x k]
    simp [els, List.range'_succ]

theorem seqElems_rowsT (g : Nat → T) (P k index : Nat) : seqElems (rowsT g P k index) = some (conses (rowsT g P k index)) := by
  cases k with
  | zero => rfl
  | succ k => rfl

theorem fillRows_eq (x : Nat → T) (ds : List Nat) (fill : T → Nat → Ent → Option Ent)
    (hf : ∀ index offset v, fill (tree x ds index) offset v = putAll offset (els x index (total ds)) v) :
    ∀ (k index offset : Nat) (v : Ent), fillRows fill (total ds) k (conses (rowsT (tree x ds) (total ds) k index)) offset v = putAll offset (els x index (k * total ds)) v
  | 0, index, offset, v => by simp [fillRows, rowsT, conses, els, putAll]
  | k + 1, index, offset, v => by
    rw [rowsT, conses, fillRows, hf, Nat.add_mul, Nat.one_mul, Nat.add_comm (k * total ds), els_append, putAll_append, els_length]
    cases putAll offset (els x index (total ds)) v with
    | none => rfl
    | some v' =>
      simp only [Option.bind_some]
      exact fillRows_eq x ds fill hf k (index + total ds) (offset + total ds) v'

theorem fillContents_tree (x : Nat → T) : ∀ (ds : List Nat) (d index offset : Nat) (v : Ent),
    fillContents (d :: ds) (tree x (d :: ds) index) offset v = putAll offset (els x index (total (d :: ds))) v
  | [], d, index, offset, v => by
    show (seqElems (rowsT (tree x []) 1 d index)).bind _ = _
    have htr : tree x [] = x := by funext i; rfl
    rw [htr, seqElems_rowsT, Option.bind_some, conses_rowsT_1, fillRow_eq _ _ _ _ _ (by rw [els_length]; omega)]
    simp [total]
  | d' :: ds, d, index, offset, v => by
    show (seqElems (rowsT (tree x (d' :: ds)) (total (d' :: ds)) d index)).bind _ = _
    rw [seqElems_rowsT, Option.bind_some, foldl_total, Nat.one_mul]
    exact fillRows_eq x (d' :: ds) _ (fun index offset v => fillContents_tree x ds d' index offset v) d index offset v

theorem putAll_objs : ∀ (xs a b : List T), xs.length ≤ b.length → putAll a.length xs (.objs (a ++ b)) = some (.objs (a ++ xs ++ b.drop xs.length))
  | [], a, b, _ => by simp [putAll]
  | x :: xs, a, b, h => by
    cases b with
    | nil => simp at h
    | cons y b =>
      simp only [List.length_cons] at h
      have hp : Ent.put a.length x (.objs (a ++ y :: b)) = some (.objs ((a ++ [x]) ++ b)) := by
        simp [Ent.put]
      rw [putAll, hp, Option.bind_some]
      have := putAll_objs xs (a ++ [x]) b (by omega)
      rw [List.length_append, List.length_singleton] at this
      rw [this]
      simp

theorem putAll_ints : ∀ (ms : List Num) (a b : List Word), ms.length ≤ b.length →
    putAll a.length (ms.map T.int) (.ints (a ++ b)) = some (.ints (a ++ ms.map bigintval ++ b.drop ms.length))
  | [], a, b, _ => by simp [putAll]
  | m :: ms, a, b, h => by
    cases b with
    | nil => simp at h
    | cons y b =>
      simp only [List.length_cons] at h
      have hp : Ent.put a.length (.int m) (.ints (a ++ y :: b)) = some (.ints ((a ++ [bigintval m]) ++ b)) := by
        simp [Ent.put]
      rw [List.map_cons, putAll, hp, Option.bind_some]
      have := putAll_ints ms (a ++ [bigintval m]) b (by omega)
      rw [List.length_append, List.length_singleton] at this
      rw [this]
      simp

/-- make-array from nested lists -/
theorem makeArray_tree (ty : Ty) (x : Nat → T) (d : Nat) (ds : List Nat) (index : Nat) (hr : ds.length + 1 ≤ 7) :
    makeArray ty (d :: ds) (tree x (d :: ds) index) =
      (putAll 0 (els x index (total (d :: ds))) (ty.make (max 1 (total (d :: ds))))).map fun v => ⟨v, d :: ds, none, 0⟩ := by
  unfold makeArray
  rw [if_neg (by simp; omega), foldl_total, Nat.one_mul]
  split
  · next h =>
    have hd : d = 0 := by
      cases d with
      | zero => rfl
      | succ k => cases h
    subst hd
    simp [total, els, putAll]
  · rw [fillContents_tree]

/-! ### the text -/

theorem sharp_prefix (base r c : Nat) (rest : List Nat) (hr : r ≤ 7) (hc : c < 128) (hw : syntaxtype c ≠ .white) (h59 : c ≠ 59) (hd : ¬ (48 ≤ c ∧ c ≤ 57)) :
    sharp base ((48 + r) :: c :: rest) =
      (if to_upper c = 65 then withRead base rest readA
      else if to_upper c = 73 then withRead base rest (readI r)
      else if c = 40 ∧ r = 0 then
        match readvector base (rest.length + 1) rest with
        | .done v rest => .ok (.vec (.objs v)) rest
        | .err => .err
        | .ub => .ub
        | .other => .other
      else if c = 42 then readBits rest
      else .other) := by
  unfold sharp
  have h1 : sharpNum ((48 + r) :: c :: rest).length (48 + r - 48) (c :: rest) = (r, .ch c rest) := by
    simp only [List.length_cons]
    rw [sharpNum, nextch_head c rest hc hw h59]
    simp only [if_neg hd]
    simp
  simp only [h1, if_pos (show 48 ≤ 48 + r ∧ 48 + r ≤ 57 by omega)]
  rfl

theorem readObj_sharp (base : Nat) (s : List Nat) : readObj base (35 :: s) = sharp base s := by
  unfold readObj
  have : skipParens ((35 :: s).length + 1) (35 :: s) = .ch 35 s := by
    rw [skipParens, nextch_head 35 s (by decide) (by decide) (by decide)]
    rfl
  rw [this]
  rfl

theorem withRead_reads (base : Nat) (txt rest : List Nat) (t : T) (f : T → Option V) (h : ReadsAs base txt t) (hr : Delim rest) :
    withRead base (txt ++ rest) f = match f t with
      | some v => .ok v rest
      | none => .err := by
  unfold withRead
  rw [reader_of_read1 base txt rest t h.1.first (h.2 rest _ hr (by simp; omega))]
  rfl

/-! ### elements -/

theorem readsAs_of_good (p : PCfg) (hb : 2 ≤ p.base) (hb' : p.base ≤ 36) (t : T) (hg : GoodTree p.base p.prlength t) (lev : Int) (hd : (depth t : Int) < lev) :
    ∃ txt, prin1 p t lev = some txt ∧ ReadsAs p.base txt t := by
  obtain ⟨h, _, _⟩ := tree_read p hb hb' t hg
  obtain ⟨txt, e, hh, hr⟩ := h lev hd
  exact ⟨txt, e, hh, hr⟩


open Classical in
/-- The integer read back for a word -/
noncomputable def numOf (w : Word) : Num := if InFix w.toInt then .fix w else .big [w]

theorem numOf_val (w : Word) : (numOf w).val = w.toInt := by
  unfold numOf
  split <;> rfl

theorem numOf_bigintval (w : Word) : bigintval (numOf w) = w := by
  unfold numOf
  split <;> rfl

theorem numOf_canonical (w : Word) : (numOf w).Canonical := by
  unfold numOf
  split
  · next h => exact h
  · next h => exact ⟨trivial, h, by simp⟩

theorem printint_spec (base : Nat) (down : Bool) (hb : 2 ≤ base) (hb' : base ≤ 36) (w : Word) (hm : w.toInt ≠ -2 ^ 63) :
    ∃ ds : List Nat, ds ≠ [] ∧ (∀ d ∈ ds, d < base) ∧ posVal base ds = w.toInt.natAbs ∧ (ds.head? = some 0 → ds = [0]) ∧
      printint base down w 0 0 = some ((if w.toInt < 0 then [45] else []) ++ ds.map (digitChar down)) := by
  have hrange : -2 ^ 63 ≤ w.toInt ∧ w.toInt < 2 ^ 63 := ⟨BitVec.le_toInt w, BitVec.toInt_lt⟩
  have hnum : (if decide (w.toInt < 0) = true then -w else w).toNat = w.toInt.natAbs := by
    by_cases h : w.toInt < 0
    · simp only [h, decide_true, if_true]
      have e := toInt_neg' w (by omega)
      have := toNat_of_nonneg (-w) (by omega)
      omega
    · simp only [h, decide_false, Bool.false_eq_true, if_false]
      have := toNat_of_nonneg w (by omega)
      omega
  have hlt : w.toInt.natAbs < base ^ (64 + 1) := by
    have h1 : 2 ^ 65 ≤ base ^ 65 := Nat.pow_le_pow_left hb 65
    have h4 : (2:Nat) ^ 65 = 36893488147419103232 := by norm_num
    show w.toInt.natAbs < base ^ 65
    omega
  obtain ⟨ds, h1, h2, h3, h5, h4⟩ := workLoop_spec base down hb hb' 64 w.toInt.natAbs [] hlt
  refine ⟨ds, h1, h2, h3, h5, ?_⟩
  have hlen : ds.length ≥ 1 := List.length_pos_iff.2 h1
  simp only [printint]
  rw [if_neg (by omega), hnum, h4]
  simp only [List.append_nil, List.length_map, decide_eq_true_eq]
  by_cases h : w.toInt < 0
  · simp only [h, if_true]
    rw [if_neg (by omega), pad_neg _ _ (by omega), pad_neg _ _ (by omega)]; simp
  · simp only [h, if_false]
    rw [if_neg (by omega), pad_neg _ _ (by omega), pad_neg _ _ (by omega)]; simp

/-- The text of a word reads as its integer. -/
theorem word_read (p : PCfg) (hb : 2 ≤ p.base) (hb' : p.base ≤ 36) (w : Word) (hm : w.toInt ≠ -2 ^ 63) (hg : GoodInt p.base w.toInt) :
    ∃ txt, printint p.base p.down w 0 0 = some txt ∧ ReadsAs p.base txt (.int (numOf w)) := by
  obtain ⟨ds, h1, h2, h3, h5, h4⟩ := printint_spec p.base p.down hb hb' w hm
  have hf := forall2_digitChar p.down p.base hb' ds h2
  have hlt := posVal_lt p.base ds h2
  have hge := posVal_ge p.base ds h5 h1
  have hnum : Numeral p.base ((if w.toInt < 0 then [45] else []) ++ ds.map (digitChar p.down)) w.toInt := by
    by_cases hneg : w.toInt < 0
    · rw [if_pos hneg]
      exact Or.inr (Or.inr ⟨_, w.toInt.natAbs, rfl, ⟨ds, h1, h2, hf, h3⟩, by omega⟩)
    · rw [if_neg hneg]
      exact Or.inl ⟨w.toInt.natAbs, ⟨ds, h1, h2, hf, h3⟩, by omega⟩
  refine ⟨_, h4, ?_, ?_⟩
  · obtain ⟨c, t, e, q1, q2, q3, q4⟩ := numeral_head _ _ _ hnum
    rw [e] at hnum ⊢
    have := (numeral_plain _ _ _ hnum).2 c (by simp)
    exact head_of_plain c t this.1 q1 q4
  intro rest k hr hk
  have hpos : 1 ≤ k := by
    have : 1 ≤ ds.length := List.length_pos_iff.2 h1
    simp at hk
    omega
  obtain ⟨k, rfl⟩ : ∃ n, k = n + 1 := ⟨k - 1, by omega⟩
  obtain ⟨g1, g2⟩ := hg
  have hlen : ds.length ≤ 1022 := by
    rcases hge with hge | hge
    · omega
    · by_contra hc
      have : p.base ^ 1022 ≤ p.base ^ (ds.length - 1) := Nat.pow_le_pow_right (by omega) (by omega)
      omega
  have hlt' : w.toInt.natAbs < p.base ^ ds.length := by
    rcases hlt with hlt | hlt
    · omega
    · exact absurd hlt.1 h1
  obtain ⟨m, m1, m2, m3⟩ := read1_numeral p.base hb hb' _ rest w.toInt hnum (by
    rintro ⟨s1, s2⟩
    rcases g2 with g2 | g2 | g2
    · exact s2 g2
    · have hneg : ¬ w.toInt < 0 := by
        have : (0:Int) ≤ (p.base:Int) ^ 7 := by positivity
        omega
      rw [if_neg hneg] at s1
      simp only [List.nil_append, List.length_map] at s1
      have : p.base ^ ds.length ≤ p.base ^ 7 := Nat.pow_le_pow_right (by omega) (by omega)
      have h7 : ((p.base ^ 7 : Nat) : Int) = (p.base : Int) ^ 7 := by push_cast; rfl
      omega
    · have hpos : (0:Int) < (p.base:Int) ^ 6 := by positivity
      have hneg : w.toInt < 0 := by omega
      rw [if_pos hneg] at s1
      simp only [List.singleton_append, List.length_cons, List.length_map] at s1
      have : p.base ^ ds.length ≤ p.base ^ 6 := Nat.pow_le_pow_right (by omega) (by omega)
      have h7 : ((p.base ^ 6 : Nat) : Int) = (p.base : Int) ^ 6 := by push_cast; rfl
      omega) (by
    split_ifs <;> simp <;> omega) hr k
  rw [m3, canon_unique_num m (numOf w) m1 (numOf_canonical w) (by rw [m2, numOf_val])]

/-! ### vectors -/

theorem elems_rows (e : Nat → Option (List Nat)) : ∀ (k i nx : Nat), elems e k i = (rows (prinary e []) k i nx).map Prod.fst
  | 0, _, _ => rfl
  | k + 1, i, nx => by
    rw [elems, rows]
    rw [prinary]
    cases e i with
    | none => rfl
    | some t =>
      simp only [Option.map_some]
      rw [elems_rows e k (i + 1) 1]
      cases rows (prinary e []) k (i + 1) 1 with
      | none => rfl
      | some r => rfl

theorem readvector_space (base : Nat) : ∀ (n : Nat) (s : List Nat), readvector base n (32 :: s) = readvector base n s
  | 0, _ => rfl
  | n + 1, s => by
    rw [readvector, readvector]
    have : nextch (32 :: s) = nextch s := by
      conv_lhs => rw [nextch]
      rfl
    rw [this]

theorem readvector_close (base n : Nat) (s : List Nat) : readvector base (n + 1) (41 :: s) = .done [] s := by
  rw [readvector, nextch_head 41 s (by decide) (by decide) (by decide)]
  rfl

theorem readvector_elem (base n : Nat) (h r rest : List Nat) (t : T) (l : List T) (hh : Head h)
    (e : read1 base n (h ++ r) = (.val t, r)) (e2 : readvector base n r = .done l rest) :
    readvector base (n + 1) (h ++ r) = .done (t :: l) rest := by
  obtain ⟨c, w, rfl, h1, h2, h3, h4, _⟩ := hh
  rw [List.cons_append] at e ⊢
  rw [readvector, nextch_head c _ h1 h2 h3]
  simp only [if_neg h4, e, e2, VR.push]

theorem elems_reads (base : Nat) (e : Nat → Option (List Nat)) (x : Nat → T) : ∀ (k i : Nat),
    (∀ j, j < k → ∃ t, e (i + j) = some t ∧ ReadsAs base t (x (i + j))) →
      ∃ txt, elems e k i = some txt ∧ ∀ rest n, txt.length + 1 ≤ n → readvector base n (txt ++ 41 :: rest) = .done (els x i k) rest
  | 0, i, _ => by
    refine ⟨[], rfl, ?_⟩
    intro rest n hn
    obtain ⟨n, rfl⟩ : ∃ m, n = m + 1 := ⟨n - 1, by simp at hn; omega⟩
    exact readvector_close base n rest
  | k + 1, i, h => by
    obtain ⟨t, ht, hr⟩ := h 0 (by omega)
    rw [Nat.add_zero] at ht hr
    obtain ⟨txt, e1, e2⟩ := elems_reads base e x k (i + 1) (fun j hj => by
      have := h (j + 1) (by omega)
      rw [Nat.add_assoc, Nat.add_comm 1]; exact this)
    refine ⟨t ++ sep k ++ txt, by rw [elems, ht, e1], ?_⟩
    intro rest n hn
    have hpos := head_pos hr.1
    have hels : els x i (k + 1) = x i :: els x (i + 1) k := by simp [els, List.range'_succ]
    rw [hels]
    by_cases hk : 0 < k
    · simp only [sep, if_pos hk, List.append_assoc, List.length_append, List.length_cons, List.length_nil] at hn ⊢
      obtain ⟨n, rfl⟩ : ∃ m, n = m + 1 := ⟨n - 1, by omega⟩
      refine readvector_elem base n t (32 :: (txt ++ 41 :: rest)) rest _ _ hr.1 (hr.2 _ _ (delim_cons 32 _ (Or.inl (by decide))) (by omega)) ?_
      rw [readvector_space]
      exact e2 rest n (by omega)
    · have hk0 : k = 0 := by omega
      subst hk0
      simp only [elems, Option.some.injEq] at e1
      subst e1
      simp only [sep, Nat.lt_irrefl, if_false, List.append_nil, List.append_assoc, List.nil_append] at hn ⊢
      obtain ⟨n, rfl⟩ : ∃ m, n = m + 2 := ⟨n - 2, by omega⟩
      refine readvector_elem base (n + 1) t (41 :: rest) rest _ _ hr.1 (hr.2 _ _ (delim_cons 41 _ (Or.inr (by decide))) (by omega)) ?_
      exact readvector_close base n rest

theorem els_getD (v : List T) (i n : Nat) (h : i + n ≤ v.length) : els (fun i => v.getD i NIL) i n = (v.drop i).take n := by
  apply List.ext_getElem
  · simp [els]; omega
  · intro j h1 h2
    simp only [els_length] at h1
    simp only [els, List.getElem_map, List.getElem_range', Nat.one_mul, List.getElem_take, List.getElem_drop]
    rw [List.getD_eq_getElem?_getD, List.getElem?_eq_getElem (by omega)]
    rfl

theorem els_map (f : Nat → Num) (i n : Nat) : els (fun i => .int (f i)) i n = ((List.range' i n).map f).map T.int := by
  simp [els]

theorem els_words (v : List Word) (i n : Nat) (h : i + n ≤ v.length) :
    (((List.range' i n).map fun i => numOf (v.getD i 0)).map bigintval) = (v.drop i).take n := by
  apply List.ext_getElem
  · simp; omega
  · intro j h1 h2
    simp only [List.length_map, List.length_range'] at h1
    simp only [List.getElem_map, List.getElem_range', Nat.one_mul, List.getElem_take, List.getElem_drop, numOf_bigintval]
    rw [List.getD_eq_getElem?_getD, List.getElem?_eq_getElem (by omega)]
    rfl

theorem intVector_map : ∀ (ms : List Num), intVector (ms.map T.int) = some (ms.map bigintval)
  | [] => rfl
  | m :: ms => by simp [intVector, intVector_map ms]

theorem shape_shown (a : Ary) (ds : List Nat) (h : Shape a ds) : shownDims a = ds ∧ a.dims.length = ds.length := by
  unfold shownDims
  rcases h with ⟨d, n, h1, h2, rfl⟩ | ⟨rfl, h | h⟩
  · rw [h1, h2]; exact ⟨rfl, rfl⟩
  · rw [h]; split <;> simp_all
  · split
    · next h1 _ => rw [h1] at h; simp at h
    · exact ⟨rfl, rfl⟩

theorem total_pos : ∀ ds : List Nat, (∀ d ∈ ds, 0 < d) → 0 < total ds
  | [], _ => by decide
  | d :: ds, h => Nat.mul_pos (h d (by simp)) (total_pos ds fun x hx => h x (List.mem_cons_of_mem _ hx))

theorem sharp_letter (base c : Nat) (rest : List Nat) (hd : ¬ (48 ≤ c ∧ c ≤ 57)) :
    sharp base (c :: rest) =
      (if to_upper c = 65 then withRead base rest readA
      else if to_upper c = 73 then withRead base rest (readI 0)
      else if c = 40 ∧ (0 : Nat) = 0 then
        match readvector base (rest.length + 1) rest with
        | .done v rest => .ok (.vec (.objs v)) rest
        | .err => .err
        | .ub => .ub
        | .other => .other
      else if c = 42 then readBits rest
      else .other) := by
  unfold sharp
  simp only [if_neg hd]
  rfl

end Eus.Ary
