import Mathlib.Tactic.Ring
import Verif.Txw.Spec
set_option autoImplicit false
/-
C217-C219: text windows.
-/
namespace Eus.Txw
open Spec

theorem getD_snoc_nil (l : List (List Char)) (i : Nat) : (l ++ [[]]).getD i [] = l.getD i [] := by
  simp only [List.getD_eq_getElem?_getD, List.getElem?_append]
  by_cases h : i < l.length
  · rw [if_pos h]
  · rw [if_neg h, List.getElem?_eq_none (by omega : l.length ≤ i)]
    by_cases h2 : i - l.length = 0
    · rw [h2]; rfl
    · rw [List.getElem?_eq_none (by simp; omega)]

theorem getD_pad (l : List Char) (k c : Nat) : (l ++ List.replicate k ' ').getD c ' ' = l.getD c ' ' := by
  simp only [List.getD_eq_getElem?_getD, List.getElem?_append]
  by_cases h : c < l.length
  · rw [if_pos h]
  · rw [if_neg h, List.getElem?_eq_none (by omega : l.length ≤ c), List.getElem?_replicate]
    by_cases h2 : c - l.length < k
    · rw [if_pos h2]; rfl
    · rw [if_neg h2]

theorem getD_snoc (l : List Char) (ch : Char) (c : Nat) : (l ++ [ch]).getD c ' ' = if c = l.length then ch else l.getD c ' ' := by
  simp only [List.getD_eq_getElem?_getD, List.getElem?_append]
  by_cases h : c < l.length
  · rw [if_pos h, if_neg (by omega)]
  · rw [if_neg h]
    by_cases h2 : c = l.length
    · rw [if_pos h2, h2]; simp
    · rw [if_neg h2, List.getElem?_eq_none (by omega : l.length ≤ c), List.getElem?_eq_none (by simp; omega)]

/-- the line of number i, the last being `cur` -/
theorem lines_getD (d : List (List Char)) (cur : List Char) (i : Nat) : (d ++ [cur]).getD i [] = if i = d.length then cur else d.getD i [] := by
  simp only [List.getD_eq_getElem?_getD, List.getElem?_append]
  by_cases h : i < d.length
  · rw [if_pos h, if_neg (by omega)]
  · rw [if_neg h]
    by_cases h2 : i = d.length
    · rw [if_pos h2, h2]; simp
    · rw [if_neg h2, List.getElem?_eq_none (by omega : d.length ≤ i), List.getElem?_eq_none (by simp; omega)]

/-- the window shows the paper; the line being printed may be full -/
structure Shows (w : Win) (p : Paper) : Prop where
  row : w.row = min p.done.length (w.rows - 1)
  col : w.col = p.cur.length
  cell : ∀ r c, r < w.rows → c < w.cols → w.cell r c = ((p.done ++ [p.cur]).getD (p.done.length - w.row + r) []).getD c ' '

theorem scroll_one_cell (w : Win) (r c : Nat) (h : r < w.rows) : (scroll w 1).cell r c = if r + 1 < w.rows then w.cell (r + 1) c else ' ' := by
  have hk : (min (w.rows : Int) ((1 : Int).natAbs : Int)) = 1 := by
    have : ((1 : Int).natAbs : Int) = 1 := rfl
    rw [this]; omega
  show scrollRows (fun _ => ' ') w.rows w.cell 1 r c = _
  unfold scrollRows
  rw [if_neg (by omega), if_pos (by omega)]
  show clearRows (fun _ => ' ') (copyRows w.cell 1 0 (w.rows - min (w.rows : Int) ((1 : Int).natAbs : Int))) (w.rows - 1) (min (w.rows : Int) ((1 : Int).natAbs : Int)) r c = _
  rw [hk]
  unfold clearRows copyRows
  by_cases hr : r + 1 < w.rows
  · rw [if_pos hr, if_neg (by omega), if_pos (by omega)]
    congr 1
    omega
  · rw [if_neg hr, if_pos (by omega)]

/-- line feed -/
theorem wrapUp_shows (w : Win) (p : Paper) (hr : 0 < w.rows) (h : Shows w p) :
    Shows (wrapUp { w with col := 0, row := w.row + 1 }) ⟨p.done ++ [p.cur], []⟩ := by
  obtain ⟨h1, h2, h3⟩ := h
  unfold wrapUp
  by_cases hw : w.rows ≤ w.row + 1
  · rw [if_pos hw]
    refine ⟨?_, rfl, ?_⟩
    · show w.row + 1 - 1 = min (p.done ++ [p.cur]).length (w.rows - 1)
      rw [List.length_append]; simp only [List.length_singleton]; omega
    · intro r c hlr hlc
      have hlr' : r < w.rows := hlr
      have hlc' : c < w.cols := hlc
      show (scroll { w with col := 0, row := w.row + 1 } 1).cell r c = (((p.done ++ [p.cur]) ++ [[]]).getD ((p.done ++ [p.cur]).length - (w.row + 1 - 1) + r) []).getD c ' '
      rw [scroll_one_cell { w with col := 0, row := w.row + 1 } r c hlr', getD_snoc_nil]
      show (if r + 1 < w.rows then w.cell (r + 1) c else ' ') = _
      have hi : (p.done ++ [p.cur]).length - (w.row + 1 - 1) + r = p.done.length - w.row + (r + 1) := by
        rw [List.length_append]; simp only [List.length_singleton]; omega
      rw [hi]
      by_cases hh : r + 1 < w.rows
      · rw [if_pos hh, h3 _ _ hh hlc']
      · rw [if_neg hh]
        have : (p.done ++ [p.cur]).getD (p.done.length - w.row + (r + 1)) [] = [] := by
          rw [List.getD_eq_getElem?_getD, List.getElem?_eq_none]
          · rfl
          · rw [List.length_append]; simp only [List.length_singleton]; omega
        rw [this]; rfl
  · rw [if_neg hw]
    refine ⟨?_, rfl, ?_⟩
    · show w.row + 1 = min (p.done ++ [p.cur]).length (w.rows - 1)
      rw [List.length_append]; simp only [List.length_singleton]; omega
    · intro r c hlr hlc
      have hlr' : r < w.rows := hlr
      have hlc' : c < w.cols := hlc
      show w.cell r c = (((p.done ++ [p.cur]) ++ [[]]).getD ((p.done ++ [p.cur]).length - (w.row + 1) + r) []).getD c ' '
      rw [getD_snoc_nil, h3 _ _ hlr' hlc']
      have : (p.done ++ [p.cur]).length - (w.row + 1) + r = p.done.length - w.row + r := by
        rw [List.length_append]; simp only [List.length_singleton]; omega
      rw [this]

/-- a character in its cell -/
theorem set_shows (w : Win) (p : Paper) (ch : Char) (hr : 0 < w.rows) (h : Shows w p) :
    Shows { setCell w w.row w.col ch with col := w.col + 1 } ⟨p.done, p.cur ++ [ch]⟩ := by
  obtain ⟨h1, h2, h3⟩ := h
  refine ⟨h1, ?_, ?_⟩
  · show w.col + 1 = (p.cur ++ [ch]).length
    rw [List.length_append, h2]; rfl
  · intro r c hlr hlc
    have hlr' : r < w.rows := hlr
    have hlc' : c < w.cols := hlc
    show (if r = w.row ∧ c = w.col then ch else w.cell r c) = ((p.done ++ [p.cur ++ [ch]]).getD (p.done.length - w.row + r) []).getD c ' '
    rw [h3 _ _ hlr' hlc', lines_getD, lines_getD]
    by_cases hx : r = w.row
    · have : p.done.length - w.row + r = p.done.length := by omega
      rw [if_pos this, if_pos this, getD_snoc, h2]
      by_cases hy : c = p.cur.length
      · rw [if_pos ⟨hx, hy⟩, if_pos hy]
      · rw [if_neg (fun a => hy a.2), if_neg hy]
    · have : p.done.length - w.row + r ≠ p.done.length := by omega
      rw [if_neg this, if_neg this, if_neg (fun a => hx a.1)]

theorem putch_keeps (w : Win) (ch : Char) : (putch w ch).rows = w.rows ∧ (putch w ch).cols = w.cols := by
  have hw : ∀ v : Win, (wrapUp v).rows = v.rows ∧ (wrapUp v).cols = v.cols := by
    intro v; unfold wrapUp; split <;> exact ⟨rfl, rfl⟩
  unfold putch
  split
  · exact hw _
  · split
    · exact ⟨rfl, rfl⟩
    · exact hw _

/-- one character -/
theorem putch_shows (w : Win) (p : Paper) (ch : Char) (hr : 0 < w.rows) (hc : w.col < w.cols) (h : Shows w p) :
    Shows (putch w ch) (print w.cols p ch) ∧ (putch w ch).col < w.cols := by
  have h' := h
  obtain ⟨h1, h2, h3⟩ := h'
  have hw : ∀ v : Win, (wrapUp v).col = v.col := by
    intro v; unfold wrapUp; split <;> rfl
  unfold putch print
  by_cases e1 : ch = '\n'
  · rw [if_pos e1, if_pos e1]
    refine ⟨wrapUp_shows w p hr h, ?_⟩
    show (wrapUp _).col < _
    rw [hw]; show 0 < w.cols; omega
  · rw [if_neg e1, if_neg e1]
    by_cases e2 : ch = '\t'
    · rw [if_pos e2, if_pos e2]
      have hg : ((w.col + 8) / 8) * 8 = (p.cur.length / 8 + 1) * 8 := by rw [h2]; omega
      refine ⟨⟨?_, ?_, ?_⟩, ?_⟩
      · show min (w.rows - 1) w.row = min p.done.length (w.rows - 1); omega
      · show min (w.cols - 1) (((w.col + 8) / 8) * 8) = (p.cur ++ List.replicate _ ' ').length
        rw [List.length_append, List.length_replicate, hg]; omega
      · intro r c hlr hlc
        have hlr' : r < w.rows := hlr
        have hlc' : c < w.cols := hlc
        show w.cell r c = ((p.done ++ [p.cur ++ List.replicate _ ' ']).getD (p.done.length - min (w.rows - 1) w.row + r) []).getD c ' '
        have : min (w.rows - 1) w.row = w.row := by omega
        rw [this, h3 _ _ hlr' hlc', lines_getD, lines_getD]
        split
        · rw [getD_pad]
        · rfl
      · show min (w.cols - 1) _ < w.cols; omega
    · rw [if_neg e2, if_neg e2]
      have hs := set_shows w p ch hr h
      by_cases e3 : p.cur.length + 1 = w.cols
      · rw [if_pos e3]
        have ha : advance (setCell w w.row w.col ch) 1 = { ({ setCell w w.row w.col ch with col := w.col + 1 } : Win) with col := 0, row := w.row + 1 } := by
          have q1 : w.col + 1 = w.cols := by omega
          show ({ setCell w w.row w.col ch with row := w.row + (w.col + 1) / w.cols, col := (w.col + 1) % w.cols } : Win) = _
          rw [q1, Nat.div_self (by omega), Nat.mod_self]
        rw [ha]
        refine ⟨wrapUp_shows { setCell w w.row w.col ch with col := w.col + 1 } ⟨p.done, p.cur ++ [ch]⟩ hr hs, ?_⟩
        rw [hw]; show 0 < w.cols; omega
      · rw [if_neg e3]
        have q1 : w.col + 1 < w.cols := by omega
        have ha : advance (setCell w w.row w.col ch) 1 = { setCell w w.row w.col ch with col := w.col + 1 } := by
          show ({ setCell w w.row w.col ch with row := w.row + (w.col + 1) / w.cols, col := (w.col + 1) % w.cols } : Win) = _
          rw [Nat.div_eq_of_lt q1, Nat.mod_eq_of_lt q1]; rfl
        have hu : wrapUp (advance (setCell w w.row w.col ch) 1) = { setCell w w.row w.col ch with col := w.col + 1 } := by
          rw [ha]; unfold wrapUp
          rw [if_neg]
          show ¬ w.rows ≤ w.row; omega
        rw [hu]
        exact ⟨hs, q1⟩

theorem putAll_shows (s : List Char) : ∀ (w : Win) (p : Paper), 0 < w.rows → w.col < w.cols → Shows w p →
    Shows (putAll w s) (s.foldl (print w.cols) p) ∧ (putAll w s).col < w.cols ∧ (putAll w s).rows = w.rows ∧ (putAll w s).cols = w.cols := by
  induction s with
  | nil => intro w p _ hc h; exact ⟨h, hc, rfl, rfl⟩
  | cons a s ih =>
    intro w p hr hc h
    obtain ⟨a1, a2⟩ := putch_shows w p a hr hc h
    obtain ⟨k1, k2⟩ := putch_keeps w a
    have := ih (putch w a) (print w.cols p a) (by omega) (by omega) a1
    rw [k1, k2] at this
    exact this

/-- C217: whatever is written to a cleared text window, it shows the last lines of the text as they
would stand on paper of its width, and the cursor is inside, behind the last character. -/
theorem C217_paper (rows cols : Nat) (s : List Char) (hr : 0 < rows) (hc : 0 < cols) :
    (∀ r c, r < rows → c < cols → (putAll (cleared rows cols) s).cell r c = seen rows (printed cols s) r c)
    ∧ (putAll (cleared rows cols) s).row = min (printed cols s).done.length (rows - 1)
    ∧ (putAll (cleared rows cols) s).col = (printed cols s).cur.length
    ∧ (putAll (cleared rows cols) s).row < rows
    ∧ (putAll (cleared rows cols) s).col < cols := by
  have h0 : Shows (cleared rows cols) ⟨[], []⟩ := by
    refine ⟨?_, rfl, ?_⟩
    · show 0 = min 0 _; omega
    · intro r c _ _
      show ' ' = (([] ++ [[]] : List (List Char)).getD _ []).getD c ' '
      rw [getD_snoc_nil]; rfl
  obtain ⟨⟨a1, a2, a3⟩, b, c1, c2⟩ := putAll_shows s (cleared rows cols) ⟨[], []⟩ hr hc h0
  have hrow : (putAll (cleared rows cols) s).row = min (printed cols s).done.length (rows - 1) := by
    rw [a1, c1]; rfl
  refine ⟨?_, hrow, a2, by omega, b⟩
  intro r c hlr hlc
  have := a3 r c (by rw [c1]; exact hlr) (by rw [c2]; exact hlc)
  rw [this, hrow]
  show (((printed cols s).done ++ [(printed cols s).cur]).getD ((printed cols s).done.length - _ + r) []).getD c ' ' = _
  unfold seen Paper.lines
  have : (printed cols s).done.length - min (printed cols s).done.length (rows - 1) + r = ((printed cols s).done ++ [(printed cols s).cur]).length - rows + r := by
    rw [List.length_append]; simp only [List.length_singleton]; omega
  rw [this]

example : (List.range 3).map (fun c => (putAll (cleared 2 3) ['a', 'b', '\n', 'c', 'd', 'e', 'f']).cell 0 c) = ['c', 'd', 'e']
    ∧ (putAll (cleared 2 3) ['a', 'b', '\n', 'c', 'd', 'e', 'f']).cell 1 0 = 'f'
    ∧ (printed 3 ['a', 'b', '\n', 'c', 'd', 'e', 'f']).lines = [['a', 'b'], ['c', 'd', 'e'], ['f']] := by decide +kernel

theorem scrollRows_up {α : Type} (blank : α) (rows : Nat) (f : Nat → α) (n : Nat) (hn : n ≤ rows) (r : Nat) (h : r < rows) :
    scrollRows blank rows f n r = if r + n < rows then f (r + n) else blank := by
  unfold scrollRows
  by_cases h0 : (n : Int) = 0
  · rw [if_pos h0, if_pos (by omega)]
    congr 1; omega
  · rw [if_neg h0, if_pos (by omega)]
    have hk : min (rows : Int) (((n : Int).natAbs : Nat) : Int) = n := by
      rw [Int.natAbs_natCast]; omega
    show clearRows blank (copyRows f n 0 (rows - min (rows : Int) (((n : Int).natAbs : Nat) : Int))) (rows - n) (min (rows : Int) (((n : Int).natAbs : Nat) : Int)) r = _
    rw [hk]
    unfold clearRows copyRows
    by_cases hr : r + n < rows
    · rw [if_pos hr, if_neg (by omega), if_pos (by omega)]
      congr 1; omega
    · rw [if_neg hr, if_pos (by omega)]

theorem scrollRows_down {α : Type} (blank : α) (rows : Nat) (f : Nat → α) (n : Nat) (h0 : 0 < n) (r : Nat) (h : r < rows) :
    scrollRows blank rows f (-(n : Int)) r = if r < n then blank else f (r - n) := by
  unfold scrollRows
  rw [if_neg (by omega), if_neg (by omega)]
  have hk : (((-(n : Int)).natAbs : Nat) : Int) = n := by
    rw [Int.natAbs_neg, Int.natAbs_natCast]
  show clearRows blank (copyRows f 0 (((-(n : Int)).natAbs : Nat) : Int) (rows - min (rows : Int) (((-(n : Int)).natAbs : Nat) : Int))) 0 (min (rows : Int) (((-(n : Int)).natAbs : Nat) : Int)) r = _
  rw [hk]
  unfold clearRows copyRows
  by_cases hr : r < n
  · rw [if_pos hr, if_pos (by omega)]
  · rw [if_neg hr, if_neg (by omega), if_pos (by omega)]
    congr 1; omega

/-- C217: scrolling by no more than the height moves every row by that much and blanks the rows that
come in; down, by any amount. -/
theorem C217_scroll_partial (w : Win) (n r c : Nat) (h : r < w.rows) :
    (n ≤ w.rows → (scroll w n).cell r c = if r + n < w.rows then w.cell (r + n) c else ' ')
    ∧ (0 < n → (scroll w (-(n : Int))).cell r c = if r < n then ' ' else w.cell (r - n) c) := by
  refine ⟨fun hn => ?_, fun hn => ?_⟩
  · show scrollRows (fun _ => ' ') w.rows w.cell n r c = _
    rw [scrollRows_up _ _ _ _ hn _ h]
    split <;> rfl
  · show scrollRows (fun _ => ' ') w.rows w.cell (-(n : Int)) r c = _
    rw [scrollRows_down _ _ _ _ hn _ h]
    split <;> rfl

example : (scroll (putAll (cleared 2 3) ['a', '\n', 'b']) (1 : Nat)).cell 0 0 = 'b' := by decide +kernel

/-- C217: scrolling up by more than the height leaves the last row as it was, though it has gone by. -/
theorem C217_scroll_wrong (w : Win) (n c : Nat) (hr : 0 < w.rows) (hn : w.rows < n) :
    (scroll w n).cell (w.rows - 1) c = w.cell (w.rows - 1) c := by
  show scrollRows (fun _ => ' ') w.rows w.cell n (w.rows - 1) c = _
  unfold scrollRows
  rw [if_neg (by omega), if_pos (by omega)]
  have hk : min (w.rows : Int) (((n : Int).natAbs : Nat) : Int) = w.rows := by
    rw [Int.natAbs_natCast]; omega
  show clearRows (fun _ => ' ') (copyRows w.cell n 0 (w.rows - min (w.rows : Int) (((n : Int).natAbs : Nat) : Int))) (w.rows - n) (min (w.rows : Int) (((n : Int).natAbs : Nat) : Int)) (w.rows - 1) c = _
  rw [hk]
  unfold clearRows copyRows
  rw [if_neg (by omega), if_neg (by omega)]

example : (0 < (cleared 2 3).rows) ∧ (cleared 2 3).rows < 3 := by decide

theorem nlFrom_none (str : List Char) (s : Nat) (h : '\n' ∉ str) : nlFrom str s = none := by
  unfold nlFrom
  have : (str.drop s).findIdx? (· = '\n') = none := by
    rw [List.findIdx?_eq_none_iff]
    intro x hx
    have : x ∈ str := List.mem_of_mem_drop hx
    have : x ≠ '\n' := fun e => h (e ▸ this)
    simpa using this
  rw [this]

/-- C217: a string without line feed that fits in the rest of the line is shown there by `:putstring`;
the rest of the line becomes blank. -/
theorem C217_putstring_partial (w : Win) (str : List Char) (hn : '\n' ∉ str) (h0 : str ≠ []) (hf : w.col + str.length < w.cols) :
    ∃ v, putstring str 1 (w, 0) = some (v, str.length, true) ∧ v.row = w.row ∧ v.col = w.col + str.length
      ∧ ∀ r c, v.cell r c = if r = w.row ∧ w.col ≤ c then str.getD (c - w.col) ' ' else w.cell r c := by
  have hl : 0 < str.length := List.length_pos_iff.2 h0
  have hp : putPart str (w, 0) = some (advance (drawPart w str 0 str.length) str.length, str.length) := by
    unfold putPart
    simp only [nlFrom_none str 0 hn, Option.getD_none]
    have : min (w.cols - w.col) str.length = str.length := by omega
    rw [this, if_neg (by omega)]; rfl
  refine ⟨advance (drawPart w str 0 str.length) str.length, ?_, ?_, ?_, ?_⟩
  · show (if str.length ≤ 0 then _ else _) = _
    rw [if_neg (by omega)]
    rw [hp]
    show some (_, _, decide (str.length ≤ str.length)) = _
    simp
  · show w.row + (w.col + str.length) / w.cols = w.row
    rw [Nat.div_eq_of_lt hf]; rfl
  · show (w.col + str.length) % w.cols = _
    exact Nat.mod_eq_of_lt hf
  · intro r c
    show (if r = w.row ∧ w.col ≤ c then (if c < w.col + (str.length - 0) then str.getD (0 + (c - w.col)) ' ' else ' ') else w.cell r c) = _
    by_cases h : r = w.row ∧ w.col ≤ c
    · rw [if_pos h, if_pos h]
      by_cases h2 : c < w.col + (str.length - 0)
      · rw [if_pos h2, Nat.zero_add]
      · rw [if_neg h2, List.getD_eq_getElem?_getD, List.getElem?_eq_none (by omega)]; rfl
    · rw [if_neg h, if_neg h]

example : '\n' ∉ ['a', 'b'] ∧ ['a', 'b'] ≠ [] ∧ (cleared 2 3).col + ['a', 'b'].length < (cleared 2 3).cols := by decide

/-- C217: a string longer than a line is never finished by `:putstring`: the index where a part ends
is compared with the room left in the line. -/
theorem C217_putstring_wrong (w : Win) (str : List Char) (hn : '\n' ∉ str) (hc : 0 < w.cols) (h0 : w.col = 0) (hf : w.cols < str.length) (k : Nat) :
    ∃ v s, putstring str k (w, 0) = some (v, s, false) := by
  have hp : ∀ (v : Win) (s : Nat), v.cols = w.cols → v.col = 0 → s ≤ w.cols →
      ∃ v', putPart str (v, s) = some (v', w.cols) ∧ v'.cols = w.cols ∧ (s = w.cols → v'.col = 0) ∧ (s = 0 → v'.col = 0) := by
    intro v s h1 h2 h3
    refine ⟨advance (drawPart v str s w.cols) (w.cols - s), ?_, h1, ?_, ?_⟩
    · unfold putPart
      simp only [nlFrom_none str s hn, Option.getD_none, h1, h2]
      have : min (w.cols - 0) str.length = w.cols := by omega
      rw [this, if_neg (by omega)]
    · intro hs
      show (v.col + (w.cols - s)) % v.cols = 0
      rw [h2, hs, Nat.sub_self]; simp
    · intro hs
      show (v.col + (w.cols - s)) % v.cols = 0
      rw [h2, hs, h1]; simp
  have loop : ∀ (k : Nat) (v : Win) (s : Nat), v.cols = w.cols → v.col = 0 → (s = w.cols ∨ s = 0) → ∃ v' s', putstring str k (v, s) = some (v', s', false) := by
    intro k
    induction k with
    | zero =>
      intro v s _ _ hs
      refine ⟨v, s, ?_⟩
      show some (v, s, decide (str.length ≤ s)) = _
      have : ¬ str.length ≤ s := by omega
      simp [this]
    | succ k ih =>
      intro v s h1 h2 hs
      obtain ⟨v', q1, q2, q3, q4⟩ := hp v s h1 h2 (by omega)
      have q5 : v'.col = 0 := by
        rcases hs with hs | hs
        · exact q3 hs
        · exact q4 hs
      obtain ⟨v'', s'', e⟩ := ih v' w.cols q2 q5 (Or.inl rfl)
      refine ⟨v'', s'', ?_⟩
      show (if str.length ≤ s then _ else _) = _
      rw [if_neg (by omega)]
      rw [q1]; exact e
  exact loop k w 0 rfl h0 (Or.inr rfl)

example : '\n' ∉ ['a', 'b', 'c', 'd'] ∧ 0 < (cleared 2 3).cols ∧ (cleared 2 3).col = 0 ∧ (cleared 2 3).cols < ['a', 'b', 'c', 'd'].length := by decide

/-! ### lines -/

theorem rep_mid (A X B P Y Q : List Char) (h : X.length = Y.length) :
    replaceV (A ++ (X ++ B)) (P ++ (Y ++ Q)) A.length P.length (P.length + Y.length) = some (A ++ (Y ++ B)) := by
  unfold replaceV
  rw [if_pos (by simp only [List.length_append]; omega)]
  have hm : min ((A ++ (X ++ B)).length - A.length) (P.length + Y.length - P.length) = Y.length := by
    simp only [List.length_append]; omega
  simp only [hm]
  have h1 : (A ++ (X ++ B)).take A.length = A := by simp
  have h2 : ((P ++ (Y ++ Q)).drop P.length).take Y.length = Y := by simp
  have h3 : (A ++ (X ++ B)).drop (A.length + Y.length) = B := by
    rw [← h, ← List.length_append, ← List.append_assoc, List.drop_left]
  rw [h1, h2, h3]

theorem split_at (l : List Char) (c : Nat) (h : c ≤ l.length) : ∃ a b, l = a ++ b ∧ a.length = c ∧ l.take c = a ∧ l.drop c = b :=
  ⟨l.take c, l.drop c, (List.take_append_drop c l).symm, by rw [List.length_take]; omega, rfl, rfl⟩

theorem insertCh_eq (line : List Char) (col : Nat) (ch : Char) (h : col ≤ line.length) :
    insertCh line col ch = some (line.take col ++ ch :: line.drop col) := by
  obtain ⟨a, b, e, e1, e2, e3⟩ := split_at line col h
  rw [e2, e3]
  subst e1
  subst e
  unfold insertCh
  have h0 : List.replicate ((a ++ b).length + 1) (Char.ofNat 0) = [] ++ (List.replicate a.length (Char.ofNat 0) ++ (Char.ofNat 0 :: List.replicate b.length (Char.ofNat 0))) := by
    rw [List.nil_append, ← List.replicate_succ, List.replicate_append_replicate, List.length_append, Nat.add_assoc]
  rw [h0]
  have r1 := rep_mid [] (List.replicate a.length (Char.ofNat 0)) (Char.ofNat 0 :: List.replicate b.length (Char.ofNat 0)) [] a b (by simp)
  simp only [List.nil_append, List.length_nil, Nat.zero_add] at r1
  simp only [List.nil_append, r1]
  have h1 : a.length < (a ++ Char.ofNat 0 :: List.replicate b.length (Char.ofNat 0)).length := by simp
  have h2 : (a ++ Char.ofNat 0 :: List.replicate b.length (Char.ofNat 0)).set a.length ch = (a ++ [ch]) ++ (List.replicate b.length (Char.ofNat 0) ++ []) := by
    rw [List.set_append_right _ _ (Nat.le_refl _)]; simp
  have r2 := rep_mid (a ++ [ch]) (List.replicate b.length (Char.ofNat 0)) [] a b [] (by simp)
  simp only [List.length_append, List.length_singleton, List.append_nil] at r2
  show (if a.length < (a ++ Char.ofNat 0 :: List.replicate b.length (Char.ofNat 0)).length then replaceV ((a ++ Char.ofNat 0 :: List.replicate b.length (Char.ofNat 0)).set a.length ch) (a ++ b) (a.length + 1) a.length (a ++ b).length else none) = _
  rw [if_pos h1, h2]
  simp only [List.length_append, List.append_nil]
  rw [r2]; simp

/-- C218: a string put in at the cursor stands between what was before the cursor and what was
behind it. -/
theorem C218_insert_string (line : List Char) (col : Nat) (str : List Char) (e : Nat) (h : col ≤ line.length) (he : e ≤ str.length) :
    insertStr line col str e = some (line.take col ++ str.take e ++ line.drop col) := by
  obtain ⟨a, b, e0, e1, e2, e3⟩ := split_at line col h
  rw [e2, e3]
  subst e1
  subst e0
  unfold insertStr
  have h0 : List.replicate ((a ++ b).length + e) (Char.ofNat 0) = [] ++ (List.replicate a.length (Char.ofNat 0) ++ List.replicate (e + b.length) (Char.ofNat 0)) := by
    rw [List.nil_append, List.replicate_append_replicate, List.length_append]
    congr 1; omega
  rw [h0]
  have r1 := rep_mid [] (List.replicate a.length (Char.ofNat 0)) (List.replicate (e + b.length) (Char.ofNat 0)) [] a b (by simp)
  simp only [List.nil_append, List.length_nil, Nat.zero_add] at r1
  simp only [List.nil_append, r1]
  obtain ⟨m, hm⟩ : ∃ m, m = min (e + b.length) str.length := ⟨_, rfl⟩
  have r2 : replaceV (a ++ List.replicate (e + b.length) (Char.ofNat 0)) str a.length 0 str.length = some (a ++ (str.take m ++ List.replicate (e + b.length - m) (Char.ofNat 0))) := by
    unfold replaceV
    rw [if_pos (by simp)]
    have : min ((a ++ List.replicate (e + b.length) (Char.ofNat 0)).length - a.length) (str.length - 0) = m := by
      simp only [List.length_append, List.length_replicate]; omega
    simp only [this]
    have q1 : (a ++ List.replicate (e + b.length) (Char.ofNat 0)).drop (a.length + m) = List.replicate (e + b.length - m) (Char.ofNat 0) := by
      rw [List.drop_append]; simp
    rw [q1]; simp
  show (replaceV (a ++ List.replicate (e + b.length) (Char.ofNat 0)) str a.length 0 str.length).bind _ = _
  rw [r2, Option.bind_some]
  obtain ⟨T, hT⟩ : ∃ T, T = str.take m ++ List.replicate (e + b.length - m) (Char.ofNat 0) := ⟨_, rfl⟩
  have hTl : T.length = e + b.length := by
    rw [hT, List.length_append, List.length_take, List.length_replicate]; omega
  have hTe : T.take e = str.take e := by
    rw [hT, List.take_append_of_le_length (by rw [List.length_take]; omega), List.take_take]
    congr 1; omega
  rw [← hT]
  have r3 := rep_mid (a ++ T.take e) (T.drop e) [] a b [] (by rw [List.length_drop]; omega)
  have hl : (a ++ T.take e).length = a.length + e := by
    rw [List.length_append, List.length_take]; omega
  rw [hl] at r3
  simp only [List.append_nil, List.append_assoc, List.take_append_drop] at r3
  rw [List.length_append, r3, hTe, List.append_assoc]

example : insertStr ['a', 'd'] 1 ['b', 'c', 'x'] 2 = some ['a', 'b', 'c', 'd'] := by decide +kernel

theorem key_eq (e : Ed) (ch : Char) (line : List Char) (hl : e.lines[e.row]? = some line) (hc : e.col ≤ line.length) :
    key e ch = some { e with lines := e.lines.set e.row (line.take e.col ++ ch :: line.drop e.col), row := e.row + (e.col + 1) / e.cols, col := (e.col + 1) % e.cols } := by
  unfold key
  simp only [hl, insertCh_eq line e.col ch hc]

/-- C218: text typed at the cursor stands in the line where the cursor was, with the cursor behind it,
as long as the cursor stays left of the last column. Missing: text that reaches the last column. -/
theorem C218_type_partial (s : List Char) : ∀ (e : Ed) (line : List Char), e.lines[e.row]? = some line → e.col ≤ line.length → e.col + s.length < e.cols →
    keys e s = some { e with lines := e.lines.set e.row (line.take e.col ++ s ++ line.drop e.col), col := e.col + s.length } := by
  induction s with
  | nil =>
    intro e line hl hc _
    show some e = _
    have hi : e.row < e.lines.length := by
      by_contra hh
      rw [List.getElem?_eq_none (by omega)] at hl
      cases hl
    have : e.lines.set e.row (line.take e.col ++ [] ++ line.drop e.col) = e.lines := by
      rw [List.append_nil, List.take_append_drop]
      have : e.lines[e.row] = line := by
        rw [List.getElem?_eq_getElem hi] at hl
        exact Option.some.inj hl
      rw [← this, List.set_getElem_self]
    rw [this]; rfl
  | cons a s ih =>
    intro e line hl hc hf
    simp only [List.length_cons] at hf
    have hi : e.row < e.lines.length := by
      by_contra hh
      rw [List.getElem?_eq_none (by omega)] at hl
      cases hl
    have h1 : e.col + 1 < e.cols := by omega
    show (key e a).bind (fun e' => s.foldlM key e') = _
    rw [key_eq e a line hl hc, Option.bind_some, Nat.div_eq_of_lt h1, Nat.mod_eq_of_lt h1, Nat.add_zero]
    have := ih { e with lines := e.lines.set e.row (line.take e.col ++ a :: line.drop e.col), col := e.col + 1 } (line.take e.col ++ a :: line.drop e.col)
      (by show (e.lines.set e.row _)[e.row]? = _; rw [List.getElem?_set_self hi])
      (by show e.col + 1 ≤ _; simp only [List.length_append, List.length_take, List.length_cons, List.length_drop]; omega)
      (by show e.col + 1 + s.length < e.cols; omega)
    show keys _ s = _
    rw [this]
    have ht : (line.take e.col ++ a :: line.drop e.col).take (e.col + 1) = line.take e.col ++ [a] := by
      have : (line.take e.col).length = e.col := by rw [List.length_take]; omega
      rw [List.take_append, this, List.take_of_length_le (by omega)]
      simp
    have hd : (line.take e.col ++ a :: line.drop e.col).drop (e.col + 1) = line.drop e.col := by
      have : (line.take e.col).length = e.col := by rw [List.length_take]; omega
      rw [List.drop_append, this, List.drop_of_length_le (by omega)]
      simp
    show some ({ e with lines := (e.lines.set e.row (line.take e.col ++ a :: line.drop e.col)).set e.row ((line.take e.col ++ a :: line.drop e.col).take (e.col + 1) ++ s ++ (line.take e.col ++ a :: line.drop e.col).drop (e.col + 1)), col := e.col + 1 + s.length } : Ed) = _
    rw [ht, hd, List.set_set]
    have q1 : line.take e.col ++ [a] ++ s ++ line.drop e.col = line.take e.col ++ a :: s ++ line.drop e.col := by simp
    have q2 : e.col + 1 + s.length = e.col + (a :: s).length := by rw [List.length_cons]; omega
    rw [q1, q2]

example : keys ⟨[['a', 'd']], 80, 0, 1⟩ ['b', 'c'] = some ⟨[['a', 'b', 'c', 'd']], 80, 0, 3⟩ :=
  C218_type_partial ['b', 'c'] ⟨[['a', 'd']], 80, 0, 1⟩ ['a', 'd'] rfl (by decide) (by decide)

/-- C218: of two characters typed with the cursor in the last column the second goes to the beginning
of the next line, before what stands there. -/
theorem C218_type_wrong (e : Ed) (line l2 : List Char) (c d : Char) (hl : e.lines[e.row]? = some line) (h2 : e.lines[e.row + 1]? = some l2) (hc : e.col ≤ line.length) (hf : e.col + 1 = e.cols) :
    ∃ e', keys e [c, d] = some e' ∧ e'.lines[e.row]? = some (line.take e.col ++ c :: line.drop e.col) ∧ e'.lines[e.row + 1]? = some (d :: l2) := by
  have hi : e.row + 1 < e.lines.length := by
    by_contra hh
    rw [List.getElem?_eq_none (by omega)] at h2
    cases h2
  have hp : 0 < e.cols := by omega
  have k1 := key_eq e c line hl hc
  rw [hf, Nat.div_self hp, Nat.mod_self] at k1
  have k2 := key_eq { e with lines := e.lines.set e.row (line.take e.col ++ c :: line.drop e.col), row := e.row + 1, col := 0 } d l2
    (by show (e.lines.set e.row _)[e.row + 1]? = _; rw [List.getElem?_set_ne (by omega)]; exact h2) (Nat.zero_le _)
  refine ⟨{ e with lines := (e.lines.set e.row (line.take e.col ++ c :: line.drop e.col)).set (e.row + 1) (d :: l2), row := e.row + 1 + (0 + 1) / e.cols, col := (0 + 1) % e.cols }, ?_, ?_, ?_⟩
  · show (key e c).bind (fun x => (key x d).bind some) = _
    rw [k1, Option.bind_some, k2]
    rfl
  · show ((e.lines.set e.row _).set (e.row + 1) _)[e.row]? = _
    rw [List.getElem?_set_ne (by omega), List.getElem?_set_self (by omega)]
  · show ((e.lines.set e.row _).set (e.row + 1) _)[e.row + 1]? = _
    rw [List.getElem?_set_self (by rw [List.length_set]; exact hi)]

example : keys ⟨[['a', 'b'], ['x']], 3, 0, 2⟩ ['c', 'd'] = some ⟨[['a', 'b', 'c'], ['d', 'x']], 3, 1, 1⟩ := by
  rfl

theorem delete_eq (a d b : List Char) (hb : b.length ≤ d.length) :
    deleteN (a ++ (d ++ b)) (a.length + d.length) d.length = some (a ++ (b ++ (d ++ b).drop b.length), a ++ b) := by
  unfold deleteN
  rw [if_pos (by omega), if_pos (by simp only [List.length_append]; omega), if_neg (by simp only [List.length_append]; omega)]
  have e1 : a.length + d.length - d.length = a.length := by omega
  have r := rep_mid a ((d ++ b).take b.length) ((d ++ b).drop b.length) (a ++ d) b [] (by rw [List.length_take, List.length_append]; omega)
  rw [List.take_append_drop, List.append_nil, List.length_append] at r
  have e2 : (a ++ (d ++ b)).length = a.length + d.length + b.length := by simp only [List.length_append]; omega
  rw [e1, e2]
  have e3 : a ++ (d ++ b) = a ++ d ++ b := by rw [List.append_assoc]
  rw [e3] at r ⊢
  rw [r]
  show some (_, _) = _
  congr 2
  have e4 : (a ++ (b ++ (d ++ b).drop b.length)).length - d.length = (a ++ b).length := by
    simp only [List.length_append, List.length_drop]; omega
  rw [e4, ← List.append_assoc, List.take_left]

/-- C218: taking away the characters before the cursor leaves what was before them and what is behind
the cursor, when no more stands behind the cursor than is taken away. Missing: more behind. -/
theorem C218_delete_partial (a d b : List Char) (hb : b.length ≤ d.length) :
    ∃ old, deleteN (a ++ (d ++ b)) (a.length + d.length) d.length = some (old, a ++ b) :=
  ⟨_, delete_eq a d b hb⟩

/-- C218: rubout takes back the last character typed at the end of a line. -/
theorem C218_rubout (line : List Char) (ch : Char) : ∃ l old, insertCh line line.length ch = some l ∧ deleteN l (line.length + 1) 1 = some (old, line) := by
  refine ⟨line ++ [ch], line ++ [ch], ?_, ?_⟩
  · rw [insertCh_eq line line.length ch (Nat.le_refl _)]; simp
  · have := delete_eq line [ch] [] (by simp)
    simpa using this

example : deleteN ['a', 'b', 'c'] 2 1 = some (['a', 'c', 'c'], ['a', 'c']) := by decide

/-- C218: with more behind the cursor than is taken away, the characters are moved by memcpy within
one string: undefined. -/
theorem C218_delete_wrong (a d b : List Char) (hb : d.length < b.length) :
    deleteN (a ++ (d ++ b)) (a.length + d.length) d.length = none := by
  unfold deleteN
  rw [if_pos (by omega), if_pos (by simp only [List.length_append]; omega), if_pos (by simp only [List.length_append]; omega)]

example : deleteN ['a', 'b', 'c', 'd'] 2 1 = none := by decide

/-- C218: the deletion writes into the string that was given to the window (`:display-strings`). -/
theorem C218_shared_wrong : ∃ line col n old new, deleteN line col n = some (old, new) ∧ old ≠ line ∧ old ≠ new :=
  ⟨['a', 'b', 'c'], 2, 1, ['a', 'c', 'c'], ['a', 'c'], by decide, by decide, by decide⟩

/-! ### tabs -/

theorem expand_shift (o : Nat) (s : List Char) : ∀ p, expandLoop o p s = expandLoop (o + p) 0 s := by
  induction s generalizing o with
  | nil => intro p; rfl
  | cons c s ih =>
    intro p
    by_cases h : c = '\t'
    · simp only [expandLoop, if_pos h, Nat.add_zero, Nat.zero_add]
      rw [ih o, ih (o + p) (8 - (o + p) % 8)]
      rw [Nat.add_assoc]
    · simp only [expandLoop, if_neg h, Nat.zero_add]
      rw [ih o (p + 1), ih (o + p) 1, Nat.add_assoc]

theorem expand_plain (o : Nat) (s : List Char) (h : '\t' ∉ s) : ∀ p, expandLoop o p s = s := by
  induction s with
  | nil => intro p; rfl
  | cons c s ih =>
    intro p
    have : c ≠ '\t' := fun e => h (by rw [e]; exact List.mem_cons_self)
    simp only [expandLoop, if_neg this]
    rw [ih (fun e => h (List.mem_cons_of_mem _ e))]

theorem expandTab_eq (s : List Char) (o : Nat) : expandTab s o = expandLoop o 0 s := by
  unfold expandTab
  split
  · next h => rw [expand_plain o s (List.count_eq_zero.1 h)]
  · rfl

theorem expand_append (a b : List Char) : ∀ o p, expandLoop o p (a ++ b) = expandLoop o p a ++ expandLoop o (p + (expandLoop o p a).length) b := by
  induction a with
  | nil => intro o p; rfl
  | cons c a ih =>
    intro o p
    rw [List.cons_append]
    by_cases h : c = '\t'
    · simp only [expandLoop, if_pos h]
      rw [ih, List.length_append, List.length_replicate, List.append_assoc, Nat.add_assoc]
    · simp only [expandLoop, if_neg h]
      rw [ih, List.length_cons, List.cons_append]
      congr 3; omega

/-- C218: every tab becomes one to eight blanks that end in a column that is a multiple of eight. -/
theorem C218_tab (a b : List Char) (o : Nat) : ∃ q, 1 ≤ q ∧ q ≤ 8 ∧ (o + (expandTab a o).length + q) % 8 = 0
    ∧ expandTab (a ++ '\t' :: b) o = expandTab a o ++ List.replicate q ' ' ++ expandTab b (o + (expandTab a o).length + q) := by
  simp only [expandTab_eq]
  refine ⟨8 - (o + (expandLoop o 0 a).length) % 8, by omega, by omega, by omega, ?_⟩
  rw [expand_append, Nat.zero_add]
  simp only [expandLoop, if_true]
  rw [expand_shift o b, List.append_assoc, Nat.add_assoc o]

/-- C218: text without tabs is left as it is; no tab is left; and the string made beforehand for the
result is long enough. -/
theorem C218_tabs_gone (s : List Char) (o : Nat) : ('\t' ∉ s → expandTab s o = s) ∧ '\t' ∉ expandTab s o
    ∧ (expandTab s o).length ≤ s.length + s.count '\t' * 8 := by
  simp only [expandTab_eq]
  refine ⟨fun h => expand_plain o s h 0, ?_, ?_⟩
  · have : ∀ (s : List Char) p, '\t' ∉ expandLoop o p s := by
      intro s
      induction s with
      | nil => intro p; simp [expandLoop]
      | cons c s ih =>
        intro p
        by_cases h : c = '\t'
        · simp only [expandLoop, if_pos h, List.mem_append, List.mem_replicate, not_or]
          exact ⟨fun e => absurd e.2 (by decide), ih _⟩
        · simp only [expandLoop, if_neg h, List.mem_cons, not_or]
          exact ⟨fun e => h e.symm, ih _⟩
    exact this s 0
  · have : ∀ (s : List Char) p, (expandLoop o p s).length ≤ s.length + s.count '\t' * 8 := by
      intro s
      induction s with
      | nil => intro p; simp [expandLoop]
      | cons c s ih =>
        intro p
        by_cases h : c = '\t'
        · subst h
          simp only [expandLoop, if_true, List.length_append, List.length_replicate, List.length_cons, List.count_cons_self]
          have := ih (p + (8 - (o + p) % 8))
          omega
        · simp only [expandLoop, if_neg h, List.length_cons, List.count_cons_of_ne (fun e => h e)]
          have := ih (p + 1)
          omega
    exact this s 0

example : expandTab ['a', '\t', 'b'] 4 = ['a', ' ', ' ', ' ', 'b'] := by decide

/-! ### selection -/

theorem text_cons (x y : List Char) (l : List (List Char)) : text (x :: y :: l) = x ++ '\n' :: text (y :: l) := by
  simp [text, List.intercalate]

theorem glue (A : List (List Char)) (x y : List Char) (B : List (List Char)) : text (A ++ [x]) ++ text (y :: B) = text (A ++ (x ++ y) :: B) := by
  induction A with
  | nil =>
    cases B with
    | nil => simp [text, List.intercalate]
    | cons z B => rw [List.nil_append, List.nil_append, text_cons, text_cons]; simp [text, List.intercalate]
  | cons a A ih =>
    cases A with
    | nil =>
      simp only [List.cons_append, List.nil_append] at ih ⊢
      rw [text_cons, text_cons, List.append_assoc, List.cons_append, ih]
    | cons a' A =>
      simp only [List.cons_append] at ih ⊢
      rw [text_cons, text_cons, List.append_assoc, List.cons_append, ih]

/-- C218: what is selected between two places is the text between them, whichever was first. -/
theorem C218_selection (lines : List (List Char)) (a b : Nat × Nat) (l1 l2 : List Char)
    (h1 : lines[a.1]? = some l1) (h2 : lines[b.1]? = some l2) (ha : a.2 ≤ l1.length) (hb : b.2 ≤ l2.length)
    (ho : a.1 < b.1 ∨ (a.1 = b.1 ∧ a.2 ≤ b.2)) :
    ∃ ls, selection lines a b = some ls ∧ selection lines b a = some ls
      ∧ text lines = text (lines.take a.1 ++ [l1.take a.2]) ++ text ls ++ text (l2.drop b.2 :: lines.drop (b.1 + 1)) := by
  have i1 : a.1 < lines.length := by
    by_contra hh
    rw [List.getElem?_eq_none (by omega)] at h1; cases h1
  have i2 : b.1 < lines.length := by
    by_contra hh
    rw [List.getElem?_eq_none (by omega)] at h2; cases h2
  have g1 : lines[a.1] = l1 := by rw [List.getElem?_eq_getElem i1] at h1; exact Option.some.inj h1
  have g2 : lines[b.1] = l2 := by rw [List.getElem?_eq_getElem i2] at h2; exact Option.some.inj h2
  have n1 : ¬ (b.1 < a.1 ∨ (a.1 = b.1 ∧ b.2 < a.2)) := by omega
  have hswap : selection lines b a = selection lines a b := by
    unfold selection
    rw [if_neg n1, if_neg n1]
    by_cases hs : a.1 < b.1 ∨ (b.1 = a.1 ∧ a.2 < b.2)
    · rw [if_pos hs, if_pos hs]
    · have : a = b := Prod.ext (by omega) (by omega)
      subst this
      simp
  by_cases he : a.1 = b.1
  · have hl : l1 = l2 := by
      rw [he, h2] at h1; exact (Option.some.inj h1).symm
    subst hl
    refine ⟨[(l1.drop a.2).take (b.2 - a.2)], ?_, ?_, ?_⟩
    · unfold selection
      rw [if_neg n1, if_neg n1]
      simp only [h1, h2]
      rw [if_neg (by omega), if_pos he]
    · rw [hswap]
      unfold selection
      rw [if_neg n1, if_neg n1]
      simp only [h1, h2]
      rw [if_neg (by omega), if_pos he]
    · rw [glue]
      have := glue (lines.take a.1) (l1.take a.2 ++ (l1.drop a.2).take (b.2 - a.2)) (l1.drop b.2) (lines.drop (b.1 + 1))
      rw [this]
      have q : l1.take a.2 ++ (l1.drop a.2).take (b.2 - a.2) ++ l1.drop b.2 = l1 := by
        have : l1.drop b.2 = (l1.drop a.2).drop (b.2 - a.2) := by
          rw [List.drop_drop]; congr 1; omega
        rw [this, List.append_assoc, List.take_append_drop, List.take_append_drop]
      rw [q, ← he, ← g1, ← List.drop_eq_getElem_cons i1, List.take_append_drop]
  · refine ⟨l1.drop a.2 :: ((lines.drop (a.1 + 1)).take (b.1 - a.1 - 1) ++ [l2.take b.2]), ?_, ?_, ?_⟩
    · unfold selection
      rw [if_neg n1, if_neg n1]
      simp only [h1, h2]
      rw [if_neg (by omega), if_neg he]
    · rw [hswap]
      unfold selection
      rw [if_neg n1, if_neg n1]
      simp only [h1, h2]
      rw [if_neg (by omega), if_neg he]
    · rw [glue, List.take_append_drop]
      have := glue (lines.take a.1 ++ l1 :: (lines.drop (a.1 + 1)).take (b.1 - a.1 - 1)) (l2.take b.2) (l2.drop b.2) (lines.drop (b.1 + 1))
      rw [List.append_assoc, List.cons_append, List.take_append_drop] at this
      rw [this]
      congr 1
      have q2 : l2 :: lines.drop (b.1 + 1) = lines.drop b.1 := by
        rw [← g2]; exact (List.drop_eq_getElem_cons i2).symm
      have q3 : lines.drop b.1 = (lines.drop (a.1 + 1)).drop (b.1 - a.1 - 1) := by
        rw [List.drop_drop]; congr 1; omega
      rw [q2, q3, List.append_assoc, List.cons_append, List.take_append_drop, ← g1, ← List.drop_eq_getElem_cons i1, List.take_append_drop]

example : selection [['a', 'b'], ['c'], ['d', 'e']] (0, 1) (2, 1) = some [['b'], ['c'], ['d']] := by decide

/-! ### C219: scrolling -/

theorem clamp_top (s : Sc) (n : Int) : (s.top : Int) + clampN s n = if n < 0 then max 0 (s.top + n) else max (s.top : Int) (min ((s.lines.length : Int) - s.rows) (s.top + n)) := by
  unfold clampN
  by_cases h : n < 0
  · rw [if_pos h, if_pos h]; omega
  · rw [if_neg h, if_neg h]; omega

/-- C219: a window scrolled by no more than its height shows the lines from its new top on; the top
moves as asked, but not before the first line, and not so far that the last line leaves the bottom. -/
theorem C219_scroll_partial (s : Sc) (n : Int) (hs : InSync s) (hn : n ≤ s.rows) :
    ∃ s', scrollBy s n = some s' ∧ InSync s' ∧ s'.lines = s.lines ∧ s'.rows = s.rows
      ∧ (s'.top : Int) = if n < 0 then max 0 (s.top + n) else max (s.top : Int) (min ((s.lines.length : Int) - s.rows) (s.top + n)) := by
  have hct := clamp_top s n
  have hle : clampN s n ≤ s.rows := by
    unfold clampN; split <;> omega
  have hle2 : 0 < clampN s n → clampN s n ≤ (s.lines.length : Int) - s.top - s.rows := by
    unfold clampN; split <;> omega
  have hge : 0 ≤ (s.top : Int) + clampN s n := by
    rw [hct]; split <;> omega
  rw [← hct]
  generalize hm : clampN s n = m at *
  unfold scrollBy
  simp only [hm]
  by_cases h1 : m < 0
  · rw [if_pos h1]
    obtain ⟨k, hk⟩ : ∃ k : Nat, m = -(k : Int) := ⟨m.natAbs, by omega⟩
    subst hk
    have hab : (((-(k : Int)).natAbs : Nat) : Int) = k := by rw [Int.natAbs_neg, Int.natAbs_natCast]
    unfold refresh
    rw [if_neg (by omega)]
    refine ⟨_, rfl, ?_, rfl, rfl, ?_⟩
    · intro r hr
      have hr' : r < s.rows := hr
      show (if (0 : Int) ≤ r ∧ (r : Int) < 0 + min (min ((s.lines.length : Int) - 0 - ((((s.top : Int) + -(k : Int)).toNat : Nat) : Int)) (((-(k : Int)).natAbs : Nat) : Int)) s.rows then s.lines.getD (r + ((s.top : Int) + -(k : Int)).toNat) [] else
        clearRows ([] : List Char) (scrollRows [] s.rows s.screen (-(k : Int))) ((min (s.rows - 1) (0 : Int).toNat : Nat) : Int) (((-(k : Int)).natAbs : Nat) : Int) r) = s.lines.getD (((s.top : Int) + -(k : Int)).toNat + r) []
      rw [hab]
      by_cases hd : (0 : Int) ≤ r ∧ (r : Int) < 0 + min (min ((s.lines.length : Int) - 0 - ((((s.top : Int) + -(k : Int)).toNat : Nat) : Int)) (k : Int)) s.rows
      · rw [if_pos hd, Nat.add_comm]
      · rw [if_neg hd]
        unfold clearRows
        by_cases hk : r < k
        · rw [if_pos (by constructor <;> (simp; try omega)), List.getD_eq_getElem?_getD, List.getElem?_eq_none (by omega)]; rfl
        · have hz : ((min (s.rows - 1) (0 : Int).toNat : Nat) : Int) = 0 := by
            have : min (s.rows - 1) (0 : Int).toNat = 0 := by simp
            rw [this]; rfl
          rw [hz, if_neg (by omega), scrollRows_down _ _ _ _ (by omega) _ hr', if_neg hk, hs (r - k) (by omega)]
          congr 1; omega
    · show ((((s.top : Int) + -(k : Int)).toNat : Nat) : Int) = _
      omega
  · rw [if_neg h1]
    obtain ⟨k, hk⟩ : ∃ k : Nat, m = (k : Int) := ⟨m.natAbs, by omega⟩
    subst hk
    by_cases h2 : 0 < (k : Int)
    · rw [if_pos h2]
      have hle3 := hle2 h2
      unfold refresh
      rw [if_neg (by omega)]
      refine ⟨_, rfl, ?_, rfl, rfl, ?_⟩
      · intro r hr
        have hr' : r < s.rows := hr
        show (if (s.rows : Int) - k ≤ r ∧ (r : Int) < (s.rows : Int) - k + min (min ((s.lines.length : Int) - ((s.rows : Int) - k) - ((((s.top : Int) + (k : Int)).toNat : Nat) : Int)) (k : Int)) s.rows then s.lines.getD (r + ((s.top : Int) + (k : Int)).toNat) [] else
          clearRows ([] : List Char) (scrollRows [] s.rows s.screen (k : Int)) ((min (s.rows - 1) ((s.rows : Int) - k).toNat : Nat) : Int) (k : Int) r) = s.lines.getD (((s.top : Int) + (k : Int)).toNat + r) []
        by_cases hd : (s.rows : Int) - k ≤ r
        · rw [if_pos (by omega), Nat.add_comm]
        · rw [if_neg (by omega)]
          unfold clearRows
          rw [if_neg (by omega), scrollRows_up _ _ _ _ (by omega) _ hr', if_pos (by omega), hs (r + k) (by omega)]
          congr 1; omega
      · show ((((s.top : Int) + (k : Int)).toNat : Nat) : Int) = _
        omega
    · rw [if_neg h2]
      have hk0 : k = 0 := by omega
      subst hk0
      refine ⟨_, rfl, ?_, rfl, rfl, ?_⟩
      · intro r hr
        show scrollRows [] s.rows s.screen ((0 : Nat) : Int) r = s.lines.getD (((s.top : Int) + ((0 : Nat) : Int)).toNat + r) []
        have : ((s.top : Int) + ((0 : Nat) : Int)).toNat = s.top := by omega
        rw [this]
        exact hs r hr
      · show ((((s.top : Int) + ((0 : Nat) : Int)).toNat : Nat) : Int) = _
        omega

/-- lines `a`, `b`, `c`, `d` in a window of two rows -/
def demo : Sc := ⟨[['a'], ['b'], ['c'], ['d']], 2, 0, fun r => ([['a'], ['b']] : List (List Char)).getD r []⟩

example : InSync demo ∧ (2 : Int) ≤ demo.rows ∧ (scrollBy demo 2).map (fun s => (s.top, s.screen 0, s.screen 1)) = some (2, ['c'], ['d']) := by
  refine ⟨?_, by decide, by decide +kernel⟩
  intro r hr
  have : r < 2 := hr
  match r, this with
  | 0, _ => rfl
  | 1, _ => rfl

/-- C219: scrolling on by more than the height, with that many lines to come, signals an error. -/
theorem C219_scroll_wrong (s : Sc) (n : Int) (hn : (s.rows : Int) < n) (hl : (s.rows : Int) + n ≤ (s.lines.length : Int) - s.top) :
    scrollBy s n = none := by
  have hm : clampN s n = n := by
    unfold clampN; rw [if_neg (by omega)]; omega
  unfold scrollBy
  simp only [hm]
  rw [if_neg (by omega), if_pos (by omega)]
  unfold refresh
  rw [if_pos (by omega)]

example : ((⟨List.replicate 9 ['x'], 2, 0, fun _ => ['x']⟩ : Sc).rows : Int) < 3 := by decide

/-- C219: going to a line that exists shows the lines from it on; to another, nothing changes. -/
theorem C219_locate (s : Sc) (n : Int) : ∃ s', locate s n = some s' ∧ s'.lines = s.lines ∧ s'.rows = s.rows
    ∧ (0 ≤ n → n < s.lines.length → (s'.top : Int) = n ∧ InSync s')
    ∧ (¬ (0 ≤ n ∧ n < s.lines.length) → s' = s) := by
  unfold locate
  by_cases h : 0 ≤ n ∧ n ≤ (s.lines.length : Int) - 1
  · rw [if_pos h]
    unfold refresh
    rw [if_neg (by omega)]
    refine ⟨_, rfl, rfl, rfl, fun _ _ => ⟨?_, ?_⟩, fun hh => absurd ⟨h.1, by omega⟩ hh⟩
    · show ((n.toNat : Nat) : Int) = n; omega
    · intro r hr
      have hr' : r < s.rows := hr
      show (if (0 : Int) ≤ r ∧ (r : Int) < 0 + min (min ((s.lines.length : Int) - 0 - ((n.toNat : Nat) : Int)) (s.rows : Int)) s.rows then s.lines.getD (r + n.toNat) [] else
        clearRows ([] : List Char) s.screen ((min (s.rows - 1) (0 : Int).toNat : Nat) : Int) (s.rows : Int) r) = s.lines.getD (n.toNat + r) []
      by_cases hd : (0 : Int) ≤ r ∧ (r : Int) < 0 + min (min ((s.lines.length : Int) - 0 - ((n.toNat : Nat) : Int)) (s.rows : Int)) s.rows
      · rw [if_pos hd, Nat.add_comm]
      · rw [if_neg hd]
        unfold clearRows
        rw [if_pos (by constructor <;> (simp; try omega)), List.getD_eq_getElem?_getD, List.getElem?_eq_none (by omega)]; rfl
  · rw [if_neg h]
    exact ⟨s, rfl, rfl, rfl, fun h1 h2 => absurd ⟨h1, by omega⟩ h, fun _ => rfl⟩

example : (locate demo 1).map (fun s => (s.top, s.screen 0, s.screen 1)) = some (1, ['b'], ['c']) := by decide +kernel

end Eus.Txw
