set_option autoImplicit false
/-
Text windows: `lisp/xwindow/Xtext.l`.

The X server is modelled by what the calls of this file ask it to do: a window is a grid of character
cells; `CopyArea` copies a band of rows, `ClearArea` blanks one, `:image-string`/`:string` write cells.
Pixels, fonts, colours and the drawing of the cursor are not modelled.
-/
namespace Eus.Txw

/-- a text window: lisp/xwindow/Xdecl.l:261-273 (`win-row-max`, `win-col-max`, `win-row`, `win-col`)
and its drawable, one character per cell. -/
structure Win where
  rows : Nat
  cols : Nat
  row : Nat
  col : Nat
  cell : Nat → Nat → Char

/-- `:clear` of textWindow, lisp/xwindow/Xtext.l:159-164 -/
def cleared (rows cols : Nat) : Win := ⟨rows, cols, 0, 0, fun _ _ => ' '⟩

/-- `CopyArea` of whole rows, as called in Xtext.l:126-130 (source and target may overlap: X copies
as if at once) -/
def copyRows {α : Type} (f : Nat → α) (src dst cnt : Int) : Nat → α :=
  fun r => if dst ≤ r ∧ (r : Int) < dst + cnt then f (src + (r - dst)).toNat else f r

/-- `ClearArea` of whole rows, as called in Xtext.l:131-133 -/
def clearRows {α : Type} (blank : α) (f : Nat → α) (start cnt : Int) : Nat → α :=
  fun r => if start ≤ r ∧ (r : Int) < start + cnt then blank else f r

/-- `:scroll`, Xtext.l:121-134: `n` is cut to the height only after the start of the erased band has
been computed from it. -/
def scrollRows {α : Type} (blank : α) (rows : Nat) (f : Nat → α) (n : Int) : Nat → α :=
  if n = 0 then f
  else if 0 < n then
    let k : Int := min rows n.natAbs
    clearRows blank (copyRows f n 0 (rows - k)) (rows - n) k
  else
    let k : Int := min rows n.natAbs
    clearRows blank (copyRows f 0 n.natAbs (rows - k)) 0 k

/-- `:scroll` on a window -/
def scroll (w : Win) (n : Int) : Win :=
  { w with cell := scrollRows (fun _ => ' ') w.rows w.cell n }

/-- `:goto` of textWindow, Xtext.l:108-112, for arguments that are not negative -/
def goto (w : Win) (r c : Nat) : Win :=
  { w with row := min (w.rows - 1) r, col := min (w.cols - 1) c }

/-- `:advance`, Xtext.l:115-120 -/
def advance (w : Win) (n : Nat) : Win :=
  { w with row := w.row + (w.col + n) / w.cols, col := (w.col + n) % w.cols }

/-- the test after a line feed or a wrap: Xtext.l:151-153 and 204-206 -/
def wrapUp (w : Win) : Win :=
  if w.rows ≤ w.row then { scroll w 1 with row := w.row - 1 } else w

/-- `:newline`, Xtext.l:149-154 -/
def newline (w : Win) : Win :=
  wrapUp { w with col := 0, row := w.row + 1 }

/-- one cell written: `:image-string x y charbuf`, Xtext.l:200-202 -/
def setCell (w : Win) (r c : Nat) (ch : Char) : Win :=
  { w with cell := fun r' c' => if r' = r ∧ c' = c then ch else w.cell r' c' }

/-- `:putch`, Xtext.l:193-208 -/
def putch (w : Win) (ch : Char) : Win :=
  if ch = '\n' then newline w
  else if ch = '\t' then goto w w.row (((w.col + 8) / 8) * 8)
  else wrapUp (advance (setCell w w.row w.col ch) 1)

/-- the output half of a text-window stream: `:flush`, Xtext.l:278-282 -/
def putAll (w : Win) (s : List Char) : Win := s.foldl putch w

/-- `(position #\newline str :start s)` -/
def nlFrom (str : List Char) (s : Nat) : Option Nat :=
  match (str.drop s).findIdx? (· = '\n') with
  | some i => some (s + i)
  | none => none

/-- `:clear-eol` then `:string x y str s ss`, Xtext.l:217-219 -/
def drawPart (w : Win) (str : List Char) (s ss : Nat) : Win :=
  { w with cell := fun r c =>
      if r = w.row ∧ w.col ≤ c then
        (if c < w.col + (ss - s) then str.getD (s + (c - w.col)) ' ' else ' ')
      else w.cell r c }

/-- one turn of the loop of `:putstring`, Xtext.l:213-222, for a whole string (`e` its length).
`none`: a part of negative length would be drawn (not modelled). -/
def putPart (str : List Char) (st : Win × Nat) : Option (Win × Nat) :=
  let w := st.1
  let s := st.2
  let nl := nlFrom str s
  let ss := min (w.cols - w.col) (nl.getD str.length)
  if ss < s then none
  else
    let w1 := advance (drawPart w str s ss) (ss - s)
    match nl with
    | some _ => some (newline w1, ss + 1)
    | none => some (w1, ss)

/-- `:putstring`, Xtext.l:209-224, for at most `k` turns of the loop; the flag tells whether the loop
has ended -/
def putstring (str : List Char) : Nat → Win × Nat → Option (Win × Nat × Bool)
  | 0, st => some (st.1, st.2, decide (str.length ≤ st.2))
  | k + 1, st =>
    if str.length ≤ st.2 then some (st.1, st.2, true)
    else
      match putPart str st with
      | none => none
      | some st' => putstring str k st'

/-! ### the lines of a buffered window -/

/-- the vector case of `replace`, lisp/l/common.l:549-569 and lisp/c/sequence.c:858-908, with the
default `end1`. `none`: memcpy would leave one of the strings. -/
def replaceV (dest src : List Char) (s1 s2 e2 : Nat) : Option (List Char) :=
  if s1 ≤ dest.length ∧ s2 ≤ e2 ∧ e2 ≤ src.length then
    let n := min (dest.length - s1) (e2 - s2)
    some (dest.take s1 ++ ((src.drop s2).take n ++ dest.drop (s1 + n)))
  else none

/-- the new line made by `:insert`, Xtext.l:431-439 -/
def insertCh (line : List Char) (col : Nat) (ch : Char) : Option (List Char) := do
  let nl0 := List.replicate (line.length + 1) (Char.ofNat 0)
  let nl1 ← replaceV nl0 line 0 0 col
  let nl2 ← if col < nl1.length then some (nl1.set col ch) else none
  replaceV nl2 line (col + 1) col line.length

/-- the new line made by `:insert-string`, Xtext.l:417-427 -/
def insertStr (line : List Char) (col : Nat) (str : List Char) (e : Nat) : Option (List Char) := do
  let nl0 := List.replicate (line.length + e) (Char.ofNat 0)
  let nl1 ← replaceV nl0 line 0 0 col
  let nl2 ← replaceV nl1 str col 0 str.length
  replaceV nl2 line (col + e) col line.length

/-- `:delete`, Xtext.l:444-455. The first `replace` writes into the string itself; source and target
are the same string, so memcpy (sequence.c:907) is undefined when the two bands overlap. The result:
the string that was in the buffer, as it is now, and the line that takes its place. -/
def deleteN (line : List Char) (col n : Nat) : Option (List Char × List Char) :=
  if n ≤ col then
    if col ≤ line.length then
      if 0 < line.length - col ∧ n < line.length - col then none
      else do
        let l ← replaceV line line (col - n) col line.length
        some (l, l.take (l.length - n))
    else none
  else some (line, line)

/-- a buffered window as the keyboard sees it: Xdecl.l:278-279 -/
structure Ed where
  lines : List (List Char)
  cols : Nat
  row : Nat
  col : Nat

/-- a key that is a character: `:keyEnter`, `:insert`, Xtext.l:431-443 and 461-476: the cursor moves by
`:advance`. `none`: an error. -/
def key (e : Ed) (ch : Char) : Option Ed :=
  match e.lines[e.row]? with
  | none => none
  | some line =>
    match insertCh line e.col ch with
    | none => none
    | some l => some { e with lines := e.lines.set e.row l, row := e.row + (e.col + 1) / e.cols, col := (e.col + 1) % e.cols }

/-- some keys in turn -/
def keys (e : Ed) (s : List Char) : Option Ed := s.foldlM key e

/-- `expand-tab`, Xtext.l:294-311: the loop, with `p` characters written -/
def expandLoop (offset : Nat) : Nat → List Char → List Char
  | _, [] => []
  | p, c :: s =>
    if c = '\t' then
      let q := 8 - (offset + p) % 8
      List.replicate q ' ' ++ expandLoop offset (p + q) s
    else c :: expandLoop offset (p + 1) s

/-- `expand-tab` -/
def expandTab (src : List Char) (offset : Nat) : List Char :=
  if src.count '\t' = 0 then src else expandLoop offset 0 src

/-- `:selection` of BufferTextWindow, Xtext.l:507-526: from where the button went down to where the
pointer is now. `none`: an index outside of the buffer, or a column outside of its line. -/
def selection (lines : List (List Char)) (a b : Nat × Nat) : Option (List (List Char)) :=
  let s := if b.1 < a.1 ∨ (a.1 = b.1 ∧ b.2 < a.2) then b else a
  let e := if b.1 < a.1 ∨ (a.1 = b.1 ∧ b.2 < a.2) then a else b
  match lines[s.1]?, lines[e.1]? with
  | some l1, some l2 =>
    if l1.length < s.2 ∨ l2.length < e.2 then none
    else if s.1 = e.1 then some [(l1.drop s.2).take (e.2 - s.2)]
    else some (l1.drop s.2 :: ((lines.drop (s.1 + 1)).take (e.1 - s.1 - 1) ++ [l2.take e.2]))
  | _, _ => none

/-! ### scrolling -/

/-- a scrolled window: Xdecl.l:282-288. A row of the screen shows a string. -/
structure Sc where
  lines : List (List Char)
  rows : Nat
  top : Nat
  screen : Nat → List Char

/-- how far `:scroll` will go: Xtext.l:647-650 -/
def clampN (s : Sc) (n : Int) : Int :=
  if n < 0 then - (min (s.top : Int) n.natAbs)
  else max 0 (min ((s.lines.length : Int) - s.top - s.rows) n)

/-- `:refresh offset lines`, Xtext.l:593-603. `none`: `:goto` looks at a line of negative number
(Xtext.l:363-368) -/
def refresh (s : Sc) (offset cnt : Int) : Option Sc :=
  if offset < 0 then none
  else
    let at0 : Nat := min (s.rows - 1) offset.toNat
    let cl := clearRows ([] : List Char) s.screen at0 cnt
    let k : Int := min (min ((s.lines.length : Int) - offset - s.top) cnt) s.rows
    some { s with screen := fun r =>
      if offset ≤ r ∧ (r : Int) < offset + k then s.lines.getD (r + s.top) [] else cl r }

/-- `:scroll` of ScrollTextWindow, Xtext.l:644-655 -/
def scrollBy (s : Sc) (n : Int) : Option Sc :=
  let m := clampN s n
  let s1 : Sc := { s with screen := scrollRows [] s.rows s.screen m, top := (s.top + m).toNat }
  if m < 0 then refresh s1 0 m.natAbs
  else if 0 < m then refresh s1 (s.rows - m) m
  else some s1

/-- `:locate`, Xtext.l:631-634, with `:refresh` of the whole window -/
def locate (s : Sc) (n : Int) : Option Sc :=
  if 0 ≤ n ∧ n ≤ (s.lines.length : Int) - 1 then refresh { s with top := n.toNat } 0 s.rows
  else some s

end Eus.Txw
