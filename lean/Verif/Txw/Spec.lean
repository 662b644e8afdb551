import Verif.Txw.Model
set_option autoImplicit false
/-
C217-C219, in their own words: an endless roll of paper as wide as the window.
-/
namespace Eus.Txw.Spec

/-- the finished lines, and the one being printed -/
structure Paper where
  done : List (List Char)
  cur : List Char

/-- printing one character on paper of `cols` columns: a tab goes to the next multiple of eight, but
not beyond the last column; a full line is finished. -/
def print (cols : Nat) (p : Paper) (ch : Char) : Paper :=
  if ch = '\n' then ⟨p.done ++ [p.cur], []⟩
  else if ch = '\t' then
    let goal := min (cols - 1) ((p.cur.length / 8 + 1) * 8)
    ⟨p.done, p.cur ++ List.replicate (goal - p.cur.length) ' '⟩
  else if p.cur.length + 1 = cols then ⟨p.done ++ [p.cur ++ [ch]], []⟩
  else ⟨p.done, p.cur ++ [ch]⟩

/-- a text on new paper -/
def printed (cols : Nat) (s : List Char) : Paper := s.foldl (print cols) ⟨[], []⟩

/-- all lines -/
def Paper.lines (p : Paper) : List (List Char) := p.done ++ [p.cur]

/-- a window of `rows` rows shows the last lines of the paper, from the top while they fit -/
def seen (rows : Nat) (p : Paper) (r c : Nat) : Char :=
  (p.lines.getD (p.lines.length - rows + r) []).getD c ' '

/-- a text put together from its lines -/
def text (ls : List (List Char)) : List Char := List.intercalate ['\n'] ls

/-- a scrolled window shows the lines from `top` on -/
def InSync (s : Sc) : Prop := ∀ r, r < s.rows → s.screen r = s.lines.getD (s.top + r) []

end Eus.Txw.Spec
