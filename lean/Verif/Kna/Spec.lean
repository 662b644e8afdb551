set_option autoImplicit false
/-
The three encodings of a text of ASCII characters and characters of the Japanese character set (row and cell, JIS X 0208).
-/
namespace Eus.Kna

inductive Ch where
  | asc (c : Nat)
  | kj (row cell : Nat)
deriving DecidableEq, Repr

def Ch.Ok : Ch → Prop
  | .asc c => c < 128
  | .kj r c => (1 ≤ r ∧ r ≤ 94) ∧ 1 ≤ c ∧ c ≤ 94

instance : DecidablePred Ch.Ok := fun c => by cases c <;> unfold Ch.Ok <;> infer_instance

/-- EUC: row and cell plus 160 -/
def Ch.euc : Ch → List Nat
  | .asc c => [c]
  | .kj r c => [160 + r, 160 + c]

/-- Shift-JIS: two rows share a first byte, 129-159 and 224-239; odd rows have the second bytes 64-126, 128-158, even ones 159-252 -/
def Ch.sjis : Ch → List Nat
  | .asc c => [c]
  | .kj r c =>
    [if r ≤ 62 then 129 + (r - 1) / 2 else 193 + (r - 1) / 2,
     if r % 2 = 1 then (if c ≤ 63 then 63 + c else 64 + c) else 158 + c]

def euc (t : List Ch) : List Nat := t.flatMap Ch.euc
def sjis (t : List Ch) : List Nat := t.flatMap Ch.sjis

/-- JIS: ESC $ B (or ESC $ @), row and cell plus 32, ESC ( J, ASCII -/
structure Seg where
  old : Bool
  kanji : List (Nat × Nat)
  ascii : List Nat

def Seg.Ok (g : Seg) : Prop := (∀ p ∈ g.kanji, (1 ≤ p.1 ∧ p.1 ≤ 94) ∧ 1 ≤ p.2 ∧ p.2 ≤ 94) ∧ ∀ c ∈ g.ascii, c < 128 ∧ c ≠ 27

def Seg.jis (g : Seg) : List Nat := [27, 36, if g.old then 64 else 66] ++ (g.kanji.flatMap fun p => [32 + p.1, 32 + p.2]) ++ [27, 40, 74] ++ g.ascii

def Seg.text (g : Seg) : List Ch := (g.kanji.map fun p => .kj p.1 p.2) ++ g.ascii.map .asc

end Eus.Kna
