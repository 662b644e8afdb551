set_option autoImplicit false
/-
Broadcast streams: lisp/l/stream.l:571-597 on the output buffer of lisp/c/eusstream.c:159-240.
-/
namespace Eus.Brd

/-- the buffer of the stream (its first `count` bytes), and what every destination has got -/
structure BS where
  buf : List Nat
  outs : List (List Nat)
deriving DecidableEq, Repr

/-- stream.l:578: the size of the buffer -/
def cap : Nat := 256

/-- eusstream.c:169, 201 `flushstream`, stream.l:581-589 `:flush`: `princ` of the buffer to every destination and `finish-output` of it (of
destinations: what they get counts) -/
def flush (s : BS) : BS := if s.buf.length = 0 then s else ⟨[], s.outs.map (· ++ s.buf)⟩

/-- eusstream.c:212-215 and 229-233 -/
def room (s : BS) : BS := if s.buf.length ≥ cap then flush s else s

/-- eusstream.c:204-216 `writech` -/
def writech (s : BS) (c : Nat) : BS := { room s with buf := (room s).buf ++ [c] }

/-- eusstream.c:234-238: one round of the loop of `writestr`; the rest of the text is the second component -/
def wstep (s : BS) (mes : List Nat) : BS × List Nat :=
  ({ room s with buf := (room s).buf ++ mes.take (min mes.length (cap - (room s).buf.length)) }, mes.drop (min mes.length (cap - (room s).buf.length)))

/-- eusstream.c:228-238: the loop; the first argument bounds the number of rounds -/
def wloop : Nat → BS → List Nat → BS × List Nat
  | 0, s, mes => (s, mes)
  | n + 1, s, mes => if mes.length > 0 then wloop n (wstep s mes).1 (wstep s mes).2 else (s, mes)

/-- eusstream.c:218-240 `writestr`: every round writes at least one byte -/
def writestr (s : BS) (mes : List Nat) : BS := (wloop mes.length s mes).1

/-- what a program does with the stream -/
inductive Op where
  | byte (c : Nat)
  | text (mes : List Nat)
  | finish
  | add (already : List Nat)
deriving DecidableEq, Repr

/-- write-byte, princ, finish-output (lispio.c:294), stream.l:574-576 `:destinations` of one more -/
def step (s : BS) : Op → BS
  | .byte c => writech s c
  | .text mes => writestr s mes
  | .finish => flush s
  | .add t => { s with outs := t :: s.outs }

def run (s : BS) (l : List Op) : BS := l.foldl step s

/-- stream.l:594-597, 577-580: the destinations are pushed one by one -/
def make (dests : List (List Nat)) : BS := ⟨[], dests.foldl (fun l d => d :: l) []⟩

/-- stream.l:590-591 `:close`: the destinations are closed; what they have got -/
def close (s : BS) : List (List Nat) := s.outs

end Eus.Brd
