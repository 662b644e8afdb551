set_option autoImplicit false
/-
Streams: lisp/c/eusstream.c, lisp/c/lispio.c:210-335, lisp/l/stream.l:48-70, 152-221, lisp/c/unixcall.c:725-765.

Bytes are natural numbers.  Message queues, sockets and io-streams are left out, and so are interrupts: a system call that is
interrupted is made again (reading) or fails (writing).
-/
namespace Eus.Io

/-! ### Output -/

inductive Kind where
  | file
  | string
deriving DecidableEq, Repr

/-- eus.h:245-266: an output stream: the buffer, the number of bytes in it, what the file has received, and what
the next `write` calls are going to do: fail, or take at most so many bytes; after these, they take everything. -/
structure Out where
  kind : Kind
  buf : List Nat
  count : Nat
  file : List Nat
  sys : List (Option Nat)
deriving DecidableEq, Repr

/-- Outcome: done; -1 returned; an error; C's undefined behaviour (a store outside the buffer); an endless loop. -/
inductive W where
  | ok (o : Out)
  | fail (o : Out)
  | err
  | ub
  | hang
deriving DecidableEq, Repr

/-- eusstream.c:163-211 `flushstream` -/
def flushstream (o : Out) : W :=
  if o.count = 0 then .ok o
  else match o.kind with
  | .file =>
    match o.sys with
    | [] => .ok { o with count := 0, file := o.file ++ o.buf.take o.count }
    | some k :: s => .ok { o with count := 0, file := o.file ++ o.buf.take (min k o.count), sys := s }
    | none :: s => .fail { o with sys := s }
  | .string =>
    if o.buf.length = o.count then
      if o.buf.length ≥ 1000000 then .err
      else .ok { o with buf := o.buf.take o.count ++ List.replicate o.count 0 }
    else .ok o

/-- A byte into the buffer (eusstream.c:224). -/
def put (c : Nat) (o : Out) : W :=
  if o.count < o.buf.length then .ok { o with buf := o.buf.set o.count c, count := o.count + 1 } else .ub

/-- eusstream.c:213-224 `writech` -/
def writech (c : Nat) (o : Out) : W :=
  if o.count ≥ o.buf.length then
    match flushstream o with
    | .ok o => put c o
    | r => r
  else put c o

/-- eusstream.c:226-248 `writestr`; every round but the last copies at least one byte, or the loop does not end. -/
def writestr : Nat → List Nat → Out → W
  | 0, _, _ => .hang
  | k + 1, mes, o =>
    if mes = [] then .ok o
    else match (if o.count ≥ o.buf.length then flushstream o else .ok o) with
    | .ok o =>
      if o.count > o.buf.length then .ub
      else
        let n := min mes.length (o.buf.length - o.count)
        if n = 0 then .hang
        else writestr k (mes.drop n) { o with buf := o.buf.take o.count ++ (mes.take n ++ o.buf.drop (o.count + n)), count := o.count + n }
    | r => r

/-- What programs do with an output stream: lispio.c:294-318 `finish-output`, `write-byte`; printing a string. -/
inductive Op where
  | byte (c : Nat)
  | str (s : List Nat)
  | finish
deriving DecidableEq, Repr

def op : Op → Out → W
  | .byte c, o => writech c o
  | .str s, o => writestr (s.length + 1) s o
  | .finish, o => flushstream o

/-- The callers ignore the value -1. -/
def run : List Op → Out → W
  | [], o => .ok o
  | p :: ps, o =>
    match op p o with
    | .ok o => run ps o
    | .fail o => run ps o
    | r => r

/-- stream.l:212-213 `get-output-stream-string` -/
def collected (o : Out) : List Nat := o.buf.take o.count

/-! ### Input -/

/-- The file behind a stream: the bytes to come, and how many more than one the next `read` calls are going to return at most. -/
structure Os where
  data : List Nat
  grants : List Nat
deriving DecidableEq, Repr

/-- `read(fd, …, n)` -/
def Os.read (n : Nat) (o : Os) : List Nat × Os :=
  match o.grants with
  | [] => (o.data.take n, ⟨o.data.drop n, []⟩)
  | g :: gs => (o.data.take (min n (g + 1)), ⟨o.data.drop (min n (g + 1)), gs⟩)

/-- An input stream. -/
structure In where
  kind : Kind
  buf : List Nat
  count : Nat
  tail : Nat
  os : Os
deriving DecidableEq, Repr

/-- Outcome of reading a character: the character; the end; undefined behaviour. -/
inductive C where
  | ch (c : Nat) (i : In)
  | eof (i : In)
  | ub
deriving DecidableEq, Repr

/-- eusstream.c:72-113 `fillstream`: whether there is something in the buffer now. -/
def fillstream (i : In) : Bool × In :=
  match i.kind with
  | .string => (false, i)
  | .file =>
    let r := i.os.read i.buf.length
    if r.1 = [] then (false, { i with os := r.2 })
    else (true, { i with buf := r.1 ++ i.buf.drop r.1.length, tail := r.1.length, os := r.2 })

/-- eusstream.c:115-138 `readch` -/
def readch (i : In) : C :=
  let get (c : Nat) (i : In) : C :=
    match i.buf[c]? with
    | some b => .ch b { i with count := c + 1 }
    | none => .ub
  if i.count ≥ i.tail then
    let r := fillstream i
    if r.1 then get 0 r.2 else .eof r.2
  else get i.count i

/-- eusstream.c:140-156 `unreadch` -/
def unreadch (c : Nat) (i : In) : In :=
  if i.count ≠ 0 then { i with buf := i.buf.set (i.count - 1) c, count := i.count - 1 } else i

/-- lispio.c:277-292 `peek-char` -/
def peekch (i : In) : C :=
  match readch i with
  | .ch c i => .ch c (unreadch c i)
  | r => r

/-- Outcome of reading a line: the line; the end; undefined behaviour. -/
inductive Ln where
  | line (l : List Nat) (i : In)
  | eof (i : In)
  | ub
deriving DecidableEq, Repr

/-- lispio.c:243-244: a Return at the end is dropped. -/
def dropReturn (l : List Nat) : List Nat := if l.getLast? = some 13 then l.dropLast else l

/-- lispio.c:223-242: the loop of `read-line`; `cb` are the bytes read.  The buffer grows by 8192 bytes when it is full; memory does not run
out. -/
def readlineLoop : Nat → List Nat → In → Ln
  | 0, _, _ => .ub
  | k + 1, cb, i =>
    match readch i with
    | .ub => .ub
    | .ch c i => if c = 10 then .line (dropReturn cb) i else readlineLoop k (cb ++ [c]) i
    | .eof i => if cb ≠ [] then .line (dropReturn cb) i else .eof i

/-- lispio.c:210-247 `read-line`.  (The first argument bounds the number of characters.) -/
def readline (k : Nat) (i : In) : Ln := readlineLoop k [] i

/-! ### Reading bytes -/

/-- unixcall.c:725-765 `(unix:uread fd buf size offset)`: the new buffer, the number of bytes, the file; `none`: a store outside the buffer. -/
def uread (buf : List Nat) (size offset : Nat) (o : Os) : Option (List Nat × Nat × Os) :=
  let r := o.read (min buf.length size)
  if offset + r.1.length ≤ buf.length ∨ r.1 = [] then some (buf.take offset ++ (r.1 ++ buf.drop (offset + r.1.length)), r.1.length, r.2) else none

/-- Outcome of `:read-bytes`: the buffer; an error; a store outside the buffer. -/
inductive B where
  | ok (buf : List Nat) (i : In)
  | err
  | ub
deriving DecidableEq, Repr

/-- stream.l:163-167 -/
def readBytesLoop : Nat → Nat → Nat → List Nat → In → B
  | 0, _, _, _, _ => .err
  | k + 1, n, offset, buf, i =>
    if offset < n then
      match uread buf (n - offset) offset i.os with
      | none => .ub
      | some (buf, u, os) => if u = 0 then .err else readBytesLoop k n (offset + u) buf { i with os := os }
    else .ok buf i

/-- stream.l:152-169 `:read-bytes` of a file stream. -/
def readBytes (n : Nat) (buf : List Nat) (offset : Nat) (i : In) : B :=
  let left := i.tail - i.count
  if left > 0 then
    let u := min n left
    -- (replace buf tail-string :end1 n)
    let m := min (min n buf.length) left
    let buf := ((i.buf.take i.tail).drop i.count).take m ++ buf.drop m
    readBytesLoop (n + 1) n (offset + u) buf { i with count := i.count + u }
  else readBytesLoop (n + 1) n offset buf i

/-- stream.l:174-176 -/
def readEofLoop : Nat → List Nat → In → List Nat × In
  | 0, acc, i => (acc, i)
  | k + 1, acc, i =>
    match uread i.buf i.buf.length 0 i.os with
    | none => (acc, i)
    | some (buf, u, os) => if u = 0 then (acc, { i with buf := buf, os := os }) else readEofLoop k (acc ++ buf.take u) { i with buf := buf, os := os }

/-- stream.l:170-178 `:read-bytes-eof`; the first argument bounds the number of calls of `read`. -/
def readBytesEof (k : Nat) (i : In) : List Nat × In :=
  if i.tail - i.count > 0 then readEofLoop k ((i.buf.take i.tail).drop i.count) { i with count := max i.tail (i.count + 1) }
  else readEofLoop k [] i

end Eus.Io
