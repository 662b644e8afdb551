set_option autoImplicit false
/-
Opening a file for input, output or both, writing and closing (lisp/l/loader.l `open`,
lisp/c/eusstream.c, lisp/c/lispio.c).
Simplifications: one file, given by its bytes or absent; the process may open it in any way; a write
to the operating system takes all the bytes (short writes are in Verif/Io); nobody else has the file
open.  The flags are added as numbers in the code; they are different bits and none is added twice, so
they are kept as booleans here.
-/
namespace Eus.Opn

/-- `:direction`. -/
inductive Dir where
  | input | output | io
deriving DecidableEq, Repr

/-- `:if-exists`. -/
inductive IfX where
  | append | newVersion | supersede | rename | overwrite | error | nil
deriving DecidableEq, Repr

/-- `:if-does-not-exist`. -/
inductive Dne where
  | default | error | create | nil
deriving DecidableEq, Repr

structure Flags where
  rd : Bool
  wr : Bool
  append : Bool := false
  creat : Bool := false
  trunc : Bool := false
  excl : Bool := false
deriving DecidableEq, Repr

/-- loader.l:49-74: the mode for the operating system. -/
def mode : Dir → IfX → Dne → Flags
  -- 51-55
  | .input, _, dne => { rd := true, wr := false, creat := dne == .create }
  | dir, ifx, dne =>
    -- 57-59
    let m : Flags := { rd := dir == .io, wr := true }
    -- 60-66
    let m := match ifx with
      | .append => { m with append := true }
      | .newVersion | .supersede | .rename => { m with creat := true, trunc := true }
      | .overwrite => { m with creat := true }
      | .nil | .error => { m with creat := true, excl := true }
    -- 67-73
    match dne with
    | .error => { m with creat := false }
    | .create => { m with creat := true }
    | .default => if ifx == .overwrite || ifx == .append then m else { m with creat := true }
    | .nil => m

/-- An open file in the operating system. -/
structure Fd where
  pos : Nat
  append : Bool
  isOpen : Bool
deriving DecidableEq, Repr

/-- open(2): `none` when it fails.  O_EXCL counts only with O_CREAT (without it Linux ignores it). -/
def kopen (m : Flags) (file : Option (List Nat)) : Option (Fd × Option (List Nat)) :=
  match file with
  | some c =>
    if m.creat && m.excl then none
    else some (⟨0, m.append, true⟩, some (if m.trunc then [] else c))
  | none => if m.creat then some (⟨0, m.append, true⟩, some []) else none

/-- Bytes `b` written at position `p` of a file. -/
def place (c : List Nat) (p : Nat) (b : List Nat) : List Nat :=
  c.take p ++ List.replicate (p - c.length) 0 ++ b ++ c.drop (p + b.length)

/-- write(2): `none` when the descriptor has been closed. -/
def kwrite (fd : Fd) (c : List Nat) (b : List Nat) : Option (Fd × List Nat) :=
  if !fd.isOpen then none
  else
    let p := if fd.append then c.length else fd.pos
    some ({ fd with pos := p + b.length }, place c p b)

/-- An output stream: the bytes in its buffer, the size of the buffer, its descriptor; and the file. -/
structure Out where
  buf : List Nat
  size : Nat
  fd : Fd
  file : List Nat
deriving DecidableEq, Repr

/-- eusstream.c:159-202 `flushstream` of a file: when the write fails the buffer stays. -/
def flush (o : Out) : Out :=
  if o.buf = [] then o
  else match kwrite o.fd o.file o.buf with
    | some (fd, c) => { o with buf := [], fd := fd, file := c }
    | none => o

/-- eusstream.c:204-216 `writech`.  (With a buffer of size 0 the code writes behind the buffer; the
properties do not depend on the size.) -/
def writech (o : Out) (c : Nat) : Out :=
  let o := if o.buf.length ≥ o.size then flush o else o
  { o with buf := o.buf ++ [c] }

/-- Some bytes, one after the other. -/
def write (o : Out) (l : List Nat) : Out := l.foldl writech o

/-- eusstream.c:53-65 `closestream` of an output stream: it is flushed, then the descriptor is closed;
the result says whether close(2) went well. -/
def closeOut (o : Out) : Bool × Out :=
  let o := flush o
  (o.fd.isOpen, { o with fd := { o.fd with isOpen := false } })

/-- eusstream.c:57-64 `closestream` of the input side of a stream opened with `:io`: it has the same
descriptor as the output side. -/
def closeIn (o : Out) : Bool × Out :=
  (o.fd.isOpen, { o with fd := { o.fd with isOpen := false } })

/-- lispio.c:34-47 `close`: for a two-way stream the input side is closed first. -/
def close (dir : Dir) (o : Out) : Bool × Out :=
  match dir with
  | .io =>
    let r := closeIn o
    if r.1 then closeOut r.2 else r
  | .output => closeOut o
  | .input => closeIn o

/-- What `open` gives. -/
inductive Got where
  | stream (fd : Fd)
  | nil
  | err
deriving DecidableEq, Repr

/-- loader.l:37-82 `open`, and the file after it.  Lines 78-81: when the operating system refuses, nil
if `:if-does-not-exist` is nil, an error if not. -/
def open_ (dir : Dir) (ifx : IfX) (dne : Dne) (file : Option (List Nat)) : Got × Option (List Nat) :=
  match kopen (mode dir ifx dne) file with
  | some (fd, f) => (.stream fd, f)
  | none => (if dne = .nil then .nil else .err, file)

/-- How a session with the file ends. -/
inductive End where
  | closed (ok : Bool)
  | nil
  | err
deriving DecidableEq, Repr

/-- Open, write the pieces, with `finish-output` after those marked, close. -/
def session (dir : Dir) (ifx : IfX) (dne : Dne) (size : Nat) (file : Option (List Nat))
    (pieces : List (List Nat × Bool)) : End × Option (List Nat) :=
  match open_ dir ifx dne file with
  | (.nil, f) => (.nil, f)
  | (.err, f) => (.err, f)
  | (.stream fd, f) =>
    let o : Out := pieces.foldl (fun o p => if p.2 then flush (write o p.1) else write o p.1)
      ⟨[], size, fd, f.getD []⟩
    let r := close dir o
    (.closed r.1, some r.2.file)

end Eus.Opn
