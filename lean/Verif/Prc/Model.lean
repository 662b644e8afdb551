set_option autoImplicit false
/-
Starting programs on pipes: lisp/l/process.l:48-152 (`piped-fork`, `popen`, `xfork`), with lisp/c/unixcall.c:593-667 (`fork`, `exec`), 1000-1019
(`dup`, `dup2`), 1230-1245 (`pipe`) and lisp/c/eusstream.c:53-65 (`closestream`).

A process is its table of file descriptors; a pipe is a number, with an end for reading and one for writing.  The programs started do nothing
with descriptors but hold them until they end.  Message queues, signals and the Lisp read-eval-print loop of a `piped-fork` without a program
are left out.
-/
namespace Eus.Prc

/-- What a descriptor refers to: a file or terminal, or an end of a pipe. -/
inductive End where
  | file (n : Nat)
  | rd (p : Nat)
  | wr (p : Nat)
deriving DecidableEq, Repr

/-- `t n := e` -/
def set (t : Nat → Option End) (n : Nat) (e : Option End) : Nat → Option End := fun m => if m = n then e else t m

/-- The system call that makes a descriptor takes the lowest free number; there are `lim` of them. -/
def lowest (lim : Nat) (t : Nat → Option End) : Option Nat := (List.range lim).find? fun n => (t n).isNone

/-- unixcall.c:1230-1245 `(unix:pipe)`: the descriptors for reading and for writing, or an error number (`none`). -/
def pipe (lim : Nat) (t : Nat → Option End) (p : Nat) : Option (Nat × Nat × (Nat → Option End)) :=
  match lowest lim t with
  | none => none
  | some r =>
    match lowest lim (set t r (some (.rd p))) with
    | none => none
    | some w => some (r, w, set (set t r (some (.rd p))) w (some (.wr p)))

/-- unixcall.c:1000-1008 `(unix:dup fd)`: the value is not looked at. -/
def dup (lim : Nat) (t : Nat → Option End) (fd : Nat) : Nat → Option End :=
  match t fd with
  | none => t
  | some e =>
    match lowest lim t with
    | none => t
    | some n => set t n (some e)

/-- unixcall.c:1010-1019 `(unix:dup2 old new)` -/
def dup2 (t : Nat → Option End) (old new : Nat) : Nat → Option End :=
  match t old with
  | none => t
  | some e => set t new (some e)

/-- eusstream.c:57-63: the descriptor of a stream is closed; that the stream is closed already is not checked. -/
def close (t : Nat → Option End) (fd : Nat) : Nat → Option End := set t fd none

/-- process.l:53-58, 103-108: what the child does to its descriptors: `si` and `so` are those of `*standard-input*` and `*standard-output*`. -/
def childTab (lim : Nat) (t : Nat → Option End) (si so r1 w1 r2 w2 : Nat) : Nat → Option End :=
  let t := close t si
  let t := close t so
  let t := close t w1
  let t := close t r2
  let t := dup lim t r1
  dup lim t w2

/-- A child: its descriptors, whether it lives, and whether it goes on as a Lisp when its command has ended. -/
structure Kid where
  tab : Nat → Option End
  alive : Bool
  stays : Bool

/-- The value of `piped-fork`: the descriptors of the stream. -/
structure Conn where
  infd : Nat
  outfd : Nat
deriving DecidableEq, Repr

/-- The Lisp and its children: the number of descriptors, those in use, the number of pipes made, the descriptors of the standard streams, the
children and the streams to them, the text that waits in `*standard-output*`, and what has been written to its file. -/
structure Sys where
  lim : Nat
  tab : Nat → Option End
  next : Nat
  si : Nat
  so : Nat
  kids : List Kid
  conns : List Conn
  buf : List Nat
  out : List Nat

/-- How a program is started: by `piped-fork`, or by `popen`, with a space in the command or without. -/
inductive How where
  | pipedFork
  | popen (space : Bool)
deriving DecidableEq, Repr

/-- process.l:66-83, 109-111: a command with a space is run by `unix:system`; after it `piped-fork` ends the child, `popen` returns. -/
def How.stays : How → Bool
  | .pipedFork => false
  | .popen space => space

/-- Outcome: a stream; an error in the Lisp; an error in the Lisp and also in its copy, which both go on. -/
inductive Res where
  | ok (s : Sys)
  | err (s : Sys)
  | both (s : Sys)

/-- process.l:48-97 `piped-fork`, 99-125 `popen`; `forks`: whether `fork` succeeds.  When it fails its value is −1, which is not 0.  The check of
`p2` (50-51) comes after the fork; `popen` has none, but the first use of `p1` or `p2` is the same error. -/
def start (how : How) (forks : Bool) (s : Sys) : Res :=
  match pipe s.lim s.tab s.next with
  | none => if forks then .both s else .err s
  | some (r1, w1, t1) =>
    match pipe s.lim t1 (s.next + 1) with
    | none =>
      let s : Sys := { s with tab := t1, next := s.next + 1 }
      if forks then .both s else .err s
    | some (r2, w2, t2) =>
      -- closing *standard-output* in the child writes the text that waits there
      let out := if forks then s.out ++ s.buf else s.out
      let kid : Kid := { tab := childTab s.lim t2 s.si s.so r1 w1 r2 w2, alive := forks, stays := how.stays }
      let t := close t2 r1
      let t := close t w2
      .ok { s with tab := t, next := s.next + 2, kids := s.kids ++ [kid], conns := s.conns ++ [{ infd := r2, outfd := w1 }], out := out }

/-- What happens: a program is started; the stream to the `k`-th one is closed for output, or for input; its command ends; a file is opened; text
is printed; the output is flushed. -/
inductive Ev where
  | start (how : How) (forks : Bool)
  | closeOut (k : Nat)
  | closeIn (k : Nat)
  | ends (k : Nat)
  | open_ (n : Nat)
  | print (s : List Nat)
  | flush
deriving DecidableEq, Repr

/-- The end of the command: the child is gone, but for a `popen` with a space. -/
def Kid.ends (k : Kid) : Kid := { k with alive := k.alive && k.stays }

/-- One event; `none`: an error, or no such stream. -/
def step (e : Ev) (s : Sys) : Option Sys :=
  match e with
  | .start how forks =>
    match start how forks s with
    | .ok s => some s
    | _ => none
  | .closeOut k => s.conns[k]?.map fun c => { s with tab := close s.tab c.outfd }
  | .closeIn k => s.conns[k]?.map fun c => { s with tab := close s.tab c.infd }
  | .ends k => s.kids[k]?.map fun x => { s with kids := s.kids.set k x.ends }
  | .open_ n => (lowest s.lim s.tab).map fun fd => { s with tab := set s.tab fd (some (.file n)) }
  | .print t => some { s with buf := s.buf ++ t }
  | .flush => some { s with buf := [], out := s.out ++ s.buf }

def run : List Ev → Sys → Option Sys
  | [], s => some s
  | e :: es, s =>
    match step e s with
    | some s => run es s
    | none => none

/-- A Lisp with the three standard descriptors on a terminal. -/
def init (lim : Nat) : Sys :=
  { lim := lim, tab := fun n => if n < 3 then some (.file 0) else none, next := 0, si := 0, so := 1, kids := [], conns := [], buf := [], out := [] }

/-- process.l:136-141 `xfork`: the child's descriptors. -/
def xforkTab (t : Nat → Option End) (ifd ofd efd : Nat) : Nat → Option End :=
  let t := if ifd = 0 then t else dup2 t ifd 0
  let t := if ofd = 1 then t else dup2 t ofd 1
  if efd = 2 then t else dup2 t efd 2

end Eus.Prc
