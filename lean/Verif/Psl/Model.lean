set_option autoImplicit false
/-
Port selectors: lisp/l/stream.l:619-688.  Streams are their file descriptors; a handler is a number, `prog` says what it does to the selector.
-/
namespace Eus.Psl

/-- what programs and handlers do to a selector -/
inductive Op where
  | add (fd h : Nat)
  | remove (fd : Nat)
deriving DecidableEq, Repr

/-- stream.l:623-626: the vectors `port-bits` and `streams` (the handler of the list stored) -/
structure Sel where
  bits : List Bool
  streams : List (Option Nat)
deriving DecidableEq, Repr

/-- stream.l:619 `*max-port-fd*` -/
def maxFd : Nat := 64

/-- stream.l:629-633 `:init` without ports -/
def init : Sel := ⟨List.replicate maxFd false, List.replicate maxFd none⟩

/-- stream.l:638-656 `:add-port`, `:remove-port`; `none` is the error for descriptors of 64 and more -/
def op (s : Sel) : Op → Option Sel
  | .add fd h => if fd ≥ maxFd then none else some ⟨s.bits.set fd true, s.streams.set fd (some h)⟩
  | .remove fd => if fd ≥ maxFd then none else some ⟨s.bits.set fd false, s.streams.set fd none⟩

/-- a handler runs -/
def ops (s : Sel) : List Op → Option Sel
  | [] => some s
  | o :: l => (op s o).bind fun s => ops s l

/-- a program: an error leaves the selector as it is, and the program goes on -/
def history (s : Sel) (l : List Op) : Sel := l.foldl (fun s o => (op s o).getD s) s

/-- stream.l:661-664 `:fds` -/
def fds (s : Sel) : List Nat := (List.range maxFd).filter fun j => s.bits.getD j false

/-- stream.l:670-677, the loop of `:select`: the calls made, and the selector afterwards or `none` for an error.  A port without handler: the
function is nil, and `(send* nil nil)` is an error. -/
def selLoop (prog : Nat → List Op) (ready : List Bool) : List Nat → Sel → List (Nat × Nat) × Option Sel
  | [], s => ([], some s)
  | j :: l, s =>
    if ready.getD j false then
      match s.streams.getD j none with
      | none => ([], none)
      | some h =>
        match ops s (prog h) with
        | none => ([(j, h)], none)
        | some s => ((j, h) :: (selLoop prog ready l s).1, (selLoop prog ready l s).2)
    else selLoop prog ready l s

/-- stream.l:665-680 `:select`, `avail` being the descriptors with something to read: `unix:select` keeps these of the `port-bits`, and its
value is their number (unixcall.c:1643-1682).  The last component: the value is t. -/
def select (prog : Nat → List Op) (avail : Nat → Bool) (s : Sel) : List (Nat × Nat) × Option Sel × Bool :=
  let ready := (List.range maxFd).map fun j => s.bits.getD j false && avail j
  if ready.count true > 0 then ((selLoop prog ready (List.range maxFd) s).1, (selLoop prog ready (List.range maxFd) s).2, true) else ([], some s, false)

end Eus.Psl
