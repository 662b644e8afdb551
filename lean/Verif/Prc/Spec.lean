import Verif.Prc.Model
set_option autoImplicit false
/-
What a user sees of programs on pipes: for every stream whether it is still open, for every child whether it is gone, and when the end of the
data is seen.
-/
namespace Eus.Prc

/-- No process has the writing end of this pipe any more: who reads from it sees the end. -/
def Ended (s : Sys) (p : Nat) : Prop :=
  (∀ fd, s.tab fd ≠ some (.wr p)) ∧ ∀ (j : Nat) (k : Kid), s.kids[j]? = some k → k.alive = true → ∀ fd, k.tab fd ≠ some (.wr p)

/-- The pipes of the `k`-th stream: to the child, and from it. -/
def toChild (k : Nat) : Nat := 2 * k
def fromChild (k : Nat) : Nat := 2 * k + 1

/-- A stream to a child as the program sees it: open for output, open for input; the children started while it was open for output; whether the
child is gone; whether it goes on after its command. -/
structure Link where
  out : Bool
  inp : Bool
  heirs : List Nat
  gone : Bool
  stays : Bool
deriving DecidableEq, Repr

def Link.inherit (n : Nat) (l : Link) : Link := if l.out then { l with heirs := n :: l.heirs } else l

/-- The same for one event; a stream is closed once. -/
def follow (e : Ev) (a : List Link) : Option (List Link) :=
  match e with
  | .start how forks => some (a.map (Link.inherit a.length) ++ [{ out := true, inp := true, heirs := [], gone := !forks, stays := how.stays }])
  | .closeOut k => (a[k]?).bind fun l => if l.out then some (a.set k { l with out := false }) else none
  | .closeIn k => (a[k]?).bind fun l => if l.inp then some (a.set k { l with inp := false }) else none
  | .ends k => (a[k]?).map fun l => a.set k { l with gone := l.gone || !l.stays }
  | .open_ _ => some a
  | .print _ => some a
  | .flush => some a

def followAll : List Ev → List Link → Option (List Link)
  | [], a => some a
  | e :: es, a => (follow e a).bind (followAll es)

end Eus.Prc
