import Verif.Sgn.Model
set_option autoImplicit false
/-
What is said of a history of signals, in terms of the list of events alone.
-/
namespace Eus.Sgn

/-- An ordinary signal: not one of those that the system has its own use for. -/
def Ordinary (s : Nat) : Prop := 0 < s ∧ s ≤ 64 ∧ refused s = false ∧ s ≠ sigCHLD ∧ s ≠ sigFPE ∧ s ≠ sigSEGV ∧ s ≠ sigBUS ∧ s ≠ sigPIPE

/-- The event is a call of `unix:signal` for s. -/
def Ev.sets (s : Nat) : Ev → Bool
  | .signal s' _ => min s' 64 == s
  | _ => false

/-- The event is something that happens to, or is done by, thread t as far as signals go. -/
def Ev.of (t : Nat) : Ev → Bool
  | .signal _ _ => false
  | .arrive u _ _ => u == t
  | .poll u => u == t
  | .look u => u == t
  | .act u => u == t

def Ev.isArrival : Ev → Bool
  | .arrive _ _ _ => true
  | _ => false

/-- The event is one half of a look for signals. -/
def Ev.half : Ev → Bool
  | .look _ => true
  | .act _ => true
  | _ => false

/-- The signal s arrives at t. -/
def Ev.brings (t s : Nat) : Ev → Bool
  | .arrive u s' _ => u == t && s' == s
  | _ => false

/-- The signal s arrives, at any thread. -/
def Ev.comes (s : Nat) : Ev → Bool
  | .arrive _ s' _ => s' == s
  | _ => false

/-- What `unix:signal` keeps of its argument: an object; nothing of an integer. -/
def Arg.asHandler : Arg → H
  | .obj h => h
  | .int _ => .nil

/-- A handler is run for s in thread t. -/
def R.runs (t s : Nat) : R → Bool
  | .run u _ s' _ => u == t && s' == s
  | _ => false

/-- The outcome without the code that is given to the handler -/
def R.noCode : R → R
  | .run t h s _ => .run t h s 0
  | r => r

/-- The events that concern thread t: its own and all calls of `unix:signal` -/
def Ev.concerns (t : Nat) (e : Ev) : Bool :=
  match e with
  | .signal _ _ => true
  | e => e.of t

/-- The outcomes of the events that concern t. -/
def pick (t : Nat) : List Ev → List R → List R
  | e :: es, r :: rs => if e.concerns t then r.noCode :: pick t es rs else pick t es rs
  | _, _ => []

end Eus.Sgn
