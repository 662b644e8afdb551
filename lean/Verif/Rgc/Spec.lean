import Verif.Rgc.Model
/-!
# What a user expects of a garbage collector that runs beside the program

Objects in use stay; objects that nothing refers to go.
-/

namespace Eus.Rgc.Spec

/-- `a` can be got at from one of the objects in `R` by following pointer
slots. -/
inductive From (s : St) (R : Addr → Prop) : Addr → Prop where
  | here {a} : R a → From s R a
  | slot {a b i} : From s R a → i < s.size a → s.fld a i = some b → From s R b

/-- What a program can name at once: the global roots and what is on the stacks
of the threads. -/
def Named (P : Params) (s : St) (a : Addr) : Prop :=
  a ∈ P.roots ∨ ∃ t, t < P.nT ∧ a ∈ s.stk t

/-- The object is in use. -/
def InUse (P : Params) (s : St) : Addr → Prop := From s (Named P s)

/-- A system before its first collection: every thread computes, the collector
has done nothing yet, and all that is in use exists. -/
structure Start (P : Params) (s : St) : Prop where
  phase : s.phase = .nogc
  mark : ∀ a, s.mark a = false
  cstk : s.cstk = []
  scan : s.scan = none
  gs : ∀ t, s.gs t = []
  pstk : s.pstk = []
  stat : ∀ t, s.stat t = .run
  pend : ∀ t, s.pend t = .none
  live : ∀ a, InUse P s a → s.live a = true
  bound : ∀ a, s.live a = true → a < P.n

/-- The chunks are laid out in address order and the last cell is in the last
chunk. -/
structure Layout (P : Params) : Prop where
  mono : ∀ a b, a ≤ b → P.chunk a ≤ P.chunk b
  last : 0 < P.n → P.chunk (P.n - 1) = P.last

/-- The steps at which the collector of the repository makes no mistake:
* no thread leaves a GC region between the request for a root scan and its end;
* an allocation that began while the collector was marking or sweeping ends
  before the sweep does, and one that began during the sweep does not return a
  cell of the last chunk that the sweeper has passed;
* no object with a dispose hook dies. -/
def careful (P : Params) (s : St) : Act → Bool
  | .exit _ => decide (s.phase ≠ .prologue) && decide (s.phase ≠ .core)
  | .allocEnd t _ =>
    match s.pend t with
    | .taken _ .high => s.phase.high || decide (s.phase = .sweep)
    | .taken b .sweep => decide (s.phase = .sweep) && (decide (s.chp ≠ P.last) || decide (s.savedp ≤ b))
    | _ => true
  | .sweepOne => !(s.live s.pos && !s.mark s.pos && s.hook s.pos)
  | _ => true

/-- Every step of the history is careful, but for those in `q`. -/
def carefulBut (q : Act → Bool) (P : Params) : St → List Act → Bool
  | _, [] => true
  | s, a :: as =>
    (q a || careful P s a) && (match act P s a with
      | some s' => carefulBut q P s' as
      | none => true)

/-- A history of careful steps. -/
def Careful (P : Params) (s : St) (as : List Act) : Prop := carefulBut (fun _ => false) P s as = true

end Eus.Rgc.Spec
