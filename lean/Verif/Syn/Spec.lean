import Verif.Syn.Model
set_option autoImplicit false
/-
What the operations should do: every call takes effect at one moment between its beginning and its end, and its effect is that of a plain counter, or of a plain
readers/writer lock.
-/
namespace Eus.Syn

/-- Where a thread is, in the atomic machine: in no call; in a call that has not taken effect; in a call that has, with its result. -/
inductive APc (ω : Type) where
  | out
  | pending (o : ω)
  | done (o : ω) (r : Nat)
deriving DecidableEq, Repr

structure ASt (α ω : Type) where
  val : α
  pc : Nat → APc ω
  trace : List (Obs ω)

def ASt.init {α ω : Type} (x : α) : ASt α ω := ⟨x, fun _ => .out, []⟩

inductive AEv (ω : Type) where
  | call (t : Nat) (o : ω)
  | effect (t : Nat)
  | ret (t : Nat)
deriving DecidableEq, Repr

/-- The atomic machine.  `spec o x = none`: the operation has to wait while the value is x. -/
def astep {α ω : Type} (spec : ω → α → Option (α × Nat)) : AEv ω → ASt α ω → Option (ASt α ω)
  | .call t o, s =>
    match s.pc t with
    | .out => some { s with pc := upd s.pc t (.pending o), trace := s.trace ++ [.call t o] }
    | _ => none
  | .effect t, s =>
    match s.pc t with
    | .pending o => (spec o s.val).map fun yr => { s with val := yr.1, pc := upd s.pc t (.done o yr.2) }
    | _ => none
  | .ret t, s =>
    match s.pc t with
    | .done o r => some { s with pc := upd s.pc t .out, trace := s.trace ++ [.ret t o r] }
    | _ => none

def arun {α ω : Type} (spec : ω → α → Option (α × Nat)) : List (AEv ω) → ASt α ω → Option (ASt α ω)
  | [], s => some s
  | e :: es, s => (astep spec e s).bind (arun spec es)

/-- A semaphore: a natural number. -/
def semaSpec : SemaOp → Nat → Option (Nat × Nat)
  | .wait, 0 => none
  | .wait, n + 1 => some (n, 0)
  | .trywait, 0 => some (0, EBUSY)
  | .trywait, n + 1 => some (n, 0)
  | .post, n => some (n + 1, 0)

/-- How often `sema-post` has been called, how often it has returned. -/
def postsCalled : List (Obs SemaOp) → Nat := fun l => l.countP fun e => match e with | .call _ .post => true | _ => false
def postsDone : List (Obs SemaOp) → Nat := fun l => l.countP fun e => match e with | .ret _ .post _ => true | _ => false
/-- How often `sema-wait` has returned, or `sema-trywait` with success. -/
def acquired : List (Obs SemaOp) → Nat := fun l => l.countP fun e => match e with | .ret _ .wait _ => true | .ret _ .trywait 0 => true | _ => false

/-- Who has a lock: how often each thread has it for reading, and which threads have it for writing.  A thread has it from the return of the locking call to the
call of `rw_unlock`. -/
structure Own where
  rd : Nat → Nat
  wr : Nat → Bool

def Own.step (w : Own) : Obs RwOp → Own
  | .ret t .rdlock _ => { w with rd := upd w.rd t (w.rd t + 1) }
  | .ret t .wrlock _ => { w with wr := upd w.wr t true }
  | .call t .unlock => if w.wr t then { w with wr := upd w.wr t false } else { w with rd := upd w.rd t (w.rd t - 1) }
  | _ => w

def own (l : List (Obs RwOp)) : Own := l.foldl Own.step ⟨fun _ => 0, fun _ => false⟩

/-- `rw_unlock` is only called by a thread that has the lock. -/
def Disciplined (l : List (Obs RwOp)) : Prop :=
  ∀ a t b, l = a ++ Obs.call t RwOp.unlock :: b → 0 < (own a).rd t ∨ (own a).wr t = true

/-- How often `rw_rdlock` has been called. -/
def rdCalls (l : List (Obs RwOp)) : Nat := l.countP fun e => match e with | .call _ .rdlock => true | _ => false

/-- Nobody has the lock together with a writer. -/
def Exclusive (w : Own) : Prop := ∀ t, w.wr t = true → (∀ u, w.rd u = 0) ∧ ∀ u, w.wr u = true → u = t

/-- The operation a thread is in. -/
def inCall {σ ω : Type} : Pc σ ω → Option ω
  | .out => none
  | .run o _ _ => some o
  | .sleep o _ _ _ => some o
  | .woken o _ _ => some o

/-- No thread that is in a call can go on, however long one waits, unless somebody begins a new call. -/
def Stuck {σ ω : Type} (prog : ω → List (Instr σ)) (s : St σ ω) : Prop := ∀ t, step prog (.go t) s = none

end Eus.Syn
