import Verif.Par.PoolModel
set_option autoImplicit false
/-
What the synchronisation objects are for.
-/
namespace Eus.Par

/-! ### The memory port -/

/-- The values a thread has called `:write` with, in order. -/
def wcalls (t : Nat) : List PEv → List Nat
  | [] => []
  | .write u v :: es => if u = t then v :: wcalls t es else wcalls t es
  | _ :: es => wcalls t es

/-- The value a thread is about to store. -/
def pending : PPc → List Nat
  | .w0 v => [v]
  | .w1 v => [v]
  | _ => []

/-- The values a thread has stored, in order. -/
def storedBy (t : Nat) (l : List (Nat × Nat)) : List Nat := (l.filter (fun p => p.1 == t)).map Prod.snd

/-! ### The barrier -/

/-- A schedule in which threads wake up only when they are signalled. -/
def Honest (es : List BEv) : Prop := ∀ e ∈ es, ∀ t, e ≠ .spurious t

/-- The round a thread with this arrival number belongs to is complete: n threads have arrived for it. -/
def Complete (n a arrivals : Nat) : Prop := (a / n + 1) * n ≤ arrivals

/-! ### Timers -/

/-- The number of ticks that find the timer running. -/
def liveTicks : List TEv → Bool → Nat
  | [], _ => 0
  | .tick :: es, r => (if r then 1 else 0) + liveTicks es r
  | .stop :: es, _ => liveTicks es false
  | .start :: es, _ => liveTicks es true
  | _ :: es, r => liveTicks es r

/-- Nobody changes the interval. -/
def Fixed (es : List TEv) : Prop := ∀ e ∈ es, ∀ n, e ≠ .interval n

/-- The schedule in which the thread, when it has read the semaphore's count, sets it to 0 at once. -/
def atonce (es : List TEv) : List TEv := es.flatMap fun e => if e = .look then [.look, .clear] else if e = .clear then [] else [e]

/-! ### The thread pool -/

/-- Every program calls `wait-thread` once for a port it has got from `thread`, and never for one from `thread-no-wait`. -/
def Proper (es : List Ev) : Prop := ∀ e ∈ es, ∀ c p, e ≠ .again c p

/-- The schedule uses only the first N ports. -/
def Uses (N : Nat) (es : List Ev) : Prop := ∀ e ∈ es, ∀ p v, e = .thr p v → p < N

/-- No call and no thread of the pool can go on. -/
def Pool.Rest (waits : Nat → Bool) (N : Nat) (s : Pool) : Prop := (∀ c, s.step waits (.go c) = none) ∧ ∀ p, p < N → ∀ v, s.step waits (.thr p v) = none

/-- The call has this port: it has taken it and has not had its result. -/
def CPc.has : CPc → Nat → Prop
  | .a2 q, p | .a3 q, p | .a4 q, p | .a5 q, p | .a6 q, p | .h q, p | .w0 q, p | .w1 q, p | .w2 q, p | .w3 q _, p => q = p
  | _, _ => False

/-- How often the function of a call has been run. -/
def Pool.times (s : Pool) (c : Nat) : Nat := (s.ran.map Prod.fst).count c

end Eus.Par
