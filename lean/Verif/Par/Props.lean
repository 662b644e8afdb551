import Verif.Par.PoolLive
set_option autoImplicit false
/-
C58-C61, C92, C93: threads.
-/
namespace Eus.Par

/-! ### The thread pool -/

/-- C58 (partial: the programs call `wait-thread` once for every port they get from `thread`): with any number of calls and threads, after any schedule,
no port is ever taken from an empty list, no call of `wait-thread` signals an error, no function has been run twice, a value
`wait-thread` has returned is the value of the function of that very call, and only functions that have been given to `thread` have been run. -/
theorem C58_result_partial (waits : Nat → Bool) (es : List Ev) (s : Pool) (hp : Proper es) (h : Pool.exec waits es Pool.init = some s) :
    s.bad = false ∧ (∀ c, s.cpc c ≠ .err) ∧ (∀ c, s.times c ≤ 1) ∧ (∀ c v, s.cpc c = .fin (some v) → s.times c = 1 ∧ (c, v) ∈ s.ran)
    ∧ (∀ c, s.cpc c = .new → s.times c = 0) := by
  have hi := Pool.inv_exec es _ s (Pool.inv_init waits) hp h
  have hone : ∀ c, s.times c ≤ 1 := fun c => List.nodup_iff_count_le_one.mp hi.once c
  refine ⟨hi.ok, fun c e => ?_, hone, fun c v e => ?_, fun c e => ?_⟩
  · have := hi.call c
    rw [e] at this; exact this
  · have hc := hi.call c
    rw [e] at hc
    have hm : c ∈ s.ran.map Prod.fst := List.mem_map.mpr ⟨(c, v), hc.1, rfl⟩
    have := List.count_pos_iff.mpr hm
    exact ⟨Nat.le_antisymm (hone c) this, hc.1⟩
  · have hc := hi.call c
    rw [e] at hc
    apply List.count_eq_zero.mpr
    intro hm
    obtain ⟨⟨x, y⟩, hx, e⟩ := List.mem_map.mp hm
    simp only at e
    subst e
    exact hc y hx

/-- C58: a port belongs to one call of `thread` at a time, from when it is taken till the result has been handed over. -/
theorem C58_port_partial (waits : Nat → Bool) (es : List Ev) (s : Pool) (hp : Proper es) (h : Pool.exec waits es Pool.init = some s) (c d p : Nat)
    (hc : (s.cpc c).has p) (hd : (s.cpc d).has p) (wc : waits c = true) (wd : waits d = true) : c = d ∧ p ∉ s.free := by
  have hi := Pool.inv_exec es _ s (Pool.inv_init waits) hp h
  have own : ∀ c, (s.cpc c).has p → waits c = true → s.owner p = some c := by
    intro c hc wc
    have hk := hi.call c
    cases e : s.cpc c <;> rw [e] at hc hk <;> first | exact hc.elim | (cases hc; first | exact hk | exact hk wc | exact hk.1)
  have h1 := own c hc wc
  have h2 := own d hd wd
  rw [h1] at h2
  exact ⟨by cases h2; rfl, (hi.serve p c h1).1⟩

/-- C58: nothing is lost.  When nothing can move any more, with N threads in the pool, every call has either been run exactly once, and has returned (`thread-no-wait` too) or
is waiting for the program to call `wait-thread`; or it is still waiting for a thread, and then each of the N threads is
kept by a call nobody has called `wait-thread` for. -/
theorem C58_rest_partial (waits : Nat → Bool) (N : Nat) (es : List Ev) (s : Pool) (hp : Proper es) (hu : Uses N es) (h : Pool.exec waits es Pool.init = some s)
    (hr : s.Rest waits N) (c : Nat) (hc : s.cpc c ≠ .new) :
    (s.times c = 1 ∧ ((∃ v, s.cpc c = .fin v) ∨ ∃ p, s.cpc c = .h p)) ∨ (s.cpc c = .a0 ∧ ∀ p, p < N → ∃ d, s.cpc d = .h p) := by
  have hi := Pool.inv_exec es _ s (Pool.inv_init waits) hp h
  have hl := (Pool.live_exec es _ s (Pool.inv_init waits) (Pool.live_init N) hp hu h).1
  have one : s.cpc c ≠ .a0 → s.cpc c ≠ .a1 → s.times c = 1 := fun h0 h1 => by
    have hran : ∃ v, (c, v) ∈ s.ran := by
      rcases hl.kept c hc h0 h1 with hv | ⟨p, ho⟩
      · exact hv
      · exact (Pool.rest_port hi hl hr ho).2
    obtain ⟨v, hv⟩ := hran
    have hm : c ∈ s.ran.map Prod.fst := List.mem_map.mpr ⟨(c, v), hv, rfl⟩
    exact Nat.le_antisymm (List.nodup_iff_count_le_one.mp hi.once c) (List.count_pos_iff.mpr hm)
  rcases Pool.rest_call hi hl hr c with e | ⟨v, e⟩ | ⟨p, e⟩ | e
  · exact absurd e hc
  · exact Or.inl ⟨one (by simp [e]) (by simp [e]), Or.inl ⟨v, e⟩⟩
  · exact Or.inl ⟨one (by simp [e]) (by simp [e]), Or.inr ⟨p, e⟩⟩
  · exact Or.inr ⟨e, fun p hN => Pool.rest_a0 hi hl hr e hN⟩

/-- Two threads 0 and 1, the calls 5 and 6 made at the same time, one thread serving both; the first gives 50, the second 60. -/
def twoCalls : List Ev :=
  [.thr 0 0, .thr 0 0, .call 5, .call 6, .go 5, .go 5, .thr 1 0, .go 5, .go 5, .go 5, .go 5, .thr 0 0, .thr 1 0, .go 6, .go 6, .thr 0 0, .thr 0 0, .go 6, .go 5, .go 6,
   .go 6, .go 6, .thr 1 0, .thr 1 0, .thr 0 0, .thr 1 0, .thr 1 0, .thr 1 60, .go 6, .thr 0 50, .thr 0 0, .thr 0 0, .thr 0 0, .wait 6, .wait 5, .go 5, .go 5, .go 5, .go 5,
   .thr 1 0, .thr 1 0, .thr 1 0, .go 6, .go 6, .go 6, .go 6, .thr 0 0, .thr 0 0, .thr 0 0, .thr 1 0, .thr 1 0, .thr 1 0]

example : Proper twoCalls ∧ Uses 2 twoCalls := by
  refine ⟨fun e he c p h => ?_, fun e he p v h => ?_⟩ <;> subst h <;> simp [twoCalls] at he
  omega

example : (Pool.exec (fun _ => true) twoCalls Pool.init).map (fun s => (s.cpc 5, s.cpc 6, s.ran, s.free)) = some (.fin (some 50), .fin (some 60), [(6, 60), (5, 50)], [1, 0]) := by decide

/-- The same schedule, before the results are taken. -/
example : (Pool.exec (fun _ => true) (twoCalls.take 40) Pool.init).map (fun s => (s.cpc 5, s.cpc 6, s.free)) = some (.fin (some 50), .w0 1, []) := by decide

/-- A pool of one thread and a `thread-no-wait`: everything comes to rest. -/
example : ∃ s, Pool.exec (fun _ => false) [.thr 0 0, .thr 0 0, .call 5, .go 5, .go 5, .go 5, .go 5, .go 5, .go 5, .thr 0 0, .thr 0 0, .thr 0 0, .thr 0 0, .thr 0 50, .thr 0 0, .thr 0 0,
    .thr 0 0, .thr 0 0, .go 5] Pool.init = some s ∧ s.Rest (fun _ => false) 1 ∧ s.cpc 5 = .fin none ∧ s.times 5 = 1 := by
  refine ⟨_, rfl, ⟨fun c => ?_, fun p hp v => ?_⟩, rfl, rfl⟩
  · by_cases e : c = 5
    · subst e; rfl
    · simp [Pool.step, Pool.callStep, upd, e, Pool.init]
  · have : p = 0 := by omega
    subst this
    rfl

/-- C58 is wrong of programs that call `wait-thread` twice with the same port: the port has been given to another call in between, whose value the second call returns and
the rightful caller waits for ever.  There is one thread; call 5 gets its value 50, call 6 takes the same port, and the second `wait-thread` of
the first program gets 60, the value of call 6; call 6 waits for `donesem`, and nothing can move. -/
theorem C58_again_wrong :
    ∃ es s, Pool.exec (fun _ => true) es Pool.init = some s ∧ s.cpc 5 = .fin (some 60) ∧ (6, 60) ∈ s.ran ∧ s.cpc 6 = .w1 0 ∧ s.done 0 = 0
      ∧ s.step (fun _ => true) (.go 6) = none ∧ s.step (fun _ => true) (.thr 0 0) = none := by
  refine ⟨[.thr 0 0, .thr 0 0, .call 5, .go 5, .go 5, .go 5, .go 5, .go 5, .go 5, .thr 0 0, .thr 0 0, .thr 0 0, .thr 0 0, .thr 0 50, .thr 0 0, .thr 0 0, .thr 0 0, .go 5,
      .wait 5, .go 5, .go 5, .go 5, .go 5, .thr 0 0, .thr 0 0, .thr 0 0,
      .call 6, .go 6, .go 6, .go 6, .go 6, .go 6, .go 6, .thr 0 0, .thr 0 0, .thr 0 0, .thr 0 0, .thr 0 60, .thr 0 0, .thr 0 0, .thr 0 0, .go 6, .wait 6, .go 6,
      .again 5 0, .go 5, .go 5, .go 5, .go 5, .thr 0 0, .thr 0 0, .thr 0 0], _, rfl, ?_⟩
  decide

/-- C93 (partial: all calls are of `thread`, none of `thread-no-wait`): when a thread of the pool copies the special bindings of the caller, the caller is still inside `thread`, waiting for
that; so what is copied are its bindings at the call. -/
theorem C93_bindings_partial (N : Nat) (es : List Ev) (s : Pool) (hp : Proper es) (hu : Uses N es) (h : Pool.exec (fun _ => true) es Pool.init = some s) : s.late = [] :=
  (Pool.live_exec es _ s (Pool.inv_init _) (Pool.live_init N) hp hu h).2 fun _ => rfl

example : (Pool.exec (fun _ => true) twoCalls Pool.init).map (·.late) = some [] := by decide

/-- C93 is wrong with `thread-no-wait`: call 5 is one; the thread has run its function and is free again before call 5 has seen `runsem`; call 6 takes
the port, and what it takes from `runsem` is the post meant for call 5.  So call 6 has returned before its bindings are copied. -/
theorem C93_nowait_wrong :
    ∃ es s, Proper es ∧ Pool.exec (fun c => c == 6) es Pool.init = some s ∧ s.late = [6] ∧ s.cpc 6 = .h 0 := by
  refine ⟨[.thr 0 0, .thr 0 0, .call 5, .go 5, .go 5, .go 5, .go 5, .go 5, .go 5, .thr 0 0, .thr 0 0, .thr 0 0, .thr 0 0, .thr 0 50, .thr 0 0, .thr 0 0, .thr 0 0, .thr 0 0,
      .call 6, .go 6, .go 6, .go 6, .go 6, .go 6, .go 6, .go 6, .thr 0 0, .thr 0 0], _, ?_, rfl, ?_⟩
  · intro e he c p h
    subst h
    simp at he
  · decide

/-! ### The memory port -/

/-- C59: with any number of readers and writers, under every schedule, the values the calls of `:read` have returned, in order, followed by the one somebody has taken and is about
to return, followed by the one that is in the port, are the values that have been stored, in order; and there is at most one such value.  So no value is lost,
delivered twice or overwritten. -/
theorem C59_channel (es : List PEv) (s : Port) (h : Port.run es Port.init = some s) :
    ∃ a b, s.written.map Prod.snd = s.returned.map Prod.snd ++ a ++ b ∧ s.taken = s.returned.map Prod.snd ++ a ∧ a.length + b.length ≤ 1 := by
  rcases Port.inv_run es _ s Port.inv_init h with ⟨_, h2, h3, h4, h5⟩ | ⟨_, _, t, _, ⟨_, h3, h4⟩ | ⟨v, _, h3, h4⟩ | ⟨v, _, h3, h4⟩ | ⟨_, h3, h4⟩⟩
  · by_cases e : s.semIn = 0
    · exact ⟨[], [], by rw [h4 e, h3]; simp, by rw [h3]; simp, by simp⟩
    · exact ⟨[], [s.buf], by rw [h5 (by omega), h3]; simp, by rw [h3]; simp, by simp⟩
  · exact ⟨[], [s.buf], by rw [h4, h3]; simp, by rw [h3]; simp, by simp⟩
  · exact ⟨[v], [], by rw [h4, h3]; simp, h3, by simp⟩
  · exact ⟨[], [], by rw [h4, h3]; simp, by rw [h3]; simp, by simp⟩
  · exact ⟨[], [s.buf], by rw [h4, h3]; simp, by rw [h3]; simp, by simp⟩

/-- C59: what a thread has stored, followed by what it is about to store, is what it has called `:write` with, in order. -/
theorem C59_writers (es : List PEv) (s : Port) (t : Nat) (h : Port.run es Port.init = some s) : storedBy t s.written ++ pending (s.pc t) = wcalls t es := by
  have := Port.stored_run es _ s t h
  simpa [Port.init, storedBy, pending] using this

/-- C59: readers and writers wait for each other only: when nobody can go on, either only readers are waiting and everything that has been stored has been
returned, or only writers are waiting and the port is full. -/
theorem C59_waiting (es : List PEv) (s : Port) (h : Port.run es Port.init = some s) (hs : ∀ t, s.step (.go t) = none) :
    (s.written.map Prod.snd = s.returned.map Prod.snd ∧ ∀ t, s.pc t = .out ∨ s.pc t = .r0)
    ∨ (s.written.map Prod.snd = s.returned.map Prod.snd ++ [s.buf] ∧ ∀ t, s.pc t = .out ∨ ∃ v, s.pc t = .w0 v) := by
  have hi := Port.inv_run es _ s Port.inv_init h
  have ht : s.taken = s.returned.map Prod.snd := by
    rcases hi with ⟨_, _, h3, _⟩ | ⟨_, _, t, _, ⟨_, h3, _⟩ | ⟨v, e, _⟩ | ⟨v, _, h3, _⟩ | ⟨_, h3, _⟩⟩
    · exact h3
    · exact h3
    · have := hs t
      simp only [Port.step, e] at this
      cases this
    · exact h3
    · exact h3
  rcases Port.stuck hi hs with ⟨h1, h2⟩ | ⟨h1, h2⟩
  · exact Or.inl ⟨h1.trans ht, h2⟩
  · exact Or.inr ⟨by rw [h1, ht], h2⟩

/-- Two writers and a reader. -/
example : (Port.run [.write 0 7, .write 1 8, .go 0, .read 2, .go 0, .go 0, .write 0 9, .go 2, .go 2, .go 2, .go 1, .go 1, .go 1, .read 2, .go 2, .go 2, .go 2, .go 0, .go 0] Port.init).map
    (fun s => (s.written, s.returned, s.buf, s.pc 0)) = some ([(0, 7), (1, 8), (0, 9)], [(2, 7), (2, 8)], 9, .w2) := by decide

/-- Nobody can go on: the port is full and a writer waits. -/
example : ∃ s, Port.run [.write 0 7, .go 0, .go 0, .go 0, .write 1 8] Port.init = some s ∧ (∀ t, s.step (.go t) = none) ∧ s.pc 1 = .w0 8 := by
  refine ⟨_, rfl, fun t => ?_, rfl⟩
  by_cases e : t = 1
  · subst e; rfl
  · by_cases e0 : t = 0
    · subst e0; rfl
    · simp [Port.step, upd, e, e0, Port.init]

/-! ### The barrier -/

/-- C60 (partial: threads wake up only when they are signalled): a thread that has been woken up has waited till n threads had arrived for its round. -/
theorem C60_before_partial (n : Nat) (hn : 2 ≤ n) (es : List BEv) (s : Barrier) (he : Honest es) (h : Barrier.run es (Barrier.init n) = some s) (t : Nat) (ht : s.pc t = .wake) :
    Complete n (s.arrival t) s.arrivals := by
  obtain ⟨hi, e⟩ := Barrier.inv_run es _ s (Barrier.inv_init n hn) he h
  have := hi.wake t ht
  rw [e] at this
  exact this

/-- C60 (partial): a thread that goes through at once, without waiting, is the last one of its round. -/
theorem C60_last_partial (n : Nat) (hn : 2 ≤ n) (es : List BEv) (s s' : Barrier) (he : Honest es) (h : Barrier.run es (Barrier.init n) = some s) (t w c : Nat) (ht : s.pc t = .got c)
    (hs : s.step (.go t w) = some s') (hr : s'.released t = s.released t + 1) : (s.arrivals + 1) % n = 0 ∧ s'.arrivals = s.arrivals + 1 := by
  obtain ⟨hi, e⟩ := Barrier.inv_run es _ s (Barrier.inv_init n hn) he h
  have hc := hi.got t c ht
  have hcount := hi.count
  have hn' : s.n = n := e
  simp only [Barrier.step, ht] at hs
  split at hs
  · next hl =>
    have hm : s.arrivals % n + 1 = n := by rw [← hn', ← hcount, ← hc]; exact hl
    have := (mod_last hm (by omega)).1
    split at hs
    · cases hs; exact ⟨this, rfl⟩
    · split at hs
      · cases hs; exact ⟨this, rfl⟩
      · cases hs
  · cases hs
    simp at hr

/-- C60: how many threads are waiting after m arrivals: those of the unfinished round, and n - 2 of every finished one.  (The last thread of a round calls
`cond-signal`, which wakes up one thread, not `cond-broadcast`.) -/
theorem C60_count_partial (n : Nat) (hn : 2 ≤ n) (es : List BEv) (s : Barrier) (he : Honest es) (h : Barrier.run es (Barrier.init n) = some s) :
    s.waiters.Nodup ∧ (∀ t, t ∈ s.waiters ↔ s.pc t = .wait) ∧ s.waiters.length = s.arrivals % n + s.arrivals / n * (n - 2) := by
  obtain ⟨hi, e⟩ := Barrier.inv_run es _ s (Barrier.inv_init n hn) he h
  have := hi.length
  rw [e] at this
  exact ⟨hi.nodup, hi.mem, this⟩

/-- C60 (partial): with two threads the barrier does what it should: when a round is complete, nobody waits. -/
theorem C60_two_partial (es : List BEv) (s : Barrier) (he : Honest es) (h : Barrier.run es (Barrier.init 2) = some s) (hm : s.arrivals % 2 = 0) (t : Nat) : s.pc t ≠ .wait := by
  obtain ⟨_, h2, h3⟩ := C60_count_partial 2 (by omega) es s he h
  intro e
  have := List.length_pos_of_mem ((h2 t).mpr e)
  omega

example : Honest [.wait 0, .go 0 0, .go 0 0, .go 0 0, .wait 1, .go 1 0, .go 1 0, .go 1 0] := by
  intro e he t h
  subst h
  simp at he

example : (Barrier.run [.wait 0, .go 0 0, .go 0 0, .go 0 0, .wait 1, .go 1 0, .go 1 0, .go 1 0] (Barrier.init 2)).map (fun s => (s.pc 0, s.pc 1, s.arrivals, s.released 1)) =
    some (.wake, .out, 2, 1) := by decide

/-- C60 is wrong: with three threads, all three arrive, one of the two waiting ones is woken up, and the other one waits for ever. -/
theorem C60_wrong : ∃ es s, Honest es ∧ Barrier.run es (Barrier.init 3) = some s ∧ s.arrivals = 3 ∧ s.released 2 = 1 ∧ s.released 0 = 1 ∧ s.pc 1 = .wait ∧ s.count = 0
    ∧ ∀ t w, s.step (.go t w) = none := by
  refine ⟨[.wait 0, .go 0 0, .go 0 0, .go 0 0, .wait 1, .go 1 0, .go 1 0, .go 1 0, .wait 2, .go 2 0, .go 2 0, .go 2 0, .go 0 0], _, ?_, rfl, rfl, rfl, rfl, rfl, rfl, ?_⟩
  · intro e he t h
    subst h
    simp at he
  · intro t w
    by_cases e0 : t = 0
    · subst e0; rfl
    · by_cases e1 : t = 1
      · subst e1; rfl
      · by_cases e2 : t = 2
        · subst e2; rfl
        · simp [Barrier.step, upd, e0, e1, e2, Barrier.init]

/-- C60: more generally, with three threads or more somebody is left behind as soon as a round is complete. -/
theorem C60_left_wrong (n : Nat) (hn : 3 ≤ n) (es : List BEv) (s : Barrier) (he : Honest es) (h : Barrier.run es (Barrier.init n) = some s) (hm : n ≤ s.arrivals) : ∃ t, s.pc t = .wait := by
  obtain ⟨_, h2, h3⟩ := C60_count_partial n (by omega) es s he h
  have h1 : 0 < s.arrivals / n := Nat.div_pos hm (by omega)
  have : 0 < s.arrivals / n * (n - 2) := Nat.mul_pos h1 (by omega)
  obtain ⟨t, ht⟩ := List.exists_mem_of_length_pos (show 0 < s.waiters.length by omega)
  exact ⟨t, (h2 t).mp ht⟩

/-- C60: and a thread that wakes up by itself goes through before the others have come; POSIX allows that, and `:wait` does not test again. -/
theorem C60_spurious_wrong : ∃ es s, Barrier.run es (Barrier.init 3) = some s ∧ s.released 0 = 1 ∧ s.arrivals = 1 := by
  refine ⟨[.wait 0, .go 0 0, .go 0 0, .go 0 0, .spurious 0, .go 0 0], _, rfl, rfl, rfl⟩

/-! ### Timers -/

/-- C61: a timer with interval n > 0 that nobody changes the interval of has fired floor(k/n) times after k ticks that found it running, whatever else has happened, and it is
n - k mod n ticks before its next firing. -/
theorem C61_count (n : Nat) (hn : 0 < n) (es : List TEv) (s : Timer) (hf : Fixed es) (h : Timer.run es (Timer.init n) = some s) :
    s.runCount = (liveTicks es true / n : Nat) ∧ s.current = (n : Int) - (liveTicks es true % n : Nat) := by
  have h0 : (Timer.init (n : Int)).At n 0 := ⟨rfl, by simp [Timer.init], by simp [Timer.init]⟩
  have := Timer.at_run es _ s n 0 hn h0 hf h
  rw [show 0 + liveTicks es (Timer.init (n : Int)).running = liveTicks es true by simp [Timer.init]] at this
  exact ⟨this.count, this.current⟩

example : (Timer.run [.tick, .tick, .stop, .tick, .start, .tick, .wake, .look, .clear, .tick, .tick] (Timer.init 2)).map (fun s => (s.runCount, s.runs, s.sem)) = some (2, 1, 1)
    ∧ liveTicks [.tick, .tick, .stop, .tick, .start, .tick, .wake, .look, .clear, .tick, .tick] true = 5 := by decide

/-- C61 is wrong of an interval of 0 or less: such a timer never fires, though at every tick the time it should wait has passed. -/
theorem C61_zero_wrong (n : Int) (hn : n ≤ 0) (k : Nat) : ∃ s, Timer.run (List.replicate k .tick) (Timer.init n) = some s ∧ s.runCount = 0 := by
  have gen : ∀ (k : Nat) (s : Timer), s.current ≤ 0 → s.running = true → ∃ s', Timer.run (List.replicate k .tick) s = some s' ∧ s'.runCount = s.runCount := by
    intro k
    induction k with
    | zero => intro s _ _; exact ⟨s, rfl, rfl⟩
    | succ k ih =>
      intro s hc hr
      have : s.step .tick = some { s with current := s.current - 1 } := by
        simp only [Timer.step]
        rw [if_pos hr, if_neg (by omega)]
      obtain ⟨s', h1, h2⟩ := ih { s with current := s.current - 1 } (show s.current - 1 ≤ 0 by omega) hr
      exact ⟨s', by simp only [List.replicate, Timer.run, this]; exact h1, h2⟩
  exact gen k _ hn rfl

/-- C61 is wrong of a changed interval: it counts only from the next firing on; a timer of 1000 ticks set to 2 does not fire for another 999 ticks. -/
theorem C61_interval_wrong : ∃ s, Timer.run ([.tick, .interval 2] ++ List.replicate 998 .tick) (Timer.init 1000) = some s ∧ s.interval = 2 ∧ s.runCount = 0 := by
  have gen : ∀ (k : Nat) (s : Timer), (k : Int) < s.current → s.running = true →
      ∃ s', Timer.run (List.replicate k .tick) s = some s' ∧ s'.runCount = s.runCount ∧ s'.interval = s.interval := by
    intro k
    induction k with
    | zero => intro s _ _; exact ⟨s, rfl, rfl, rfl⟩
    | succ k ih =>
      intro s hc hr
      have : s.step .tick = some { s with current := s.current - 1 } := by
        simp only [Timer.step]
        rw [if_pos hr, if_neg (by omega)]
      obtain ⟨s', h1, h2⟩ := ih { s with current := s.current - 1 } (show (k : Int) < s.current - 1 by omega) hr
      exact ⟨s', by simp only [List.replicate, Timer.run, this]; exact h1, h2⟩
  have two : ∀ l, Timer.run ([.tick, .interval 2] ++ l) (Timer.init 1000) = Timer.run l ⟨2, 999, true, 0, 0, 0, 0, none⟩ := fun l => rfl
  obtain ⟨s', h1, h2, h3⟩ := gen 998 ⟨2, 999, true, 0, 0, 0, 0, none⟩ (by decide) rfl
  exact ⟨s', (two _).trans h1, h3, h2⟩

/-- C92 (partial: no tick falls between the thread's reading of the semaphore's count and its clearing it): every firing of a timer is accounted for: it has been run, or counted as
missed, or is still to be run. -/
theorem C92_partial (n : Int) (es : List TEv) (s : Timer) (h : Timer.run (atonce es) (Timer.init n) = some s) :
    s.runCount = s.runs + s.missed + s.sem + (if s.seen = none then 0 else 1) ∧ 0 ≤ s.sem := by
  have h0 : (Timer.init n).Acc := ⟨by simp [Timer.init], Or.inl ⟨rfl, by simp [Timer.init]⟩⟩
  rcases Timer.acc_run es _ s h0 h with ⟨h1, ⟨h2, h3⟩ | ⟨h2, h3⟩⟩
  · rw [if_pos h2]; exact ⟨by omega, h1⟩
  · rw [if_neg (by rw [h2]; simp)]; exact ⟨by omega, h1⟩

/-- Three firings before the thread comes to it: one run, two missed. -/
example : (Timer.run (atonce [.tick, .tick, .tick, .wake, .look, .tick]) (Timer.init 1)).map (fun s => (s.runCount, s.runs, s.missed, s.sem)) = some (4, 1, 2, 1) := by decide

/-- C92 is wrong in general: a firing between the two is neither run nor counted as missed. -/
theorem C92_wrong : ∃ s, Timer.run [.tick, .wake, .look, .tick, .clear] (Timer.init 1) = some s ∧ s.runCount = 2 ∧ s.runs = 1 ∧ s.missed = 0 ∧ s.sem = 0 ∧ s.seen = none :=
  ⟨_, rfl, by decide⟩

end Eus.Par
