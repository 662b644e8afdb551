import Verif.Syn.Rw
set_option autoImplicit false
set_option linter.unusedSectionVars false
set_option linter.unusedSimpArgs false
namespace Eus.Syn

/-! ### C136 A semaphore is a counter -/

/-- Whatever the schedule, what the threads see is what they would see if each call took effect at one moment on a natural number that begins at 0. -/
theorem C136_semaphore_atomic (c : BitVec 32) (es : List (Ev SemaOp)) (s : St (BitVec 32) SemaOp) (h : run semaProg es (semaInit c) = some s)
    (hb : postsCalled s.trace < 2 ^ 32) : ∃ es' a, arun semaSpec es' (.init 0) = some a ∧ a.trace = s.trace := by
  obtain ⟨e1, a1, r1, hs⟩ := sim_run semaParts semaProg sema_compile es _ s _ (sim_init semaParts 0) h
  obtain ⟨b, r2, hn, _⟩ := nsim_run e1 _ a1 (.init 0) ⟨rfl, rfl, rfl⟩ sinv_init r1 (by rw [hs.trace]; exact hb)
  exact ⟨e1, b, r2, by rw [hn.trace, hs.trace]⟩

/-- No more waits succeed than there are posts. -/
theorem C136_acquired_le_posts (c : BitVec 32) (es : List (Ev SemaOp)) (s : St (BitVec 32) SemaOp) (h : run semaProg es (semaInit c) = some s)
    (hb : postsCalled s.trace < 2 ^ 32) : acquired s.trace ≤ postsCalled s.trace := by
  obtain ⟨e1, a1, r1, hs⟩ := sim_run semaParts semaProg sema_compile es _ s _ (sim_init semaParts 0) h
  obtain ⟨b, r2, hn, na, nd, np, _, _, _, e2, e3⟩ := nsim_run e1 _ a1 (.init 0) ⟨rfl, rfl, rfl⟩ sinv_init r1 (by rw [hs.trace]; exact hb)
  rw [hn.trace, hs.trace] at e2 e3
  omega

/-- Thread 0 waits, falls asleep, is woken by thread 1's post, and returns. -/
def semaDemo : List (Ev SemaOp) :=
  [.call 0 .wait, .go 0, .go 0, .call 1 .post, .go 1, .go 1, .go 1, .go 1, .go 1, .go 0, .go 0, .go 0, .go 0, .go 0]

example : (run semaProg semaDemo (semaInit 5)).map (·.trace) = some [.call 0 .wait, .call 1 .post, .ret 1 .post 0, .ret 0 .wait 0] := by decide
example : ∃ s, run semaProg semaDemo (semaInit 5) = some s ∧ postsCalled s.trace < 2 ^ 32 ∧ acquired s.trace = 1 :=
  ⟨_, rfl, by decide, by decide⟩

theorem post_loop (n : Nat) : ∃ es s, run semaProg es (semaInit 0) = some s ∧ s.sh = BitVec.ofNat 32 n ∧ s.holder = none ∧ (∀ t, s.pc t = .out) ∧
    postsDone s.trace = n ∧ acquired s.trace = 0 := by
  induction n with
  | zero => exact ⟨[], _, rfl, rfl, rfl, fun _ => rfl, rfl, rfl⟩
  | succ n ih =>
    obtain ⟨es, s, h1, h2, h3, h4, h5, h6⟩ := ih
    refine ⟨es ++ [.call 0 .post, .go 0, .go 0, .go 0, .go 0, .go 0],
      ⟨BitVec.ofNat 32 n + 1, none, fun u => if u = 0 then .out else s.pc u, s.trace ++ [.call 0 .post, .ret 0 .post 0]⟩, ?_, ?_, rfl, ?_, ?_, ?_⟩
    · rw [run_append, h1]
      have hw : ∀ pc : Nat → Pc (BitVec 32) SemaOp, (∀ t, t ≠ 0 → pc t = .out) → ∀ x, upd (wake 0 pc) 0 x = upd pc 0 x := by
        intro pc hpc x; funext u; simp only [upd]; split
        · rfl
        · rename_i hu; simp [wake, hpc u hu]
      simp only [Option.bind, run, step, h4, semaProg, upd_same, h3, if_true]
      rw [hw _ (by intro t ht; simp [upd, ht, h4])]
      simp only [upd_same, Option.some.injEq, St.mk.injEq, h2, true_and, List.append_assoc, List.cons_append, List.nil_append, and_true]
      funext u; simp only [upd]; split <;> simp_all
    · simp only; rw [show n + 1 = n + 1 from rfl]; apply BitVec.eq_of_toNat_eq; simp [BitVec.toNat_add]
    · intro t; simp [h4]
    · show postsDone (s.trace ++ _) = n + 1
      simp only [postsDone, List.countP_append] at h5 ⊢; rw [h5]; rfl
    · show acquired (s.trace ++ _) = 0
      simp only [acquired, List.countP_append] at h6 ⊢; rw [h6]; rfl

/-- The count has 32 bits: after 2³² posts, with nothing taken, a wait blocks. -/
theorem C136_wrap_wrong : ∃ es s, run semaProg es (semaInit 0) = some s ∧ postsDone s.trace = 2 ^ 32 ∧ acquired s.trace = 0 ∧
    Stuck semaProg s ∧ inCall (s.pc 0) = some .wait := by
  obtain ⟨es, s, h1, h2, h3, h4, h5, h6⟩ := post_loop (2 ^ 32)
  have h2' : s.sh = 0#32 := by rw [h2]; decide
  refine ⟨es ++ [.call 0 .wait, .go 0, .go 0],
    ⟨s.sh, none, upd s.pc 0 (.sleep .wait 0 [.wait 0 (fun count => count == 0), .act (fun count => (count - 1, 0)), .unlock] 0), s.trace ++ [.call 0 .wait]⟩, ?_, ?_, ?_, ?_, ?_⟩
  · rw [run_append, h1]
    simp only [Option.bind, run, step, h4, semaProg, upd_same, h3, if_true, h2']
    rw [if_pos (by decide)]
    simp only [Option.some.injEq, St.mk.injEq, true_and, and_true]
    funext u; simp only [upd]; split <;> simp_all
  · show postsDone (s.trace ++ _) = _
    simp only [postsDone, List.countP_append] at h5 ⊢; rw [h5]; rfl
  · show acquired (s.trace ++ _) = 0
    simp only [acquired, List.countP_append] at h6 ⊢; rw [h6]; rfl
  · intro t
    by_cases ht : t = 0
    · subst ht; simp [step, upd]
    · simp [step, upd, ht, h4]
  · simp [upd, inCall]

/-! ### C137 Nobody waits for a semaphore in vain -/

/-- When no call can go on, the calls that are left are waits, and every post has been taken. -/
theorem C137_semaphore_no_lost_wakeup (c : BitVec 32) (es : List (Ev SemaOp)) (s : St (BitVec 32) SemaOp) (h : run semaProg es (semaInit c) = some s)
    (hb : postsCalled s.trace < 2 ^ 32) (hst : Stuck semaProg s) (t : Nat) (o : SemaOp) (ht : inCall (s.pc t) = some o) :
    o = .wait ∧ acquired s.trace = postsCalled s.trace := by
  obtain ⟨e1, a1, r1, hs, hrem⟩ := all_run semaParts semaProg sema_compile sema_wakes es _ s _ (sim_init semaParts 0) (rem_init _ _) h
  obtain ⟨b, r2, hn, na, nd, np, s1, s2, s3, e2, e3⟩ := nsim_run e1 _ a1 (.init 0) ⟨rfl, rfl, rfl⟩ sinv_init r1 (by rw [hs.trace]; exact hb)
  have hsp := fun u => stuck_spec semaParts semaProg s a1 hs hrem hst u
  have onlyWait : ∀ u, a1.pc u = .out ∨ a1.pc u = .pending .wait ∧ s.sh = 0#32 := by
    intro u
    cases hsp u with
    | inl x => exact Or.inl x
    | inr x =>
      obtain ⟨o, x1, x2, x3⟩ := x
      cases o with
      | wait => simp [specOf, blocked, semaParts] at x3; exact Or.inr ⟨x1, x3⟩
      | trywait => simp [specOf, blocked, semaParts] at x3
      | post => simp [specOf, blocked, semaParts] at x3
  have z1 : na = 0 := s1.eq_zero (fun u => by rw [hn.pc]; cases onlyWait u with | inl x => rw [x]; rfl | inr x => rw [x.1]; rfl)
  have z2 : nd = 0 := s2.eq_zero (fun u => by rw [hn.pc]; cases onlyWait u with | inl x => rw [x]; rfl | inr x => rw [x.1]; rfl)
  have z3 : np = 0 := s3.eq_zero (fun u => by rw [hn.pc]; cases onlyWait u with | inl x => rw [x]; rfl | inr x => rw [x.1]; rfl)
  have hv := hn.val
  rw [hs.val] at hv
  rw [hn.trace, hs.trace] at e2 e3
  cases hsp t with
  | inl x =>
    have hk := hs.pcs t
    rw [x] at hk
    generalize decide (s.holder = some t) = b at hk
    generalize s.pc t = p at hk ht
    cases hk
    cases ht
  | inr x =>
    obtain ⟨o', x1, x2, x3⟩ := x
    rw [ht] at x2
    cases x2
    cases onlyWait t with
    | inl y => rw [y] at x1; cases x1
    | inr y =>
      rw [y.1] at x1
      cases x1
      rw [y.2] at hv
      simp at hv
      exact ⟨rfl, by omega⟩

/-- One post, two waits: one of them stays. -/
example : ∃ s, run semaProg [.call 0 .post, .go 0, .go 0, .go 0, .go 0, .go 0, .call 1 .wait, .go 1, .go 1, .go 1, .go 1, .go 1, .call 2 .wait, .go 2, .go 2] (semaInit 0) = some s ∧
    Stuck semaProg s ∧ inCall (s.pc 2) = some .wait ∧ acquired s.trace = 1 :=
  ⟨_, rfl, fun t => match t with | 0 => rfl | 1 => rfl | 2 => rfl | _ + 3 => rfl, rfl, by decide⟩

/-! ### C138 A readers/writer lock excludes -/

/-- If `rw_unlock` is called only by threads that have the lock, a writer never has the lock together with a reader or another writer. -/
theorem C138_rwlock_exclusive (es : List (Ev RwOp)) (s : St (BitVec 32) RwOp) (h : run rwProg es rwInit = some s)
    (hd : Disciplined s.trace) (hb : rdCalls s.trace < 2 ^ 32 - 1) : Exclusive (own s.trace) := by
  obtain ⟨e1, a1, r1, hs⟩ := sim_run rwParts rwProg rw_compile es _ s _ (sim_init rwParts 0) h
  rw [← hs.trace] at hd hb ⊢
  exact rinv_exclusive a1 (rinv_run e1 _ a1 rinv_init r1 hd hb)

/-- Readers 0 and 1 share the lock; writer 2 gets it when both have given it back. -/
def rwDemo : List (Ev RwOp) :=
  [.call 0 .rdlock] ++ List.replicate 5 (.go 0) ++ [.call 1 .rdlock] ++ List.replicate 5 (.go 1) ++ [.call 2 .wrlock, .go 2, .go 2] ++
  [.call 0 .unlock] ++ List.replicate 6 (.go 0) ++ [.go 2, .go 2] ++ [.call 1 .unlock] ++ List.replicate 6 (.go 1) ++ [.go 2, .go 2, .go 2, .go 2, .go 2]

example : (run rwProg rwDemo rwInit).map (·.trace) = some [.call 0 .rdlock, .ret 0 .rdlock 0, .call 1 .rdlock, .ret 1 .rdlock 0, .call 2 .wrlock, .call 0 .unlock, .ret 0 .unlock 0,
    .call 1 .unlock, .ret 1 .unlock 0, .ret 2 .wrlock 0] := by decide +kernel

example : ∃ s, run rwProg rwDemo rwInit = some s ∧ Disciplined s.trace ∧ rdCalls s.trace < 2 ^ 32 - 1 ∧ (own s.trace).wr 2 = true := by
  refine ⟨_, rfl, ?_, by decide +kernel, by decide +kernel⟩
  show Disciplined [.call 0 .rdlock, .ret 0 .rdlock 0, .call 1 .rdlock, .ret 1 .rdlock 0, .call 2 .wrlock, .call 0 .unlock, .ret 0 .unlock 0,
    .call 1 .unlock, .ret 1 .unlock 0, .ret 2 .wrlock 0]
  intro a t b e
  rcases a with _ | ⟨a1, _ | ⟨a2, _ | ⟨a3, _ | ⟨a4, _ | ⟨a5, _ | ⟨a6, _ | ⟨a7, _ | ⟨a8, _ | ⟨a9, a⟩⟩⟩⟩⟩⟩⟩⟩⟩ <;> simp at e
  · obtain ⟨rfl, rfl, rfl, rfl, rfl, rfl, _⟩ := e; left; decide
  · obtain ⟨rfl, rfl, rfl, rfl, rfl, rfl, rfl, rfl, _⟩ := e; left; decide
  · have := congrArg List.length e.2.2.2.2.2.2.2.2.2
    have e0 : a = [] := by cases a with | nil => rfl | cons _ _ => simp at this
    subst e0
    simp at e

/-- If a thread that does not have the lock gives it back, a writer gets in beside a reader. -/
theorem C138_foreign_unlock_wrong : ∃ es s, run rwProg es rwInit = some s ∧ (own s.trace).rd 0 = 1 ∧ (own s.trace).wr 2 = true := by
  refine ⟨[.call 0 .rdlock] ++ List.replicate 5 (.go 0) ++ [.call 1 .unlock] ++ List.replicate 6 (.go 1) ++ [.call 2 .wrlock] ++ List.replicate 5 (.go 2), _, rfl, by decide +kernel, by decide +kernel⟩

/-- If the lock is given back when nobody has it, everybody waits from then on, though nobody has it. -/
theorem C138_unlock_free_wrong : ∃ es s, run rwProg es rwInit = some s ∧ Stuck rwProg s ∧ inCall (s.pc 1) = some .rdlock ∧ inCall (s.pc 2) = some .wrlock ∧
    ∀ u, (own s.trace).rd u = 0 ∧ (own s.trace).wr u = false := by
  refine ⟨[.call 0 .unlock, .go 0, .go 0, .go 0, .go 0, .go 0, .go 0, .call 1 .rdlock, .go 1, .go 1, .call 2 .wrlock, .go 2, .go 2], _, rfl,
    fun t => match t with | 0 => rfl | 1 => rfl | 2 => rfl | _ + 3 => rfl, rfl, rfl, fun u => ⟨?_, rfl⟩⟩
  match u with
  | 0 => rfl
  | _ + 1 => rfl

/-! ### C139 Nobody waits for a readers/writer lock in vain -/

/-- When no call can go on, a reader that waits waits for a writer that has the lock, a writer that waits waits for somebody who has it, and nobody waits to give it back. -/
theorem C139_rwlock_no_lost_wakeup (es : List (Ev RwOp)) (s : St (BitVec 32) RwOp) (h : run rwProg es rwInit = some s)
    (hd : Disciplined s.trace) (hb : rdCalls s.trace < 2 ^ 32 - 1) (hst : Stuck rwProg s) (t : Nat) (o : RwOp) (ht : inCall (s.pc t) = some o) :
    o = .rdlock ∧ (∃ u, (own s.trace).wr u = true) ∨ o = .wrlock ∧ ∃ u, 0 < (own s.trace).rd u ∨ (own s.trace).wr u = true := by
  obtain ⟨e1, a1, r1, hs, hrem⟩ := all_run rwParts rwProg rw_compile rw_wakes es _ s _ (sim_init rwParts 0) (rem_init _ _) h
  have hsp := fun u => stuck_spec rwParts rwProg s a1 hs hrem hst u
  rw [← hs.trace] at hd hb ⊢
  have hi := rinv_run e1 _ a1 rinv_init r1 hd hb
  cases hsp t with
  | inl x =>
    have hk := hs.pcs t
    rw [x] at hk
    generalize decide (s.holder = some t) = b at hk
    generalize s.pc t = p at hk ht
    cases hk
    cases ht
  | inr x =>
    obtain ⟨o', x1, x2, x3⟩ := x
    rw [ht] at x2
    cases x2
    refine rinv_stuck a1 hi hb ?_ t o x1
    intro u
    cases hsp u with
    | inl y => exact Or.inl y
    | inr y => obtain ⟨o', y1, y2, y3⟩ := y; exact Or.inr ⟨o', y1, by rw [hs.val]; exact y3⟩

/-- Writer 0 has the lock, reader 1 and writer 2 wait. -/
example : ∃ s, run rwProg ([.call 0 .wrlock] ++ List.replicate 5 (.go 0) ++ [.call 1 .rdlock, .go 1, .go 1, .call 2 .wrlock, .go 2, .go 2]) rwInit = some s ∧
    Stuck rwProg s ∧ inCall (s.pc 1) = some .rdlock ∧ inCall (s.pc 2) = some .wrlock ∧ (own s.trace).wr 0 = true :=
  ⟨_, rfl, fun t => match t with | 0 => rfl | 1 => rfl | 2 => rfl | _ + 3 => rfl, rfl, rfl, by decide⟩

/-- A reader's turn: the reader `i` comes while the reader `j` has the lock, and then `j` leaves; the writer 0 looks and falls asleep again. -/
def turn (i j : Nat) : List (Ev RwOp) :=
  [.call i .rdlock, .go i, .go i, .go i, .go i, .go i, .call j .unlock, .go j, .go j, .go j, .go j, .go j, .go j, .go 0, .go 0]

/-- Writer 0 sleeps, nobody else is in a call, and there is one reader. -/
def starving (tr : List (Obs RwOp)) : St (BitVec 32) RwOp :=
  ⟨1, none, fun u => if u = 0 then .sleep .wrlock 1 [.wait 1 (fun readers => readers != 0), .act (fun _ => (-1, 0)), .unlock] 0 else .out, tr⟩

theorem st_ext {a b : St (BitVec 32) RwOp} (h1 : a.sh = b.sh) (h2 : a.holder = b.holder) (h3 : ∀ u, a.pc u = b.pc u) (h4 : a.trace = b.trace) : a = b := by
  cases a; cases b; simp only at *; subst h1 h2 h4; rw [funext h3]

theorem starve_turn2 (tr : List (Obs RwOp)) : run rwProg (turn 2 1) (starving tr) =
    some (starving (tr ++ [.call 2 .rdlock, .ret 2 .rdlock 0, .call 1 .unlock, .ret 1 .unlock 0])) := by
  simp [turn, run, step, starving, rwProg, upd, wake]
  funext u
  by_cases h0 : u = 0
  · simp [h0, upd, wake]
  · by_cases h1 : u = 1
    · simp [h1, upd, wake]
    · by_cases h2 : u = 2
      · simp [h2, upd, wake]
      · simp [h0, h1, h2, upd, wake]

theorem starve_turn1 (tr : List (Obs RwOp)) : run rwProg (turn 1 2) (starving tr) =
    some (starving (tr ++ [.call 1 .rdlock, .ret 1 .rdlock 0, .call 2 .unlock, .ret 2 .unlock 0])) := by
  simp [turn, run, step, starving, rwProg, upd, wake]
  funext u
  by_cases h0 : u = 0
  · simp [h0, upd, wake]
  · by_cases h1 : u = 1
    · simp [h1, upd, wake]
    · by_cases h2 : u = 2
      · simp [h2, upd, wake]
      · simp [h0, h1, h2, upd, wake]

theorem starve_turns (tr : List (Obs RwOp)) : run rwProg (turn 2 1 ++ turn 1 2) (starving tr) =
    some (starving (tr ++ [.call 2 .rdlock, .ret 2 .rdlock 0, .call 1 .unlock, .ret 1 .unlock 0, .call 1 .rdlock, .ret 1 .rdlock 0, .call 2 .unlock, .ret 2 .unlock 0])) := by
  rw [run_append, starve_turn2, Option.bind_some, starve_turn1]; simp

/-- Readers that overlap keep a writer out for ever: while the writer waits, any number of calls of `rw_rdlock` made later return, none of them holding the lock for ever. -/
theorem C139_writer_starves_wrong (n : Nat) : ∃ es s a b, run rwProg es rwInit = some s ∧ s.trace = a ++ .call 0 .wrlock :: b ∧ inCall (s.pc 0) = some .wrlock ∧
    b = (List.replicate n [Obs.call 2 RwOp.rdlock, .ret 2 .rdlock 0, .call 1 .unlock, .ret 1 .unlock 0, .call 1 .rdlock, .ret 1 .rdlock 0, .call 2 .unlock, .ret 2 .unlock 0]).flatten := by
  have : ∃ es, run rwProg es rwInit = some (starving ([.call 1 .rdlock, .ret 1 .rdlock 0, .call 0 .wrlock] ++
      (List.replicate n [Obs.call 2 RwOp.rdlock, .ret 2 .rdlock 0, .call 1 .unlock, .ret 1 .unlock 0, .call 1 .rdlock, .ret 1 .rdlock 0, .call 2 .unlock, .ret 2 .unlock 0]).flatten)) := by
    induction n with
    | zero =>
      have : ∃ s', run rwProg [.call 1 .rdlock, .go 1, .go 1, .go 1, .go 1, .go 1, .call 0 .wrlock, .go 0, .go 0] rwInit = some s' ∧ s'.sh = 1 ∧ s'.holder = none ∧
          (∀ u, s'.pc u = (starving []).pc u) ∧ s'.trace = [.call 1 .rdlock, .ret 1 .rdlock 0, .call 0 .wrlock] :=
        ⟨_, rfl, rfl, rfl, fun u => match u with | 0 => rfl | 1 => rfl | 2 => rfl | _ + 3 => rfl, rfl⟩
      obtain ⟨s', h, h1, h2, h3, h4⟩ := this
      refine ⟨_, h.trans ?_⟩
      congr 1
      exact st_ext h1 h2 h3 (by rw [h4]; simp [starving])
    | succ n ih =>
      obtain ⟨es, h⟩ := ih
      refine ⟨es ++ (turn 2 1 ++ turn 1 2), ?_⟩
      rw [run_append, h]
      rw [Option.bind_some, starve_turns, List.replicate_succ', List.flatten_append]
      simp
  obtain ⟨es, h⟩ := this
  exact ⟨es, _, [.call 1 .rdlock, .ret 1 .rdlock 0], _, h, rfl, rfl, rfl⟩

/-! ### C140 Allocating inside the collector -/

/-- memory.c:791-815 `gc` has `gc_lock` for writing while it runs the `:dispose` methods (`sweepall`, `call_disposers`), and memory.c:362-382 `gc_alloc` asks for the same lock for reading.  A thread that asks for the
lock for reading while it has it for writing is never answered, whatever the other threads do. -/
theorem C140_alloc_in_collector_wrong (es es2 : List (Ev RwOp)) (t : Nat) (s1 s2 : St (BitVec 32) RwOp) (h1 : run rwProg es rwInit = some s1)
    (hw : (own s1.trace).wr t = true) (h2 : run rwProg (.call t .rdlock :: es2) s1 = some s2)
    (hd : Disciplined s2.trace) (hb : rdCalls s2.trace < 2 ^ 32 - 1) : inCall (s2.pc t) = some .rdlock := by
  simp only [run] at h2
  cases hc : step rwProg (.call t .rdlock) s1 with
  | none => simp [hc] at h2
  | some sc =>
    simp only [hc, Option.bind] at h2
    obtain ⟨e1, a1, r1, hs1⟩ := sim_run rwParts rwProg rw_compile es _ s1 _ (sim_init rwParts 0) h1
    obtain ⟨ec, ac, rc, hsc⟩ := sim_step rwParts rwProg rw_compile _ s1 sc a1 hs1 hc
    obtain ⟨e2, a2, r2, hs2⟩ := sim_run rwParts rwProg rw_compile es2 sc s2 ac hsc h2
    rw [← hs2.trace] at hd hb
    have rall : arun (specOf rwParts) (e1 ++ ec) (.init 0) = some ac := by rw [arun_append, r1]; exact rc
    obtain ⟨l, hl⟩ := arun_trace _ e2 ac a2 r2
    have hi : RInv ac := rinv_run (e1 ++ ec) _ ac rinv_init rall (by rw [hl] at hd; exact disc_left hd) (by rw [hl, rdCalls_append] at hb; omega)
    simp only [step] at hc
    split at hc
    · cases hc
      have hp : ac.pc t = .pending .rdlock := by
        have := hsc.pcs t
        simp only [upd_same] at this
        exact start_inv this rfl
      have hw' : (own ac.trace).wr t = true := by
        rw [hsc.trace]
        show (own (s1.trace ++ [_])).wr t = true
        rw [own_append]; exact hw
      have hfin := upgrade_run t e2 ac a2 hi hw' hp r2 hd hb
      have hk := hs2.pcs t
      rw [hfin] at hk
      generalize decide (s2.holder = some t) = b at hk
      generalize s2.pc t = p at hk
      cases hk <;> rfl
    · cases hc

/-- It happens: thread 0 has the lock for writing and asks for it for reading; the reader 1 asks too. -/
example : ∃ s1 s2, run rwProg ([.call 0 .wrlock] ++ List.replicate 5 (.go 0)) rwInit = some s1 ∧ (own s1.trace).wr 0 = true ∧
    run rwProg [.call 0 .rdlock, .go 0, .call 1 .rdlock, .go 0, .go 1, .go 1] s1 = some s2 ∧ Disciplined s2.trace ∧ rdCalls s2.trace < 2 ^ 32 - 1 := by
  refine ⟨_, _, rfl, by decide, rfl, ?_, by decide⟩
  show Disciplined [.call 0 .wrlock, .ret 0 .wrlock 0, .call 0 .rdlock, .call 1 .rdlock]
  intro a t b e
  have : Obs.call t RwOp.unlock ∈ [Obs.call 0 RwOp.wrlock, .ret 0 .wrlock 0, .call 0 .rdlock, .call 1 .rdlock] := by rw [e]; simp
  simp at this

end Eus.Syn
