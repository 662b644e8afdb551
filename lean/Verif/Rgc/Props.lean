import Verif.Rgc.Step3
/-!
# C194: the concurrent collector frees what is not in use, and nothing else
-/

namespace Eus.Rgc
open Spec

theorem inv_start {P : Params} {s : St} (h : Start P s) :
    Inv P ⟨InUse P s, fun _ => False, s, InUse P s⟩ s where
  cl := {
    root := fun r hr => .here (.inl hr)
    stk := fun t ht a ha => .here (.inr ⟨t, ht, ha⟩)
    pstk := fun a ha => by rw [h.pstk] at ha; cases ha
    cstk := fun a ha => by rw [h.cstk] at ha; cases ha
    gs := fun t a ha => by rw [h.gs] at ha; cases ha
    chk := fun t _ o i v f e => by rw [h.pend] at e; cases e
    psh := fun t _ o i v e => by rw [h.pend] at e; cases e
    kid := fun a b i ha hf hi => .slot ha hi hf
    live := h.live
    own := fun t _ b w e => by rw [h.pend] at e; cases e
    own1 := fun t _ u _ b w w' e => by rw [h.pend] at e; cases e
    bound := h.bound
    markU := fun a ha => by rw [h.mark] at ha; cases ha
    stop := fun t _ _ => h.pend t
    gsT := fun t _ => h.gs t
    fresh := fun a ha => .inl (.here ha)
    scanU := fun p i e => by rw [h.scan] at e; cases e }
  mkg hp := by rw [h.phase] at hp; cases hp
  sw hp := by rw [h.phase] at hp; cases hp
  rest _ _ := ⟨h.mark, ⟨h.cstk, h.scan, h.gs⟩, fun e => (by rw [h.phase] at e; cases e),
    fun e => (by rw [h.phase] at e; cases e)⟩

theorem inv_run {P : Params} (hL : Layout P) : ∀ (as : List Act) {g : Ghost} {s s' : St}, Inv P g s →
    Careful P s as → run P s as = some s' →
    ∃ g', Inv P g' s' ∧ ((∀ a ∈ as, a ≠ .scanStart) → R0 g' = R0 g ∧
      ∀ x, g'.A x → g.A x ∨ ∃ t, Act.allocTake t x ∈ as)
  | [], g, s, s', h, _, e => by
    cases e
    exact ⟨g, h, fun _ => ⟨rfl, fun x hx => .inl hx⟩⟩
  | a :: as, g, s, s', h, hc, e => by
    simp only [run] at e
    cases ha : act P s a with
    | none => rw [ha] at e; cases e
    | some s1 =>
      rw [ha] at e
      simp only [Careful, carefulBut, ha, Bool.false_or, Bool.and_eq_true] at hc
      obtain ⟨g', h1, h2⟩ := inv_run hL as (inv_step hL h hc.1 ha) hc.2 e
      refine ⟨g', h1, fun hn => ?_⟩
      obtain ⟨h3, h4⟩ := h2 (fun b hb => hn b (List.mem_cons_of_mem _ hb))
      have hne : a ≠ .scanStart := hn a List.mem_cons_self
      have hR : R0 (gnext P g s a) = R0 g := by
        cases a <;> first | rfl | exact absurd rfl hne
      refine ⟨h3.trans hR, fun x hx => ?_⟩
      rcases h4 x hx with h5 | ⟨t, h5⟩
      · cases a with
        | allocTake t b =>
          rcases h5 with h5 | h5
          · exact .inl h5
          · exact .inr ⟨t, by rw [h5]; exact List.mem_cons_self⟩
        | scanStart => exact absurd rfl hne
        | _ => exact .inl h5
      · exact .inr ⟨t, List.mem_cons_of_mem _ h5⟩

/-- **C194 (partial).**  However the threads and the collector are interleaved,
and however the threads change the heap while the collector marks and sweeps,
an object in use is never freed — in histories whose steps are `careful`: the
exceptions are the four defects shown below. -/
theorem C194_kept_partial {P : Params} (hL : Layout P) {s s' : St} (h0 : Start P s) (as : List Act)
    (hc : Careful P s as) (hr : run P s as = some s') :
    ∀ a, InUse P s' a → s'.live a = true := by
  obtain ⟨g, h, -⟩ := inv_run hL as (inv_start h0) hc hr
  exact fun a ha => h.cl.live a (From_U h (Named_U h) a ha)

/-- **C194 (partial).**  One collection is enough: what cannot be got at when
the roots are scanned — from the global roots, the stacks, and what stores of
the collection before left on `pstack` — is free at the end of the sweep,
unless an allocation has given the cell out again. -/
theorem C194_freed_partial {P : Params} (hL : Layout P) {s s0 s1 s2 : St} (h0 : Start P s)
    (before during : List Act) (hc0 : Careful P s before) (hr0 : run P s before = some s0)
    (hs : act P s0 .scanStart = some s1) (hn : ∀ a ∈ during, a ≠ .scanStart)
    (hc : Careful P s1 during) (hr : run P s1 during = some s2) (he : s2.phase = .epilogue)
    (a : Addr) (hu : ¬ From s0 (fun x => Named P s0 x ∨ x ∈ s0.pstk) a)
    (hA : ∀ t, Act.allocTake t a ∉ during) : s2.live a = false := by
  obtain ⟨g0, i0, -⟩ := inv_run hL before (inv_start h0) hc0 hr0
  have i1 := step_scanStart i0 hs
  obtain ⟨g2, i2, h2⟩ := inv_run hL during i1 hc hr
  obtain ⟨e1, e2⟩ := h2 hn
  cases hl : s2.live a with
  | false => rfl
  | true =>
    have r := i2.rest (by rw [he]; rfl) (by rw [he]; simp)
    have := r.epi he a hl
    rcases i2.cl.fresh a this with h3 | h3
    · rw [e1] at h3; exact absurd h3 hu
    · rcases e2 a h3 with h4 | ⟨t, h4⟩
      · exact absurd h4 id
      · exact absurd h4 (hA t)

/-! ## The defects, each with an otherwise careful history -/

/-- `n` cells in one chunk, cell 0 the only global root. -/
def demoP (nT n : Nat) : Params := ⟨nT, n, [0], fun _ => 0, 0⟩

theorem demo_layout (nT n : Nat) : Layout (demoP nT n) := ⟨fun _ _ _ => Nat.le_refl _, fun _ => rfl⟩

/-- Objects `0 … k-1` with one empty slot each; thread `t` has `stk t`. -/
def demo (k : Nat) (stk : Nat → List Addr) : St where
  phase := .nogc
  live := fun a => decide (a < k)
  size := fun _ => 1
  fld := fun _ _ => none
  mark := fun _ => false
  hook := fun _ => false
  cstk := []
  scan := none
  gs := fun _ => []
  pstk := []
  cur := 0
  chk := false
  stk := stk
  pend := fun _ => .none
  stat := fun _ => .run
  k := 0
  pos := 0
  chp := 0
  savedp := 0

theorem demo_start {nT n k : Nat} {stk : Nat → List Addr} (hk : 0 < k) (hn : k ≤ n)
    (hs : ∀ t < nT, ∀ a ∈ stk t, a < k) : Start (demoP nT n) (demo k stk) where
  phase := rfl
  mark _ := rfl
  cstk := rfl
  scan := rfl
  gs _ := rfl
  pstk := rfl
  stat _ := rfl
  pend _ := rfl
  live a ha := by
    refine decide_eq_true ?_
    cases ha with
    | here h =>
      rcases h with h | ⟨t, ht, h⟩
      · have : a = 0 := by simpa [demoP] using h
        omega
      · exact hs t ht a h
    | slot _ _ hf => cases hf
  bound a ha := by
    have : a < k := of_decide_eq_true ha
    show a < n
    omega

/-- Scan of the roots and marking, for `nT` threads, when all have stopped. -/
def cycleScan (nT : Nat) : List Act :=
  .scanStart :: List.replicate nT .scanThread ++ [.scanEnd, .toMark]

/-- The store of `v` in slot 0 of `o` by `t`. -/
def store (t o : Nat) (v : Option Addr) : List Act := [.storeCheck t o 0 v, .storePush t, .storeWrite t]

/-- One thread; the root gets a new object, then the collector runs while the
thread moves the object from the root to a newer one. -/
def demoRun : List Act :=
  [.loadRoot 0 0, .allocTake 0 1, .allocEnd 0 1] ++ store 0 0 (some 1) ++ [.drop 0, .request 0] ++ cycleScan 1 ++
  [.markRoot, .markPop] ++ [.allocTake 0 2, .allocEnd 0 1, .load 0 0 0] ++ store 0 2 (some 1) ++
  store 0 0 (some 2) ++
  [.markSlot, .markSlot, .markPop, .markRoot, .markRoot, .markPstk, .markPop, .markSlot, .markSlot,
   .markPstk, .markPop, .markFin, .toSweep, .sweepOne, .sweepOne, .sweepOne, .sweepOne, .sweepEnd]

/-- The hypotheses of `C194_kept_partial` hold of a whole collection with stores
and allocations in the middle of marking, at the end of which the object moved
behind the collector's back is in use and exists. -/
example : Start (demoP 1 4) (demo 1 fun _ => []) ∧
    Careful (demoP 1 4) (demo 1 fun _ => []) demoRun ∧
    (run (demoP 1 4) (demo 1 fun _ => []) demoRun).map
      (fun s => (s.phase, s.fld 0 0, s.fld 2 0, s.live 1, s.live 2, s.live 3)) =
      some (.epilogue, some 2, some 1, true, true, false) := by
  refine ⟨demo_start (by decide) (by decide) (by simp), ?_, ?_⟩
  · unfold Careful; decide +kernel
  · decide +kernel

/-- Everything the run says about one thread that owns an object which has died:
`C194_freed_partial` applies to it. -/
example : (run (demoP 1 4) (demo 2 fun _ => [1]) ([.drop 0, .request 0])).map
      (fun s => (s.live 1, s.stk 0, s.pstk, (act (demoP 1 4) s .scanStart).isSome)) =
      some (true, [], [], true) ∧
    ((run (demoP 1 4) (demo 2 fun _ => [1]) ([.drop 0, .request 0] ++ cycleScan 1 ++
      [.markRoot, .markRoot, .markPstk, .markPop, .markSlot, .markSlot, .markFin, .toSweep, .sweepOne, .sweepOne,
       .sweepOne, .sweepOne, .sweepEnd])).map fun s => (s.phase, s.live 0, s.live 1)) =
      some (.epilogue, true, false) := by
  constructor <;> decide +kernel

/-- A history that is careful but for the steps in `q`, after which an object in
use has been freed. -/
def Breaks (q : Act → Bool) : Prop :=
  ∃ (P : Params) (s : St) (as : List Act) (s' : St) (a : Addr),
    Layout P ∧ Start P s ∧ carefulBut q P s as = true ∧ run P s as = some s' ∧
    InUse P s' a ∧ s'.live a = false

/-- Finds the object: the global root 0, its slot, and so on. -/
theorem breaks {q : Act → Bool} {P : Params} {s : St} {as : List Act} (hL : Layout P) (h0 : Start P s)
    (hc : carefulBut q P s as = true) (hr : 0 ∈ P.roots) (b a : Addr)
    (h : (run P s as).map (fun s => decide (0 < s.size 0) && decide (s.fld 0 0 = some b) &&
      decide (0 < s.size b) && decide (s.fld b 0 = some a) && !s.live a) = some true) : Breaks q := by
  cases e : run P s as with
  | none => rw [e] at h; cases h
  | some s' =>
    rw [e] at h
    simp only [Option.map_some, Option.some.injEq, Bool.and_eq_true, decide_eq_true_eq,
      Bool.not_eq_true'] at h
    obtain ⟨⟨⟨⟨h1, h2⟩, h3⟩, h4⟩, h5⟩ := h
    exact ⟨P, s, as, s', a, hL, h0, hc, e, .slot (.slot (.here (.inl hr)) h1 h2) h3 h4, h5⟩

def isExit : Act → Bool
  | .exit _ => true
  | _ => false

def isAllocEnd : Act → Bool
  | .allocEnd _ _ => true
  | _ => false

def isSweepOne : Act → Bool
  | .sweepOne => true
  | _ => false

/-- Thread 1 leaves a region while the roots are scanned, puts the object it
holds into a new one (which is allocated black), links that to the root and
forgets both before its own stack is scanned. -/
def regionRun : List Act :=
  [.enter 1, .request 0, .scanStart, .scanThread, .exit 1, .allocTake 1 2, .allocEnd 1 1] ++
  [.storeCheck 1 2 0 (some 1), .storePush 1, .storeWrite 1, .loadRoot 1 0] ++ store 1 0 (some 2) ++
  [.drop 1, .drop 1, .drop 1, .scanThread, .scanEnd, .toMark,
   .markRoot, .markRoot, .markRoot, .markPstk, .markPop, .markSlot, .markSlot, .markPop, .markFin,
   .toSweep, .sweepOne, .sweepOne]

/-- **C194 fails** when a thread leaves a GC region during the root scan, which
`exit_gc_region` never prevents: its test `stat & 0x2 == mut_stat_phase` is
`stat & (0x2 == mut_stat_phase)`, and `stat` is always 0. -/
theorem C194_region_wrong : Breaks isExit := by
  refine breaks (P := demoP 2 3) (s := demo 2 fun t => if t = 1 then [1] else []) (as := regionRun)
    (demo_layout _ _) (demo_start (by decide) (by decide) (by intro t _ a; split <;> simp +contextual))
    ?_ (by simp [demoP]) 2 1 ?_ <;> decide +kernel

/-- The roots are scanned and the root object marked. -/
def mark0 : List Act := cycleScan 1 ++
  [.markRoot, .markRoot, .markPstk, .markPop, .markSlot, .markSlot]

/-- Cell 1 is given out behind the sweeper of the last chunk and keeps its mark;
in the next collection it counts as traversed. -/
def chunkRun : List Act :=
  [.request 0] ++ mark0 ++ [.loadRoot 0 0, .markFin, .toSweep, .sweepOne, .sweepOne, .sweepPause,
   .allocTake 0 1, .allocEnd 0 1] ++ store 0 0 (some 1) ++ [.sweepOne, .sweepEnd, .finish,
   .allocTake 0 2, .allocEnd 0 1] ++ store 0 1 (some 2) ++ [.drop 0, .drop 0, .drop 0, .request 0] ++ mark0 ++
  [.markPop, .markFin, .toSweep, .sweepOne, .sweepOne, .sweepOne]

/-- **C194 fails** for an object allocated during the sweep of the last chunk at
a place the sweeper has passed: `b <= sweeping_state.chp->nextchunk` compares
with NULL, the mark is not taken off, and the next collection frees what the
object refers to.  A heap of one chunk always has this defect. -/
theorem C194_chunk_wrong : Breaks isAllocEnd := by
  refine breaks (P := demoP 1 3) (s := demo 1 fun _ => []) (as := chunkRun)
    (demo_layout _ _) (demo_start (by decide) (by decide) (by simp))
    ?_ (by simp [demoP]) 1 2 ?_ <;> decide +kernel

/-- The thread reads `gc_phase` while the collector marks and goes on when the
sweep is over: `sweeping_state.p` is where the last portion of the sweep began. -/
def staleRun : List Act :=
  [.request 0] ++ mark0 ++ [.loadRoot 0 0, .allocTake 0 1, .markFin, .toSweep, .sweepOne, .sweepOne,
   .sweepOne, .sweepEnd, .finish, .allocEnd 0 1] ++ store 0 0 (some 1) ++
  [.allocTake 0 2, .allocEnd 0 1] ++ store 0 1 (some 2) ++ [.drop 0, .drop 0, .drop 0, .request 0] ++ mark0 ++
  [.markPop, .markFin, .toSweep, .sweepOne, .sweepOne, .sweepOne]

/-- **C194 fails** when an allocation that has seen the marking phase is delayed
until the sweep is over; here no cell is given out behind the sweeper. -/
theorem C194_stale_wrong : Breaks isAllocEnd ∧
    (run (demoP 1 3) (demo 1 fun _ => []) (staleRun.take 20)).map (fun s => (s.phase, s.pend 0, s.mark 1)) =
      some (.nogc, .taken 1 .high, false) ∧
    (run (demoP 1 3) (demo 1 fun _ => []) (staleRun.take 21)).map (fun s => (s.phase, s.pend 0, s.mark 1)) =
      some (.nogc, .none, true) := by
  refine ⟨breaks (P := demoP 1 3) (s := demo 1 fun _ => []) (as := staleRun)
    (demo_layout _ _) (demo_start (by decide) (by decide) (by simp))
    ?_ (by simp [demoP]) 1 2 ?_, ?_, ?_⟩ <;> decide +kernel

/-- Object 1 has a dispose hook and dies; object 3 hangs from the root by object
2, which lies behind object 1. -/
def hookRun : List Act :=
  [.loadRoot 0 0] ++ store 0 0 (some 3) ++ [.drop 0] ++ store 0 3 (some 2) ++ [.drop 0, .drop 0,
   .setHook 0 1 true, .drop 0, .request 0] ++ mark0 ++
  [.markPop, .markSlot, .markSlot, .markPop, .markSlot, .markSlot, .markFin, .toSweep, .sweepOne, .sweepOne]

/-- **C194 fails** when an object with a dispose hook dies: the sweeper passes on
to the next cell (`p = nextbuddy(p)` with no `continue`) and reclaims it without
looking at its mark. -/
theorem C194_dispose_wrong : Breaks isSweepOne := by
  refine breaks (P := demoP 1 4) (s := demo 4 fun _ => [3, 2, 1]) (as := hookRun)
    (demo_layout _ _) (demo_start (by decide) (by decide) (by simp))
    ?_ (by simp [demoP]) 3 2 ?_ <;> decide +kernel

end Eus.Rgc
