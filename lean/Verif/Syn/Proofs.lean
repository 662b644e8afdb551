import Verif.Syn.Spec
set_option autoImplicit false
set_option linter.unusedSectionVars false
/-
A function of the form lock; wait while the guard holds; act; broadcast some conditions; unlock is atomic.
-/
namespace Eus.Syn

variable {σ ω α : Type}

theorem upd_same (f : Nat → α) (t : Nat) (x : α) : upd f t x t = x := by simp [upd]
theorem upd_other (f : Nat → α) (t u : Nat) (x : α) (h : u ≠ t) : upd f t x u = f u := by simp [upd, h]

structure Parts (σ : Type) where
  guard : Option (Nat × (σ → Bool))
  f : σ → σ × Nat
  bs : List Nat

def bcs (bs : List Nat) : List (Instr σ) := bs.map Instr.broadcast ++ [Instr.unlock]
def tl (P : Parts σ) : List (Instr σ) := .act P.f :: bcs P.bs
def body (P : Parts σ) : List (Instr σ) :=
  match P.guard with
  | none => tl P
  | some g => .wait g.1 g.2 :: tl P
def compile (P : Parts σ) : List (Instr σ) := .lock :: body P

def blocked (P : Parts σ) (x : σ) : Bool :=
  match P.guard with
  | none => false
  | some g => g.2 x

def specOf (P : ω → Parts σ) (o : ω) (x : σ) : Option (σ × Nat) := if blocked (P o) x then none else some ((P o).f x)

/-- Where a thread can be, whether it holds the mutex there, and where it is in the atomic machine. -/
inductive PcOk (P : ω → Parts σ) (sh : σ) : Pc σ ω → Bool → APc ω → Prop
  | out : PcOk P sh .out false .out
  | start (o : ω) : PcOk P sh (.run o (compile (P o)) 0) false (.pending o)
  | test (o : ω) (g : Nat × (σ → Bool)) (h : (P o).guard = some g) : PcOk P sh (.run o (.wait g.1 g.2 :: tl (P o)) 0) true (.pending o)
  | act (o : ω) (h : blocked (P o) sh = false) : PcOk P sh (.run o (tl (P o)) 0) true (.pending o)
  | bc (o : ω) (bs : List Nat) (r : Nat) : PcOk P sh (.run o (bcs bs) r) true (.done o r)
  | fin (o : ω) (r : Nat) : PcOk P sh (.run o [] r) false (.done o r)
  | sleep (o : ω) (g : Nat × (σ → Bool)) (h : (P o).guard = some g) : PcOk P sh (.sleep o g.1 (.wait g.1 g.2 :: tl (P o)) 0) false (.pending o)
  | woken (o : ω) (g : Nat × (σ → Bool)) (h : (P o).guard = some g) : PcOk P sh (.woken o (.wait g.1 g.2 :: tl (P o)) 0) false (.pending o)

theorem PcOk.outside {P : ω → Parts σ} {sh sh' : σ} {p : Pc σ ω} {a : APc ω} (h : PcOk P sh p false a) : PcOk P sh' p false a := by
  generalize hb : false = b at h
  cases h
  case out => exact .out
  case start o => exact .start o
  case fin o r => exact .fin o r
  case sleep o g h => exact .sleep o g h
  case woken o g h => exact .woken o g h
  all_goals cases hb

theorem PcOk.wake {P : ω → Parts σ} {sh : σ} {pc : Nat → Pc σ ω} {u : Nat} {b : Bool} {a : APc ω} (c : Nat) (h : PcOk P sh (pc u) b a) :
    PcOk P sh (wake c pc u) b a := by
  unfold Eus.Syn.wake
  revert h
  generalize pc u = p
  intro h
  cases h
  case sleep o g h =>
    simp only
    split
    · exact .woken o g h
    · exact .sleep o g h
  all_goals first | exact .out | exact .start _ | exact .test _ _ (by assumption) | exact .act _ (by assumption) | exact .bc _ _ _ | exact .fin _ _ | exact .woken _ _ (by assumption)

theorem arun_append (spec : ω → α → Option (α × Nat)) (a b : List (AEv ω)) (s : ASt α ω) : arun spec (a ++ b) s = (arun spec a s).bind (arun spec b) := by
  induction a generalizing s with
  | nil => rfl
  | cons e a ih => simp only [List.cons_append, arun]; cases astep spec e s <;> simp [ih]

theorem run_append (prog : ω → List (Instr σ)) (a b : List (Ev ω)) (s : St σ ω) : run prog (a ++ b) s = (run prog a s).bind (run prog b) := by
  induction a generalizing s with
  | nil => rfl
  | cons e a ih => simp only [List.cons_append, run]; cases step prog e s <;> simp [ih]

/-- The simulation relation. -/
structure Sim (P : ω → Parts σ) (s : St σ ω) (a : ASt σ ω) : Prop where
  val : a.val = s.sh
  trace : a.trace = s.trace
  pcs : ∀ t, PcOk P s.sh (s.pc t) (decide (s.holder = some t)) (a.pc t)

theorem sim_init (P : ω → Parts σ) (x : σ) : Sim P (.init x) (.init x) := ⟨rfl, rfl, fun t => by simpa [St.init, ASt.init] using PcOk.out⟩

/-- Every thread but one keeps its place. -/
theorem pcs_upd {P : ω → Parts σ} {sh sh' : σ} {pc : Nat → Pc σ ω} {apc : Nat → APc ω} {h h' : Option Nat} {t : Nat} {p : Pc σ ω} {a : APc ω}
    (old : ∀ u, PcOk P sh (pc u) (decide (h = some u)) (apc u)) (new : PcOk P sh' p (decide (h' = some t)) a)
    (hh : ∀ u, u ≠ t → decide (h' = some u) = decide (h = some u)) (hs : sh' = sh ∨ h = some t) :
    ∀ u, PcOk P sh' (upd pc t p u) (decide (h' = some u)) (upd apc t a u) := by
  intro u
  by_cases hu : u = t
  · subst hu; simpa [upd] using new
  · simp only [upd, hu, if_false]
    rw [hh u hu]
    cases hs with
    | inl e => subst e; exact old u
    | inr e =>
      have := old u
      have hd : decide (h = some u) = false := by subst e; simp; omega
      rw [hd] at this ⊢
      exact this.outside

theorem upd_self (f : Nat → α) (t : Nat) : upd f t (f t) = f := by funext u; simp only [upd]; split <;> simp_all

theorem sim_step (P : ω → Parts σ) (prog : ω → List (Instr σ)) (hp : ∀ o, prog o = compile (P o)) (e : Ev ω) (s s' : St σ ω) (a : ASt σ ω)
    (h : Sim P s a) (hs : step prog e s = some s') : ∃ es a', arun (specOf P) es a = some a' ∧ Sim P s' a' := by
  obtain ⟨hv, ht, hpc⟩ := h
  cases e with
  | call t o =>
    have hk := hpc t
    simp only [step] at hs
    generalize hpt : s.pc t = p at hs hk
    generalize hat : a.pc t = q at hk
    cases p with
    | out =>
      simp only [Option.some.injEq] at hs
      subst hs
      generalize hb : decide (s.holder = some t) = b at hk
      cases hk
      refine ⟨[.call t o], { a with pc := upd a.pc t (.pending o), trace := a.trace ++ [.call t o] }, ?_, ?_⟩
      · simp only [arun, astep, hat, Option.bind]
      · refine ⟨hv, by simp [ht], ?_⟩
        refine pcs_upd hpc ?_ (fun _ _ => rfl) (Or.inl rfl)
        rw [hb, hp]; exact .start o
    | _ => simp at hs
  | spurious t =>
    have hk := hpc t
    simp only [step] at hs
    generalize hpt : s.pc t = p at hs hk
    generalize hb : decide (s.holder = some t) = b at hk
    cases p with
    | sleep o c is r =>
      simp only [Option.some.injEq] at hs
      subst hs
      refine ⟨[], a, rfl, hv, ht, ?_⟩
      have := pcs_upd (P := P) (sh' := s.sh) (h' := s.holder) (t := t) (p := .woken o is r) (a := a.pc t) hpc (by
        rw [hb]
        generalize a.pc t = q at hk
        cases hk
        exact .woken _ _ (by assumption)) (fun _ _ => rfl) (Or.inl rfl)
      rw [upd_self] at this
      exact this
    | _ => simp at hs
  | go t =>
    have hk := hpc t
    simp only [step] at hs
    generalize hpt : s.pc t = p at hs hk
    generalize hb : decide (s.holder = some t) = b at hk
    generalize hat : a.pc t = q at hk
    have stay : ∀ (p' : Pc σ ω) (h' : Option Nat), PcOk P s.sh p' (decide (h' = some t)) q → (∀ u, u ≠ t → decide (h' = some u) = decide (s.holder = some u)) →
        Sim P { s with holder := h', pc := upd s.pc t p' } a := by
      intro p' h' hn hh
      refine ⟨hv, ht, ?_⟩
      have := pcs_upd (P := P) (sh' := s.sh) (h' := h') (t := t) (p := p') (a := a.pc t) hpc (by rw [hat]; exact hn) hh (Or.inl rfl)
      rw [upd_self] at this
      exact this
    have hfree : s.holder = none → ∀ u, u ≠ t → decide (some t = some u) = decide (s.holder = some u) := by
      intro e u hu; rw [e]; simp; omega
    have hgive : b = true → ∀ u, u ≠ t → decide ((none : Option Nat) = some u) = decide (s.holder = some u) := by
      intro e u hu; subst e; have := of_decide_eq_true hb; rw [this]; simp; omega
    cases hk
    case out => simp at hs
    case start o =>
      simp only [compile] at hs
      split at hs
      · rename_i hh
        cases hs
        refine ⟨[], a, rfl, ?_⟩
        refine stay _ _ ?_ (hfree hh)
        simp only [decide_true]
        unfold body
        cases hg : (P o).guard with
        | none => exact .act o (by simp [blocked, hg])
        | some g => exact .test o g hg
      · cases hs
    case test o g hg =>
      simp only at hs
      split at hs
      · cases hs
        refine ⟨[], a, rfl, ?_⟩
        exact stay _ _ (by simpa using PcOk.sleep o g hg) (hgive rfl)
      · rename_i hf
        cases hs
        refine ⟨[], a, rfl, ?_⟩
        refine stay _ _ ?_ (fun _ _ => rfl)
        rw [hb]
        refine .act o ?_
        simp only [blocked, hg]
        simpa using hf
    case act o hbl =>
      simp only [tl, Option.some.injEq] at hs
      subst hs
      refine ⟨[.effect t], { a with val := ((P o).f s.sh).1, pc := upd a.pc t (.done o ((P o).f s.sh).2) }, ?_, ?_⟩
      · simp only [arun, astep, hat, specOf, hv, hbl, Option.bind]
        rfl
      · refine ⟨rfl, ht, ?_⟩
        refine pcs_upd hpc ?_ (fun _ _ => rfl) (Or.inr (of_decide_eq_true hb))
        rw [hb]; exact .bc o _ _
    case bc o bs r =>
      cases bs with
      | nil =>
        simp only [bcs, List.map_nil, List.nil_append, Option.some.injEq] at hs
        subst hs
        refine ⟨[], a, rfl, ?_⟩
        exact stay _ _ (by simpa using PcOk.fin o r) (hgive rfl)
      | cons c bs =>
        simp only [bcs, List.map_cons, List.cons_append, Option.some.injEq] at hs
        subst hs
        refine ⟨[], a, rfl, hv, ht, ?_⟩
        have hw : ∀ u, PcOk P s.sh (wake c s.pc u) (decide (s.holder = some u)) (a.pc u) := fun u => (hpc u).wake c
        have := pcs_upd (P := P) (sh' := s.sh) (h' := s.holder) (t := t) (p := .run o (bcs bs) r) (a := a.pc t) hw (by
          rw [hb, hat]; exact .bc o bs r) (fun _ _ => rfl) (Or.inl rfl)
        rw [upd_self] at this
        exact this
    case fin o r =>
      simp only [Option.some.injEq] at hs
      subst hs
      refine ⟨[.ret t], { a with pc := upd a.pc t .out, trace := a.trace ++ [.ret t o r] }, ?_, ?_⟩
      · simp only [arun, astep, hat, Option.bind]
      · refine ⟨hv, by simp [ht], ?_⟩
        refine pcs_upd hpc ?_ (fun _ _ => rfl) (Or.inl rfl)
        rw [hb]; exact .out
    case sleep o g hg => simp at hs
    case woken o g hg =>
      simp only at hs
      split at hs
      · rename_i hh
        cases hs
        refine ⟨[], a, rfl, ?_⟩
        exact stay _ _ (by simpa using PcOk.test o g hg) (hfree hh)
      · cases hs

theorem sim_run (P : ω → Parts σ) (prog : ω → List (Instr σ)) (hp : ∀ o, prog o = compile (P o)) (es : List (Ev ω)) (s s' : St σ ω) (a : ASt σ ω)
    (h : Sim P s a) (hs : run prog es s = some s') : ∃ es' a', arun (specOf P) es' a = some a' ∧ Sim P s' a' := by
  induction es generalizing s a with
  | nil => cases hs; exact ⟨[], a, rfl, h⟩
  | cons e es ih =>
    simp only [run] at hs
    cases h1 : step prog e s with
    | none => simp [h1] at hs
    | some s1 =>
      simp only [h1, Option.bind] at hs
      obtain ⟨e1, a1, r1, h2⟩ := sim_step P prog hp e s s1 a h h1
      obtain ⟨e2, a2, r2, h3⟩ := ih s1 a1 h2 hs
      exact ⟨e1 ++ e2, a2, by rw [arun_append, r1]; exact r2, h3⟩

/-! ### Nobody is forgotten -/

/-- Whatever can end a wait is followed by a broadcast of the condition. -/
def Wakes (P : ω → Parts σ) : Prop :=
  ∀ o w g x, (P w).guard = some g → g.2 x = true → blocked (P o) x = false → g.2 ((P o).f x).1 = false → g.1 ∈ (P o).bs

/-- A sleeping thread's guard holds, or the thread that has the mutex is going to broadcast its condition. -/
def Rem (P : ω → Parts σ) (s : St σ ω) : Prop :=
  ∀ t o c is r g, s.pc t = .sleep o c is r → (P o).guard = some g → g.2 s.sh = true ∨
    ∃ u o' bs r', s.holder = some u ∧ s.pc u = .run o' (bcs bs) r' ∧ c ∈ bs

theorem pc_cases {P : ω → Parts σ} {sh : σ} {p : Pc σ ω} {b : Bool} {a : APc ω} (h : PcOk P sh p b a) {o : ω} {c : Nat} {is : List (Instr σ)} {r : Nat} (e : p = .sleep o c is r) :
    ∃ g, (P o).guard = some g ∧ c = g.1 := by
  subst e
  cases h
  exact ⟨_, by assumption, rfl⟩

theorem wake_sleep {c : Nat} {pc : Nat → Pc σ ω} {u : Nat} {o : ω} {c' : Nat} {is : List (Instr σ)} {r : Nat} (h : wake c pc u = .sleep o c' is r) :
    pc u = .sleep o c' is r ∧ c' ≠ c := by
  unfold wake at h
  revert h
  generalize pc u = p
  intro h
  cases p with
  | sleep o1 c1 is1 r1 =>
    simp only at h
    split at h
    · cases h
    · rename_i hn; cases h; exact ⟨rfl, hn⟩
  | _ => cases h

theorem bcs_ne_nil (bs : List Nat) : (bcs bs : List (Instr σ)) ≠ [] := by cases bs <;> simp [bcs]

theorem bcs_inj {bs bs' : List Nat} (h : (bcs bs : List (Instr σ)) = bcs bs') : bs = bs' := by
  induction bs generalizing bs' with
  | nil => cases bs' with
    | nil => rfl
    | cons c bs' => simp [bcs] at h
  | cons c bs ih => cases bs' with
    | nil => simp [bcs] at h
    | cons c' bs' =>
      simp only [bcs, List.map_cons, List.cons_append, List.cons.injEq, Instr.broadcast.injEq] at h
      obtain ⟨h1, h2⟩ := h
      rw [h1, ih h2]

theorem rem_step (P : ω → Parts σ) (prog : ω → List (Instr σ)) (hw : Wakes P) (e : Ev ω) (s s' : St σ ω) (a : ASt σ ω)
    (h : Sim P s a) (hr : Rem P s) (hs : step prog e s = some s') : Rem P s' := by
  obtain ⟨hv, ht, hpc⟩ := h
  -- a step of t that leaves the variable, keeps the holder's broadcasts
  have keep : ∀ (t : Nat) (p' : Pc σ ω) (h' : Option Nat), (∀ o c is r, p' = .sleep o c is r → ∀ g, (P o).guard = some g → g.2 s.sh = true) →
      (∀ u o' bs r', s.holder = some u → s.pc u = .run o' (bcs bs) r' → bs ≠ [] → u ≠ t ∧ h' = some u) → ∀ tr,
      Rem P ⟨s.sh, h', upd s.pc t p', tr⟩ := by
    intro t p' h' hsl hh tr u o c is r g hu hg
    simp only [upd] at hu
    split at hu
    · exact Or.inl (hsl o c is r hu g hg)
    · cases hr u o c is r g hu hg with
      | inl x => exact Or.inl x
      | inr x =>
        obtain ⟨v, o', bs, r', e1, e2, e3⟩ := x
        obtain ⟨n1, n2⟩ := hh v o' bs r' e1 e2 (List.ne_nil_of_mem e3)
        exact Or.inr ⟨v, o', bs, r', n2, by simp [upd, n1, e2], e3⟩
  cases e with
  | call t o =>
    simp only [step] at hs
    split at hs
    · rename_i he
      cases hs
      refine keep t _ _ (by intro o c is r h; cases h) ?_ _
      intro u o' bs r' h1 h2 _
      exact ⟨fun e => (by rw [e, he] at h2; exact absurd h2 (by simp)), h1⟩
    · cases hs
  | spurious t =>
    simp only [step] at hs
    split at hs
    · rename_i he
      cases hs
      refine keep t _ _ (by intro o c is r h; cases h) ?_ _
      intro u o' bs r' h1 h2 _
      exact ⟨fun e => (by rw [e, he] at h2; exact absurd h2 (by simp)), h1⟩
    · cases hs
  | go t =>
    have hk := hpc t
    simp only [step] at hs
    generalize hpt : s.pc t = p at hs hk
    generalize hb : decide (s.holder = some t) = b at hk
    generalize hat : a.pc t = q at hk
    have mine : b = true → ∀ u, s.holder = some u → u = t := by
      intro e u hu; subst e; have := of_decide_eq_true hb; rw [this] at hu; cases hu; rfl
    cases hk
    case out => simp at hs
    case start o =>
      simp only [compile] at hs
      split at hs
      · rename_i hh
        cases hs
        refine keep t _ _ (by intro o c is r h; cases h) ?_ _
        intro u _ _ _ h1; rw [hh] at h1; cases h1
      · cases hs
    case test o g hg =>
      simp only at hs
      have none_here : ∀ u o' bs r', s.holder = some u → s.pc u = .run o' (bcs bs) r' → bs ≠ [] → False := by
        intro u o' bs r' h1 h2 _
        have := mine rfl u h1
        subst this
        rw [hpt] at h2
        injection h2 with _ h3 _
        cases bs <;> simp [bcs] at h3
      split at hs
      · rename_i hf
        cases hs
        refine keep t _ _ ?_ (fun u o' bs r' h1 h2 h3 => (none_here u o' bs r' h1 h2 h3).elim) _
        intro o1 c1 is1 r1 h1 g1 hg1
        injection h1 with e1 e2 e3 e4
        subst e1
        rw [hg] at hg1; cases hg1
        exact hf
      · cases hs
        refine keep t _ _ (by intro o c is r h; cases h) (fun u o' bs r' h1 h2 h3 => (none_here u o' bs r' h1 h2 h3).elim) _
    case act o hbl =>
      simp only [tl, Option.some.injEq] at hs
      subst hs
      intro u o1 c is r g hu hg
      have hut : u ≠ t := by intro e; subst e; simp only [upd_same] at hu; cases hu
      simp only [upd_other _ _ _ _ hut] at hu
      by_cases hx : g.2 ((P o).f s.sh).1 = true
      · exact Or.inl hx
      · refine Or.inr ⟨t, o, (P o).bs, _, of_decide_eq_true hb, upd_same _ _ _, ?_⟩
        have hold : g.2 s.sh = true := by
          cases hr u o1 c is r g hu hg with
          | inl x => exact x
          | inr x =>
            obtain ⟨v, o', bs, r', e1, e2, e3⟩ := x
            have := mine rfl v e1
            subst this
            rw [hpt] at e2
            injection e2 with _ h3 _
            cases bs <;> simp [bcs, tl] at h3
        obtain ⟨g', hg', hc⟩ := pc_cases (hpc u) hu
        rw [hg] at hg'; cases hg'
        rw [hc]
        exact hw o o1 g s.sh hg hold hbl (by simpa using hx)
    case bc o bs r =>
      cases bs with
      | nil =>
        simp only [bcs, List.map_nil, List.nil_append, Option.some.injEq] at hs
        subst hs
        refine keep t _ _ (by intro o c is r h; cases h) ?_ _
        intro u o' bs r' h1 h2 h3
        have := mine rfl u h1
        subst this
        rw [hpt] at h2
        injection h2 with _ h4 _
        exact (h3 (bcs_inj h4).symm).elim
      | cons c bs =>
        simp only [bcs, List.map_cons, List.cons_append, Option.some.injEq] at hs
        subst hs
        intro u o1 c1 is1 r1 g hu hg
        have hut : u ≠ t := by intro e; subst e; simp only [upd_same] at hu; cases hu
        simp only [upd_other _ _ _ _ hut] at hu
        obtain ⟨hu1, hne⟩ := wake_sleep hu
        cases hr u o1 c1 is1 r1 g hu1 hg with
        | inl x => exact Or.inl x
        | inr x =>
          obtain ⟨v, o', bs', r', e1, e2, e3⟩ := x
          have := mine rfl v e1
          subst this
          rw [hpt] at e2
          injection e2 with h1 h2 h3
          have := bcs_inj h2
          subst this
          refine Or.inr ⟨v, o, bs, r, e1, upd_same _ _ _, ?_⟩
          simpa [hne] using e3
    case fin o r =>
      simp only [Option.some.injEq] at hs
      subst hs
      refine keep t _ _ (by intro o c is r h; cases h) ?_ _
      intro u o' bs r' h1 h2 _
      exact ⟨fun e => (by rw [e] at h1; exact of_decide_eq_false hb h1), h1⟩
    case sleep o g hg => simp at hs
    case woken o g hg =>
      simp only at hs
      split at hs
      · rename_i hh
        cases hs
        refine keep t _ _ (by intro o c is r h; cases h) ?_ _
        intro u _ _ _ h1; rw [hh] at h1; cases h1
      · cases hs

theorem all_run (P : ω → Parts σ) (prog : ω → List (Instr σ)) (hp : ∀ o, prog o = compile (P o)) (hw : Wakes P) (es : List (Ev ω)) (s s' : St σ ω) (a : ASt σ ω)
    (h : Sim P s a) (hr : Rem P s) (hs : run prog es s = some s') : ∃ es' a', arun (specOf P) es' a = some a' ∧ Sim P s' a' ∧ Rem P s' := by
  induction es generalizing s a with
  | nil => cases hs; exact ⟨[], a, rfl, h, hr⟩
  | cons e es ih =>
    simp only [run] at hs
    cases h1 : step prog e s with
    | none => simp [h1] at hs
    | some s1 =>
      simp only [h1, Option.bind] at hs
      obtain ⟨e1, a1, r1, h2⟩ := sim_step P prog hp e s s1 a h h1
      obtain ⟨e2, a2, r2, h3⟩ := ih s1 a1 h2 (rem_step P prog hw e s s1 a h hr h1) hs
      exact ⟨e1 ++ e2, a2, by rw [arun_append, r1]; exact r2, h3⟩

theorem rem_init (P : ω → Parts σ) (x : σ) : Rem P (.init x) := by intro t o c is r g h; cases h

/-- When nobody can go on, every thread in a call is asleep, has not taken effect, and has to wait. -/
theorem stuck_spec (P : ω → Parts σ) (prog : ω → List (Instr σ)) (s : St σ ω) (a : ASt σ ω) (h : Sim P s a) (hr : Rem P s) (hst : Stuck prog s) (t : Nat) :
    a.pc t = .out ∨ ∃ o, a.pc t = .pending o ∧ inCall (s.pc t) = some o ∧ specOf P o s.sh = none := by
  obtain ⟨hv, ht, hpc⟩ := h
  have nohold : s.holder = none := by
    cases hh : s.holder with
    | none => rfl
    | some u =>
      have hk := hpc u
      have hu := hst u
      rw [hh] at hk
      simp only [decide_true] at hk
      generalize hb : true = b at hk
      simp only [step] at hu
      generalize s.pc u = p at hk hu
      generalize a.pc u = q at hk
      cases hk
      case test o g hg => simp only at hu; split at hu <;> cases hu
      case act o _ => simp [tl] at hu
      case bc o bs r => cases bs <;> simp [bcs] at hu
      all_goals cases hb
  have hk := hpc t
  have hu := hst t
  simp only [step] at hu
  generalize hpt : s.pc t = p at hk hu
  generalize hat : a.pc t = q at hk
  generalize decide (s.holder = some t) = b at hk
  cases hk
  case out => exact Or.inl rfl
  case start o => simp [compile, nohold] at hu
  case test o g hg => simp only at hu; split at hu <;> cases hu
  case act o _ => simp [tl] at hu
  case bc o bs r => cases bs <;> simp [bcs] at hu
  case fin o r => simp at hu
  case sleep o g hg =>
    refine Or.inr ⟨o, rfl, rfl, ?_⟩
    cases hr t o _ _ _ g hpt hg with
    | inl x => simp [specOf, blocked, hg, x]
    | inr x => obtain ⟨u, _, _, _, e, _⟩ := x; rw [nohold] at e; cases e
  case woken o g hg => simp [nohold] at hu

end Eus.Syn
