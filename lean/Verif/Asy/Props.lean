import Verif.Asy.Spec
import Mathlib.Tactic.SplitIfs
set_option autoImplicit false
/-
C214: asynchronous objects.
-/
namespace Eus.Asy

def holdsL : PC → Bool
  | .e1 | .eE | .eUE | .eUL | .x1 | .s1 | .sUL | .m1 | .mE | .mUL | .mx1 | .mxUE | .mxUL => true
  | _ => false

def holdsE : PC → Bool
  | .eUE | .mUL | .mBody | .mxL | .mx1 | .mxUE => true
  | _ => false

def isMain : PC → Bool
  | .mE | .mUL | .mBody | .mxL | .mx1 => true
  | _ => false

structure Inv (s : St) : Prop where
  l : ∀ t, holdsL (s.pc t) = true ↔ s.slots = some t
  e : ∀ t, holdsE (s.pc t) = true ↔ s.entrance = some t
  m : ∀ t, isMain (s.pc t) = true → s.main ≠ none

theorem inv_init : Inv init := ⟨by simp [init, holdsL], by simp [init, holdsE], by simp [init, isMain]⟩

theorem go_l {s : St} {t : Nat} {p : PC} (h : Inv s) (hl : holdsL p = holdsL (s.pc t)) : ∀ u, holdsL ((s.go t p).pc u) = true ↔ s.slots = some u := by
  intro u
  simp only [St.go]
  split
  · rename_i e; rw [e, hl]; exact h.l t
  · exact h.l u

theorem go_e {s : St} {t : Nat} {p : PC} (h : Inv s) (hl : holdsE p = holdsE (s.pc t)) : ∀ u, holdsE ((s.go t p).pc u) = true ↔ s.entrance = some u := by
  intro u
  simp only [St.go]
  split
  · rename_i e; rw [e, hl]; exact h.e t
  · exact h.e u

theorem take_l {s : St} {t : Nat} {p : PC} (h : Inv s) (hn : s.slots = none) (hp : holdsL p = true) : ∀ u, holdsL ((s.go t p).pc u) = true ↔ some t = some u := by
  intro u
  simp only [St.go]
  split
  · rename_i e; simp [e, hp]
  · rename_i e
    have := h.l u
    rw [hn] at this
    simp only [Option.some.injEq]
    constructor
    · intro hh; exact absurd (this.1 hh) (by simp)
    · intro hh; exact absurd hh.symm e

theorem take_e {s : St} {t : Nat} {p : PC} (h : Inv s) (hn : s.entrance = none) (hp : holdsE p = true) : ∀ u, holdsE ((s.go t p).pc u) = true ↔ some t = some u := by
  intro u
  simp only [St.go]
  split
  · rename_i e; simp [e, hp]
  · rename_i e
    have := h.e u
    rw [hn] at this
    simp only [Option.some.injEq]
    constructor
    · intro hh; exact absurd (this.1 hh) (by simp)
    · intro hh; exact absurd hh.symm e

theorem give_l {s : St} {t : Nat} {p : PC} (h : Inv s) (ht : holdsL (s.pc t) = true) (hp : holdsL p = false) : ∀ u, holdsL ((s.go t p).pc u) = true ↔ (none : Option Nat) = some u := by
  intro u
  simp only [St.go]
  split
  · simp [hp]
  · rename_i e
    constructor
    · intro hh
      have a := (h.l u).1 hh
      rw [(h.l t).1 ht] at a
      exact absurd (Option.some.inj a).symm e
    · intro hh; exact absurd hh (by simp)

theorem give_e {s : St} {t : Nat} {p : PC} (h : Inv s) (ht : holdsE (s.pc t) = true) (hp : holdsE p = false) : ∀ u, holdsE ((s.go t p).pc u) = true ↔ (none : Option Nat) = some u := by
  intro u
  simp only [St.go]
  split
  · simp [hp]
  · rename_i e
    constructor
    · intro hh
      have a := (h.e u).1 hh
      rw [(h.e t).1 ht] at a
      exact absurd (Option.some.inj a).symm e
    · intro hh; exact absurd hh (by simp)

theorem go_m {s : St} {t : Nat} {p : PC} (h : Inv s) (hp : isMain p = true → isMain (s.pc t) = true) : ∀ u, isMain ((s.go t p).pc u) = true → s.main ≠ none := by
  intro u
  simp only [St.go]
  split
  · rename_i e; intro hh; exact h.m t (hp hh)
  · exact h.m u

theorem step_inv (s s' : St) (t : Nat) (w : Want) (v : Nat) (h : Inv s) (hs : step s t w v = some s') : Inv s' := by
  unfold step at hs
  cases hp : s.pc t <;> rw [hp] at hs <;> simp only at hs
  case idle =>
    cases w <;> simp only [Option.some.injEq] at hs <;> subst hs <;>
      exact ⟨go_l h (by rw [hp]; rfl), go_e h (by rw [hp]; rfl), go_m h (by simp [isMain])⟩
  case e0 =>
    split at hs <;> simp only [Option.some.injEq] at hs <;> subst hs <;>
      exact ⟨go_l h (by rw [hp]; rfl), go_e h (by rw [hp]; rfl), go_m h (by simp [isMain])⟩
  case e1 =>
    split at hs <;> simp only [Option.some.injEq] at hs <;> subst hs <;>
      exact ⟨go_l h (by rw [hp]; rfl), go_e h (by rw [hp]; rfl), go_m h (by simp [isMain])⟩
  case x0 =>
    split at hs <;> simp only [Option.some.injEq] at hs <;> subst hs <;>
      exact ⟨go_l h (by rw [hp]; rfl), go_e h (by rw [hp]; rfl), go_m h (by simp [isMain])⟩
  case body =>
    simp only [Option.some.injEq] at hs; subst hs
    exact ⟨go_l h (by rw [hp]; rfl), go_e h (by rw [hp]; rfl), go_m h (by simp [isMain])⟩
  case mBody =>
    simp only [Option.some.injEq] at hs; subst hs
    exact ⟨go_l h (by rw [hp]; rfl), go_e h (by rw [hp]; rfl), go_m h (by simp [isMain, hp])⟩
  case eL =>
    split at hs <;> simp only [Option.some.injEq, reduceCtorEq] at hs
    rename_i hn
    subst hs
    exact ⟨take_l h hn rfl, go_e h (by rw [hp]; rfl), go_m h (by simp [isMain])⟩
  case xL =>
    split at hs <;> simp only [Option.some.injEq, reduceCtorEq] at hs
    rename_i hn
    subst hs
    exact ⟨take_l h hn rfl, go_e h (by rw [hp]; rfl), go_m h (by simp [isMain])⟩
  case sL =>
    split at hs <;> simp only [Option.some.injEq, reduceCtorEq] at hs
    rename_i hn
    subst hs
    exact ⟨take_l h hn rfl, go_e h (by rw [hp]; rfl), go_m h (by simp [isMain])⟩
  case mL =>
    split at hs <;> simp only [Option.some.injEq, reduceCtorEq] at hs
    rename_i hn
    subst hs
    exact ⟨take_l h hn rfl, go_e h (by rw [hp]; rfl), go_m h (by simp [isMain])⟩
  case mxL =>
    split at hs <;> simp only [Option.some.injEq, reduceCtorEq] at hs
    rename_i hn
    subst hs
    exact ⟨take_l h hn rfl, go_e h (by rw [hp]; rfl), go_m h (by simp [isMain, hp])⟩
  case eE =>
    split at hs <;> simp only [Option.some.injEq, reduceCtorEq] at hs
    rename_i hn
    subst hs
    exact ⟨go_l h (by rw [hp]; rfl), take_e h hn rfl, go_m h (by simp [isMain])⟩
  case mE =>
    split at hs <;> simp only [Option.some.injEq, reduceCtorEq] at hs
    rename_i hn
    subst hs
    exact ⟨go_l h (by rw [hp]; rfl), take_e h hn rfl, go_m h (by simp [isMain, hp])⟩
  case eUE =>
    simp only [Option.some.injEq] at hs; subst hs
    exact ⟨go_l h (by rw [hp]; rfl), give_e h (by rw [hp]; rfl) rfl, go_m h (by simp [isMain])⟩
  case mxUE =>
    simp only [Option.some.injEq] at hs; subst hs
    exact ⟨go_l h (by rw [hp]; rfl), give_e h (by rw [hp]; rfl) rfl, go_m h (by simp [isMain])⟩
  case eUL =>
    simp only [Option.some.injEq] at hs; subst hs
    exact ⟨give_l h (by rw [hp]; rfl) rfl, go_e h (by rw [hp]; rfl), go_m h (by simp [isMain])⟩
  case x1 =>
    simp only [Option.some.injEq] at hs; subst hs
    exact ⟨give_l h (by rw [hp]; rfl) rfl, go_e h (by rw [hp]; rfl), go_m h (by simp [isMain])⟩
  case sUL =>
    simp only [Option.some.injEq] at hs; subst hs
    exact ⟨give_l h (by rw [hp]; rfl) rfl, go_e h (by rw [hp]; rfl), go_m h (by simp [isMain])⟩
  case mUL =>
    simp only [Option.some.injEq] at hs; subst hs
    exact ⟨give_l h (by rw [hp]; rfl) rfl, go_e h (by rw [hp]; rfl), go_m h (by simp [isMain, hp])⟩
  case mxUL =>
    simp only [Option.some.injEq] at hs; subst hs
    exact ⟨give_l h (by rw [hp]; rfl) rfl, go_e h (by rw [hp]; rfl), go_m h (by simp [isMain])⟩
  case m1 =>
    simp only [Option.some.injEq] at hs; subst hs
    exact ⟨go_l h (by rw [hp]; rfl), go_e h (by rw [hp]; rfl), fun u _ => by simp⟩
  case mx1 =>
    simp only [Option.some.injEq] at hs; subst hs
    refine ⟨go_l h (by rw [hp]; rfl), go_e h (by rw [hp]; rfl), ?_⟩
    intro u hu
    exfalso
    simp only [St.go] at hu
    split at hu
    · simp [isMain] at hu
    · rename_i hne
      have hl := (h.l t).1 (by rw [hp]; rfl)
      have he := (h.e t).1 (by rw [hp]; rfl)
      have key : holdsL (s.pc u) = true ∨ holdsE (s.pc u) = true := by
        cases hq : s.pc u <;> rw [hq] at hu <;> simp [isMain, holdsL, holdsE] at hu ⊢
      rcases key with k | k
      · have := (h.l u).1 k
        rw [hl] at this
        exact hne (Option.some.inj this).symm
      · have := (h.e u).1 k
        rw [he] at this
        exact hne (Option.some.inj this).symm
  case s1 =>
    split at hs
    · split at hs <;> simp only [Option.some.injEq, reduceCtorEq] at hs
      rename_i hv
      subst hs
      have hne : v ≠ t := by intro e; rw [e, hp] at hv; exact absurd hv (by simp)
      have h1 : Inv (s.go t .sUL) := ⟨go_l h (by rw [hp]; rfl), go_e h (by rw [hp]; rfl), go_m h (by simp [isMain])⟩
      have hv1 : (s.go t .sUL).pc v = .idle := by simp only [St.go, if_neg hne]; exact hv
      exact ⟨go_l h1 (by rw [hv1]; rfl), go_e h1 (by rw [hv1]; rfl), go_m h1 (by simp [isMain])⟩
    · simp only [Option.some.injEq] at hs
      subst hs
      exact ⟨go_l h (by rw [hp]; rfl), go_e h (by rw [hp]; rfl), go_m h (by simp [isMain])⟩

theorem leads_inv {s s' : St} (h : Inv s) (hl : Leads s s') : Inv s' := by
  induction hl with
  | refl => exact h
  | next t w v _ hs ih => exact step_inv _ _ t w v ih hs

theorem reachable_inv {s : St} (h : Reachable s) : Inv s := leads_inv inv_init h

/-- C214.  Two asynchronous methods of an object never run at the same time, with any number of threads and all schedules. -/
theorem C214_exclusive (s : St) (h : Reachable s) (t u : Nat) (ht : s.pc t = .mBody) (hu : s.pc u = .mBody) : t = u := by
  have hi := reachable_inv h
  have a := (hi.e t).1 (by rw [ht]; rfl)
  have b := (hi.e u).1 (by rw [hu]; rfl)
  rw [a] at b
  exact Option.some.inj b

/-- C214.  While one of them runs, sending an asynchronous message starts nothing: only the sender moves on. -/
theorem C214_refused (s s' : St) (h : Reachable s) (t u : Nat) (ht : s.pc t = .mBody) (hu : s.pc u = .s1) (w : Want) (v : Nat) (hs : step s u w v = some s') :
    s' = s.go u .sUL := by
  have hm := (reachable_inv h).m t (by rw [ht]; rfl)
  unfold step at hs
  rw [hu] at hs
  simp only at hs
  rw [if_neg hm] at hs
  exact (Option.some.inj hs).symm

/-- a thread with lock-of-slots waits for entrance-lock, whose owner needs lock-of-slots -/
def Stuck (s : St) (c m : Nat) : Prop := (s.pc c = .eE ∨ s.pc c = .mE) ∧ (s.pc m = .mBody ∨ s.pc m = .mxL)

def waits : PC → Bool
  | .eL | .xL | .sL | .mL | .eE | .mE => true
  | _ => false

theorem stuck_step (s s' : St) (c m t : Nat) (w : Want) (v : Nat) (h : Inv s) (hk : Stuck s c m) (hs : step s t w v = some s') :
    Stuck s' c m ∧ s'.pc c = s.pc c ∧ ∀ u, waits (s.pc u) = true → s'.pc u = s.pc u := by
  have hcl : s.slots = some c := (h.l c).1 (by rcases hk.1 with e | e <;> rw [e] <;> rfl)
  have hme : s.entrance = some m := (h.e m).1 (by rcases hk.2 with e | e <;> rw [e] <;> rfl)
  have hcm : m ≠ c := by
    intro e
    subst e
    rcases hk.1 with a | a <;> rcases hk.2 with b | b <;> rw [a] at b <;> exact absurd b (by simp)
  -- the thread that moves is not waiting
  have hw : waits (s.pc t) = false ∧ s.pc t ≠ .mxL := by
    unfold step at hs
    cases hp : s.pc t <;> rw [hp] at hs <;> simp [waits] <;> simp [hcl, hme] at hs
  have htc : t ≠ c := by
    intro e
    subst e
    rcases hk.1 with a | a <;> rw [a] at hw <;> simp [waits] at hw
  have htm : t = m → s.pc t = .mBody := by
    intro e
    subst e
    rcases hk.2 with a | a
    · exact a
    · exact absurd a hw.2
  -- who moves
  have key : ∀ u, u ≠ t → s'.pc u = s.pc u ∨ (s.pc u = .idle) := by
    intro u hu
    unfold step at hs
    cases hp : s.pc t <;> rw [hp] at hs <;> simp only at hs
    case s1 =>
      split at hs
      · split at hs <;> simp only [Option.some.injEq, reduceCtorEq] at hs
        rename_i hv
        subst hs
        simp only [St.go]
        by_cases e : u = v
        · right; rw [e]; exact hv
        · left; rw [if_neg e, if_neg hu]
      · simp only [Option.some.injEq] at hs; subst hs; left; simp only [St.go, if_neg hu]
    all_goals
      first
        | (simp only [Option.some.injEq] at hs; subst hs; left; simp only [St.go, if_neg hu])
        | (split at hs <;> simp only [Option.some.injEq, reduceCtorEq] at hs <;> subst hs <;> left <;> simp only [St.go, if_neg hu])
  have hc : s'.pc c = s.pc c := by
    rcases key c (fun e => htc e.symm) with a | a
    · exact a
    · rcases hk.1 with b | b <;> rw [b] at a <;> exact absurd a (by simp)
  refine ⟨⟨by rw [hc]; exact hk.1, ?_⟩, hc, ?_⟩
  · by_cases e : t = m
    · have hb := htm e
      unfold step at hs
      rw [hb] at hs
      simp only [Option.some.injEq] at hs
      subst hs
      right
      simp [St.go, e]
    · rcases key m (fun x => e x.symm) with a | a
      · rw [a]; exact hk.2
      · rcases hk.2 with b | b <;> rw [b] at a <;> exact absurd a (by simp)
  · intro u hu
    by_cases e : u = t
    · rw [e, hw.1] at hu; exact absurd hu (by simp)
    · rcases key u e with a | a
      · exact a
      · rw [a] at hu; simp [waits] at hu

theorem stuck_leads {s s' : St} (c m : Nat) (h : Inv s) (hk : Stuck s c m) (hl : Leads s s') :
    Stuck s' c m ∧ s'.pc c = s.pc c ∧ ∀ u, waits (s.pc u) = true → s'.pc u = s.pc u := by
  induction hl with
  | refl => exact ⟨hk, rfl, fun _ _ => rfl⟩
  | next t w v hl hs ih =>
    obtain ⟨a, b, d⟩ := ih
    obtain ⟨a', b', d'⟩ := stuck_step _ _ c m t w v (leads_inv h hl) a hs
    refine ⟨a', b'.trans b, ?_⟩
    intro u hu
    rw [d' u (by rw [d u hu]; exact hu), d u hu]

theorem run_leads : ∀ (l : List (Nat × Want × Nat)) (s s' : St), run s l = some s' → Leads s s' := by
  have app : ∀ {a b c : St}, Leads a b → Leads b c → Leads a c := by
    intro a b c h1 h2
    induction h2 with
    | refl => exact h1
    | next t w v _ hs ih => exact .next t w v ih hs
  intro l
  induction l with
  | nil => intro s s' h; injection h with h; subst h; exact .refl _
  | cons x l ih =>
    intro s s' h
    obtain ⟨t, w, v⟩ := x
    unfold run at h
    split at h
    · rename_i s1 hs
      exact app (.next t w v (.refl _) hs) (ih s1 s' h)
    · exact absurd h (by simp)

/-- thread 1 starts the method in thread 2 -/
def startOne : List (Nat × Want × Nat) :=
  [(1, .async, 0), (1, .sync, 2), (1, .sync, 2), (1, .sync, 2), (2, .sync, 0), (2, .sync, 0), (2, .sync, 0), (2, .sync, 0)]

/-- then thread 3 sends a synchronous message -/
def thenSync : List (Nat × Want × Nat) := [(3, .sync, 0), (3, .sync, 0), (3, .sync, 0), (3, .sync, 0)]

/-- thread 1 sends two asynchronous messages at once, to be done by threads 2 and 3 -/
def twoSends : List (Nat × Want × Nat) :=
  [(1, .async, 0), (1, .sync, 2), (1, .sync, 2), (1, .sync, 2), (1, .async, 0), (1, .sync, 3), (1, .sync, 3), (1, .sync, 3),
   (2, .sync, 0), (2, .sync, 0), (2, .sync, 0), (2, .sync, 0), (3, .sync, 0), (3, .sync, 0)]

/-- C214 fails.  If a thread sends a synchronous message while an asynchronous method runs, and has come to wait for entrance-lock, then under every schedule
the message never returns, the asynchronous method never ends, and neither do all other messages that wait. -/
theorem C214_sync_wrong (s s' : St) (h : Reachable s) (c m : Nat) (hc : s.pc c = .eE) (hm : s.pc m = .mBody) (hl : Leads s s') :
    s'.pc c = .eE ∧ (s'.pc m = .mBody ∨ s'.pc m = .mxL) ∧ ∀ u, s.pc u = .sL ∨ s.pc u = .eL → s'.pc u = s.pc u := by
  obtain ⟨a, b, d⟩ := stuck_leads c m (reachable_inv h) ⟨.inl hc, .inl hm⟩ hl
  exact ⟨b.trans hc, a.2, fun u hu => d u (by rcases hu with e | e <;> rw [e] <;> rfl)⟩

/-- C214 fails.  The same happens if two asynchronous messages are sent before the first of their threads has started: both are accepted. -/
theorem C214_two_wrong (s s' : St) (h : Reachable s) (c m : Nat) (hc : s.pc c = .mE) (hm : s.pc m = .mBody) (hl : Leads s s') :
    s'.pc c = .mE ∧ (s'.pc m = .mBody ∨ s'.pc m = .mxL) ∧ ∀ u, s.pc u = .sL ∨ s.pc u = .eL → s'.pc u = s.pc u := by
  obtain ⟨a, b, d⟩ := stuck_leads c m (reachable_inv h) ⟨.inr hc, .inl hm⟩ hl
  exact ⟨b.trans hc, a.2, fun u hu => d u (by rcases hu with e | e <;> rw [e] <;> rfl)⟩

/-- C214.  These states are reached: by one asynchronous message and then a synchronous one, and by two asynchronous messages one after the other. -/
theorem C214_reached_wrong : (∃ s, Reachable s ∧ s.pc 3 = .eE ∧ s.pc 2 = .mBody) ∧ (∃ s, Reachable s ∧ s.pc 3 = .mE ∧ s.pc 2 = .mBody) := by
  constructor
  · cases h : run init (startOne ++ thenSync) with
    | none => exact absurd h (by decide)
    | some s =>
      refine ⟨s, run_leads _ _ _ h, ?_⟩
      have : ((run init (startOne ++ thenSync)).map fun s => (s.pc 3, s.pc 2)) = some (.eE, .mBody) := by decide
      rw [h] at this
      simp only [Option.map_some, Option.some.injEq, Prod.mk.injEq] at this
      exact this
  · cases h : run init twoSends with
    | none => exact absurd h (by decide)
    | some s =>
      refine ⟨s, run_leads _ _ _ h, ?_⟩
      have : ((run init twoSends).map fun s => (s.pc 3, s.pc 2)) = some (.mE, .mBody) := by decide
      rw [h] at this
      simp only [Option.map_some, Option.some.injEq, Prod.mk.injEq] at this
      exact this

/-- C214 fails.  A synchronous method that has begun before goes on while the asynchronous one runs. -/
theorem C214_concurrent_wrong : ∃ s, Reachable s ∧ s.pc 3 = .body ∧ s.pc 2 = .mBody := by
  cases h : run init ([(3, .sync, 0), (3, .sync, 0)] ++ startOne) with
  | none => exact absurd h (by decide)
  | some s =>
    refine ⟨s, run_leads _ _ _ h, ?_⟩
    have : ((run init ([(3, .sync, 0), (3, .sync, 0)] ++ startOne)).map fun s => (s.pc 3, s.pc 2)) = some (.body, .mBody) := by decide
    rw [h] at this
    simp only [Option.map_some, Option.some.injEq, Prod.mk.injEq] at this
    exact this

example : ((run init (startOne ++ [(4, .async, 0), (4, .sync, 5), (4, .sync, 5)])).map fun s => (s.pc 2, s.pc 4, s.pc 5)) = some (.mBody, .sUL, .idle) := by decide

theorem go_main {s : St} {t : Nat} {p : PC} (hp : isMain (s.pc t) = true → isMain p = true)
    (h : s.main ≠ none → ∃ u, isMain (s.pc u) = true) : s.main ≠ none → ∃ u, isMain ((s.go t p).pc u) = true := by
  intro hm
  obtain ⟨u, hu⟩ := h hm
  refine ⟨u, ?_⟩
  simp only [St.go]
  split
  · rename_i e; exact hp (e ▸ hu)
  · exact hu

theorem step_main (s s' : St) (t : Nat) (w : Want) (v : Nat) (h : s.main ≠ none → ∃ u, isMain (s.pc u) = true)
    (hs : step s t w v = some s') : s'.main ≠ none → ∃ u, isMain (s'.pc u) = true := by
  unfold step at hs
  cases hp : s.pc t <;> rw [hp] at hs <;> simp only at hs
  case idle =>
    cases w <;> simp only [Option.some.injEq] at hs <;> subst hs <;> exact go_main (by rw [hp]; simp [isMain]) h
  case m1 =>
    simp only [Option.some.injEq] at hs
    subst hs
    exact fun _ => ⟨t, by simp [St.go, isMain]⟩
  case mx1 =>
    simp only [Option.some.injEq] at hs
    subst hs
    exact fun hm => absurd rfl hm
  case s1 =>
    split at hs
    · rename_i hn
      split at hs
      · rename_i hv
        simp only [Option.some.injEq] at hs
        subst hs
        exact fun hm => absurd hn hm
      · exact absurd hs (by simp)
    · simp only [Option.some.injEq] at hs
      subst hs
      exact go_main (by rw [hp]; simp [isMain]) h
  all_goals
    first
    | (simp only [Option.some.injEq] at hs
       subst hs
       exact go_main (by rw [hp]; simp [isMain]) h)
    | (split at hs <;> cases hs <;> exact go_main (by rw [hp]; simp [isMain]) h)

/-- C214.  When no asynchronous method runs (none has set the main thread and not yet reset it), an asynchronous message is accepted: the thread chosen for it starts. -/
theorem C214_accepted (s : St) (h : Reachable s) (t v : Nat) (w : Want) (ht : s.pc t = .s1) (hv : s.pc v = .idle)
    (hn : ∀ u, s.pc u ≠ .mE ∧ s.pc u ≠ .mUL ∧ s.pc u ≠ .mBody ∧ s.pc u ≠ .mxL ∧ s.pc u ≠ .mx1) :
    ∃ s', step s t w v = some s' ∧ s'.pc t = .sUL ∧ s'.pc v = .mL ∧ ∀ u, u ≠ t → u ≠ v → s'.pc u = s.pc u := by
  have hinv : s.main ≠ none → ∃ u, isMain (s.pc u) = true := by
    clear ht hv hn
    induction h with
    | refl => simp [init]
    | next t w v _ hs ih => exact step_main _ _ t w v ih hs
  have hm : s.main = none := by
    refine Classical.byContradiction fun hc => ?_
    obtain ⟨u, hu⟩ := hinv hc
    obtain ⟨a, b, c, d, e⟩ := hn u
    cases hq : s.pc u <;> simp_all [isMain]
  have htv : t ≠ v := by rintro rfl; rw [ht] at hv; exact absurd hv (by simp)
  refine ⟨(s.go t .sUL).go v .mL, ?_, ?_, ?_, ?_⟩
  · unfold step
    rw [ht]
    simp only [hm, if_true, hv]
  · simp [St.go, htv]
  · simp [St.go]
  · intro u h1 h2
    simp [St.go, h1, h2]

/-- after a whole asynchronous method the next message is accepted -/
example : ((run init (startOne ++ [(2, .sync, 0), (2, .sync, 0), (2, .sync, 0), (2, .sync, 0), (2, .sync, 0),
    (4, .async, 0), (4, .sync, 5), (4, .sync, 5)])).map fun s => (s.pc 2, s.pc 4, s.pc 5)) = some (.idle, .sUL, .mL) := by decide

end Eus.Asy
