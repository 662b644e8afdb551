import Verif.Syn.Proofs
set_option autoImplicit false
set_option linter.unusedSectionVars false
set_option linter.unusedSimpArgs false
namespace Eus.Syn

/-! ### Counting threads -/

/-- The numbers `w u` add up to n. -/
def Sum (w : Nat → Nat) (n : Nat) : Prop := ∃ L : List Nat, (∀ u, L.count u = w u) ∧ L.length = n

theorem count_add_filter (L : List Nat) (t : Nat) : L.count t + (L.filter (· != t)).length = L.length := by
  induction L with
  | nil => rfl
  | cons a L ih =>
    by_cases h : a = t
    · subst h; simp [List.filter_cons]; omega
    · have : (a != t) = true := by simp [h]
      simp [List.filter_cons, this, List.count_cons, h]; omega

theorem count_filter_ne (L : List Nat) (t u : Nat) : (L.filter (· != t)).count u = if u = t then 0 else L.count u := by
  induction L with
  | nil => simp
  | cons a L ih =>
    by_cases h : a = t
    · have : (a != t) = false := by simp [h]
      simp only [List.filter_cons, this, Bool.false_eq_true, if_false, List.count_cons, ih]
      by_cases hu : u = t
      · simp [hu]
      · have : ¬ a = u := fun e => hu (by omega)
        simp [hu, this]
    · have : (a != t) = true := by simp [h]
      simp only [List.filter_cons, this, if_true, List.count_cons, ih]
      by_cases hu : u = t
      · subst hu; simp [h]
      · simp [hu]

theorem Sum.zero : Sum (fun _ => 0) 0 := ⟨[], fun _ => rfl, rfl⟩

theorem Sum.upd {w : Nat → Nat} {n : Nat} (h : Sum w n) (t k : Nat) : ∃ m, Sum (upd w t k) m ∧ m + w t = n + k := by
  obtain ⟨L, h1, h2⟩ := h
  refine ⟨_, ⟨List.replicate k t ++ L.filter (· != t), ?_, rfl⟩, ?_⟩
  · intro u
    rw [List.count_append, count_filter_ne, List.count_replicate]
    simp only [Eus.Syn.upd]
    by_cases hu : u = t
    · subst hu; simp
    · have : ¬ t = u := fun e => hu e.symm
      simp [hu, this, h1]
  · have := count_add_filter L t
    rw [h1 t] at this
    simp only [List.length_append, List.length_replicate]
    omega

theorem Sum.pos {w : Nat → Nat} {n : Nat} (h : Sum w n) (hn : 0 < n) : ∃ u, 0 < w u := by
  obtain ⟨L, h1, h2⟩ := h
  cases L with
  | nil => simp at h2; omega
  | cons a L => exact ⟨a, by rw [← h1 a]; simp⟩

theorem Sum.le {w : Nat → Nat} {n : Nat} (h : Sum w n) (t : Nat) : w t ≤ n := by
  obtain ⟨L, h1, h2⟩ := h
  rw [← h1 t, ← h2]; exact List.count_le_length

theorem Sum.eq_zero {w : Nat → Nat} {n : Nat} (h : Sum w n) (hz : ∀ u, w u = 0) : n = 0 := by
  by_cases h0 : n = 0
  · exact h0
  · obtain ⟨u, hu⟩ := h.pos (by omega); rw [hz u] at hu; omega

theorem comp_upd {β γ : Type} (f : Nat → β) (q : β → γ) (t : Nat) (x : β) : (fun u => q (upd f t x u)) = upd (fun u => q (f u)) t (q x) := by
  funext u; simp only [upd]; split <;> rfl

/-- The number of threads at a place of a certain kind. -/
theorem Sum.pc {ω : Type} {pc : Nat → APc ω} {q : APc ω → Nat} {n : Nat} (h : Sum (fun u => q (pc u)) n) (t : Nat) (p : APc ω) :
    ∃ m, Sum (fun u => q (Eus.Syn.upd pc t p u)) m ∧ m + q (pc t) = n + q p := by
  rw [comp_upd]; exact Sum.upd h t (q p)

/-! ### The atomic semaphore -/

def semaParts : SemaOp → Parts (BitVec 32)
  | .wait => ⟨some (0, fun count => count == 0), fun count => (count - 1, 0), []⟩
  | .trywait => ⟨none, fun count => if count = 0 then (count, EBUSY) else (count - 1, 0), []⟩
  | .post => ⟨none, fun count => (count + 1, 0), [0]⟩

theorem sema_compile (o : SemaOp) : semaProg o = compile (semaParts o) := by cases o <;> rfl

theorem sema_wakes : Wakes semaParts := by
  intro o w g x hg h1 h2 h3
  cases w <;> simp [semaParts] at hg
  subst hg
  simp at h1
  subst h1
  cases o
  · simp [blocked, semaParts] at h2
  · simp [semaParts] at h3
  · simp [semaParts]

def qAcq : APc SemaOp → Nat
  | .done .wait _ => 1
  | .done .trywait 0 => 1
  | _ => 0
def qDone : APc SemaOp → Nat
  | .done .post _ => 1
  | _ => 0
def qPend : APc SemaOp → Nat
  | .pending .post => 1
  | _ => 0

/-- The counts add up. -/
structure SInv (s : ASt Nat SemaOp) : Prop where
  ex : ∃ na nd np, Sum (fun u => qAcq (s.pc u)) na ∧ Sum (fun u => qDone (s.pc u)) nd ∧ Sum (fun u => qPend (s.pc u)) np ∧
    s.val + acquired s.trace + na = postsDone s.trace + nd ∧ postsCalled s.trace = postsDone s.trace + nd + np

theorem sinv_init : SInv (.init 0) := ⟨0, 0, 0, Sum.zero, Sum.zero, Sum.zero, rfl, rfl⟩

theorem sinv_step (e : AEv SemaOp) (s s' : ASt Nat SemaOp) (h : SInv s) (hs : astep semaSpec e s = some s') : SInv s' := by
  obtain ⟨na, nd, np, ha, hd, hp, e1, e2⟩ := h
  -- the three counts after a step of t
  have go : ∀ (t : Nat) (p : APc SemaOp) (v : Nat) (tr : List (Obs SemaOp)),
      (∀ na' nd' np', na' + qAcq (s.pc t) = na + qAcq p → nd' + qDone (s.pc t) = nd + qDone p → np' + qPend (s.pc t) = np + qPend p →
        v + acquired tr + na' = postsDone tr + nd' ∧ postsCalled tr = postsDone tr + nd' + np') → SInv ⟨v, upd s.pc t p, tr⟩ := by
    intro t p v tr h
    obtain ⟨na', ha', ea⟩ := Sum.pc ha t p
    obtain ⟨nd', hd', ed⟩ := Sum.pc hd t p
    obtain ⟨np', hp', ep⟩ := Sum.pc hp t p
    obtain ⟨x, y⟩ := h na' nd' np' ea ed ep
    exact ⟨na', nd', np', ha', hd', hp', x, y⟩
  cases e with
  | call t o =>
    simp only [astep] at hs
    split at hs
    · rename_i he
      cases hs
      apply go
      intro na' nd' np' ea ed ep
      rw [he] at ea ed ep
      cases o <;> simp [qAcq, qDone, qPend, acquired, postsDone, postsCalled] at * <;> omega
    · cases hs
  | effect t =>
    simp only [astep] at hs
    split at hs
    · rename_i o he
      cases hsp : semaSpec o s.val with
      | none => simp [hsp] at hs
      | some yr =>
        simp only [hsp, Option.map, Option.some.injEq] at hs
        subst hs
        apply go
        intro na' nd' np' ea ed ep
        rw [he] at ea ed ep
        cases hv : s.val with
        | zero =>
          rw [hv] at hsp e1
          cases o <;> simp [semaSpec] at hsp <;> subst hsp <;> simp [qAcq, qDone, qPend, EBUSY] at * <;> omega
        | succ n =>
          rw [hv] at hsp e1
          cases o <;> simp [semaSpec] at hsp <;> subst hsp <;> simp [qAcq, qDone, qPend] at * <;> omega
    · cases hs
  | ret t =>
    simp only [astep] at hs
    split at hs
    · rename_i o r he
      cases hs
      apply go
      intro na' nd' np' ea ed ep
      rw [he] at ea ed ep
      cases o
      · simp [qAcq, qDone, qPend, acquired, postsDone, postsCalled] at *; omega
      · cases r <;> simp [qAcq, qDone, qPend, acquired, postsDone, postsCalled] at * <;> omega
      · simp [qAcq, qDone, qPend, acquired, postsDone, postsCalled] at *; omega
    · cases hs

theorem astep_trace {α ω : Type} (spec : ω → α → Option (α × Nat)) (e : AEv ω) (s s' : ASt α ω) (hs : astep spec e s = some s') :
    ∃ l, s'.trace = s.trace ++ l := by
  cases e with
  | call t o =>
    simp only [astep] at hs
    split at hs
    · cases hs; exact ⟨_, rfl⟩
    · cases hs
  | effect t =>
    simp only [astep] at hs
    split at hs
    · rename_i o he
      cases hsp : spec o s.val with
      | none => simp [hsp] at hs
      | some yr => simp only [hsp, Option.map, Option.some.injEq] at hs; subst hs; exact ⟨[], by simp⟩
    · cases hs
  | ret t =>
    simp only [astep] at hs
    split at hs
    · cases hs; exact ⟨_, rfl⟩
    · cases hs

theorem arun_trace {α ω : Type} (spec : ω → α → Option (α × Nat)) (es : List (AEv ω)) (s s' : ASt α ω) (hs : arun spec es s = some s') :
    ∃ l, s'.trace = s.trace ++ l := by
  induction es generalizing s with
  | nil => cases hs; exact ⟨[], by simp⟩
  | cons e es ih =>
    simp only [arun] at hs
    cases h1 : astep spec e s with
    | none => simp [h1] at hs
    | some s1 =>
      simp only [h1, Option.bind] at hs
      obtain ⟨l1, e1⟩ := astep_trace spec e s s1 h1
      obtain ⟨l2, e2⟩ := ih s1 hs
      exact ⟨l1 ++ l2, by rw [e2, e1, List.append_assoc]⟩

/-- The 32-bit counter and the natural number. -/
structure NSim (a : ASt (BitVec 32) SemaOp) (b : ASt Nat SemaOp) : Prop where
  val : b.val = a.val.toNat
  pc : b.pc = a.pc
  trace : b.trace = a.trace

theorem spec_nat (o : SemaOp) (x : BitVec 32) (h : o = .post → x.toNat + 1 < 2 ^ 32) (y : BitVec 32) (r : Nat)
    (hs : specOf semaParts o x = some (y, r)) : semaSpec o x.toNat = some (y.toNat, r) := by
  have pos : x ≠ 0#32 → ∃ k, x.toNat = k + 1 ∧ (x - 1#32).toNat = k := by
    intro h0
    refine ⟨x.toNat - 1, ?_, ?_⟩
    · have : x.toNat ≠ 0 := fun e => h0 (BitVec.eq_of_toNat_eq (by simpa using e))
      omega
    · have : x.toNat ≠ 0 := fun e => h0 (BitVec.eq_of_toNat_eq (by simpa using e))
      have := x.isLt
      rw [BitVec.toNat_sub]; simp; omega
  cases o
  · unfold specOf at hs
    by_cases h0 : x = 0#32
    · rw [if_pos (by simp [h0, blocked, semaParts])] at hs; cases hs
    · rw [if_neg (by simp [h0, blocked, semaParts])] at hs
      cases hs
      obtain ⟨k, k1, k2⟩ := pos h0
      rw [k1]; simp [semaSpec, k2]
  · simp only [specOf, blocked, semaParts] at hs
    simp only [Bool.false_eq_true, if_false, Option.some.injEq] at hs
    split at hs
    · rename_i h0
      cases hs
      rw [h0]; rfl
    · rename_i h0
      cases hs
      obtain ⟨k, k1, k2⟩ := pos h0
      rw [k1]; simp [semaSpec, k2]
  · simp only [specOf, blocked, semaParts] at hs
    simp only [Bool.false_eq_true, if_false, Option.some.injEq, Prod.mk.injEq] at hs
    obtain ⟨rfl, rfl⟩ := hs
    have := h rfl
    simp only [semaSpec, Option.some.injEq, Prod.mk.injEq, and_true]
    rw [BitVec.toNat_add]; simp; omega

theorem postsCalled_append (a b : List (Obs SemaOp)) : postsCalled (a ++ b) = postsCalled a + postsCalled b := by simp [postsCalled, List.countP_append]

theorem nsim_run (es : List (AEv SemaOp)) (a a' : ASt (BitVec 32) SemaOp) (b : ASt Nat SemaOp) (h : NSim a b) (hi : SInv b)
    (hr : arun (specOf semaParts) es a = some a') (hb' : postsCalled a'.trace < 2 ^ 32) :
    ∃ b', arun semaSpec es b = some b' ∧ NSim a' b' ∧ SInv b' := by
  induction es generalizing a b with
  | nil => cases hr; exact ⟨b, rfl, h, hi⟩
  | cons e es ih =>
    simp only [arun] at hr
    cases h1 : astep (specOf semaParts) e a with
    | none => simp [h1] at hr
    | some a1 =>
      simp only [h1, Option.bind] at hr
      obtain ⟨l, hl⟩ := arun_trace _ es a1 a' hr
      have hb := hb'
      rw [hl, postsCalled_append] at hb
      have key : ∃ b1, astep semaSpec e b = some b1 ∧ NSim a1 b1 := by
        obtain ⟨hv, hp, ht⟩ := h
        cases e with
        | call t o =>
          simp only [astep] at h1 ⊢
          rw [hp]
          split at h1
          · rename_i he
            cases h1
            exact ⟨⟨b.val, upd a.pc t (.pending o), b.trace ++ [.call t o]⟩, by simp only [he], ⟨hv, rfl, by simp [ht]⟩⟩
          · cases h1
        | effect t =>
          simp only [astep] at h1 ⊢
          rw [hp]
          split at h1
          · rename_i o he
            cases hsp : specOf semaParts o a.val with
            | none => simp [hsp] at h1
            | some yr =>
              simp only [hsp, Option.map, Option.some.injEq] at h1
              subst h1
              have := spec_nat o a.val (by
                intro ho
                subst ho
                obtain ⟨na, nd, np, ha, hd, hpp, e1, e2⟩ := hi
                have hle := hpp.le t
                rw [hp, he] at hle
                simp only [qPend] at hle
                rw [ht] at e1 e2
                simp only at hb
                rw [← hv]
                omega) yr.1 yr.2 hsp
              refine ⟨⟨yr.1.toNat, upd a.pc t (.done o yr.2), b.trace⟩, ?_, ⟨rfl, rfl, ht⟩⟩
              simp only [he, hv, this, Option.map]
          · cases h1
        | ret t =>
          simp only [astep] at h1 ⊢
          rw [hp]
          split at h1
          · rename_i o r he
            cases h1
            exact ⟨⟨b.val, upd a.pc t .out, b.trace ++ [.ret t o r]⟩, by simp only [he], ⟨hv, rfl, by simp [ht]⟩⟩
          · cases h1
      obtain ⟨b1, hb1, hn⟩ := key
      obtain ⟨b', r, x, y⟩ := ih a1 b1 hn (sinv_step e b b1 hi hb1) hr
      exact ⟨b', by simp only [arun, hb1, Option.bind]; exact r, x, y⟩

end Eus.Syn
