import Verif.Syn.Sema
set_option autoImplicit false
set_option linter.unusedSectionVars false
set_option linter.unusedSimpArgs false
namespace Eus.Syn

def rwParts : RwOp → Parts (BitVec 32)
  | .rdlock => ⟨some (0, fun readers => readers == -1), fun readers => (readers + 1, 0), []⟩
  | .wrlock => ⟨some (1, fun readers => readers != 0), fun _ => (-1, 0), []⟩
  | .unlock => ⟨none, fun readers => if readers = -1 then (0, 0) else (readers - 1, 0), [1, 0]⟩

theorem rw_compile (o : RwOp) : rwProg o = compile (rwParts o) := by cases o <;> rfl

theorem rw_wakes : Wakes rwParts := by
  intro o w g x hg h1 h2 h3
  cases o
  · cases w <;> simp [rwParts] at hg <;> subst hg <;> simp [blocked, rwParts] at h1 h2 h3 ⊢
    · exact h2 h1
    · apply h2; exact BitVec.eq_of_toNat_eq (by have h4 := congrArg BitVec.toNat h3; rw [BitVec.toNat_add] at h4; have := x.isLt; simp at h4 ⊢; omega)
  · cases w <;> simp [rwParts] at hg <;> subst hg <;> simp [blocked, rwParts] at h1 h2 h3 ⊢ <;> simp_all
  · cases w <;> simp [rwParts] at hg <;> subst hg <;> simp [blocked, rwParts] at h1 h2 h3 ⊢

/-! ### Ownership -/

theorem own_append (a : List (Obs RwOp)) (x : Obs RwOp) : own (a ++ [x]) = (own a).step x := by simp [own, List.foldl_append]

theorem disc_left {a b : List (Obs RwOp)} (h : Disciplined (a ++ b)) : Disciplined a := by
  intro x t y e; exact h x t (y ++ b) (by rw [e]; simp)

theorem disc_last {a : List (Obs RwOp)} {t : Nat} {b : List (Obs RwOp)} (h : Disciplined (a ++ [.call t .unlock] ++ b)) : 0 < (own a).rd t ∨ (own a).wr t = true :=
  h a t b (by simp)

theorem rdCalls_append (a b : List (Obs RwOp)) : rdCalls (a ++ b) = rdCalls a + rdCalls b := by simp [rdCalls, List.countP_append]

/-- A thread counted among the readers though it is in a call: it has just got the lock, or it is about to give it back. -/
def qRd : APc RwOp → Nat
  | .done .rdlock _ => 1
  | .pending .unlock => 1
  | _ => 0
def qPendRd : APc RwOp → Nat
  | .pending .rdlock => 1
  | _ => 0
def qDoneWr : APc RwOp → Bool
  | .done .wrlock _ => true
  | _ => false
/-- Holds the lock for writing, in a call. -/
def qWr : APc RwOp → Bool
  | .done .wrlock _ => true
  | .pending .unlock => true
  | _ => false

structure RMode (s : ASt (BitVec 32) RwOp) (np : Nat) : Prop where
  cnt : Sum (fun u => (own s.trace).rd u + qRd (s.pc u)) s.val.toNat
  bound : s.val.toNat + np ≤ rdCalls s.trace
  nowr : ∀ u, (own s.trace).wr u = false
  nodone : ∀ u, qDoneWr (s.pc u) = false

structure WMode (s : ASt (BitVec 32) RwOp) (np : Nat) : Prop where
  val : s.val = -1
  bound : np ≤ rdCalls s.trace
  nord : ∀ u, (own s.trace).rd u = 0
  nodone : ∀ u, ∀ r, s.pc u ≠ .done .rdlock r
  one : ∃ t, (∀ u, u ≠ t → (own s.trace).wr u = false ∧ qWr (s.pc u) = false) ∧ ((own s.trace).wr t = !qWr (s.pc t))

def RInv (s : ASt (BitVec 32) RwOp) : Prop := ∃ np, Sum (fun u => qPendRd (s.pc u)) np ∧ (RMode s np ∨ WMode s np)

theorem rinv_init : RInv (.init 0) := by
  refine ⟨0, Sum.zero, Or.inl ⟨?_, Nat.le_refl _, fun _ => rfl, fun _ => rfl⟩⟩
  exact Sum.zero

theorem upd_fun {β : Type} (f : Nat → β) (t : Nat) (x : β) (h : f t = x) : upd f t x = f := by subst h; exact upd_self f t

theorem qDoneWr_of_qWr {p : APc RwOp} (h : qWr p = false) : qDoneWr p = false := by
  cases p with
  | out => rfl
  | pending o => rfl
  | done o r => cases o <;> simp_all [qWr, qDoneWr]

theorem rinv_call (t : Nat) (o : RwOp) (s : ASt (BitVec 32) RwOp) (h : RInv s) (ho : s.pc t = .out)
    (hd : Disciplined (s.trace ++ [.call t o])) : RInv ⟨s.val, upd s.pc t (.pending o), s.trace ++ [.call t o]⟩ := by
  obtain ⟨np, hp, hm⟩ := h
  obtain ⟨np', hp', ep⟩ := Sum.pc hp t (.pending o)
  rw [ho] at ep
  refine ⟨np', hp', ?_⟩
  have hl : o = .unlock → 0 < (own s.trace).rd t ∨ (own s.trace).wr t = true := by
    intro e; subst e; exact disc_last (b := []) (by simpa using hd)
  cases hm with
  | inl hm =>
    obtain ⟨hc, hb, hw, hn⟩ := hm
    refine Or.inl ⟨?_, ?_, ?_, ?_⟩
    · obtain ⟨m, hs, em⟩ := Sum.upd hc t ((own s.trace).rd t + qRd (s.pc t))
      rw [upd_self] at hs
      have : (fun u => (own (s.trace ++ [Obs.call t o])).rd u + qRd (upd s.pc t (APc.pending o) u)) = (fun u => (own s.trace).rd u + qRd (s.pc u)) := by
        funext u
        rw [own_append]
        by_cases hu : u = t
        · subst hu
          rw [upd_same, ho]
          cases o
          · rfl
          · rfl
          · have := hl rfl
            rw [hw u] at this
            simp only [Own.step, hw u, Bool.false_eq_true, if_false, upd_same, qRd]
            simp at this
            omega
        · rw [upd_other _ _ _ _ hu]
          cases o
          · rfl
          · rfl
          · simp only [Own.step, hw t, Bool.false_eq_true, if_false, upd_other _ _ _ _ hu]
      show Sum _ s.val.toNat
      rw [this]; exact hc
    · show s.val.toNat + np' ≤ _
      rw [rdCalls_append]
      cases o <;> simp [rdCalls, qPendRd] at * <;> omega
    · intro u
      show (own (s.trace ++ [Obs.call t o])).wr u = false
      rw [own_append]
      cases o
      · exact hw u
      · exact hw u
      · simp only [Own.step, hw t, Bool.false_eq_true, if_false]; exact hw u
    · intro u
      show qDoneWr (upd s.pc t (APc.pending o) u) = false
      by_cases hu : u = t
      · subst hu; rw [upd_same]; rfl
      · rw [upd_other _ _ _ _ hu]; exact hn u
  | inr hm =>
    obtain ⟨hv, hb, hr, hn, t0, h1, h2⟩ := hm
    have hwt : o = .unlock → (own s.trace).wr t = true := by
      intro e; have := hl e; rw [hr t] at this; simpa using this
    refine Or.inr ⟨hv, ?_, ?_, ?_, t0, ?_, ?_⟩
    · show np' ≤ _
      rw [rdCalls_append]
      cases o <;> simp [rdCalls, qPendRd] at * <;> omega
    · intro u
      show (own (s.trace ++ [Obs.call t o])).rd u = 0
      rw [own_append]
      cases o
      · exact hr u
      · exact hr u
      · simp only [Own.step, hwt rfl, if_true]; exact hr u
    · intro u r
      show upd s.pc t (APc.pending o) u ≠ _
      by_cases hu : u = t
      · subst hu; rw [upd_same]; simp
      · rw [upd_other _ _ _ _ hu]; exact hn u r
    · intro u hu
      show (own (s.trace ++ [Obs.call t o])).wr u = false ∧ qWr (upd s.pc t (APc.pending o) u) = false
      rw [own_append]
      by_cases hut : u = t
      · subst hut
        rw [upd_same]
        cases o
        · exact ⟨(h1 u hu).1, rfl⟩
        · exact ⟨(h1 u hu).1, rfl⟩
        · have := hwt rfl; rw [(h1 u hu).1] at this; cases this
      · rw [upd_other _ _ _ _ hut]
        cases o
        · exact h1 u hu
        · exact h1 u hu
        · simp only [Own.step, hwt rfl, if_true, upd_other _ _ _ _ hut]; exact h1 u hu
    · show (own (s.trace ++ [Obs.call t o])).wr t0 = !qWr (upd s.pc t (APc.pending o) t0)
      rw [own_append]
      by_cases hut : t0 = t
      · subst hut
        rw [upd_same]
        rw [ho] at h2
        cases o
        · exact h2
        · exact h2
        · simp only [Own.step, hwt rfl, if_true, upd_same, qWr]; rfl
      · rw [upd_other _ _ _ _ hut]
        cases o
        · exact h2
        · exact h2
        · have := hwt rfl; rw [(h1 t (fun e => hut e.symm)).1] at this; cases this

theorem rinv_ret (t : Nat) (o : RwOp) (r : Nat) (s : ASt (BitVec 32) RwOp) (h : RInv s) (ho : s.pc t = .done o r) :
    RInv ⟨s.val, upd s.pc t .out, s.trace ++ [.ret t o r]⟩ := by
  obtain ⟨np, hp, hm⟩ := h
  obtain ⟨np', hp', ep⟩ := Sum.pc hp t .out
  rw [ho] at ep
  simp only [qPendRd, Nat.add_zero] at ep
  subst ep
  refine ⟨np', hp', ?_⟩
  have hrc : rdCalls (s.trace ++ [.ret t o r]) = rdCalls s.trace := by rw [rdCalls_append]; rfl
  cases hm with
  | inl hm =>
    obtain ⟨hc, hb, hw, hn⟩ := hm
    have hno : o ≠ .wrlock := by intro e; have := hn t; rw [ho, e] at this; simp [qDoneWr] at this
    refine Or.inl ⟨?_, ?_, ?_, ?_⟩
    · have : (fun u => (own (s.trace ++ [Obs.ret t o r])).rd u + qRd (upd s.pc t .out u)) = (fun u => (own s.trace).rd u + qRd (s.pc u)) := by
        funext u
        rw [own_append]
        by_cases hu : u = t
        · subst hu
          rw [upd_same, ho]
          cases o
          · simp [Own.step, upd_same, qRd]
          · exact (hno rfl).elim
          · rfl
        · rw [upd_other _ _ _ _ hu]
          cases o
          · simp only [Own.step, upd_other _ _ _ _ hu]
          · rfl
          · rfl
      show Sum _ s.val.toNat
      rw [this]; exact hc
    · show s.val.toNat + np' ≤ _
      rw [hrc]; exact hb
    · intro u
      show (own (s.trace ++ [Obs.ret t o r])).wr u = false
      rw [own_append]
      cases o
      · exact hw u
      · exact (hno rfl).elim
      · exact hw u
    · intro u
      show qDoneWr (upd s.pc t .out u) = false
      by_cases hu : u = t
      · subst hu; rw [upd_same]; rfl
      · rw [upd_other _ _ _ _ hu]; exact hn u
  | inr hm =>
    obtain ⟨hv, hb, hr, hn, t0, h1, h2⟩ := hm
    have hno : o ≠ .rdlock := by intro e; exact hn t r (by rw [ho, e])
    refine Or.inr ⟨hv, ?_, ?_, ?_, t0, ?_, ?_⟩
    · show np' ≤ _
      rw [hrc]; exact hb
    · intro u
      show (own (s.trace ++ [Obs.ret t o r])).rd u = 0
      rw [own_append]
      cases o
      · exact (hno rfl).elim
      · exact hr u
      · exact hr u
    · intro u r'
      show upd s.pc t .out u ≠ _
      by_cases hu : u = t
      · subst hu; rw [upd_same]; simp
      · rw [upd_other _ _ _ _ hu]; exact hn u r'
    · intro u hu
      show (own (s.trace ++ [Obs.ret t o r])).wr u = false ∧ qWr (upd s.pc t .out u) = false
      rw [own_append]
      by_cases hut : u = t
      · subst hut
        rw [upd_same]
        cases o
        · exact (hno rfl).elim
        · have := (h1 u hu).2; rw [ho] at this; simp [qWr] at this
        · exact ⟨(h1 u hu).1, rfl⟩
      · rw [upd_other _ _ _ _ hut]
        cases o
        · exact (hno rfl).elim
        · simp only [Own.step, upd_other _ _ _ _ hut]; exact h1 u hu
        · exact h1 u hu
    · show (own (s.trace ++ [Obs.ret t o r])).wr t0 = !qWr (upd s.pc t .out t0)
      rw [own_append]
      by_cases hut : t0 = t
      · subst hut
        rw [upd_same]
        rw [ho] at h2
        cases o
        · exact (hno rfl).elim
        · simp [Own.step, upd_same, qWr]
        · simpa [qWr, Own.step] using h2
      · rw [upd_other _ _ _ _ hut]
        cases o
        · exact (hno rfl).elim
        · simp only [Own.step, upd_other _ _ _ _ hut]; exact h2
        · exact h2

theorem neg1_toNat : (-1 : BitVec 32).toNat = 2 ^ 32 - 1 := by decide

theorem rinv_effect (t : Nat) (o : RwOp) (y : BitVec 32) (r : Nat) (s : ASt (BitVec 32) RwOp) (h : RInv s) (ho : s.pc t = .pending o)
    (hs : specOf rwParts o s.val = some (y, r)) (hb : rdCalls s.trace < 2 ^ 32 - 1) : RInv ⟨y, upd s.pc t (.done o r), s.trace⟩ := by
  obtain ⟨np, hp, hm⟩ := h
  obtain ⟨np', hp', ep⟩ := Sum.pc hp t (.done o r)
  have hple := hp.le t
  rw [ho] at ep hple
  refine ⟨np', hp', ?_⟩
  cases o with
  | rdlock =>
    simp only [qPendRd] at ep hple
    unfold specOf at hs
    by_cases h0 : s.val = -1
    · rw [if_pos (by rw [h0]; rfl)] at hs; cases hs
    · rw [if_neg (by simpa [blocked, rwParts] using h0)] at hs
      cases hs
      cases hm with
      | inr hm => exact (h0 hm.val).elim
      | inl hm =>
        obtain ⟨hc, hbd, hw, hn⟩ := hm
        have hv : (s.val + 1).toNat = s.val.toNat + 1 := by rw [BitVec.toNat_add]; simp; omega
        obtain ⟨m, hsum, em⟩ := Sum.upd hc t ((own s.trace).rd t + 1)
        rw [ho] at em
        simp only [qRd] at em
        refine Or.inl ⟨?_, ?_, hw, ?_⟩
        · have : (fun u => (own s.trace).rd u + qRd (upd s.pc t (APc.done RwOp.rdlock 0) u)) = upd (fun u => (own s.trace).rd u + qRd (s.pc u)) t ((own s.trace).rd t + 1) := by
            funext u
            by_cases hu : u = t
            · subst hu; rw [upd_same, upd_same]; rfl
            · rw [upd_other _ _ _ _ hu, upd_other _ _ _ _ hu]
          show Sum _ (s.val + 1).toNat
          have e : (s.val + 1).toNat = m := by omega
          rw [e]
          exact this ▸ hsum
        · show (s.val + 1).toNat + np' ≤ _
          show (s.val + 1).toNat + np' ≤ rdCalls s.trace
          omega
        · intro u
          show qDoneWr (upd s.pc t _ u) = false
          by_cases hu : u = t
          · subst hu; rw [upd_same]; rfl
          · rw [upd_other _ _ _ _ hu]; exact hn u
  | wrlock =>
    simp only [qPendRd] at ep hple
    unfold specOf at hs
    by_cases h0 : s.val = 0
    · rw [if_neg (by rw [h0]; simp [blocked, rwParts])] at hs
      cases hs
      cases hm with
      | inr hm => have := hm.val; rw [h0] at this; exact absurd this (by decide)
      | inl hm =>
        obtain ⟨hc, hbd, hw, hn⟩ := hm
        rw [h0] at hc
        have hz : ∀ u, (own s.trace).rd u + qRd (s.pc u) = 0 := by
          intro u; have := hc.le u; simpa using this
        refine Or.inr ⟨rfl, by show np' ≤ rdCalls s.trace; omega, fun u => by have := hz u; show (own s.trace).rd u = 0; omega, ?_, t, ?_, ?_⟩
        · intro u r'
          show upd s.pc t _ u ≠ _
          by_cases hu : u = t
          · subst hu; rw [upd_same]; simp
          · rw [upd_other _ _ _ _ hu]; intro e; have := hz u; rw [e] at this; simp [qRd] at this
        · intro u hu
          refine ⟨hw u, ?_⟩
          show qWr (upd s.pc t _ u) = false
          rw [upd_other _ _ _ _ hu]
          have h1 := hz u
          have h2 := hn u
          generalize s.pc u = p at h1 h2
          cases p with
          | out => rfl
          | pending o => cases o <;> simp_all [qRd, qWr]
          | done o r => cases o <;> simp_all [qDoneWr, qWr]
        · show (own s.trace).wr t = !qWr (upd s.pc t _ t)
          rw [upd_same, hw t]; rfl
    · rw [if_pos (by simpa [blocked, rwParts] using h0)] at hs; cases hs
  | unlock =>
    simp only [qPendRd] at ep hple
    unfold specOf at hs
    rw [if_neg (by simp [blocked, rwParts])] at hs
    simp only [rwParts, Option.some.injEq] at hs
    cases hm with
    | inr hm =>
      obtain ⟨hv, hbd, hr, hn, t0, h1, h2⟩ := hm
      rw [if_pos hv] at hs
      cases hs
      have ht0 : t = t0 := by
        by_cases e : t = t0
        · exact e
        · have := (h1 t e).2; rw [ho] at this; simp [qWr] at this
      subst ht0
      rw [ho] at h2
      have hwf : ∀ u, (own s.trace).wr u = false := by
        intro u
        by_cases e : u = t
        · subst e; simpa [qWr] using h2
        · exact (h1 u e).1
      refine Or.inl ⟨?_, ?_, hwf, ?_⟩
      · show Sum _ (0 : BitVec 32).toNat
        have : (fun u => (own s.trace).rd u + qRd (upd s.pc t (APc.done RwOp.unlock 0) u)) = fun _ => 0 := by
          funext u
          rw [hr u]
          by_cases hu : u = t
          · subst hu; rw [upd_same]; rfl
          · rw [upd_other _ _ _ _ hu]
            have h3 := (h1 u hu).2
            have h4 := hn u
            generalize s.pc u = p at h3 h4
            cases p with
            | out => rfl
            | pending o => cases o <;> simp_all [qRd, qWr]
            | done o r => cases o <;> simp_all [qRd, qWr]
        exact this ▸ Sum.zero
      · show (0 : BitVec 32).toNat + np' ≤ rdCalls s.trace
        simp; omega
      · intro u
        show qDoneWr (upd s.pc t _ u) = false
        by_cases hu : u = t
        · subst hu; rw [upd_same]; rfl
        · rw [upd_other _ _ _ _ hu]; exact qDoneWr_of_qWr (h1 u hu).2
    | inl hm =>
      obtain ⟨hc, hbd, hw, hn⟩ := hm
      have hne : s.val ≠ -1 := by intro e; rw [e, neg1_toNat] at hbd; omega
      rw [if_neg hne] at hs
      cases hs
      have hpos := hc.le t
      rw [ho] at hpos
      simp only [qRd] at hpos
      have hv : (s.val - 1).toNat = s.val.toNat - 1 := by
        have := s.val.isLt
        rw [BitVec.toNat_sub]; simp; omega
      obtain ⟨m, hsum, em⟩ := Sum.upd hc t ((own s.trace).rd t)
      rw [ho] at em
      simp only [qRd] at em
      refine Or.inl ⟨?_, ?_, hw, ?_⟩
      · have : (fun u => (own s.trace).rd u + qRd (upd s.pc t (APc.done RwOp.unlock 0) u)) = upd (fun u => (own s.trace).rd u + qRd (s.pc u)) t ((own s.trace).rd t) := by
          funext u
          by_cases hu : u = t
          · subst hu; rw [upd_same, upd_same]; rfl
          · rw [upd_other _ _ _ _ hu, upd_other _ _ _ _ hu]
        show Sum _ (s.val - 1).toNat
        have e : (s.val - 1).toNat = m := by omega
        rw [e]
        exact this ▸ hsum
      · show (s.val - 1).toNat + np' ≤ rdCalls s.trace
        omega
      · intro u
        show qDoneWr (upd s.pc t _ u) = false
        by_cases hu : u = t
        · subst hu; rw [upd_same]; rfl
        · rw [upd_other _ _ _ _ hu]; exact hn u

theorem rinv_run (es : List (AEv RwOp)) (a a' : ASt (BitVec 32) RwOp) (hi : RInv a) (hr : arun (specOf rwParts) es a = some a')
    (hd : Disciplined a'.trace) (hb : rdCalls a'.trace < 2 ^ 32 - 1) : RInv a' := by
  induction es generalizing a with
  | nil => cases hr; exact hi
  | cons e es ih =>
    simp only [arun] at hr
    cases h1 : astep (specOf rwParts) e a with
    | none => simp [h1] at hr
    | some a1 =>
      simp only [h1, Option.bind] at hr
      refine ih a1 ?_ hr
      obtain ⟨l, hl⟩ := arun_trace _ es a1 a' hr
      rw [hl] at hd hb
      rw [rdCalls_append] at hb
      have hd1 := disc_left hd
      cases e with
      | call t o =>
        simp only [astep] at h1
        split at h1
        · rename_i he; cases h1; exact rinv_call t o a hi he hd1
        · cases h1
      | effect t =>
        simp only [astep] at h1
        split at h1
        · rename_i o he
          cases hsp : specOf rwParts o a.val with
          | none => simp [hsp] at h1
          | some yr =>
            simp only [hsp, Option.map, Option.some.injEq] at h1
            subst h1
            exact rinv_effect t o yr.1 yr.2 a hi he hsp (by simp only at hb; omega)
        · cases h1
      | ret t =>
        simp only [astep] at h1
        split at h1
        · rename_i o r he; cases h1; exact rinv_ret t o r a hi he
        · cases h1

theorem rinv_exclusive (s : ASt (BitVec 32) RwOp) (h : RInv s) : Exclusive (own s.trace) := by
  obtain ⟨np, _, hm⟩ := h
  intro t ht
  cases hm with
  | inl hm => rw [hm.nowr t] at ht; cases ht
  | inr hm =>
    obtain ⟨hv, hb, hr, hn, t0, h1, h2⟩ := hm
    have e0 : ∀ u, (own s.trace).wr u = true → u = t0 := by
      intro u hu
      by_cases e : u = t0
      · exact e
      · rw [(h1 u e).1] at hu; cases hu
    exact ⟨hr, fun u hu => by rw [e0 u hu, e0 t ht]⟩

/-- When everybody in a call has to wait, nobody is about to give the lock back; a reader waits for a writer, a writer waits for a thread that has the lock. -/
theorem rinv_stuck (s : ASt (BitVec 32) RwOp) (h : RInv s) (hb : rdCalls s.trace < 2 ^ 32 - 1)
    (hst : ∀ t, s.pc t = .out ∨ ∃ o, s.pc t = .pending o ∧ specOf rwParts o s.val = none)
    (t : Nat) (o : RwOp) (ht : s.pc t = .pending o) :
    o = .rdlock ∧ (∃ u, (own s.trace).wr u = true) ∨ o = .wrlock ∧ ∃ u, 0 < (own s.trace).rd u ∨ (own s.trace).wr u = true := by
  obtain ⟨np, _, hm⟩ := h
  have nounlock : ∀ u, s.pc u ≠ .pending .unlock := by
    intro u e
    cases hst u with
    | inl x => rw [x] at e; cases e
    | inr x => obtain ⟨o, h1, h2⟩ := x; rw [h1] at e; cases e; simp [specOf, blocked, rwParts] at h2
  have nodone : ∀ u o r, s.pc u ≠ .done o r := by
    intro u o r e
    cases hst u with
    | inl x => rw [x] at e; cases e
    | inr x => obtain ⟨o, h1, h2⟩ := x; rw [h1] at e; cases e
  have hno : specOf rwParts o s.val = none := by
    cases hst t with
    | inl x => rw [x] at ht; cases ht
    | inr x => obtain ⟨o', h1, h2⟩ := x; rw [h1] at ht; cases ht; exact h2
  cases hm with
  | inr hm =>
    obtain ⟨hv, hb, hr, hn, t0, h1, h2⟩ := hm
    have hw : (own s.trace).wr t0 = true := by
      rw [h2]
      have a1 := nounlock t0
      have a2 := nodone t0
      generalize s.pc t0 = p at a1 a2
      cases p with
      | out => rfl
      | pending o => cases o <;> simp_all [qWr]
      | done o r => exact (a2 o r rfl).elim
    cases o with
    | rdlock => exact Or.inl ⟨rfl, t0, hw⟩
    | wrlock => exact Or.inr ⟨rfl, t0, Or.inr hw⟩
    | unlock => exact (nounlock t ht).elim
  | inl hm =>
    obtain ⟨hc, hbd, hw, hn⟩ := hm
    cases o with
    | unlock => exact (nounlock t ht).elim
    | rdlock =>
      by_cases e : s.val = -1
      · rw [e, neg1_toNat] at hbd; omega
      · simp [specOf, blocked, rwParts] at hno; exact (e hno).elim
    | wrlock =>
      have hpos : 0 < s.val.toNat := by
        by_cases e : s.val = 0
        · rw [e] at hno; simp [specOf, blocked, rwParts] at hno
        · by_cases e' : s.val.toNat = 0
          · exact (e (BitVec.eq_of_toNat_eq (by simpa using e'))).elim
          · omega
      obtain ⟨u, hu⟩ := hc.pos hpos
      refine Or.inr ⟨rfl, u, Or.inl ?_⟩
      have a1 := nounlock u
      have a2 := nodone u
      generalize s.pc u = p at a1 a2 hu
      cases p with
      | out => simpa [qRd] using hu
      | pending o => cases o <;> simp_all [qRd]
      | done o r => exact (a2 o r rfl).elim

/-! ### Asking for the lock to read while having it to write -/

theorem own_wr_other {w : Own} {t : Nat} {x : Obs RwOp} (h : w.wr t = true) (hx : x ≠ .call t .unlock) : (w.step x).wr t = true := by
  cases x with
  | call u o =>
    cases o
    · exact h
    · exact h
    · have hu : t ≠ u := fun e => hx (by rw [e])
      simp only [Own.step]
      split
      · simp [upd, hu, h]
      · exact h
  | ret u o r =>
    cases o
    · exact h
    · simp only [Own.step, upd]; split
      · rfl
      · exact h
    · exact h

theorem upgrade_run (t : Nat) (es : List (AEv RwOp)) (a a' : ASt (BitVec 32) RwOp) (hi : RInv a) (hw : (own a.trace).wr t = true) (hp : a.pc t = .pending .rdlock)
    (hr : arun (specOf rwParts) es a = some a') (hd : Disciplined a'.trace) (hb : rdCalls a'.trace < 2 ^ 32 - 1) : a'.pc t = .pending .rdlock := by
  induction es generalizing a with
  | nil => cases hr; exact hp
  | cons e es ih =>
    have hr0 := hr
    simp only [arun] at hr
    cases h1 : astep (specOf rwParts) e a with
    | none => simp [h1] at hr
    | some a1 =>
      simp only [h1, Option.bind] at hr
      obtain ⟨l, hl⟩ := arun_trace _ es a1 a' hr
      have hi1 : RInv a1 := rinv_run [e] a a1 hi (by simp [arun, h1]) (by rw [hl] at hd; exact disc_left hd) (by rw [hl, rdCalls_append] at hb; omega)
      have key : (own a1.trace).wr t = true ∧ a1.pc t = .pending .rdlock := by
        cases e with
        | call u o =>
          simp only [astep] at h1
          split at h1
          · rename_i he
            cases h1
            have hu : t ≠ u := by intro e; rw [← e, hp] at he; cases he
            refine ⟨?_, by simpa [upd, hu] using hp⟩
            show (own (a.trace ++ [_])).wr t = true
            rw [own_append]
            exact own_wr_other hw (by intro e; cases e; exact hu rfl)
          · cases h1
        | effect u =>
          simp only [astep] at h1
          split at h1
          · rename_i o he
            cases hsp : specOf rwParts o a.val with
            | none => simp [hsp] at h1
            | some yr =>
              simp only [hsp, Option.map, Option.some.injEq] at h1
              subst h1
              refine ⟨hw, ?_⟩
              by_cases hu : t = u
              · rw [← hu, hp] at he
                cases he
                obtain ⟨np, _, hm⟩ := hi
                cases hm with
                | inl hm => rw [hm.nowr t] at hw; cases hw
                | inr hm => rw [hm.val] at hsp; simp [specOf, blocked, rwParts] at hsp
              · simpa [upd, hu] using hp
          · cases h1
        | ret u =>
          simp only [astep] at h1
          split at h1
          · rename_i o r he
            cases h1
            have hu : t ≠ u := by intro e; rw [← e, hp] at he; cases he
            refine ⟨?_, by simpa [upd, hu] using hp⟩
            show (own (a.trace ++ [_])).wr t = true
            rw [own_append]
            exact own_wr_other hw (by simp)
          · cases h1
      exact ih a1 hi1 key.1 key.2 hr

theorem start_inv {σ ω : Type} {P : ω → Parts σ} {sh : σ} {p : Pc σ ω} {b : Bool} {q : APc ω} (h : PcOk P sh p b q) {o : ω} {is : List (Instr σ)} {r : Nat} (e : p = .run o (.lock :: is) r) :
    q = .pending o := by
  cases h with
  | start o' => injection e with e1; rw [e1]
  | test o' g _ => injection e with _ e2; cases e2
  | act o' _ => injection e with _ e2; cases e2
  | bc o' bs r' => injection e with _ e2; cases bs <;> simp [bcs] at e2
  | fin o' r' => injection e with _ e2; cases e2
  | _ => cases e

end Eus.Syn
