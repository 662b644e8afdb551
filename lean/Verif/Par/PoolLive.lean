import Verif.Par.PoolProofs
set_option autoImplicit false
/-
Who waits for `runsem`, what has become of the calls, and when nothing can move any more.
-/
namespace Eus.Par

/-- The port has been asked and has not posted `runsem` for it. -/
def pend : TPc → Nat → Nat
  | .t1, req => req
  | .t2, req => req
  | .t3, _ => 1
  | .t4, _ => 1
  | _, _ => 0

/-- As many calls wait for `runsem` of a port as it has been posted and is going to be posted. -/
def Pool.Ask (s : Pool) : Prop :=
  ∃ A : Nat → List Nat, ∀ p, (A p).Nodup ∧ (∀ c, c ∈ A p ↔ s.cpc c = .a6 p) ∧ (A p).length = s.run p + pend (s.tpc p) (s.req p)

structure Pool.Live (N : Nat) (s : Pool) : Prop where
  ask : s.Ask
  req : ∀ p c, s.owner p = some c → s.cpc c = .a2 p ∨ s.requester p = c
  kept : ∀ c, s.cpc c ≠ .new → s.cpc c ≠ .a0 → s.cpc c ≠ .a1 → (∃ v, (c, v) ∈ s.ran) ∨ ∃ p, s.owner p = some c
  bound : ∀ p, N ≤ p → s.tpc p = .t0 ∧ s.owner p = none

theorem Pool.live_init (N : Nat) : Pool.init.Live N where
  ask := ⟨fun _ => [], fun p => ⟨List.nodup_nil, fun c => by simp [Pool.init], rfl⟩⟩
  req p c h := by cases h
  kept c h := absurd rfl h
  bound p _ := ⟨rfl, rfl⟩

theorem Pool.ask_same {s s' : Pool} (h : s.Ask) (hc : ∀ c p, s'.cpc c = .a6 p ↔ s.cpc c = .a6 p)
    (hr : ∀ p, s'.run p + pend (s'.tpc p) (s'.req p) = s.run p + pend (s.tpc p) (s.req p)) : s'.Ask := by
  obtain ⟨A, hA⟩ := h
  exact ⟨A, fun p => ⟨(hA p).1, fun c => by rw [hc]; exact (hA p).2.1 c, by rw [hr]; exact (hA p).2.2⟩⟩

theorem a6_upd {f : Nat → CPc} {c : Nat} {x : CPc} (h : ∀ p, f c ≠ .a6 p) (hx : ∀ p, x ≠ .a6 p) : ∀ d p, upd f c x d = .a6 p ↔ f d = .a6 p := by
  intro d p
  by_cases e : d = c
  · subst e; rw [upd_self]; exact ⟨fun e => absurd e (hx p), fun e => absurd e (h p)⟩
  · rw [upd_ne _ _ e]

theorem Pool.ask_call {waits : Nat → Bool} {s s' : Pool} {c : Nat} (h : s.Inv waits) (ha : s.Ask) (hs : s.callStep waits c = some s') : s'.Ask := by
  cases hp : s.cpc c with
  | new => simp only [Pool.callStep, hp] at hs; cases hs
  | h p => simp only [Pool.callStep, hp] at hs; cases hs
  | fin v => simp only [Pool.callStep, hp] at hs; cases hs
  | err => simp only [Pool.callStep, hp] at hs; cases hs
  | a0 =>
    simp only [Pool.callStep, hp] at hs
    split at hs
    · cases hs; exact Pool.ask_same ha (a6_upd (by simp [hp]) (by simp)) fun p => rfl
    · cases hs
  | a1 =>
    simp only [Pool.callStep, hp] at hs
    cases hf : s.free with
    | nil => rw [hf] at hs; cases hs; exact Pool.ask_same ha (fun _ _ => Iff.rfl) fun p => rfl
    | cons q qs => rw [hf] at hs; cases hs; exact Pool.ask_same ha (a6_upd (by simp [hp]) (by simp)) fun p => rfl
  | a2 q => simp only [Pool.callStep, hp] at hs; cases hs; exact Pool.ask_same ha (a6_upd (by simp [hp]) (by simp)) fun p => rfl
  | a3 q => simp only [Pool.callStep, hp] at hs; cases hs; exact Pool.ask_same ha (a6_upd (by simp [hp]) (by simp)) fun p => rfl
  | a4 q => simp only [Pool.callStep, hp] at hs; cases hs; exact Pool.ask_same ha (a6_upd (by simp [hp]) (by simp)) fun p => rfl
  | a5 q =>
    simp only [Pool.callStep, hp] at hs
    cases hs
    have hown := h.call c
    rw [hp] at hown
    have hv := (h.serve q c hown).2
    rw [hp] at hv
    have ht : s.tpc q = .t1 ∨ s.tpc q = .t2 := by
      rcases hv with hv | hv | hv | hv | hv | hv | hv
      · exact hv.1
      · exact hv.1
      · simp [Sent] at hv
      · simp [Sent] at hv
      · simp [Sent] at hv
      · simp [Sent] at hv
      · simp [Sent] at hv
    obtain ⟨A, hA⟩ := ha
    refine ⟨upd A q (c :: A q), fun p => ?_⟩
    by_cases e : p = q
    · subst e
      simp only [upd_self]
      refine ⟨List.nodup_cons.mpr ⟨fun hm => ?_, (hA p).1⟩, fun d => ?_, ?_⟩
      · have := ((hA p).2.1 c).mp hm
        rw [hp] at this; cases this
      · by_cases ed : d = c
        · subst ed; simp [upd_self]
        · rw [upd_ne _ _ ed, ← (hA p).2.1 d]; simp [ed]
      · have := (hA p).2.2
        rw [List.length_cons, this]
        rcases ht with ht | ht <;> rw [ht] <;> simp only [pend] <;> omega
    · simp only [upd_ne _ _ e]
      refine ⟨(hA p).1, fun d => ?_, (hA p).2.2⟩
      by_cases ed : d = c
      · subst ed
        rw [upd_self, (hA p).2.1 d, hp]
        simp [Ne.symm e]
      · rw [upd_ne _ _ ed]; exact (hA p).2.1 d
  | a6 q =>
    simp only [Pool.callStep, hp] at hs
    split at hs
    · next hr =>
      cases hs
      obtain ⟨A, hA⟩ := ha
      have hm : c ∈ A q := ((hA q).2.1 c).mpr hp
      have hne : ∀ p, (if waits c then CPc.h q else .fin none) ≠ .a6 p := fun p => by split <;> simp
      refine ⟨upd A q ((A q).erase c), fun p => ?_⟩
      by_cases e : p = q
      · subst e
        simp only [upd_self]
        refine ⟨(hA p).1.erase c, fun d => ?_, ?_⟩
        · rw [(hA p).1.mem_erase_iff]
          by_cases ed : d = c
          · subst ed; simp [upd_self, hne]
          · rw [upd_ne _ _ ed, (hA p).2.1 d]; simp [ed]
        · have := (hA p).2.2
          rw [List.length_erase_of_mem hm, this]
          omega
      · simp only [upd_ne _ _ e]
        refine ⟨(hA p).1, fun d => ?_, (hA p).2.2⟩
        by_cases ed : d = c
        · subst ed
          rw [upd_self, (hA p).2.1 d, hp]
          simp [Ne.symm e, hne]
        · rw [upd_ne _ _ ed]; exact (hA p).2.1 d
    · cases hs
  | w0 q => simp only [Pool.callStep, hp] at hs; cases hs; exact Pool.ask_same ha (a6_upd (by simp [hp]) (fun p => by split <;> simp)) fun p => rfl
  | w1 q =>
    simp only [Pool.callStep, hp] at hs
    split at hs
    · cases hs; exact Pool.ask_same ha (a6_upd (by simp [hp]) (by simp)) fun p => rfl
    · cases hs
  | w2 q => simp only [Pool.callStep, hp] at hs; cases hs; exact Pool.ask_same ha (a6_upd (by simp [hp]) (by simp)) fun p => rfl
  | w3 q v =>
    simp only [Pool.callStep, hp] at hs
    cases hs
    have hown := h.call c
    rw [hp] at hown
    have hv := (h.serve q c hown.1).2
    rw [hp] at hv
    have ht : s.tpc q = .t10 := by
      rcases hv with hv | hv | hv | hv | hv | hv | hv
      · simp at hv
      · simp [Sent] at hv
      · simp [Sent] at hv
      · simp [Sent] at hv
      · simp [Sent] at hv
      · exact hv.1
      · simp [Sent] at hv
    refine Pool.ask_same ha (a6_upd (by simp [hp]) (by simp)) fun p => ?_
    simp only
    by_cases e : p = q
    · subst e; rw [ht]; simp only [pend]
    · rw [upd_ne _ _ e]

/-- What a port's request count is by the place of its thread. -/
theorem Pool.inv_req {waits : Nat → Bool} {s : Pool} {p : Nat} (h : s.Inv waits) :
    (s.tpc p = .t0 → s.req p = 0) ∧ (s.tpc p = .t2 → s.req p ≤ 1) := by
  cases ho : s.owner p with
  | none =>
    have := h.idle p ho
    exact ⟨fun _ => this.1, fun _ => by rw [this.1]; omega⟩
  | some c =>
    have hv := (h.serve p c ho).2
    unfold Serve at hv
    refine ⟨fun e => ?_, fun e => ?_⟩ <;> rw [e] at hv <;> rcases hv with hv | hv | hv | hv | hv | hv | hv <;>
      first
        | (simp at hv; done)
        | (have := hv.2.1; omega)

theorem Pool.ask_thr {waits : Nat → Bool} {s s' : Pool} {p v : Nat} (h : s.Inv waits) (ha : s.Ask) (hs : s.thrStep p v = some s') : s'.Ask := by
  have hq := Pool.inv_req (p := p) h
  have go : ∀ q, (q = p → s'.run q + pend (s'.tpc q) (s'.req q) = s.run q + pend (s.tpc q) (s.req q)) →
      (q ≠ p → s'.run q = s.run q ∧ s'.tpc q = s.tpc q ∧ s'.req q = s.req q) →
      s'.run q + pend (s'.tpc q) (s'.req q) = s.run q + pend (s.tpc q) (s.req q) := fun q h1 h2 => by
    by_cases e : q = p
    · exact h1 e
    · obtain ⟨a, b, c⟩ := h2 e
      rw [a, b, c]
  cases hp : s.tpc p with
  | t0 =>
    simp only [Pool.thrStep, hp] at hs
    cases hs
    exact Pool.ask_same ha (fun _ _ => Iff.rfl) fun q => go q (fun e => by subst e; simp only [upd_self, hp, pend, hq.1 hp]) (fun e => by simp only [upd_ne _ _ e]; simp)
  | t1 =>
    simp only [Pool.thrStep, hp] at hs
    cases hs
    exact Pool.ask_same ha (fun _ _ => Iff.rfl) fun q => go q (fun e => by subst e; simp only [upd_self, hp, pend]) (fun e => by simp only [upd_ne _ _ e]; simp)
  | t2 =>
    simp only [Pool.thrStep, hp] at hs
    split at hs
    · next hr =>
      cases hs
      have := hq.2 hp
      exact Pool.ask_same ha (fun _ _ => Iff.rfl) fun q => go q (fun e => by subst e; simp only [upd_self, hp, pend]; omega) (fun e => by simp only [upd_ne _ _ e]; simp)
    · cases hs
  | t3 =>
    simp only [Pool.thrStep, hp] at hs
    cases hs
    exact Pool.ask_same ha (fun _ _ => Iff.rfl) fun q => go q (fun e => by subst e; simp only [upd_self, hp, pend]) (fun e => by simp only [upd_ne _ _ e]; simp)
  | t4 =>
    simp only [Pool.thrStep, hp] at hs
    cases hs
    exact Pool.ask_same ha (fun _ _ => Iff.rfl) fun q => go q (fun e => by subst e; simp only [upd_self, hp, pend]) (fun e => by simp only [upd_ne _ _ e]; simp)
  | t5 =>
    simp only [Pool.thrStep, hp] at hs
    cases hs
    exact Pool.ask_same ha (fun _ _ => Iff.rfl) fun q => go q (fun e => by subst e; simp only [upd_self, hp, pend]) (fun e => by simp only [upd_ne _ _ e]; simp)
  | t6 c =>
    simp only [Pool.thrStep, hp] at hs
    cases hs
    exact Pool.ask_same ha (fun _ _ => Iff.rfl) fun q => go q (fun e => by subst e; simp only [upd_self, hp, pend]) (fun e => by simp only [upd_ne _ _ e]; simp)
  | t7 w =>
    simp only [Pool.thrStep, hp] at hs
    cases hs
    exact Pool.ask_same ha (fun _ _ => Iff.rfl) fun q => go q (fun e => by subst e; simp only [upd_self, hp, pend]) (fun e => by simp only [upd_ne _ _ e]; simp)
  | t8 =>
    simp only [Pool.thrStep, hp] at hs
    cases hs
    exact Pool.ask_same ha (fun _ _ => Iff.rfl) fun q => go q (fun e => by subst e; simp only [upd_self, hp]; split <;> simp only [pend]) (fun e => by simp only [upd_ne _ _ e]; simp)
  | t9 =>
    simp only [Pool.thrStep, hp] at hs
    cases hs
    exact Pool.ask_same ha (fun _ _ => Iff.rfl) fun q => go q (fun e => by subst e; simp only [upd_self, hp, pend]) (fun e => by simp only [upd_ne _ _ e]; simp)
  | t10 =>
    simp only [Pool.thrStep, hp] at hs
    split at hs
    · cases hs
      exact Pool.ask_same ha (fun _ _ => Iff.rfl) fun q => go q (fun e => by subst e; simp only [upd_self, hp, pend]) (fun e => by simp only [upd_ne _ _ e]; simp)
    · cases hs

/-- What a step of a call leaves alone. -/
theorem Pool.call_frame {waits : Nat → Bool} {s s' : Pool} {c : Nat} (hs : s.callStep waits c = some s') :
    s'.tpc = s.tpc ∧ s'.ran = s.ran ∧ s'.late = s.late ∧ (∀ d, d ≠ c → s'.cpc d = s.cpc d) ∧ s.cpc c ≠ .new ∧
    ((s'.owner = s.owner ∧ s.cpc c ≠ .a1 ∧ s'.cpc c ≠ .new ∧ s'.cpc c ≠ .a0) ∨
      ∃ p, s.cpc c = .a1 ∧ p ∈ s.free ∧ s'.owner = upd s.owner p (some c) ∧ s'.cpc c = .a2 p ∨ (s.free = [] ∧ s.cpc c = .a1 ∧ s'.owner = s.owner ∧ s'.cpc = s.cpc)) ∧
    (s'.requester = s.requester ∧ (∀ p, s.cpc c ≠ .a2 p) ∨ ∃ p, s.cpc c = .a2 p ∧ s'.requester = upd s.requester p c) := by
  have ne : ∀ x : CPc, ∀ d, d ≠ c → upd s.cpc c x d = s.cpc d := fun x d e => upd_ne _ _ e
  cases hp : s.cpc c with
  | new => simp only [Pool.callStep, hp] at hs; cases hs
  | h p => simp only [Pool.callStep, hp] at hs; cases hs
  | fin v => simp only [Pool.callStep, hp] at hs; cases hs
  | err => simp only [Pool.callStep, hp] at hs; cases hs
  | a0 =>
    simp only [Pool.callStep, hp] at hs
    split at hs
    · cases hs; exact ⟨rfl, rfl, rfl, ne _, by simp, Or.inl ⟨rfl, by simp, by simp [upd_self], by simp [upd_self]⟩, Or.inl ⟨rfl, by simp⟩⟩
    · cases hs
  | a1 =>
    simp only [Pool.callStep, hp] at hs
    cases hf : s.free with
    | nil => rw [hf] at hs; cases hs; exact ⟨rfl, rfl, rfl, fun _ _ => rfl, by simp, Or.inr ⟨0, Or.inr ⟨rfl, rfl, rfl, rfl⟩⟩, Or.inl ⟨rfl, by simp⟩⟩
    | cons q qs =>
      rw [hf] at hs; cases hs
      exact ⟨rfl, rfl, rfl, ne _, by simp, Or.inr ⟨q, Or.inl ⟨rfl, List.mem_cons_self, rfl, upd_self _ _ _⟩⟩, Or.inl ⟨rfl, by simp⟩⟩
  | a2 q =>
    simp only [Pool.callStep, hp] at hs; cases hs
    exact ⟨rfl, rfl, rfl, ne _, by simp, Or.inl ⟨rfl, by simp, by simp [upd_self], by simp [upd_self]⟩, Or.inr ⟨q, rfl, rfl⟩⟩
  | a3 q =>
    simp only [Pool.callStep, hp] at hs; cases hs
    exact ⟨rfl, rfl, rfl, ne _, by simp, Or.inl ⟨rfl, by simp, by simp [upd_self], by simp [upd_self]⟩, Or.inl ⟨rfl, by simp⟩⟩
  | a4 q =>
    simp only [Pool.callStep, hp] at hs; cases hs
    exact ⟨rfl, rfl, rfl, ne _, by simp, Or.inl ⟨rfl, by simp, by simp [upd_self], by simp [upd_self]⟩, Or.inl ⟨rfl, by simp⟩⟩
  | a5 q =>
    simp only [Pool.callStep, hp] at hs; cases hs
    exact ⟨rfl, rfl, rfl, ne _, by simp, Or.inl ⟨rfl, by simp, by simp [upd_self], by simp [upd_self]⟩, Or.inl ⟨rfl, by simp⟩⟩
  | a6 q =>
    simp only [Pool.callStep, hp] at hs
    split at hs
    · cases hs
      exact ⟨rfl, rfl, rfl, ne _, by simp, Or.inl ⟨rfl, by simp, by simp only [upd_self]; split <;> simp, by simp only [upd_self]; split <;> simp⟩, Or.inl ⟨rfl, by simp⟩⟩
    · cases hs
  | w0 q =>
    simp only [Pool.callStep, hp] at hs; cases hs
    exact ⟨rfl, rfl, rfl, ne _, by simp, Or.inl ⟨rfl, by simp, by simp only [upd_self]; split <;> simp, by simp only [upd_self]; split <;> simp⟩, Or.inl ⟨rfl, by simp⟩⟩
  | w1 q =>
    simp only [Pool.callStep, hp] at hs
    split at hs
    · cases hs; exact ⟨rfl, rfl, rfl, ne _, by simp, Or.inl ⟨rfl, by simp, by simp [upd_self], by simp [upd_self]⟩, Or.inl ⟨rfl, by simp⟩⟩
    · cases hs
  | w2 q =>
    simp only [Pool.callStep, hp] at hs; cases hs
    exact ⟨rfl, rfl, rfl, ne _, by simp, Or.inl ⟨rfl, by simp, by simp [upd_self], by simp [upd_self]⟩, Or.inl ⟨rfl, by simp⟩⟩
  | w3 q v =>
    simp only [Pool.callStep, hp] at hs; cases hs
    exact ⟨rfl, rfl, rfl, ne _, by simp, Or.inl ⟨rfl, by simp, by simp [upd_self], by simp [upd_self]⟩, Or.inl ⟨rfl, by simp⟩⟩

/-- A call that still has the first steps before it has no port. -/
theorem Pool.early_free {waits : Nat → Bool} {s : Pool} {c p : Nat} (h : s.Inv waits) (ho : s.owner p = some c) : s.cpc c ≠ .new ∧ s.cpc c ≠ .a0 ∧ s.cpc c ≠ .a1 :=
  (h.serve p c ho).2.early

theorem Pool.live_call {waits : Nat → Bool} {N : Nat} {s s' : Pool} {c : Nat} (h : s.Inv waits) (hl : s.Live N) (hs : s.callStep waits c = some s') : s'.Live N := by
  have ha := Pool.ask_call h hl.ask hs
  obtain ⟨f1, f2, f3, f4, f5, f6, f7⟩ := Pool.call_frame hs
  refine ⟨ha, ?_, ?_, ?_⟩
  · intro p d ho
    by_cases e : d = c
    · subst e
      rcases f6 with ⟨o1, o2, o3, o4⟩ | ⟨q, ⟨o1, o2, o3, o4⟩ | ⟨o1, o2, o3, o4⟩⟩
      · rw [o1] at ho
        rcases f7 with ⟨r1, r2⟩ | ⟨q, r1, r2⟩
        · rcases hl.req p d ho with hr | hr
          · exact absurd hr (r2 p)
          · right; rw [r1]; exact hr
        · have hq := h.call d
          rw [r1] at hq
          have := h.inj p q d ho hq
          subst this
          right; rw [r2]; exact upd_self _ _ _
      · rw [o3] at ho
        rcases upd_cases ho with ⟨e, _⟩ | ⟨_, ho⟩
        · left; rw [e]; exact o4
        · exact absurd o1 (Pool.early_free h ho).2.2
      · rw [o3] at ho
        exact absurd o2 (Pool.early_free h ho).2.2
    · rw [f4 d e]
      have hold : s.owner p = some d := by
        rcases f6 with ⟨o1, o2, o3, o4⟩ | ⟨q, ⟨o1, o2, o3, o4⟩ | ⟨o1, o2, o3, o4⟩⟩
        · rw [← o1]; exact ho
        · rw [o3] at ho
          rcases upd_cases ho with ⟨_, e'⟩ | ⟨_, ho⟩
          · cases e'; exact absurd rfl e
          · exact ho
        · rw [← o3]; exact ho
      rcases hl.req p d hold with hr | hr
      · exact Or.inl hr
      · right
        rcases f7 with ⟨r1, r2⟩ | ⟨q, r1, r2⟩
        · rw [r1]; exact hr
        · have hq := h.call c
          rw [r1] at hq
          have : p ≠ q := fun e' => by
            rw [e'] at hold
            rw [hq] at hold
            cases hold
            exact e rfl
          rw [r2, upd_ne _ _ this]; exact hr
  · intro d n1 n2 n3
    rw [f2]
    by_cases e : d = c
    · subst e
      rcases f6 with ⟨o1, o2, o3, o4⟩ | ⟨q, ⟨o1, o2, o3, o4⟩ | ⟨o1, o2, o3, o4⟩⟩
      · by_cases e0 : s.cpc d = .a0
        · exfalso
          simp only [Pool.callStep, e0] at hs
          split at hs
          · cases hs; exact n3 (upd_self _ _ _)
          · cases hs
        · rw [o1]; exact hl.kept d f5 e0 o2
      · right; exact ⟨q, by rw [o3]; exact upd_self _ _ _⟩
      · rw [o4] at n3; exact absurd o2 n3
    · rw [f4 d e] at n1 n2 n3
      rcases hl.kept d n1 n2 n3 with hk | ⟨p, hk⟩
      · exact Or.inl hk
      · right
        refine ⟨p, ?_⟩
        rcases f6 with ⟨o1, o2, o3, o4⟩ | ⟨q, ⟨o1, o2, o3, o4⟩ | ⟨o1, o2, o3, o4⟩⟩
        · rw [o1]; exact hk
        · have : p ≠ q := fun e' => (h.serve p d hk).1 (e' ▸ o2)
          rw [o3, upd_ne _ _ this]; exact hk
        · rw [o3]; exact hk
  · intro p hpN
    have hb := hl.bound p hpN
    rw [f1]
    refine ⟨hb.1, ?_⟩
    rcases f6 with ⟨o1, o2, o3, o4⟩ | ⟨q, ⟨o1, o2, o3, o4⟩ | ⟨o1, o2, o3, o4⟩⟩
    · rw [o1]; exact hb.2
    · have : p ≠ q := fun e => by
        subst e
        rcases h.idle p hb.2 with ⟨_, _, ⟨_, e⟩ | ⟨e, _⟩⟩
        · exact e o2
        · rw [hb.1] at e; simp at e
      rw [o3, upd_ne _ _ this]; exact hb.2
    · rw [o3]; exact hb.2

/-- What a step of a port's thread leaves alone. -/
theorem Pool.thr_frame {s s' : Pool} {p v : Nat} (hs : s.thrStep p v = some s') :
    s'.cpc = s.cpc ∧ s'.requester = s.requester ∧ (∀ q, q ≠ p → s'.tpc q = s.tpc q) ∧ (∀ x, x ∈ s.ran → x ∈ s'.ran) ∧
    ((s'.owner = s.owner ∧ s.tpc p ≠ .t0) ∨ (s.tpc p = .t0 ∧ s'.owner = upd s.owner p none)) ∧
    (s'.late = s.late ∨ (s.tpc p = .t3 ∧ (s.cpc (s.requester p) = .a6 p → s'.late = s.late))) := by
  have ne : ∀ x : TPc, ∀ q, q ≠ p → upd s.tpc p x q = s.tpc q := fun x q e => upd_ne _ _ e
  cases hp : s.tpc p with
  | t0 => simp only [Pool.thrStep, hp] at hs; cases hs; exact ⟨rfl, rfl, ne _, fun _ h => h, Or.inr ⟨rfl, rfl⟩, Or.inl rfl⟩
  | t1 => simp only [Pool.thrStep, hp] at hs; cases hs; exact ⟨rfl, rfl, ne _, fun _ h => h, Or.inl ⟨rfl, by simp⟩, Or.inl rfl⟩
  | t2 =>
    simp only [Pool.thrStep, hp] at hs
    split at hs
    · cases hs; exact ⟨rfl, rfl, ne _, fun _ h => h, Or.inl ⟨rfl, by simp⟩, Or.inl rfl⟩
    · cases hs
  | t3 => simp only [Pool.thrStep, hp] at hs; cases hs; exact ⟨rfl, rfl, ne _, fun _ h => h, Or.inl ⟨rfl, by simp⟩, Or.inr ⟨rfl, fun e => if_pos e⟩⟩
  | t4 => simp only [Pool.thrStep, hp] at hs; cases hs; exact ⟨rfl, rfl, ne _, fun _ h => h, Or.inl ⟨rfl, by simp⟩, Or.inl rfl⟩
  | t5 => simp only [Pool.thrStep, hp] at hs; cases hs; exact ⟨rfl, rfl, ne _, fun _ h => h, Or.inl ⟨rfl, by simp⟩, Or.inl rfl⟩
  | t6 c => simp only [Pool.thrStep, hp] at hs; cases hs; exact ⟨rfl, rfl, ne _, fun _ h => List.mem_append_left _ h, Or.inl ⟨rfl, by simp⟩, Or.inl rfl⟩
  | t7 w => simp only [Pool.thrStep, hp] at hs; cases hs; exact ⟨rfl, rfl, ne _, fun _ h => h, Or.inl ⟨rfl, by simp⟩, Or.inl rfl⟩
  | t8 => simp only [Pool.thrStep, hp] at hs; cases hs; exact ⟨rfl, rfl, ne _, fun _ h => h, Or.inl ⟨rfl, by simp⟩, Or.inl rfl⟩
  | t9 => simp only [Pool.thrStep, hp] at hs; cases hs; exact ⟨rfl, rfl, ne _, fun _ h => h, Or.inl ⟨rfl, by simp⟩, Or.inl rfl⟩
  | t10 =>
    simp only [Pool.thrStep, hp] at hs
    split at hs
    · cases hs; exact ⟨rfl, rfl, ne _, fun _ h => h, Or.inl ⟨rfl, by simp⟩, Or.inl rfl⟩
    · cases hs

theorem Pool.live_thr {waits : Nat → Bool} {N : Nat} {s s' : Pool} {p v : Nat} (h : s.Inv waits) (hl : s.Live N) (hN : p < N) (hs : s.thrStep p v = some s') : s'.Live N := by
  have ha := Pool.ask_thr h hl.ask hs
  obtain ⟨f1, f2, f3, f4, f5, _⟩ := Pool.thr_frame hs
  refine ⟨ha, ?_, ?_, ?_⟩
  · intro q c ho
    have : s.owner q = some c := by
      rcases f5 with ⟨e, _⟩ | ⟨_, e⟩
      · rw [← e]; exact ho
      · rw [e] at ho
        rcases upd_cases ho with ⟨_, e'⟩ | ⟨_, ho⟩
        · cases e'
        · exact ho
    rw [f1, f2]
    exact hl.req q c this
  · intro c n1 n2 n3
    rw [f1] at n1 n2 n3
    rcases hl.kept c n1 n2 n3 with ⟨w, hk⟩ | ⟨q, hk⟩
    · exact Or.inl ⟨w, f4 _ hk⟩
    · rcases f5 with ⟨e, _⟩ | ⟨e0, e⟩
      · right; exact ⟨q, by rw [e]; exact hk⟩
      · by_cases eq : q = p
        · subst eq
          have hv := (h.serve q c hk).2
          rw [e0] at hv
          rcases hv with hv | hv | hv | hv | hv | hv | hv
          · simp at hv
          · simp at hv
          · simp at hv
          · simp at hv
          · simp at hv
          · simp at hv
          · obtain ⟨_, _, _, w, hw, _⟩ := hv
            exact Or.inl ⟨w, f4 _ hw⟩
        · right; exact ⟨q, by rw [e, upd_ne _ _ eq]; exact hk⟩
  · intro q hq
    have hb := hl.bound q hq
    have e : q ≠ p := by omega
    rw [f3 q e]
    refine ⟨hb.1, ?_⟩
    rcases f5 with ⟨e', _⟩ | ⟨_, e'⟩
    · rw [e']; exact hb.2
    · rw [e', upd_ne _ _ e]; exact hb.2

theorem Pool.live_move {N : Nat} {s : Pool} {c : Nat} {x : CPc} (hl : s.Live N) (ha : ∀ p, s.cpc c ≠ .a6 p) (hx : ∀ p, x ≠ .a6 p)
    (h2 : ∀ p, s.cpc c ≠ .a2 p) (hk : x ≠ .new → x ≠ .a0 → x ≠ .a1 → s.cpc c ≠ .new ∧ s.cpc c ≠ .a0 ∧ s.cpc c ≠ .a1) : Pool.Live N { s with cpc := upd s.cpc c x } where
  ask := Pool.ask_same hl.ask (a6_upd ha hx) fun _ => rfl
  req p d ho := by
    simp only at ho ⊢
    rcases hl.req p d ho with hr | hr
    · by_cases e : d = c
      · subst e; exact absurd hr (h2 p)
      · left; rw [upd_ne _ _ e]; exact hr
    · exact Or.inr hr
  kept d n1 n2 n3 := by
    simp only at n1 n2 n3 ⊢
    by_cases e : d = c
    · subst e
      rw [upd_self] at n1 n2 n3
      obtain ⟨k1, k2, k3⟩ := hk n1 n2 n3
      exact hl.kept d k1 k2 k3
    · rw [upd_ne _ _ e] at n1 n2 n3
      exact hl.kept d n1 n2 n3
  bound := hl.bound

theorem Pool.live_step {waits : Nat → Bool} {N : Nat} {s s' : Pool} {e : Ev} (h : s.Inv waits) (hl : s.Live N) (he : ∀ c p, e ≠ .again c p)
    (hN : ∀ p v, e = .thr p v → p < N) (hs : s.step waits e = some s') : s'.Live N := by
  cases e with
  | call c =>
    simp only [Pool.step] at hs
    split at hs
    · next hp =>
      cases hs
      exact Pool.live_move hl (by simp [hp]) (by simp) (by simp [hp]) (by simp)
    · cases hs
  | go c => exact Pool.live_call h hl hs
  | thr p v => exact Pool.live_thr h hl (hN p v rfl) hs
  | wait c =>
    cases hp : s.cpc c with
    | h p =>
      simp only [Pool.step, hp] at hs
      cases hs
      exact Pool.live_move hl (by simp [hp]) (by simp) (by simp [hp]) (by simp [hp])
    | _ => simp only [Pool.step, hp] at hs; cases hs
  | again c p => exact absurd rfl (he c p)

theorem Pool.late_step {waits : Nat → Bool} {N : Nat} {s s' : Pool} {e : Ev} (hw : ∀ c, waits c = true) (h : s.Inv waits) (hl : s.Live N) (he : ∀ c p, e ≠ .again c p)
    (hs : s.step waits e = some s') : s'.late = s.late := by
  cases e with
  | call c =>
    simp only [Pool.step] at hs
    split at hs
    · cases hs; rfl
    · cases hs
  | go c => exact (Pool.call_frame hs).2.2.1
  | thr p v =>
    rcases (Pool.thr_frame hs).2.2.2.2.2 with e | ⟨ht, e⟩
    · exact e
    · apply e
      obtain ⟨A, hA⟩ := hl.ask
      have hlen := (hA p).2.2
      rw [ht] at hlen
      have hpos : 0 < (A p).length := by simp only [pend] at hlen; omega
      obtain ⟨d, hd⟩ := List.exists_mem_of_length_pos hpos
      have hd := ((hA p).2.1 d).mp hd
      have ho := h.call d
      rw [hd] at ho
      have ho : s.owner p = some d := ho (hw d)
      rcases hl.req p d ho with hr | hr
      · rw [hd] at hr; cases hr
      · rw [hr]; exact hd
  | wait c =>
    cases hp : s.cpc c with
    | h p => simp only [Pool.step, hp] at hs; cases hs; rfl
    | _ => simp only [Pool.step, hp] at hs; cases hs
  | again c p => exact absurd rfl (he c p)

theorem Pool.live_exec {waits : Nat → Bool} {N : Nat} (es : List Ev) : ∀ s s' : Pool, s.Inv waits → s.Live N → Proper es → Uses N es → Pool.exec waits es s = some s' →
    s'.Live N ∧ ((∀ c, waits c = true) → s'.late = s.late) := by
  induction es with
  | nil => intro s s' _ h _ _ e; cases e; exact ⟨h, fun _ => rfl⟩
  | cons e es ih =>
    intro s s' h hl hh hu hr
    simp only [Pool.exec] at hr
    cases hs : s.step waits e with
    | none => rw [hs] at hr; cases hr
    | some q =>
      rw [hs] at hr
      have h1 := Pool.inv_step h (hh e List.mem_cons_self) hs
      have h2 := Pool.live_step h hl (hh e List.mem_cons_self) (hu e List.mem_cons_self) hs
      obtain ⟨h3, h4⟩ := ih q s' h1 h2 (fun x hx => hh x (List.mem_cons_of_mem _ hx)) (fun x hx => hu x (List.mem_cons_of_mem _ hx)) hr
      exact ⟨h3, fun hw => (h4 hw).trans (Pool.late_step hw h hl (hh e List.mem_cons_self) hs)⟩

/-! ### When nothing can move -/

theorem Pool.rest_thr {waits : Nat → Bool} {N : Nat} {s : Pool} (hl : s.Live N) (hr : s.Rest waits N) {p c : Nat} (ho : s.owner p = some c) :
    (s.tpc p = .t2 ∨ s.tpc p = .t10) ∧ s.req p = 0 := by
  have hN : p < N := by
    apply Decidable.byContradiction
    intro e
    have := (hl.bound p (by omega)).2
    rw [ho] at this; cases this
  have : s.thrStep p 0 = none := hr.2 p hN 0
  cases ht : s.tpc p <;> simp only [Pool.thrStep, ht] at this
  all_goals first
    | cases this
    | (split at this
       · cases this
       · exact ⟨by simp, by omega⟩)

/-- A call at rest, by where its port is. -/
theorem Pool.rest_call {waits : Nat → Bool} {N : Nat} {s : Pool} (h : s.Inv waits) (hl : s.Live N) (hr : s.Rest waits N) (c : Nat) :
    s.cpc c = .new ∨ (∃ v, s.cpc c = .fin v) ∨ (∃ p, s.cpc c = .h p) ∨ s.cpc c = .a0 := by
  have hn : s.callStep waits c = none := hr.1 c
  have hc := h.call c
  cases hp : s.cpc c with
  | new => simp
  | fin v => simp
  | h p => simp
  | a0 => simp
  | a1 =>
    simp only [Pool.callStep, hp] at hn
    cases hf : s.free <;> rw [hf] at hn <;> cases hn
  | a2 p => simp only [Pool.callStep, hp] at hn; cases hn
  | a3 p => simp only [Pool.callStep, hp] at hn; cases hn
  | a4 p => simp only [Pool.callStep, hp] at hn; cases hn
  | a5 p => simp only [Pool.callStep, hp] at hn; cases hn
  | w0 p => simp only [Pool.callStep, hp] at hn; cases hn
  | w2 p => simp only [Pool.callStep, hp] at hn; cases hn
  | w3 p v => simp only [Pool.callStep, hp] at hn; cases hn
  | err => rw [hp] at hc; exact hc.elim
  | a6 p =>
    simp only [Pool.callStep, hp] at hn
    split at hn
    · cases hn
    · next hrun =>
      exfalso
      obtain ⟨A, hA⟩ := hl.ask
      have hm : c ∈ A p := ((hA p).2.1 c).mpr hp
      have hlen := (hA p).2.2
      have hpos := List.length_pos_of_mem hm
      have hpend : 0 < pend (s.tpc p) (s.req p) := by omega
      have hN : p < N := by
        apply Decidable.byContradiction
        intro e
        have := (hl.bound p (by omega)).1
        rw [this] at hpend; simp [pend] at hpend
      have ht : s.thrStep p 0 = none := hr.2 p hN 0
      cases e : s.tpc p <;> rw [e] at hpend <;> simp only [pend] at hpend <;> simp only [Pool.thrStep, e] at ht
      all_goals first
        | cases ht
        | omega
        | (split at ht
           · cases ht
           · omega)
  | w1 p =>
    simp only [Pool.callStep, hp] at hn
    split at hn
    · cases hn
    · next hd =>
      exfalso
      rw [hp] at hc
      obtain ⟨t1, t2⟩ := Pool.rest_thr hl hr hc.1
      have hv := (h.serve p c hc.1).2
      rw [hp] at hv
      rcases hv with hv | ⟨_, hv, _⟩ | ⟨hv, _⟩ | ⟨⟨w, hv, _⟩, _⟩ | ⟨hv, _⟩ | ⟨_, _, _, _, hv⟩ | ⟨hv, _⟩
      · simp at hv
      · omega
      · rcases t1 with t1 | t1 <;> rw [t1] at hv <;> simp at hv
      · rcases t1 with t1 | t1 <;> rw [t1] at hv <;> simp at hv
      · rcases t1 with t1 | t1 <;> rw [t1] at hv <;> simp at hv
      · rcases hv with ⟨hv, _⟩ | ⟨_, _, hv⟩ | ⟨_, _, hv⟩
        · omega
        · simp at hv
        · simp at hv
      · rcases t1 with t1 | t1 <;> rw [t1] at hv <;> simp at hv

/-- A port at rest that has been taken for a call: its thread has run the call, the call has its port, and nobody has waited for it. -/
theorem Pool.rest_port {waits : Nat → Bool} {N : Nat} {s : Pool} (h : s.Inv waits) (hl : s.Live N) (hr : s.Rest waits N) {p c : Nat} (ho : s.owner p = some c) :
    s.cpc c = .h p ∧ ∃ v, (c, v) ∈ s.ran := by
  obtain ⟨t1, t2⟩ := Pool.rest_thr hl hr ho
  have hv := (h.serve p c ho).2
  have hrc := Pool.rest_call h hl hr c
  rcases hv with ⟨_, _, _, _, hv⟩ | ⟨_, hv, _⟩ | ⟨hv, _⟩ | ⟨⟨w, hv, _⟩, _⟩ | ⟨hv, _⟩ | ⟨_, hw, hran, _, hv⟩ | ⟨hv, _⟩
  · exfalso
    rcases hv with hv | hv | ⟨hv, _⟩ | ⟨hv, _⟩ <;> rw [hv] at hrc <;> simp at hrc
  · omega
  · rcases t1 with t1 | t1 <;> rw [t1] at hv <;> simp at hv
  · rcases t1 with t1 | t1 <;> rw [t1] at hv <;> simp at hv
  · rcases t1 with t1 | t1 <;> rw [t1] at hv <;> simp at hv
  · rcases hv with ⟨_, _, hv⟩ | ⟨_, _, hv | hv⟩ | ⟨_, hv, _⟩
    · rcases hv with hv | ⟨_, hv | hv | hv⟩ | ⟨hv, _⟩
      · rw [hv] at hrc; simp at hrc
      · exact ⟨hv, _, hran⟩
      · rw [hv] at hrc; simp at hrc
      · rw [hv] at hrc; simp at hrc
      · rw [hw] at hv; cases hv
    · rw [hv] at hrc; simp at hrc
    · rw [hv] at hrc; simp at hrc
    · omega
  · rcases t1 with t1 | t1 <;> rw [t1] at hv <;> simp at hv

/-- A call that waits for a port when everything is at rest: every port is kept by a call whose result nobody has asked for. -/
theorem Pool.rest_a0 {waits : Nat → Bool} {N : Nat} {s : Pool} (h : s.Inv waits) (hl : s.Live N) (hr : s.Rest waits N) {c : Nat} (hc : s.cpc c = .a0) {p : Nat} (hp : p < N) :
    ∃ d, s.cpc d = .h p := by
  have hf : s.freeSem = 0 := by
    have : s.callStep waits c = none := hr.1 c
    simp only [Pool.callStep, hc] at this
    split at this
    · cases this
    · omega
  have hpo : s.poppers = [] := by
    cases e : s.poppers with
    | nil => rfl
    | cons d ds =>
      have hd := (h.pops d).mp (by rw [e]; exact List.mem_cons_self)
      have := Pool.rest_call h hl hr d
      rw [hd] at this; simp at this
  have hqo : s.posters = [] := by
    cases e : s.posters with
    | nil => rfl
    | cons q qs =>
      have hd := (h.posts q).mp (by rw [e]; exact List.mem_cons_self)
      have hN : q < N := by
        apply Decidable.byContradiction
        intro e
        have := (hl.bound q (by omega)).1
        rw [hd] at this; cases this
      have : s.thrStep q 0 = none := hr.2 q hN 0
      simp only [Pool.thrStep, hd] at this
      cases this
  have hfree : s.free = [] := by
    have := h.enough
    rw [hf, hpo, hqo] at this
    exact List.length_eq_zero_iff.mp this.symm
  cases ho : s.owner p with
  | some d => exact ⟨d, (Pool.rest_port h hl hr ho).1⟩
  | none =>
    exfalso
    rcases h.idle p ho with ⟨_, _, ⟨e, _⟩ | ⟨_, e⟩⟩
    · have : s.thrStep p 0 = none := hr.2 p hp 0
      simp only [Pool.thrStep, e] at this
      cases this
    · rw [hfree] at e; cases e

end Eus.Par
