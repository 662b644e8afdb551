import Verif.Rgc.Lemmas
/-!
# Every careful step keeps the invariant
-/

namespace Eus.Rgc
open Spec
variable {P : Params} {g : Ghost} {s s' : St}

theorem MG.mono (hm : ∀ a, s.mark a = true → s'.mark a = true) (hc : ∀ a ∈ s.cstk, a ∈ s'.cstk)
    (hp : ∀ a ∈ s.pstk, a ∈ s'.pstk) (hg : ∀ t, ∀ a ∈ s.gs t, a ∈ s'.gs t)
    (hco : s.phase = .core → s'.phase = .core ∧ s'.k = s.k ∧ s'.stk = s.stk) :
    ∀ a, MG P s a → MG P s' a := by
  intro a ha
  rcases ha with ha | ha | ha | ⟨t, ha⟩ | ⟨e, t, h1, h2, h3⟩
  · exact .inl (hm a ha)
  · exact .inr (.inl (hc a ha))
  · exact .inr (.inr (.inl (hp a ha)))
  · exact .inr (.inr (.inr (.inl ⟨t, hg t a ha⟩)))
  · obtain ⟨e1, e2, e3⟩ := hco e
    exact .inr (.inr (.inr (.inr ⟨e1, t, e2 ▸ h1, h2, e3 ▸ h3⟩)))

theorem mem_push1 {l : List Addr} {v : Option Addr} {a : Addr} :
    a ∈ push1 l v ↔ v = some a ∨ a ∈ l := by
  cases v <;> simp [push1, eq_comm]

theorem step_load (h : Inv P g s) {t o i} (e : act P s (.load t o i) = some s') : Inv P g s' := by
  simp only [act] at e
  split at e
  · rename_i hc
    simp only [Bool.and_eq_true, idle_iff, List.contains_iff_mem, decide_eq_true_eq] at hc
    obtain ⟨⟨⟨ht, hr, -⟩, ho⟩, hi⟩ := hc
    cases e
    refine inv_stk h ht hr _ (fun a ha => ?_)
    rcases mem_push1.1 ha with ha | ha
    · exact h.cl.kid o a i (h.cl.stk t ht o ho) ha hi
    · exact h.cl.stk t ht a ha
  · cases e

theorem step_loadRoot (h : Inv P g s) {t r} (e : act P s (.loadRoot t r) = some s') : Inv P g s' := by
  simp only [act] at e
  split at e
  · rename_i hc
    simp only [Bool.and_eq_true, idle_iff, List.contains_iff_mem] at hc
    obtain ⟨⟨ht, hr, -⟩, ho⟩ := hc
    cases e
    refine inv_stk h ht hr _ (fun a ha => ?_)
    rcases List.mem_cons.1 ha with ha | ha
    · exact ha ▸ h.cl.root r ho
    · exact h.cl.stk t ht a ha
  · cases e

theorem step_drop (h : Inv P g s) {t} (e : act P s (.drop t) = some s') : Inv P g s' := by
  simp only [act] at e
  split at e
  · rename_i hc
    simp only [idle_iff] at hc
    obtain ⟨ht, hr, -⟩ := hc
    cases e
    exact inv_stk h ht hr _ (fun a ha => h.cl.stk t ht a (List.mem_of_mem_tail ha))
  · cases e

/-- A thread that computes takes up or ends a store; `pstack` may grow. -/
theorem inv_pend (h : Inv P g s) {t : Tid} (ht : t < P.nT) (q : Pend) (ps : List Addr)
    (hps : ∀ a ∈ s.pstk, a ∈ ps) (hpU : ∀ a ∈ ps, g.U a)
    (hrun : q ≠ .none → s.stat t = .run)
    (h1 : ∀ o i v f, q = .checked o i v f → (g.U o ∧ i < s.size o ∧ ∀ a, v = some a → g.U a) ∧
      (s.phase.high = true → f = true))
    (h2 : ∀ o i v, q = .pushed o i v → (g.U o ∧ i < s.size o ∧ ∀ a, v = some a → g.U a) ∧
      (s.phase.high = true → ∀ a, R0 g o → i < g.s0.size o → g.s0.fld o i = some a →
        MG P { s with pstk := ps } a))
    (h3 : ∀ b w, q ≠ .taken b w) :
    Inv P g { s with pstk := ps, pend := upd s.pend t q } where
  cl := { h.cl with
    pstk := hpU
    chk := fun u hu o i v f e => by
      by_cases eu : u = t
      · subst eu; exact (h1 o i v f (by simpa [upd] using e)).1
      · exact h.cl.chk u hu o i v f (by simpa [upd, eu] using e)
    psh := fun u hu o i v e => by
      by_cases eu : u = t
      · subst eu; exact (h2 o i v (by simpa [upd] using e)).1
      · exact h.cl.psh u hu o i v (by simpa [upd, eu] using e)
    own := fun u hu b w e => by
      by_cases eu : u = t
      · subst eu; exact absurd (by simpa [upd] using e) (h3 b w)
      · exact h.cl.own u hu b w (by simpa [upd, eu] using e)
    own1 := fun u hu u' hu' b w w' e e' => by
      by_cases eu : u = t
      · subst eu; exact absurd (by simpa [upd] using e) (h3 b w)
      · by_cases eu' : u' = t
        · subst eu'; exact absurd (by simpa [upd] using e') (h3 b w')
        · exact h.cl.own1 u hu u' hu' b w w' (by simpa [upd, eu] using e) (by simpa [upd, eu'] using e')
    stop := fun u hu e => by
      by_cases eu : u = t
      · subst eu
        by_cases hq : q = .none
        · simp [upd, hq]
        · exact absurd (hrun hq) e
      · simpa [upd, eu] using h.cl.stop u hu e }
  mkg hp := by
    have m := h.mkg hp
    have hm : ∀ a, MG P s a → MG P { s with pstk := ps, pend := upd s.pend t q } a :=
      MG.mono (fun _ e => e) (fun _ e => e) hps (fun _ _ e => e) (fun e => ⟨e, rfl, rfl⟩)
    refine { h := m.h.frame hm (fun _ _ e => e) (fun _ _ _ => rfl) (fun _ _ => rfl) rfl
             p := ?_, o := ⟨m.o.ord, m.o.ordc, m.o.core⟩, rU := m.rU, split := m.split, fin := m.fin }
    exact {
      chk := fun u hu o i v f e => by
        by_cases eu : u = t
        · subst eu; exact (h1 o i v f (by simpa [upd] using e)).2 hp
        · exact m.p.chk u hu o i v f (by simpa [upd, eu] using e)
      psh := fun u hu o i v a e r z f => by
        by_cases eu : u = t
        · subst eu; exact (h2 o i v (by simpa [upd] using e)).2 hp a r z f
        · exact hm a (m.p.psh u hu o i v a (by simpa [upd, eu] using e) r z f)
      tk := fun u hu b w e => by
        by_cases eu : u = t
        · subst eu; exact absurd (by simpa [upd] using e) (h3 b w)
        · exact m.p.tk u hu b w (by simpa [upd, eu] using e) }
  sw hp := { h.sw hp with
    quiet := (h.sw hp).quiet
    tk := fun u hu b w e => by
      by_cases eu : u = t
      · subst eu; exact absurd (by simpa [upd] using e) (h3 b w)
      · exact (h.sw hp).tk u hu b w (by simpa [upd, eu] using e) }
  rest hp hq := { h.rest hp hq with quiet := (h.rest hp hq).quiet }

theorem running (h : Inv P g s) {t} (ht : t < P.nT) (hp : s.pend t ≠ .none) : s.stat t = .run := by
  by_cases e : s.stat t = .run
  · exact e
  · exact absurd (h.cl.stop t ht e) hp

theorem step_storeCheck (h : Inv P g s) {t o i v} (e : act P s (.storeCheck t o i v) = some s') :
    Inv P g s' := by
  simp only [act] at e
  split at e
  · rename_i hc
    simp only [Bool.and_eq_true, idle_iff, List.contains_iff_mem, decide_eq_true_eq] at hc
    obtain ⟨⟨⟨⟨ht, hr, -⟩, ho⟩, hi⟩, hv⟩ := hc
    cases e
    refine inv_pend h ht _ s.pstk (fun _ e => e) h.cl.pstk (fun _ => hr) ?_ ?_ (by simp)
    · intro o' i' v' f e
      injection e with e1 e2 e3 e4
      subst e1 e2 e3 e4
      refine ⟨⟨h.cl.stk t ht o ho, hi, ?_⟩, id⟩
      intro a ea
      subst ea
      exact h.cl.stk t ht a (by simpa [has] using hv)
    · intro _ _ _ e; cases e
  · cases e

theorem step_storePush (h : Inv P g s) {t} (e : act P s (.storePush t) = some s') : Inv P g s' := by
  simp only [act] at e
  split at e
  · rename_i o i v f hpe
    split at e
    · rename_i ht
      cases e
      have hU := h.cl.chk t ht o i v f hpe
      have hr := running h ht (by rw [hpe]; simp)
      refine inv_pend h ht _ _ ?_ ?_ (fun _ => hr) (by intro _ _ _ _ e; cases e) ?_ (by simp)
      · intro a ha
        split
        · exact mem_push1.2 (.inr ha)
        · exact ha
      · intro a ha
        split at ha
        · rcases mem_push1.1 ha with ha | ha
          · exact h.cl.kid o a i hU.1 ha hU.2.1
          · exact h.cl.pstk a ha
        · exact h.cl.pstk a ha
      · intro o' i' v' e
        injection e with e1 e2 e3
        subst e1 e2 e3
        refine ⟨hU, ?_⟩
        intro hp a hr0 hi hf
        have m := h.mkg hp
        have hft := m.p.chk t ht o i v f hpe
        subst hft
        rcases m.h.intact o i a hr0 hi hf with h1 | h1
        · exact .inr (.inr (.inl (mem_push1.2 (.inl h1))))
        · exact MG.mono (s := s) (s' := { s with pstk := push1 s.pstk (s.fld o i) }) (fun _ e => e)
            (fun _ e => e) (fun _ e => mem_push1.2 (.inr e)) (fun _ _ e => e) (fun e => ⟨e, rfl, rfl⟩) a h1
    · cases e
  · cases e

theorem inv_fld (h : Inv P g s) {o i} {v : Option Addr} (hv : ∀ b, v = some b → g.U b)
    (hk : s.phase.high = true → ∀ a, R0 g o → i < g.s0.size o → g.s0.fld o i = some a → MG P s a) :
    Inv P g { s with fld := upd s.fld o (upd (s.fld o) i v) } where
  cl := { h.cl with
    kid := fun a b j hU hf hj => by
      simp only [upd] at hf
      split at hf
      · rename_i ea
        subst ea
        simp only [upd] at hf
        split at hf
        · exact hv b hf
        · exact h.cl.kid a b j hU hf hj
      · exact h.cl.kid a b j hU hf hj }
  mkg hp := by
    have m := h.mkg hp
    exact { p := ⟨m.p.chk, m.p.psh, m.p.tk⟩, o := ⟨m.o.ord, m.o.ordc, m.o.core⟩, rU := m.rU
            split := m.split, fin := m.fin
            h := ⟨m.h.base, m.h.black, fun b j a hb hj hf => by
              show upd s.fld o (upd (s.fld o) i v) b j = some a ∨ _
              by_cases e : b = o ∧ j = i
              · obtain ⟨rfl, rfl⟩ := e
                exact .inr (hk hp a hb hj hf)
              · have : upd s.fld o (upd (s.fld o) i v) b j = s.fld b j := by
                  simp only [upd]
                  split
                  · rename_i eb
                    subst eb
                    exact if_neg (fun ej => e ⟨rfl, ej⟩)
                  · rfl
                rw [this]
                exact m.h.intact b j a hb hj hf, m.h.sz⟩ }
  sw hp := { h.sw hp with }
  rest hp hq := { h.rest hp hq with }

theorem step_storeWrite (h : Inv P g s) {t} (e : act P s (.storeWrite t) = some s') : Inv P g s' := by
  simp only [act] at e
  split at e
  · rename_i o i v hpe
    split at e
    · rename_i ht
      cases e
      have hU := h.cl.psh t ht o i v hpe
      have h2 := inv_fld h (o := o) (i := i) (v := v) hU.2.2
        (fun hp a hr hi hf => (h.mkg hp).p.psh t ht o i v a hpe hr hi hf)
      exact inv_pend h2 ht .none s.pstk (fun _ e => e) h.cl.pstk (fun e => absurd rfl e)
        (by intro _ _ _ _ e; cases e) (by intro _ _ _ e; cases e) (by simp)
    · cases e
  · cases e

theorem step_setHook (h : Inv P g s) {t o f} (e : act P s (.setHook t o f) = some s') : Inv P g s' := by
  simp only [act] at e
  split at e
  · cases e
    exact { cl := { h.cl with }
            mkg := fun hp => let m := h.mkg hp
              { p := ⟨m.p.chk, m.p.psh, m.p.tk⟩, o := ⟨m.o.ord, m.o.ordc, m.o.core⟩, rU := m.rU
                split := m.split, fin := m.fin, h := ⟨m.h.base, m.h.black, m.h.intact, m.h.sz⟩ }
            sw := fun hp => { h.sw hp with }
            rest := fun hp hq => { h.rest hp hq with } }
  · cases e

theorem inv_stat (h : Inv P g s) {t} (q : Stat) (hq : q ≠ .run → s.pend t = .none)
    (hc : s.phase = .core → q ≠ .run) : Inv P g { s with stat := upd s.stat t q } where
  cl := { h.cl with
    stop := fun u hu e => by
      by_cases eu : u = t
      · subst eu; exact hq (by simpa [upd] using e)
      · exact h.cl.stop u hu (by simpa [upd, eu] using e) }
  mkg hp := let m := h.mkg hp
    { p := ⟨m.p.chk, m.p.psh, m.p.tk⟩, rU := m.rU, split := m.split, fin := m.fin
      h := ⟨m.h.base, m.h.black, m.h.intact, m.h.sz⟩
      o := ⟨m.o.ord, m.o.ordc, fun e => ⟨(m.o.core e).1, (m.o.core e).2.1, fun u hu => by
        by_cases eu : u = t
        · subst eu; simpa [upd] using hc e
        · simpa [upd, eu] using (m.o.core e).2.2 u hu⟩⟩ }
  sw hp := { h.sw hp with }
  rest hp hq := { h.rest hp hq with }

theorem step_arrive (h : Inv P g s) {t} (e : act P s (.arrive t) = some s') : Inv P g s' := by
  simp only [act] at e
  split at e
  · rename_i hc
    simp only [Bool.and_eq_true, idle_iff] at hc
    cases e
    exact inv_stat h _ (fun _ => hc.1.2.2) (by simp)
  · cases e

theorem step_enter (h : Inv P g s) {t} (e : act P s (.enter t) = some s') : Inv P g s' := by
  simp only [act] at e
  split at e
  · rename_i hc
    simp only [idle_iff] at hc
    cases e
    exact inv_stat h _ (fun _ => hc.2.2) (by simp)
  · cases e

theorem step_exit (h : Inv P g s) {t} (hc : careful P s (.exit t) = true) (e : act P s (.exit t) = some s') :
    Inv P g s' := by
  simp only [act] at e
  split at e
  · cases e
    simp only [careful, Bool.and_eq_true, decide_eq_true_eq] at hc
    exact inv_stat h _ (by simp) (fun e => absurd e hc.2)
  · cases e

theorem step_request (h : Inv P g s) {t} (e : act P s (.request t) = some s') : Inv P g s' := by
  simp only [act] at e
  split at e
  · rename_i hc
    simp only [Bool.and_eq_true, idle_iff, decide_eq_true_eq] at hc
    obtain ⟨⟨ht, hr, hn⟩, hp⟩ := hc
    cases e
    have h1 := inv_stat h (t := t) .point (fun _ => hn) (by simp)
    have r := h.rest (by rw [hp]; rfl) (by rw [hp]; simp)
    exact { cl := { h1.cl with }
            mkg := fun e => by cases e
            sw := fun e => by cases e
            rest := fun _ _ => ⟨r.clean, r.quiet, fun _ => ⟨rfl, rfl⟩, fun e => by cases e⟩ }
  · cases e

theorem step_allocTake (h : Inv P g s) {t b} (e : act P s (.allocTake t b) = some s') :
    Inv P (gnext P g s (.allocTake t b)) s' := by
  simp only [act] at e
  split at e
  · rename_i hc
    simp only [Bool.and_eq_true, idle_iff, decide_eq_true_eq, List.all_eq_true, List.mem_range,
      Bool.not_eq_true'] at hc
    obtain ⟨⟨⟨⟨ht, hr, hn⟩, hb⟩, hl⟩, ho⟩ := hc
    have ho' : ∀ u < P.nT, ∀ w, s.pend u ≠ .taken b w := by
      intro u hu w e
      have := ho u hu
      rw [e] at this
      simp at this
    cases e
    have hR : ∀ a, R0 (gnext P g s (.allocTake t b)) a ↔ R0 g a := fun _ => Iff.rfl
    refine { cl := { h.cl with own := ?_, own1 := ?_, chk := ?_, psh := ?_, stop := ?_, fresh := ?_ }
             mkg := fun hp => ?_, sw := fun hp => ?_, rest := fun hp hq => { h.rest hp hq with } }
    · intro u hu o i v f e
      by_cases eu : u = t
      · subst eu; simp [upd] at e
      · exact h.cl.chk u hu o i v f (by simpa [upd, eu] using e)
    · intro u hu o i v e
      by_cases eu : u = t
      · subst eu; simp [upd] at e
      · exact h.cl.psh u hu o i v (by simpa [upd, eu] using e)
    · intro u hu c w e
      by_cases eu : u = t
      · subst eu
        simp only [upd, if_true, Pend.taken.injEq] at e
        obtain ⟨rfl, -⟩ := e
        exact ⟨hl, hb, .inr rfl⟩
      · have := h.cl.own u hu c w (by simpa [upd, eu] using e)
        exact ⟨this.1, this.2.1, .inl this.2.2⟩
    · intro u hu u' hu' c w w' e e'
      by_cases eu : u = t
      · by_cases eu' : u' = t
        · rw [eu, eu']
        · subst eu
          simp only [upd, if_true, Pend.taken.injEq] at e
          obtain ⟨rfl, -⟩ := e
          exact absurd (by simpa [upd, eu'] using e') (ho' u' hu' w')
      · by_cases eu' : u' = t
        · subst eu'
          simp only [upd, if_true, Pend.taken.injEq] at e'
          obtain ⟨rfl, -⟩ := e'
          exact absurd (by simpa [upd, eu] using e) (ho' u hu w)
        · exact h.cl.own1 u hu u' hu' c w w' (by simpa [upd, eu] using e) (by simpa [upd, eu'] using e')
    · intro u hu e
      by_cases eu : u = t
      · subst eu; exact absurd hr e
      · simpa [upd, eu] using h.cl.stop u hu e
    · intro a ha
      exact (h.cl.fresh a ha).imp id .inl
    · have m := h.mkg hp
      refine { p := ⟨?_, ?_, ?_⟩, o := ⟨m.o.ord, m.o.ordc, m.o.core⟩, rU := m.rU
               split := m.split, fin := m.fin, h := ⟨m.h.base, m.h.black, m.h.intact, m.h.sz⟩ }
      · intro u hu o i v f e
        by_cases eu : u = t
        · subst eu; simp [upd] at e
        · exact m.p.chk u hu o i v f (by simpa [upd, eu] using e)
      · intro u hu o i v a e
        by_cases eu : u = t
        · subst eu; simp [upd] at e
        · exact m.p.psh u hu o i v a (by simpa [upd, eu] using e)
      · intro u hu c w e
        by_cases eu : u = t
        · subst eu
          simp only [upd, if_true, Pend.taken.injEq] at e
          rw [← e.2]
          exact if_pos hp
        · exact m.p.tk u hu c w (by simpa [upd, eu] using e)
    · have w := h.sw hp
      refine { w with tk := ?_ }
      intro u hu c w' e
      by_cases eu : u = t
      · subst eu
        simp only [upd, if_true, Pend.taken.injEq] at e
        rw [← e.2]
        have hp' : s.phase = .sweep := hp
        simp [saw, hp', Phase.high]
      · exact w.tk u hu c w' (by simpa [upd, eu] using e)
  · cases e

end Eus.Rgc
