import Verif.Rgc.Step2
/-!
# Every careful step keeps the invariant: marking and sweeping
-/

namespace Eus.Rgc
open Spec
variable {P : Params} {g : Ghost} {s s' : St}

/-- A step of the marker. -/
theorem inv_mark (h : Inv P g s) (hp : s.phase = .mark) (mk' : Addr → Bool) (cs : List Addr)
    (sc : Option (Addr × Nat)) (gs' : Nat → List Addr) (ps : List Addr) (cu : Nat) (ch : Bool)
    (hmk : ∀ a, s.mark a = true → mk' a = true) (hmU : ∀ a, mk' a = true → g.U a)
    (hcs : ∀ a ∈ cs, g.U a) (hsc : ∀ p i, sc = some (p, i) → g.U p)
    (hgs : ∀ t, ∀ a ∈ gs' t, a ∈ s.gs t) (hps : ∀ a ∈ ps, a ∈ s.pstk)
    (hg : ∀ a, MG P s a → mk' a = true ∨ a ∈ cs ∨ a ∈ ps ∨ ∃ t, a ∈ gs' t)
    (hb : ∀ b i a, R0 g b → i < g.s0.size b → g.s0.fld b i = some a → mk' b = true →
      (∀ j, sc = some (b, j) → i < j) → mk' a = true ∨ a ∈ cs ∨ a ∈ ps ∨ ∃ t, a ∈ gs' t)
    (ho : ∀ t < cu, gs' t = []) (hoc : ch = true → ∀ t, gs' t = []) :
    Inv P g { s with mark := mk', cstk := cs, scan := sc, gs := gs', pstk := ps, cur := cu, chk := ch } := by
  have m := h.mkg (by rw [hp]; rfl)
  have e4 : ∀ a, (mk' a = true ∨ a ∈ cs ∨ a ∈ ps ∨ ∃ t, a ∈ gs' t) →
      MG P { s with mark := mk', cstk := cs, scan := sc, gs := gs', pstk := ps, cur := cu, chk := ch } a := by
    rintro a (ha | ha | ha | ha)
    · exact .inl ha
    · exact .inr (.inl ha)
    · exact .inr (.inr (.inl ha))
    · exact .inr (.inr (.inr (.inl ha)))
  refine { cl := { h.cl with
                    cstk := hcs, gs := fun t a ha => h.cl.gs t a (hgs t a ha)
                    pstk := fun a ha => h.cl.pstk a (hps a ha), markU := hmU, scanU := hsc
                    gsT := ?_ }
           mkg := fun _ => ?_
           sw := fun e => (by rw [show s.phase = _ from e] at hp; cases hp)
           rest := fun e => (by have e' : s.phase.high = false := e; rw [hp] at e'; cases e') }
  · intro t ht
    refine List.eq_nil_iff_forall_not_mem.2 (fun a ha => ?_)
    have := hgs t a ha
    rw [h.cl.gsT t ht] at this; cases this
  · exact { h := ⟨fun a ha => e4 a (hg a (m.h.base a ha)), fun b i a h1 h2 h3 h4 h5 => e4 a (hb b i a h1 h2 h3 h4 h5),
                  fun b i a h1 h2 h3 => (m.h.intact b i a h1 h2 h3).imp id (fun x => e4 a (hg a x)), m.h.sz⟩
            p := ⟨m.p.chk, fun t ht o i v a e r z f => e4 a (hg a (m.p.psh t ht o i v a e r z f)), m.p.tk⟩
            o := ⟨ho, hoc, fun e => (by rw [show s.phase = _ from e] at hp; cases hp)⟩
            rU := m.rU, split := fun a ha => (m.split a ha).imp id (hmk a)
            fin := fun e => (by rw [show s.phase = _ from e] at hp; cases hp) }

/-- Gray or marked, outside the root scan. -/
theorem MG4 (hp : s.phase = .mark) {a} (h : MG P s a) :
    s.mark a = true ∨ a ∈ s.cstk ∨ a ∈ s.pstk ∨ ∃ t, a ∈ s.gs t := by
  rcases h with h | h | h | h | h
  · exact .inl h
  · exact .inr (.inl h)
  · exact .inr (.inr (.inl h))
  · exact .inr (.inr (.inr h))
  · rw [hp] at h; cases h.1

theorem step_markPop (h : Inv P g s) (e : act P s .markPop = some s') : Inv P g s' := by
  simp only [act] at e
  split at e
  case isFalse => cases e
  rename_i hc
  obtain ⟨hp, hs⟩ := hc
  have m := h.mkg (by rw [hp]; rfl)
  split at e
  · cases e
  · rename_i p r hcs
    split at e
    · rename_i hm
      cases e
      have key : ∀ a, MG P s a → s.mark a = true ∨ a ∈ r ∨ a ∈ s.pstk ∨ ∃ t, a ∈ s.gs t := by
        intro a ha
        rcases MG4 hp ha with h1 | h1 | h1
        · exact .inl h1
        · rw [hcs] at h1
          rcases List.mem_cons.1 h1 with h1 | h1
          · exact .inl (h1 ▸ hm)
          · exact .inr (.inl h1)
        · exact .inr (.inr h1)
      exact inv_mark h hp s.mark r s.scan s.gs s.pstk s.cur s.chk (fun _ e => e) h.cl.markU
        (fun a ha => h.cl.cstk a (by rw [hcs]; exact List.mem_cons_of_mem _ ha)) h.cl.scanU
        (fun _ _ e => e) (fun _ e => e) key
        (fun b i a h1 h2 h3 h4 h5 => key a (m.h.black b i a h1 h2 h3 h4 h5)) m.o.ord m.o.ordc
    · rename_i hm
      cases e
      have hpU : g.U p := h.cl.cstk p (by rw [hcs]; exact List.mem_cons_self)
      have key : ∀ a, MG P s a → upd s.mark p true a = true ∨ a ∈ r ∨ a ∈ s.pstk ∨ ∃ t, a ∈ s.gs t := by
        intro a ha
        by_cases ea : a = p
        · exact .inl (by simp [upd, ea])
        · rcases MG4 hp ha with h1 | h1 | h1
          · exact .inl (by simpa [upd, ea] using h1)
          · rw [hcs] at h1
            rcases List.mem_cons.1 h1 with h1 | h1
            · exact absurd h1 ea
            · exact .inr (.inl h1)
          · exact .inr (.inr h1)
      refine inv_mark h hp (upd s.mark p true) r (some (p, 0)) s.gs s.pstk s.cur s.chk ?_ ?_
        (fun a ha => h.cl.cstk a (by rw [hcs]; exact List.mem_cons_of_mem _ ha)) ?_
        (fun _ _ e => e) (fun _ e => e) key ?_ m.o.ord m.o.ordc
      · intro a ha
        by_cases ea : a = p
        · simp [upd, ea]
        · simpa [upd, ea] using ha
      · intro a ha
        by_cases ea : a = p
        · exact ea ▸ hpU
        · exact h.cl.markU a (by simpa [upd, ea] using ha)
      · intro q i e
        injection e with e
        injection e with e1 e2
        exact e1 ▸ hpU
      · intro b i a h1 h2 h3 h4 h5
        by_cases eb : b = p
        · exact absurd (h5 0 (by rw [eb])) (by omega)
        · exact key a (m.h.black b i a h1 h2 h3 (by simpa [upd, eb] using h4) (fun j e => by rw [hs] at e; cases e))

theorem step_markSlot (h : Inv P g s) (e : act P s .markSlot = some s') : Inv P g s' := by
  simp only [act] at e
  split at e
  case isFalse => cases e
  rename_i hp
  have m := h.mkg (by rw [hp]; rfl)
  split at e
  · cases e
  · rename_i p i hs
    have hpU := h.cl.scanU p i hs
    split at e
    · rename_i hi
      cases e
      have key : ∀ a, MG P s a → s.mark a = true ∨ a ∈ push1 s.cstk (s.fld p i) ∨ a ∈ s.pstk ∨ ∃ t, a ∈ s.gs t := by
        intro a ha
        rcases MG4 hp ha with h1 | h1 | h1
        · exact .inl h1
        · exact .inr (.inl (mem_push1.2 (.inr h1)))
        · exact .inr (.inr h1)
      refine inv_mark h hp s.mark _ (some (p, i + 1)) s.gs s.pstk s.cur s.chk (fun _ e => e) h.cl.markU
        ?_ ?_ (fun _ _ e => e) (fun _ e => e) key ?_ m.o.ord m.o.ordc
      · intro a ha
        rcases mem_push1.1 ha with ha | ha
        · exact h.cl.kid p a i hpU ha hi
        · exact h.cl.cstk a ha
      · intro q j e
        injection e with e
        injection e with e1 e2
        exact e1 ▸ hpU
      · intro b j a h1 h2 h3 h4 h5
        by_cases eb : b = p ∧ j = i
        · obtain ⟨rfl, rfl⟩ := eb
          rcases m.h.intact b j a h1 h2 h3 with h6 | h6
          · exact .inr (.inl (mem_push1.2 (.inl h6)))
          · exact key a h6
        · refine key a (m.h.black b j a h1 h2 h3 h4 (fun j' e => ?_))
          rw [hs] at e
          injection e with e
          injection e with e1 e2
          subst e1 e2
          have h7 := h5 (i + 1) rfl
          have h8 : j ≠ i := fun x => eb ⟨rfl, x⟩
          omega
    · rename_i hi
      cases e
      refine inv_mark h hp s.mark s.cstk none s.gs s.pstk s.cur s.chk (fun _ e => e) h.cl.markU
        h.cl.cstk (by simp) (fun _ _ e => e) (fun _ e => e) (fun a ha => MG4 hp ha) ?_ m.o.ord m.o.ordc
      intro b j a h1 h2 h3 h4 _
      refine MG4 hp (m.h.black b j a h1 h2 h3 h4 (fun j' e => ?_))
      rw [hs] at e
      injection e with e
      injection e with e1 e2
      subst e1 e2
      have := m.h.sz p h1
      omega

theorem step_markRoot (h : Inv P g s) (e : act P s .markRoot = some s') : Inv P g s' := by
  simp only [act] at e
  split at e
  case isFalse => cases e
  rename_i hc
  obtain ⟨hp, hs, hcs, hch⟩ := hc
  have m := h.mkg (by rw [hp]; rfl)
  have hbl : ∀ b i a, R0 g b → i < g.s0.size b → g.s0.fld b i = some a → s.mark b = true → MG P s a :=
    fun b i a h1 h2 h3 h4 => m.h.black b i a h1 h2 h3 h4 (fun j e => by rw [hs] at e; cases e)
  split at e
  · rename_i hcur
    split at e
    · rename_i hg
      cases e
      refine inv_mark h hp s.mark s.cstk s.scan s.gs s.pstk (s.cur + 1) s.chk (fun _ e => e) h.cl.markU
        h.cl.cstk h.cl.scanU (fun _ _ e => e) (fun _ e => e) (fun a ha => MG4 hp ha)
        (fun b i a h1 h2 h3 h4 _ => MG4 hp (hbl b i a h1 h2 h3 h4)) ?_ m.o.ordc
      intro t ht
      by_cases et : t = s.cur
      · rw [et]; exact hg
      · exact m.o.ord t (by omega)
    · rename_i p r hg
      cases e
      have key : ∀ a, MG P s a → s.mark a = true ∨ a ∈ [p] ∨ a ∈ s.pstk ∨ ∃ t, a ∈ upd s.gs s.cur r t := by
        intro a ha
        rcases MG4 hp ha with h1 | h1 | h1 | ⟨t, h1⟩
        · exact .inl h1
        · rw [hcs] at h1; cases h1
        · exact .inr (.inr (.inl h1))
        · by_cases et : t = s.cur
          · subst et
            rw [hg] at h1
            rcases List.mem_cons.1 h1 with h1 | h1
            · exact .inr (.inl (by simp [h1]))
            · exact .inr (.inr (.inr ⟨s.cur, by simpa [upd] using h1⟩))
          · exact .inr (.inr (.inr ⟨t, by simpa [upd, et] using h1⟩))
      refine inv_mark h hp s.mark [p] s.scan (upd s.gs s.cur r) s.pstk s.cur s.chk (fun _ e => e) h.cl.markU
        ?_ h.cl.scanU ?_ (fun _ e => e) key
        (fun b i a h1 h2 h3 h4 _ => key a (hbl b i a h1 h2 h3 h4)) ?_ ?_
      · intro a ha
        rw [List.mem_singleton] at ha
        subst ha
        exact h.cl.gs s.cur a (by rw [hg]; exact List.mem_cons_self)
      · intro t a ha
        by_cases et : t = s.cur
        · subst et
          rw [hg]
          exact List.mem_cons_of_mem _ (by simpa [upd] using ha)
        · simpa [upd, et] using ha
      · intro t ht
        have et : t ≠ s.cur := by omega
        simpa [upd, et] using m.o.ord t ht
      · intro e; rw [hch] at e; cases e
  · rename_i hcur
    cases e
    refine inv_mark h hp s.mark s.cstk s.scan s.gs s.pstk s.cur true (fun _ e => e) h.cl.markU
      h.cl.cstk h.cl.scanU (fun _ _ e => e) (fun _ e => e) (fun a ha => MG4 hp ha)
      (fun b i a h1 h2 h3 h4 _ => MG4 hp (hbl b i a h1 h2 h3 h4)) m.o.ord ?_
    intro _ t
    rcases Nat.lt_or_ge t s.cur with ht | ht
    · exact m.o.ord t ht
    · exact h.cl.gsT t (by omega)

theorem step_markPstk (h : Inv P g s) (e : act P s .markPstk = some s') : Inv P g s' := by
  simp only [act] at e
  split at e
  case isFalse => cases e
  rename_i hc
  obtain ⟨hp, hs, hcs, hch⟩ := hc
  have m := h.mkg (by rw [hp]; rfl)
  split at e
  · cases e
  · rename_i p r hg
    cases e
    have key : ∀ a, MG P s a → s.mark a = true ∨ a ∈ [p] ∨ a ∈ r ∨ ∃ t, a ∈ s.gs t := by
      intro a ha
      rcases MG4 hp ha with h1 | h1 | h1 | h1
      · exact .inl h1
      · rw [hcs] at h1; cases h1
      · rw [hg] at h1
        rcases List.mem_cons.1 h1 with h1 | h1
        · exact .inr (.inl (by simp [h1]))
        · exact .inr (.inr (.inl h1))
      · exact .inr (.inr (.inr h1))
    refine inv_mark h hp s.mark [p] s.scan s.gs r s.cur s.chk (fun _ e => e) h.cl.markU
      ?_ h.cl.scanU (fun _ _ e => e) (fun a ha => by rw [hg]; exact List.mem_cons_of_mem _ ha) key
      (fun b i a h1 h2 h3 h4 _ => key a (m.h.black b i a h1 h2 h3 h4 (fun j e => by rw [hs] at e; cases e)))
      m.o.ord m.o.ordc
    intro a ha
    rw [List.mem_singleton] at ha
    subst ha
    exact h.cl.pstk a (by rw [hg]; exact List.mem_cons_self)

theorem step_markFin (h : Inv P g s) (e : act P s .markFin = some s') : Inv P g s' := by
  simp only [act] at e
  split at e
  case isFalse => cases e
  rename_i hc
  obtain ⟨hp, hs, hcs, hch, hps⟩ := hc
  cases e
  have m := h.mkg (by rw [hp]; rfl)
  have hgs := m.o.ordc hch
  have mg : ∀ a, MG P s a → s.mark a = true := by
    intro a ha
    rcases MG4 hp ha with h1 | h1 | h1 | ⟨t, h1⟩
    · exact h1
    · rw [hcs] at h1; cases h1
    · rw [hps] at h1; cases h1
    · rw [hgs t] at h1; cases h1
  have all : ∀ a, R0 g a → s.mark a = true := by
    intro a ha
    have : ∀ a, From g.s0 g.base a → s.mark a = true := by
      intro a ha
      induction ha with
      | here hb => exact mg _ (m.h.base _ hb)
      | slot hb hi hf ih => exact mg _ (m.h.black _ _ _ hb hi hf ih (fun j e => by rw [hs] at e; cases e))
    exact this a ha
  have hm : ∀ a, MG P s a → MG P { s with phase := .fin } a :=
    MG.mono (fun _ e => e) (fun _ e => e) (fun _ e => e) (fun _ _ e => e) (fun e => by rw [hp] at e; cases e)
  refine { cl := { h.cl with }, mkg := fun _ => ?_, sw := fun e => (by cases e), rest := fun e => (by cases e) }
  exact { h := m.h.frame hm (fun _ _ e => e) (fun _ _ _ => rfl) (fun _ _ => rfl) rfl
          p := m.p.frame hm rfl, rU := m.rU, split := m.split
          fin := fun _ => ⟨⟨hcs, hs, hgs⟩, fun a ha => (m.split a ha).elim (all a) id⟩
          o := ⟨m.o.ord, m.o.ordc, fun e => (by cases e)⟩ }

theorem step_toSweep (hL : Layout P) (h : Inv P g s) (e : act P s .toSweep = some s') : Inv P g s' := by
  simp only [act] at e
  split at e
  case isFalse => cases e
  rename_i hp
  cases e
  have m := h.mkg (by rw [hp]; rfl)
  obtain ⟨q, hU⟩ := m.fin hp
  refine { cl := { h.cl with }, mkg := fun e => (by cases e), sw := fun _ => ?_, rest := fun _ e => absurd rfl e }
  exact { clean := fun a ha => absurd ha (Nat.not_lt_zero a), black := fun a ha _ => hU a ha, quiet := q
          kept := fun a ha => absurd ha (Nat.not_lt_zero a)
          tk := fun t ht b w e => by rw [m.p.tk t ht b w e]; simp
          pos := Nat.zero_le _, chp1 := fun _ => rfl
          chp2 := fun h1 h2 => absurd h2 (by have : P.n ≤ 0 := h1; omega) }

theorem step_sweepOne (hL : Layout P) (h : Inv P g s) (hcf : careful P s .sweepOne = true)
    (e : act P s .sweepOne = some s') : Inv P g s' := by
  simp only [act] at e
  split at e
  case isFalse => cases e
  rename_i hcc
  obtain ⟨hp, hn⟩ := hcc
  have w := h.sw hp
  have nr : ∀ {q : Prop}, s.phase ≠ .sweep → q := fun e => absurd hp e
  have nh : ∀ {q : Prop}, s.phase.high = true → q := fun e => by rw [hp] at e; cases e
  have c1 : s.pos + 1 < P.n → nextChp P (s.pos + 1) s.chp = P.chunk (s.pos + 1) := fun hh => if_pos hh
  have c2 : P.n ≤ s.pos + 1 → 0 < P.n → nextChp P (s.pos + 1) s.chp = P.last := by
    intro h1 h2
    have : nextChp P (s.pos + 1) s.chp = s.chp := if_neg (by omega)
    rw [this, w.chp1 hn, ← hL.last h2]
    congr 1
    omega
  have lt : ∀ a, a < s.pos + 1 → a < s.pos ∨ a = s.pos := fun a ha => by omega
  split at e
  · rename_i hl
    cases e
    have hl : s.live s.pos = false := by simpa using hl
    refine { cl := { h.cl with }, mkg := fun e => nh e, rest := fun _ e => nr e, sw := fun _ => ?_ }
    refine { clean := ?_, black := fun a ha hq => w.black a ha (by have : s.pos + 1 ≤ a := hq; omega)
             quiet := w.quiet, kept := ?_, tk := w.tk, pos := hn, chp1 := c1, chp2 := c2 }
    · intro a ha
      rcases lt a ha with h1 | h1
      · exact w.clean a h1
      · subst h1
        cases hm : s.mark s.pos with
        | false => rfl
        | true => rw [h.cl.live _ (h.cl.markU _ hm)] at hl; cases hl
    · intro a ha hla
      rcases lt a ha with h1 | h1
      · exact w.kept a h1 hla
      · subst h1; rw [show s.live s.pos = true from hla] at hl; cases hl
  · rename_i hl
    split at e
    · rename_i hm
      cases e
      refine { cl := { h.cl with markU := ?_ }, mkg := fun e => nh e, rest := fun _ e => nr e, sw := fun _ => ?_ }
      · intro a ha
        refine h.cl.markU a ?_
        by_cases ea : a = s.pos
        · rw [ea]; exact hm
        · simpa [upd, ea] using ha
      · refine { clean := ?_, black := ?_, quiet := w.quiet, kept := ?_, tk := w.tk, pos := hn, chp1 := c1, chp2 := c2 }
        · intro a ha
          rcases lt a ha with h1 | h1
          · have : a ≠ s.pos := by omega
            simpa [upd, this] using w.clean a h1
          · simp [upd, h1]
        · intro a ha hq
          have hq' : s.pos + 1 ≤ a := hq
          have : a ≠ s.pos := by omega
          simpa [upd, this] using w.black a ha (by omega)
        · intro a ha hla
          rcases lt a ha with h1 | h1
          · exact w.kept a h1 hla
          · subst h1; exact h.cl.markU _ hm
    · rename_i hm
      have hm : s.mark s.pos = false := by simpa using hm
      have hl : s.live s.pos = true := by simpa using hl
      have hk : s.hook s.pos = false := by simpa [careful, hl, hm] using hcf
      split at e
      · rename_i hh
        rw [hk] at hh; cases hh
      · cases e
        have nU : ∀ a, g.U a → a ≠ s.pos := by
          intro a ha ea
          subst ea
          rw [w.black _ ha (Nat.le_refl _)] at hm; cases hm
        refine { cl := { h.cl with live := ?_, own := ?_, bound := ?_ }, mkg := fun e => nh e
                 rest := fun _ e => nr e, sw := fun _ => ?_ }
        · intro a ha
          simpa [upd, nU a ha] using h.cl.live a ha
        · intro t ht b q e
          have := h.cl.own t ht b q e
          refine ⟨?_, this.2⟩
          simp only [upd]
          split
          · rfl
          · exact this.1
        · intro a ha
          by_cases ea : a = s.pos
          · rw [ea]; exact hn
          · exact h.cl.bound a (by simpa [upd, ea] using ha)
        · refine { clean := ?_, black := fun a ha hq => w.black a ha (by have : s.pos + 1 ≤ a := hq; omega)
                   quiet := w.quiet, kept := ?_, tk := w.tk, pos := hn, chp1 := c1, chp2 := c2 }
          · intro a ha
            rcases lt a ha with h1 | h1
            · exact w.clean a h1
            · subst h1; exact hm
          · intro a ha hla
            rcases lt a ha with h1 | h1
            · have : a ≠ s.pos := by omega
              exact w.kept a h1 (by simpa [upd, this] using hla)
            · subst h1; simp [upd] at hla

theorem step_sweepPause (h : Inv P g s) (e : act P s .sweepPause = some s') : Inv P g s' := by
  simp only [act] at e
  split at e
  case isFalse => cases e
  rename_i hp
  cases e
  exact { cl := { h.cl with }, mkg := fun e => (by rw [show s.phase = _ from hp] at e; cases e)
          sw := fun _ => { h.sw hp with }, rest := fun _ e => absurd hp e }

theorem step_sweepEnd (h : Inv P g s) (e : act P s .sweepEnd = some s') : Inv P g s' := by
  simp only [act] at e
  split at e
  case isFalse => cases e
  rename_i hc
  obtain ⟨hp, hn⟩ := hc
  cases e
  have w := h.sw hp
  refine { cl := { h.cl with }, mkg := fun e => (by cases e), sw := fun e => (by cases e), rest := fun _ _ => ?_ }
  refine { clean := ?_, quiet := w.quiet, pro := fun e => (by cases e), epi := fun _ a ha => ?_ }
  · intro a
    cases hm : s.mark a with
    | false => rfl
    | true =>
      have := h.cl.bound a (h.cl.live a (h.cl.markU a hm))
      rw [w.clean a (by omega)] at hm; cases hm
  · have := h.cl.bound a ha
    exact w.kept a (by omega) ha

theorem step_finish (h : Inv P g s) (e : act P s .finish = some s') : Inv P g s' := by
  simp only [act] at e
  split at e
  case isFalse => cases e
  rename_i hp
  cases e
  have r := h.rest (by rw [hp]; rfl) (by rw [hp]; simp)
  exact { cl := { h.cl with }, mkg := fun e => (by cases e), sw := fun e => (by cases e)
          rest := fun _ _ => ⟨r.clean, r.quiet, fun e => (by cases e), fun e => (by cases e)⟩ }

theorem inv_step (hL : Layout P) (h : Inv P g s) {a : Act} (hc : careful P s a = true) (e : act P s a = some s') :
    Inv P (gnext P g s a) s' := by
  cases a with
  | load t o i => exact step_load h e
  | loadRoot t r => exact step_loadRoot h e
  | drop t => exact step_drop h e
  | storeCheck t o i v => exact step_storeCheck h e
  | storePush t => exact step_storePush h e
  | storeWrite t => exact step_storeWrite h e
  | allocTake t b => exact step_allocTake h e
  | allocEnd t z => exact step_allocEnd hL h hc e
  | setHook t o f => exact step_setHook h e
  | request t => exact step_request h e
  | arrive t => exact step_arrive h e
  | enter t => exact step_enter h e
  | exit t => exact step_exit h hc e
  | scanStart => exact step_scanStart h e
  | scanThread => exact step_scanThread h e
  | scanEnd => exact step_scanEnd h e
  | toMark => exact step_toMark h e
  | markPop => exact step_markPop h e
  | markSlot => exact step_markSlot h e
  | markRoot => exact step_markRoot h e
  | markPstk => exact step_markPstk h e
  | markFin => exact step_markFin h e
  | toSweep => exact step_toSweep hL h e
  | sweepOne => exact step_sweepOne hL h hc e
  | sweepPause => exact step_sweepPause h e
  | sweepEnd => exact step_sweepEnd h e
  | finish => exact step_finish h e

end Eus.Rgc
