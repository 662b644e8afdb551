import Verif.Rgc.Step
/-!
# Every careful step keeps the invariant: allocation and the collector
-/

namespace Eus.Rgc
open Spec
variable {P : Params} {g : Ghost} {s s' : St}

/-- The mark of a new cell during the sweep, in careful runs. -/
theorem allocMark_sweep (hL : Layout P) (w : Sw P g s) {b} (hb : b < P.n) {q : Saw} (hq : q ≠ .low)
    (hp : s.phase = .sweep) (hs : s.savedp = s.pos) (hm : s.mark b = true → s.pos ≤ b)
    (hc : q = .sweep → s.chp = P.last → s.savedp ≤ b) :
    allocMark P s b q = decide (s.pos ≤ b) := by
  cases q with
  | low => exact absurd rfl hq
  | high =>
    simp only [allocMark, hp, Phase.high, hs, Bool.not_false, Bool.true_and, decide_eq_true_eq]
    by_cases h : b < s.pos
    · rw [if_pos h]; symm; exact decide_eq_false (by omega)
    · rw [if_neg h]; symm; exact decide_eq_true (by omega)
  | sweep =>
    simp only [allocMark]
    have hc := hc rfl
    by_cases h1 : P.chunk b < s.chp
    · rw [if_pos h1]
      have hlt : b < s.pos := by
        rcases Nat.lt_or_ge s.pos P.n with hpos | hpos
        · rw [w.chp1 hpos] at h1
          rcases Nat.lt_or_ge b s.pos with h | h
          · exact h
          · have := hL.mono _ _ h; omega
        · omega
      have : s.mark b = false := by
        cases hmb : s.mark b with
        | false => rfl
        | true => have := hm hmb; omega
      rw [this]; symm; exact decide_eq_false (by omega)
    · rw [if_neg h1]
      by_cases h2 : s.chp = P.last
      · rw [if_pos h2]; symm; exact decide_eq_true (by have := hc h2; omega)
      · rw [if_neg h2]
        have hpos : s.pos < P.n := by
          rcases Nat.lt_or_ge s.pos P.n with h | h
          · exact h
          · exact absurd (w.chp2 h (by omega)) h2
        by_cases h3 : P.chunk b ≤ s.chp ∧ b < s.savedp
        · rw [if_pos h3]; symm; exact decide_eq_false (by omega)
        · rw [if_neg h3]; symm
          refine decide_eq_true ?_
          rcases Nat.lt_or_ge b s.pos with h | h
          · have := hL.mono b s.pos (by omega)
            rw [← w.chp1 hpos] at this
            exact absurd ⟨this, by omega⟩ h3
          · exact h

theorem step_allocEnd (hL : Layout P) (h : Inv P g s) {t z} (hcf : careful P s (.allocEnd t z) = true)
    (e : act P s (.allocEnd t z) = some s') : Inv P (gnext P g s (.allocEnd t z)) s' := by
  simp only [act] at e
  split at e
  case h_2 => cases e
  rename_i b w hpe
  have hc1 : w = .high → s.phase.high = true ∨ s.phase = .sweep := by
    intro hw
    subst hw
    simpa [careful, hpe] using hcf
  have hc2 : w = .sweep → s.phase = .sweep ∧ (s.chp = P.last → s.savedp ≤ b) := by
    intro hw
    subst hw
    simp only [careful, hpe, Bool.and_eq_true, decide_eq_true_eq, Bool.or_eq_true] at hcf
    exact ⟨hcf.1, fun e => hcf.2.resolve_left (fun x => x e)⟩
  split at e
  case isFalse => cases e
  rename_i hcc
  obtain ⟨ht, hu⟩ := hcc
  cases e
  obtain ⟨hl, hbn, hA⟩ := h.cl.own t ht b w hpe
  have hr := running h ht (by rw [hpe]; simp)
  have hUb : ∀ a, g.U a → a ≠ b := by
    intro a ha e
    subst e
    rw [h.cl.live a ha] at hl
    cases hl
  have hmb : s.mark b = false := by
    cases hm : s.mark b with
    | false => rfl
    | true => exact absurd rfl (hUb b (h.cl.markU b hm))
  have hU' : ∀ a, (gnext P g s (.allocEnd t z)).U a ↔ g.U a ∨ a = b := by
    intro a
    simp only [gnext, hpe, Pend.taken.injEq]
    constructor
    · rintro (h1 | ⟨w', h1, -⟩)
      · exact .inl h1
      · exact .inr h1.symm
    · rintro (h1 | rfl)
      · exact .inl h1
      · exact .inr ⟨w, rfl, rfl⟩
  have inl : ∀ a, g.U a → (gnext P g s (.allocEnd t z)).U a := fun a ha => (hU' a).2 (.inl ha)
  have hR : ∀ a, R0 (gnext P g s (.allocEnd t z)) a = R0 g a := fun _ => rfl
  have pn : ∀ u < P.nT, ∀ q, upd s.pend t .none u = q → q ≠ .none → u ≠ t ∧ s.pend u = q := by
    intro u hu q e hq
    by_cases eu : u = t
    · subst eu; exact absurd (by simpa [upd] using e.symm) hq
    · exact ⟨eu, by simpa [upd, eu] using e⟩
  refine { cl := ?_, mkg := fun hp => ?_, sw := fun hp => ?_, rest := fun hp hq => ?_ }
  · refine { root := fun r hr => inl r (h.cl.root r hr), stk := ?_
             pstk := fun a ha => inl a (h.cl.pstk a ha), cstk := fun a ha => inl a (h.cl.cstk a ha)
             gs := fun t a ha => inl a (h.cl.gs t a ha), chk := ?_, psh := ?_, kid := ?_, live := ?_
             own := ?_, own1 := ?_, bound := ?_, markU := ?_, stop := ?_, gsT := h.cl.gsT
             fresh := ?_, scanU := fun p i e => inl p (h.cl.scanU p i e) }
    · intro u hu a ha
      by_cases eu : u = t
      · subst eu
        simp only [upd, if_true, List.mem_cons] at ha
        rcases ha with ha | ha
        · exact (hU' a).2 (.inr ha)
        · exact inl a (h.cl.stk u hu a ha)
      · exact inl a (h.cl.stk u hu a (by simpa [upd, eu] using ha))
    · intro u hu o i v f e
      obtain ⟨-, e⟩ := pn u hu _ e (by simp)
      have := h.cl.chk u hu o i v f e
      exact ⟨inl o this.1, by simpa [upd, hUb o this.1] using this.2.1, fun a ha => inl a (this.2.2 a ha)⟩
    · intro u hu o i v e
      obtain ⟨-, e⟩ := pn u hu _ e (by simp)
      have := h.cl.psh u hu o i v e
      exact ⟨inl o this.1, by simpa [upd, hUb o this.1] using this.2.1, fun a ha => inl a (this.2.2 a ha)⟩
    · intro a c i ha hf hi
      rcases (hU' a).1 ha with ha | ha
      · have ne := hUb a ha
        exact inl c (h.cl.kid a c i ha (by simpa [upd, ne] using hf) (by simpa [upd, ne] using hi))
      · subst ha; simp [upd] at hf
    · intro a ha
      rcases (hU' a).1 ha with ha | ha
      · simpa [upd, hUb a ha] using h.cl.live a ha
      · simp [upd, ha]
    · intro u hu c q e
      obtain ⟨eu, e⟩ := pn u hu _ e (by simp)
      have := h.cl.own u hu c q e
      have ne : c ≠ b := fun ec => eu (h.cl.own1 u hu t ht c q w e (ec ▸ hpe))
      exact ⟨by simpa [upd, ne] using this.1, this.2⟩
    · intro u hu u' hu' c q q' e e'
      exact h.cl.own1 u hu u' hu' c q q' (pn u hu _ e (by simp)).2 (pn u' hu' _ e' (by simp)).2
    · intro a ha
      by_cases ea : a = b
      · subst ea; exact hbn
      · exact h.cl.bound a (by simpa [upd, ea] using ha)
    · intro a ha
      by_cases ea : a = b
      · exact (hU' a).2 (.inr ea)
      · exact inl a (h.cl.markU a (by simpa [upd, ea] using ha))
    · intro u hu e
      by_cases eu : u = t
      · simp [upd, eu]
      · simpa [upd, eu] using h.cl.stop u hu e
    · intro a ha
      rcases (hU' a).1 ha with ha | ha
      · exact h.cl.fresh a ha
      · exact .inr (ha ▸ hA)
  · have hp' : s.phase.high = true := hp
    have m := h.mkg hp'
    have nc := notcore m ht hr
    have hw := m.p.tk t ht b w hpe
    have hmk : allocMark P s b w = true := by
      subst hw; simp [allocMark, hp']
    have hmm : ∀ a, s.mark a = true → upd s.mark b (allocMark P s b w) a = true := by
      intro a ha
      by_cases ea : a = b
      · subst ea; rw [hmb] at ha; cases ha
      · simpa [upd, ea] using ha
    have hm := MG.mono (P := P) (s := s) (s' := { s with
          live := upd s.live b true
          size := upd s.size b z
          fld := upd s.fld b (fun _ => none)
          mark := upd s.mark b (allocMark P s b w)
          hook := upd s.hook b false
          stk := upd s.stk t (b :: s.stk t)
          pend := upd s.pend t .none }) hmm (fun _ e => e) (fun _ e => e) (fun _ _ e => e)
            (fun e => absurd e nc)
    have hRb : ∀ a, R0 g a → a ≠ b := fun a ha => hUb a (m.rU a ha)
    refine { h := ?_, p := ⟨?_, ?_, ?_⟩, o := ⟨m.o.ord, m.o.ordc, m.o.core⟩
             rU := fun a ha => inl a (m.rU a ha), split := ?_, fin := ?_ }
    · have := m.h.frame hm (fun a ha e => by simpa [upd, hRb a ha] using e)
        (fun a i ha => by simp [upd, hRb a ha]) (fun a ha => by simp [upd, hRb a ha]) rfl
      exact ⟨this.base, this.black, this.intact, this.sz⟩
    · intro u hu o i v f e
      exact m.p.chk u hu o i v f (pn u hu _ e (by simp)).2
    · intro u hu o i v a e r1 r2 r3
      exact hm a (m.p.psh u hu o i v a (pn u hu _ e (by simp)).2 r1 r2 r3)
    · intro u hu c q e
      exact m.p.tk u hu c q (pn u hu _ e (by simp)).2
    · intro a ha
      rcases (hU' a).1 ha with ha | ha
      · exact (m.split a ha).imp id (hmm a)
      · subst ha; exact .inr (by simp [upd, hmk])
    · intro hf
      refine ⟨(m.fin hf).1, fun a ha => ?_⟩
      rcases (hU' a).1 ha with ha | ha
      · exact hmm a ((m.fin hf).2 a ha)
      · subst ha; simp [upd, hmk]
  · have hp' : s.phase = .sweep := hp
    have sw := h.sw hp'
    have hsv : s.savedp = s.pos := by
      simp only [unlocked, hp', ne_eq, not_true_eq_false, decide_false, Bool.false_or,
        decide_eq_true_eq] at hu
      exact hu
    have hmk := allocMark_sweep hL sw hbn (sw.tk t ht b w hpe) hp' hsv (by simp [hmb])
      (fun e => (hc2 e).2)
    refine { clean := ?_, black := ?_, quiet := sw.quiet, kept := ?_, tk := ?_, pos := sw.pos
             chp1 := sw.chp1, chp2 := sw.chp2 }
    · intro a ha
      by_cases ea : a = b
      · subst ea
        have ha' : a < s.pos := ha
        simp only [upd, if_true, hmk]
        exact decide_eq_false (by omega)
      · simpa [upd, ea] using sw.clean a ha
    · intro a ha hpos
      rcases (hU' a).1 ha with ha | ha
      · simpa [upd, hUb a ha] using sw.black a ha hpos
      · subst ha
        simp only [upd, if_true, hmk]
        exact decide_eq_true hpos
    · intro a ha hla
      by_cases ea : a = b
      · exact (hU' a).2 (.inr ea)
      · exact inl a (sw.kept a ha (by simpa [upd, ea] using hla))
    · intro u hu c q e
      exact sw.tk u hu c q (pn u hu _ e (by simp)).2
  · have hp1 : s.phase.high = false := hp
    have hq1 : s.phase ≠ .sweep := hq
    have r := h.rest hp1 hq1
    have hw : allocMark P s b w = false := by
      cases w with
      | low => exact hmb
      | high => rcases hc1 rfl with e | e
                · rw [hp1] at e; cases e
                · exact absurd e hq1
      | sweep => exact absurd (hc2 rfl).1 hq1
    refine { clean := ?_, quiet := r.quiet, pro := r.pro, epi := ?_ }
    · intro a
      by_cases ea : a = b
      · simp [upd, ea, hw]
      · simpa [upd, ea] using r.clean a
    · intro he a ha
      by_cases ea : a = b
      · exact (hU' a).2 (.inr ea)
      · exact inl a (r.epi he a (by simpa [upd, ea] using ha))

theorem From_U (h : Inv P g s) {R : Addr → Prop} (hR : ∀ a, R a → g.U a) :
    ∀ a, From s R a → g.U a := by
  intro a ha
  induction ha with
  | here hr => exact hR _ hr
  | slot _ hi hf ih => exact h.cl.kid _ _ _ ih hf hi

theorem Named_U (h : Inv P g s) : ∀ a, Named P s a → g.U a := by
  rintro a (ha | ⟨t, ht, ha⟩)
  · exact h.cl.root a ha
  · exact h.cl.stk t ht a ha

theorem step_scanStart (h : Inv P g s) (e : act P s .scanStart = some s') :
    Inv P (gnext P g s .scanStart) s' := by
  simp only [act] at e
  split at e
  case isFalse => cases e
  rename_i hc
  obtain ⟨hp, hall⟩ := hc
  cases e
  have r := h.rest (by rw [hp]; rfl) (by rw [hp]; simp)
  simp only [allStopped, List.all_eq_true, List.mem_range, decide_eq_true_eq] at hall
  have hpn : ∀ t < P.nT, s.pend t = .none := fun t ht => h.cl.stop t ht (hall t ht)
  have hb : ∀ a, (Named P s a ∨ a ∈ s.pstk) → g.U a := by
    rintro a (ha | ha)
    · exact Named_U h a ha
    · exact h.cl.pstk a ha
  have hsub : ∀ a, (gnext P g s .scanStart).U a → g.U a := From_U h hb
  have hin : ∀ a, (Named P s a ∨ a ∈ s.pstk) → (gnext P g s .scanStart).U a := fun a ha => .here ha
  obtain ⟨q1, q2, q3⟩ := r.quiet
  refine { cl := ?_, mkg := fun _ => ?_, sw := fun e => (by cases e), rest := fun e => (by cases e) }
  · refine { root := fun x hx => hin x (.inl (.inl hx)), stk := fun t ht a ha => hin a (.inl (.inr ⟨t, ht, ha⟩))
             pstk := ?_, cstk := ?_, gs := ?_, chk := ?_, psh := ?_, kid := ?_, live := fun a ha => h.cl.live a (hsub a ha)
             own := ?_, own1 := ?_, bound := h.cl.bound, markU := ?_, stop := h.cl.stop, gsT := h.cl.gsT
             fresh := fun a ha => .inl ha, scanU := ?_ }
    · intro a ha
      rcases List.mem_append.1 ha with ha | ha
      · exact hin a (.inl (.inl ha))
      · exact hin a (.inr ha)
    · intro a ha
      have : a ∈ s.cstk := ha
      rw [q1] at this; cases this
    · intro t a ha
      have : a ∈ s.gs t := ha
      rw [q3] at this; cases this
    · intro t ht o i v f e
      have : s.pend t = _ := e
      rw [hpn t ht] at this; cases this
    · intro t ht o i v e
      have : s.pend t = _ := e
      rw [hpn t ht] at this; cases this
    · intro a b i ha hf hi
      exact .slot ha hi hf
    · intro t ht b w e
      have : s.pend t = _ := e
      rw [hpn t ht] at this; cases this
    · intro t ht _ _ b w w' e
      have : s.pend t = _ := e
      rw [hpn t ht] at this; cases this
    · intro a ha
      have : s.mark a = true := ha
      rw [r.clean a] at this; cases this
    · intro p i e
      have : s.scan = _ := e
      rw [q2] at this; cases this
  · refine { h := ⟨?_, ?_, fun b i a _ _ hf => .inl hf, fun _ _ => rfl⟩, p := ⟨?_, ?_, ?_⟩, o := ⟨?_, ?_, ?_⟩
             rU := fun a ha => ha, split := fun a ha => .inl ha, fin := fun e => by cases e }
    · rintro a ((ha | ⟨t, ht, ha⟩) | ha)
      · exact .inr (.inr (.inl (List.mem_append.2 (.inl ha))))
      · exact .inr (.inr (.inr (.inr ⟨rfl, t, Nat.zero_le _, ht, ha⟩)))
      · exact .inr (.inr (.inl (List.mem_append.2 (.inr ha))))
    · intro b i a _ _ _ hm
      have : s.mark b = true := hm
      rw [r.clean b] at this; cases this
    · intro t ht o i v f e
      have : s.pend t = _ := e
      rw [hpn t ht] at this; cases this
    · intro t ht o i v a e
      have : s.pend t = _ := e
      rw [hpn t ht] at this; cases this
    · intro t ht b w e
      have : s.pend t = _ := e
      rw [hpn t ht] at this; cases this
    · intro t _; exact q3 t
    · intro _; exact q3
    · intro _; exact ⟨(r.pro hp).1, (r.pro hp).2, hall⟩

theorem step_scanThread (h : Inv P g s) (e : act P s .scanThread = some s') : Inv P g s' := by
  simp only [act] at e
  split at e
  case isFalse => cases e
  rename_i hc
  obtain ⟨hp, hk⟩ := hc
  cases e
  have m := h.mkg (by rw [hp]; rfl)
  have hm : ∀ a, MG P s a → MG P { s with gs := upd s.gs s.k (s.stk s.k ++ s.gs s.k), k := s.k + 1 } a := by
    intro a ha
    rcases ha with ha | ha | ha | ⟨t, ha⟩ | ⟨e, t, h1, h2, h3⟩
    · exact .inl ha
    · exact .inr (.inl ha)
    · exact .inr (.inr (.inl ha))
    · refine .inr (.inr (.inr (.inl ⟨t, ?_⟩)))
      by_cases et : t = s.k
      · simp [upd, et]; subst et; exact .inr ha
      · simpa [upd, et] using ha
    · by_cases et : t = s.k
      · refine .inr (.inr (.inr (.inl ⟨t, ?_⟩)))
        simp [upd, et]; subst et; exact .inl h3
      · exact .inr (.inr (.inr (.inr ⟨e, t, by show s.k + 1 ≤ t; omega, h2, h3⟩)))
  obtain ⟨c1, c2, c3⟩ := m.o.core hp
  refine { cl := { h.cl with gs := ?_, gsT := ?_ }, mkg := fun _ => ?_, sw := fun e => by rw [show s.phase = _ from e] at hp; cases hp
           rest := fun e => (by have e' : s.phase.high = false := e; rw [hp] at e'; cases e') }
  · intro t a ha
    by_cases et : t = s.k
    · subst et
      simp only [upd, if_true, List.mem_append] at ha
      rcases ha with ha | ha
      · exact h.cl.stk _ hk a ha
      · exact h.cl.gs _ a ha
    · exact h.cl.gs t a (by simpa [upd, et] using ha)
  · intro t ht
    have et : t ≠ s.k := by omega
    simpa [upd, et] using h.cl.gsT t ht
  · exact { h := m.h.frame hm (fun _ _ e => e) (fun _ _ _ => rfl) (fun _ _ => rfl) rfl
            p := m.p.frame hm rfl, rU := m.rU, split := m.split
            fin := fun e => by rw [show s.phase = _ from e] at hp; cases hp
            o := ⟨fun t ht => by have : t < s.cur := ht; omega,
              fun e => (by rw [show s.chk = _ from e] at c2; cases c2), m.o.core⟩ }

theorem step_scanEnd (h : Inv P g s) (e : act P s .scanEnd = some s') : Inv P g s' := by
  simp only [act] at e
  split at e
  case isFalse => cases e
  rename_i hc
  obtain ⟨hp, hk⟩ := hc
  cases e
  have m := h.mkg (by rw [hp]; rfl)
  have hm : ∀ a, MG P s a → MG P { s with
        phase := .rem
        stat := fun t => if s.stat t = .point then .run else s.stat t } a := by
    intro a ha
    rcases ha with ha | ha | ha | ⟨t, ha⟩ | ⟨e, t, h1, h2, h3⟩
    · exact .inl ha
    · exact .inr (.inl ha)
    · exact .inr (.inr (.inl ha))
    · exact .inr (.inr (.inr (.inl ⟨t, ha⟩)))
    · omega
  obtain ⟨c1, c2, c3⟩ := m.o.core hp
  refine { cl := { h.cl with stop := fun t ht _ => h.cl.stop t ht (c3 t ht) }, mkg := fun _ => ?_
           sw := fun e => by cases e
           rest := fun e => by cases e }
  exact { h := m.h.frame hm (fun _ _ e => e) (fun _ _ _ => rfl) (fun _ _ => rfl) rfl
          p := m.p.frame hm rfl, rU := m.rU, split := m.split
          fin := fun e => by cases e
          o := ⟨m.o.ord, m.o.ordc, fun e => by cases e⟩ }

theorem step_toMark (h : Inv P g s) (e : act P s .toMark = some s') : Inv P g s' := by
  simp only [act] at e
  split at e
  case isFalse => cases e
  rename_i hp
  cases e
  have m := h.mkg (by rw [hp]; rfl)
  have hm : ∀ a, MG P s a → MG P { s with phase := .mark } a :=
    MG.mono (fun _ e => e) (fun _ e => e) (fun _ e => e) (fun _ _ e => e) (fun e => by rw [hp] at e; cases e)
  refine { cl := { h.cl with }, mkg := fun _ => ?_, sw := fun e => (by cases e), rest := fun e => (by cases e) }
  exact { h := m.h.frame hm (fun _ _ e => e) (fun _ _ _ => rfl) (fun _ _ => rfl) rfl
          p := m.p.frame hm rfl, rU := m.rU, split := m.split
          fin := fun e => by cases e
          o := ⟨m.o.ord, m.o.ordc, fun e => by cases e⟩ }

end Eus.Rgc
