import Verif.Cmp.Apply
set_option autoImplicit false
/-
`let`.
-/
namespace Eus.Cmp
open Eus.Lex
open Comp (search assq clear)

variable {P : Prog} {glo : Sym → Bool} {k0 : Nat} {m : Mach}

/-- The variables xs have been entered, with their values. -/
structure InB (P : Prog) (glo : Sym → Bool) (xs : List Sym) (sp : List (Sym × Nat)) (L : Nat) (c c' : Comp) (sp' : List (Sym × Nat)) : Prop where
  push : c'.push = none
  pc : c'.pc = c.pc + xs.length
  cnt : ∀ s l r, c.cnt = (s, l) :: r → c'.cnt = (s, l + xs.length) :: r
  frames : ∀ top fr, c.frames = top :: fr → ∃ top' fr', c'.frames = top' :: fr' ∧ (∀ y, y ∉ xs → Lexical P glo y → assq y top' = assq y top) ∧
    ∀ b ∈ xs.zipIdx c.pc, Lexical P glo b.1 → ∃ j, assq b.1 top' = some j ∧ j.bnd = .loc ∧ j.off = b.2
  ext : Ext L c c'
  names : sp'.map Prod.fst = (xs.filter P.special).reverse ++ sp.map Prod.fst
  offs : ∀ s ∈ sp', s ∈ sp ∨ s ∈ xs.zipIdx c.pc

theorem InB.nil {L : Nat} {c : Comp} {sp : List (Sym × Nat)} (h : c.push = none) : InB P glo [] sp L c c sp :=
  ⟨h, rfl, fun _ _ _ h => h, fun top fr h => ⟨top, fr, h, fun _ _ _ => rfl, by simp⟩, Ext.refl _ _, rfl, fun _ h => .inl h⟩

/-- One variable. -/
structure In1 (P : Prog) (glo : Sym → Bool) (x : Sym) (L : Nat) (c d : Comp) : Prop where
  push : d.push = none
  pc : d.pc = c.pc + 1
  cnt : ∀ s l r, c.cnt = (s, l) :: r → d.cnt = (s, l + 1) :: r
  frames : ∀ top fr, c.frames = top :: fr → ∃ top' fr', d.frames = top' :: fr' ∧ (∀ y, y ≠ x → Lexical P glo y → assq y top' = assq y top) ∧
    (Lexical P glo x → ∃ j, assq x top' = some j ∧ j.bnd = .loc ∧ j.off = c.pc)
  ext : Ext L c d

theorem InB.cons {x : Sym} {xs : List Sym} {sp sp1 sp' : List (Sym × Nat)} {L : Nat} {c d c' : Comp} (hn : x ∉ xs) (h : In1 P glo x L c d) (h' : InB P glo xs sp1 L d c' sp')
    (hsp : sp1 = if P.special x then (x, c.pc) :: sp else sp) : InB P glo (x :: xs) sp L c c' sp' := by
  refine ⟨h'.push, by rw [h'.pc, h.pc]; simp; omega, ?_, ?_, h.ext.trans h'.ext (Nat.le_refl _), ?_, ?_⟩
  · intro s l r e
    rw [h'.cnt _ _ _ (h.cnt s l r e)]; simp; omega
  · intro top fr e
    obtain ⟨t1, f1, e1, g1, g2⟩ := h.frames top fr e
    obtain ⟨t2, f2, e2, g3, g4⟩ := h'.frames t1 f1 e1
    refine ⟨t2, f2, e2, ?_, ?_⟩
    · intro y hy hl
      simp only [List.mem_cons, not_or] at hy
      rw [g3 y hy.2 hl, g1 y hy.1 hl]
    · intro b hb hl
      simp only [List.zipIdx_cons, List.mem_cons] at hb
      rcases hb with rfl | hb
      · obtain ⟨j, j1, j2, j3⟩ := g2 hl
        exact ⟨j, by rw [g3 x hn hl]; exact j1, j2, j3⟩
      · exact g4 b (by rw [h.pc]; exact hb) hl
  · rw [h'.names, hsp]
    cases hx : P.special x <;> simp [hx]
  · intro s hs
    rcases h'.offs s hs with h1 | h1
    · rw [hsp] at h1
      split at h1
      · simp only [List.mem_cons] at h1
        rcases h1 with rfl | h1
        · exact .inr (by simp)
        · exact .inl h1
      · exact .inl h1
    · right
      rw [h.pc] at h1
      simp [h1]

theorem sim_inits {n k : Nat} (hs : SimE P glo k0 m n) {sc fs : List Sym} {c0 : Comp} (hp : Pre P glo sc c0) (ha : Agree c0 sc) (hwf : ∀ l, Instr.label l ∈ c0.code → l < c0.lab) :
    ∀ (bs : List (Sym × Expr)) {hs : List Sym} {sp sp' : List (Sym × Nat)} {c c' : Comp}, compInits P.special (comp P.special k).1 bs sp c = some (sp', c') → CInits P glo sc fs hs bs → (bs.map Prod.fst).Nodup →
      (∀ x ∈ bs.map Prod.fst, okName P glo x) → Bound P glo hs 0 c0 c → c.push = none →
      InB P glo (bs.map Prod.fst) sp c0.lab c c' sp' ∧
      ∀ {F : Code} {act : Act} {rest : List Frame} {ρ φ : SEnv} {Z : List Slot} {S : SState} {T : CState} {w : CVal}, Ctx P glo Z (look c0) c0.flets c0.cl (base act) sc fs ρ φ → Rel P glo k0 m Z S T →
        Below Z (act.loc + c.pc) → Fut P k0 m F c' →
        OutA P glo k0 m (act.loc + c.pc) (conf F act rest c.code.length w T) F act rest Z S T c'.code.length (act.loc + c.pc) bs.length (evalArgs (seval true P n ρ φ) (bs.map Prod.snd) S)
  | [], hs', sp, sp', c, c', h, hq, hn, ho, hb, hpu => by
    cases h
    refine ⟨InB.nil hpu, ?_⟩
    intro F act rest ρ φ Z S T w _ hr _ _
    exact ⟨w, T, Reach.refl _ _, trivial, rfl, hr, Chg.refl _ _ _ _⟩
  | (x, e) :: bs, hs', sp, sp', c, c', h, hq, hn, ho, hb, hpu => by
    simp only [compInits, Option.bind_eq_some_iff] at h
    obtain ⟨c1, h1, h2⟩ := h
    simp only [List.map_cons, List.nodup_cons] at hn
    have hk : ∃ sc', CPlain P glo sc' fs e ∧ ((sc' = sc ∧ Flat e) ∨ sc' = sc.filter (fun y => !hs'.contains y)) ∧ CInits P glo sc fs (x :: hs') bs := by
      cases hq with
      | flat hf hq hr => exact ⟨sc, hq, .inl ⟨rfl, hf⟩, hr⟩
      | deep hq hr => exact ⟨_, hq, .inr rfl, hr⟩
    obtain ⟨sc', hq', hs1, hr⟩ := hk
    have st := (st_both (P := P) (glo := glo) k).1
    obtain ⟨p0, f0, b1, p1⟩ := st_init st h1 hb hp ha hq' hs1
    have hsub : ∀ y ∈ sc', y ∈ sc := by
      rcases hs1 with ⟨rfl, _⟩ | rfl
      · exact fun _ h => h
      · exact fun y h => (List.mem_filter.mp h).1
    obtain ⟨top, fr, e1, _⟩ := b1.frames
    have hx := ho x (by simp)
    rw [specialVar_eq e1 b1.tab hx] at h2
    have hnr : ∀ y ∈ bs.map Prod.fst, okName P glo y := fun y hy => ho y (by simp at hy ⊢; exact .inr hy)
    have hh : ht c1 = c.pc + 1 := by
      rw [p1.ht]
      have : ht (c.setScope (c.level - 1)) = ht c := rfl
      rw [this, ht_none hpu]
    have hpc : c1.clear.pc = c.pc + 1 := by rw [clear_pc, hh]
    have oc := op_clear [] c1
    have e01 : Ext c0.lab c c1 := by
      have := p1.ext.weaken hb.ext.lab
      exact ⟨this.code, this.lab, this.tasks⟩
    have e02 : Ext c0.lab c c1.clear := e01.trans (oc.ext0 c0.lab) (Nat.le_refl _)
    have cnt1 : c1.clear.cnt = c.cnt := oc.cnt.trans p1.keep.cnt
    have fr1 : ∀ top fr, c.frames = top :: fr → ∃ t1 f1, c1.clear.frames = t1 :: f1 ∧ ∀ y, Lexical P glo y → assq y t1 = assq y top := by
      intro top fr e
      have hf := p1.keep.frames
      have e' : (c.setScope (c.level - 1)).frames = top :: fr := e
      rw [e'] at hf
      rw [oc.frames]
      cases hc : c1.frames with
      | nil => rw [hc] at hf; exact hf.elim
      | cons t1 f1 => rw [hc] at hf; exact ⟨t1, f1, rfl, hf.1⟩
    -- what follows, once the variable has been entered
    have goal : ∀ {d : Comp} {sp1 : List (Sym × Nat)}, Bound P glo (x :: hs') 0 c0 d → In1 P glo x c0.lab c d → d.code = c1.clear.code → (∀ t ∈ c1.clear.tasks, t ∈ d.tasks) → (sp1 = if P.special x then (x, c.pc) :: sp else sp) →
        compInits P.special (comp P.special k).1 bs sp1 d = some (sp', c') →
        InB P glo (((x, e) :: bs).map Prod.fst) sp c0.lab c c' sp' ∧
        ∀ {F : Code} {act : Act} {rest : List Frame} {ρ φ : SEnv} {Z : List Slot} {S : SState} {T : CState} {w : CVal}, Ctx P glo Z (look c0) c0.flets c0.cl (base act) sc fs ρ φ → Rel P glo k0 m Z S T →
          Below Z (act.loc + c.pc) → Fut P k0 m F c' →
          OutA P glo k0 m (act.loc + c.pc) (conf F act rest c.code.length w T) F act rest Z S T c'.code.length (act.loc + c.pc) (bs.length + 1) (evalArgs (seval true P n ρ φ) (((x, e) :: bs).map Prod.snd) S) := by
      intro d sp1 bd i1 ecode etask hsp h3
      obtain ⟨i2, r2⟩ := sim_inits hs hp ha hwf bs h3 hr hn.2 hnr bd i1.push
      refine ⟨InB.cons hn.1 i1 i2 hsp, ?_⟩
      intro F act rest ρ φ Z S T w hctx hrel hbl hfu
      have fud := hfu.ext i2.ext
      have fu1 : Fut P k0 m F c1.clear := ⟨by rw [← ecode]; exact fud.px, fun t ht => fud.tasks t (etask t ht)⟩
      obtain ⟨tp, fr, g1, g2, g3, g4⟩ := hb.frames
      have lk : ∀ y ∈ sc, look (c.setScope (c.level - 1)) y = look c0 y := by
        intro y hy
        have hl : 1 ≤ c.level := by
          rw [hb.level]
          have := hp.ne
          cases hc : c0.frames with
          | nil => exact absurd hc this
          | cons a b => simp
        have e2 : (c.setScope (c.level - 1)).level - (c.setScope (c.level - 1)).scope = 1 := by simp [Comp.setScope, Comp.level] at hl ⊢; omega
        unfold look
        rw [e2]
        show search y (c.frames.drop 1) = _
        rw [g1]
        simp only [List.drop_succ_cons, List.drop_zero]
        rw [FEq.search (hp.lex y hy) g2, agree_look hp ha hy]
        rfl
      have hat : At P glo k0 m sc' fs act ρ φ Z S T (c.setScope (c.level - 1)) := by
        refine ⟨p0, wf_ext (c' := c.setScope (c.level - 1)) ⟨hb.ext.code, hb.ext.lab, hb.ext.tasks⟩ hwf, ?_, hrel, ?_⟩
        · show Ctx P glo Z (look (c.setScope (c.level - 1))) c.flets c.cl (base act) sc' fs ρ φ
          rw [hb.flets, hb.cl]
          exact (hctx.look lk).sub hsub (fun _ h => h)
        · have : ht (c.setScope (c.level - 1)) = c.pc := ht_none hpu
          rw [this]; exact hbl
      have o1 := hs k e _ c1 sc' fs F act rest w T S ρ φ Z h1 hpu hq' f0 hat fu1.clear
      have o2 := o1.clear fu1.px hbl (by show act.loc + c.pc ≤ _; omega)
      have ca : act.loc + (ht c1 - 1) = act.loc + c.pc := by omega
      rw [ca] at o2
      simp only [List.map_cons, evalArgs]
      cases hr : seval true P n ρ φ e S with
      | ok v S1 =>
        rw [hr] at o2
        obtain ⟨w1, T1, v1, q1, m1, v2, rel1, ch1⟩ := o2
        have o3 := r2 (act := act) (rest := rest) (w := w1) hctx rel1 (hbl.mono (by rw [i1.pc]; omega)) hfu
        rw [i1.pc, ecode] at o3
        unfold OutA at o3 ⊢
        simp only [Res.bind]
        cases hr2 : evalArgs (seval true P n ρ φ) (bs.map Prod.snd) S1 with
        | ok vs S2 =>
          rw [hr2] at o3
          obtain ⟨w2, T2, q2, s2, l2, rel2, ch2⟩ := o3
          refine ⟨w2, T2, q1.trans q2, ⟨⟨v1, ?_, v2.chg ch2 rel1⟩, ?_⟩, by simp [l2], rel2, ch1.trans ch2 (by show act.loc + c.pc ≤ _; omega)⟩
          · rw [ch2.mem _ (by omega) (fun s hs => by have := hbl s hs; omega)]
            exact m1
          · simpa [Nat.add_assoc] using s2
        | err => rw [hr2] at o3; exact q1.trans o3
        | _ => trivial
      | err => rw [hr] at o2; exact o2
      | _ => trivial
    cases hsx : P.special x with
    | true =>
      rw [hsx] at h2
      simp only [if_true] at h2
      have hc := count_code 0 1 c1.clear
      obtain ⟨s, l, e2, e3⟩ := b1.cnt
      refine goal ?_ ?_ hc.1 (by rw [hc.2.2.2.2.2.2.2.2]; exact fun _ h => h) ?_ h2
      · obtain ⟨t1, f1, g1, g2, g3, g4⟩ := b1.frames
        rw [count_cnt e2]
        refine ⟨⟨b1.ext.code, b1.ext.lab, b1.ext.tasks⟩, ⟨t1, f1, g1, g2, fun y i hy hl => ⟨by simp [(g3 y i hy hl).1], (g3 y i hy hl).2⟩, ?_⟩, b1.tab, ⟨s, l + 1, rfl, ?_⟩, b1.flets, b1.cl⟩
        · intro y hy hl
          have : y ≠ x := by rintro rfl; rw [hl.1] at hsx; cases hsx
          exact g4 y (by simpa [this] using hy) hl
        · show ht c1.clear = _
          rw [e3]; omega
      · refine ⟨hc.2.1.trans (clear_push c1), hc.2.2.1.trans hpc, ?_, ?_, ?_⟩
        · intro s l r e
          rw [count_cnt (cnt1.trans e)]; rfl
        · intro top fr e
          obtain ⟨t1, f1, g1, g2⟩ := fr1 top fr e
          exact ⟨t1, f1, hc.2.2.2.1.trans g1, fun y _ hl => g2 y hl, fun hl => by rw [hl.1] at hsx; cases hsx⟩
        · exact ⟨by rw [hc.1, hc.2.2.2.2.2.2.2.1]; exact e02.code, by rw [hc.2.2.2.2.2.2.2.1]; exact e02.lab, by rw [hc.2.2.2.2.2.2.2.2, hc.2.2.2.2.2.2.2.1]; exact e02.tasks⟩
      · rw [hsx, hpc]; rfl
    | false =>
      rw [hsx] at h2
      simp only [Bool.false_eq_true, if_false] at h2
      have hl : Lexical P glo x := by
        rcases okName_cases hx with h | h
        · rw [hsx] at h; cases h
        · exact h
      obtain ⟨b2, b3, b4, b5, b6⟩ := Bound.bindLex (arg := false) (n := 0) (off := c1.clear.pc - 1) (by simpa using b1) hl
      obtain ⟨top', lv, k3, k4, _, k6⟩ := bind_lex (arg := false) (off := c1.clear.pc - 1) e1 b1.tab hl
      simp only [Bool.false_eq_true, if_false] at k3 k4
      have hc := count_code 0 1 c1.clear
      refine goal b2 ?_ b6 (by rw [k3]; show ∀ t ∈ c1.clear.tasks, t ∈ (c1.clear.count 0 1).tasks; rw [hc.2.2.2.2.2.2.2.2]; exact fun _ h => h) (by rw [hsx]; rfl) h2
      refine ⟨b4.trans (clear_push c1), b5.trans hpc, ?_, ?_, ?_⟩
      · intro s l r e
        rw [k3]
        show (c1.clear.count 0 1).cnt = _
        rw [count_cnt (cnt1.trans e)]; rfl
      · intro tp fr' e
        obtain ⟨t1, f1, g1, g2⟩ := fr1 tp fr' e
        rw [e1] at g1
        cases g1
        refine ⟨top', fr, by rw [k3]; rfl, ?_, ?_⟩
        · intro y hy hl'
          rw [k6 y hy, g2 y hl']
        · intro _
          exact ⟨_, k4, rfl, by simp [hpc]⟩
      · rw [k3]
        have : Ext c0.lab c (c1.clear.count 0 1) := ⟨by rw [hc.1, hc.2.2.2.2.2.2.2.1]; exact e02.code, by rw [hc.2.2.2.2.2.2.2.1]; exact e02.lab, by rw [hc.2.2.2.2.2.2.2.2, hc.2.2.2.2.2.2.2.1]; exact e02.tasks⟩
        exact ⟨this.code, this.lab, this.tasks⟩

theorem sim_letp {n k : Nat} (hs : SimE P glo k0 m n) {bs : List (Sym × Expr)} {es : List Expr} {c c' : Comp} {sc fs : List Sym} {F : Code} {act : Act} {rest : List Frame} {w : CVal} {T : CState} {S : SState} {ρ φ : SEnv} {Z : List Slot}
    (h : compF P.special (comp P.special k).1 (comp P.special k).2 (.letp bs es) c = some c') (hpu : c.push = none) (hq : CPlain P glo sc fs (.letp bs es)) (ha : Agree c sc) (hat : At P glo k0 m sc fs act ρ φ Z S T c) (hfu : Fut P k0 m F c') :
    Out P glo k0 m (act.loc + c.pc) (conf F act rest c.code.length w T) F act rest Z S T c' False (sevalF true P (seval true P n) ρ φ (.letp bs es) S) := by
  cases hq with
  | letp hi hn hq hu =>
  simp only [compF, Option.bind_eq_some_iff, Option.some.injEq] at h
  obtain ⟨c1, h1, ⟨sp, c2⟩, h2, c3, h3, rfl⟩ := h
  simp only at h3
  have st := (st_both (P := P) (glo := glo) k).1
  have hp := hat.pre
  obtain ⟨b1, sc1, pu1, pc1, code1⟩ := Bound.create h1 hp.tab
  obtain ⟨b2, hsp⟩ := st_inits st hp ha bs h2 hi hn.2 (by simp) b1
  obtain ⟨i2, r2⟩ := sim_inits hs hp ha hat.wf bs h2 hi hn.1 hn.2 b1 (pu1.trans hpu)
  obtain ⟨hs', j1, j2, b3⟩ := st_specials sp hsp b2
  have ne2 : c2.frames ≠ [] := by obtain ⟨t, f, e, _⟩ := b2.frames; rw [e]; simp
  obtain ⟨s3, r3⟩ := run_specials (m := m) sp ne2 b2.tab hsp i2.push
  have b4 := b3.setScope (bindSpecials P.special sp c2).level
  have p4 := b4.pre (sc' := ext P (bs.map Prod.fst) sc) hp ha rfl (by
    intro x hx
    rcases mem_ext.mp hx with ⟨h, h'⟩ | h
    · refine ⟨?_, .inl (j1 x (by simpa using h))⟩
      rcases okName_cases (hn.2 x h) with hh | hh
      · rw [h'] at hh; cases hh
      · exact hh
    · exact ⟨hp.lex x h, .inr h⟩)
  have a4 : Agree ((bindSpecials P.special sp c2).setScope (bindSpecials P.special sp c2).level) (ext P (bs.map Prod.fst) sc) := .inl rfl
  have p5 := st_progn st es h3 hq p4 (.inr a4)
  have fu4 := (fut_delete hfu).ext p5.ext
  have fu3 : Fut P k0 m F (bindSpecials P.special sp c2) := ⟨fu4.px, fu4.tasks⟩
  have hb : Below Z (act.loc + c.pc) := by have := hat.below; rwa [ht_none hpu] at this
  have fu2 : Fut P k0 m F c2 := by
    have bo : ∀ (sp : List (Sym × Nat)) (c : Comp), c.frames ≠ [] → TabOK P glo c.frames → (∀ s ∈ sp, P.special s.1 = true) → c.push = none → ∀ t ∈ c.tasks, t ∈ (bindSpecials P.special sp c).tasks := by
      intro sp
      induction sp with
      | nil => intro c _ _ _ _ t ht; exact ht
      | cons b sp ih =>
        intro c hne ht hsp hpu t htt
        obtain ⟨x, off⟩ := b
        simp only [bindSpecials, clear_self hpu]
        have hx : P.special x = true := hsp (x, off) (by simp)
        obtain ⟨s1, _⟩ := run_special (m := m) (off := off) (o2 := c.pc) hne ht hx hpu
        obtain ⟨top, fr, hf⟩ : ∃ top fr, c.frames = top :: fr := by
          cases h : c.frames with
          | nil => exact absurd h hne
          | cons a b => exact ⟨a, b, rfl⟩
        obtain ⟨t', e', _⟩ := s1.frames top fr hf
        refine ih _ (by rw [e']; simp) s1.tab (fun s h => hsp s (by simp [h])) s1.push t ?_
        have op := op_pushx [] (.loc 0 off) c
        obtain ⟨top', e3, _, _⟩ := bind_special (arg := false) (off := c.pc) (glo := glo) (op.frames.trans hf) (by rw [op.frames]; exact ht) hx
        simp only [Bool.false_eq_true, if_false] at e3
        rw [e3, (op_bindSpecial [] x _).tasks, (count_code 1 0 _).2.2.2.2.2.2.2.2]
        show t ∈ (c.pushx (.loc 0 off)).tasks
        rw [op.tasks]; exact htt
    exact ⟨s3.px.trans fu3.px, fun t ht => fu3.tasks t (bo sp c2 ne2 b2.tab hsp i2.push t ht)⟩
  have o1 := r2 (act := act) (rest := rest) (w := w) (S := S) (T := T) hat.ctx hat.rel (by rw [pc1]; exact hb) fu2
  rw [pc1, code1] at o1
  simp only [sevalF]
  cases hr : evalArgs (seval true P n ρ φ) (bs.map Prod.snd) S with
  | ok vs S1 =>
    rw [hr] at o1
    obtain ⟨w1, T1, q1, hst, hl, rel1, ch1⟩ := o1
    have hl' : (bs.map Prod.fst).length = vs.length := by simp [hl]
    have hll : (bs.map Prod.fst).length = bs.length := by simp
    have pc2 : c2.pc = c.pc + bs.length := by rw [i2.pc, pc1, hll]
    have spof : ∀ s ∈ sp, s ∈ (bs.map Prod.fst).zipIdx c.pc := by
      intro s hs
      have := i2.offs s hs
      rw [pc1] at this
      simpa using this
    obtain ⟨w2, T2, l, q2, bn, nm, vl⟩ := r3 (act := act) (rest := rest) (w := w1) (T := T1) fu3.px (by
      intro s hs
      have := List.snd_lt_add_of_mem_zipIdx (spof s hs)
      rw [hll] at this
      exact ⟨by rw [pc2]; omega, hst.has hl' rfl s (spof s hs)⟩)
    have hspec : Specials P glo k0 m S1.next Z (bs.map Prod.fst) vs l := by
      have nm2 : l.map Prod.fst = ((bs.map Prod.fst).filter P.special).reverse := by rw [nm, i2.names]; simp
      refine ⟨?_, ?_, ?_⟩
      · intro b hb
        obtain ⟨off, g1, g2⟩ := vl b hb
        obtain ⟨v, g3, g4⟩ := hst.get hl' (spof _ g1) rfl g2
        exact ⟨v, g3, hsp _ g1, g4⟩
      · intro x hx hsx
        rw [nm2, List.mem_reverse, List.mem_filter]; exact ⟨hx, hsx⟩
      · rw [nm2]; exact (List.reverse_perm _).nodup_iff.mpr (hn.1.filter _)
    have hbl' : Below Z (act.loc + c2.pc) := hb.mono (by omega)
    have hz : ∀ s ∈ Z, s.addr < act.loc + c.pc ∨ act.loc + c.pc + vs.length ≤ s.addr := fun s hs => .inl (hb s hs)
    have rel2 := rel1.enter (ρ := ρ) hn.1 hl' hst hz bn (by rw [pc2, hl]; omega) hbl' hspec
    obtain ⟨top1, fr1, e1, _⟩ := b1.frames
    have top1e : top1 = [] := by
      unfold Comp.createFrame at h1
      split at h1
      · cases h1; simp at e1; exact e1.1.symm ▸ rfl
      · cases h1
    obtain ⟨top2, fr2, e2, f1, f2⟩ := i2.frames top1 fr1 e1
    obtain ⟨top3, e3, f3⟩ := s3.frames top2 fr2 e2
    obtain ⟨top4, fr4, e4, g2, g3, _⟩ := b4.frames
    have e34 : top3 :: fr2 = top4 :: fr4 := by rw [← e4]; exact e3.symm
    cases e34
    have lookP : ∀ x, look ((bindSpecials P.special sp c2).setScope (bindSpecials P.special sp c2).level) x = search x (top3 :: fr2) := by
      intro x; unfold look
      have : ((bindSpecials P.special sp c2).setScope (bindSpecials P.special sp c2).level).level - ((bindSpecials P.special sp c2).setScope (bindSpecials P.special sp c2).level).scope = 0 := Nat.sub_self _
      rw [this, e4]; rfl
    have nsp : ∀ x, Lexical P glo x → x ∉ sp.map Prod.fst := by
      intro x hx hm
      obtain ⟨s, hs, rfl⟩ := List.mem_map.mp hm
      have := hsp s hs
      rw [hx.1] at this; cases this
    have cl4 : (bindSpecials P.special sp c2).cl = c.cl := b3.cl
    have ctx1 : Ctx P glo (lexSlots P (bs.map Prod.fst) (act.loc + c.pc) S1.next Z) (look ((bindSpecials P.special sp c2).setScope (bindSpecials P.special sp c2).level)) c.flets c.cl (base act) (ext P (bs.map Prod.fst) sc) fs
        (sbind P (bs.map Prod.fst) vs ρ S1).1 φ := by
      have := hat.ctx.sbind (P := P) (glo := glo) (S := S1) (off := c.pc) (arg := false) (av := act.argv) (lo := act.loc) (L' := look ((bindSpecials P.special sp c2).setScope (bindSpecials P.special sp c2).level)) rfl hl' hn.1 hn.2 hp.lex ?_ ?_
      · simpa using this
      · intro b hb hlx
        obtain ⟨j, k1, k2, k3⟩ := f2 b (by rw [pc1]; exact hb) hlx
        have k4 : assq b.1 top3 = some j := by rw [f3 b.1 (nsp b.1 hlx)]; exact k1
        have k5 := (g3 b.1 j k4 hlx).2
        rw [lookP]
        simp only [search, k4]
        have k6 : j.level = c.cl := k5.trans cl4
        cases j; simp_all
      · intro y hy hn'
        rw [lookP]
        have hly := hp.lex y hy
        simp only [search, f3 y (nsp y hly), f1 y hn' hly, top1e, assq]
        rw [FEq.search hly g2, agree_look hp ha hy]
    have ha1 : At P glo k0 m (ext P (bs.map Prod.fst) sc) fs act (sbind P (bs.map Prod.fst) vs ρ S1).1 φ (lexSlots P (bs.map Prod.fst) (act.loc + c.pc) S1.next Z) (sbind P (bs.map Prod.fst) vs ρ S1).2 T2
        ((bindSpecials P.special sp c2).setScope (bindSpecials P.special sp c2).level) := by
      refine ⟨p4, wf_ext b4.ext hat.wf, ?_, rel2, ?_⟩
      · rw [b4.flets, b4.cl]; exact ctx1
      · have : ht ((bindSpecials P.special sp c2).setScope (bindSpecials P.special sp c2).level) = c2.pc + 3 * (sp.map Prod.fst).length := by
          exact (ht_none (c := (bindSpecials P.special sp c2).setScope (bindSpecials P.special sp c2).level) s3.push).trans s3.pc
        rw [this, pc2]
        intro s hs
        rcases mem_lexSlots hs with h | ⟨_, h, _⟩
        · have := hb s h; omega
        · omega
    have cnt1 : c1.cnt = (0, 0) :: c.cnt := by
      unfold Comp.createFrame at h1
      split at h1
      · cases h1; rfl
      · cases h1
    have cnt4 := s3.cnt _ _ _ (i2.cnt _ _ _ cnt1)
    have hlsp : l.length = 0 + (sp.map Prod.fst).length := by rw [← nm]; simp
    refine Out.pre (g := False) q1 ch1 (Nat.le_refl _) id ?_
    refine sim_body hs (lv := fun S' => sleave P (bs.map Prod.fst) S1 S') h3 s3.push hq hu (.inr a4) ha1 hfu cnt4 q2 ?_
    intro S' T' hrel hchg
    refine ⟨?_, fun v v' hv => VRel.leave hrel hv⟩
    rw [← hlsp]
    refine rel1.leave (ρ := ρ) (H := act.loc + c.pc) bn (by rw [pc2, hll]; omega) hbl' hspec (Nat.le_refl _) (by omega) ?_ hrel hchg
    have : ((bindSpecials P.special sp c2).setScope (bindSpecials P.special sp c2).level).pc = c2.pc + 3 * (sp.map Prod.fst).length := s3.pc
    rw [this, hlsp]; omega
  | err => rw [hr] at o1; exact .inl o1
  | _ => trivial

end Eus.Cmp
