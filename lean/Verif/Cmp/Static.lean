import Verif.Cmp.Bind
set_option autoImplicit false
/-
What compiling a form of the programs of Spec changes in the compiler.
-/
namespace Eus.Cmp
open Eus.Lex (Sym Expr Prog ext extF)
open Comp

variable {P : Prog} {glo : Sym → Bool}

def StOK (P : Prog) (glo : Sym → Bool) (cmp : Expr → Comp → Option Comp) : Prop :=
  ∀ e c c' sc fs, cmp e c = some c' → CPlain P glo sc fs e → Pre P glo sc c → (Flat e ∨ Agree c sc) → Post P glo sc c.lab 1 c c'

def StEv (P : Prog) (glo : Sym → Bool) (evc : Bool → Nat → Expr → Comp → Option Comp) : Prop :=
  ∀ b l e c c' sc fs, evc b l e c = some c' → CPlain P glo sc fs e → Pre P glo sc c → (Flat e ∨ Agree c sc) → Post P glo sc c.lab 0 c c' ∧ c'.push = none

theorem Op.post {sc : List Sym} {c c' : Comp} {L n : Nat} (h : Op [] c c') (hp : TabOK P glo c.frames) (hh : ht c' = ht c + n) : Post P glo sc L n c c' := ⟨h.ext0 L, h.keep hp, hh⟩

theorem or_list {c : Comp} {sc : List Sym} {e : Expr} {es : List Expr} (h : (∀ a ∈ e :: es, Flat a) ∨ Agree c sc) : (Flat e ∨ Agree c sc) ∧ ((∀ a ∈ es, Flat a) ∨ Agree c sc) :=
  ⟨h.imp (fun h => h e (by simp)) id, h.imp (fun h a ha => h a (by simp [ha])) id⟩

theorem or_keep {c c' : Comp} {sc : List Sym} {A : Prop} (hp : Pre P glo sc c) (hk : Keep P glo sc c c') (h : A ∨ Agree c sc) : A ∨ Agree c' sc := h.imp id (hk.agree hp)

section
variable {cmp : Expr → Comp → Option Comp} (hc : StOK P glo cmp)
include hc

theorem st_args : ∀ (es : List Expr) {c c' : Comp} {sc fs : List Sym}, compArgs cmp es c = some c' → (∀ e ∈ es, CPlain P glo sc fs e) → Pre P glo sc c → ((∀ e ∈ es, Flat e) ∨ Agree c sc) →
    Post P glo sc c.lab es.length c c'
  | [], c, c', sc, fs, h, hq, hp, hf => by cases h; exact ⟨Ext.refl _ c, Keep.refl hp.tab, rfl⟩
  | e :: es, c, c', sc, fs, h, hq, hp, hf => by
    simp only [compArgs, Option.bind_eq_some_iff] at h
    obtain ⟨c1, h1, h2⟩ := h
    have p1 := hc e c c1 sc fs h1 (hq e (by simp)) hp (or_list hf).1
    have p2 := st_args es h2 (fun a ha => hq a (by simp [ha])) (p1.keep.pre hp) (or_keep hp p1.keep (or_list hf).2)
    have := p1.trans' hp p2 (Nat.le_refl _)
    rwa [Nat.add_comm] at this

theorem st_progn : ∀ (es : List Expr) {c c' : Comp} {sc fs : List Sym}, compProgn cmp es c = some c' → (∀ e ∈ es, CPlain P glo sc fs e) → Pre P glo sc c → ((∀ e ∈ es, Flat e) ∨ Agree c sc) →
    Post P glo sc c.lab 1 c c'
  | [], c, c', sc, fs, h, hq, hp, hf => by cases h; exact (op_pushx [] .nil c).post hp.tab (ht_pushx _ c)
  | [e], c, c', sc, fs, h, hq, hp, hf => hc e c c' sc fs h (hq e (by simp)) hp (or_list hf).1
  | e :: e' :: es, c, c', sc, fs, h, hq, hp, hf => by
    simp only [compProgn, Option.bind_eq_some_iff] at h
    obtain ⟨c1, h1, h2⟩ := h
    have p1 := hc e c c1 sc fs h1 (hq e (by simp)) hp (or_list hf).1
    have k1 := p1.keep.pre hp
    have p2 : Post P glo sc c.lab 0 c (c1.discard 1) :=
      ⟨p1.ext.trans ((op_discard [] 1 c1).ext0 c.lab) (Nat.le_refl _), p1.keep.trans hp ((op_discard [] 1 c1).keep k1.tab), by rw [ht_discard _ _ (.inr (Nat.le_refl _)), p1.ht]; omega⟩
    have p3 := st_progn (e' :: es) h2 (fun a ha => hq a (List.mem_cons_of_mem _ ha)) (p2.keep.pre hp) (or_keep hp p2.keep (or_list hf).2)
    have := p2.trans' hp p3 (Nat.le_refl _)
    rwa [Nat.zero_add] at this

theorem st_and (l : Nat) : ∀ (es : List Expr) {c c' : Comp} {sc fs : List Sym}, compAnd cmp l es c = some c' → (∀ e ∈ es, CPlain P glo sc fs e) → Pre P glo sc c → ((∀ e ∈ es, Flat e) ∨ Agree c sc) →
    Post P glo sc c.lab 1 c c'
  | [], c, c', sc, fs, h, hq, hp, hf => by cases h; exact (op_pushx [] .nil c).post hp.tab (ht_pushx _ c)
  | [e], c, c', sc, fs, h, hq, hp, hf => hc e c c' sc fs h (hq e (by simp)) hp (or_list hf).1
  | e :: e' :: es, c, c', sc, fs, h, hq, hp, hf => by
    simp only [compAnd, Option.bind_eq_some_iff] at h
    obtain ⟨c1, h1, h2⟩ := h
    have p1 := hc e c c1 sc fs h1 (hq e (by simp)) hp (or_list hf).1
    have k1 := p1.keep.pre hp
    have op := ((op_dupe [] c1).trans (op_ifNil [] l _)).trans (op_discard [] 1 _)
    have p2 : Post P glo sc c.lab 0 c ((c1.dupe.ifNil l).discard 1) :=
      ⟨p1.ext.trans (op.ext0 c.lab) (Nat.le_refl _), p1.keep.trans hp (op.keep k1.tab), by rw [ht_discard _ _ (.inr (Nat.le_refl _)), ht_ifNil, ht_dupe, p1.ht]; omega⟩
    have p3 := st_and l (e' :: es) h2 (fun a ha => hq a (List.mem_cons_of_mem _ ha)) (p2.keep.pre hp) (or_keep hp p2.keep (or_list hf).2)
    have := p2.trans' hp p3 (Nat.le_refl _)
    rwa [Nat.zero_add] at this

theorem st_or (l : Nat) : ∀ (es : List Expr) {c c' : Comp} {sc fs : List Sym}, compOr cmp l es c = some c' → (∀ e ∈ es, CPlain P glo sc fs e) → Pre P glo sc c → ((∀ e ∈ es, Flat e) ∨ Agree c sc) →
    Post P glo sc c.lab 1 c c'
  | [], c, c', sc, fs, h, hq, hp, hf => by cases h; exact (op_pushx [] .nil c).post hp.tab (ht_pushx _ c)
  | [e], c, c', sc, fs, h, hq, hp, hf => hc e c c' sc fs h (hq e (by simp)) hp (or_list hf).1
  | e :: e' :: es, c, c', sc, fs, h, hq, hp, hf => by
    simp only [compOr, Option.bind_eq_some_iff] at h
    obtain ⟨c1, h1, h2⟩ := h
    have p1 := hc e c c1 sc fs h1 (hq e (by simp)) hp (or_list hf).1
    have k1 := p1.keep.pre hp
    have op := ((op_dupe [] c1).trans (op_ifT [] l _)).trans (op_discard [] 1 _)
    have p2 : Post P glo sc c.lab 0 c ((c1.dupe.ifT l).discard 1) :=
      ⟨p1.ext.trans (op.ext0 c.lab) (Nat.le_refl _), p1.keep.trans hp (op.keep k1.tab), by rw [ht_discard _ _ (.inr (Nat.le_refl _)), ht_ifT, ht_dupe, p1.ht]; omega⟩
    have p3 := st_or l (e' :: es) h2 (fun a ha => hq a (List.mem_cons_of_mem _ ha)) (p2.keep.pre hp) (or_keep hp p2.keep (or_list hf).2)
    have := p2.trans' hp p3 (Nat.le_refl _)
    rwa [Nat.zero_add] at this

/-- One initial value of `let`. -/
theorem st_init {e : Expr} {c0 c c' : Comp} {sc sc' fs hs : List Sym} (h : cmp e (c.setScope (c.level - 1)) = some c') (hb : Bound P glo hs 0 c0 c) (hp : Pre P glo sc c0) (ha : Agree c0 sc)
    (hq : CPlain P glo sc' fs e) (hs' : (sc' = sc ∧ Flat e) ∨ sc' = sc.filter (fun y => !hs.contains y)) :
    Pre P glo sc' (c.setScope (c.level - 1)) ∧ (Flat e ∨ Agree (c.setScope (c.level - 1)) sc') ∧ Bound P glo hs 1 c0 c'.clear ∧ Post P glo sc' c.lab 1 (c.setScope (c.level - 1)) c' := by
  have p0 := hb.preInit hp ha
  have p0' : Pre P glo sc' (c.setScope (c.level - 1)) := by
    rcases hs' with ⟨rfl, _⟩ | rfl
    · exact p0
    · exact ⟨p0.tab, fun x hx => p0.lex x (List.mem_filter.mp hx).1, fun x hx => p0.vis x (List.mem_filter.mp hx).1, p0.ne, p0.lev⟩
  have f0 : Flat e ∨ Agree (c.setScope (c.level - 1)) sc' := by
    rcases hs' with ⟨_, hf⟩ | rfl
    · exact .inl hf
    · exact .inr (hb.agreeInit hp _)
  have p1 := hc e _ c' sc' fs h hq p0' f0
  have b1 := (hb.setScope (c.level - 1)).post p1.ext p1.keep p1.ht hb.ext.lab
  have b2 := b1.op (op_clear [] c') (m := 0) (by rw [ht_clear]; rfl)
  exact ⟨p0', f0, b2, p1⟩

theorem st_inits {sc fs : List Sym} {c0 : Comp} (hp : Pre P glo sc c0) (ha : Agree c0 sc) : ∀ (bs : List (Sym × Expr)) {hs : List Sym} {sp sp' : List (Sym × Nat)} {c c' : Comp},
    compInits P.special cmp bs sp c = some (sp', c') → CInits P glo sc fs hs bs → (∀ x ∈ bs.map Prod.fst, okName P glo x) → (∀ s ∈ sp, P.special s.1 = true) → Bound P glo hs 0 c0 c →
      Bound P glo ((bs.map Prod.fst).reverse ++ hs) 0 c0 c' ∧ ∀ s ∈ sp', P.special s.1 = true
  | [], hs, sp, sp', c, c', h, hq, hn, hsp, hb => by cases h; exact ⟨by simpa using hb, hsp⟩
  | (x, e) :: bs, hs, sp, sp', c, c', h, hq, hn, hsp, hb => by
    simp only [compInits, Option.bind_eq_some_iff] at h
    obtain ⟨c1, h1, h2⟩ := h
    have hk : ∃ sc', CPlain P glo sc' fs e ∧ ((sc' = sc ∧ Flat e) ∨ sc' = sc.filter (fun y => !hs.contains y)) ∧ CInits P glo sc fs (x :: hs) bs := by
      cases hq with
      | flat hf hq hr => exact ⟨sc, hq, .inl ⟨rfl, hf⟩, hr⟩
      | deep hq hr => exact ⟨_, hq, .inr rfl, hr⟩
    obtain ⟨sc', hq', hs', hr⟩ := hk
    obtain ⟨_, _, b1, _⟩ := st_init hc h1 hb hp ha hq' hs'
    obtain ⟨top, fr, e1, _⟩ := b1.frames
    have hx := hn x (by simp)
    rw [specialVar_eq e1 b1.tab hx] at h2
    have hnr : ∀ y ∈ bs.map Prod.fst, okName P glo y := fun y hy => hn y (by simp at hy ⊢; exact .inr hy)
    have goal : ∀ {d : Comp} {sp1 : List (Sym × Nat)}, Bound P glo (x :: hs) 0 c0 d → (∀ s ∈ sp1, P.special s.1 = true) → compInits P.special cmp bs sp1 d = some (sp', c') →
        Bound P glo ((((x, e) :: bs).map Prod.fst).reverse ++ hs) 0 c0 c' ∧ ∀ s ∈ sp', P.special s.1 = true := by
      intro d sp1 hb' hsp' h3
      have := st_inits hp ha bs h3 hr hnr hsp' hb'
      simpa using this
    cases hsx : P.special x with
    | true =>
      rw [hsx] at h2
      simp only [if_true] at h2
      refine goal ?_ ?_ h2
      · obtain ⟨s, l, e2, e3⟩ := b1.cnt
        obtain ⟨t1, f1, g1, g2, g3, g4⟩ := b1.frames
        rw [count_cnt e2]
        refine ⟨⟨b1.ext.code, b1.ext.lab, b1.ext.tasks⟩, ⟨t1, f1, g1, g2, fun y i hy hl => ⟨by simp [(g3 y i hy hl).1], (g3 y i hy hl).2⟩, ?_⟩, b1.tab, ⟨s, l + 1, rfl, ?_⟩, b1.flets, b1.cl⟩
        · intro y hy hl
          have : y ≠ x := by rintro rfl; rw [hl.1] at hsx; cases hsx
          exact g4 y (by simpa [this] using hy) hl
        · show ht c1.clear = _
          rw [e3]; omega
      · intro s hs
        simp only [List.mem_cons] at hs
        rcases hs with rfl | hs
        · exact hsx
        · exact hsp s hs
    | false =>
      rw [hsx] at h2
      simp only [Bool.false_eq_true, if_false] at h2
      have hl : Lexical P glo x := by
        rcases okName_cases hx with h | h
        · rw [hsx] at h; cases h
        · exact h
      exact goal (Bound.bindLex (arg := false) (n := 0) (by simpa using b1) hl).1 hsp h2

omit hc in
theorem st_specials {c0 : Comp} : ∀ (sp : List (Sym × Nat)) {hs : List Sym} {c : Comp}, (∀ s ∈ sp, P.special s.1 = true) → Bound P glo hs 0 c0 c → ∃ hs', (∀ x ∈ hs, x ∈ hs') ∧ (∀ x ∈ hs', Lexical P glo x → x ∈ hs) ∧ Bound P glo hs' 0 c0 (bindSpecials P.special sp c)
  | [], hs, c, h, hb => ⟨hs, fun _ h => h, fun _ h _ => h, hb⟩
  | (x, off) :: sp, hs, c, h, hb => by
    simp only [bindSpecials]
    have hx : P.special x = true := h (x, off) (by simp)
    have b1 := hb.op ((op_clear [] c).trans (op_pushx [] (.loc 0 off) _)) (m := 1) (by rw [ht_pushx, ht_clear])
    have b2 := (Bound.bindSpecial (arg := false) (n := 0) (off := c.clear.pc) (by simpa using b1) hx).1
    obtain ⟨hs', i1, i2, i3⟩ := st_specials sp (fun s hs => h s (by simp [hs])) b2
    refine ⟨hs', fun y hy => i1 y (by simp [hy]), fun y hy hl => ?_, by simpa using i3⟩
    have := i2 y hy hl
    have hne : y ≠ x := by rintro rfl; rw [hl.1] at hx; cases hx
    simpa [hne] using this

theorem st_seq {fs : List Sym} {c0 : Comp} (es : List Expr) : ∀ (bs : List (Sym × Expr)) {hs sc : List Sym} {c c1 c2 : Comp}, compSeq P.special cmp bs c = some c1 → compProgn cmp es c1 = some c2 →
    CPlain P glo sc fs (.lets bs es) → Pre P glo sc c → c.scope = c.level → Bound P glo hs 0 c0 c → ∃ hs', Bound P glo hs' 1 c0 c2
  | [], hs, sc, c, c1, c2, h1, h2, hq, hp, hsc, hb => by
    cases h1
    cases hq with
    | letsNil hq _ =>
      have p := st_progn hc es h2 hq hp (.inr (.inl hsc))
      exact ⟨hs, hb.post p.ext p.keep p.ht hb.ext.lab⟩
  | (x, e) :: bs, hs, sc, c, c1, c2, h1, h2, hq, hp, hsc, hb => by
    cases hq with
    | letsCons hqe hx hq =>
      simp only [compSeq, Option.bind_eq_some_iff] at h1
      obtain ⟨d, h1, h3⟩ := h1
      have p := hc e c d sc fs h1 hqe hp (.inr (.inl hsc))
      have hds : d.scope = d.level := by
        rcases p.keep.scope with h | ⟨h, _⟩
        · rw [h, hsc, p.keep.level]
        · rw [h, p.keep.level]
      have kp := p.keep.pre hp
      have b1 := (hb.post p.ext p.keep p.ht hb.ext.lab).op (op_clear [] d) (m := 0) (by rw [ht_clear]; rfl)
      have go : ∀ {hs' : List Sym} {d' : Comp}, Bound P glo hs' 0 c0 d' → d'.scope = d'.level → Pre P glo (ext P [x] sc) d' → compSeq P.special cmp bs d' = some c1 → ∃ hs', Bound P glo hs' 1 c0 c2 :=
        fun hb' hs' hp' h => st_seq es bs h h2 hq hp' hs' hb'
      obtain ⟨top, fr, e1, _, _, _⟩ := b1.frames
      rcases okName_cases hx with hx | hx
      · obtain ⟨b2, b3, _⟩ := Bound.bindSpecial (arg := false) (n := 0) (off := d.clear.pc - 1) (by simpa using b1) hx
        have hlev : (d.clear.bind P.special x false (d.clear.pc - 1)).level = d.level := by rw [b2.level, ← b1.level]; simp
        refine go b2 (by rw [b3, clear_scope, hds, hlev]) ?_ h3
        obtain ⟨top', e3, _, e6⟩ := bind_special (arg := false) (off := d.clear.pc - 1) e1 b1.tab hx
        have hfr : (d.clear.bind P.special x false (d.clear.pc - 1)).frames = top' :: fr := by
          rw [e3]
          simp only [Bool.false_eq_true, if_false]
          rw [(op_bindSpecial [] x _).frames, count_setFrames]; rfl
        refine ⟨b2.tab, ?_, ?_, by rw [hfr]; simp, .inl (by rw [b3, clear_scope, hds, hlev])⟩
        · intro y hy; rcases mem_ext.mp hy with ⟨h, h'⟩ | h
          · simp at h; subst h; rw [hx] at h'; cases h'
          · exact hp.lex y h
        · intro y hy
          have hy' : y ∈ sc := by
            rcases mem_ext.mp hy with ⟨h, h'⟩ | h
            · simp at h; subst h; rw [hx] at h'; cases h'
            · exact h
          have := kp.vis y hy'
          unfold look at this ⊢
          rw [b3, clear_scope, hlev, hds, Nat.sub_self] at *
          have e1' : d.frames = top :: fr := by simpa using e1
          rw [hfr]
          rw [e1'] at this
          have hne : y ≠ x := by rintro rfl; have := (hp.lex y hy').1; rw [hx] at this; cases this
          simpa [search, e6 y hne] using this
      · obtain ⟨b2, b3, _⟩ := Bound.bindLex (arg := false) (n := 0) (off := d.clear.pc - 1) (by simpa using b1) hx
        have hlev : (d.clear.bind P.special x false (d.clear.pc - 1)).level = d.level := by rw [b2.level, ← b1.level]; simp
        refine go b2 (by rw [b3, clear_scope, hds, hlev]) ?_ h3
        obtain ⟨top', lv, e3, e4, _, e6⟩ := bind_lex (arg := false) (off := d.clear.pc - 1) e1 b1.tab hx
        have hfr : (d.clear.bind P.special x false (d.clear.pc - 1)).frames = top' :: fr := by rw [e3]; rfl
        refine ⟨b2.tab, ?_, ?_, by rw [hfr]; simp, .inl (by rw [b3, clear_scope, hds, hlev])⟩
        · intro y hy; rcases mem_ext.mp hy with ⟨h, h'⟩ | h
          · simp at h; subst h; exact hx
          · exact hp.lex y h
        · intro y hy
          unfold look
          rw [b3, clear_scope, hlev, hds, Nat.sub_self, hfr]
          simp only [List.drop_zero, search]
          by_cases hyx : y = x
          · subst hyx; rw [e4]; simp
          · have hy' : y ∈ sc := by
              rcases mem_ext.mp hy with ⟨h, h'⟩ | h
              · simp at h; exact absurd h hyx
              · exact h
            have := kp.vis y hy'
            unfold look at this
            rw [hds, Nat.sub_self] at this
            have e1' : d.frames = top :: fr := by simpa using e1
            rw [e1'] at this
            simpa [search, e6 y hyx] using this

end

theorem addTask_ext {L en : Nat} {ps : List Sym} {b : List Expr} {c d : Comp} (h : Ext L c d) (h1 : c.lab ≤ en) (h2 : en < d.lab) (h3 : d.tasks = c.tasks) : Ext L c (d.addTask en ps b) :=
  ⟨h.code, h.lab, ⟨[⟨en, ps, b, d.frames, d.scope, d.cl + 1, d.flets⟩], by simp [addTask, h3], by simp [addTask]; exact ⟨h1, h2⟩, by simp⟩⟩

/-- What `flet` and `labels` do before the body. -/
theorem st_funs : ∀ (ds : List (Sym × List Sym × List Expr)) (c : Comp), Ext c.lab c (compFuns ds c) ∧ (compFuns ds c).frames = c.frames ∧ (compFuns ds c).scope = c.scope ∧ (compFuns ds c).cl = c.cl ∧
    (compFuns ds c).cnt = c.cnt ∧ ht (compFuns ds c) = ht c + ds.length
  | [], c => ⟨Ext.refl _ c, rfl, rfl, rfl, rfl, rfl⟩
  | (f, ps, b) :: ds, c => by
    simp only [compFuns]
    have op := (op_closure [] c.lab c.gen).trans (op_clear [] _)
    obtain ⟨h1, h2, h3, h4, h5, h6⟩ := st_funs ds ((((c.gen.closure c.lab).clear.setFlets (⟨f, (c.gen.closure c.lab).clear.pc - 1, (c.gen.closure c.lab).clear.cl, c.lab⟩ :: (c.gen.closure c.lab).clear.flets)).addTask c.lab ps b))
    have e1 : Ext c.lab c (((c.gen.closure c.lab).clear.setFlets (⟨f, (c.gen.closure c.lab).clear.pc - 1, (c.gen.closure c.lab).clear.cl, c.lab⟩ :: (c.gen.closure c.lab).clear.flets)).addTask c.lab ps b) := by
      have e0 := (gen_ext c.lab c).trans (op.ext0 c.lab) (Nat.le_refl _)
      exact addTask_ext (d := (c.gen.closure c.lab).clear.setFlets _) ⟨e0.code, e0.lab, e0.tasks⟩ (Nat.le_refl _) (show c.lab < (c.gen.closure c.lab).clear.lab by rw [op.lab]; simp [gen]) op.tasks
    refine ⟨e1.trans h1 e1.lab, h2.trans op.frames, h3.trans op.scope, h4.trans op.cl, h5.trans op.cnt, ?_⟩
    rw [h6]
    show ht (c.gen.closure c.lab).clear + _ = _
    rw [ht_clear, ht_closure, ht_gen, List.length_cons]; omega

theorem changeFlets_ext {L : Nat} {c c1 : Comp} (h : Ext L c c1) : Ext L c (c1.changeFlets c.tasks.length) := by
  obtain ⟨ts, e1, e2, e3⟩ := h.tasks
  refine ⟨h.code, h.lab, ⟨ts.map fun t => { t with flets := c1.flets }, ?_, ?_, ?_⟩⟩
  · simp [changeFlets, e1]
  · intro t ht
    obtain ⟨t', ht', rfl⟩ := List.mem_map.mp ht
    exact e2 t' ht'
  · rw [List.map_map]; exact e3

theorem loadVar_post {x : Sym} {c : Comp} {sc : List Sym} (hp : Pre P glo sc c) (h : x ∈ sc ∨ P.special x = true ∨ glo x = true) : Post P glo sc c.lab 1 c (c.loadVar P.special x) := by
  obtain ⟨k, e, hh, _⟩ := variable_keep hp h
  unfold loadVar
  simp only
  have kp := k.pre hp
  exact ⟨e.trans ((op_pushx [] _ _).ext0 c.lab) (Nat.le_refl _), k.trans hp ((op_pushx [] _ _).keep kp.tab), by rw [ht_pushx, hh]⟩

theorem storeVar_post {x : Sym} {c : Comp} {sc : List Sym} (hp : Pre P glo sc c) (h : x ∈ sc ∨ P.special x = true ∨ glo x = true) :
    Ext c.lab c (c.storeVar P.special x) ∧ Keep P glo sc c (c.storeVar P.special x) ∧ ht (c.storeVar P.special x) = ht c - 1 := by
  obtain ⟨k, e, hh, _⟩ := variable_keep hp h
  unfold storeVar
  simp only
  have kp := k.pre hp
  split
  · have op := (op_popx [] (c.variable_ P.special x).2).trans (op_emit (ls := []) (.storeglobal x (c.variable_ P.special x).2.popx.1) _ (by simp))
    exact ⟨e.trans (op.ext0 c.lab) (Nat.le_refl _), k.trans hp (op.keep kp.tab), by show ht (c.variable_ P.special x).2.popx.2 = _; rw [ht_popx, hh]⟩
  · exact ⟨e.trans ((op_store [] _ _).ext0 c.lab) (Nat.le_refl _), k.trans hp ((op_store [] _ _).keep kp.tab), by rw [ht_store, hh]⟩
  · exact ⟨e.trans ((op_store [] _ _).ext0 c.lab) (Nat.le_refl _), k.trans hp ((op_store [] _ _).keep kp.tab), by rw [ht_store, hh]⟩

theorem st_evAll {evc : Bool → Nat → Expr → Comp → Option Comp} (he : StEv P glo evc) (b : Bool) (l : Nat) : ∀ (es : List Expr) {c c' : Comp} {sc fs : List Sym}, evconAll evc b l es c = some c' →
    (∀ e ∈ es, CPlain P glo sc fs e) → Pre P glo sc c → ((∀ e ∈ es, Flat e) ∨ Agree c sc) → Post P glo sc c.lab 0 c c' ∧ (es ≠ [] → c'.push = none) ∧ (es = [] → c' = c)
  | [], c, c', sc, fs, h, hq, hp, hf => by cases h; exact ⟨⟨Ext.refl _ c, Keep.refl hp.tab, rfl⟩, fun h => absurd rfl h, fun _ => rfl⟩
  | e :: es, c, c', sc, fs, h, hq, hp, hf => by
    simp only [evconAll, Option.bind_eq_some_iff] at h
    obtain ⟨c1, h1, h2⟩ := h
    obtain ⟨p1, q1⟩ := he b l e c c1 sc fs h1 (hq e (by simp)) hp (or_list hf).1
    obtain ⟨p2, q2, q3⟩ := st_evAll he b l es h2 (fun a ha => hq a (by simp [ha])) (p1.keep.pre hp) (or_keep hp p1.keep (or_list hf).2)
    refine ⟨p1.trans' hp p2 (Nat.le_refl _), fun _ => ?_, fun h => by cases h⟩
    by_cases hes : es = []
    · rw [q3 hes]; exact q1
    · exact q2 hes

end Eus.Cmp
