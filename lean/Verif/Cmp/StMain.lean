import Verif.Cmp.Static
set_option autoImplicit false
namespace Eus.Cmp
open Eus.Lex (Sym Expr Prog ext extF)
open Comp

variable {P : Prog} {glo : Sym → Bool}

theorem flat_list {es : List Expr} {c : Comp} {sc : List Sym} {e : Expr} (h : Flat e ∨ Agree c sc) (hf : Flat e → ∀ a ∈ es, Flat a) : (∀ a ∈ es, Flat a) ∨ Agree c sc := h.imp hf id

theorem Post.weaken {sc : List Sym} {L L1 n : Nat} {c c' : Comp} (h : Post P glo sc L1 n c c') (hL : L ≤ L1) : Post P glo sc L n c c' := ⟨h.ext.weaken hL, h.keep, h.ht⟩

/-- Another method of the translator. -/
theorem Post.op {sc : List Sym} {L n m : Nat} {ls : List Nat} {c c' c'' : Comp} (hp : Pre P glo sc c) (h : Post P glo sc L n c c') (ho : Op ls c' c'') (hl : ∀ l ∈ ls, L ≤ l ∧ l < c'.lab) (hh : Cmp.ht c'' = Cmp.ht c + m) :
    Post P glo sc L m c c'' :=
  ⟨h.ext.trans (ho.ext L hl) (Nat.le_refl _), h.keep.trans hp (ho.keep (h.keep.pre hp).tab), hh⟩

theorem Post.op0 {sc : List Sym} {L n m : Nat} {c c' c'' : Comp} (hp : Pre P glo sc c) (h : Post P glo sc L n c c') (ho : Op [] c' c'') (hh : Cmp.ht c'' = Cmp.ht c + m) :
    Post P glo sc L m c c'' := h.op hp ho (by simp) hh

/-- A form compiled after it. -/
theorem Post.next {sc : List Sym} {L n m : Nat} {a b c : Comp} (hp : Pre P glo sc a) (h : Post P glo sc L n a b) (h' : Post P glo sc b.lab m b c) (hL : L ≤ b.lab) : Post P glo sc L (n + m) a c :=
  h.trans hp h' hL

theorem gen_post {sc : List Sym} {L : Nat} {c : Comp} (hp : Pre P glo sc c) : Post P glo sc L 0 c c.gen := ⟨gen_ext L c, gen_keep hp.tab, rfl⟩

theorem st_ite {cmp : Expr → Comp → Option Comp} {evc : Bool → Nat → Expr → Comp → Option Comp} (hc : StOK P glo cmp) (he : StEv P glo evc) {a b d : Expr} {c c' : Comp} {sc fs : List Sym}
    (h : compF P.special cmp evc (.ite a b d) c = some c') (hqa : CPlain P glo sc fs a) (hqb : CPlain P glo sc fs b) (hqd : CPlain P glo sc fs d) (hp : Pre P glo sc c)
    (fa : Flat a ∨ Agree c sc) (fb : Flat b ∨ Agree c sc) (fd : Flat d ∨ Agree c sc) :
    ∃ c1 c2 c3, evc false c.lab a c.gen.gen = some c1 ∧ cmp b c1 = some c2 ∧ cmp d (((c2.jump (c.lab + 1)).adjust 1).label c.lab) = some c3 ∧ c' = c3.label (c.lab + 1) ∧
      Post P glo sc (c.lab + 2) 0 c c1 ∧ c1.push = none ∧ Post P glo sc (c.lab + 2) 1 c c2 ∧ Post P glo sc c.lab 0 c (((c2.jump (c.lab + 1)).adjust 1).label c.lab) ∧
      Post P glo sc c.lab 1 c c3 ∧ Post P glo sc c.lab 1 c c' := by
  simp only [compF, Option.bind_eq_some_iff, Option.some.injEq] at h
  obtain ⟨c1, h1, c2, h2, c3, h3, h4⟩ := h
  have hg : Post P glo sc (c.lab + 2) 0 c c.gen.gen := (gen_post hp).trans hp (gen_post ((gen_keep (sc := sc) hp.tab).pre hp)) (Nat.le_refl _)
  have kg := hg.keep.pre hp
  obtain ⟨p1, q1⟩ := he false c.lab a _ c1 sc fs h1 hqa kg (or_keep hp hg.keep fa)
  have p1' := hg.next hp p1 (Nat.le_refl _)
  have p2 := hc b c1 c2 sc fs h2 hqb (p1'.keep.pre hp) (or_keep hp p1'.keep fb)
  have l1 := p1'.ext.lab
  have l1' : c.lab + 2 ≤ c1.lab := p1.ext.lab
  have p2' := p1'.next hp p2 l1'
  have l2 := p2.ext.lab
  have hh : ht (((c2.jump (c.lab + 1)).adjust 1).label c.lab) = ht c + 0 := by
    rw [ht_label]
    have : ht ((c2.jump (c.lab + 1)).adjust 1) = ht (c2.jump (c.lab + 1)) - 1 := by
      have e : ((c2.jump (c.lab + 1)).adjust 1).push = none := jump_push (c.lab + 1) c2
      rw [ht_none e, ht_none (jump_push (c.lab + 1) c2)]; rfl
    rw [this, ht_jump, p2'.ht]; omega
  have p3 : Post P glo sc c.lab 0 c (((c2.jump (c.lab + 1)).adjust 1).label c.lab) :=
    (p2'.weaken (by omega)).op hp (((op_jump [c.lab] (c.lab + 1) c2).trans (op_adjust [c.lab] 1 _)).trans (op_label (ls := [c.lab]) c.lab _ (by simp))) (by simp; omega) hh
  have l3 := ((op_jump [c.lab] (c.lab + 1) c2).trans (op_adjust [c.lab] 1 _)).trans (op_label (ls := [c.lab]) c.lab _ (by simp)) |>.lab
  have p4 := hc d _ c3 sc fs h3 hqd (p3.keep.pre hp) (or_keep hp p3.keep fd)
  have p4' := p3.next hp p4 p3.ext.lab
  have l4 := p4.ext.lab
  refine ⟨c1, c2, c3, h1, h2, h3, h4.symm, p1', q1, p2', p3, p4', ?_⟩
  rw [← h4]
  exact p4'.op hp (op_label (ls := [c.lab + 1]) (c.lab + 1) c3 (by simp)) (by simp; omega) (by rw [ht_label, p4'.ht])

theorem st_while {cmp : Expr → Comp → Option Comp} {evc : Bool → Nat → Expr → Comp → Option Comp} (hc : StOK P glo cmp) (he : StEv P glo evc) {a : Expr} {es : List Expr} {c c' : Comp} {sc fs : List Sym}
    (h : compF P.special cmp evc (.while a es) c = some c') (hqa : CPlain P glo sc fs a) (hqb : ∀ e ∈ es, CPlain P glo sc fs e) (hp : Pre P glo sc c)
    (fa : Flat a ∨ Agree c sc) (fb : (∀ e ∈ es, Flat e) ∨ Agree c sc) :
    ∃ c1 c2, evc false (c.lab + 1) a (c.gen.gen.clear.gen.label c.lab) = some c1 ∧ compProgn cmp es c1 = some c2 ∧
      c' = ((((c2.discard 1).jump c.lab).label (c.lab + 1)).pushx .nil).label (c.lab + 2) ∧ Post P glo sc c.lab 0 c (c.gen.gen.clear.gen.label c.lab) ∧ (c.gen.gen.clear.gen.label c.lab).lab = c.lab + 3 ∧
      Post P glo sc c.lab 0 c c1 ∧ c1.push = none ∧ Post P glo sc c.lab 1 c c2 ∧ Post P glo sc c.lab 1 c c' := by
  simp only [compF, Option.bind_eq_some_iff, Option.some.injEq] at h
  obtain ⟨c1, h1, c2, h2, h4⟩ := h
  have hg : Post P glo sc c.lab 0 c c.gen.gen := (gen_post hp).trans hp (gen_post ((gen_keep (sc := sc) hp.tab).pre hp)) (Nat.le_refl _)
  have hg2 : Post P glo sc c.lab 0 c c.gen.gen.clear := hg.op0 hp (op_clear [] _) (by rw [ht_clear]; rfl)
  have hg3 : Post P glo sc c.lab 0 c c.gen.gen.clear.gen := hg2.trans hp (gen_post (hg2.keep.pre hp)) (Nat.le_refl _)
  have el : c.gen.gen.clear.gen.lab = c.lab + 3 := by simp [gen]
  have hg4 : Post P glo sc c.lab 0 c (c.gen.gen.clear.gen.label c.lab) := hg3.op hp (op_label (ls := [c.lab]) c.lab _ (by simp)) (by simp; omega) (by rw [ht_label, hg3.ht])
  have el4 : (c.gen.gen.clear.gen.label c.lab).lab = c.lab + 3 := by rw [(op_label (ls := [c.lab]) c.lab c.gen.gen.clear.gen (by simp)).lab, el]
  obtain ⟨p1, q1⟩ := he false (c.lab + 1) a _ c1 sc fs h1 hqa (hg4.keep.pre hp) (or_keep hp hg4.keep fa)
  have p1' := hg4.next hp p1 hg4.ext.lab
  have p2 := st_progn hc es h2 hqb (p1'.keep.pre hp) (or_keep hp p1'.keep fb)
  have p2' := p1'.next hp p2 p1'.ext.lab
  have l1 := p1.ext.lab
  have l2 := p2.ext.lab
  refine ⟨c1, c2, h1, h2, h4.symm, hg4, el4, p1', q1, p2', ?_⟩
  rw [← h4]
  refine p2'.op hp (ls := [c.lab + 1, c.lab + 2]) (((((op_discard _ 1 c2).trans (op_jump _ c.lab _)).trans (op_label (c.lab + 1) _ (by simp))).trans (op_pushx _ .nil _)).trans (op_label (c.lab + 2) _ (by simp))) ?_ ?_
  · simp; omega
  · rw [ht_label, ht_pushx, ht_label, ht_jump, ht_discard _ _ (.inr (Nat.le_refl _)), p2'.ht]; omega

theorem st_both (k : Nat) : StOK P glo (comp P.special k).1 ∧ StEv P glo (comp P.special k).2 := by
  induction k with
  | zero => exact ⟨fun _ _ _ _ _ h => (by cases h), fun _ _ _ _ _ _ _ h => (by cases h)⟩
  | succ k ih =>
    obtain ⟨hc, he⟩ := ih
    constructor
    · intro e c c' sc fs h hq hp hf
      simp only [comp] at h
      cases hq with
      | nil => cases h; exact (op_pushx [] .nil c).post hp.tab (ht_pushx _ c)
      | t => cases h; exact (op_pushx [] .t c).post hp.tab (ht_pushx _ c)
      | int n => cases h; exact (op_pushx [] (.int n) c).post hp.tab (ht_pushx _ c)
      | var hx => cases h; exact loadVar_post hp hx
      | @setq _ _ x e hx hq =>
        simp only [compF, Option.bind_eq_some_iff] at h
        obtain ⟨c1, h1, h2⟩ := h
        have p1 := hc e c c1 sc fs h1 hq hp (hf.imp (fun h => by cases h; assumption) id)
        have k1 := p1.keep.pre hp
        obtain ⟨vk, ve, vh, _⟩ := variable_keep k1 hx
        have pv : Post P glo sc c.lab 1 c (c1.variable_ P.special x).2 := ⟨p1.ext.trans ve p1.ext.lab, p1.keep.trans hp vk, by rw [vh, p1.ht]⟩
        split at h2
        · cases h2
          have pd : Post P glo sc c.lab 2 c (c1.variable_ P.special x).2.dupe := pv.op0 hp (op_dupe [] _) (by rw [ht_dupe, pv.ht])
          obtain ⟨s1, s2, s3⟩ := storeVar_post (pd.keep.pre hp) hx
          exact ⟨pd.ext.trans s1 pd.ext.lab, pd.keep.trans hp s2, by rw [s3, pd.ht]; omega⟩
        · cases h2
          obtain ⟨s1, s2, s3⟩ := storeVar_post (pv.keep.pre hp) hx
          have ps : Post P glo sc c.lab 0 c ((c1.variable_ P.special x).2.storeVar P.special x) := ⟨pv.ext.trans s1 pv.ext.lab, pv.keep.trans hp s2, by rw [s3, pv.ht]; omega⟩
          exact ps.next hp (loadVar_post (ps.keep.pre hp) hx) ps.ext.lab
      | ite ha hb hd =>
        obtain ⟨_, _, _, _, _, _, _, _, _, _, _, _, h⟩ := st_ite hc he h ha hb hd hp (hf.imp (fun h => by cases h; assumption) id) (hf.imp (fun h => by cases h; assumption) id) (hf.imp (fun h => by cases h; assumption) id)
        exact h
      | not hq =>
        simp only [compF, Option.bind_eq_some_iff, Option.some.injEq] at h
        obtain ⟨c1, h1, rfl⟩ := h
        have p1 := hc _ c c1 sc fs h1 hq hp (hf.imp (fun h => by cases h; assumption) id)
        exact p1.op0 hp (op_nullx [] c1) (by rw [ht_nullx, p1.ht]; omega)
      | and hne hq =>
        simp only [compF, Option.bind_eq_some_iff, Option.some.injEq] at h
        obtain ⟨c1, h1, rfl⟩ := h
        have g := gen_post (L := c.lab) hp
        have p1 := g.next hp (st_and hc c.lab _ h1 hq (g.keep.pre hp) (or_keep hp g.keep (flat_list hf (fun h => by cases h; assumption)))) g.ext.lab
        have l1 : c.lab + 1 ≤ c1.lab := (st_and hc c.lab _ h1 hq (g.keep.pre hp) (or_keep hp g.keep (flat_list hf (fun h => by cases h; assumption)))).ext.lab
        exact p1.op hp (op_label (ls := [c.lab]) c.lab c1 (by simp)) (by simp; omega) (by rw [ht_label, p1.ht])
      | or hq =>
        simp only [compF, Option.bind_eq_some_iff, Option.some.injEq] at h
        obtain ⟨c1, h1, rfl⟩ := h
        have g := gen_post (L := c.lab) hp
        have p1 := g.next hp (st_or hc c.lab _ h1 hq (g.keep.pre hp) (or_keep hp g.keep (flat_list hf (fun h => by cases h; assumption)))) g.ext.lab
        have l1 : c.lab + 1 ≤ c1.lab := (st_or hc c.lab _ h1 hq (g.keep.pre hp) (or_keep hp g.keep (flat_list hf (fun h => by cases h; assumption)))).ext.lab
        exact p1.op hp (op_label (ls := [c.lab]) c.lab c1 (by simp)) (by simp; omega) (by rw [ht_label, p1.ht])
      | progn hq _ => exact st_progn hc _ h hq hp (flat_list hf (fun h => by cases h; assumption))
      | «while» ha hb _ =>
        obtain ⟨_, _, _, _, _, _, _, _, _, _, h⟩ := st_while hc he h ha hb hp (hf.imp (fun h => by cases h; assumption) id) (flat_list hf (fun h => by cases h; assumption))
        exact h
      | @letp _ _ bs es hi hn hq _ =>
        have ha : Agree c sc := by rcases hf with hf | hf; (· cases hf); exact hf
        simp only [compF, Option.bind_eq_some_iff, Option.some.injEq] at h
        obtain ⟨c1, h1, ⟨sp, c2⟩, h2, c3, h3, rfl⟩ := h
        obtain ⟨b1, _, _⟩ := Bound.create h1 hp.tab
        obtain ⟨b2, hsp⟩ := st_inits hc hp ha bs h2 hi hn.2 (by simp) b1
        obtain ⟨hs', i1, i2, b3⟩ := st_specials sp hsp b2
        have b4 := b3.setScope (bindSpecials P.special sp c2).level
        have p4 := b4.pre (sc' := ext P (bs.map Prod.fst) sc) hp ha rfl (by
          intro x hx
          rcases mem_ext.mp hx with ⟨h, h'⟩ | h
          · refine ⟨?_, .inl (i1 x (by simpa using h))⟩
            rcases okName_cases (hn.2 x h) with hh | hh
            · rw [h'] at hh; cases hh
            · exact hh
          · exact ⟨hp.lex x h, .inr h⟩)
        have p5 := st_progn hc es h3 hq p4 (.inr (.inl rfl))
        exact (b4.post p5.ext p5.keep p5.ht b4.ext.lab).delete ha
      | letsNil hq hu =>
        have ha : Agree c sc := by rcases hf with hf | hf; (· cases hf); exact hf
        simp only [compF, Option.bind_eq_some_iff, Option.some.injEq] at h
        obtain ⟨c1, h1, c2, h2, c3, h3, rfl⟩ := h
        obtain ⟨b1, s1, _⟩ := Bound.create h1 hp.tab
        obtain ⟨hs', b2⟩ := st_seq hc _ [] h2 h3 (CPlain.letsNil hq hu) (b1.pre hp ha s1 (fun x hx => ⟨hp.lex x hx, .inr hx⟩)) s1 b1
        exact b2.delete ha
      | @letsCons _ _ x e bs es hq1 hx hq2 =>
        have ha : Agree c sc := by rcases hf with hf | hf; (· cases hf); exact hf
        simp only [compF, Option.bind_eq_some_iff, Option.some.injEq] at h
        obtain ⟨c1, h1, c2, h2, c3, h3, rfl⟩ := h
        obtain ⟨b1, s1, _⟩ := Bound.create h1 hp.tab
        obtain ⟨hs', b2⟩ := st_seq hc es ((x, e) :: bs) h2 h3 (CPlain.letsCons hq1 hx hq2) (b1.pre hp ha s1 (fun x hx => ⟨hp.lex x hx, .inr hx⟩)) s1 b1
        exact b2.delete ha
      | @lam _ _ ps es hn hq hu =>
        cases h
        have g := gen_post (L := c.lab) hp
        have p1 : Post P glo sc c.lab 1 c (c.gen.closure c.lab) := g.op0 hp (op_closure [] c.lab _) (by rw [ht_closure]; rfl)
        refine ⟨addTask_ext p1.ext (Nat.le_refl _) ?_ (op_closure [] c.lab c.gen).tasks, ⟨p1.keep.frames, p1.keep.tab, p1.keep.scope, p1.keep.flets, p1.keep.cnt, p1.keep.cl⟩, p1.ht⟩
        rw [(op_closure [] c.lab c.gen).lab]; simp [gen]
      | fn hf' =>
        simp only [compF] at h
        split at h <;> cases h <;> exact (op_pushx [] _ c).post hp.tab (ht_pushx _ c)
      | @funcall _ _ e args hq hqs =>
        simp only [compF, Option.bind_eq_some_iff, Option.some.injEq] at h
        obtain ⟨c1, h1, rfl⟩ := h
        have p1 := st_args hc (e :: args) h1 (by intro a ha; simp only [List.mem_cons] at ha; rcases ha with rfl | ha; (· exact hq); exact hqs a ha) hp
          (flat_list hf (fun h => by cases h with | funcall h1 h2 => intro a ha; simp only [List.mem_cons] at ha; rcases ha with rfl | ha; (· exact h1); exact h2 a ha))
        exact p1.op0 hp (op_call [] _ _ c1 (by simp)) (by rw [ht_call, p1.ht, List.length_cons]; omega)
      | @call _ _ f args hf' hqs =>
        have hfl := flat_list (es := args) hf (fun h => by cases h; assumption)
        simp only [compF] at h
        split at h
        · simp only [Option.bind_eq_some_iff, Option.some.injEq] at h
          obtain ⟨c1, h1, rfl⟩ := h
          have p1 := st_args hc args h1 hqs hp hfl
          exact p1.op0 hp ((op_pushx [] _ c1).trans (op_callClosure [] _ _ _)) (by rw [ht_callClosure, ht_pushx, p1.ht]; omega)
        · simp only [Option.bind_eq_some_iff, Option.some.injEq] at h
          obtain ⟨c1, h1, rfl⟩ := h
          have p1 := st_args hc args h1 hqs hp hfl
          exact p1.op0 hp (op_call [] _ _ c1 (by simp)) (by rw [ht_call, p1.ht]; omega)
      | @prim _ _ p args hqs =>
        have hfl := flat_list (es := args) hf (fun h => by cases h; assumption)
        simp only [compF, Option.bind_eq_some_iff, Option.some.injEq] at h
        obtain ⟨c1, h1, rfl⟩ := h
        have p1 := st_args hc args h1 hqs hp hfl
        exact p1.op0 hp (op_call [] _ _ c1 (by simp)) (by rw [ht_call, p1.ht]; omega)
      | @flet _ _ ds es hd hqd hq hu =>
        have ha : Agree c sc := by rcases hf with hf | hf; (· cases hf); exact hf
        simp only [compF, Option.bind_eq_some_iff, Option.some.injEq] at h
        obtain ⟨c1, h1, rfl⟩ := h
        obtain ⟨f1, f2, f3, f4, f5, f6⟩ := st_funs ds c
        have pf : Pre P glo sc (compFuns ds c) := ⟨by rw [f2]; exact hp.tab, hp.lex, by intro x hx; unfold look Comp.level; rw [f2, f3]; exact hp.vis x hx, by rw [f2]; exact hp.ne, by unfold Comp.level; rw [f2, f3]; exact hp.lev⟩
        have af : Agree (compFuns ds c) sc := by unfold Agree Comp.level; rw [f2, f3]; exact ha
        have p1 := st_progn hc es h1 hq pf (.inr af)
        have e1 := f1.trans p1.ext f1.lab
        have op := op_delFrame [] 0 ds.length (c1.setFlets c.flets)
        have e2 : Ext c.lab c (c1.setFlets c.flets) := ⟨e1.code, e1.lab, e1.tasks⟩
        refine ⟨e2.trans (op.ext0 c.lab) (Nat.le_refl _), ⟨?_, ?_, ?_, op.flets, ?_, ?_⟩, ?_⟩
        · rw [op.frames]; have := p1.keep.frames; rw [f2] at this; exact this
        · rw [op.frames]; exact p1.keep.tab
        · rw [op.scope]
          rcases p1.keep.scope with h | ⟨h, _⟩
          · left; exact h.trans f3
          · right; refine ⟨h.trans ?_, ha⟩; unfold Comp.level; rw [f2]
        · rw [op.cnt]; exact p1.keep.cnt.trans f5
        · rw [op.cl]; exact p1.keep.cl.trans f4
        · rw [ht_delFrame]
          show ht c1 - 1 - (3 * 0 + ds.length) + 1 = _
          rw [p1.ht, f6]; omega
      | @labels _ _ ds es hd hqd hq hu =>
        have ha : Agree c sc := by rcases hf with hf | hf; (· cases hf); exact hf
        simp only [compF, Option.bind_eq_some_iff, Option.some.injEq] at h
        obtain ⟨c1, h1, rfl⟩ := h
        obtain ⟨f1, f2, f3, f4, f5, f6⟩ := st_funs ds c
        have f1 := changeFlets_ext f1
        have pf : Pre P glo sc ((compFuns ds c).changeFlets c.tasks.length) := ⟨by show TabOK P glo (compFuns ds c).frames; rw [f2]; exact hp.tab, hp.lex,
          by intro x hx; show look (compFuns ds c) x ≠ none; unfold look Comp.level; rw [f2, f3]; exact hp.vis x hx, by show (compFuns ds c).frames ≠ []; rw [f2]; exact hp.ne,
          by show (compFuns ds c).scope = (compFuns ds c).level ∨ (compFuns ds c).scope + 1 = (compFuns ds c).level; unfold Comp.level; rw [f2, f3]; exact hp.lev⟩
        have af : Agree ((compFuns ds c).changeFlets c.tasks.length) sc := by show Agree (compFuns ds c) sc; unfold Agree Comp.level; rw [f2, f3]; exact ha
        have p1 := st_progn hc es h1 hq pf (.inr af)
        have e1 := f1.trans p1.ext f1.lab
        have op := op_delFrame [] 0 ds.length (c1.setFlets c.flets)
        have e2 : Ext c.lab c (c1.setFlets c.flets) := ⟨e1.code, e1.lab, e1.tasks⟩
        refine ⟨e2.trans (op.ext0 c.lab) (Nat.le_refl _), ⟨?_, ?_, ?_, op.flets, ?_, ?_⟩, ?_⟩
        · rw [op.frames]; have := p1.keep.frames; change FEq P glo (compFuns ds c).frames _ at this; rw [f2] at this; exact this
        · rw [op.frames]; exact p1.keep.tab
        · rw [op.scope]
          rcases p1.keep.scope with h | ⟨h, _⟩
          · left; exact h.trans f3
          · right; refine ⟨h.trans ?_, ha⟩; show (compFuns ds c).level = _; unfold Comp.level; rw [f2]
        · rw [op.cnt]; exact p1.keep.cnt.trans f5
        · rw [op.cl]; exact p1.keep.cl.trans f4
        · rw [ht_delFrame]
          show ht c1 - 1 - (3 * 0 + ds.length) + 1 = _
          rw [p1.ht]
          show ht (compFuns ds c) + 1 - 1 - _ + 1 = _
          rw [f6]; omega
    · intro b l e c c' sc fs h hq hp hf
      simp only [comp] at h
      have dflt : ((comp P.special k).1 e c).bind (fun c => some (if b then c.ifT l else c.ifNil l)) = some c' → Post P glo sc c.lab 0 c c' ∧ c'.push = none := by
        intro h
        simp only [Option.bind_eq_some_iff, Option.some.injEq] at h
        obtain ⟨c1, h1, rfl⟩ := h
        have p1 := hc e c c1 sc fs h1 hq hp hf
        cases b
        · exact ⟨p1.op0 hp (op_ifNil [] l c1) (by simp only [Bool.false_eq_true, if_false]; rw [ht_ifNil, p1.ht]; omega), ifNil_push l c1⟩
        · exact ⟨p1.op0 hp (op_ifT [] l c1) (by simp only [if_true]; rw [ht_ifT, p1.ht]; omega), ifT_push l c1⟩
      have multi : ∀ (bb : Bool) (e0 : Expr) (es : List Expr), (∀ a ∈ e0 :: es, CPlain P glo sc fs a) → ((∀ a ∈ e0 :: es, Flat a) ∨ Agree c sc) →
          (evconAll (comp P.special k).2 bb c.lab (e0 :: es) c.gen).bind (fun c' => some ((c'.jump l).label c.lab)) = some c' → Post P glo sc c.lab 0 c c' ∧ c'.push = none := by
        intro bb e0 es hq hf h
        simp only [Option.bind_eq_some_iff, Option.some.injEq] at h
        obtain ⟨c1, h1, rfl⟩ := h
        have g := gen_post (L := c.lab) hp
        obtain ⟨p0, _, _⟩ := st_evAll he bb c.lab _ h1 hq (g.keep.pre hp) (or_keep hp g.keep hf)
        have p1 := g.next hp p0 g.ext.lab
        have l1 : c.lab + 1 ≤ c1.lab := p0.ext.lab
        exact ⟨p1.op hp ((op_jump [c.lab] l c1).trans (op_label (ls := [c.lab]) c.lab _ (by simp))) (by simp; omega) (by rw [ht_label, ht_jump, p1.ht]), label_push _ _⟩
      have same : ∀ (bb : Bool) (e0 : Expr) (es : List Expr), (∀ a ∈ e0 :: es, CPlain P glo sc fs a) → ((∀ a ∈ e0 :: es, Flat a) ∨ Agree c sc) →
          evconAll (comp P.special k).2 bb l (e0 :: es) c = some c' → Post P glo sc c.lab 0 c c' ∧ c'.push = none := by
        intro bb e0 es hq hf h
        obtain ⟨p0, p1, _⟩ := st_evAll he bb l _ h hq hp hf
        exact ⟨p0, p1 (by simp)⟩
      cases e with
      | not e =>
        cases hq with
        | not hq => exact he (!b) l e c c' sc fs h hq hp (hf.imp (fun h => by cases h; assumption) id)
      | and es =>
        cases es with
        | nil => exact dflt h
        | cons e0 es =>
          cases hq with
          | and _ hq' =>
            have hf' := flat_list (es := e0 :: es) hf (fun h => by cases h; assumption)
            cases b
            · exact same false e0 es hq' hf' (by simpa [evconF] using h)
            · exact multi false e0 es hq' hf' (by simpa [evconF] using h)
      | or es =>
        cases es with
        | nil => exact dflt h
        | cons e0 es =>
          cases hq with
          | or hq' =>
            have hf' := flat_list (es := e0 :: es) hf (fun h => by cases h; assumption)
            cases b
            · exact multi true e0 es hq' hf' (by simpa [evconF] using h)
            · exact same true e0 es hq' hf' (by simpa [evconF] using h)
      | _ => exact dflt h

end Eus.Cmp
