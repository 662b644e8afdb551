import Verif.Cmp.Seq
import Verif.Cmp.Funs
set_option autoImplicit false
/-
The remaining forms: variables, assignments, conditions and loops.
-/
namespace Eus.Cmp
open Eus.Lex
open Comp (search assq clear)

variable {P : Prog} {glo : Sym → Bool} {k0 : Nat} {m : Mach}

/-! ### Variables -/

theorem variable_setFrames (sp : Sym → Bool) (x : Sym) (c : Comp) : ∃ fr, (c.variable_ sp x).2 = c.setFrames fr := by
  unfold Comp.variable_
  split
  · exact ⟨c.frames, rfl⟩
  · exact ⟨_, rfl⟩

theorem popx_setFrames (c : Comp) (fr : Tab) : (c.setFrames fr).popx.1 = c.popx.1 ∧ (c.setFrames fr).popx.2 = c.popx.2.setFrames fr := by
  unfold Comp.popx
  cases h : c.push <;> simp [Comp.setFrames, h]

theorem var_none {Z : List Slot} {L : Sym → Option Ident} {fl : List Flet} {cl : Nat} {B : Nat → Option (Nat × Nat)} {sc fs : List Sym} {ρ φ : SEnv} (h : Ctx P glo Z L fl cl B sc fs ρ φ) {x : Sym}
    (hx : x ∈ sc ∨ P.special x = true ∨ glo x = true) (hn : x ∉ sc) : (if P.special x then none else cellOf x ρ) = none := by
  cases hs : P.special x with
  | true => rfl
  | false =>
    rcases hx with hx | hx | hx
    · exact absurd hx hn
    · rw [hs] at hx; cases hx
    · simpa using h.free x hs hx

theorem not_lex {sc : List Sym} {x : Sym} (hx : x ∈ sc ∨ P.special x = true ∨ glo x = true) (hn : x ∉ sc) : ¬ Lexical P glo x := by
  rintro ⟨h1, h2⟩
  rcases hx with hx | hx | hx
  · exact hn hx
  · rw [h1] at hx; cases hx
  · rw [h2] at hx; cases hx

/-- Where a lexical variable is. -/
theorem var_cell {sc fs : List Sym} {act : Act} {ρ φ : SEnv} {Z : List Slot} {S : SState} {T : CState} {c : Comp} (ha : At P glo k0 m sc fs act ρ φ Z S T c) {x : Sym} (hx : x ∈ sc) :
    ∃ i cell a av lo, c.variable_ P.special x = (i, c) ∧ (if P.special x then none else cellOf x ρ) = some cell ∧ Slot.mk cell a none ∈ Z ∧ base act (c.cl - i.level) = some (av, lo) ∧
      ((i.bnd = .loc ∧ a = lo + i.off) ∨ (i.bnd = .arg ∧ a = av + i.off)) := by
  obtain ⟨i, cell, av, lo, h1, h2, h3, h4, h5⟩ := ha.ctx.var x hx
  have hs : P.special x = false := (ha.pre.lex x hx).1
  rcases h5 with ⟨h5, h6⟩ | ⟨h5, h6⟩
  · exact ⟨i, cell, _, av, lo, variable_found h1, by simp [hs, h3], h6, h4, .inl ⟨h5, rfl⟩⟩
  · exact ⟨i, cell, _, av, lo, variable_found h1, by simp [hs, h3], h6, h4, .inr ⟨h5, rfl⟩⟩

theorem varX_eval {act : Act} {w : CVal} {T : CState} {c : Comp} {x : Sym} {i : Ident} {av lo a : Nat} {v : CVal} {fns : Sym → Bool} (hb : base act (c.cl - i.level) = some (av, lo))
    (h : (i.bnd = .loc ∧ a = lo + i.off) ∨ (i.bnd = .arg ∧ a = av + i.off)) (hm : T.mem a = .val v) : evalX fns act w T (c.varX x i) = .ok v := by
  rcases h with ⟨h, e⟩ | ⟨h, e⟩ <;> simp only [Comp.varX, h, evalX, hb, readW, ← e, hm]

theorem loadVar_code {sp : Sym → Bool} {x : Sym} {c : Comp} (hp : c.push = none) : (c.loadVar sp x).code = c.code := by
  obtain ⟨fr, e⟩ := variable_setFrames sp x c
  simp only [Comp.loadVar, e]
  show (c.setFrames fr).clear.code = _
  rw [clear_self (show (c.setFrames fr).push = none from hp)]; rfl

theorem sim_var {n : Nat} {x : Sym} {c : Comp} {sc fs : List Sym} {F : Code} {act : Act} {rest : List Frame} {w : CVal} {T : CState} {S : SState} {ρ φ : SEnv} {Z : List Slot} (hp : c.push = none)
    (hx : x ∈ sc ∨ P.special x = true ∨ glo x = true) (ha : At P glo k0 m sc fs act ρ φ Z S T c) :
    Out P glo k0 m (act.loc + c.pc) (conf F act rest c.code.length w T) F act rest Z S T (c.loadVar P.special x) (GlobalRef sc (.var x)) (sevalF true P (seval true P n) ρ φ (.var x) S) := by
  have hco := loadVar_code (sp := P.special) (x := x) hp
  by_cases hin : x ∈ sc
  · obtain ⟨i, cell, a, av, lo, e1, e2, e3, e4, e5⟩ := var_cell ha hin
    simp only [sevalF, e2]
    have hsl := ha.rel.slot _ e3
    simp only at hsl
    generalize hc : S.cells cell = cc at hsl
    generalize hm : T.mem a = mm at hsl
    cases hsl with
    | @var v v' hv =>
      refine ⟨w, T, v', by rw [hco]; exact Reach.refl _ _, ?_, hv, ha.rel, Chg.refl _ _ _ _⟩
      unfold Top Comp.loadVar
      rw [e1]
      exact varX_eval e4 e5 hm
  · have e2 := var_none ha.ctx hx hin
    simp only [sevalF, e2]
    have hb := (variable_keep ha.pre hx).2.2.2.2.2 (not_lex hx hin)
    have ht : ∀ T', evalX m.isfn act w T' (c.loadVar P.special x).popx.1 = (match T'.glob x with | some v => .ok v | none => .err) := by
      intro T'
      show evalX m.isfn act w T' (Comp.varX x (c.variable_ P.special x).1 _) = _
      simp only [Comp.varX, hb, evalX]
      cases T'.glob x <;> rfl
    have hg := ha.rel.glob x
    generalize hs : S.glob x = gs at hg
    generalize hm : T.glob x = gm at hg
    cases hg with
    | none => exact .inr ⟨.var hin, w, T, by rw [hco]; exact Reach.refl _ _, by unfold TopErr; rw [ht, hm]⟩
    | @some v v' hv => exact ⟨w, T, v', by rw [hco]; exact Reach.refl _ _, by unfold Top; rw [ht, hm], hv, ha.rel, Chg.refl _ _ _ _⟩

theorem storeVar_lex {sp : Sym → Bool} {x : Sym} {c : Comp} {i : Ident} (h : c.variable_ sp x = (i, c)) : (i.bnd = .loc → c.storeVar sp x = c.store (.loc (c.cl - i.level) i.off)) ∧
    (i.bnd = .arg → c.storeVar sp x = c.store (.arg (c.cl - i.level) i.off)) := by
  constructor <;> intro hb <;> simp only [Comp.storeVar, h, hb]

theorem dupe_popx (c : Comp) : c.dupe.popx.2.push = none ∧ c.dupe.popx.2.pc = Cmp.ht c := by
  refine ⟨popx_push _, ?_⟩
  rw [popx_pc, ht_dupe]; rfl

theorem sim_setq {n k : Nat} (hs : SimE P glo k0 m n) {x : Sym} {e : Expr} {c c' : Comp} {sc fs : List Sym} {F : Code} {act : Act} {rest : List Frame} {w : CVal} {T : CState} {S : SState} {ρ φ : SEnv} {Z : List Slot}
    (h : compF P.special (comp P.special k).1 (comp P.special k).2 (.setq x e) c = some c') (hpu : c.push = none) (hx : x ∈ sc ∨ P.special x = true ∨ glo x = true) (hq : CPlain P glo sc fs e) (hf : Flat e ∨ Agree c sc)
    (hat : At P glo k0 m sc fs act ρ φ Z S T c) (hfu : Fut P k0 m F c') :
    Out P glo k0 m (act.loc + c.pc) (conf F act rest c.code.length w T) F act rest Z S T c' False (sevalF true P (seval true P n) ρ φ (.setq x e) S) := by
  simp only [compF, Option.bind_eq_some_iff] at h
  obtain ⟨c1, h1, h2⟩ := h
  have st := (st_both (P := P) (glo := glo) k).1
  have p1 := st e c c1 sc fs h1 hq hat.pre hf
  have hb : Below Z (act.loc + c.pc) := by have := hat.below; rwa [ht_none hpu] at this
  have hh : Cmp.ht c1 = c.pc + 1 := by rw [p1.ht, ht_none hpu]
  by_cases hin : x ∈ sc
  · obtain ⟨hv1, hv2, hv3⟩ := (variable_keep (p1.keep.pre hat.pre) hx).2.2.2.2.1 hin
    rw [if_neg hv3, hv1] at h2
    simp only [Option.some.injEq] at h2
    have hc' : c' = (c1.storeVar P.special x).loadVar P.special x := h2.symm
    obtain ⟨s1, s2, s3⟩ := storeVar_post (p1.keep.pre hat.pre) hx
    have lp := loadVar_post (s2.pre (p1.keep.pre hat.pre)) hx
    have fu2 : Fut P k0 m F (c1.storeVar P.special x) := by rw [hc'] at hfu; exact hfu.ext lp.ext
    have fu1 : Fut P k0 m F c1 := fu2.ext s1
    have o := hs k e c c1 sc fs F act rest w T S ρ φ Z h1 hpu hq hf hat fu1
    simp only [sevalF]
    -- where the variable is
    have key : ∀ S1 T1, Rel P glo k0 m Z S1 T1 → ∃ i cell a av lo, c1.variable_ P.special x = (i, c1) ∧ (if P.special x then none else cellOf x ρ) = some cell ∧ Slot.mk cell a none ∈ Z ∧
        base act (c1.cl - i.level) = some (av, lo) ∧ ((i.bnd = .loc ∧ a = lo + i.off) ∨ (i.bnd = .arg ∧ a = av + i.off)) := fun S1 T1 hr => var_cell (hat.next p1 hr) hin
    obtain ⟨i, cell, a, av, lo, e1, e2, e3, e4, e5⟩ := key S T hat.rel
    obtain ⟨sl, sa⟩ := storeVar_lex e1
    obtain ⟨d, hd, hdd⟩ : ∃ d, c1.storeVar P.special x = c1.store d ∧ ((d = .loc (c1.cl - i.level) i.off ∧ a = lo + i.off) ∨ (d = .arg (c1.cl - i.level) i.off ∧ a = av + i.off)) := by
      rcases e5 with ⟨b, r⟩ | ⟨b, r⟩
      · exact ⟨_, sl b, .inl ⟨rfl, r⟩⟩
      · exact ⟨_, sa b, .inr ⟨rfl, r⟩⟩
    have pso : (c1.store d).push = none := store_push d c1
    have hco : c'.code = (c1.store d).code := by rw [hc', hd]; exact loadVar_code pso
    have ev2 : (c1.store d).variable_ P.special x = (i, c1.store d) := by
      have op := op_store [] d c1
      apply variable_found
      have : look c1 x = some i := by rw [hv2, e1]
      unfold look Comp.level at this ⊢
      rw [op.frames, op.scope]; exact this
    cases hr : seval true P n ρ φ e S with
    | ok v S1 =>
      rw [hr] at o
      obtain ⟨w1, T1, v1, r1, t1, q1, rel1, ch1⟩ := o
      simp only [Res.bind, e2]
      obtain ⟨T2, r2, u2⟩ := run_store_var (rest := rest) hdd e4 (by rw [← hd]; exact fu2.px) t1
      obtain ⟨rel2, ch2⟩ := u2.var (H := act.loc + c.pc) e3 rel1 q1
      refine ⟨w1, T2, v1, by rw [hco]; exact r1.trans r2, ?_, q1.chg ch2 rel1, rel2, ch1.trans ch2 (Nat.le_refl _)⟩
      rw [hc', hd]
      unfold Top Comp.loadVar
      rw [ev2]
      refine varX_eval (T := T2) (a := a) (av := av) (lo := lo) ?_ e5 u2.at_
      rw [(op_store [] d c1).cl]; exact e4
    | err =>
      rw [hr] at o
      simp only [Res.bind]
      rcases o with o | ⟨_, w1, T1, r1, t1⟩
      · exact .inl o
      · refine .inl (r1.trans (run_store_err (d := d) (by rw [← hd]; exact fu2.px) ?_ t1))
        rcases hdd with ⟨rfl, _⟩ | ⟨rfl, _⟩ <;> simp only [Dst.cx, evalX, e4] <;> exact readW_err
    | _ => trivial
  · have hl := not_lex hx hin
    have hb1 := (variable_keep (p1.keep.pre hat.pre) hx).2.2.2.2.2 hl
    rw [if_pos hb1] at h2
    simp only [Option.some.injEq] at h2
    obtain ⟨vk, ve, vh, vp, _, _⟩ := variable_keep (p1.keep.pre hat.pre) hx
    have pv : Post P glo sc c.lab 1 c (c1.variable_ P.special x).2 := ⟨p1.ext.trans ve p1.ext.lab, p1.keep.trans hat.pre vk, by rw [vh, p1.ht]⟩
    obtain ⟨fr, ef⟩ := variable_setFrames P.special x c1
    rw [ef] at h2 pv ve
    have pd : Post P glo sc c.lab 2 c (c1.setFrames fr).dupe := pv.op0 hat.pre (op_dupe [] _) (by rw [ht_dupe, pv.ht])
    have hb2 := (variable_keep (pd.keep.pre hat.pre) hx).2.2.2.2.2 hl
    obtain ⟨fr2, ef2⟩ := variable_setFrames P.special x (c1.setFrames fr).dupe
    obtain ⟨s1, _, _⟩ := storeVar_post (pd.keep.pre hat.pre) hx
    have fu3 : Fut P k0 m F (c1.setFrames fr).dupe := by rw [← h2] at hfu; exact hfu.ext s1
    have fu2 : Fut P k0 m F (c1.setFrames fr) := fu3.op (op_dupe [] _)
    have fu1 : Fut P k0 m F c1 := ⟨fu2.px, fu2.tasks⟩
    have o := hs k e c c1 sc fs F act rest w T S ρ φ Z h1 hpu hq hf hat fu1
    have hc' : c' = ((c1.setFrames fr).dupe.popx.2.setFrames fr2).emit (.storeglobal x (c1.setFrames fr).dupe.popx.1) := by
      rw [← h2]; simp only [Comp.storeVar, hb2, ef2, (popx_setFrames _ _).1, (popx_setFrames _ _).2]
    have hpx : ((c1.setFrames fr).dupe.code ++ [.storeglobal x (c1.setFrames fr).dupe.popx.1]) <+: F := by
      have := hfu.px
      rw [hc'] at this
      have e : ((c1.setFrames fr).dupe.popx.2.setFrames fr2).code = (c1.setFrames fr).dupe.code := popx_code _
      simp only [Comp.emit, e] at this
      exact this
    have hco : c'.code = (c1.setFrames fr).dupe.code ++ [.storeglobal x (c1.setFrames fr).dupe.popx.1] := by
      rw [hc']
      have e : ((c1.setFrames fr).dupe.popx.2.setFrames fr2).code = (c1.setFrames fr).dupe.code := popx_code _
      simp only [Comp.emit, e]
    have htop : ∀ w T v, T.mem (act.loc + (Cmp.ht c1 - 1)) = .val v → Top m act w T c' v := by
      intro w T v hm
      have hpu' : c'.push = none := by rw [hc']; exact (dupe_popx _).1
      have hpc : c'.pc = Cmp.ht c1 := by rw [hc']; exact (dupe_popx _).2
      unfold Top Comp.popx
      rw [hpu']
      simp only [evalX, base, readW, hpc, hm]
    have e2 := var_none hat.ctx hx hin
    simp only [sevalF]
    cases hr : seval true P n ρ φ e S with
    | ok v S1 =>
      rw [hr] at o
      obtain ⟨w1, T1, v1, r1, t1, q1, rel1, ch1⟩ := o
      simp only [Res.bind, e2]
      have t1' : Top m act w1 T1 (c1.setFrames fr) v1 := by unfold Top at t1 ⊢; rw [(popx_setFrames _ _).1]; exact t1
      obtain ⟨T2, r2, u2, t2⟩ := run_dupe (rest := rest) fu3.px t1'
      have eh : Cmp.ht (c1.setFrames fr) = Cmp.ht c1 := rfl
      rw [eh] at u2
      have rel2 := u2.rel hb (by omega) rel1
      have ch2 : Chg Z (act.loc + c.pc) S1 T1 S1 T2 := u2.chg (by omega)
      obtain ⟨rel3, ch3⟩ := rel2.setGlob (H := act.loc + c.pc) (x := x) (ORel.some q1)
      refine ⟨w1, T2.setGlob x (some v1), v1, ?_, htop _ _ _ u2.at_, q1.chg (ch2.trans ch3 (Nat.le_refl _)) rel1, rel3, ch1.trans (ch2.trans ch3 (Nat.le_refl _)) (Nat.le_refl _)⟩
      refine r1.trans (r2.trans ?_)
      refine conf_step hpx ?_
      unfold Top at t2
      have : evalX (fun g => (m.fns g).isSome) act w1 T2 (c1.setFrames fr).dupe.popx.1 = .ok v1 := t2
      simp [stepI, this, conf, hco]
    | err =>
      rw [hr] at o
      simp only [Res.bind]
      rcases o with o | ⟨_, w1, T1, r1, t1⟩
      · exact .inl o
      · have t1' : TopErr m act w1 T1 (c1.setFrames fr) := by unfold TopErr at t1 ⊢; rw [(popx_setFrames _ _).1]; exact t1
        exact .inl (r1.trans (run_dupe_err (c := c1.setFrames fr) fu3.px t1'))
    | _ => trivial

/-! ### not, and, or -/

theorem nullx_code (c : Comp) : c.nullx.code = c.code := by
  show c.popx.2.clear.code = _
  rw [clear_self (popx_push c), popx_code]

theorem sim_not {n k : Nat} (hs : SimE P glo k0 m n) {e : Expr} {c c' : Comp} {sc fs : List Sym} {F : Code} {act : Act} {rest : List Frame} {w : CVal} {T : CState} {S : SState} {ρ φ : SEnv} {Z : List Slot}
    (h : compF P.special (comp P.special k).1 (comp P.special k).2 (.not e) c = some c') (hpu : c.push = none) (hq : CPlain P glo sc fs e) (hf : Flat e ∨ Agree c sc)
    (hat : At P glo k0 m sc fs act ρ φ Z S T c) (hfu : Fut P k0 m F c') :
    Out P glo k0 m (act.loc + c.pc) (conf F act rest c.code.length w T) F act rest Z S T c' (GlobalRef sc (.not e)) (sevalF true P (seval true P n) ρ φ (.not e) S) := by
  simp only [compF, Option.bind_eq_some_iff, Option.some.injEq] at h
  obtain ⟨c1, h1, rfl⟩ := h
  have o := hs k e c c1 sc fs F act rest w T S ρ φ Z h1 hpu hq hf hat (hfu.op (op_nullx [] c1))
  simp only [sevalF]
  cases hr : seval true P n ρ φ e S with
  | ok v S1 =>
    rw [hr] at o
    obtain ⟨w1, T1, v1, r1, t1, q1, rel1, ch1⟩ := o
    unfold Top at t1
    refine ⟨w1, T1, if v1.isNil then .t else .nil, by rw [nullx_code]; exact r1, ?_, ?_, rel1, ch1⟩
    · show evalX m.isfn act w1 T1 (.null c1.popx.1) = _
      simp only [evalX, t1]
      cases v1 <;> rfl
    · cases q1 <;> simp only [CVal.isNil, Val.negate, if_true, if_false, Bool.false_eq_true] <;> first | exact .t | exact .nil
  | err =>
    rw [hr] at o
    rcases o with o | ⟨g, w1, T1, r1, t1⟩
    · exact .inl o
    · refine .inr ⟨.not g, w1, T1, by rw [nullx_code]; exact r1, ?_⟩
      unfold TopErr at t1
      show evalX m.isfn act w1 T1 (.null c1.popx.1) = _
      simp only [evalX, t1]
  | _ => trivial

/-- A label not used yet is not in the code. -/
theorem fresh_ext {L l : Nat} {c c' : Comp} (he : Ext L c c') (hn : Instr.label l ∉ c.code) (hl : l < L) : Instr.label l ∉ c'.code := by
  obtain ⟨n, e, hn'⟩ := he.code
  rw [e]
  intro h
  rcases List.mem_append.mp h with h | h
  · exact hn h
  · have := (hn' l h).1; omega

theorem fresh_op {ls : List Nat} {l : Nat} {c c' : Comp} (he : Op ls c c') (hn : Instr.label l ∉ c.code) (hl : l ∉ ls) : Instr.label l ∉ c'.code := by
  obtain ⟨n, e, hn'⟩ := he.code
  rw [e]
  intro h
  rcases List.mem_append.mp h with h | h
  · exact hn h
  · exact hl (hn' l h)

theorem wf_fresh {c : Comp} {l : Nat} (h : ∀ l, Instr.label l ∈ c.code → l < c.lab) (hl : c.lab ≤ l) : Instr.label l ∉ c.code := fun hm => by have := h l hm; omega

/-- Where a label is that has just been put. -/
theorem label_at {F : Code} {c : Comp} {l : Nat} (hF : (c.label l).code <+: F) (hn : Instr.label l ∉ c.code) : labelAt l F = some c.clear.code.length :=
  labelAt_prefix (pre := c.clear.code) hF (fresh_op (op_clear [] c) hn (by simp))

theorem sim_and_or {n k : Nat} (hs : SimE P glo k0 m n) {es : List Expr} {e : Expr} {c c' : Comp} {sc fs : List Sym} {F : Code} {act : Act} {rest : List Frame} {w : CVal} {T : CState} {S : SState} {ρ φ : SEnv} {Z : List Slot}
    (he : (e = .and es ∧ es ≠ []) ∨ e = .or es) (h : compF P.special (comp P.special k).1 (comp P.special k).2 e c = some c') (hpu : c.push = none) (hq : ∀ e ∈ es, CPlain P glo sc fs e)
    (hf : (∀ e ∈ es, Flat e) ∨ Agree c sc) (hat : At P glo k0 m sc fs act ρ φ Z S T c) (hfu : Fut P k0 m F c') :
    Out P glo k0 m (act.loc + c.pc) (conf F act rest c.code.length w T) F act rest Z S T c' False (sevalF true P (seval true P n) ρ φ e S) := by
  have st := (st_both (P := P) (glo := glo) k).1
  have g := gen_post (L := c.lab) hat.pre
  have hb : Below Z (act.loc + c.pc) := by have := hat.below; rwa [ht_none hpu] at this
  have hatg : At P glo k0 m sc fs act ρ φ Z S T c.gen := hat.next g hat.rel
  have fin : ∀ c1, c' = c1.label c.lab → Post P glo sc (c.lab + 1) 1 c.gen c1 → ∀ r,
      (labelAt c.lab F = some c1.clear.code.length → OutJ P glo k0 m (act.loc + c.pc) (conf F act rest c.code.length w T) F act rest Z S T c1 c1.clear.code.length (act.loc + c.pc) r) →
      Out P glo k0 m (act.loc + c.pc) (conf F act rest c.code.length w T) F act rest Z S T c' False r := by
    rintro c1 rfl p1 r o
    have hl : labelAt c.lab F = some c1.clear.code.length := label_at hfu.px (fresh_ext p1.ext (show Instr.label c.lab ∉ c.code from wf_fresh hat.wf (Nat.le_refl _)) (by omega))
    have hh : act.loc + (Cmp.ht c1 - 1) = act.loc + c.pc := by rw [p1.ht]; show act.loc + (Cmp.ht c + 1 - 1) = _; rw [ht_none hpu]; omega
    have o' := o hl
    rw [← hh] at o' hb ⊢
    exact o'.label hfu.px hb (Nat.le_refl _)
  rcases he with ⟨rfl, hne⟩ | rfl
  · simp only [compF, Option.bind_eq_some_iff, Option.some.injEq] at h
    obtain ⟨c1, h1, rfl⟩ := h
    refine fin c1 rfl (st_and st c.lab _ h1 hq hatg.pre (or_keep hat.pre g.keep hf)) _ (fun hl => ?_)
    exact sim_and hs c.lab _ hl es (c := c.gen) .t hne h1 hpu hq (or_keep hat.pre g.keep hf) hatg (hfu.op (op_label (ls := [c.lab]) c.lab c1 (by simp)))
  · simp only [compF, Option.bind_eq_some_iff, Option.some.injEq] at h
    obtain ⟨c1, h1, rfl⟩ := h
    refine fin c1 rfl (st_or st c.lab _ h1 hq hatg.pre (or_keep hat.pre g.keep hf)) _ (fun hl => ?_)
    exact sim_or hs c.lab _ hl es (c := c.gen) h1 hpu hq (or_keep hat.pre g.keep hf) hatg (hfu.op (op_label (ls := [c.lab]) c.lab c1 (by simp)))

/-! ### if, while -/

def sel {α : Type} (a b : α) : SVal → α
  | .nil => a
  | _ => b
theorem sel_some {α : Type} (a b : α) : ∀ {v : SVal}, snil v = false → sel a b v = b
  | .nil, h => by cases h
  | .t, _ => rfl
  | .int _, _ => rfl
  | .clo .., _ => rfl
theorem sel_nil {α : Type} (a b : α) {v : SVal} (h : snil v = true) : sel a b v = a := by
  cases v <;> first | rfl | cases h
theorem snil_iff {v : SVal} : snil v = true ↔ v = .nil := by
  cases v <;> simp [snil]

theorem sim_ite {n k : Nat} (hs : SimE P glo k0 m n) (hv : SimV P glo k0 m n) {a b d : Expr} {c c' : Comp} {sc fs : List Sym} {F : Code} {act : Act} {rest : List Frame} {w : CVal} {T : CState} {S : SState} {ρ φ : SEnv} {Z : List Slot}
    (h : compF P.special (comp P.special k).1 (comp P.special k).2 (.ite a b d) c = some c') (hpu : c.push = none) (hqa : CPlain P glo sc fs a) (hqb : CPlain P glo sc fs b) (hqd : CPlain P glo sc fs d)
    (fa : Flat a ∨ Agree c sc) (fb : Flat b ∨ Agree c sc) (fd : Flat d ∨ Agree c sc) (hat : At P glo k0 m sc fs act ρ φ Z S T c) (hfu : Fut P k0 m F c') :
    Out P glo k0 m (act.loc + c.pc) (conf F act rest c.code.length w T) F act rest Z S T c' False (sevalF true P (seval true P n) ρ φ (.ite a b d) S) := by
  have st := (st_both (P := P) (glo := glo) k)
  obtain ⟨c1, c2, c3, h1, h2, h3, rfl, p1, q1, p2, p3, p4, _⟩ := st_ite st.1 st.2 h hqa hqb hqd hat.pre fa fb fd
  have hb : Below Z (act.loc + c.pc) := by have := hat.below; rwa [ht_none hpu] at this
  have e3 := (st.1 d _ c3 sc fs h3 hqd (p3.keep.pre hat.pre) (or_keep hat.pre p3.keep fd))
  have l2 := p2.ext.lab
  have opj := (op_jump [c.lab] (c.lab + 1) c2).trans (op_adjust [c.lab] 1 _)
  have opl := opj.trans (op_label (ls := [c.lab]) c.lab _ (by simp))
  have l3 := opl.lab
  have fu3 : Fut P k0 m F c3 := hfu.op (op_label (ls := [c.lab + 1]) (c.lab + 1) c3 (by simp))
  have fud : Fut P k0 m F (((c2.jump (c.lab + 1)).adjust 1).label c.lab) := fu3.ext e3.ext
  have fuj : Fut P k0 m F (c2.jump (c.lab + 1)) := (fud.op (op_label (ls := [c.lab]) c.lab _ (by simp))).op (op_adjust [] 1 _)
  have fu2 : Fut P k0 m F c2 := fuj.op (op_jump [] _ c2)
  have pb := st.1 b c1 c2 sc fs h2 hqb (p1.keep.pre hat.pre) (or_keep hat.pre p1.keep fb)
  have fu1 : Fut P k0 m F c1 := fu2.ext pb.ext
  have hg : Post P glo sc (c.lab + 2) 0 c c.gen.gen := (gen_post hat.pre).trans hat.pre (gen_post ((gen_keep (sc := sc) hat.pre.tab).pre hat.pre)) (Nat.le_refl _)
  have hatg : At P glo k0 m sc fs act ρ φ Z S T c.gen.gen := hat.next hg hat.rel
  -- the labels
  have n2 : ∀ l, c.lab ≤ l → l < c.lab + 2 → Instr.label l ∉ c2.code := fun l h1 h2 => fresh_ext p2.ext (wf_fresh hat.wf h1) h2
  have lb2 : c.lab + 2 ≤ c2.lab := by
    have := (st.2 false c.lab a _ c1 sc fs h1 hqa hatg.pre (or_keep hat.pre hg.keep fa)).1.ext.lab
    have h' := pb.ext.lab
    have : c.gen.gen.lab = c.lab + 2 := rfl
    omega
  have la : labelAt c.lab F = some ((c2.jump (c.lab + 1)).adjust 1).clear.code.length :=
    label_at fud.px (fresh_op ((op_jump [] (c.lab + 1) c2).trans (op_adjust [] 1 _)) (n2 _ (by omega) (by omega)) (by simp))
  have lb : labelAt (c.lab + 1) F = some c3.clear.code.length := by
    refine label_at hfu.px (fresh_ext e3.ext (fresh_op opl (n2 _ (by omega) (by omega)) (by simp)) ?_)
    rw [l3]; omega
  have o1 := hv k false c.lab _ a c.gen.gen c1 sc fs F act rest w T S ρ φ Z h1 hpu hqa (or_keep hat.pre hg.keep fa) hatg fu1 la
  have hh2 : Cmp.ht c2 - 1 = c.pc := by rw [p2.ht, ht_none hpu]; omega
  have hh3 : Cmp.ht c3 - 1 = c.pc := by rw [p4.ht, ht_none hpu]; omega
  have hpc1 : c1.pc = c.pc := by have := p1.ht; rwa [ht_none q1, ht_none hpu] at this
  -- the last label
  have tl : ∀ {w T v}, T.mem (act.loc + c.pc) = .val v → Top m act w T (c3.label (c.lab + 1)) v := by
    intro w T v h
    unfold Top Comp.popx
    rw [label_push]
    have : Cmp.ht c3 - 1 = c.pc := hh3
    simp only [evalX, base, label_pc, this, readW, h]
  simp only [sevalF]
  cases hr : seval true P n ρ φ a S with
  | ok v S1 =>
    rw [hr] at o1
    obtain ⟨w1, T1, r1, rel1, ch1⟩ := o1
    simp only [Res.bind]
    have hat1 := hat.next (c1 := c1) p1 rel1
    cases hv0 : snil v with
    | false =>
      show Out P glo k0 m _ _ F act rest Z S T _ False (sel (seval true P n ρ φ d S1) (seval true P n ρ φ b S1) v)
      rw [sel_some _ _ hv0]
      rw [hv0, if_pos rfl] at r1
      have o2 := hs k b c1 c2 sc fs F act rest w1 T1 S1 ρ φ Z h2 q1 hqb (or_keep hat.pre p1.keep fb) hat1 fu2
      rw [hpc1] at o2
      refine Out.pre r1 ch1 (Nat.le_refl _) id ?_
      cases hr2 : seval true P n ρ φ b S1 with
      | ok v2 S2 =>
        rw [hr2] at o2
        obtain ⟨w2, T2, v2', r2, t2, q2, rel2, ch2⟩ := o2
        obtain ⟨T3, r3, u3⟩ := run_jump (rest := rest) fuj.px lb t2
        rw [hh2] at u3
        refine ⟨w2, T3, v2', r2.trans (r3.trans (run_emit_label (c := c3.clear) hfu.px)), tl u3.at_, q2, u3.rel hb (Nat.le_refl _) rel2, ch2.trans (u3.chg (Nat.le_refl _)) (Nat.le_refl _)⟩
      | err =>
        rw [hr2] at o2
        rcases o2 with o | ⟨_, w2, T2, r2, t2⟩
        · exact .inl o
        · exact .inl (r2.trans (run_clear_err ((List.prefix_append _ _).trans fuj.px) t2))
      | _ => trivial
    | true =>
      show Out P glo k0 m _ _ F act rest Z S T _ False (sel (seval true P n ρ φ d S1) (seval true P n ρ φ b S1) v)
      rw [sel_nil _ _ hv0]
      rw [hv0, if_neg (by simp)] at r1
      have r1' := r1.trans (run_emit_label (rest := rest) (act := act) (w := w1) (T := T1) (c := ((c2.jump (c.lab + 1)).adjust 1).clear) fud.px)
      have o2 := hs k d _ c3 sc fs F act rest w1 T1 S1 ρ φ Z h3 (label_push _ _) hqd (or_keep hat.pre p3.keep fd) (hat.next p3 rel1) fu3
      have hpc : (((c2.jump (c.lab + 1)).adjust 1).label c.lab).pc = c.pc := by have := p3.ht; rwa [ht_none (label_push _ _), ht_none hpu] at this
      rw [hpc] at o2
      refine Out.pre r1' ch1 (Nat.le_refl _) id ?_
      have o3 := OutJ.ofOut (q := c3.clear.code.length) (a := act.loc + (Cmp.ht c3 - 1)) o2
      exact o3.label hfu.px hb (by omega)
  | err => rw [hr] at o1; exact .inl o1
  | _ => trivial

theorem sim_while {n k : Nat} (hs : SimE P glo k0 m n) (hv : SimV P glo k0 m n) {a : Expr} {es : List Expr} {c c' : Comp} {sc fs : List Sym} {F : Code} {act : Act} {rest : List Frame} {w : CVal} {T : CState} {S : SState} {ρ φ : SEnv} {Z : List Slot}
    (h : compF P.special (comp P.special k).1 (comp P.special k).2 (.while a es) c = some c') (hpu : c.push = none) (hqa : CPlain P glo sc fs a) (hqb : ∀ e ∈ es, CPlain P glo sc fs e) (hng : ∀ e ∈ es, ¬ GlobalRef sc e)
    (fa : Flat a ∨ Agree c sc) (fb : (∀ e ∈ es, Flat e) ∨ Agree c sc) (fw : Flat (.while a es) ∨ Agree c sc) (hat : At P glo k0 m sc fs act ρ φ Z S T c) (hfu : Fut P k0 m F c') :
    Out P glo k0 m (act.loc + c.pc) (conf F act rest c.code.length w T) F act rest Z S T c' False (sevalF true P (seval true P n) ρ φ (.while a es) S) := by
  have st := (st_both (P := P) (glo := glo) k)
  obtain ⟨c1, c2, h1, h2, e', p0, el, p1, q1, p2, _⟩ := st_while st.1 st.2 h hqa hqb hat.pre fa fb
  have hb : Below Z (act.loc + c.pc) := by have := hat.below; rwa [ht_none hpu] at this
  have fu4 : Fut P k0 m F (((c2.discard 1).jump c.lab).label (c.lab + 1)) := by
    rw [e'] at hfu
    exact (hfu.op (op_label (ls := [c.lab + 2]) (c.lab + 2) _ (by simp))).op (op_pushx [] .nil _)
  have fuj : Fut P k0 m F ((c2.discard 1).jump c.lab) := fu4.op (op_label (ls := [c.lab + 1]) (c.lab + 1) _ (by simp))
  have fu2 : Fut P k0 m F c2 := (fuj.op (op_jump [] _ _)).op (op_discard [] 1 c2)
  have e1 := st.2 false (c.lab + 1) a _ c1 sc fs h1 hqa (p0.keep.pre hat.pre) (or_keep hat.pre p0.keep fa)
  have e2 := st_progn st.1 es h2 hqb (p1.keep.pre hat.pre) (or_keep hat.pre p1.keep fb)
  have fu1 : Fut P k0 m F c1 := fu2.ext e2.ext
  have fu0 : Fut P k0 m F (c.gen.gen.clear.gen.label c.lab) := fu1.ext e1.1.ext
  have l1 := e1.1.ext.lab
  have ecl : c.gen.gen.clear.gen.clear.code = c.code := by
    rw [clear_self (c := c.gen.gen) hpu, clear_self (c := c.gen.gen.gen) hpu]; rfl
  have ecl' : c.gen.gen.clear.gen.code = c.code := by rw [clear_self (c := c.gen.gen) hpu]; rfl
  have la : labelAt c.lab F = some c.code.length := by
    rw [← ecl]
    exact label_at fu0.px (by rw [ecl']; exact wf_fresh hat.wf (Nat.le_refl _))
  have lb : labelAt (c.lab + 1) F = some ((c2.discard 1).jump c.lab).clear.code.length := by
    refine label_at fu4.px (fresh_op ((op_discard [] 1 c2).trans (op_jump [] c.lab _)) (fresh_ext e2.ext (fresh_ext e1.1.ext (fresh_op (op_label (ls := [c.lab]) c.lab _ (by simp)) ?_ (by simp)) ?_) ?_) (by simp))
    · rw [ecl']; exact wf_fresh hat.wf (by omega)
    · rw [el]; omega
    · omega
  have r0 : Reach m (conf F act rest c.code.length w T) (conf F act rest (c.gen.gen.clear.gen.label c.lab).code.length w T) := by
    have := run_emit_label (m := m) (rest := rest) (act := act) (w := w) (T := T) (c := c.gen.gen.clear.gen.clear) (l := c.lab) fu0.px
    rw [ecl] at this; exact this
  have hat0 := hat.next p0 hat.rel
  have o1 := hv k false (c.lab + 1) _ a _ c1 sc fs F act rest w T S ρ φ Z h1 (label_push _ _) hqa (or_keep hat.pre p0.keep fa) hat0 fu1 lb
  have hpc0 : (c.gen.gen.clear.gen.label c.lab).pc = c.pc := by have := p0.ht; rwa [ht_none (label_push _ _), ht_none hpu] at this
  rw [hpc0] at o1
  have hpc1 : c1.pc = c.pc := by have := p1.ht; rwa [ht_none q1, ht_none hpu] at this
  simp only [sevalF]
  cases hr : seval true P n ρ φ a S with
  | ok v S1 =>
    rw [hr] at o1
    obtain ⟨w1, T1, r1, rel1, ch1⟩ := o1
    simp only [Res.bind]
    have hat1 := hat.next (c1 := c1) p1 rel1
    cases hv0 : snil v with
    | false =>
      show Out P glo k0 m _ _ F act rest Z S T c' False (sel (Res.ok .nil S1) ((prognFrom (seval true P n ρ φ) .nil es S1).bind fun _ s => seval true P n ρ φ (.while a es) s) v)
      rw [sel_some _ _ hv0]
      rw [hv0, if_pos rfl] at r1
      have o2 := sim_progn hs es (w := w1) (rest := rest) .nil h2 q1 hqb (fun e he => hng e (List.dropLast_subset _ he)) (or_keep hat.pre p1.keep fb) hat1 fu2 (fun _ => rfl)
      rw [hpc1] at o2
      refine Out.pre (r0.trans r1) ch1 (Nat.le_refl _) id ?_
      cases hr2 : prognFrom (seval true P n ρ φ) .nil es S1 with
      | ok v2 S2 =>
        rw [hr2] at o2
        obtain ⟨w2, T2, v2', r2, t2, q2, rel2, ch2⟩ := o2
        simp only [Res.bind]
        have ecode : (c2.discard 1).code = c2.code := by unfold Comp.discard; split <;> rfl
        have r3 := run_jump0 (m := m) (rest := rest) (act := act) (w := w2) (T := T2) (discard_push 1 c2) fuj.px la
        rw [ecode] at r3
        have hat2 : At P glo k0 m sc fs act ρ φ Z S2 T2 c := ⟨hat.pre, hat.wf, hat.ctx, rel2, hat.below⟩
        have o3 := hs (k + 1) (.while a es) c c' sc fs F act rest w2 T2 S2 ρ φ Z h hpu (.while hqa hqb hng) fw hat2 hfu
        exact Out.pre (r2.trans r3) ch2 (Nat.le_refl _) (fun g => by cases g) o3
      | err =>
        rw [hr2] at o2
        rcases o2 with o | ⟨⟨es', e, he, g⟩, _⟩
        · exact .inl o
        · exact absurd g (hng e (by rw [he]; simp))
      | _ => trivial
    | true =>
      have hv1 : v = .nil := snil_iff.mp hv0
      subst hv1
      rw [hv0, if_neg (by simp)] at r1
      show Out P glo k0 m _ _ F act rest Z S T c' False (Res.ok .nil S1)
      have r2 := run_emit_label (m := m) (rest := rest) (act := act) (w := w1) (T := T1) (c := ((c2.discard 1).jump c.lab).clear) (l := c.lab + 1) fu4.px
      have hp5 : (((c2.discard 1).jump c.lab).label (c.lab + 1)).push = none := label_push _ _
      have e5 : ((((c2.discard 1).jump c.lab).label (c.lab + 1)).pushx .nil).code = (((c2.discard 1).jump c.lab).label (c.lab + 1)).code := by
        show (((c2.discard 1).jump c.lab).label (c.lab + 1)).clear.code = _
        rw [clear_self hp5]
      obtain ⟨T3, r3, u3⟩ := run_label (m := m) (rest := rest) (act := act) (w := w1) (T := T1) (c := (((c2.discard 1).jump c.lab).label (c.lab + 1)).pushx .nil) (l := c.lab + 2) (v := .nil) (by rw [← e']; exact hfu.px) rfl
      have hh : Cmp.ht ((((c2.discard 1).jump c.lab).label (c.lab + 1)).pushx .nil) - 1 = c.pc := by
        rw [ht_pushx, ht_label, ht_jump, ht_discard _ _ (.inr (Nat.le_refl _)), p2.ht, ht_none hpu]; omega
      rw [hh] at u3
      rw [e5] at r3
      refine ⟨w1, T3, .nil, ?_, ?_, .nil, u3.rel hb (Nat.le_refl _) rel1, ch1.trans (u3.chg (Nat.le_refl _)) (Nat.le_refl _)⟩
      · rw [e']; exact r0.trans (r1.trans (r2.trans r3))
      · rw [e']
        unfold Top Comp.popx
        rw [label_push]
        simp only [evalX, base, label_pc, hh, readW, u3.at_]
  | err => rw [hr] at o1; exact .inl (r0.trans o1)
  | _ => trivial

end Eus.Cmp
