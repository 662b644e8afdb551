import Verif.Cmp.Forms
import Verif.Cmp.Apply
set_option autoImplicit false
/-
Calls, and all forms together.
-/
namespace Eus.Cmp
open Eus.Lex
open Comp (search assq clear)

variable {P : Prog} {glo : Sym → Bool} {k0 : Nat} {m : Mach}

/-- Back from a call. -/
theorem OutR.ret {H : Nat} {p0 p1 : Config} {F : Code} {act : Act} {rest : List Frame} {Z : List Slot} {S S1 : SState} {T T1 : CState} {c' : Comp} {w : CVal} {r : Res SVal SState}
    (h : OutR P glo k0 m H p1 (⟨F, act, c'.code.length, w⟩ :: rest) Z S1 T1 r) (hr : Reach m p0 p1) (hc : Chg Z H S T S1 T1) (hp : c'.push = some .w) : Out P glo k0 m H p0 F act rest Z S T c' False r := by
  unfold OutR at h; unfold Out
  cases r with
  | ok v S' =>
    obtain ⟨T', v', r1, q1, rel1, ch1⟩ := h
    refine ⟨v', T', v', hr.trans r1, ?_, q1, rel1, hc.trans ch1 (Nat.le_refl _)⟩
    unfold Top Comp.popx
    rw [hp]; rfl
  | err => exact .inl (hr.trans h)
  | _ => trivial

theorem call_code (i : Nat → Instr) (n : Nat) (c : Comp) : (c.call i n).code = c.clear.resetVsp.code ++ [i (Cmp.ht c - n)] := by
  have e : c.clear.resetVsp.pc = Cmp.ht c := clear_pc c
  show (((c.clear.resetVsp).emit (i (c.clear.resetVsp.pc - n))).discard n).clear.code = _
  rw [clear_self (discard_push _ _), e]
  unfold Comp.discard
  split <;> rfl

theorem call_push (i : Nat → Instr) (n : Nat) (c : Comp) : (c.call i n).push = some .w := rfl

/-- The call of a function with arguments. -/
theorem sim_call {n k : Nat} (hs : SimE P glo k0 m n) {args : List Expr} {i : Nat → Instr} {c c1 : Comp} {sc fs : List Sym} {F : Code} {act : Act} {rest : List Frame} {w : CVal} {T : CState} {S : SState} {ρ φ : SEnv} {Z : List Slot}
    {f : List SVal → SState → Res SVal SState} (h : compArgs (comp P.special k).1 args c = some c1) (hpu : c.push = none) (hq : ∀ e ∈ args, CPlain P glo sc fs e) (hf : (∀ e ∈ args, Flat e) ∨ Agree c sc)
    (hat : At P glo k0 m sc fs act ρ φ Z S T c) (hfu : Fut P k0 m F (c1.call i args.length))
    (hi : ∀ vs S1 w1 T1, vs.length = args.length → Chg Z (act.loc + c.pc) S T S1 T1 → Rel P glo k0 m Z S1 T1 → Stk P glo k0 m S1.next Z T1 (act.loc + c.pc) vs → T1.vsp = act.loc + c.pc + args.length →
      OutR P glo k0 m (act.loc + c.pc) (stepI m.fns m.clos m.builtin ⟨F, act, c1.clear.resetVsp.code.length, w1⟩ rest T1 (i c.pc)) (⟨F, act, (c1.call i args.length).code.length, w1⟩ :: rest) Z S1 T1 (f vs S1)) :
    Out P glo k0 m (act.loc + c.pc) (conf F act rest c.code.length w T) F act rest Z S T (c1.call i args.length) False ((evalArgs (seval true P n ρ φ) args S).bind f) := by
  have st := (st_both (P := P) (glo := glo) k).1
  have p1 := st_args st args h hq hat.pre hf
  have hh : Cmp.ht c1 = c.pc + args.length := by rw [p1.ht, ht_none hpu]
  have ec := call_code i args.length c1
  rw [show Cmp.ht c1 - args.length = c.pc by omega] at ec
  have px := hfu.px
  rw [ec] at px
  have px1 : c1.clear.resetVsp.code <+: F := (List.prefix_append _ _).trans px
  have px2 : c1.clear.code <+: F := (List.prefix_append _ _).trans px1
  have tk : (c1.call i args.length).tasks = c1.clear.tasks := by
    show (((c1.clear.resetVsp).emit (i (c1.clear.resetVsp.pc - args.length))).discard args.length).clear.tasks = _
    rw [clear_self (discard_push _ _)]; unfold Comp.discard; split <;> rfl
  have o := sim_args hs args (rest := rest) (F := F) (w := w) h hpu hq hf hat ⟨px2, fun t ht => hfu.tasks t (by rw [tk]; exact ht)⟩
  cases hr : evalArgs (seval true P n ρ φ) args S with
  | ok vs S1 =>
    rw [hr] at o
    obtain ⟨w1, T1, r1, s1, l1, rel1, ch1⟩ := o
    have r2 := run_vsp (m := m) (rest := rest) (act := act) (w := w1) (T := T1) (c := c1.clear) px1
    have hv : act.loc + c1.clear.pc = act.loc + c.pc + args.length := by rw [clear_pc, hh]; omega
    rw [hv] at r2
    have ch2 : Chg Z (act.loc + c.pc) S T S1 { T1 with vsp := act.loc + c.pc + args.length } := ch1.trans (Chg.vsp rfl rfl) (Nat.le_refl _)
    have o2 := hi vs S1 w1 { T1 with vsp := act.loc + c.pc + args.length } l1 ch2 (rel1.vsp rfl rfl) (Stk.mono (T := T1) (fun _ _ h => h) (fun _ _ _ => rfl) s1) rfl
    simp only [Res.bind]
    exact o2.ret (r1.trans (r2.trans (conf_step px rfl))) ch2 (call_push _ _ _)
  | err => rw [hr] at o; exact .inl o
  | _ => trivial

/-- What builtin functions are given. -/
theorem words_datum {n : Nat} {Z : List Slot} {T : CState} : ∀ {vs : List SVal} {a : Nat}, Stk P glo k0 m n Z T a vs → (words T a vs.length).mapM datumOf = vs.mapM Val.datum
  | [], _, _ => rfl
  | v :: vs, a, ⟨⟨v', h1, h2⟩, h3⟩ => by
    simp only [List.length_cons, words, List.mapM_cons, words_datum h3, h1]
    have : datumOf (.val v') = Val.datum v := by cases h2 <;> rfl
    rw [this]

theorem sim_prim {n k : Nat} (su : Setup P glo k0 m) (hs : SimE P glo k0 m n) {p : Nat} {args : List Expr} {c c' : Comp} {sc fs : List Sym} {F : Code} {act : Act} {rest : List Frame} {w : CVal} {T : CState} {S : SState} {ρ φ : SEnv} {Z : List Slot}
    (h : compF P.special (comp P.special k).1 (comp P.special k).2 (.prim p args) c = some c') (hpu : c.push = none) (hq : ∀ e ∈ args, CPlain P glo sc fs e) (hf : (∀ e ∈ args, Flat e) ∨ Agree c sc)
    (hat : At P glo k0 m sc fs act ρ φ Z S T c) (hfu : Fut P k0 m F c') :
    Out P glo k0 m (act.loc + c.pc) (conf F act rest c.code.length w T) F act rest Z S T c' False (sevalF true P (seval true P n) ρ φ (.prim p args) S) := by
  simp only [compF, Option.bind_eq_some_iff, Option.some.injEq] at h
  obtain ⟨c1, h1, rfl⟩ := h
  refine sim_call hs h1 hpu hq hf hat hfu ?_
  intro vs S1 w1 T1 hl ch1 rel1 st1 _
  have e : (words T1 (act.loc + c.pc) args.length).mapM datumOf = vs.mapM Val.datum := by rw [← hl]; exact words_datum st1
  simp only [stepI, e, su.builtin]
  cases (vs.mapM Val.datum).bind (P.builtin p) with
  | none => exact Reach.refl _ _
  | some d =>
    refine ⟨T1, ofDatum d, ?_, ?_, rel1, Chg.refl _ _ _ _⟩
    · rw [call_code]
      simp only [List.length_append, List.length_cons, List.length_nil]
      exact Reach.refl _ _
    · cases d with
      | none => exact .nil
      | some z => exact .int z

theorem evalArgs_cons_bind (ev : Expr → SState → Res SVal SState) (e : Expr) (es : List Expr) (S : SState) (f : List SVal → SState → Res SVal SState) :
    (evalArgs ev (e :: es) S).bind f = (ev e S).bind fun v s => (evalArgs ev es s).bind fun vs s => f (v :: vs) s := by
  simp only [evalArgs]
  cases ev e S with
  | ok v s => simp only [Res.bind]; cases evalArgs ev es s <;> rfl
  | _ => rfl

theorem sim_funcall {n k : Nat} (su : Setup P glo k0 m) (hs : SimE P glo k0 m n) {e : Expr} {args : List Expr} {c c' : Comp} {sc fs : List Sym} {F : Code} {act : Act} {rest : List Frame} {w : CVal} {T : CState} {S : SState} {ρ φ : SEnv} {Z : List Slot}
    (h : compF P.special (comp P.special k).1 (comp P.special k).2 (.funcall e args) c = some c') (hpu : c.push = none) (hq : ∀ a ∈ e :: args, CPlain P glo sc fs a) (hf : (∀ a ∈ e :: args, Flat a) ∨ Agree c sc)
    (hat : At P glo k0 m sc fs act ρ φ Z S T c) (hfu : Fut P k0 m F c') :
    Out P glo k0 m (act.loc + c.pc) (conf F act rest c.code.length w T) F act rest Z S T c' False (sevalF true P (seval true P n) ρ φ (.funcall e args) S) := by
  simp only [compF, Option.bind_eq_some_iff, Option.some.injEq] at h
  obtain ⟨c1, h1, rfl⟩ := h
  have hb : Below Z (act.loc + c.pc) := by have := hat.below; rwa [ht_none hpu] at this
  let f : List SVal → SState → Res SVal SState := fun vs s => match vs with
    | [] => .err
    | g :: vs => match g with
      | .clo ps body ρ' φ' => sapply true P (seval true P n) ps body ρ' φ' vs s
      | _ => .err
  have ef : sevalF true P (seval true P n) ρ φ (.funcall e args) S = (evalArgs (seval true P n ρ φ) (e :: args) S).bind f := by
    rw [evalArgs_cons_bind]; rfl
  rw [ef]
  refine sim_call hs (i := fun k => .funcall (args.length + 1) k) (f := f) h1 hpu hq hf hat hfu ?_
  intro vs S1 w1 T1 hl ch1 rel1 st1 hv
  cases vs with
  | nil => simp at hl
  | cons g vs =>
    simp only [List.length_cons, Nat.add_right_cancel_iff] at hl hv
    obtain ⟨⟨g', m1, q1⟩, st2⟩ := st1
    have hb' : Below Z (act.loc + c.pc + 1) := hb.mono (by omega)
    simp only [stepI, m1]
    have up : ∀ {p1 : Config} {rest : List Frame} {r : Res SVal SState}, OutR P glo k0 m (act.loc + c.pc + 1) p1 rest Z S1 T1 r → OutR P glo k0 m (act.loc + c.pc) p1 rest Z S1 T1 r := by
      intro p1 rest r o
      unfold OutR at o ⊢
      cases r with
      | ok v S' => obtain ⟨T', v', a1, a2, a3, a4⟩ := o; exact ⟨T', v', a1, a2, a3, (Chg.refl Z _ S1 T1).trans a4 (by omega)⟩
      | err => exact o
      | _ => trivial
    have hcl : (c1.call (fun k => .funcall (args.length + 1) k) (args.length + 1)).code.length = c1.clear.resetVsp.code.length + 1 := by
      rw [call_code]; simp
    cases q1 with
    | nil => exact Reach.refl _ _
    | t => exact Reach.refl _ _
    | int z => exact Reach.refl _ _
    | clo hfr =>
      have o := sim_closure (rest := ⟨F, act, c1.clear.resetVsp.code.length + 1, w1⟩ :: rest) hs hfr rel1 st2 hl (by omega) hb'
      show OutR P glo k0 m _ _ (⟨F, act, (c1.call (fun k => .funcall (args.length + 1) k) (args.length + 1)).code.length, w1⟩ :: rest) Z S1 T1 _
      rw [hcl]
      exact up o
    | code hfn =>
      have o := sim_defun (rest := ⟨F, act, c1.clear.resetVsp.code.length + 1, w1⟩ :: rest) hs su hfn rel1 st2 hl (by omega) hb'
      show OutR P glo k0 m _ _ (⟨F, act, (c1.call (fun k => .funcall (args.length + 1) k) (args.length + 1)).code.length, w1⟩ :: rest) Z S1 T1 _
      rw [hcl]
      exact up o

theorem callClosure_code (en n d off : Nat) (c : Comp) : ((c.pushx (.loc d off)).callClosure en n).code = c.clear.code ++ [.set .w (.loc d off)] ++ [.vsp (Cmp.ht c)] ++ [.callclo en n (Cmp.ht c - n)] ∧
    ((c.pushx (.loc d off)).callClosure en n).push = some .w ∧ ((c.pushx (.loc d off)).callClosure en n).tasks = c.tasks := by
  have es : ((c.pushx (.loc d off)).store .w) = { c.clear with push := none, code := c.clear.code ++ [.set .w (.loc d off)] } := by
    unfold Comp.store
    rw [if_neg (by simp [Comp.pushx, Dst.cx])]
    rfl
  have e : c.clear.pc = Cmp.ht c := clear_pc c
  refine ⟨?_, rfl, ?_⟩
  · unfold Comp.callClosure
    rw [es]
    show ((((Comp.resetVsp _).emit _).discard n)).clear.code = _
    rw [clear_self (discard_push _ _)]
    simp only [Comp.resetVsp, Comp.emit, Comp.discard, e]
  · exact ((op_pushx [] (.loc d off) c).trans (op_callClosure [] en n _)).tasks

theorem sim_callf {n k : Nat} (su : Setup P glo k0 m) (hs : SimE P glo k0 m n) {f : Sym} {args : List Expr} {c c' : Comp} {sc fs : List Sym} {F : Code} {act : Act} {rest : List Frame} {w : CVal} {T : CState} {S : SState} {ρ φ : SEnv} {Z : List Slot}
    (h : compF P.special (comp P.special k).1 (comp P.special k).2 (.call f args) c = some c') (hpu : c.push = none) (hf' : f ∈ fs ∨ P.fns f ≠ none) (hq : ∀ a ∈ args, CPlain P glo sc fs a) (hf : (∀ a ∈ args, Flat a) ∨ Agree c sc)
    (hat : At P glo k0 m sc fs act ρ φ Z S T c) (hfu : Fut P k0 m F c') :
    Out P glo k0 m (act.loc + c.pc) (conf F act rest c.code.length w T) F act rest Z S T c' False (sevalF true P (seval true P n) ρ φ (.call f args) S) := by
  have hb : Below Z (act.loc + c.pc) := by have := hat.below; rwa [ht_none hpu] at this
  by_cases hg : P.fns f = none
  · -- a local function
    have hin : f ∈ fs := hf'.resolve_right (fun h => h hg)
    obtain ⟨l, cell, av, lo, e1, e2, e3, e4, e5⟩ := hat.ctx.fn f hin
    have el : c.localFun f = some l := e1
    simp only [compF, el, Option.bind_eq_some_iff, Option.some.injEq] at h
    obtain ⟨c1, h1, rfl⟩ := h
    have st := (st_both (P := P) (glo := glo) k).1
    have p1 := st_args st args h1 hq hat.pre hf
    have hh : Cmp.ht c1 = c.pc + args.length := by rw [p1.ht, ht_none hpu]
    obtain ⟨ec, ep, et⟩ := callClosure_code l.entry args.length (c1.cl - l.level) l.off c1
    rw [show Cmp.ht c1 - args.length = c.pc by omega] at ec
    have px := hfu.px
    rw [ec] at px
    have px1 := (List.prefix_append _ _).trans px
    have px2 := (List.prefix_append _ _).trans px1
    have px3 : c1.clear.code <+: F := (List.prefix_append _ _).trans px2
    have o := sim_args hs args (rest := rest) (F := F) (w := w) h1 hpu hq hf hat ⟨px3, fun t ht => hfu.tasks t (by rw [et, ← (op_clear [] c1).tasks]; exact ht)⟩
    have hsl := hat.rel.slot _ e5
    simp only at hsl
    generalize hcc : S.cells cell = cc at hsl
    generalize hmm : T.mem (lo + l.off) = mm at hsl
    cases hsl with
    | @fn ps b ρ' φ' _ env av' lo' hfr =>
      simp only [sevalF, e3, hcc]
      cases hr : evalArgs (seval true P n ρ φ) args S with
      | ok vs S1 =>
        rw [hr] at o
        obtain ⟨w1, T1, r1, s1, l1, rel1, ch1⟩ := o
        have hsl1 := rel1.slot _ e5
        simp only at hsl1
        rw [ch1.fn _ e5 (by simp), hcc] at hsl1
        generalize hm1 : T1.mem (lo + l.off) = mm1 at hsl1
        cases hsl1 with
        | @fn _ _ _ _ _ env1 av1 lo1 hfr1 =>
          have hcl : c1.cl = c.cl := p1.keep.cl
          have r2 : Reach m (conf F act rest c1.clear.code.length w1 T1) (conf F act rest (c1.clear.code.length + 1) (.clo l.entry env1 av1 lo1) T1) := by
            refine conf_step px2 ?_
            simp only [stepI, evalX, hcl, e4, readW, hm1]
            rfl
          have r3 : Reach m (conf F act rest (c1.clear.code.length + 1) (.clo l.entry env1 av1 lo1) T1) (conf F act rest (c1.clear.code.length + 2) (.clo l.entry env1 av1 lo1) { T1 with vsp := act.loc + Cmp.ht c1 }) := by
            have := conf_step (m := m) (rest := rest) (act := act) (w := .clo l.entry env1 av1 lo1) (T := T1) px1 rfl
            simpa [stepI, conf] using this
          have o2 := sim_closure (T := { T1 with vsp := act.loc + Cmp.ht c1 }) (rest := ⟨F, act, ((c1.pushx (.loc (c1.cl - l.level) l.off)).callClosure l.entry args.length).code.length, .clo l.entry env1 av1 lo1⟩ :: rest) hs hfr1 (rel1.vsp rfl rfl)
            (Stk.mono (T := T1) (fun _ _ h => h) (fun _ _ _ => rfl) s1) l1 (by simp only; omega) hb
          have r4 : Reach m (conf F act rest (c1.clear.code.length + 2) (.clo l.entry env1 av1 lo1) { T1 with vsp := act.loc + Cmp.ht c1 })
              (enter (m.clos l.entry) ⟨act.loc + c.pc, args.length, act.loc + Cmp.ht c1, some (.clo l.entry env1 av1 lo1)⟩
                (⟨F, act, ((c1.pushx (.loc (c1.cl - l.level) l.off)).callClosure l.entry args.length).code.length, .clo l.entry env1 av1 lo1⟩ :: rest) { T1 with vsp := act.loc + Cmp.ht c1 }) := by
            have := conf_step (m := m) (rest := rest) (act := act) (w := .clo l.entry env1 av1 lo1) (T := { T1 with vsp := act.loc + Cmp.ht c1 }) px rfl
            rw [ec]
            simpa [stepI, conf] using this
          simp only [Res.bind]
          exact o2.ret (r1.trans (r2.trans (r3.trans r4))) (ch1.trans (Chg.vsp rfl rfl) (Nat.le_refl _)) ep
      | err => rw [hr] at o; exact .inl o
      | _ => trivial
  · -- a function of the file
    obtain ⟨g1, g2⟩ := hat.ctx.glob f hg
    have el : c.localFun f = none := g1
    simp only [compF, el, Option.bind_eq_some_iff, Option.some.injEq] at h
    obtain ⟨c1, h1, rfl⟩ := h
    obtain ⟨⟨ps, b⟩, hd⟩ := Option.ne_none_iff_exists'.mp hg
    simp only [sevalF, g2, hd]
    refine sim_call hs (i := fun k => .call f args.length k) h1 hpu hq hf hat hfu ?_
    intro vs S1 w1 T1 hl ch1 rel1 st1 hv
    have o := sim_defun (rest := ⟨F, act, c1.clear.resetVsp.code.length + 1, w1⟩ :: rest) hs su hd rel1 st1 hl (by omega) hb
    have hcl : (c1.call (fun k => .call f args.length k) args.length).code.length = c1.clear.resetVsp.code.length + 1 := by
      rw [call_code]; simp
    rw [hcl]
    exact o

theorem sim_fn {n : Nat} (su : Setup P glo k0 m) {k : Nat} {f : Sym} {c c' : Comp} {sc fs : List Sym} {F : Code} {act : Act} {rest : List Frame} {w : CVal} {T : CState} {S : SState} {ρ φ : SEnv} {Z : List Slot}
    (h : compF P.special (comp P.special k).1 (comp P.special k).2 (.fn f) c = some c') (hpu : c.push = none) (hf' : f ∈ fs ∨ P.fns f ≠ none) (hat : At P glo k0 m sc fs act ρ φ Z S T c) :
    Out P glo k0 m (act.loc + c.pc) (conf F act rest c.code.length w T) F act rest Z S T c' False (sevalF true P (seval true P n) ρ φ (.fn f) S) := by
  have epx : ∀ x, (c.pushx x).code = c.code := fun x => by show c.clear.code = _; rw [clear_self hpu]
  by_cases hg : P.fns f = none
  · have hin : f ∈ fs := hf'.resolve_right (fun h => h hg)
    obtain ⟨l, cell, av, lo, e1, e2, e3, e4, e5⟩ := hat.ctx.fn f hin
    have el : c.localFun f = some l := e1
    simp only [compF, el, Option.some.injEq] at h
    subst h
    have hsl := hat.rel.slot _ e5
    simp only at hsl
    generalize hcc : S.cells cell = cc at hsl
    generalize hmm : T.mem (lo + l.off) = mm at hsl
    cases hsl with
    | @fn ps b ρ' φ' _ env av' lo' hfr =>
      simp only [sevalF, e3, hcc]
      refine ⟨w, T, _, by rw [epx]; exact Reach.refl _ _, ?_, .clo hfr, hat.rel, Chg.refl _ _ _ _⟩
      show evalX m.isfn act w T (.loc (c.cl - l.level) l.off) = _
      simp only [evalX, e4, readW, hmm]
  · obtain ⟨g1, g2⟩ := hat.ctx.glob f hg
    have el : c.localFun f = none := g1
    simp only [compF, el, Option.some.injEq] at h
    subst h
    obtain ⟨⟨ps, b⟩, hd⟩ := Option.ne_none_iff_exists'.mp hg
    simp only [sevalF, g2, hd]
    refine ⟨w, T, .code f, by rw [epx]; exact Reach.refl _ _, ?_, .code hd, hat.rel, Chg.refl _ _ _ _⟩
    show evalX m.isfn act w T (.func f) = _
    obtain ⟨lab, r, _, hm, _⟩ := su.fns f ps b hd
    simp only [evalX, Mach.isfn, hm, Option.isSome_some, if_true]

theorem sim_lam {n k : Nat} {ps : List Sym} {es : List Expr} {c c' : Comp} {sc fs : List Sym} {F : Code} {act : Act} {rest : List Frame} {w : CVal} {T : CState} {S : SState} {ρ φ : SEnv} {Z : List Slot}
    (h : compF P.special (comp P.special k).1 (comp P.special k).2 (.lam ps es) c = some c') (hpu : c.push = none) (hn : okNames P glo ps) (hq : ∀ e ∈ es, CPlain P glo (ext P ps sc) fs e) (hu : used (ext P ps sc) es) (ha : Agree c sc)
    (hat : At P glo k0 m sc fs act ρ φ Z S T c) (hfu : Fut P k0 m F c') :
    Out P glo k0 m (act.loc + c.pc) (conf F act rest c.code.length w T) F act rest Z S T c' False (sevalF true P (seval true P n) ρ φ (.lam ps es) S) := by
  simp only [compF, Option.some.injEq] at h
  subst h
  have op := op_closure [] c.lab c.gen
  have ts : TS P.special k0 m.clos ⟨c.lab, ps, es, c.frames, c.scope, c.cl + 1, c.flets⟩ := by
    have := hfu.tasks ⟨c.lab, ps, es, (c.gen.closure c.lab).frames, (c.gen.closure c.lab).scope, (c.gen.closure c.lab).cl + 1, (c.gen.closure c.lab).flets⟩ (by simp [Comp.addTask])
    rw [op.frames, op.scope, op.cl, op.flets] at this
    exact this
  obtain ⟨T', r1, m1, s1, g1, t1⟩ := closure_run (m := m) (F := F) (act := act) (rest := rest) (c := c.gen) (w := w) (T := T) (en := c.lab) hpu hfu.px
  have hfr : FRel P glo k0 m S.next Z ps es ρ φ c.lab act.env act.argv act.loc := FRel.here hat.pre ha ts hn hq hu hat.ctx (hat.rel.old hat.ctx.lv) (hat.rel.old hat.ctx.lf)
  exact ⟨w, T', _, r1, t1, .clo hfr, hat.rel.vsp m1 g1, Chg.vsp m1 s1⟩

/-! ### All forms -/

theorem push_out {c : Comp} {x : CX} {H : Nat} {F : Code} {act : Act} {rest : List Frame} {w : CVal} {T : CState} {S : SState} {Z : List Slot} {g : Prop} {v : SVal} {v' : CVal} (hpu : c.push = none) (hx : evalX m.isfn act w T x = .ok v')
    (hv : VRel P glo k0 m S.next Z v v') (hr : Rel P glo k0 m Z S T) : Out P glo k0 m H (conf F act rest c.code.length w T) F act rest Z S T (c.pushx x) g (.ok v S) := by
  have epx : (c.pushx x).code = c.code := by show c.clear.code = _; rw [clear_self hpu]
  exact ⟨w, T, v', by rw [epx]; exact Reach.refl _ _, hx, hv, hr, Chg.refl _ _ _ _⟩

theorem Out.weak {H : Nat} {p0 : Config} {F : Code} {act : Act} {rest : List Frame} {Z : List Slot} {S : SState} {T : CState} {c' : Comp} {g : Prop} {r : Res SVal SState}
    (h : Out P glo k0 m H p0 F act rest Z S T c' False r) : Out P glo k0 m H p0 F act rest Z S T c' g r := Out.pre (Reach.refl _ _) (Chg.refl _ _ _ _) (Nat.le_refl _) False.elim h

theorem simE_succ {n : Nat} (su : Setup P glo k0 m) (hs : SimE P glo k0 m n) (hv : SimV P glo k0 m n) : SimE P glo k0 m (n + 1) := by
  intro k e c c' sc fs F act rest w T S ρ φ Z h hpu hq hf hat hfu
  cases k with
  | zero => cases h
  | succ k =>
  simp only [comp] at h
  simp only [seval]
  cases hq with
  | nil => cases h; exact push_out hpu rfl .nil hat.rel
  | t => cases h; exact push_out hpu rfl .t hat.rel
  | int z => cases h; exact push_out hpu rfl (.int z) hat.rel
  | var hx => cases h; exact sim_var hpu hx hat
  | setq hx hq => exact (sim_setq hs h hpu hx hq (hf.imp (fun h => by cases h; assumption) id) hat hfu).weak
  | ite ha hb hd =>
    exact (sim_ite hs hv h hpu ha hb hd (hf.imp (fun h => by cases h; assumption) id) (hf.imp (fun h => by cases h; assumption) id) (hf.imp (fun h => by cases h; assumption) id) hat hfu).weak
  | not hq => exact sim_not hs h hpu hq (hf.imp (fun h => by cases h; assumption) id) hat hfu
  | and hne hq => exact (sim_and_or hs (.inl ⟨rfl, hne⟩) h hpu hq (flat_list hf (fun h => by cases h; assumption)) hat hfu).weak
  | or hq => exact (sim_and_or hs (.inr rfl) h hpu hq (flat_list hf (fun h => by cases h; assumption)) hat hfu).weak
  | progn hq hu =>
    have o := sim_progn hs _ (w := w) (rest := rest) .nil h hpu hq hu (flat_list hf (fun h => by cases h; assumption)) hat hfu (fun _ => rfl)
    refine Out.pre (Reach.refl _ _) (Chg.refl _ _ _ _) (Nat.le_refl _) ?_ o
    rintro ⟨es', e, rfl, g⟩
    exact .progn g
  | «while» ha hb hn => exact (sim_while hs hv h hpu ha hb hn (hf.imp (fun h => by cases h; assumption) id) (flat_list hf (fun h => by cases h; assumption)) hf hat hfu).weak
  | letp hi hn hq hu => exact (sim_letp hs h hpu (.letp hi hn hq hu) (by rcases hf with hf | hf; (· cases hf); exact hf) hat hfu).weak
  | letsNil hq hu => exact (sim_lets hs h hpu (.letsNil hq hu) (by rcases hf with hf | hf; (· cases hf); exact hf) hat hfu).weak
  | letsCons hq1 hx hq2 => exact (sim_lets hs h hpu (.letsCons hq1 hx hq2) (by rcases hf with hf | hf; (· cases hf); exact hf) hat hfu).weak
  | lam hn hq hu => exact (sim_lam h hpu hn hq hu (by rcases hf with hf | hf; (· cases hf); exact hf) hat hfu).weak
  | fn hf' => exact (sim_fn su h hpu hf' hat).weak
  | funcall hq hqs =>
    exact (sim_funcall su hs h hpu (by intro a ha; simp only [List.mem_cons] at ha; rcases ha with rfl | ha; (· exact hq); exact hqs a ha)
      (flat_list hf (fun h => by cases h with | funcall h1 h2 => intro a ha; simp only [List.mem_cons] at ha; rcases ha with rfl | ha; (· exact h1); exact h2 a ha)) hat hfu).weak
  | call hf' hqs => exact (sim_callf su hs h hpu hf' hqs (flat_list hf (fun h => by cases h; assumption)) hat hfu).weak
  | flet hd hqd hq hu => exact (sim_flet hs h hpu (.flet hd hqd hq hu) (by rcases hf with hf | hf; (· cases hf); exact hf) hat hfu).weak
  | labels hd hqd hq hu => exact (sim_labels hs h hpu (.labels hd hqd hq hu) (by rcases hf with hf | hf; (· cases hf); exact hf) hat hfu).weak
  | prim hqs => exact (sim_prim su hs h hpu hqs (flat_list hf (fun h => by cases h; assumption)) hat hfu).weak

theorem snil_negate (v : SVal) : snil v.negate = !snil v := by cases v <;> rfl

theorem isNil_snil {n : Nat} {Z : List Slot} {v : SVal} {v' : CVal} (h : VRel P glo k0 m n Z v v') : v'.isNil = snil v := by
  cases h <;> rfl

/-- A condition that is a form like any other. -/
theorem simV_default {n k : Nat} (hs : SimE P glo k0 m n) {b : Bool} {l q : Nat} {e : Expr} {c c' : Comp} {sc fs : List Sym} {F : Code} {act : Act} {rest : List Frame} {w : CVal} {T : CState} {S : SState} {ρ φ : SEnv} {Z : List Slot}
    (h : ((comp P.special k).1 e c).bind (fun c => some (if b then c.ifT l else c.ifNil l)) = some c') (hpu : c.push = none) (hq : CPlain P glo sc fs e) (hf : Flat e ∨ Agree c sc) (hat : At P glo k0 m sc fs act ρ φ Z S T c)
    (hfu : Fut P k0 m F c') (hl : labelAt l F = some q) :
    EOut P glo k0 m (act.loc + c.pc) (conf F act rest c.code.length w T) F act rest Z S T b c'.code.length q (seval true P n ρ φ e S) := by
  simp only [Option.bind_eq_some_iff, Option.some.injEq] at h
  obtain ⟨c1, h1, rfl⟩ := h
  cases b with
  | true =>
    simp only [if_true] at hfu ⊢
    have o := hs k e c c1 sc fs F act rest w T S ρ φ Z h1 hpu hq hf hat (hfu.op (op_ifT [] l c1))
    cases hr : seval true P n ρ φ e S with
    | ok v S1 =>
      rw [hr] at o
      obtain ⟨w1, T1, v1, r1, t1, q1, rel1, ch1⟩ := o
      have r2 := run_ifT (rest := rest) hfu.px hl t1
      rw [isNil_snil q1] at r2
      exact ⟨w1, T1, r1.trans r2, rel1, ch1⟩
    | err =>
      rw [hr] at o
      rcases o with o | ⟨_, w1, T1, r1, t1⟩
      · exact o
      · exact r1.trans (run_ifT_err hfu.px t1)
    | _ => trivial
  | false =>
    simp only [Bool.false_eq_true, if_false] at hfu ⊢
    have o := hs k e c c1 sc fs F act rest w T S ρ φ Z h1 hpu hq hf hat (hfu.op (op_ifNil [] l c1))
    cases hr : seval true P n ρ φ e S with
    | ok v S1 =>
      rw [hr] at o
      obtain ⟨w1, T1, v1, r1, t1, q1, rel1, ch1⟩ := o
      have r2 := run_ifNil (rest := rest) hfu.px hl t1
      rw [isNil_snil q1] at r2
      refine ⟨w1, T1, r1.trans ?_, rel1, ch1⟩
      cases hsn : snil v <;> simpa [hsn] using r2
    | err =>
      rw [hr] at o
      rcases o with o | ⟨_, w1, T1, r1, t1⟩
      · exact o
      · exact r1.trans (run_ifNil_err hfu.px t1)
    | _ => trivial

theorem simV_succ {n : Nat} (hs : SimE P glo k0 m (n + 1)) (hv : SimV P glo k0 m n) : SimV P glo k0 m (n + 1) := by
  intro k b l q e c c' sc fs F act rest w T S ρ φ Z h hpu hq hf hat hfu hl
  cases k with
  | zero => cases h
  | succ k =>
  simp only [comp] at h
  have stv := (st_both (P := P) (glo := glo) k).2
  have dflt := fun h => simV_default hs (rest := rest) (w := w) (k := k) (b := b) (l := l) (c' := c') h hpu hq hf hat hfu hl
  have g := gen_post (L := c.lab) hat.pre
  have hatg : At P glo k0 m sc fs act ρ φ Z S T c.gen := hat.next g hat.rel
  -- a condition followed by a jump
  have multi : ∀ (bb : Bool) (es : List Expr) (r : Res SVal SState), b = !bb → es ≠ [] → (∀ a ∈ es, CPlain P glo sc fs a) → ((∀ a ∈ es, Flat a) ∨ Agree c sc) →
      (∀ c1 ql, evconAll (comp P.special k).2 bb c.lab es c.gen = some c1 → Fut P k0 m F c1 → labelAt c.lab F = some ql →
        EOut P glo k0 m (act.loc + c.pc) (conf F act rest c.code.length w T) F act rest Z S T bb c1.code.length ql r) →
      (evconAll (comp P.special k).2 bb c.lab es c.gen).bind (fun c' => some ((c'.jump l).label c.lab)) = some c' →
      EOut P glo k0 m (act.loc + c.pc) (conf F act rest c.code.length w T) F act rest Z S T b c'.code.length q r := by
    intro bb es r hbb hne hq hf o h
    simp only [Option.bind_eq_some_iff, Option.some.injEq] at h
    obtain ⟨c1, h1, rfl⟩ := h
    obtain ⟨p1, pn, _⟩ := st_evAll stv bb c.lab _ h1 hq hatg.pre (or_keep hat.pre g.keep hf)
    have fuj : Fut P k0 m F (c1.jump l) := hfu.op (op_label (ls := [c.lab]) c.lab _ (by simp))
    have fu1 : Fut P k0 m F c1 := fuj.op (op_jump [] l c1)
    have hn : Instr.label c.lab ∉ c1.code := fresh_ext p1.ext (show Instr.label c.lab ∉ c.code from wf_fresh hat.wf (Nat.le_refl _)) (show c.lab < c.lab + 1 by omega)
    have hl0 := label_at hfu.px (fresh_op (op_jump [] l c1) hn (by simp))
    have o1 := o c1 _ h1 fu1 hl0
    cases r with
    | ok v S' =>
      obtain ⟨w', T', r1, rel1, ch1⟩ := o1
      refine ⟨w', T', r1.trans ?_, rel1, ch1⟩
      by_cases hsn : snil v = bb
      · rw [if_pos hsn, if_neg (by rw [hsn, hbb]; cases bb <;> simp)]
        exact run_jump0 (pn hne) fuj.px hl
      · rw [if_neg hsn, if_pos (by revert hsn; rw [hbb]; cases bb <;> cases snil v <;> simp)]
        exact run_emit_label (c := (c1.jump l).clear) hfu.px
    | err => exact o1
    | _ => trivial
  cases e with
  | not e =>
    cases hq with
    | not hq =>
      have o := hv k (!b) l q e c c' sc fs F act rest w T S ρ φ Z h hpu hq (hf.imp (fun h => by cases h; assumption) id) hat hfu hl
      simp only [seval, sevalF]
      cases hr : seval true P n ρ φ e S with
      | ok v S1 =>
        rw [hr] at o
        obtain ⟨w', T', r1, rel1, ch1⟩ := o
        refine ⟨w', T', ?_, rel1, ch1⟩
        rw [snil_negate]
        have : (snil v = !b) = ((!snil v) = b) := by cases b <;> cases snil v <;> simp
        simp only [this] at r1
        exact r1
      | err => rw [hr] at o; exact o
      | _ => trivial
  | and es =>
    cases es with
    | nil => exact dflt h
    | cons e0 es =>
      cases hq with
      | and _ hq' =>
        have hf' := flat_list (es := e0 :: es) hf (fun h => by cases h; assumption)
        cases b with
        | false => exact sim_evAnd hv l q hl (e0 :: es) .t (by simpa [evconF] using h) hpu hq' hf' hat hfu rfl
        | true =>
          exact multi false (e0 :: es) _ rfl (by simp) hq' hf' (fun c1 ql h1 fu1 hl0 => sim_evAnd hv c.lab ql hl0 (e0 :: es) (c := c.gen) .t h1 hpu hq' (or_keep hat.pre g.keep hf') hatg fu1 rfl) (by simpa [evconF] using h)
  | or es =>
    cases es with
    | nil => exact dflt h
    | cons e0 es =>
      cases hq with
      | or hq' =>
        have hf' := flat_list (es := e0 :: es) hf (fun h => by cases h; assumption)
        cases b with
        | true => exact sim_evOr hv l q hl (e0 :: es) (by simpa [evconF] using h) hpu hq' hf' hat hfu
        | false =>
          exact multi true (e0 :: es) _ rfl (by simp) hq' hf' (fun c1 ql h1 fu1 hl0 => sim_evOr hv c.lab ql hl0 (e0 :: es) (c := c.gen) h1 hpu hq' (or_keep hat.pre g.keep hf') hatg fu1) (by simpa [evconF] using h)
  | _ => exact dflt h

/-- Compiled forms do what the specification says. -/
theorem sim_all (su : Setup P glo k0 m) : ∀ n, SimE P glo k0 m n ∧ SimV P glo k0 m n
  | 0 => ⟨fun _ _ _ _ _ _ _ _ _ _ _ _ _ _ _ _ _ _ _ _ _ => trivial, fun _ _ _ _ _ _ _ _ _ _ _ _ _ _ _ _ _ _ _ _ _ _ _ _ _ => trivial⟩
  | n + 1 => by
    obtain ⟨hs, hv⟩ := sim_all su n
    have h1 := simE_succ su hs hv
    exact ⟨h1, simV_succ h1 hv⟩

end Eus.Cmp
