import Verif.Cmp.Params
set_option autoImplicit false
/-
Functions are called.
-/
namespace Eus.Cmp
open Eus.Lex
open Comp (search assq clear)

variable {P : Prog} {glo : Sym → Bool} {k0 : Nat} {m : Mach}

/-- The functions of the program have been compiled. -/
structure Setup (P : Prog) (glo : Sym → Bool) (k0 : Nat) (m : Mach) : Prop where
  prog : CPlainProg P glo
  fns : ∀ f ps b, P.fns f = some (ps, b) → ∃ lab r, compileDefun P.special k0 lab ps b = some r ∧ m.fns f = some r.1 ∧ ∀ t ∈ r.2.1, TS P.special k0 m.clos t
  builtin : m.builtin = P.builtin

/-- A function returns. -/
def retTo (rest : List Frame) (v : CVal) (T : CState) : Config :=
  match rest with
  | [] => .done v T
  | g :: gs => .run ({ g with w := v } :: gs) T

/-- What a call does. -/
def OutR (P : Prog) (glo : Sym → Bool) (k0 : Nat) (m : Mach) (H : Nat) (p0 : Config) (rest : List Frame) (Z : List Slot) (S : SState) (T : CState) (r : Res SVal SState) : Prop :=
  match r with
  | .ok v S' => ∃ T' v', Reach m p0 (retTo rest v' T') ∧ VRel P glo k0 m S'.next Z v v' ∧ Rel P glo k0 m Z S' T' ∧ Chg Z H S T S' T'
  | .err => Reach m p0 .err
  | _ => True

theorem Stk.get {n : Nat} {Z : List Slot} {T : CState} {x : Sym} {j : Nat} {v' : CVal} : ∀ {xs : List Sym} {vs : List SVal} {a i b : Nat}, Stk P glo k0 m n Z T a vs → xs.length = vs.length → (x, j) ∈ xs.zipIdx i → a = b + i →
    T.mem (b + j) = .val v' → ∃ v, (x, v) ∈ xs.zip vs ∧ VRel P glo k0 m n Z v v'
  | [], _, _, _, _, _, _, hx, _, _ => by simp at hx
  | _ :: _, [], _, _, _, _, hl, _, _, _ => by simp at hl
  | y :: xs, v :: vs, a, i, b, ⟨⟨u, h1, h2⟩, h3⟩, hl, hx, ha, hm => by
    simp only [List.zipIdx_cons, List.mem_cons] at hx
    rcases hx with hx | hx
    · cases hx
      subst ha
      rw [h1] at hm
      cases hm
      exact ⟨v, by simp, h2⟩
    · obtain ⟨v1, g1, g2⟩ := h3.get (by simpa using hl) hx (show a + 1 = b + (i + 1) by omega) hm
      exact ⟨v1, by simp [g1], g2⟩

theorem Stk.has {n : Nat} {Z : List Slot} {T : CState} : ∀ {xs : List Sym} {vs : List SVal} {a i b : Nat}, Stk P glo k0 m n Z T a vs → xs.length = vs.length → a = b + i → ∀ p ∈ xs.zipIdx i, ∃ v', T.mem (b + p.2) = .val v'
  | [], _, _, _, _, _, _, _, p, hx => by simp at hx
  | _ :: _, [], _, _, _, _, hl, _, _, _ => by simp at hl
  | y :: xs, v :: vs, a, i, b, ⟨⟨u, h1, h2⟩, h3⟩, hl, ha, p, hx => by
    simp only [List.zipIdx_cons, List.mem_cons] at hx
    rcases hx with rfl | hx
    · exact ⟨u, by rw [← h1, ha]⟩
    · exact h3.has (by simpa using hl) (show a + 1 = b + (i + 1) by omega) p hx

theorem Ctx.up {Z : List Slot} {L : Sym → Option Ident} {fl : List Flet} {cl : Nat} {B B' : Nat → Option (Nat × Nat)} {sc fs : List Sym} {ρ φ : SEnv} (h : Ctx P glo Z L fl cl B sc fs ρ φ) (hb : ∀ d, B' (d + 1) = B d) :
    Ctx P glo Z L fl (cl + 1) B' sc fs ρ φ := by
  refine ⟨?_, ?_, h.glob, h.free, h.lv, h.lf⟩
  · intro x hx
    obtain ⟨i, cell, av, lo, h1, h2, h3, h4, h5⟩ := h.var x hx
    exact ⟨i, cell, av, lo, h1, by omega, h3, by rw [show cl + 1 - i.level = (cl - i.level) + 1 by omega, hb]; exact h4, h5⟩
  · intro f hf
    obtain ⟨l, cell, av, lo, h1, h2, h3, h4, h5⟩ := h.fn f hf
    exact ⟨l, cell, av, lo, h1, by omega, h3, by rw [show cl + 1 - l.level = (cl - l.level) + 1 by omega, hb]; exact h4, h5⟩

theorem fut_delete {F : Code} {c : Comp} (h : Fut P k0 m F c.deleteFrame) : Fut P k0 m F c := by
  have op : ∀ d : Comp, Op [] c d → c.deleteFrame.code = d.code → c.deleteFrame.tasks = d.tasks → Fut P k0 m F c := by
    intro d op e1 e2
    refine ⟨op.prefix.trans (by rw [← e1]; exact h.px), fun t ht => h.tasks t ?_⟩
    rw [e2, op.tasks]; exact ht
  by_cases h0 : 0 < (c.cnt.headD (0, 0)).1
  · refine op ((c.unbindSpecial (c.cnt.headD (0, 0)).1).delFrame (c.cnt.headD (0, 0)).1 (c.cnt.headD (0, 0)).2) ((op_unbindSpecial [] _ _).trans (op_delFrame [] _ _ _)) ?_ ?_ <;>
    · unfold Comp.deleteFrame; simp only [if_pos h0]
  · refine op (c.delFrame (c.cnt.headD (0, 0)).1 (c.cnt.headD (0, 0)).2) (op_delFrame [] _ _ _) ?_ ?_ <;>
    · unfold Comp.deleteFrame; simp only [if_neg h0]

/-- The body of a form that binds variables. -/
theorem sim_body {n k : Nat} (hs : SimE P glo k0 m n) {F : Code} {act : Act} {rest : List Frame} {p0 : Config} {body : List Expr} {c c2 : Comp} {sc fs : List Sym} {ρ φ : SEnv} {Z Z1 : List Slot} {S S1 : SState} {T T1 : CState} {w : CVal}
    {H s l : Nat} {r : List (Nat × Nat)} {lv : SState → SState} (h : compProgn (comp P.special k).1 body c = some c2) (hp : c.push = none) (hq : ∀ e ∈ body, CPlain P glo sc fs e) (hu : used sc body) (hf : (∀ e ∈ body, Flat e) ∨ Agree c sc)
    (ha : At P glo k0 m sc fs act ρ φ Z1 S1 T1 c) (hfu : Fut P k0 m F c2.deleteFrame) (hcnt : c.cnt = (s, l) :: r) (hre : Reach m p0 (conf F act rest c.code.length w T1))
    (hlv : ∀ S' T', Rel P glo k0 m Z1 S' T' → Chg Z1 (act.loc + c.pc) S1 T1 S' T' → (∃ T'', unbindN s T' = some T'' ∧ T''.mem = T'.mem ∧ Rel P glo k0 m Z (lv S') T'' ∧ Chg Z H S T (lv S') T'') ∧
      ∀ v v', VRel P glo k0 m S'.next Z1 v v' → VRel P glo k0 m (lv S').next Z v v') :
    Out P glo k0 m H p0 F act rest Z S T c2.deleteFrame False ((prognFrom (seval true P n ρ φ) .nil body S1).bind fun v s' => .ok v (lv s')) := by
  have st := (st_both (P := P) (glo := glo) k).1
  have p2 := st_progn st body h hq ha.pre hf
  have o := sim_progn hs body (w := w) (rest := rest) .nil h hp hq hu hf ha (fut_delete hfu) (fun _ => rfl)
  have hb : Below Z1 (act.loc + c.pc) := by have := ha.below; rwa [ht_none hp] at this
  cases hr : prognFrom (seval true P n ρ φ) .nil body S1 with
  | ok v S' =>
    rw [hr] at o
    obtain ⟨w', T', v', r1, t1, v1, rel1, ch1⟩ := o
    have hhc : ht c2 - 1 = c.pc := by rw [p2.ht, ht_none hp]; omega
    obtain ⟨T3, q1, q2, q3, q4⟩ := run_delete (rest := rest) (Q := fun T3 => Rel P glo k0 m Z (lv S') T3 ∧ Chg Z H S T (lv S') T3) hfu.px (p2.keep.cnt.trans hcnt) t1 (by
      intro T2 h2
      have : Rel P glo k0 m Z1 S' T2 ∧ Chg Z1 (act.loc + c.pc) S1 T1 S' T2 := by
        rcases h2 with rfl | h2
        · exact ⟨rel1, ch1⟩
        · rw [hhc] at h2
          exact ⟨h2.rel hb (Nat.le_refl _) rel1, ch1.trans (h2.chg (Nat.le_refl _)) (Nat.le_refl _)⟩
      obtain ⟨T3, a1, a2, a3, a4⟩ := (hlv S' T2 this.1 this.2).1
      exact ⟨T3, a1, a2, a3, a4⟩)
    exact ⟨v', T3, v', hre.trans (r1.trans q1), q2, (hlv S' T' rel1 ch1).2 v v' v1, q3, q4⟩
  | err =>
    rw [hr] at o
    rcases o with o | ⟨_, w', T', r1, t1⟩
    · exact .inl (hre.trans o)
    · exact .inl (hre.trans (r1.trans (run_delete_err hfu.px t1)))
  | _ => trivial

/-- The part of a function before it returns. -/
theorem sim_lambda {n : Nat} (hs : SimE P glo k0 m n) {k : Nat} {ps : List Sym} {body : List Expr} {c0 c1 : Comp} {sc fs : List Sym} {F : Code} {act : Act} {rest : List Frame} {ρ φ : SEnv} {Z : List Slot} {S : SState} {T : CState} {w : CVal}
    {args : List SVal} (hcm : compLambda P.special k ps body c0 = some c1) (hpush : c0.push = none) (hpc : c0.pc = 0) (hcode : c0.code = []) (hpre : Pre P glo sc c0) (hag : Agree c0 sc)
    (hps : okNames P glo ps) (hbody : ∀ e ∈ body, CPlain P glo (ext P ps sc) fs e) (hus : used (ext P ps sc) body) (hctx : Ctx P glo Z (look c0) c0.flets c0.cl (base act) sc fs ρ φ) (hr : Rel P glo k0 m Z S T) (hfu : Fut P k0 m F c1)
    (hst : Stk P glo k0 m S.next Z T act.argv args) (hn : args.length = act.n) (hloc : act.argv + act.n ≤ act.loc) (hbl : Below Z act.argv) :
    ht c1 = 1 ∧ Out P glo k0 m act.argv (conf F act rest 0 w T) F act rest Z S T c1 False
      (if ps.length = args.length then (prognFrom (seval true P n (sbind P ps args ρ S).1 φ) .nil body (sbind P ps args ρ S).2).bind fun v s' => .ok v (sleave P ps S s') else .err) := by
  unfold compLambda at hcm
  simp only [Option.bind_eq_some_iff] at hcm
  obtain ⟨cF, h1, c2, h2, h3⟩ := hcm
  simp only [Option.some.injEq] at h3
  subst h3
  obtain ⟨bF, sF, pF, pcF, codeF⟩ := Bound.create h1 hpre.tab
  have bE := bF.op (op_emit (ls := []) (.argc ps.length) cF (by simp)) (m := 0) rfl
  have pE : (cF.emit (.argc ps.length)).push = none := pF.trans hpush
  obtain ⟨bP, sP, rP⟩ := run_params (m := m) ps (i := 0) bE hps.1 hps.2 pE
  have scP : (bindParams P.special ps 0 (cF.emit (.argc ps.length))).scope = (bindParams P.special ps 0 (cF.emit (.argc ps.length))).level := by
    rw [sP.scope, bP.level, ← bF.level]; exact sF
  have preP : Pre P glo (ext P ps sc) (bindParams P.special ps 0 (cF.emit (.argc ps.length))) := by
    refine bP.pre hpre hag scP ?_
    intro x hx
    rcases mem_ext.mp hx with ⟨h, h'⟩ | h
    · exact ⟨(okName_cases (hps.2 x h)).resolve_left (by rw [h']; simp), .inl (by simp [h])⟩
    · exact ⟨hpre.lex x h, .inr h⟩
  have agP : Agree (bindParams P.special ps 0 (cF.emit (.argc ps.length))) (ext P ps sc) := .inl scP
  have st := (st_both (P := P) (glo := glo) k).1
  have p2 := st_progn st body h2 hbody preP (.inr agP)
  have b2 := bP.post p2.ext p2.keep p2.ht bP.ext.lab
  have pd := Bound.delete (sc := sc) (by simpa using b2) hag
  refine ⟨by rw [pd.ht, ht_none hpush, hpc], ?_⟩
  have fu2 := fut_delete hfu
  have fuP := fu2.ext p2.ext
  have cE : (cF.emit (.argc ps.length)).code = [.argc ps.length] := by simp [Comp.emit, codeF, hcode]
  have pcE : (cF.emit (.argc ps.length)).pc = 0 := pcF.trans hpc
  have hF0 : [Instr.argc ps.length] <+: F := by rw [← cE]; exact sP.px.trans fuP.px
  by_cases hl : ps.length = args.length
  · rw [if_pos hl]
    have r0 : Reach m (conf F act rest 0 w T) (conf F act rest (cF.emit (.argc ps.length)).code.length w T) := by
      rw [cE]
      refine conf_step (pre := []) hF0 ?_
      simp only [stepI]
      rw [if_pos (by rw [hl, hn])]; rfl
    obtain ⟨w1, T1, l, r1, bn, nm, vl⟩ := rP (act := act) (rest := rest) (w := w) (T := T) fuP.px (by omega) (hst.has hl rfl)
    rw [pcE, Nat.add_zero] at bn
    have hsp : Specials P glo k0 m S.next Z ps args l := by
      refine ⟨?_, ?_, by rw [nm]; exact hps.1.filter _⟩
      · intro b hb
        obtain ⟨j, g1, g2⟩ := vl b hb
        obtain ⟨v, g3, g4⟩ := hst.get hl g1 rfl g2
        have : b.1 ∈ l.map Prod.fst := List.mem_map.mpr ⟨b, hb, rfl⟩
        rw [nm, List.mem_filter] at this
        exact ⟨v, g3, this.2, g4⟩
      · intro x hx hsx
        rw [nm, List.mem_filter]; exact ⟨hx, hsx⟩
    have hbl' : Below Z act.loc := hbl.mono (by omega)
    have hz : ∀ s ∈ Z, s.addr < act.argv ∨ act.argv + args.length ≤ s.addr := fun s hs => .inl (hbl s hs)
    have rel1 := hr.enter (ρ := ρ) hps.1 hl hst hz bn (by omega) hbl' hsp
    obtain ⟨topP, frP, eP, fP, gP, _⟩ := bP.frames
    obtain ⟨topF, frF, eF, fF, gF, _⟩ := bF.frames
    have topF0 : topF = [] := by
      unfold Comp.createFrame at h1
      split at h1
      · cases h1; simp at eF; exact eF.1.symm ▸ rfl
      · cases h1
    obtain ⟨top', e', f1, f2⟩ := sP.frames topF frF eF
    rw [eP] at e'
    cases e'
    have lookP : ∀ x, look (bindParams P.special ps 0 (cF.emit (.argc ps.length))) x = search x (topP :: frP) := by
      intro x; unfold look; rw [scP, Nat.sub_self, eP]; rfl
    have ctx1 : Ctx P glo (lexSlots P ps act.argv S.next Z) (look (bindParams P.special ps 0 (cF.emit (.argc ps.length)))) c0.flets c0.cl (base act) (ext P ps sc) fs (sbind P ps args ρ S).1 φ := by
      have := hctx.sbind (P := P) (glo := glo) (S := S) (off := 0) (arg := true) (av := act.argv) (lo := act.loc) (L' := look (bindParams P.special ps 0 (cF.emit (.argc ps.length)))) rfl hl hps.1 hps.2 hpre.lex ?_ ?_
      · simpa using this
      · intro b hb hlx
        obtain ⟨j, j1, j2, j3⟩ := f2 b hb hlx
        have j4 := (gP b.1 j j1 hlx).2
        rw [lookP]
        simp only [search, j1]
        rw [bP.cl] at j4
        cases j; simp_all
      · intro y hy hn'
        rw [lookP]
        simp only [search, f1 y hn', topF0, assq]
        rw [FEq.search (hpre.lex y hy) fP, agree_look hpre hag hy]
    have ha1 : At P glo k0 m (ext P ps sc) fs act (sbind P ps args ρ S).1 φ (lexSlots P ps act.argv S.next Z) (sbind P ps args ρ S).2 T1 (bindParams P.special ps 0 (cF.emit (.argc ps.length))) := by
      refine ⟨preP, wf_ext bP.ext (by rw [hcode]; simp), by rw [bP.flets, bP.cl]; exact ctx1, rel1, ?_⟩
      intro s hs
      rcases mem_lexSlots hs with h | ⟨_, h, _⟩
      · have := hbl s h; omega
      · omega
    obtain ⟨sF', lF', cF1, _⟩ := bF.cnt
    have cnt0 : cF.cnt = (0, 0) :: c0.cnt := by
      unfold Comp.createFrame at h1
      split at h1
      · cases h1; rfl
      · cases h1
    have cntP := sP.cnt 0 0 c0.cnt cnt0
    have hll : l.length = 0 + (ps.filter P.special).length := by rw [← nm]; simp
    refine sim_body hs (lv := fun S' => sleave P ps S S') h2 sP.push hbody hus (.inr agP) ha1 hfu cntP (r0.trans r1) ?_
    intro S' T' hrel hchg
    refine ⟨?_, fun v v' hv => VRel.leave hrel hv⟩
    rw [← hll]
    exact hr.leave (ρ := ρ) (H := act.argv) bn (by omega) hbl' hsp (Nat.le_refl _) (by omega) (by rw [sP.pc, pcE, hll]; omega) hrel hchg
  · rw [if_neg hl]
    left
    refine conf_step (pre := []) hF0 ?_
    simp only [stepI]
    rw [if_neg (fun e => hl (by rw [hn]; exact e.symm))]

theorem run_return {F : Code} {act : Act} {rest : List Frame} {c : Comp} {w v : CVal} {T : CState} (hF : c.return_.code <+: F) (hh : ht c = 1) (ht : Top m act w T c v) :
    ∃ T', Reach m (conf F act rest c.code.length w T) (retTo rest v T') ∧ Put T T' act.loc v := by
  obtain ⟨T', r, p⟩ := run_clear (rest := rest) ((List.prefix_append _ _).trans hF) ht
  rw [hh] at p
  simp only [Nat.sub_self, Nat.add_zero] at p
  refine ⟨{ T' with vsp := act.loc }, r.trans (conf_step hF ?_), ⟨p.at_, p.other, p.sbp, p.glob⟩⟩
  simp only [stepI, p.at_]
  cases rest <;> rfl

theorem run_return_err {F : Code} {act : Act} {rest : List Frame} {c : Comp} {w : CVal} {T : CState} (hF : c.return_.code <+: F) (ht : TopErr m act w T c) :
    Reach m (conf F act rest c.code.length w T) .err :=
  run_clear_err ((List.prefix_append _ _).trans hF) ht

theorem Out.return_ {H : Nat} {p0 : Config} {F : Code} {act : Act} {rest : List Frame} {Z : List Slot} {S : SState} {T : CState} {c : Comp} {r : Res SVal SState} (h : Out P glo k0 m H p0 F act rest Z S T c False r)
    (hF : c.return_.code <+: F) (hh : ht c = 1) (hb : Below Z H) (hH : H ≤ act.loc) : OutR P glo k0 m H p0 rest Z S T r := by
  unfold Out at h
  unfold OutR
  cases r with
  | ok v S' =>
    obtain ⟨w', T', v', r1, t1, v1, rel1, ch1⟩ := h
    obtain ⟨T2, r2, p2⟩ := run_return (rest := rest) hF hh t1
    exact ⟨T2, v', r1.trans r2, v1, p2.rel hb hH rel1, ch1.trans (p2.chg hH) (Nat.le_refl _)⟩
  | err =>
    rcases h with h | ⟨h, _⟩
    · exact h
    · exact h.elim
  | _ => trivial

end Eus.Cmp
