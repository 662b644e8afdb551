import Verif.Cmp.Call
set_option autoImplicit false
/-
Calls of closures and of functions of the file.
-/
namespace Eus.Cmp
open Eus.Lex
open Comp (search assq clear)

variable {P : Prog} {glo : Sym → Bool} {k0 : Nat} {m : Mach}

theorem sim_closure {n : Nat} (hs : SimE P glo k0 m n) {ps : List Sym} {b : List Expr} {ρ φ : SEnv} {en argv nargs : Nat} {env : Option CVal} {av lo : Nat} {rest : List Frame} {Z : List Slot} {S : SState} {T : CState} {args : List SVal}
    (hf : FRel P glo k0 m S.next Z ps b ρ φ en env av lo) (hr : Rel P glo k0 m Z S T) (hst : Stk P glo k0 m S.next Z T argv args) (hn : args.length = nargs) (hloc : argv + nargs ≤ T.vsp) (hbl : Below Z argv) :
    OutR P glo k0 m argv (enter (m.clos en) ⟨argv, nargs, T.vsp, some (.clo en env av lo)⟩ rest T) rest Z S T (sapply true P (seval true P n) ps b ρ φ args S) := by
  obtain ⟨⟨t, sc, fs, h1, h2, h3, h4, h5, h6, h7, h8, h9, h10⟩, _, _⟩ := hf
  unfold sapply
  simp only [Bool.not_true, Bool.false_or]
  split
  next hl =>
    simp only [Bool.and_eq_true] at hl
    have ctx := h10 ((allLive_iff hr ρ).mp hl.1) ((allLive_iff hr φ).mp hl.2)
    cases h1 with
    | @mk _ lab r e1 e2 e3 =>
      unfold compileTask at e1
      simp only [Option.bind_eq_some_iff, Option.some.injEq] at e1
      obtain ⟨c1, e1, rfl⟩ := e1
      rw [← h2, e2]
      subst h3 h4
      have op := op_return [] c1
      have ctx' := ctx.up (B' := base ⟨argv, nargs, T.vsp, some (.clo t.entry env av lo)⟩) (fun d => by rw [h2]; rfl)
      rw [show t.cl - 1 + 1 = t.cl by omega] at ctx'
      have ctx2 : Ctx P glo Z (look (t.comp lab)) (t.comp lab).flets (t.comp lab).cl (base ⟨argv, nargs, T.vsp, some (.clo t.entry env av lo)⟩) sc fs ρ φ :=
        ctx'.look (fun x hx => (agree_look (h8 lab).1 (h8 lab).2 hx).symm)
      obtain ⟨g1, g2⟩ := sim_lambda hs (act := ⟨argv, nargs, T.vsp, some (.clo t.entry env av lo)⟩) (rest := rest) (w := .nil) (F := c1.return_.code) (c0 := t.comp lab) e1 rfl rfl rfl (h8 lab).1 (h8 lab).2 h5 h6 h7 ctx2 hr
        ⟨op.prefix, fun t' ht => e3 t' (by rw [op.tasks]; exact ht)⟩ hst hn hloc hbl
      exact g2.return_ (List.prefix_refl _) g1 hbl (Nat.le_trans (Nat.le_add_right _ _) hloc)
  · trivial

theorem sim_defun {n : Nat} (hs : SimE P glo k0 m n) (su : Setup P glo k0 m) {f : Sym} {ps : List Sym} {b : List Expr} {argv nargs : Nat} {rest : List Frame} {Z : List Slot} {S : SState} {T : CState} {args : List SVal}
    (hf : P.fns f = some (ps, b)) (hr : Rel P glo k0 m Z S T) (hst : Stk P glo k0 m S.next Z T argv args) (hn : args.length = nargs) (hloc : argv + nargs ≤ T.vsp) (hbl : Below Z argv) :
    OutR P glo k0 m argv (enter (m.fns f) ⟨argv, nargs, T.vsp, none⟩ rest T) rest Z S T (sapply true P (seval true P n) ps b [] [] args S) := by
  obtain ⟨lab, r, e1, e2, e3⟩ := su.fns f ps b hf
  obtain ⟨q1, q2, q3⟩ := su.prog f ps b hf
  unfold sapply
  simp only [Bool.not_true, Bool.false_or]
  split
  next hl =>
    unfold compileDefun at e1
    simp only [Option.bind_eq_some_iff, Option.some.injEq] at e1
    obtain ⟨c1, e1, rfl⟩ := e1
    rw [e2]
    have op1 := op_label (ls := [lab]) lab c1 (by simp)
    have op := op_return [] (c1.label lab)
    have pre : Pre P glo [] ⟨none, 0, [], lab + 1, [[]], 0, 0, [], [], []⟩ := by
      refine ⟨?_, by simp, by simp, by simp, .inl rfl⟩
      intro f hf x i hx
      simp at hf
      subst hf
      cases hx
    have ctx : Ctx P glo Z (look ⟨none, 0, [], lab + 1, [[]], 0, 0, [], [], []⟩) [] 0 (base ⟨argv, nargs, T.vsp, none⟩) [] [] [] [] :=
      ⟨by simp, by simp, fun f _ => ⟨rfl, rfl⟩, fun _ _ _ => rfl, fun p hp => by simp at hp, fun p hp => by simp at hp⟩
    obtain ⟨g1, g2⟩ := sim_lambda hs (act := ⟨argv, nargs, T.vsp, none⟩) (rest := rest) (w := .nil) (F := (c1.label lab).return_.code) e1 rfl rfl rfl pre (.inl rfl) q1 q2 q3 ctx hr
      ⟨op1.prefix.trans op.prefix, fun t' ht => e3 t' (by rw [op.tasks, op1.tasks]; exact ht)⟩ hst hn hloc hbl
    have hle : argv ≤ T.vsp := Nat.le_trans (Nat.le_add_right _ _) hloc
    have g3 := OutJ.label (g := False) (OutJ.ofOut g2) op.prefix hbl (Nat.le_trans hle (Nat.le_add_right _ _))
    exact g3.return_ (List.prefix_refl _) (by rw [ht_label, g1]) hbl hle
  · trivial

end Eus.Cmp
