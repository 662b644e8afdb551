import Verif.Cmp.Let
set_option autoImplicit false
/-
`let*`.
-/
namespace Eus.Cmp
open Eus.Lex
open Comp (search assq clear)

variable {P : Prog} {glo : Sym → Bool} {k0 : Nat} {m : Mach}

theorem Res.bind_assoc {α β γ σ : Type} (r : Res α σ) (f : α → σ → Res β σ) (g : β → σ → Res γ σ) : (r.bind f).bind g = r.bind fun a s => (f a s).bind g := by
  cases r <;> rfl

theorem sim_seq {n k : Nat} (hs : SimE P glo k0 m n) {sc0 fs : List Sym} {c0 : Comp} (hp0 : Pre P glo sc0 c0) (ha0 : Agree c0 sc0) {es : List Expr} :
    ∀ (bs : List (Sym × Expr)) {hs sc : List Sym} {c c1 c2 : Comp}, compSeq P.special (comp P.special k).1 bs c = some c1 → compProgn (comp P.special k).1 es c1 = some c2 → CPlain P glo sc fs (.lets bs es) →
      c.push = none → c.scope = c.level → Pre P glo sc c → (∀ x ∈ sc, x ∈ hs ∨ x ∈ sc0) → Bound P glo hs 0 c0 c →
      Ext c0.lab c c2 ∧
      ∀ {F : Code} {act : Act} {rest : List Frame} {ρ φ : SEnv} {Z Z1 : List Slot} {S S1 : SState} {T T1 : CState} {w : CVal} {H s l : Nat} {r : List (Nat × Nat)} {p0 : Config} {lv : SState → SState},
        At P glo k0 m sc fs act ρ φ Z1 S1 T1 c → Fut P k0 m F c2.deleteFrame → c.cnt = (s, l) :: r → Reach m p0 (conf F act rest c.code.length w T1) →
        (∀ S' T', Rel P glo k0 m Z1 S' T' → Chg Z1 (act.loc + c.pc) S1 T1 S' T' → (∃ T'', unbindN s T' = some T'' ∧ T''.mem = T'.mem ∧ Rel P glo k0 m Z (lv S') T'' ∧ Chg Z H S T (lv S') T'') ∧
          ∀ v v', VRel P glo k0 m S'.next Z1 v v' → VRel P glo k0 m (lv S').next Z v v') →
        Out P glo k0 m H p0 F act rest Z S T c2.deleteFrame False ((slets P (seval true P n) φ es bs ρ S1).bind fun v s' => .ok v (lv s'))
  | [], hs', sc, c, c1, c2, h1, h2, hq, hpu, hsc, hp, hm, hb => by
    cases h1
    cases hq with
    | letsNil hq hu =>
      have st := (st_both (P := P) (glo := glo) k).1
      have p := st_progn st es h2 hq hp (.inr (.inl hsc))
      refine ⟨p.ext.weaken hb.ext.lab, ?_⟩
      intro F act rest ρ φ Z Z1 S S1 T T1 w H s l r p0 lv hat hfu hcnt hre hlv
      exact sim_body hs h2 hpu hq hu (.inr (.inl hsc)) hat hfu hcnt hre hlv
  | (x, e) :: bs, hs', sc, c, c1, c2, h1, h2, hq, hpu, hsc, hp, hm, hb => by
    cases hq with
    | letsCons hqe hx hq =>
      simp only [compSeq, Option.bind_eq_some_iff] at h1
      obtain ⟨d, h1, h3⟩ := h1
      have st := (st_both (P := P) (glo := glo) k).1
      have p := st e c d sc fs h1 hqe hp (.inr (.inl hsc))
      have hds : d.scope = d.level := by
        rcases p.keep.scope with h | ⟨h, _⟩
        · rw [h, hsc, p.keep.level]
        · rw [h, p.keep.level]
      have kp := p.keep.pre hp
      have oc := op_clear [] d
      have pc : Post P glo sc c.lab 1 c d.clear := p.op0 hp oc (by rw [ht_clear, p.ht])
      have b1 : Bound P glo hs' 1 c0 d.clear := (hb.post p.ext p.keep p.ht hb.ext.lab).op oc (m := 0) (by rw [ht_clear]; rfl)
      have e01 : Ext c0.lab c d.clear := pc.ext.weaken hb.ext.lab
      have hh : ht d = c.pc + 1 := by rw [p.ht, ht_none hpu]
      have hpc : d.clear.pc = c.pc + 1 := by rw [clear_pc, hh]
      obtain ⟨top, fr, e1, _⟩ := b1.frames
      have lookc : ∀ y ∈ sc, look c y = search y (top :: fr) := by
        intro y hy
        rw [← pc.keep.look hp hy]
        unfold look
        rw [show d.clear.level - d.clear.scope = 0 by rw [clear_scope, hds, pc.keep.level, p.keep.level]; omega, e1]; rfl
      have goal : ∀ {d' : Comp} {top' : List (Sym × Ident)} {dc ds : Nat}, Bound P glo (x :: hs') 0 c0 d' → d'.push = none → d'.scope = d'.level → d'.frames = top' :: fr → (∀ y, y ≠ x → assq y top' = assq y top) →
          (Lexical P glo x → ∃ j, assq x top' = some j ∧ j.bnd = .loc ∧ j.off = c.pc) → Ext c0.lab d.clear d' → (∀ s l r, c.cnt = (s, l) :: r → d'.cnt = (s + ds, l + dc) :: r) →
          (∀ {F : Code} {act : Act} {rest : List Frame} {ρ : SEnv} {Z1 : List Slot} {S1 : SState} {T1 : CState} {w v' : CVal} {v : SVal}, d'.code <+: F → Below Z1 (act.loc + c.pc) → Rel P glo k0 m Z1 S1 T1 → VRel P glo k0 m S1.next Z1 v v' → T1.mem (act.loc + c.pc) = .val v' →
            ∃ w2 T2, Reach m (conf F act rest d.clear.code.length w T1) (conf F act rest d'.code.length w2 T2) ∧ Rel P glo k0 m (lexSlots P [x] (act.loc + c.pc) S1.next Z1) (sbind P [x] [v] ρ S1).2 T2 ∧ Below (lexSlots P [x] (act.loc + c.pc) S1.next Z1) (act.loc + d'.pc) ∧
              ∀ S' T', Rel P glo k0 m (lexSlots P [x] (act.loc + c.pc) S1.next Z1) S' T' → Chg (lexSlots P [x] (act.loc + c.pc) S1.next Z1) (act.loc + d'.pc) (sbind P [x] [v] ρ S1).2 T2 S' T' →
                ∃ T'', unbindN ds T' = some T'' ∧ T''.mem = T'.mem ∧ Rel P glo k0 m Z1 (sleave P [x] S1 S') T'' ∧ Chg Z1 (act.loc + c.pc) S1 T1 (sleave P [x] S1 S') T'') →
          compSeq P.special (comp P.special k).1 bs d' = some c1 →
          Ext c0.lab c c2 ∧
          ∀ {F : Code} {act : Act} {rest : List Frame} {ρ φ : SEnv} {Z Z1 : List Slot} {S S1 : SState} {T T1 : CState} {w : CVal} {H s l : Nat} {r : List (Nat × Nat)} {p0 : Config} {lv : SState → SState},
            At P glo k0 m sc fs act ρ φ Z1 S1 T1 c → Fut P k0 m F c2.deleteFrame → c.cnt = (s, l) :: r → Reach m p0 (conf F act rest c.code.length w T1) →
            (∀ S' T', Rel P glo k0 m Z1 S' T' → Chg Z1 (act.loc + c.pc) S1 T1 S' T' → (∃ T'', unbindN s T' = some T'' ∧ T''.mem = T'.mem ∧ Rel P glo k0 m Z (lv S') T'' ∧ Chg Z H S T (lv S') T'') ∧
              ∀ v v', VRel P glo k0 m S'.next Z1 v v' → VRel P glo k0 m (lv S').next Z v v') →
            Out P glo k0 m H p0 F act rest Z S T c2.deleteFrame False ((slets P (seval true P n) φ es ((x, e) :: bs) ρ S1).bind fun v s' => .ok v (lv s')) := by
        intro d' top' dc ds b2 pu2 sc2 fr2 oth lex2 ext2 cnt2 run2 h4
        have p2 : Pre P glo (ext P [x] sc) d' := by
          refine b2.pre hp0 ha0 sc2 ?_
          intro y hy
          rcases mem_ext.mp hy with ⟨h, h'⟩ | h
          · simp at h; subst h
            exact ⟨(okName_cases hx).resolve_left (by rw [h']; simp), .inl (by simp)⟩
          · refine ⟨hp.lex y h, ?_⟩
            rcases hm y h with h | h
            · exact .inl (by simp [h])
            · exact .inr h
        have hm2 : ∀ y ∈ ext P [x] sc, y ∈ x :: hs' ∨ y ∈ sc0 := by
          intro y hy
          rcases mem_ext.mp hy with ⟨h, _⟩ | h
          · simp at h; exact .inl (by simp [h])
          · rcases hm y h with h | h
            · exact .inl (by simp [h])
            · exact .inr h
        obtain ⟨e3, r3⟩ := sim_seq hs hp0 ha0 bs h4 h2 hq pu2 sc2 p2 hm2 b2
        have e13 : Ext c0.lab d.clear c2 := ext2.trans e3 (Nat.le_refl _)
        refine ⟨e01.trans e13 (Nat.le_refl _), ?_⟩
        intro F act rest ρ φ Z Z1 S S1 T T1 w H s l r p0 lv hat hfu hcnt hre hlv
        have fu2 := fut_delete hfu
        have fud' := fu2.ext e3
        have fud : Fut P k0 m F d.clear := fu2.ext e13
        have hbl : Below Z1 (act.loc + c.pc) := by have := hat.below; rwa [ht_none hpu] at this
        have o1 := hs k e c d sc fs F act rest w T1 S1 ρ φ Z1 h1 hpu hqe (.inr (.inl hsc)) hat fud.clear
        have o2 := o1.clear fud.px hbl (by omega)
        have ca : act.loc + (ht d - 1) = act.loc + c.pc := by omega
        rw [ca] at o2
        simp only [slets]
        rw [Res.bind_assoc]
        cases hr : seval true P n ρ φ e S1 with
        | ok v S2 =>
          rw [hr] at o2
          obtain ⟨w2, T2, v2, q1, m1, vr, rel2, ch2⟩ := o2
          obtain ⟨w3, T3, q2, rel3, bl3, lv3⟩ := run2 (act := act) (rest := rest) (ρ := ρ) (w := w2) fud'.px hbl rel2 vr m1
          show Out P glo k0 m H p0 F act rest Z S T c2.deleteFrame False (((slets P (seval true P n) φ es bs (sbind P [x] [v] ρ S2).1 (sbind P [x] [v] ρ S2).2).bind fun w s' => .ok w (sleave P [x] S2 s')).bind fun v s' => .ok v (lv s'))
          rw [Res.bind_assoc]
          have lookd : ∀ y, look d' y = search y (top' :: fr) := by
            intro y; unfold look; rw [sc2, Nat.sub_self, fr2]; rfl
          have ctx : Ctx P glo (lexSlots P [x] (act.loc + c.pc) S2.next Z1) (look d') c.flets c.cl (base act) (ext P [x] sc) fs (sbind P [x] [v] ρ S2).1 φ := by
            have := hat.ctx.sbind (P := P) (glo := glo) (S := S2) (xs := [x]) (vs := [v]) (off := c.pc) (arg := false) (av := act.argv) (lo := act.loc) (L' := look d') rfl rfl (by simp) (by simpa using hx) hp.lex ?_ ?_
            · simpa using this
            · intro b hb' hlx
              simp at hb'
              subst hb'
              obtain ⟨j, k1, k2, k3⟩ := lex2 hlx
              rw [lookd]
              simp only [search, k1]
              obtain ⟨tp, fr', g1, g2, g3, _⟩ := b2.frames
              rw [fr2] at g1
              cases g1
              have k4 := (g3 x j k1 hlx).2
              rw [b2.cl, ← hb.cl] at k4
              cases j; simp_all
            · intro y hy hn
              rw [lookd, lookc y hy]
              simp only [search, oth y (by simpa using hn)]
          have hat3 : At P glo k0 m (ext P [x] sc) fs act (sbind P [x] [v] ρ S2).1 φ (lexSlots P [x] (act.loc + c.pc) S2.next Z1) (sbind P [x] [v] ρ S2).2 T3 d' := by
            refine ⟨p2, wf_ext (e01.trans ext2 (Nat.le_refl _)) hat.wf, ?_, rel3, by rw [ht_none pu2]; exact bl3⟩
            rw [b2.flets, b2.cl, ← hb.flets, ← hb.cl]; exact ctx
          refine r3 (lv := fun S' => lv (sleave P [x] S2 S')) hat3 hfu (cnt2 _ _ _ hcnt) (hre.trans (q1.trans q2)) ?_
          intro S' T' hrel hchg
          obtain ⟨T4, a1, a2, a3, a4⟩ := lv3 S' T' hrel hchg
          obtain ⟨⟨T5, b1', b2', b3', b4'⟩, b5'⟩ := hlv _ _ a3 (ch2.trans a4 (Nat.le_refl _))
          refine ⟨⟨T5, ?_, b2'.trans a2, b3', b4'⟩, ?_⟩
          · rw [Nat.add_comm, unbindN_add, a1]; exact b1'
          · intro u u' hu
            exact b5' u u' (VRel.leave hrel hu)
        | err => rw [hr] at o2; exact .inl (hre.trans o2)
        | _ => trivial
      cases hsx : P.special x with
      | true =>
        obtain ⟨b2, b3, b4⟩ := Bound.bindSpecial (arg := false) (n := 0) (off := d.clear.pc - 1) (by simpa using b1) hsx
        obtain ⟨top', e3, e5, e6⟩ := bind_special (arg := false) (off := d.clear.pc - 1) e1 b1.tab hsx
        simp only [Bool.false_eq_true, if_false] at e3
        have hlev : (d.clear.bind P.special x false (d.clear.pc - 1)).level = d.level := by rw [b2.level, ← b1.level]; simp
        have hc := count_code 1 0 (d.clear.setFrames (top' :: fr))
        have ob := op_bindSpecial [] x ((d.clear.setFrames (top' :: fr)).count 1 0)
        have hpu2 : ((d.clear.setFrames (top' :: fr)).count 1 0).push = none := hc.2.1.trans (clear_push d)
        have hpc2 : ((d.clear.setFrames (top' :: fr)).count 1 0).pc = c.pc + 1 := hc.2.2.1.trans hpc
        refine goal (ds := 1) (dc := 0) (top' := top') b2 b4 (by rw [b3, clear_scope, hds, hlev]) (by rw [e3, ob.frames, hc.2.2.2.1]; rfl) e6 (fun hl => by rw [hl.1] at hsx; cases hsx) ?_ ?_ ?_ h3
        · rw [e3]
          have : Ext c0.lab d.clear ((d.clear.setFrames (top' :: fr)).count 1 0) := by
            refine ⟨⟨[], by rw [hc.1]; simp [Comp.setFrames], by simp⟩, by rw [hc.2.2.2.2.2.2.2.1]; exact Nat.le_refl _, ⟨[], by rw [hc.2.2.2.2.2.2.2.2]; simp [Comp.setFrames], by simp, by simp⟩⟩
          exact this.trans (ob.ext0 c0.lab) (Nat.le_refl _)
        · intro s l r hcnt
          rw [e3, ob.cnt, count_cnt (c := d.clear.setFrames (top' :: fr)) (show (d.clear.setFrames (top' :: fr)).cnt = _ from pc.keep.cnt.trans hcnt)]
        · intro F act rest ρ Z1 S1 T1 w v' v hF hbl hrel hv hm1
          rw [e3] at hF ⊢
          obtain ⟨T2, q1, bn⟩ := run_bindSpecial (rest := rest) (act := act) (c := (d.clear.setFrames (top' :: fr)).count 1 0) (v := v') (w := w) (T := T1) (m := m) hF (by
            unfold Top Comp.popx
            rw [hpu2]
            simp only [evalX, base, readW, hpc2, Nat.add_sub_cancel, hm1])
          rw [ht_none hpu2, hpc2, Nat.add_sub_cancel] at bn
          rw [hc.1] at q1
          have bns : Bnds T1 T2 [(x, v')] (act.loc + c.pc) := Bnds.cons bn (Bnds.nil _ _)
          obtain ⟨rel2, sp⟩ := hrel.enterSp (ρ := ρ) hsx hv bns hbl
          have el : lexSlots P [x] (act.loc + c.pc) S1.next Z1 = Z1 := by simp [lexSlots, hsx]
          have pcb : (((d.clear.setFrames (top' :: fr)).count 1 0).bindSpecial x).pc = c.pc + 3 := by rw [bindSpecial_pc, ht_none hpu2, hpc2]; omega
          refine ⟨v', T2, q1, by rw [el]; exact rel2, by rw [el]; exact hbl.mono (by omega), ?_⟩
          intro S' T' hr' hc'
          refine hrel.leaveG (ρ := ρ) (a := act.loc + c.pc) bns (by rw [el]; exact fun s hs => .inl hs) hbl sp (Nat.le_refl _) (by rw [pcb]; simp; omega) hr' hc'
      | false =>
        have hl : Lexical P glo x := by
          rcases okName_cases hx with h | h
          · rw [hsx] at h; cases h
          · exact h
        obtain ⟨b2, b3, b4, b5, b6⟩ := Bound.bindLex (arg := false) (n := 0) (off := d.clear.pc - 1) (by simpa using b1) hl
        obtain ⟨top', lv, k3, k4, _, k6⟩ := bind_lex (arg := false) (off := d.clear.pc - 1) e1 b1.tab hl
        simp only [Bool.false_eq_true, if_false] at k3 k4
        have hlev : (d.clear.bind P.special x false (d.clear.pc - 1)).level = d.level := by rw [b2.level, ← b1.level]; simp
        have hc := count_code 0 1 d.clear
        refine goal (ds := 0) (dc := 1) (top' := top') b2 (b4.trans (clear_push d)) (by rw [b3, clear_scope, hds, hlev]) (by rw [k3]; rfl) k6 (fun _ => ⟨_, k4, rfl, by simp [hpc]⟩) ?_ ?_ ?_ h3
        · rw [k3]
          refine ⟨⟨[], by show (d.clear.count 0 1).code = _; rw [hc.1]; simp, by simp⟩, by show d.clear.lab ≤ (d.clear.count 0 1).lab; rw [hc.2.2.2.2.2.2.2.1]; exact Nat.le_refl _, ⟨[], by show (d.clear.count 0 1).tasks = _; rw [hc.2.2.2.2.2.2.2.2]; simp, by simp, by simp⟩⟩
        · intro s l r hcnt
          rw [k3]
          show (d.clear.count 0 1).cnt = _
          rw [count_cnt (pc.keep.cnt.trans hcnt)]
        · intro F act rest ρ Z1 S1 T1 w v' v hF hbl hrel hv hm1
          rw [b6, b5, hpc]
          have hst : Stk P glo k0 m S1.next Z1 T1 (act.loc + c.pc) [v] := ⟨⟨v', hm1, hv⟩, trivial⟩
          have sp : Specials P glo k0 m S1.next Z1 [x] [v] [] := ⟨by simp, (fun y hy h => by simp at hy; subst hy; rw [hsx] at h; cases h), by simp⟩
          have hbl' : Below Z1 (act.loc + c.pc + 1) := hbl.mono (by omega)
          have rel2 := hrel.enter (ρ := ρ) (xs := [x]) (vs := [v]) (by simp) rfl hst (fun s hs => .inl (hbl s hs)) (Bnds.nil T1 (act.loc + c.pc + 1)) (Nat.le_refl _) hbl' sp
          refine ⟨w, T1, Reach.refl _ _, rel2, ?_, ?_⟩
          · intro s hs'
            rcases mem_lexSlots hs' with h | ⟨_, h, _⟩
            · have := hbl s h; omega
            · simp at h; omega
          · intro S' T' hr' hc'
            exact hrel.leave (ρ := ρ) (a := act.loc + c.pc) (Bnds.nil T1 (act.loc + c.pc + 1)) (Nat.le_refl _) hbl' sp (Nat.le_refl _) (by omega) (by simp; omega) hr' hc'

theorem sim_lets {n k : Nat} (hs : SimE P glo k0 m n) {bs : List (Sym × Expr)} {es : List Expr} {c c' : Comp} {sc fs : List Sym} {F : Code} {act : Act} {rest : List Frame} {w : CVal} {T : CState} {S : SState} {ρ φ : SEnv} {Z : List Slot}
    (h : compF P.special (comp P.special k).1 (comp P.special k).2 (.lets bs es) c = some c') (hpu : c.push = none) (hq : CPlain P glo sc fs (.lets bs es)) (ha : Agree c sc) (hat : At P glo k0 m sc fs act ρ φ Z S T c) (hfu : Fut P k0 m F c') :
    Out P glo k0 m (act.loc + c.pc) (conf F act rest c.code.length w T) F act rest Z S T c' False (sevalF true P (seval true P n) ρ φ (.lets bs es) S) := by
  simp only [compF, Option.bind_eq_some_iff, Option.some.injEq] at h
  obtain ⟨c1, h1, c2, h2, c3, h3, rfl⟩ := h
  have hp := hat.pre
  obtain ⟨b1, sc1, pu1, pc1, code1⟩ := Bound.create h1 hp.tab
  have p1 : Pre P glo sc c1 := b1.pre hp ha sc1 (fun x hx => ⟨hp.lex x hx, .inr hx⟩)
  obtain ⟨_, r⟩ := sim_seq hs hp ha bs h2 h3 hq (pu1.trans hpu) sc1 p1 (fun x hx => .inr hx) b1
  have e1 : c1.frames = [] :: c.frames ∧ c1.cnt = (0, 0) :: c.cnt := by
    unfold Comp.createFrame at h1
    split at h1
    · cases h1; exact ⟨rfl, rfl⟩
    · cases h1
  have hat1 : At P glo k0 m sc fs act ρ φ Z S T c1 := by
    refine ⟨p1, wf_ext b1.ext hat.wf, ?_, hat.rel, ?_⟩
    · rw [b1.flets, b1.cl]
      refine hat.ctx.look ?_
      intro x hx
      rw [← agree_look hp ha hx]
      unfold look
      rw [sc1, Nat.sub_self, e1.1]
      simp [search, assq]
    · have := hat.below
      rw [ht_none hpu] at this
      rw [ht_none (pu1.trans hpu), pc1]; exact this
  have o := r (lv := id) (H := act.loc + c.pc) (p0 := conf F act rest c.code.length w T) (S := S) (T := T) (Z := Z) (w := w) (rest := rest) hat1 hfu e1.2 (by rw [code1]; exact Reach.refl _ _) (by
    intro S' T' hrel hchg
    rw [pc1] at hchg
    exact ⟨⟨T', rfl, rfl, hrel, hchg⟩, fun _ _ h => h⟩)
  simp only [sevalF]
  cases hr : slets P (seval true P n) φ es bs ρ S <;> (rw [hr] at o; exact o)

end Eus.Cmp
