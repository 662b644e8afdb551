import Verif.Cmp.Frame
set_option autoImplicit false
/-
Parameters, and the special variables of `let`.
-/
namespace Eus.Cmp
open Eus.Lex
open Comp (search assq clear)

variable {P : Prog} {glo : Sym → Bool} {k0 : Nat} {m : Mach}

theorem count_code (s l : Nat) (c : Comp) : (c.count s l).code = c.code ∧ (c.count s l).push = c.push ∧ (c.count s l).pc = c.pc ∧ (c.count s l).frames = c.frames ∧ (c.count s l).scope = c.scope ∧ (c.count s l).cl = c.cl ∧
    (c.count s l).flets = c.flets ∧ (c.count s l).lab = c.lab ∧ (c.count s l).tasks = c.tasks := by
  unfold Comp.count
  split <;> simp

theorem pushx_code {c : Comp} (h : c.push = none) (x : CX) : (c.pushx x).code = c.code := by
  show c.clear.code = _; rw [clear_self h]

theorem tab_special {x : Sym} {top top' : List (Sym × Ident)} {fr : Tab} (ht : TabOK P glo (top :: fr)) (hx : P.special x = true) (h1 : ∃ i, assq x top' = some i ∧ i.bnd = .special) (h2 : ∀ y, y ≠ x → assq y top' = assq y top) :
    TabOK P glo (top' :: fr) := by
  have hn : ¬ Lexical P glo x := fun h => by rw [h.1] at hx; cases hx
  obtain ⟨j, j1, j2⟩ := h1
  intro f hf' y i hy
  simp only [List.mem_cons] at hf'
  rcases hf' with rfl | hf'
  · by_cases hxy : y = x
    · subst hxy; rw [j1] at hy; cases hy; simp [j2, hn]
    · rw [h2 y hxy] at hy; exact ht top (by simp) y i hy
  · exact ht f (by simp [hf']) y i hy

/-- What binding special variables leaves as it was; k of them. -/
structure SpB (P : Prog) (glo : Sym → Bool) (xs : List Sym) (c c' : Comp) : Prop where
  push : c'.push = none
  pc : c'.pc = c.pc + 3 * xs.length
  cnt : ∀ s l r, c.cnt = (s, l) :: r → c'.cnt = (s + xs.length, l) :: r
  frames : ∀ top fr, c.frames = top :: fr → ∃ top', c'.frames = top' :: fr ∧ ∀ y, y ∉ xs → assq y top' = assq y top
  scope : c'.scope = c.scope
  cl : c'.cl = c.cl
  px : c.code <+: c'.code
  tab : TabOK P glo c'.frames

theorem SpB.refl {c : Comp} (h : c.push = none) (ht : TabOK P glo c.frames) : SpB P glo [] c c := ⟨h, rfl, fun _ _ _ h => h, fun top _ h => ⟨top, h, fun _ _ => rfl⟩, rfl, rfl, List.prefix_refl _, ht⟩

theorem SpB.cons {x : Sym} {xs : List Sym} {a b c : Comp} (h : SpB P glo [x] a b) (h' : SpB P glo xs b c) : SpB P glo (x :: xs) a c := by
  refine ⟨h'.push, by rw [h'.pc, h.pc]; simp; omega, ?_, ?_, h'.scope.trans h.scope, h'.cl.trans h.cl, h.px.trans h'.px, h'.tab⟩
  · intro s l r e
    rw [h'.cnt _ _ _ (h.cnt s l r e)]
    simp; omega
  · intro top fr e
    obtain ⟨t1, e1, f1⟩ := h.frames top fr e
    obtain ⟨t2, e2, f2⟩ := h'.frames t1 fr e1
    refine ⟨t2, e2, fun y hy => ?_⟩
    simp only [List.mem_cons, not_or] at hy
    rw [f2 y hy.2, f1 y (by simp [hy.1])]

theorem spB_bind {x : Sym} {c d : Comp} {top : List (Sym × Ident)} {fr : Tab} (hf : c.frames = top :: fr) {t' : List (Sym × Ident)} (ht : ∀ y, y ≠ x → assq y t' = assq y top)
    (ht2 : TabOK P glo (t' :: fr)) (hpx : c.code <+: d.code)
    (h1 : d.frames = t' :: fr) (h2 : Cmp.ht d = Cmp.ht c + 1) (h3 : c.push = none) (h4 : ∀ s l r, c.cnt = (s, l) :: r → d.cnt = (s + 1, l) :: r) (h5 : d.scope = c.scope) (h6 : d.cl = c.cl) : SpB P glo [x] c (d.bindSpecial x) := by
  have op := op_bindSpecial [] x d
  refine ⟨bindSpecial_push x d, ?_, ?_, ?_, op.scope.trans h5, op.cl.trans h6, hpx.trans op.prefix, by rw [op.frames, h1]; exact ht2⟩
  · rw [bindSpecial_pc, h2, ht_none h3]; simp
  · intro s l r e; rw [op.cnt, h4 s l r e]; rfl
  · intro top2 fr2 e
    rw [hf] at e; cases e
    exact ⟨t', op.frames.trans h1, fun y hy => ht y (by simpa using hy)⟩

/-- Binding a special parameter. -/
theorem run_param {x : Sym} {c : Comp} {off : Nat} (hne : c.frames ≠ []) (ht : TabOK P glo c.frames) (hx : P.special x = true) (hp : c.push = none) :
    SpB P glo [x] c (c.bind P.special x true off) ∧
    ∀ {F : Code} {act : Act} {rest : List Frame} {w v : CVal} {T : CState}, (c.bind P.special x true off).code <+: F → T.mem (act.argv + off) = .val v →
      ∃ w1 T1, Reach m (conf F act rest c.code.length w T) (conf F act rest (c.bind P.special x true off).code.length w1 T1) ∧ Bnd1 T T1 x v (act.loc + c.pc) := by
  obtain ⟨top, fr, hf⟩ : ∃ top fr, c.frames = top :: fr := by
    cases h : c.frames with
    | nil => exact absurd h hne
    | cons a b => exact ⟨a, b, rfl⟩
  obtain ⟨top', e3, e5, e6⟩ := bind_special (arg := true) (off := off) hf ht hx
  have ht2 := tab_special (by rw [hf] at ht; exact ht) hx e5 e6
  simp only [if_true] at e3
  rw [e3]
  have hc := count_code 1 0 (c.setFrames (top' :: fr))
  have hp' : ((c.setFrames (top' :: fr)).count 1 0).push = none := hc.2.1.trans hp
  have hh : Cmp.ht (((c.setFrames (top' :: fr)).count 1 0).pushx (.arg 0 off)) = Cmp.ht c + 1 := by
    rw [ht_pushx, ht_none hp', hc.2.2.1, ht_none hp]; rfl
  have op := op_pushx [] (.arg 0 off) ((c.setFrames (top' :: fr)).count 1 0)
  have ec : (((c.setFrames (top' :: fr)).count 1 0).pushx (.arg 0 off)).code = c.code := by rw [pushx_code hp', hc.1]; rfl
  refine ⟨spB_bind hf e6 ht2 (by rw [ec]; exact List.prefix_refl _) (op.frames.trans hc.2.2.2.1) hh hp ?_ (op.scope.trans hc.2.2.2.2.1) (op.cl.trans hc.2.2.2.2.2.1), ?_⟩
  · intro s l r e
    rw [op.cnt, count_cnt (c := c.setFrames (top' :: fr)) (show (c.setFrames (top' :: fr)).cnt = _ from e)]
    rfl
  · intro F act rest w v T hF hm
    obtain ⟨T1, r1, b1⟩ := run_bindSpecial (rest := rest) (c := ((c.setFrames (top' :: fr)).count 1 0).pushx (.arg 0 off)) (v := v) (w := w) (T := T) (m := m) hF (by
      show evalX m.isfn act w T (.arg 0 off) = _
      simp only [evalX, base, readW, hm])
    rw [ec] at r1
    rw [hh, ht_none hp] at b1
    exact ⟨v, T1, r1, by simpa using b1⟩

/-- Binding a special variable of `let`. -/
theorem run_special {x : Sym} {c : Comp} {off o2 : Nat} (hne : c.frames ≠ []) (ht : TabOK P glo c.frames) (hx : P.special x = true) (hp : c.push = none) :
    SpB P glo [x] c ((c.pushx (.loc 0 off)).bind P.special x false o2) ∧
    ∀ {F : Code} {act : Act} {rest : List Frame} {w v : CVal} {T : CState}, ((c.pushx (.loc 0 off)).bind P.special x false o2).code <+: F → T.mem (act.loc + off) = .val v →
      ∃ w1 T1, Reach m (conf F act rest c.code.length w T) (conf F act rest ((c.pushx (.loc 0 off)).bind P.special x false o2).code.length w1 T1) ∧ Bnd1 T T1 x v (act.loc + c.pc) := by
  obtain ⟨top, fr, hf⟩ : ∃ top fr, c.frames = top :: fr := by
    cases h : c.frames with
    | nil => exact absurd h hne
    | cons a b => exact ⟨a, b, rfl⟩
  have op := op_pushx [] (.loc 0 off) c
  have hf' : (c.pushx (.loc 0 off)).frames = top :: fr := op.frames.trans hf
  obtain ⟨top', e3, e5, e6⟩ := bind_special (arg := false) (off := o2) (glo := glo) hf' (by rw [op.frames]; exact ht) hx
  have ht2 := tab_special (by rw [hf] at ht; exact ht) hx e5 e6
  simp only [Bool.false_eq_true, if_false] at e3
  rw [e3]
  have hc := count_code 1 0 ((c.pushx (.loc 0 off)).setFrames (top' :: fr))
  have hpu : (((c.pushx (.loc 0 off)).setFrames (top' :: fr)).count 1 0).push = some (.loc 0 off) := hc.2.1
  have hh : Cmp.ht (((c.pushx (.loc 0 off)).setFrames (top' :: fr)).count 1 0) = Cmp.ht c + 1 := by
    have := ht_pushx (.loc 0 off) c
    unfold Cmp.ht at this ⊢
    rw [hc.2.1, hc.2.2.1]; exact this
  have ec : (((c.pushx (.loc 0 off)).setFrames (top' :: fr)).count 1 0).code = c.code := by rw [hc.1]; exact pushx_code hp (.loc 0 off)
  refine ⟨spB_bind hf e6 ht2 (by rw [ec]; exact List.prefix_refl _) hc.2.2.2.1 hh hp ?_ (hc.2.2.2.2.1.trans op.scope) (hc.2.2.2.2.2.1.trans op.cl), ?_⟩
  · intro s l r e
    rw [count_cnt (c := (c.pushx (.loc 0 off)).setFrames (top' :: fr)) (show ((c.pushx (.loc 0 off)).setFrames (top' :: fr)).cnt = _ from op.cnt.trans e)]
    rfl
  · intro F act rest w v T hF hm
    obtain ⟨T1, r1, b1⟩ := run_bindSpecial (act := act) (rest := rest) (c := ((c.pushx (.loc 0 off)).setFrames (top' :: fr)).count 1 0) (v := v) (w := w) (T := T) (m := m) hF (by
      unfold Top Comp.popx
      rw [hpu]
      simp only [evalX, base, readW, hm])
    rw [ec] at r1
    rw [hh, ht_none hp] at b1
    exact ⟨v, T1, r1, by simpa using b1⟩

/-- The special variables of `let`. -/
theorem run_specials : ∀ (sp : List (Sym × Nat)) {c : Comp}, c.frames ≠ [] → TabOK P glo c.frames → (∀ s ∈ sp, P.special s.1 = true) → c.push = none →
    SpB P glo (sp.map Prod.fst) c (bindSpecials P.special sp c) ∧
    ∀ {F : Code} {act : Act} {rest : List Frame} {w : CVal} {T : CState}, (bindSpecials P.special sp c).code <+: F → (∀ s ∈ sp, s.2 < c.pc ∧ ∃ v, T.mem (act.loc + s.2) = .val v) →
      ∃ w1 T1 l, Reach m (conf F act rest c.code.length w T) (conf F act rest (bindSpecials P.special sp c).code.length w1 T1) ∧ Bnds T T1 l (act.loc + c.pc) ∧
        l.map Prod.fst = sp.map Prod.fst ∧ ∀ b ∈ l, ∃ off, (b.1, off) ∈ sp ∧ T.mem (act.loc + off) = .val b.2
  | [], c, hne, ht, hs, hp => ⟨SpB.refl hp ht, fun _ _ => ⟨_, _, [], Reach.refl _ _, Bnds.nil _ _, rfl, by simp⟩⟩
  | (x, off) :: sp, c, hne, ht, hs, hp => by
    simp only [bindSpecials, clear_self hp]
    have hx := hs (x, off) (by simp)
    obtain ⟨s1, r1⟩ := run_special (m := m) (off := off) (o2 := c.pc) hne ht hx hp
    have hne1 : ((c.pushx (.loc 0 off)).bind P.special x false c.pc).frames ≠ [] := by
      cases h : c.frames with
      | nil => exact absurd h hne
      | cons a b => obtain ⟨t', e, _⟩ := s1.frames a b h; rw [e]; simp
    obtain ⟨s2, r2⟩ := run_specials sp hne1 s1.tab (fun s h => hs s (by simp [h])) s1.push
    refine ⟨s1.cons s2, ?_⟩
    intro F act rest w T hF hm
    have hpre := s2.px.trans hF
    obtain ⟨hlt, v, hv⟩ := hm (x, off) (by simp)
    obtain ⟨w1, T1, q1, b1⟩ := r1 (act := act) (rest := rest) (w := w) hpre hv
    obtain ⟨w2, T2, l, q2, b2, n2, m2⟩ := r2 (act := act) (rest := rest) (w := w1) (T := T1) hF (by
      intro s h
      obtain ⟨g1, v', g2⟩ := hm s (by simp [h])
      exact ⟨by rw [s1.pc]; omega, v', by rw [b1.mem _ (by omega)]; exact g2⟩)
    rw [s1.pc] at b2
    refine ⟨w2, T2, (x, v) :: l, q1.trans q2, Bnds.cons b1 (by simpa [Nat.add_assoc] using b2), by simp [n2], ?_⟩
    intro b hb
    simp only [List.mem_cons] at hb
    rcases hb with rfl | hb
    · exact ⟨off, by simp, hv⟩
    · obtain ⟨o, h1, h2⟩ := m2 b hb
      refine ⟨o, by simp [h1], ?_⟩
      rw [b1.mem] at h2
      · exact h2
      · have := (hm (b.1, o) (by simp [h1])).1; simp at this; omega

theorem bind_lex_px {x : Sym} {c : Comp} {off : Nat} {arg : Bool} {top : List (Sym × Ident)} {fr : Tab} (hf : c.frames = top :: fr) (ht : TabOK P glo c.frames) (hx : Lexical P glo x) :
    (c.bind P.special x arg off).code = c.code ∧ (c.bind P.special x arg off).push = c.push ∧ (c.bind P.special x arg off).pc = c.pc ∧ (c.bind P.special x arg off).scope = c.scope ∧ (c.bind P.special x arg off).cl = c.cl := by
  obtain ⟨top', lv, e3, _⟩ := bind_lex (arg := arg) (off := off) hf ht hx
  rw [e3]
  have hc := count_code 0 1 c
  cases arg <;> simp [Comp.setFrames, hc]

/-- Parameters. -/
structure PaB (P : Prog) (glo : Sym → Bool) (xs : List Sym) (i : Nat) (c c' : Comp) : Prop where
  push : c'.push = none
  pc : c'.pc = c.pc + 3 * (xs.filter P.special).length
  cnt : ∀ s l r, c.cnt = (s, l) :: r → c'.cnt = (s + (xs.filter P.special).length, l) :: r
  frames : ∀ top fr, c.frames = top :: fr → ∃ top', c'.frames = top' :: fr ∧ (∀ y, y ∉ xs → assq y top' = assq y top) ∧ ∀ b ∈ xs.zipIdx i, Lexical P glo b.1 → ∃ j, assq b.1 top' = some j ∧ j.bnd = .arg ∧ j.off = b.2
  scope : c'.scope = c.scope
  px : c.code <+: c'.code

theorem run_params : ∀ (xs : List Sym) {i : Nat} {hs : List Sym} {c0 c : Comp}, Bound P glo hs 0 c0 c → xs.Nodup → (∀ x ∈ xs, okName P glo x) → c.push = none →
    Bound P glo (xs.reverse ++ hs) 0 c0 (bindParams P.special xs i c) ∧ PaB P glo xs i c (bindParams P.special xs i c) ∧
    ∀ {F : Code} {act : Act} {rest : List Frame} {w : CVal} {T : CState}, (bindParams P.special xs i c).code <+: F → act.argv + i + xs.length ≤ act.loc → (∀ b ∈ xs.zipIdx i, ∃ v, T.mem (act.argv + b.2) = .val v) →
      ∃ w1 T1 l, Reach m (conf F act rest c.code.length w T) (conf F act rest (bindParams P.special xs i c).code.length w1 T1) ∧ Bnds T T1 l (act.loc + c.pc) ∧
        l.map Prod.fst = xs.filter P.special ∧ ∀ b ∈ l, ∃ j, (b.1, j) ∈ xs.zipIdx i ∧ T.mem (act.argv + j) = .val b.2
  | [], i, hs, c0, c, hb, hn, ho, hp => by
    refine ⟨by simpa [bindParams] using hb, ⟨hp, rfl, fun _ _ _ h => h, fun top _ h => ⟨top, h, fun _ _ => rfl, by simp⟩, rfl, List.prefix_refl _⟩, ?_⟩
    intro F act rest w T _ _ _
    exact ⟨w, T, [], Reach.refl _ _, Bnds.nil _ _, rfl, by simp⟩
  | x :: xs, i, hs, c0, c, hb, hn, ho, hp => by
    simp only [bindParams]
    simp only [List.nodup_cons] at hn
    have ho' : ∀ y ∈ xs, okName P glo y := fun y hy => ho y (by simp [hy])
    obtain ⟨top, fr, hf, _⟩ := hb.frames
    rcases okName_cases (ho x (by simp)) with hx | hx
    · obtain ⟨s1, r1⟩ := run_param (m := m) (off := i) (glo := glo) (by rw [hf]; simp) hb.tab hx hp
      have b1 := (Bound.bindSpecial (arg := true) (n := 0) (off := i) (by simpa using hb) hx).1
      obtain ⟨b2, s2, r2⟩ := run_params xs (i := i + 1) b1 hn.2 ho' s1.push
      have hfl : (x :: xs).filter P.special = x :: xs.filter P.special := by simp [hx]
      refine ⟨by simpa using b2, ⟨s2.push, by rw [s2.pc, s1.pc, hfl]; simp; omega, ?_, ?_, s2.scope.trans s1.scope, s1.px.trans s2.px⟩, ?_⟩
      · intro s l r e
        rw [s2.cnt _ _ _ (s1.cnt s l r e), hfl]
        simp; omega
      · intro top fr e
        obtain ⟨t1, e1, f1⟩ := s1.frames top fr e
        obtain ⟨t2, e2, f2, g2⟩ := s2.frames t1 fr e1
        refine ⟨t2, e2, ?_, ?_⟩
        · intro y hy
          simp only [List.mem_cons, not_or] at hy
          rw [f2 y hy.2, f1 y (by simp [hy.1])]
        · intro b hb' hl
          simp only [List.zipIdx_cons, List.mem_cons] at hb'
          rcases hb' with rfl | hb'
          · have := hl.1; simp [hx] at this
          · exact g2 b hb' hl
      · intro F act rest w T hF ha hm
        simp only [List.zipIdx_cons, List.mem_cons, List.length_cons] at hm ha
        obtain ⟨v, hv⟩ := hm (x, i) (.inl rfl)
        obtain ⟨w1, T1, q1, c1⟩ := r1 (act := act) (rest := rest) (w := w) (s2.px.trans hF) hv
        have hlt : ∀ b ∈ xs.zipIdx (i + 1), T1.mem (act.argv + b.2) = T.mem (act.argv + b.2) := by
          intro b hb'
          have := List.snd_lt_add_of_mem_zipIdx hb'
          exact c1.mem _ (by omega)
        obtain ⟨w2, T2, l, q2, c2, n2, m2⟩ := r2 (act := act) (rest := rest) (w := w1) (T := T1) hF (by omega) (fun b hb' => by rw [hlt b hb']; exact hm b (.inr hb'))
        rw [s1.pc] at c2
        refine ⟨w2, T2, (x, v) :: l, q1.trans q2, Bnds.cons c1 (by simpa [Nat.add_assoc] using c2), by rw [hfl]; simp [n2], ?_⟩
        intro b hb'
        simp only [List.mem_cons] at hb'
        rcases hb' with rfl | hb'
        · exact ⟨i, by simp, hv⟩
        · obtain ⟨j, h1, h2⟩ := m2 b hb'
          exact ⟨j, by simp [h1], by rw [← hlt _ h1]; exact h2⟩
    · obtain ⟨b1, b3, b4, b5, b6⟩ := Bound.bindLex (arg := true) (n := 0) (off := i) (by simpa using hb) hx
      obtain ⟨b2, s2, r2⟩ := run_params xs (i := i + 1) b1 hn.2 ho' (b4.trans hp)
      have hfl : (x :: xs).filter P.special = xs.filter P.special := by simp [hx.1]
      obtain ⟨top', lv, e3, e4, _, e6⟩ := bind_lex (arg := true) (off := i) hf hb.tab hx
      simp only [if_true] at e3
      refine ⟨by simpa using b2, ⟨s2.push, by rw [s2.pc, b5, hfl], ?_, ?_, s2.scope.trans b3, by rw [← b6]; exact s2.px⟩, ?_⟩
      · intro s l r e
        rw [s2.cnt s l r (by rw [e3]; exact e), hfl]
      · intro top2 fr2 e
        rw [hf] at e; cases e
        obtain ⟨t2, e2, f2, g2⟩ := s2.frames top' fr (by rw [e3]; rfl)
        refine ⟨t2, e2, ?_, ?_⟩
        · intro y hy
          simp only [List.mem_cons, not_or] at hy
          rw [f2 y hy.2, e6 y hy.1]
        · intro b hb' hl
          simp only [List.zipIdx_cons, List.mem_cons] at hb'
          rcases hb' with rfl | hb'
          · exact ⟨_, by rw [f2 x hn.1]; exact e4, rfl, rfl⟩
          · exact g2 b hb' hl
      · intro F act rest w T hF ha hm
        simp only [List.zipIdx_cons, List.mem_cons, List.length_cons] at hm ha
        obtain ⟨w2, T2, l, q2, c2, n2, m2⟩ := r2 (act := act) (rest := rest) (w := w) (T := T) hF (by omega) (fun b hb' => hm b (.inr hb'))
        rw [b5] at c2
        rw [b6] at q2
        refine ⟨w2, T2, l, q2, c2, by rw [hfl]; exact n2, ?_⟩
        intro b hb'
        obtain ⟨j, h1, h2⟩ := m2 b hb'
        exact ⟨j, by simp [h1], h2⟩

end Eus.Cmp
