import Verif.Cmp.Tab
set_option autoImplicit false
/-
Frames of variables during compilation.
-/
namespace Eus.Cmp
open Eus.Lex (Sym Expr Prog ext)
open Comp

variable {P : Prog} {glo : Sym → Bool}

structure Post (P : Prog) (glo : Sym → Bool) (sc : List Sym) (L n : Nat) (c c' : Comp) : Prop where
  ext : Ext L c c'
  keep : Keep P glo sc c c'
  ht : ht c' = ht c + n

theorem Post.trans {sc : List Sym} {L L1 n m : Nat} {a b c : Comp} (hp : Pre P glo sc a) (h : Post P glo sc L n a b) (h' : Post P glo sc L1 m b c) (hL : L ≤ L1) : Post P glo sc L (n + m) a c :=
  ⟨h.ext.trans h'.ext hL, h.keep.trans hp h'.keep, by rw [h'.ht, h.ht]; omega⟩

theorem Post.trans' {sc : List Sym} {L n m : Nat} {a b c : Comp} (hp : Pre P glo sc a) (h : Post P glo sc L n a b) (h' : Post P glo sc b.lab m b c) (hL : L ≤ a.lab) : Post P glo sc L (n + m) a c :=
  h.trans hp h' (Nat.le_trans hL h.ext.lab)

theorem mem_ext {x : Sym} : ∀ {xs sc : List Sym}, x ∈ ext P xs sc ↔ (x ∈ xs ∧ P.special x = false) ∨ x ∈ sc
  | [], sc => by simp [ext]
  | y :: xs, sc => by
    simp only [ext]
    rw [mem_ext]
    cases hs : P.special y with
    | true =>
      simp only [if_true, List.mem_cons]
      constructor
      · rintro (⟨h, h'⟩ | h)
        · exact .inl ⟨.inr h, h'⟩
        · exact .inr h
      · rintro (⟨rfl | h, h'⟩ | h)
        · rw [hs] at h'; cases h'
        · exact .inl ⟨h, h'⟩
        · exact .inr h
    | false =>
      simp only [Bool.false_eq_true, if_false, List.mem_cons]
      constructor
      · rintro (⟨h, h'⟩ | rfl | h)
        · exact .inl ⟨.inr h, h'⟩
        · exact .inl ⟨.inl rfl, hs⟩
        · exact .inr h
      · rintro (⟨rfl | h, h'⟩ | h)
        · exact .inr (.inl rfl)
        · exact .inl ⟨h, h'⟩
        · exact .inr (.inr h)

theorem count_setFrames (s l : Nat) (f : Tab) (c : Comp) : (c.setFrames f).count s l = (c.count s l).setFrames f := by
  unfold Comp.count setFrames; cases hc : c.cnt <;> simp [hc]

theorem count_cnt {c : Comp} {s l : Nat} {r : List (Nat × Nat)} (h : c.cnt = (s, l) :: r) (a b : Nat) : c.count a b = { c with cnt := (s + a, l + b) :: r } := by
  unfold Comp.count; rw [h]

theorem setFrames_setFrames (f g : Tab) (c : Comp) : (c.setFrames f).setFrames g = c.setFrames g := rfl
theorem setFrames_self {f : Tab} {c : Comp} (h : c.frames = f) : c.setFrames f = c := by subst h; rfl

/-- Binding a lexical variable. -/
theorem bind_lex {x : Sym} {arg : Bool} {off : Nat} {c : Comp} {top : List (Sym × Ident)} {fr : Tab} (hf : c.frames = top :: fr) (ht : TabOK P glo c.frames) (hx : Lexical P glo x) :
    ∃ top' lv, c.bind P.special x arg off = (if arg then c else c.count 0 1).setFrames (top' :: fr) ∧ assq x top' = some ⟨if arg then .arg else .loc, lv, off⟩ ∧
      (lv = c.cl ∨ ∃ j, assq x top = some j ∧ lv = j.level) ∧ ∀ y, y ≠ x → assq y top' = assq y top := by
  unfold Comp.bind enterVariable Comp.find
  cases ha : assq x top with
  | some j =>
    have hb : j.bnd ≠ .special := fun e => ((ht top (by simp [hf]) x j ha).mp e) hx
    refine ⟨assqSet x ⟨if arg then .arg else .loc, j.level, off⟩ top, j.level, ?_, assq_set_same _ _ _ (by simp [ha]), .inr ⟨j, by simp, rfl⟩, fun y hy => assq_set_other _ hy _⟩
    simp only [hf, List.headD, ha]
    obtain ⟨b, lv, o⟩ := j
    cases b with
    | special => exact absurd rfl hb
    | loc => cases arg <;> simp [setTop, hf, Comp.count] <;> (cases c.cnt <;> simp [hf])
    | arg => cases arg <;> simp [setTop, hf, Comp.count] <;> (cases c.cnt <;> simp [hf])
  | none =>
    refine ⟨(x, ⟨if arg then .arg else .loc, c.cl, off⟩) :: top, c.cl, ?_, by simp [assq], .inl rfl, fun y hy => by rw [assq_cons, if_neg (Ne.symm hy)]⟩
    simp only [hf, List.headD, ha, hx.1]
    have h1 : ((c.setFrames (enterTop x ⟨.loc, c.cl, 0⟩ (top :: fr))).frames.headD []) = (x, ⟨.loc, c.cl, 0⟩) :: top := rfl
    simp only [Bool.false_eq_true, if_false]
    simp only [List.headD] at h1
    rw [h1, assq_cons, if_pos rfl]
    cases arg
    · simp only [Bool.false_eq_true, if_false, count_setFrames, setFrames_setFrames]
      congr 1
      simp [setFrames, setTop, enterTop, assqSet]
    · simp only [if_true, setFrames_setFrames]
      congr 1
      simp [setFrames, setTop, enterTop, assqSet]

/-- Binding a special variable. -/
theorem bind_special {x : Sym} {arg : Bool} {off : Nat} {c : Comp} {top : List (Sym × Ident)} {fr : Tab} (hf : c.frames = top :: fr) (ht : TabOK P glo c.frames) (hx : P.special x = true) :
    ∃ top', c.bind P.special x arg off = (if arg then ((c.setFrames (top' :: fr)).count 1 0).pushx (.arg 0 off) else (c.setFrames (top' :: fr)).count 1 0).bindSpecial x ∧
      (∃ i, assq x top' = some i ∧ i.bnd = .special) ∧ ∀ y, y ≠ x → assq y top' = assq y top := by
  have hn : ¬ Lexical P glo x := fun h => by rw [h.1] at hx; cases hx
  unfold Comp.bind enterVariable Comp.find
  cases ha : assq x top with
  | some j =>
    have hb : j.bnd = .special := (ht top (by simp [hf]) x j ha).mpr hn
    refine ⟨top, ?_, ⟨j, ha, hb⟩, fun _ _ => rfl⟩
    rw [setFrames_self hf]
    simp only [hf, List.headD, ha]
    obtain ⟨b, lv, o⟩ := j
    cases hb
    rfl
  | none =>
    refine ⟨(x, ⟨.special, c.cl, 0⟩) :: top, ?_, ⟨⟨.special, c.cl, 0⟩, by simp [assq], rfl⟩, fun y hy => by rw [assq_cons, if_neg (Ne.symm hy)]⟩
    simp only [hf, List.headD, ha, hx]
    have h1 : ((c.setFrames (enterTop x ⟨.special, c.cl, 0⟩ (top :: fr))).frames.headD []) = (x, ⟨.special, c.cl, 0⟩) :: top := rfl
    simp only [if_true]
    simp only [List.headD] at h1
    rw [h1, assq_cons, if_pos rfl]
    rfl

theorem specialVar_eq {x : Sym} {c : Comp} {top : List (Sym × Ident)} {fr : Tab} (hf : c.frames = top :: fr) (ht : TabOK P glo c.frames) (hx : okName P glo x) :
    c.specialVar P.special x = P.special x := by
  unfold specialVar Comp.find
  simp only [hf, List.headD]
  cases ha : assq x top with
  | none => rfl
  | some i =>
    have := ht top (by simp [hf]) x i ha
    rcases okName_cases hx with h | h
    · have : i.bnd = .special := this.mpr (fun hl => by rw [hl.1] at h; cases h)
      simp [this, h]
    · have hb : i.bnd ≠ .special := fun e => (this.mp e) h
      simp [hb, h.1]

/-- A frame with the variables hs has been entered at c0; n values have been pushed besides the variables. -/
structure Bound (P : Prog) (glo : Sym → Bool) (hs : List Sym) (n : Nat) (c0 c : Comp) : Prop where
  ext : Ext c0.lab c0 c
  frames : ∃ top fr, c.frames = top :: fr ∧ FEq P glo c0.frames fr ∧ (∀ x i, assq x top = some i → Lexical P glo x → x ∈ hs ∧ i.level = c.cl) ∧ ∀ x ∈ hs, Lexical P glo x → assq x top ≠ none
  tab : TabOK P glo c.frames
  cnt : ∃ s l, c.cnt = (s, l) :: c0.cnt ∧ ht c = ht c0 + 3 * s + l + n
  flets : c.flets = c0.flets
  cl : c.cl = c0.cl

theorem Bound.length {hs : List Sym} {n : Nat} {c0 c : Comp} (h : Bound P glo hs n c0 c) : c.frames.length = c0.frames.length + 1 := by
  obtain ⟨top, fr, e, h1, _⟩ := h.frames
  rw [e, List.length_cons, h1.length]

theorem Bound.level {hs : List Sym} {n : Nat} {c0 c : Comp} (h : Bound P glo hs n c0 c) : c.level = c0.frames.length := by
  simp [Comp.level, h.length]

theorem Bound.create {c0 c1 : Comp} (h : c0.createFrame = some c1) (ht : TabOK P glo c0.frames) : Bound P glo [] 0 c0 c1 ∧ c1.scope = c1.level ∧ c1.push = c0.push ∧ c1.pc = c0.pc ∧ c1.code = c0.code := by
  unfold createFrame at h
  split at h
  · cases h
    refine ⟨⟨⟨⟨[], by simp, by simp⟩, Nat.le_refl _, ⟨[], by simp, by simp, by simp⟩⟩, ⟨[], c0.frames, rfl, FEq.refl _, ?_, by simp⟩, ?_, ⟨0, 0, rfl, by simp [Eus.Cmp.ht]⟩, rfl, rfl⟩, by simp [Comp.level], rfl, rfl, rfl⟩
    · intro x i hx; cases hx
    · intro f hf x i hx
      simp only [List.mem_cons] at hf
      rcases hf with rfl | hf
      · cases hx
      · exact ht f hf x i hx
  · cases h

theorem Bound.post {hs sc : List Sym} {n m L : Nat} {c0 c c' : Comp} (h : Bound P glo hs n c0 c) (he : Ext L c c') (hk : Keep P glo sc c c') (hh : ht c' = ht c + m) (hL : c0.lab ≤ L) :
    Bound P glo hs (n + m) c0 c' := by
  obtain ⟨top, fr, e, h1, h2, h3⟩ := h.frames
  obtain ⟨s, l, e1, e2⟩ := h.cnt
  refine ⟨h.ext.trans he hL, ?_, hk.tab, ⟨s, l, hk.cnt.trans e1, by rw [hh, e2]; omega⟩, hk.flets.trans h.flets, hk.cl.trans h.cl⟩
  have hf := hk.frames
  rw [e] at hf
  cases hc : c'.frames with
  | nil => rw [hc] at hf; exact hf.elim
  | cons top' fr' =>
    rw [hc] at hf
    refine ⟨top', fr', rfl, h1.trans hf.2, ?_, ?_⟩
    · intro x i hx hl
      rw [hf.1 x hl] at hx
      rw [hk.cl]
      exact h2 x i hx hl
    · intro x hx hl
      rw [hf.1 x hl]
      exact h3 x hx hl

theorem Bound.op {hs : List Sym} {n m : Nat} {c0 c c' : Comp} (h : Bound P glo hs n c0 c) (ho : Op [] c c') (hh : ht c' = ht c + m) : Bound P glo hs (n + m) c0 c' :=
  h.post (sc := []) (L := c0.lab) (ho.ext0 _) (ho.keep h.tab) hh (Nat.le_refl _)

theorem Bound.setScope {hs : List Sym} {n : Nat} {c0 c : Comp} (h : Bound P glo hs n c0 c) (s : Nat) : Bound P glo hs n c0 (c.setScope s) :=
  ⟨⟨h.ext.code, h.ext.lab, h.ext.tasks⟩, h.frames, h.tab, h.cnt, h.flets, h.cl⟩

/-- Binding a lexical variable: a local variable is what has been pushed last, an argument is not pushed. -/
theorem Bound.bindLex {hs : List Sym} {n off : Nat} {arg : Bool} {c0 c : Comp} {x : Sym} (h : Bound P glo hs (if arg then n else n + 1) c0 c) (hx : Lexical P glo x) :
    Bound P glo (x :: hs) n c0 (c.bind P.special x arg off) ∧ (c.bind P.special x arg off).scope = c.scope ∧ (c.bind P.special x arg off).push = c.push ∧
      (c.bind P.special x arg off).pc = c.pc ∧ (c.bind P.special x arg off).code = c.code := by
  obtain ⟨top, fr, e, h1, h2, h3⟩ := h.frames
  obtain ⟨s, l, e1, e2⟩ := h.cnt
  obtain ⟨top', lv, e3, e4, e5, e6⟩ := bind_lex (arg := arg) (off := off) e h.tab hx
  have hlv : lv = c.cl := by
    rcases e5 with e5 | ⟨j, hj, e5⟩
    · exact e5
    · rw [e5]; exact (h2 x j hj hx).2
  rw [e3, count_cnt e1]
  have hfr : ∃ top' fr', top' :: fr' = top' :: fr' ∧ True := ⟨top, fr, rfl, trivial⟩
  have hA : (∀ y i, assq y top' = some i → Lexical P glo y → y ∈ x :: hs ∧ i.level = c.cl) ∧ ∀ y ∈ x :: hs, Lexical P glo y → assq y top' ≠ none := by
    constructor
    · intro y i hy hl
      by_cases hxy : y = x
      · subst hxy; rw [e4] at hy; cases hy; exact ⟨by simp, hlv⟩
      · rw [e6 y hxy] at hy
        have := h2 y i hy hl
        exact ⟨by simp [this.1], this.2⟩
    · intro y hy hl
      by_cases hxy : y = x
      · subst hxy; rw [e4]; simp
      · rw [e6 y hxy]
        refine h3 y ?_ hl
        simpa [hxy] using hy
  have hT : TabOK P glo (top' :: fr) := by
    have ht := h.tab
    rw [e] at ht
    intro f hf y i hy
    simp only [List.mem_cons] at hf
    rcases hf with rfl | hf
    · by_cases hxy : y = x
      · subst hxy; rw [e4] at hy; cases hy
        constructor
        · intro hb; cases arg <;> simp at hb
        · intro hl; exact absurd hx hl
      · rw [e6 y hxy] at hy; exact ht top (by simp) y i hy
    · exact ht f (by simp [hf]) y i hy
  cases arg with
  | true =>
    simp only [if_true] at e2 ⊢
    exact ⟨⟨⟨h.ext.code, h.ext.lab, h.ext.tasks⟩, ⟨top', fr, rfl, h1, hA⟩, hT, ⟨s, l, e1, e2⟩, h.flets, h.cl⟩, rfl, rfl, rfl, rfl⟩
  | false =>
    simp only [Bool.false_eq_true, if_false] at e2 ⊢
    refine ⟨⟨⟨h.ext.code, h.ext.lab, h.ext.tasks⟩, ⟨top', fr, rfl, h1, hA⟩, hT, ⟨s, l + 1, rfl, ?_⟩, h.flets, h.cl⟩, rfl, rfl, rfl, rfl⟩
    show ht c = _
    rw [e2]; omega

/-- Binding a special variable. -/
theorem Bound.bindSpecial {hs : List Sym} {n off : Nat} {arg : Bool} {c0 c : Comp} {x : Sym} (h : Bound P glo hs (if arg then n else n + 1) c0 c) (hx : P.special x = true) :
    Bound P glo (x :: hs) n c0 (c.bind P.special x arg off) ∧ (c.bind P.special x arg off).scope = c.scope ∧ (c.bind P.special x arg off).push = none := by
  obtain ⟨top, fr, e, h1, h2, h3⟩ := h.frames
  obtain ⟨s, l, e1, e2⟩ := h.cnt
  obtain ⟨top', e3, ⟨j, e4, e5⟩, e6⟩ := bind_special (arg := arg) (off := off) e h.tab hx
  have hn : ¬ Lexical P glo x := fun h => by rw [h.1] at hx; cases hx
  have hA : (∀ y i, assq y top' = some i → Lexical P glo y → y ∈ x :: hs ∧ i.level = c.cl) ∧ ∀ y ∈ x :: hs, Lexical P glo y → assq y top' ≠ none := by
    constructor
    · intro y i hy hl
      have hxy : y ≠ x := fun e => hn (e ▸ hl)
      rw [e6 y hxy] at hy
      have := h2 y i hy hl
      exact ⟨by simp [this.1], this.2⟩
    · intro y hy hl
      have hxy : y ≠ x := fun e => hn (e ▸ hl)
      rw [e6 y hxy]
      refine h3 y ?_ hl
      simpa [hxy] using hy
  have hT : TabOK P glo (top' :: fr) := by
    have ht := h.tab
    rw [e] at ht
    intro f hf y i hy
    simp only [List.mem_cons] at hf
    rcases hf with rfl | hf
    · by_cases hxy : y = x
      · subst hxy; rw [e4] at hy; cases hy
        simp [e5, hn]
      · rw [e6 y hxy] at hy; exact ht top (by simp) y i hy
    · exact ht f (by simp [hf]) y i hy
  rw [e3]
  have hc : (c.setFrames (top' :: fr)).count 1 0 = { c with frames := top' :: fr, cnt := (s + 1, l) :: c0.cnt } := count_cnt (c := c.setFrames (top' :: fr)) (show (c.setFrames (top' :: fr)).cnt = _ from e1) 1 0
  have ho : ∀ d : Comp, d.frames = top' :: fr → d.cnt = (s + 1, l) :: c0.cnt → d.flets = c0.flets → d.cl = c0.cl → d.scope = c.scope → Ext c0.lab c0 d → ht d = ht c0 + 3 * s + l + n + 1 →
      Bound P glo (x :: hs) n c0 (d.bindSpecial x) ∧ (d.bindSpecial x).scope = c.scope ∧ (d.bindSpecial x).push = none := by
    intro d d1 d2 d3 d4 d5 d6 d7
    have op := op_bindSpecial [] x d
    refine ⟨⟨d6.trans (op.ext0 c0.lab) (Nat.le_refl _), ⟨top', fr, op.frames.trans d1, h1, ?_, hA.2⟩, by rw [op.frames, d1]; exact hT, ⟨s + 1, l, op.cnt.trans d2, ?_⟩, op.flets.trans d3, op.cl.trans d4⟩, op.scope.trans d5, bindSpecial_push x d⟩
    · intro y i hy hl
      rw [op.cl, d4, ← h.cl]
      exact hA.1 y i hy hl
    · rw [ht_none (bindSpecial_push x d), bindSpecial_pc, d7]; omega
  rw [hc]
  have hx0 : Ext c0.lab c0 { c with frames := top' :: fr, cnt := (s + 1, l) :: c0.cnt } := ⟨h.ext.code, h.ext.lab, h.ext.tasks⟩
  cases arg with
  | true =>
    simp only [if_true] at e2 ⊢
    have op := op_pushx [] (.arg 0 off) { c with frames := top' :: fr, cnt := (s + 1, l) :: c0.cnt }
    refine ho _ op.frames op.cnt (op.flets.trans h.flets) (op.cl.trans h.cl) op.scope (hx0.trans (op.ext0 c0.lab) (Nat.le_refl _)) ?_
    rw [ht_pushx]
    show ht c + 1 = _
    rw [e2]
  | false =>
    simp only [Bool.false_eq_true, if_false] at e2 ⊢
    refine ho _ rfl rfl h.flets h.cl rfl hx0 ?_
    show ht c = _
    rw [e2]; omega

/-- Leaving the frame. -/
theorem Bound.delete {hs sc : List Sym} {c0 c : Comp} (h : Bound P glo hs 1 c0 c) (ha : Agree c0 sc) : Post P glo sc c0.lab 1 c0 c.deleteFrame := by
  obtain ⟨top, fr, e, h1, h2, h3⟩ := h.frames
  obtain ⟨s, l, e1, e2⟩ := h.cnt
  have hd : ∀ d : Comp, Op [] c d → ht d = ht c → Post P glo sc c0.lab 1 c0 { d.delFrame s l with frames := (d.delFrame s l).frames.tail, scope := (d.delFrame s l).frames.length - 2, cnt := (d.delFrame s l).cnt.tail } := by
    intro d op hh
    have op2 := op.trans (op_delFrame [] s l d)
    have hx := h.ext.trans (op2.ext0 c0.lab) (Nat.le_refl _)
    refine ⟨⟨hx.code, hx.lab, hx.tasks⟩, ⟨?_, ?_, .inr ⟨?_, ha⟩, op2.flets.trans h.flets, ?_, op2.cl.trans h.cl⟩, ?_⟩
    · show FEq P glo c0.frames (d.delFrame s l).frames.tail
      rw [op2.frames, e]; exact h1
    · show TabOK P glo (d.delFrame s l).frames.tail
      rw [op2.frames, e]
      have := h.tab; rw [e] at this
      exact this.tail
    · show (d.delFrame s l).frames.length - 2 = _
      rw [op2.frames, h.length]; simp [Comp.level]
    · show (d.delFrame s l).cnt.tail = _
      rw [op2.cnt, e1]; rfl
    · show ht (d.delFrame s l) = _
      rw [ht_delFrame, hh, e2]; omega
  unfold deleteFrame
  simp only [e1, List.headD]
  split
  · exact hd _ (op_unbindSpecial [] s c) (ht_unbindSpecial s c)
  · exact hd _ (Op.refl [] c) rfl

/-- The frame's variables and those around it. -/
theorem Bound.pre {hs sc sc' : List Sym} {n : Nat} {c0 c : Comp} (h : Bound P glo hs n c0 c) (hp : Pre P glo sc c0) (ha : Agree c0 sc) (hsc : c.scope = c.level)
    (hm : ∀ x ∈ sc', Lexical P glo x ∧ (x ∈ hs ∨ x ∈ sc)) : Pre P glo sc' c := by
  obtain ⟨top, fr, e, h1, h2, h3⟩ := h.frames
  refine ⟨h.tab, fun x hx => (hm x hx).1, ?_, by simp [e], .inl hsc⟩
  intro x hx
  unfold look
  rw [hsc, Nat.sub_self, e]
  simp only [List.drop_zero, search]
  cases ht : assq x top with
  | some i => simp
  | none =>
    rcases (hm x hx).2 with hh | hh
    · exact absurd ht (h3 x hh (hm x hx).1)
    · simp only
      rw [FEq.search (hp.lex x hh) h1, agree_look hp ha hh]
      exact hp.vis x hh

/-- For an initial value of `let`. -/
theorem Bound.preInit {hs sc : List Sym} {n : Nat} {c0 c : Comp} (h : Bound P glo hs n c0 c) (hp : Pre P glo sc c0) (ha : Agree c0 sc) : Pre P glo sc (c.setScope (c.level - 1)) := by
  obtain ⟨top, fr, e, h1, h2, h3⟩ := h.frames
  have hl : 1 ≤ c.level := by
    rw [h.level]
    have := hp.ne
    cases hc : c0.frames with
    | nil => exact absurd hc this
    | cons a b => simp
  refine ⟨h.tab, hp.lex, ?_, by simp [Comp.setScope, e], .inr (by simp [Comp.setScope, Comp.level] at hl ⊢; omega)⟩
  intro x hx
  unfold look
  have : (c.setScope (c.level - 1)).level - (c.setScope (c.level - 1)).scope = 1 := by simp [Comp.setScope, Comp.level] at hl ⊢; omega
  rw [this]
  show search x (c.frames.drop 1) ≠ none
  rw [e]
  simp only [List.drop_succ_cons, List.drop_zero]
  rw [FEq.search (hp.lex x hx) h1, agree_look hp ha hx]
  exact hp.vis x hx

theorem Bound.agreeInit {hs sc : List Sym} {n : Nat} {c0 c : Comp} (h : Bound P glo hs n c0 c) (hp : Pre P glo sc c0) (s : Nat) :
    Agree (c.setScope s) (sc.filter (fun y => !hs.contains y)) := by
  obtain ⟨top, fr, e, h1, h2, h3⟩ := h.frames
  right
  intro x hx
  simp only [List.mem_filter] at hx
  show assq x (c.frames.headD []) = none
  rw [e]
  simp only [List.headD]
  cases ht : assq x top with
  | none => rfl
  | some i =>
    have := (h2 x i ht (hp.lex x hx.1)).1
    simp [this] at hx

end Eus.Cmp
