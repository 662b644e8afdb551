import Verif.Cmp.Ops
import Verif.Cmp.Spec
set_option autoImplicit false
/-
The identifier table during compilation of the programs of Spec.
-/
namespace Eus.Cmp
open Eus.Lex (Sym Expr Prog)
open Comp

variable {P : Prog} {glo : Sym → Bool}

/-- Names that are neither special nor meant as global. -/
def Lexical (P : Prog) (glo : Sym → Bool) (x : Sym) : Prop := P.special x = false ∧ glo x = false

theorem okName_cases {x : Sym} (h : okName P glo x) : P.special x = true ∨ Lexical P glo x := by
  cases hs : P.special x with
  | true => exact .inl rfl
  | false =>
    rcases h with h | h
    · rw [hs] at h; cases h
    · exact .inr ⟨hs, h⟩

/-- Exactly the other names are entered as special. -/
def TabOK (P : Prog) (glo : Sym → Bool) (fr : Tab) : Prop := ∀ f ∈ fr, ∀ x i, assq x f = some i → (i.bnd = .special ↔ ¬ Lexical P glo x)

/-- The same entries for lexical names. -/
def FEq (P : Prog) (glo : Sym → Bool) : Tab → Tab → Prop
  | [], [] => True
  | f :: fs, g :: gs => (∀ x, Lexical P glo x → assq x g = assq x f) ∧ FEq P glo fs gs
  | _, _ => False

theorem FEq.refl : ∀ fr, FEq P glo fr fr
  | [] => trivial
  | _ :: fs => ⟨fun _ _ => rfl, FEq.refl fs⟩

theorem FEq.trans : ∀ {a b c : Tab}, FEq P glo a b → FEq P glo b c → FEq P glo a c
  | [], [], [], _, _ => trivial
  | _ :: _, _ :: _, _ :: _, h, h' => ⟨fun x hx => (h'.1 x hx).trans (h.1 x hx), FEq.trans h.2 h'.2⟩
  | [], [], _ :: _, _, h' => h'.elim
  | [], _ :: _, _, h, _ => h.elim
  | _ :: _, [], _, h, _ => h.elim
  | _ :: _, _ :: _, [], _, h' => h'.elim

theorem FEq.length : ∀ {a b : Tab}, FEq P glo a b → b.length = a.length
  | [], [], _ => rfl
  | _ :: _, _ :: _, h => by simp [FEq.length h.2]
  | [], _ :: _, h => h.elim
  | _ :: _, [], h => h.elim

theorem FEq.drop : ∀ {a b : Tab} (n : Nat), FEq P glo a b → FEq P glo (a.drop n) (b.drop n)
  | _, _, 0, h => by simpa using h
  | [], [], _ + 1, _ => trivial
  | _ :: _, _ :: _, n + 1, h => by simpa using FEq.drop n h.2
  | [], _ :: _, _, h => h.elim
  | _ :: _, [], _, h => h.elim

theorem FEq.search {x : Sym} (hx : Lexical P glo x) : ∀ {a b : Tab}, FEq P glo a b → search x b = search x a
  | [], [], _ => rfl
  | f :: fs, g :: gs, h => by simp only [Comp.search, h.1 x hx, FEq.search hx h.2]
  | [], _ :: _, h => h.elim
  | _ :: _, [], h => h.elim

theorem search_bnd {fr : Tab} (ht : TabOK P glo fr) {x : Sym} {i : Ident} (h : search x fr = some i) : i.bnd = .special ↔ ¬ Lexical P glo x := by
  induction fr with
  | nil => cases h
  | cons f fs ih =>
    simp only [search] at h
    cases ha : assq x f with
    | some j => rw [ha] at h; cases h; exact ht f (by simp) x i ha
    | none => rw [ha] at h; exact ih (fun g hg => ht g (by simp [hg])) h

theorem TabOK.drop {fr : Tab} (h : TabOK P glo fr) (n : Nat) : TabOK P glo (fr.drop n) := fun f hf => h f (List.mem_of_mem_drop hf)
theorem TabOK.tail {f : List (Sym × Ident)} {fr : Tab} (h : TabOK P glo (f :: fr)) : TabOK P glo fr := fun g hg => h g (by simp [hg])

theorem assq_cons (x y : Sym) (i : Ident) (f : List (Sym × Ident)) : assq x ((y, i) :: f) = if y = x then some i else assq x f := rfl

theorem assq_set_same (x : Sym) (j : Ident) : ∀ (f : List (Sym × Ident)), assq x f ≠ none → assq x (assqSet x j f) = some j
  | [], h => absurd rfl h
  | (y, i) :: f, h => by
    unfold assqSet
    split
    next e => simp [assq, e]
    next e => rw [assq_cons, if_neg e] at h ⊢; exact assq_set_same x j f h

theorem assq_set_other {x y : Sym} (j : Ident) (hy : y ≠ x) : ∀ (f : List (Sym × Ident)), assq y (assqSet x j f) = assq y f
  | [] => rfl
  | (z, i) :: f => by
    unfold assqSet
    split
    next e => subst e; rw [assq_cons, assq_cons, if_neg (Ne.symm hy), if_neg (Ne.symm hy)]
    next e => rw [assq_cons, assq_cons, assq_set_other j hy f]

/-- Entering a special name. -/
theorem enterTop_ok {fr : Tab} {x : Sym} {i : Ident} (hx : ¬ Lexical P glo x) (hi : i.bnd = .special) (h : TabOK P glo fr) : TabOK P glo (enterTop x i fr) ∧ FEq P glo fr (enterTop x i fr) := by
  cases fr with
  | nil => exact ⟨h, trivial⟩
  | cons f fs =>
    refine ⟨?_, ?_, FEq.refl fs⟩
    · intro g hg y j hj
      simp only [enterTop, List.mem_cons] at hg
      rcases hg with rfl | hg
      · rw [assq_cons] at hj
        split at hj
        next e => subst e; cases hj; simp [hi, hx]
        next e => exact h f (by simp) y j hj
      · exact h g (by simp [hg]) y j hj
    · intro y hy
      rw [assq_cons, if_neg]
      rintro rfl; exact hx hy

theorem enterBase_ok {x : Sym} {i : Ident} (hx : ¬ Lexical P glo x) (hi : i.bnd = .special) : ∀ {fr : Tab}, TabOK P glo fr → TabOK P glo (enterBase x i fr) ∧ FEq P glo fr (enterBase x i fr)
  | [], h => ⟨h, trivial⟩
  | [f], h => enterTop_ok (fr := [f]) hx hi h
  | f :: g :: fs, h => by
    obtain ⟨h1, h2⟩ := enterBase_ok hx hi (fr := g :: fs) h.tail
    refine ⟨?_, fun _ _ => rfl, h2⟩
    intro f' hf'
    simp only [enterBase, List.mem_cons] at hf'
    rcases hf' with rfl | hf'
    · exact h f' (by simp)
    · exact h1 f' hf'

/-! ### What is visible -/

def look (c : Comp) (x : Sym) : Option Ident := search x (c.frames.drop (c.level - c.scope))

/-- Scope and current level see the same of sc. -/
def Agree (c : Comp) (sc : List Sym) : Prop := c.scope = c.level ∨ ∀ x ∈ sc, assq x (c.frames.headD []) = none

structure Pre (P : Prog) (glo : Sym → Bool) (sc : List Sym) (c : Comp) : Prop where
  tab : TabOK P glo c.frames
  lex : ∀ x ∈ sc, Lexical P glo x
  vis : ∀ x ∈ sc, look c x ≠ none
  ne : c.frames ≠ []
  lev : c.scope = c.level ∨ c.scope + 1 = c.level

theorem agree_look {sc : List Sym} {c : Comp} (hp : Pre P glo sc c) (ha : Agree c sc) {x : Sym} (hx : x ∈ sc) : search x c.frames = look c x := by
  unfold look
  rcases ha with ha | ha
  · simp [ha]
  · rcases hp.lev with h | h
    · simp [h]
    · have : c.level - c.scope = 1 := by omega
      rw [this]
      have := ha x hx
      cases hf : c.frames with
      | nil => rfl
      | cons f fs => rw [hf] at this; simp only [List.headD] at this; simp [search, this]

structure Keep (P : Prog) (glo : Sym → Bool) (sc : List Sym) (c c' : Comp) : Prop where
  frames : FEq P glo c.frames c'.frames
  tab : TabOK P glo c'.frames
  scope : c'.scope = c.scope ∨ (c'.scope = c.level ∧ Agree c sc)
  flets : c'.flets = c.flets
  cnt : c'.cnt = c.cnt
  cl : c'.cl = c.cl

theorem Keep.level {sc : List Sym} {c c' : Comp} (h : Keep P glo sc c c') : c'.level = c.level := by simp [Comp.level, h.frames.length]

theorem feq_head {a b : Tab} (h : FEq P glo a b) {x : Sym} (hx : Lexical P glo x) : assq x (b.headD []) = assq x (a.headD []) := by
  cases a <;> cases b
  · rfl
  · exact h.elim
  · exact h.elim
  · exact h.1 x hx

theorem Keep.look {sc : List Sym} {c c' : Comp} (h : Keep P glo sc c c') (hp : Pre P glo sc c) {x : Sym} (hx : x ∈ sc) : look c' x = look c x := by
  rcases h.scope with e | ⟨e, ha⟩
  · unfold Cmp.look
    rw [e, h.level]
    exact (h.frames.drop _).search (hp.lex x hx)
  · rw [← agree_look hp ha hx]
    unfold Cmp.look
    rw [e, h.level, Nat.sub_self]
    exact FEq.search (hp.lex x hx) h.frames

theorem Keep.pre {sc : List Sym} {c c' : Comp} (h : Keep P glo sc c c') (hp : Pre P glo sc c) : Pre P glo sc c' where
  tab := h.tab
  lex := hp.lex
  vis x hx := by rw [h.look hp hx]; exact hp.vis x hx
  ne e := by have := h.frames.length; rw [e] at this; exact hp.ne (List.length_eq_zero_iff.mp this.symm)
  lev := by
    rw [h.level]
    rcases h.scope with e | ⟨e, _⟩
    · rw [e]; exact hp.lev
    · exact .inl e

theorem Keep.agree {sc : List Sym} {c c' : Comp} (h : Keep P glo sc c c') (hp : Pre P glo sc c) (ha : Agree c sc) : Agree c' sc := by
  unfold Agree
  rw [h.level]
  rcases h.scope with e | ⟨e, _⟩
  · rcases ha with ha | ha
    · exact .inl (e.trans ha)
    · exact .inr fun x hx => (feq_head h.frames (hp.lex x hx)).trans (ha x hx)
  · exact .inl e

theorem Keep.refl {sc : List Sym} {c : Comp} (h : TabOK P glo c.frames) : Keep P glo sc c c := ⟨FEq.refl _, h, .inl rfl, rfl, rfl, rfl⟩

theorem Keep.trans {sc : List Sym} {a b c : Comp} (hp : Pre P glo sc a) (h : Keep P glo sc a b) (h' : Keep P glo sc b c) : Keep P glo sc a c where
  frames := h.frames.trans h'.frames
  tab := h'.tab
  scope := by
    rcases h'.scope with e | ⟨e, ha⟩
    · rcases h.scope with e1 | ⟨e1, h1⟩
      · exact .inl (e.trans e1)
      · exact .inr ⟨e.trans e1, h1⟩
    · rw [h.level] at e
      rcases h.scope with e1 | ⟨e1, h1⟩
      · refine .inr ⟨e, ?_⟩
        rcases ha with ha | ha
        · left; rw [← e1, ha, h.level]
        · exact .inr fun x hx => (feq_head h.frames (hp.lex x hx)).symm.trans (ha x hx)
      · exact .inr ⟨e, h1⟩
  flets := h'.flets.trans h.flets
  cnt := h'.cnt.trans h.cnt
  cl := h'.cl.trans h.cl

theorem Op.keep {ls : List Nat} {sc : List Sym} {c c' : Comp} (h : Op ls c c') (ht : TabOK P glo c.frames) : Keep P glo sc c c' :=
  ⟨by rw [h.frames]; exact FEq.refl _, by rw [h.frames]; exact ht, .inl h.scope, h.flets, h.cnt, h.cl⟩

/-! ### What is written -/

structure Ext (L : Nat) (c c' : Comp) : Prop where
  code : ∃ new, c'.code = c.code ++ new ∧ ∀ l, Instr.label l ∈ new → L ≤ l ∧ l < c'.lab
  lab : c.lab ≤ c'.lab
  tasks : ∃ ts, c'.tasks = c.tasks ++ ts ∧ (∀ t ∈ ts, c.lab ≤ t.entry ∧ t.entry < c'.lab) ∧ (ts.map Task.entry).Nodup

theorem Ext.refl (L : Nat) (c : Comp) : Ext L c c := ⟨⟨[], by simp, by simp⟩, Nat.le_refl _, ⟨[], by simp, by simp, by simp⟩⟩

theorem Ext.trans {L L1 : Nat} {a b c : Comp} (h : Ext L a b) (h' : Ext L1 b c) (hL : L ≤ L1) : Ext L a c := by
  obtain ⟨n1, e1, f1⟩ := h.code
  obtain ⟨n2, e2, f2⟩ := h'.code
  obtain ⟨t1, g1, r1, d1⟩ := h.tasks
  obtain ⟨t2, g2, r2, d2⟩ := h'.tasks
  have hl := h.lab
  have hl' := h'.lab
  refine ⟨⟨n1 ++ n2, by rw [e2, e1, List.append_assoc], ?_⟩, Nat.le_trans hl hl', ⟨t1 ++ t2, by rw [g2, g1, List.append_assoc], ?_, ?_⟩⟩
  · intro l hm
    rcases List.mem_append.mp hm with hm | hm
    · have := f1 l hm; omega
    · have := f2 l hm; omega
  · intro t hm
    rcases List.mem_append.mp hm with hm | hm
    · have := r1 t hm; omega
    · have := r2 t hm; omega
  · rw [List.map_append, List.nodup_append]
    refine ⟨d1, d2, ?_⟩
    intro x hx y hy e
    obtain ⟨s, hs, rfl⟩ := List.mem_map.mp hx
    obtain ⟨t, ht, rfl⟩ := List.mem_map.mp hy
    have := r1 s hs; have := r2 t ht; omega

theorem Ext.weaken {L L1 : Nat} {a b : Comp} (h : Ext L1 a b) (hL : L ≤ L1) : Ext L a b := (Ext.refl L a).trans h hL

theorem Op.ext {ls : List Nat} {c c' : Comp} (L : Nat) (h : Op ls c c') (hl : ∀ l ∈ ls, L ≤ l ∧ l < c.lab) : Ext L c c' := by
  obtain ⟨n, e, f⟩ := h.code
  refine ⟨⟨n, e, fun l hm => by rw [h.lab]; exact hl l (f l hm)⟩, by rw [h.lab]; exact Nat.le_refl _, ⟨[], by simp [h.tasks], by simp, by simp⟩⟩

theorem Op.ext0 {c c' : Comp} (L : Nat) (h : Op [] c c') : Ext L c c' := h.ext L (by simp)

theorem gen_ext (L : Nat) (c : Comp) : Ext L c c.gen := ⟨⟨[], by simp [gen], by simp⟩, by simp [gen], ⟨[], by simp [gen], by simp, by simp⟩⟩
theorem gen_keep {sc : List Sym} {c : Comp} (h : TabOK P glo c.frames) : Keep P glo sc c c.gen := ⟨FEq.refl _, h, .inl rfl, rfl, rfl, rfl⟩
theorem ht_gen (c : Comp) : ht c.gen = ht c := rfl

/-! ### Variables -/

theorem variable_found {x : Sym} {c : Comp} {sp : Sym → Bool} {i : Ident} (h : look c x = some i) : c.variable_ sp x = (i, c) := by
  unfold variable_ Comp.get; unfold look at h; rw [h]

theorem variable_keep {x : Sym} {c : Comp} {sc : List Sym} (hp : Pre P glo sc c) (h : x ∈ sc ∨ P.special x = true ∨ glo x = true) :
    Keep P glo sc c (c.variable_ P.special x).2 ∧ Ext c.lab c (c.variable_ P.special x).2 ∧ ht (c.variable_ P.special x).2 = ht c ∧ (c.variable_ P.special x).2.push = c.push ∧
      (x ∈ sc → (c.variable_ P.special x) = ((c.variable_ P.special x).1, c) ∧ look c x = some (c.variable_ P.special x).1 ∧ (c.variable_ P.special x).1.bnd ≠ .special) ∧
      (¬ Lexical P glo x → (c.variable_ P.special x).1.bnd = .special) := by
  unfold variable_ Comp.get
  cases hl : search x (c.frames.drop (c.level - c.scope)) with
  | some i =>
    simp only
    have hb := search_bnd (hp.tab.drop _) hl
    refine ⟨Keep.refl hp.tab, Ext.refl _ c, trivial, trivial, fun hx => ⟨trivial, hl, fun e => (hb.mp e) (hp.lex x hx)⟩, hb.mpr⟩
  | none =>
    simp only
    have hx : x ∉ sc := fun hx => hp.vis x hx hl
    have hn : ¬ Lexical P glo x := by
      rintro ⟨h1, h2⟩
      rcases h with h | h | h
      · exact hx h
      · rw [h1] at h; cases h
      · rw [h2] at h; cases h
    refine ⟨?_, ⟨⟨[], by simp [setFrames], by simp⟩, Nat.le_refl _, ⟨[], by simp [setFrames], by simp, by simp⟩⟩, by first | trivial | rfl, by first | trivial | rfl, fun h => absurd h hx, fun _ => by first | trivial | rfl⟩
    split
    · obtain ⟨h1, h2⟩ := enterBase_ok (i := ⟨.special, 0, 0⟩) hn rfl hp.tab
      exact ⟨h2, h1, .inl rfl, rfl, rfl, rfl⟩
    · obtain ⟨h1, h2⟩ := enterTop_ok (i := ⟨.special, 0, 0⟩) hn rfl hp.tab
      exact ⟨h2, h1, .inl rfl, rfl, rfl, rfl⟩

end Eus.Cmp
