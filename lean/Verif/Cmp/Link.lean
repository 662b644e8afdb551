import Verif.Cmp.Main
set_option autoImplicit false
/-
A compiled file: every function made in it has code of its own.
-/
namespace Eus.Cmp
open Eus.Lex
open Comp (search assq clear)

/-- The numbers of labels and functions, whatever is compiled. -/
structure TL (c c' : Comp) : Prop where
  lab : c.lab ≤ c'.lab
  tasks : ∃ ts, c'.tasks = c.tasks ++ ts ∧ (∀ t ∈ ts, c.lab ≤ t.entry ∧ t.entry < c'.lab) ∧ (ts.map Task.entry).Nodup

theorem TL.same {c c' : Comp} (h : c'.lab = c.lab) (h' : c'.tasks = c.tasks) : TL c c' := ⟨by omega, [], by simp [h'], by simp, by simp⟩
theorem TL.refl (c : Comp) : TL c c := TL.same rfl rfl
theorem Ext.tl {L : Nat} {c c' : Comp} (h : Ext L c c') : TL c c' := ⟨h.lab, h.tasks⟩
theorem Op.tl {ls : List Nat} {c c' : Comp} (h : Op ls c c') : TL c c' := TL.same h.lab h.tasks

theorem TL.trans {a b c : Comp} (h : TL a b) (h' : TL b c) : TL a c := by
  obtain ⟨t1, g1, r1, d1⟩ := h.tasks
  obtain ⟨t2, g2, r2, d2⟩ := h'.tasks
  have hl := h.lab
  have hl' := h'.lab
  refine ⟨Nat.le_trans hl hl', ⟨t1 ++ t2, by rw [g2, g1, List.append_assoc], ?_, ?_⟩⟩
  · intro t hm
    rcases List.mem_append.mp hm with hm | hm
    · have := r1 t hm; omega
    · have := r2 t hm; omega
  · rw [List.map_append, List.nodup_append]
    refine ⟨d1, d2, ?_⟩
    intro x hx y hy e
    obtain ⟨s, hs, rfl⟩ := List.mem_map.mp hx
    obtain ⟨t, ht, rfl⟩ := List.mem_map.mp hy
    have := r1 s hs; have := r2 t ht; omega

theorem TL.op {ls : List Nat} {a b c : Comp} (h : TL a b) (h' : Op ls b c) : TL a c := h.trans h'.tl

theorem tl_gen (c : Comp) : TL c c.gen := (gen_ext 0 c).tl

theorem tl_variable (sp : Sym → Bool) (x : Sym) (c : Comp) : TL c (c.variable_ sp x).2 := by
  obtain ⟨fr, e⟩ := variable_setFrames sp x c
  rw [e]; exact TL.same rfl rfl

theorem tl_loadVar (sp : Sym → Bool) (x : Sym) (c : Comp) : TL c (c.loadVar sp x) := (tl_variable sp x c).op (op_pushx [] _ _)

theorem tl_storeVar (sp : Sym → Bool) (x : Sym) (c : Comp) : TL c (c.storeVar sp x) := by
  unfold Comp.storeVar
  simp only
  split
  · exact (tl_variable sp x c).op ((op_popx [] _).trans (op_emit (ls := []) _ _ (by simp)))
  · exact (tl_variable sp x c).op (op_store [] _ _)
  · exact (tl_variable sp x c).op (op_store [] _ _)

theorem tl_count (s l : Nat) (c : Comp) : TL c (c.count s l) := by
  unfold Comp.count
  split <;> exact TL.same rfl rfl

theorem tl_enter (sp : Sym → Bool) (x : Sym) (c : Comp) : TL c (c.enterVariable sp x) := by
  unfold Comp.enterVariable
  split <;> exact TL.same rfl rfl

theorem tl_bind (sp : Sym → Bool) (x : Sym) (a : Bool) (o : Nat) (c : Comp) : TL c (c.bind sp x a o) := by
  unfold Comp.bind
  simp only
  split
  · refine (tl_enter sp x c).trans ((tl_count 1 0 _).trans ?_)
    split
    · exact ((op_pushx [] _ _).trans (op_bindSpecial [] _ _)).tl
    · exact (op_bindSpecial [] _ _).tl
  · refine (tl_enter sp x c).trans ?_
    split
    · exact TL.same rfl rfl
    · exact (tl_count 0 1 _).trans (TL.same rfl rfl)
  · exact tl_enter sp x c

theorem tl_create {c c' : Comp} (h : c.createFrame = some c') : TL c c' := by
  unfold Comp.createFrame at h
  split at h
  · cases h; exact TL.same rfl rfl
  · cases h

theorem tl_delete (c : Comp) : TL c c.deleteFrame := by
  unfold Comp.deleteFrame
  simp only
  split
  · have op := (op_unbindSpecial [] (c.cnt.headD (0, 0)).1 c).trans (op_delFrame [] (c.cnt.headD (0, 0)).1 (c.cnt.headD (0, 0)).2 _)
    exact TL.same op.lab op.tasks
  · have op := op_delFrame [] (c.cnt.headD (0, 0)).1 (c.cnt.headD (0, 0)).2 c
    exact TL.same op.lab op.tasks

theorem tl_addTask (ps : List Sym) (b : List Expr) (c : Comp) : TL c ((c.gen.closure c.lab).addTask c.lab ps b) := by
  have e := (gen_ext c.lab c).trans ((op_closure [] c.lab c.gen).ext0 c.lab) (Nat.le_refl _)
  refine (addTask_ext (d := c.gen.closure c.lab) e (Nat.le_refl _) ?_ (op_closure [] c.lab c.gen).tasks).tl
  rw [(op_closure [] c.lab c.gen).lab]; simp [Comp.gen]

section
variable {sp : Sym → Bool} {cmp : Expr → Comp → Option Comp} {evc : Bool → Nat → Expr → Comp → Option Comp} (hc : ∀ e c c', cmp e c = some c' → TL c c') (he : ∀ b l e c c', evc b l e c = some c' → TL c c')
include hc

theorem tl_args : ∀ (es : List Expr) {c c' : Comp}, compArgs cmp es c = some c' → TL c c'
  | [], c, c', h => by cases h; exact TL.refl c
  | e :: es, c, c', h => by
    simp only [compArgs, Option.bind_eq_some_iff] at h
    obtain ⟨c1, h1, h2⟩ := h
    exact (hc e c c1 h1).trans (tl_args es h2)

theorem tl_progn : ∀ (es : List Expr) {c c' : Comp}, compProgn cmp es c = some c' → TL c c'
  | [], c, c', h => by cases h; exact (op_pushx [] _ c).tl
  | [e], c, c', h => hc e c c' h
  | e :: e' :: es, c, c', h => by
    simp only [compProgn, Option.bind_eq_some_iff] at h
    obtain ⟨c1, h1, h2⟩ := h
    exact (hc e c c1 h1).trans ((op_discard [] 1 c1).tl.trans (tl_progn (e' :: es) h2))

theorem tl_inits : ∀ (bs : List (Sym × Expr)) {s : List (Sym × Nat)} {r : List (Sym × Nat) × Comp} {c : Comp}, compInits sp cmp bs s c = some r → TL c r.2
  | [], s, r, c, h => by cases h; exact TL.refl c
  | (x, e) :: bs, s, r, c, h => by
    simp only [compInits, Option.bind_eq_some_iff] at h
    obtain ⟨c1, h1, h2⟩ := h
    have t1 : TL c c1.clear := (TL.same (c := c) (c' := c.setScope (c.level - 1)) rfl rfl).trans ((hc e _ c1 h1).op (op_clear [] c1))
    split at h2
    · exact t1.trans ((tl_count 0 1 _).trans (tl_inits bs h2))
    · exact t1.trans ((tl_bind sp x false _ _).trans (tl_inits bs h2))

omit hc in
theorem tl_specials : ∀ (s : List (Sym × Nat)) (c : Comp), TL c (bindSpecials sp s c)
  | [], c => TL.refl c
  | (x, o) :: s, c => by
    simp only [bindSpecials]
    exact ((op_clear [] c).trans (op_pushx [] _ _)).tl.trans ((tl_bind sp x false _ _).trans (tl_specials s _))

theorem tl_seq : ∀ (bs : List (Sym × Expr)) {c c' : Comp}, compSeq sp cmp bs c = some c' → TL c c'
  | [], c, c', h => by cases h; exact TL.refl c
  | (x, e) :: bs, c, c', h => by
    simp only [compSeq, Option.bind_eq_some_iff] at h
    obtain ⟨c1, h1, h2⟩ := h
    exact ((hc e c c1 h1).op (op_clear [] c1)).trans ((tl_bind sp x false _ _).trans (tl_seq bs h2))

theorem tl_and (l : Nat) : ∀ (es : List Expr) {c c' : Comp}, compAnd cmp l es c = some c' → TL c c'
  | [], c, c', h => by cases h; exact (op_pushx [] _ c).tl
  | [e], c, c', h => hc e c c' h
  | e :: e' :: es, c, c', h => by
    simp only [compAnd, Option.bind_eq_some_iff] at h
    obtain ⟨c1, h1, h2⟩ := h
    exact ((hc e c c1 h1).op (((op_dupe [] c1).trans (op_ifNil [] l _)).trans (op_discard [] 1 _))).trans (tl_and l (e' :: es) h2)

theorem tl_or (l : Nat) : ∀ (es : List Expr) {c c' : Comp}, compOr cmp l es c = some c' → TL c c'
  | [], c, c', h => by cases h; exact (op_pushx [] _ c).tl
  | [e], c, c', h => hc e c c' h
  | e :: e' :: es, c, c', h => by
    simp only [compOr, Option.bind_eq_some_iff] at h
    obtain ⟨c1, h1, h2⟩ := h
    exact ((hc e c c1 h1).op (((op_dupe [] c1).trans (op_ifT [] l _)).trans (op_discard [] 1 _))).trans (tl_or l (e' :: es) h2)

omit hc in
include he in
theorem tl_evAll (b : Bool) (l : Nat) : ∀ (es : List Expr) {c c' : Comp}, evconAll evc b l es c = some c' → TL c c'
  | [], c, c', h => by cases h; exact TL.refl c
  | e :: es, c, c', h => by
    simp only [evconAll, Option.bind_eq_some_iff] at h
    obtain ⟨c1, h1, h2⟩ := h
    exact (he b l e c c1 h1).trans (tl_evAll b l es h2)

include he

theorem tl_compF {e : Expr} {c c' : Comp} (h : compF sp cmp evc e c = some c') : TL c c' := by
  cases e with
  | nil => cases h; exact (op_pushx [] _ c).tl
  | t => cases h; exact (op_pushx [] _ c).tl
  | int z => cases h; exact (op_pushx [] _ c).tl
  | var x => cases h; exact tl_loadVar sp x c
  | setq x e =>
    simp only [compF, Option.bind_eq_some_iff] at h
    obtain ⟨c1, h1, h2⟩ := h
    refine ((hc e c c1 h1).trans (tl_variable sp x c1)).trans ?_
    split at h2 <;> cases h2
    · exact (op_dupe [] _).tl.trans (tl_storeVar sp x _)
    · exact (tl_storeVar sp x _).trans (tl_loadVar sp x _)
  | ite a b d =>
    simp only [compF, Option.bind_eq_some_iff, Option.some.injEq] at h
    obtain ⟨c1, h1, c2, h2, c3, h3, rfl⟩ := h
    have t1 := ((tl_gen c).trans (tl_gen c.gen)).trans (he _ _ _ _ _ h1)
    have t2 := (t1.trans (hc _ _ _ h2)).op (((op_jump [c.lab] (c.lab + 1) c2).trans (op_adjust [c.lab] 1 _)).trans (op_label (ls := [c.lab]) c.lab _ (by simp)))
    exact (t2.trans (hc _ _ _ h3)).op (op_label (ls := [c.lab + 1]) (c.lab + 1) c3 (by simp))
  | not e =>
    simp only [compF, Option.bind_eq_some_iff, Option.some.injEq] at h
    obtain ⟨c1, h1, rfl⟩ := h
    exact (hc _ _ _ h1).op (op_nullx [] c1)
  | and es =>
    simp only [compF, Option.bind_eq_some_iff, Option.some.injEq] at h
    obtain ⟨c1, h1, rfl⟩ := h
    exact ((tl_gen c).trans (tl_and hc c.lab es h1)).op (op_label (ls := [c.lab]) c.lab c1 (by simp))
  | or es =>
    simp only [compF, Option.bind_eq_some_iff, Option.some.injEq] at h
    obtain ⟨c1, h1, rfl⟩ := h
    exact ((tl_gen c).trans (tl_or hc c.lab es h1)).op (op_label (ls := [c.lab]) c.lab c1 (by simp))
  | progn es => exact tl_progn hc es h
  | «while» a es =>
    simp only [compF, Option.bind_eq_some_iff, Option.some.injEq] at h
    obtain ⟨c1, h1, c2, h2, rfl⟩ := h
    have t0 : TL c (c.gen.gen.clear.gen.label c.lab) := ((((tl_gen c).trans (tl_gen c.gen)).op (op_clear [] _)).trans (tl_gen _)).op (op_label (ls := [c.lab]) c.lab _ (by simp))
    exact ((t0.trans (he _ _ _ _ _ h1)).trans (tl_progn hc es h2)).op (ls := [c.lab + 1, c.lab + 2])
      (((((op_discard _ 1 c2).trans (op_jump _ c.lab _)).trans (op_label (c.lab + 1) _ (by simp))).trans (op_pushx _ .nil _)).trans (op_label (c.lab + 2) _ (by simp)))
  | letp bs es =>
    simp only [compF, Option.bind_eq_some_iff, Option.some.injEq] at h
    obtain ⟨c1, h1, ⟨s, c2⟩, h2, c3, h3, rfl⟩ := h
    have t2 := ((tl_create h1).trans (tl_inits hc bs h2)).trans (tl_specials (sp := sp) s c2)
    exact ((t2.trans (TL.same (c' := (bindSpecials sp s c2).setScope (bindSpecials sp s c2).level) rfl rfl)).trans (tl_progn hc es h3)).trans (tl_delete c3)
  | lets bs es =>
    simp only [compF, Option.bind_eq_some_iff, Option.some.injEq] at h
    obtain ⟨c1, h1, c2, h2, c3, h3, rfl⟩ := h
    exact (((tl_create h1).trans (tl_seq hc bs h2)).trans (tl_progn hc es h3)).trans (tl_delete c3)
  | lam ps es => cases h; exact tl_addTask ps es c
  | fn f =>
    simp only [compF] at h
    split at h <;> cases h <;> exact (op_pushx [] _ c).tl
  | funcall e args =>
    simp only [compF, Option.bind_eq_some_iff, Option.some.injEq] at h
    obtain ⟨c1, h1, rfl⟩ := h
    exact (tl_args hc _ h1).op (op_call [] _ _ c1 (by simp))
  | call f args =>
    simp only [compF] at h
    split at h <;> simp only [Option.bind_eq_some_iff, Option.some.injEq] at h <;> obtain ⟨c1, h1, rfl⟩ := h
    · exact (tl_args hc _ h1).op ((op_pushx [] _ c1).trans (op_callClosure [] _ _ _))
    · exact (tl_args hc _ h1).op (op_call [] _ _ c1 (by simp))
  | lamcall ps b args => cases h
  | flet ds es =>
    simp only [compF, Option.bind_eq_some_iff, Option.some.injEq] at h
    obtain ⟨c1, h1, rfl⟩ := h
    exact (((st_funs ds c).1.tl.trans (tl_progn hc es h1)).trans (TL.same (c' := c1.setFlets c.flets) rfl rfl)).op (op_delFrame [] 0 ds.length _)
  | labels ds es =>
    simp only [compF, Option.bind_eq_some_iff, Option.some.injEq] at h
    obtain ⟨c1, h1, rfl⟩ := h
    exact (((changeFlets_ext (st_funs ds c).1).tl.trans (tl_progn hc es h1)).trans (TL.same (c' := c1.setFlets c.flets) rfl rfl)).op (op_delFrame [] 0 ds.length _)
  | prim p args =>
    simp only [compF, Option.bind_eq_some_iff, Option.some.injEq] at h
    obtain ⟨c1, h1, rfl⟩ := h
    exact (tl_args hc _ h1).op (op_call [] _ _ c1 (by simp))

theorem tl_evconF {b : Bool} {l : Nat} {e : Expr} {c c' : Comp} (h : evconF cmp evc b l e c = some c') : TL c c' := by
  have dflt : (cmp e c).bind (fun c => some (if b then c.ifT l else c.ifNil l)) = some c' → TL c c' := by
    intro h
    simp only [Option.bind_eq_some_iff, Option.some.injEq] at h
    obtain ⟨c1, h1, rfl⟩ := h
    split
    · exact (hc _ _ _ h1).op (op_ifT [] l c1)
    · exact (hc _ _ _ h1).op (op_ifNil [] l c1)
  have multi : ∀ (bb : Bool) (es : List Expr), (evconAll evc bb c.lab es c.gen).bind (fun c' => some ((c'.jump l).label c.lab)) = some c' → TL c c' := by
    intro bb es h
    simp only [Option.bind_eq_some_iff, Option.some.injEq] at h
    obtain ⟨c1, h1, rfl⟩ := h
    exact ((tl_gen c).trans (tl_evAll he bb c.lab es h1)).op ((op_jump [c.lab] l c1).trans (op_label (ls := [c.lab]) c.lab _ (by simp)))
  cases e with
  | not e => exact he _ _ _ _ _ h
  | and es =>
    cases es with
    | nil => exact dflt h
    | cons e0 es =>
      cases b
      · exact tl_evAll he false l (e0 :: es) (by simpa [evconF] using h)
      · exact multi false (e0 :: es) (by simpa [evconF] using h)
  | or es =>
    cases es with
    | nil => exact dflt h
    | cons e0 es =>
      cases b
      · exact multi true (e0 :: es) (by simpa [evconF] using h)
      · exact tl_evAll he true l (e0 :: es) (by simpa [evconF] using h)
  | _ => exact dflt h

end

theorem tl_both (sp : Sym → Bool) : ∀ k, (∀ e c c', (comp sp k).1 e c = some c' → TL c c') ∧ (∀ b l e c c', (comp sp k).2 b l e c = some c' → TL c c')
  | 0 => ⟨fun _ _ _ h => (by cases h), fun _ _ _ _ _ h => (by cases h)⟩
  | k + 1 => ⟨fun _ _ _ h => tl_compF (tl_both sp k).1 (tl_both sp k).2 h, fun _ _ _ _ _ h => tl_evconF (tl_both sp k).1 (tl_both sp k).2 h⟩

theorem tl_params (sp : Sym → Bool) : ∀ (xs : List Sym) (i : Nat) (c : Comp), TL c (bindParams sp xs i c)
  | [], _, c => TL.refl c
  | x :: xs, i, c => (tl_bind sp x true i c).trans (tl_params sp xs (i + 1) _)

theorem tl_lambda {sp : Sym → Bool} {k : Nat} {ps : List Sym} {b : List Expr} {c c' : Comp} (h : compLambda sp k ps b c = some c') : TL c c' := by
  simp only [compLambda, Option.bind_eq_some_iff, Option.some.injEq] at h
  obtain ⟨c1, h1, c2, h2, rfl⟩ := h
  exact ((((tl_create h1).op (op_emit (ls := []) (.argc ps.length) c1 (by simp))).trans (tl_params sp ps 0 _)).trans (tl_progn (tl_both sp k).1 b h2)).trans (tl_delete c2)

/-- The functions made in a function. -/
theorem task_range {sp : Sym → Bool} {k lab : Nat} {t : Task} {r : Code × List Task × Nat} (h : compileTask sp k lab t = some r) :
    lab ≤ r.2.2 ∧ (∀ t ∈ r.2.1, lab ≤ t.entry ∧ t.entry < r.2.2) ∧ (r.2.1.map Task.entry).Nodup := by
  simp only [compileTask, Option.bind_eq_some_iff, Option.some.injEq] at h
  obtain ⟨c, h1, rfl⟩ := h
  have tl := (tl_lambda h1).op (op_return [] c)
  obtain ⟨ts, e, h2, h3⟩ := tl.tasks
  simp only [List.nil_append] at e
  exact ⟨tl.lab, by simp only; rw [e]; exact h2, by simp only; rw [e]; exact h3⟩

theorem defun_range {sp : Sym → Bool} {k lab : Nat} {ps : List Sym} {b : List Expr} {r : Code × List Task × Nat} (h : compileDefun sp k lab ps b = some r) :
    lab ≤ r.2.2 ∧ (∀ t ∈ r.2.1, lab ≤ t.entry ∧ t.entry < r.2.2) ∧ (r.2.1.map Task.entry).Nodup := by
  simp only [compileDefun, Option.bind_eq_some_iff, Option.some.injEq] at h
  obtain ⟨c, h1, rfl⟩ := h
  have tl := (tl_lambda h1).op ((op_label (ls := [lab]) lab c (by simp)).trans (op_return [lab] _))
  obtain ⟨ts, e, h2, h3⟩ := tl.tasks
  simp only [List.nil_append] at e
  have := tl.lab
  refine ⟨by simp only at this ⊢; omega, ?_, by simp only; rw [e]; exact h3⟩
  simp only; rw [e]
  intro t ht
  have := h2 t ht
  simp only at this
  omega

/-- The code of closures. -/
theorem closures_ok {sp : Sym → Bool} {k : Nat} : ∀ (n : Nat) {ts : List Task} {lab : Nat} {r : List (Nat × Code) × Nat}, compileClosures sp k n ts lab = some r → (∀ t ∈ ts, t.entry < lab) → (ts.map Task.entry).Nodup →
    lab ≤ r.2 ∧ (∀ p ∈ r.1, (∃ t ∈ ts, t.entry = p.1) ∨ (lab ≤ p.1 ∧ p.1 < r.2)) ∧ (r.1.map Prod.fst).Nodup ∧ ∀ clos : Nat → Option Code, (∀ p ∈ r.1, clos p.1 = some p.2) → ∀ t ∈ ts, TS sp k clos t
  | 0, _, _, _, h, _, _ => by cases h
  | n + 1, [], lab, r, h, _, _ => by cases h; simp
  | n + 1, t :: ts, lab, r, h, hlt, hnd => by
    simp only [compileClosures, Option.bind_eq_some_iff, Option.some.injEq] at h
    obtain ⟨r1, h1, a, h2, b, h3, rfl⟩ := h
    obtain ⟨g1, g2, g3⟩ := task_range h1
    simp only [List.map_cons, List.nodup_cons] at hnd
    obtain ⟨a1, a2, a3, a4⟩ := closures_ok n h2 (fun t ht => (g2 t ht).2) g3
    have htl : t.entry < lab := hlt t (by simp)
    obtain ⟨b1, b2, b3, b4⟩ := closures_ok n h3 (fun t' ht => by have := hlt t' (by simp [ht]); omega) hnd.2
    have ra : ∀ p ∈ a.1, lab ≤ p.1 ∧ p.1 < a.2 := by
      intro p hp
      rcases a2 p hp with ⟨t', ht', e⟩ | h
      · have := g2 t' ht'; omega
      · omega
    refine ⟨by simp only; omega, ?_, ?_, ?_⟩
    · intro p hp
      simp only [List.cons_append, List.mem_cons, List.mem_append] at hp
      rcases hp with rfl | hp | hp
      · exact .inl ⟨t, by simp, rfl⟩
      · have := ra p hp; right; simp only; omega
      · rcases b2 p hp with ⟨t', ht', e⟩ | h
        · exact .inl ⟨t', by simp [ht'], e⟩
        · right; simp only; omega
    · simp only [List.cons_append, List.map_cons, List.map_append, List.nodup_cons, List.mem_append, List.nodup_append]
      refine ⟨?_, a3, b3, ?_⟩
      · rintro (hm | hm)
        · obtain ⟨p, hp, e⟩ := List.mem_map.mp hm
          have := ra p hp; omega
        · obtain ⟨p, hp, e⟩ := List.mem_map.mp hm
          rcases b2 p hp with ⟨t', ht', e'⟩ | h
          · exact hnd.1 (List.mem_map.mpr ⟨t', ht', by rw [e', e]⟩)
          · omega
      · intro x hx y hy e
        obtain ⟨p, hp, rfl⟩ := List.mem_map.mp hx
        obtain ⟨q, hq, rfl⟩ := List.mem_map.mp hy
        have := ra p hp
        rcases b2 q hq with ⟨t', ht', e'⟩ | h
        · have := hlt t' (by simp [ht']); omega
        · omega
    · intro clos hcl t' ht'
      simp only [List.cons_append, List.mem_cons, List.mem_append] at hcl
      simp only [List.mem_cons] at ht'
      rcases ht' with rfl | ht'
      · exact .mk h1 (hcl _ (.inl rfl)) (a4 clos (fun p hp => hcl p (.inr (.inl hp))))
      · exact b4 clos (fun p hp => hcl p (.inr (.inr hp))) t' ht'

theorem find_unique {α β : Type} [BEq α] [LawfulBEq α] : ∀ {l : List (α × β)} {a : α} {b : β}, (l.map Prod.fst).Nodup → (a, b) ∈ l → (l.find? (fun p => p.1 == a)).map Prod.snd = some b
  | [], _, _, _, h => by cases h
  | (x, y) :: l, a, b, hn, h => by
    simp only [List.map_cons, List.nodup_cons] at hn
    simp only [List.mem_cons] at h
    rcases h with h | h
    · cases h; simp
    · have : (x == a) = false := by
        refine beq_eq_false_iff_ne.mpr (fun e => ?_)
        subst e
        exact hn.1 (List.mem_map.mpr ⟨_, h, rfl⟩)
      simp only [List.find?, this]
      exact find_unique hn.2 h

/-- The parts of a compiled file. -/
theorem file_ok {sp : Sym → Bool} {k : Nat} : ∀ {defs : List (Sym × List Sym × List Expr)} {lab : Nat} {img : Image}, compileFile sp k defs lab = some img →
    img.fns.map Prod.fst = defs.map Prod.fst ∧ (∀ p ∈ img.clos, lab ≤ p.1) ∧ (img.clos.map Prod.fst).Nodup ∧
    ∀ f ps b, (f, ps, b) ∈ defs → ∃ l r, compileDefun sp k l ps b = some r ∧ (f, r.1) ∈ img.fns ∧ ∀ clos : Nat → Option Code, (∀ p ∈ img.clos, clos p.1 = some p.2) → ∀ t ∈ r.2.1, TS sp k clos t
  | [], lab, img, h => by cases h; simp
  | (f, ps, b) :: ds, lab, img, h => by
    simp only [compileFile, Option.bind_eq_some_iff, Option.some.injEq] at h
    obtain ⟨r, h1, a, h2, i, h3, rfl⟩ := h
    obtain ⟨g1, g2, g3⟩ := defun_range h1
    obtain ⟨a1, a2, a3, a4⟩ := closures_ok k h2 (fun t ht => (g2 t ht).2) g3
    obtain ⟨i1, i2, i3, i4⟩ := file_ok h3
    have ra : ∀ p ∈ a.1, lab ≤ p.1 ∧ p.1 < a.2 := by
      intro p hp
      rcases a2 p hp with ⟨t', ht', e⟩ | h
      · have := g2 t' ht'; omega
      · omega
    refine ⟨by simp [i1], ?_, ?_, ?_⟩
    · intro p hp
      rcases List.mem_append.mp hp with hp | hp
      · exact (ra p hp).1
      · have := i2 p hp; omega
    · simp only [List.map_append, List.nodup_append]
      refine ⟨a3, i3, ?_⟩
      intro x hx y hy e
      obtain ⟨p, hp, rfl⟩ := List.mem_map.mp hx
      obtain ⟨q, hq, rfl⟩ := List.mem_map.mp hy
      have := ra p hp; have := i2 q hq; omega
    · intro f' ps' b' hm
      simp only [List.mem_cons] at hm
      rcases hm with hm | hm
      · cases hm
        exact ⟨lab, r, h1, by simp, fun clos hcl => a4 clos (fun p hp => hcl p (List.mem_append_left _ hp))⟩
      · obtain ⟨l, r', e1, e2, e3⟩ := i4 f' ps' b' hm
        exact ⟨l, r', e1, by simp [e2], fun clos hcl => e3 clos (fun p hp => hcl p (List.mem_append_right _ hp))⟩

/-- A compiled file is as the simulation needs it. -/
theorem file_setup {special : Sym → Bool} {builtin : Nat → List (Option Int) → Option (Option Int)} {k lab : Nat} {defs : List (Sym × List Sym × List Expr)} {img : Image} {glo : Sym → Bool}
    (h : compileFile special k defs lab = some img) (hn : (defs.map Prod.fst).Nodup) (hp : CPlainProg (progOf special builtin defs) glo) :
    Setup (progOf special builtin defs) glo k ⟨img.fn, img.clo, builtin⟩ := by
  obtain ⟨h1, _, h3, h4⟩ := file_ok h
  refine ⟨hp, ?_, rfl⟩
  intro f ps b hf
  have hm : (f, ps, b) ∈ defs := by
    simp only [progOf] at hf
    cases hd : defs.find? (fun d => d.1 == f) with
    | none => rw [hd] at hf; cases hf
    | some d =>
      rw [hd] at hf
      have hm := List.mem_of_find?_eq_some hd
      have he := List.find?_some hd
      simp only [Option.map_some, Option.some.injEq] at hf
      obtain ⟨d1, d2⟩ := d
      simp only [beq_iff_eq] at he hf
      subst he; subst hf
      exact hm
  obtain ⟨l, r, e1, e2, e3⟩ := h4 f ps b hm
  refine ⟨l, r, e1, ?_, e3 _ ?_⟩
  · exact find_unique (by rw [h1]; exact hn) e2
  · intro p hp
    exact find_unique h3 (show (p.1, p.2) ∈ img.clos from hp)

end Eus.Cmp
