import Verif.Cmp.Seq
set_option autoImplicit false
/-
Functions made in compiled code: `lambda`, `flet`, `labels`.
-/
namespace Eus.Cmp
open Eus.Lex
open Comp (search assq clear)

variable {P : Prog} {glo : Sym → Bool} {k0 : Nat} {m : Mach}

abbrev Def := Sym × List Sym × List Expr

def newFlets : List Def → Nat → Nat → Nat → List Flet → List Flet
  | [], _, _, _, fl => fl
  | d :: ds, pc, cl, en, fl => newFlets ds (pc + 1) cl (en + 1) (⟨d.1, pc, cl, en⟩ :: fl)

def newEnv : List Def → Nat → SEnv → SEnv
  | [], _, φ => φ
  | d :: ds, l, φ => newEnv ds (l + 1) ((d.1, l) :: φ)

def funSlots : List Def → Nat → Nat → Nat → List Slot → List Slot
  | [], _, _, _, Z => Z
  | _ :: ds, a, c, en, Z => funSlots ds (a + 1) (c + 1) (en + 1) (⟨c, a, some en⟩ :: Z)

theorem mem_funSlots {s : Slot} : ∀ {ds : List Def} {a c en : Nat} {Z : List Slot}, s ∈ funSlots ds a c en Z ↔ s ∈ Z ∨ ∃ i, i < ds.length ∧ s = ⟨c + i, a + i, some (en + i)⟩
  | [], a, c, en, Z => by simp [funSlots]
  | d :: ds, a, c, en, Z => by
    simp only [funSlots]
    rw [mem_funSlots]
    constructor
    · rintro (h | ⟨i, hi, rfl⟩)
      · simp only [List.mem_cons] at h
        rcases h with rfl | h
        · exact .inr ⟨0, by simp, rfl⟩
        · exact .inl h
      · exact .inr ⟨i + 1, by simp; omega, by simp; omega⟩
    · rintro (h | ⟨i, hi, rfl⟩)
      · exact .inl (by simp [h])
      · cases i with
        | zero => exact .inl (by simp)
        | succ i => exact .inr ⟨i, by simpa using hi, by simp; omega⟩

theorem funSlots_sub {ds : List Def} {a c en : Nat} {Z : List Slot} : ∀ s ∈ Z, s ∈ funSlots ds a c en Z := fun _ hs => mem_funSlots.mpr (.inl hs)

theorem sfuns_env {ρ : SEnv} : ∀ {ds : List Def} {φ : SEnv} {S : SState}, (sfuns ρ ds φ S).1 = newEnv ds S.next φ
  | [], _, _ => rfl
  | d :: ds, φ, S => by simp only [sfuns, newEnv]; rw [sfuns_env]; rfl

theorem sfuns_state {ρ : SEnv} : ∀ {ds : List Def} {φ : SEnv} {S : SState}, (sfuns ρ ds φ S).2.next = S.next + ds.length ∧ (sfuns ρ ds φ S).2.glob = S.glob ∧
    (∀ c, c ∈ (sfuns ρ ds φ S).2.live ↔ c ∈ S.live ∨ ∃ i, i < ds.length ∧ c = S.next + i) ∧ ∀ c, c < S.next → (sfuns ρ ds φ S).2.cells c = S.cells c
  | [], _, _ => ⟨rfl, rfl, by simp [sfuns], fun _ _ => rfl⟩
  | d :: ds, φ, S => by
    simp only [sfuns]
    obtain ⟨h1, h2, h3, h4⟩ := sfuns_state (ρ := ρ) (ds := ds) (φ := (d.1, S.next) :: φ) (S := S.alloc (.var .nil))
    refine ⟨by rw [h1]; simp [SState.alloc]; omega, h2, ?_, ?_⟩
    · intro c
      rw [h3]
      simp only [SState.alloc, List.mem_append, List.mem_cons, List.not_mem_nil, or_false]
      constructor
      · rintro ((h | rfl) | ⟨i, hi, rfl⟩)
        · exact .inl h
        · exact .inr ⟨0, by simp, rfl⟩
        · exact .inr ⟨i + 1, by simp; omega, by omega⟩
      · rintro (h | ⟨i, hi, rfl⟩)
        · exact .inl (.inl h)
        · cases i with
          | zero => exact .inl (.inr rfl)
          | succ i => exact .inr ⟨i, by simpa using hi, by omega⟩
    · intro c hc
      rw [h4 c (by simp [SState.alloc]; omega)]
      have : c ≠ S.next := by omega
      simp [SState.alloc, SState.put, this]

theorem sdefine_state {ρ φ : SEnv} : ∀ {ds : List Def} {l : Nat} {S : SState}, (sdefine ρ φ ds l S).next = S.next ∧ (sdefine ρ φ ds l S).glob = S.glob ∧ (sdefine ρ φ ds l S).live = S.live ∧
    (∀ i f ps b, ds[i]? = some (f, ps, b) → (sdefine ρ φ ds l S).cells (l + i) = .fn ps b ρ φ) ∧ ∀ c, c < l → (sdefine ρ φ ds l S).cells c = S.cells c
  | [], _, _ => ⟨rfl, rfl, rfl, by simp, fun _ _ => rfl⟩
  | (f, ps, b) :: ds, l, S => by
    simp only [sdefine]
    obtain ⟨h1, h2, h3, h4, h5⟩ := sdefine_state (ρ := ρ) (φ := φ) (ds := ds) (l := l + 1) (S := S.put l (.fn ps b ρ φ))
    refine ⟨h1, h2, h3, ?_, ?_⟩
    · intro i f' ps' b' hi
      cases i with
      | zero =>
        simp at hi
        obtain ⟨rfl, rfl, rfl⟩ := hi
        show (sdefine ρ φ ds (l + 1) (S.put l (.fn ps b ρ φ))).cells l = _
        rw [h5 l (by omega)]
        simp [SState.put]
      | succ i =>
        rw [show l + (i + 1) = l + 1 + i by omega]
        exact h4 i f' ps' b' (by simpa using hi)
    · intro c hc
      rw [h5 c (by omega)]
      have : c ≠ l := by omega
      simp [SState.put, this]

theorem find_newFlets {g : Sym} : ∀ {ds : List Def} {pc cl en : Nat} {fl : List Flet}, g ∉ ds.map Prod.fst → (newFlets ds pc cl en fl).find? (fun l => l.name == g) = fl.find? (fun l => l.name == g)
  | [], _, _, _, _, _ => rfl
  | d :: ds, pc, cl, en, fl, h => by
    simp only [List.map_cons, List.mem_cons, not_or] at h
    simp only [newFlets]
    rw [find_newFlets h.2]
    have : (d.1 == g) = false := by simpa using Ne.symm h.1
    simp [List.find?, this]

/-- What is compiled for the functions. -/
theorem funs_comp : ∀ (ds : List Def) {c : Comp}, c.push = none → (compFuns ds c).push = none ∧ (compFuns ds c).pc = c.pc + ds.length ∧ (compFuns ds c).flets = newFlets ds c.pc c.cl c.lab c.flets ∧
    ∃ ts, (compFuns ds c).tasks = c.tasks ++ ts ∧ ∀ i f ps b, ds[i]? = some (f, ps, b) → ∃ fl, Task.mk (c.lab + i) ps b c.frames c.scope (c.cl + 1) fl ∈ ts ∧
      ∀ g, g ∉ ds.map Prod.fst → fl.find? (fun l => l.name == g) = c.flets.find? (fun l => l.name == g)
  | [], c, h => ⟨h, rfl, rfl, [], by simp [compFuns], by simp⟩
  | (f, ps, b) :: ds, c, h => by
    simp only [compFuns]
    have op := (op_closure [] c.lab c.gen).trans (op_clear [] _)
    have hpc : (c.gen.closure c.lab).clear.pc = c.pc + 1 := by rw [clear_pc, ht_closure, ht_gen, ht_none h]
    have hpu : (c.gen.closure c.lab).clear.push = none := clear_push _
    generalize hd : (((c.gen.closure c.lab).clear.setFlets (⟨f, (c.gen.closure c.lab).clear.pc - 1, (c.gen.closure c.lab).clear.cl, c.lab⟩ :: (c.gen.closure c.lab).clear.flets)).addTask c.lab ps b) = d
    have d1 : d.push = none := by rw [← hd]; exact hpu
    have d2 : d.pc = c.pc + 1 := by rw [← hd]; exact hpc
    have d3 : d.flets = ⟨f, c.pc, c.cl, c.lab⟩ :: c.flets := by
      rw [← hd]
      show _ :: _ = _
      rw [hpc, op.cl, op.flets]; rfl
    have d4 : d.lab = c.lab + 1 := by rw [← hd]; show (c.gen.closure c.lab).clear.lab = _; rw [op.lab]; rfl
    have d5 : d.frames = c.frames := by rw [← hd]; exact op.frames
    have d6 : d.scope = c.scope := by rw [← hd]; exact op.scope
    have d7 : d.cl = c.cl := by rw [← hd]; exact op.cl
    have d8 : d.tasks = c.tasks ++ [⟨c.lab, ps, b, c.frames, c.scope, c.cl + 1, ⟨f, c.pc, c.cl, c.lab⟩ :: c.flets⟩] := by
      rw [← d3, ← d5, ← d6, ← d7]
      rw [← hd]
      show (c.gen.closure c.lab).clear.tasks ++ _ = _
      rw [op.tasks]; rfl
    obtain ⟨h1, h2, h3, ts, h4, h5⟩ := funs_comp ds d1
    refine ⟨h1, by rw [h2, d2]; simp; omega, ?_, _ :: ts, by rw [h4, d8, List.append_assoc]; rfl, ?_⟩
    · rw [h3, d2, d3, d4, d7]; rfl
    · intro i f' ps' b' hi
      cases i with
      | zero =>
        simp at hi
        obtain ⟨rfl, rfl, rfl⟩ := hi
        refine ⟨_, by simp; exact .inl rfl, ?_⟩
        intro g hg
        simp only [List.map_cons, List.mem_cons, not_or] at hg
        have : (f == g) = false := by simpa using Ne.symm hg.1
        simp [List.find?, this]
      | succ i =>
        obtain ⟨fl, g1, g2⟩ := h5 i f' ps' b' (by simpa using hi)
        rw [d4, d5, d6, d7, show c.lab + 1 + i = c.lab + (i + 1) by omega] at g1
        refine ⟨fl, by simp [g1], ?_⟩
        intro g hg
        simp only [List.map_cons, List.mem_cons, not_or] at hg
        rw [g2 g hg.2, d3]
        have : (f == g) = false := by simpa using Ne.symm hg.1
        simp [List.find?, this]

theorem closure_run {F : Code} {act : Act} {rest : List Frame} {c : Comp} {w : CVal} {T : CState} {en : Nat} (hp : c.push = none) (hF : (c.closure en).code <+: F) :
    ∃ T', Reach m (conf F act rest c.code.length w T) (conf F act rest (c.closure en).code.length w T') ∧ T'.mem = T.mem ∧ T'.sbp = T.sbp ∧ T'.glob = T.glob ∧ Top m act w T' (c.closure en) (.clo en act.env act.argv act.loc) := by
  have e : (c.closure en).code = c.resetVsp.code := by
    unfold Comp.closure Comp.pushx
    show (c.clear.resetVsp).clear.code = _
    rw [clear_self hp, clear_self (show c.resetVsp.push = none from hp)]
  rw [e] at hF ⊢
  exact ⟨_, run_vsp hF, rfl, rfl, rfl, rfl⟩

/-- The functions are made. -/
theorem funs_run {F : Code} {act : Act} {rest : List Frame} : ∀ (ds : List Def) {c : Comp} {w : CVal} {T : CState}, c.push = none → (compFuns ds c).code <+: F →
    ∃ T1, Reach m (conf F act rest c.code.length w T) (conf F act rest (compFuns ds c).code.length w T1) ∧ (∀ i, i < ds.length → T1.mem (act.loc + c.pc + i) = .val (.clo (c.lab + i) act.env act.argv act.loc)) ∧
      (∀ a, a < act.loc + c.pc → T1.mem a = T.mem a) ∧ T1.sbp = T.sbp ∧ T1.glob = T.glob
  | [], c, w, T, h, hF => ⟨T, Reach.refl _ _, by simp, fun _ _ => rfl, rfl, rfl⟩
  | (f, ps, b) :: ds, c, w, T, h, hF => by
    simp only [compFuns] at hF ⊢
    have op := (op_closure [] c.lab c.gen).trans (op_clear [] _)
    have hpc : (c.gen.closure c.lab).clear.pc = c.pc + 1 := by rw [clear_pc, ht_closure, ht_gen, ht_none h]
    have hpu : (c.gen.closure c.lab).clear.push = none := clear_push _
    generalize hd : (((c.gen.closure c.lab).clear.setFlets (⟨f, (c.gen.closure c.lab).clear.pc - 1, (c.gen.closure c.lab).clear.cl, c.lab⟩ :: (c.gen.closure c.lab).clear.flets)).addTask c.lab ps b) = d at hF ⊢
    have d1 : d.push = none := by rw [← hd]; exact hpu
    have d2 : d.pc = c.pc + 1 := by rw [← hd]; exact hpc
    have d4 : d.lab = c.lab + 1 := by rw [← hd]; show (c.gen.closure c.lab).clear.lab = _; rw [op.lab]; rfl
    have d5 : d.code = (c.gen.closure c.lab).clear.code := by rw [← hd]; rfl
    have hF1 : (c.gen.closure c.lab).clear.code <+: F := by rw [← d5]; exact (st_funs ds d).1.prefix.trans hF
    obtain ⟨T1, q1, m1, s1, g1, t1⟩ := closure_run (m := m) (act := act) (rest := rest) (c := c.gen) (en := c.lab) (w := w) (T := T) h ((op_clear [] _).prefix.trans hF1)
    obtain ⟨T2, q2, p2⟩ := run_clear (rest := rest) hF1 t1
    obtain ⟨T3, q3, a3, b3, s3, g3⟩ := funs_run ds (w := w) (T := T2) d1 hF
    have ha : act.loc + (ht (c.gen.closure c.lab) - 1) = act.loc + c.pc := by rw [ht_closure, ht_gen, ht_none h]; omega
    rw [ha] at p2
    rw [d5] at q3
    refine ⟨T3, q1.trans (q2.trans q3), ?_, ?_, by rw [s3, p2.sbp, s1], by rw [g3, p2.glob, g1]⟩
    · intro i hi
      cases i with
      | zero =>
        rw [Nat.add_zero, b3 _ (by omega)]
        exact p2.at_
      | succ i =>
        have := a3 i (by simpa using hi)
        rw [d2, d4] at this
        rw [show act.loc + c.pc + (i + 1) = act.loc + (c.pc + 1) + i by omega, show c.lab + (i + 1) = c.lab + 1 + i by omega]
        exact this
    · intro a ha'
      rw [b3 a (by omega), p2.other a (by omega), m1]

/-- A local function. -/
theorem Ctx.bindF {Z : List Slot} {L : Sym → Option Ident} {fl : List Flet} {cl : Nat} {B : Nat → Option (Nat × Nat)} {sc fs : List Sym} {ρ φ : SEnv} {f : Sym} {cell av lo pc en : Nat}
    (h : Ctx P glo Z L fl cl B sc fs ρ φ) (hf : P.fns f = none) (hb : B 0 = some (av, lo)) :
    Ctx P glo (⟨cell, lo + pc, some en⟩ :: Z) L (⟨f, pc, cl, en⟩ :: fl) cl B sc (f :: fs) ρ ((f, cell) :: φ) := by
  have hz : ∀ s ∈ Z, s ∈ (⟨cell, lo + pc, some en⟩ : Slot) :: Z := fun s hs => by simp [hs]
  have h' := h.slots hz
  refine ⟨h'.var, ?_, ?_, h.free, h'.lv, ?_⟩
  · intro g hg
    by_cases hgf : g = f
    · subst hgf
      exact ⟨⟨g, pc, cl, en⟩, cell, av, lo, by simp [List.find?], Nat.le_refl _, by rw [cellOf_cons, if_pos rfl], by simpa using hb, by simp⟩
    · have hg' : g ∈ fs := by simpa [hgf] using hg
      obtain ⟨l, cell', av', lo', g1, g2, g3, g4, g5⟩ := h'.fn g hg'
      refine ⟨l, cell', av', lo', ?_, g2, by rw [cellOf_cons, if_neg (fun e => hgf e.symm)]; exact g3, g4, g5⟩
      have : (f == g) = false := by simpa using Ne.symm hgf
      simp [List.find?, this, g1]
  · intro g hg
    have hgf : f ≠ g := by rintro rfl; exact hg hf
    obtain ⟨g1, g2⟩ := h.glob g hg
    have : (f == g) = false := by simpa using hgf
    exact ⟨by simp only [List.find?, this]; exact g1, by rw [cellOf_cons, if_neg hgf]; exact g2⟩
  · intro p hp
    simp only [List.mem_cons] at hp
    rcases hp with rfl | hp
    · exact ⟨⟨cell, lo + pc, some en⟩, by simp, rfl⟩
    · exact h'.lf p hp

theorem Ctx.funs {L : Sym → Option Ident} {cl : Nat} {B : Nat → Option (Nat × Nat)} {sc : List Sym} {ρ : SEnv} {av lo : Nat} (hb : B 0 = some (av, lo)) : ∀ {ds : List Def} {Z : List Slot} {fl : List Flet} {fs : List Sym} {φ : SEnv}
    {cell pc en : Nat}, Ctx P glo Z L fl cl B sc fs ρ φ → (∀ d ∈ ds, P.fns d.1 = none) → Ctx P glo (funSlots ds (lo + pc) cell en Z) L (newFlets ds pc cl en fl) cl B sc (extF ds fs) ρ (newEnv ds cell φ)
  | [], _, _, _, _, _, _, _, h, _ => h
  | (f, ps, b) :: ds, Z, fl, fs, φ, cell, pc, en, h, hd => by
    have h1 := h.bindF (cell := cell) (pc := pc) (en := en) (hd (f, ps, b) (by simp)) hb
    have h2 := Ctx.funs hb (ds := ds) (cell := cell + 1) (pc := pc + 1) (en := en + 1) h1 (fun d hd' => hd d (by simp [hd']))
    exact h2

/-- The functions have been made. -/
theorem Rel.funs {Z : List Slot} {S : SState} {T T1 : CState} {ds : List Def} {a en : Nat} {ρ φ φ' : SEnv} {act : Act} (hr : Rel P glo k0 m Z S T) (hbl : Below Z a)
    (h1 : ∀ i, i < ds.length → T1.mem (a + i) = .val (.clo (en + i) act.env act.argv act.loc)) (h2 : ∀ b, b < a → T1.mem b = T.mem b) (h4 : T1.glob = T.glob)
    (hf : ∀ i f ps b, ds[i]? = some (f, ps, b) → FRel P glo k0 m (S.next + ds.length) (funSlots ds a S.next en Z) ps b ρ φ' (en + i) act.env act.argv act.loc) :
    Rel P glo k0 m (funSlots ds a S.next en Z) (sdefine ρ φ' ds S.next (sfuns ρ ds φ S).2) T1 := by
  obtain ⟨a1, a2, a3, a4⟩ := sfuns_state (ρ := ρ) (ds := ds) (φ := φ) (S := S)
  obtain ⟨b1, b2, b3, b4, b5⟩ := sdefine_state (ρ := ρ) (φ := φ') (ds := ds) (l := S.next) (S := (sfuns ρ ds φ S).2)
  have hlt : Later S.next Z (S.next + ds.length) (funSlots ds a S.next en Z) := ⟨by omega, fun s hs hc => by
    rcases mem_funSlots.mp hs with h | ⟨i, _, rfl⟩
    · exact h
    · simp at hc; omega⟩
  refine ⟨?_, ?_, ?_, ?_, ?_⟩
  · intro c
    rw [b3, a3]
    constructor
    · rintro (h | ⟨i, hi, rfl⟩)
      · obtain ⟨s, hs, e⟩ := (hr.live c).mp h
        exact ⟨s, funSlots_sub s hs, e⟩
      · exact ⟨_, mem_funSlots.mpr (.inr ⟨i, hi, rfl⟩), rfl⟩
    · rintro ⟨s, hs, rfl⟩
      rcases mem_funSlots.mp hs with h | ⟨i, hi, rfl⟩
      · exact .inl ((hr.live _).mpr ⟨s, h, rfl⟩)
      · exact .inr ⟨i, hi, rfl⟩
  · intro s hs
    rw [b1, a1]
    rcases mem_funSlots.mp hs with h | ⟨i, hi, rfl⟩
    · have := hr.lt s h; omega
    · simp; omega
  · intro s hs
    rw [b1, a1]
    rcases mem_funSlots.mp hs with h | ⟨i, hi, rfl⟩
    · have hl := hr.lt s h
      rw [b5 _ hl, a4 _ hl, h2 _ (hbl s h)]
      exact (hr.slot s h).later hlt hr.uniq
    · obtain ⟨⟨f, ps, b⟩, hd⟩ : ∃ d, ds[i] = d := ⟨_, rfl⟩
      have he : ds[i]? = some (f, ps, b) := by rw [← hd]; exact List.getElem?_eq_getElem hi
      show SRel P glo k0 m _ _ (some (en + i)) ((sdefine ρ φ' ds S.next (sfuns ρ ds φ S).2).cells (S.next + i)) (T1.mem (a + i))
      rw [b4 i f ps b he, h1 i hi]
      exact .fn (hf i f ps b he)
  · intro x
    rw [b1, a1, b2, a2, h4]
    exact (hr.glob x).later hlt hr.uniq
  · intro s hs s' hs' e
    rcases mem_funSlots.mp hs with h | ⟨i, hi, rfl⟩ <;> rcases mem_funSlots.mp hs' with h' | ⟨j, hj, rfl⟩
    · exact hr.uniq s h s' h' e
    · have := hr.lt s h; have := hbl s h; simp at e; omega
    · have := hr.lt s' h'; have := hbl s' h'; simp at e; omega
    · have : i = j := by simp at e; exact e
      subst this; rfl

/-- Cells above are dropped. -/
theorem Rel.dropF {Z : List Slot} {S S1 S' : SState} {T T1 T' : CState} {ds : List Def} {a en H H1 : Nat} (hr : Rel P glo k0 m Z S T) (hn : S.next ≤ S1.next) (hc1 : ∀ c, c < S.next → S1.cells c = S.cells c) (h2 : ∀ b, b < a → T1.mem b = T.mem b)
    (h3 : T1.sbp = T.sbp) (hH : H ≤ a) (hH1 : H ≤ H1) (hr' : Rel P glo k0 m (funSlots ds a S.next en Z) S' T') (hc : Chg (funSlots ds a S.next en Z) H1 S1 T1 S' T') :
    Rel P glo k0 m Z (sleave P [] S S') T' ∧ Chg Z H S T (sleave P [] S S') T' := by
  have hnext : S.next ≤ S'.next := Nat.le_trans hn hc.next
  have back : Later S'.next (funSlots ds a S.next en Z) S'.next Z := ⟨Nat.le_refl _, fun s hs _ => funSlots_sub s hs⟩
  refine ⟨⟨hr.live, fun s hs => Nat.lt_of_lt_of_le (hr.lt s hs) hnext, fun s hs => (hr'.slot s (funSlots_sub s hs)).later back hr'.uniq, ?_, hr.uniq⟩, ⟨hnext, ?_, hc.sbp.trans h3, ?_⟩⟩
  · intro y
    have : (sleave P [] S S').glob y = S'.glob y := by simp [sleave]
    rw [this]
    exact (hr'.glob y).later back hr'.uniq
  · intro b hb hz
    rw [hc.mem b (by omega), h2 b (by omega)]
    intro s hs
    rcases mem_funSlots.mp hs with h | ⟨i, hi, rfl⟩
    · exact hz s h
    · simp; omega
  · intro s hs he
    show S'.cells s.cell = _
    rw [hc.fn s (funSlots_sub s hs) he]
    exact hc1 _ (hr.lt s hs)

theorem pre_eq {sc : List Sym} {c d : Comp} (hp : Pre P glo sc c) (h1 : d.frames = c.frames) (h2 : d.scope = c.scope) : Pre P glo sc d :=
  ⟨by rw [h1]; exact hp.tab, hp.lex, by intro x hx; unfold look Comp.level; rw [h1, h2]; exact hp.vis x hx, by rw [h1]; exact hp.ne, by unfold Comp.level; rw [h1, h2]; exact hp.lev⟩

theorem agree_eq {sc : List Sym} {c d : Comp} (ha : Agree c sc) (h1 : d.frames = c.frames) (h2 : d.scope = c.scope) : Agree d sc := by
  unfold Agree Comp.level; rw [h1, h2]; exact ha

theorem look_eq {c d : Comp} (h1 : d.frames = c.frames) (h2 : d.scope = c.scope) : look d = look c := by
  funext x; unfold look Comp.level; rw [h1, h2]

/-- A function made here. -/
theorem FRel.here {sc fs : List Sym} {act : Act} {ρ φ : SEnv} {Z : List Slot} {c : Comp} {n en : Nat} {ps : List Sym} {b : List Expr} {fl : List Flet} (hp : Pre P glo sc c) (ha : Agree c sc)
    (ht : TS P.special k0 m.clos ⟨en, ps, b, c.frames, c.scope, c.cl + 1, fl⟩) (hps : okNames P glo ps) (hb : ∀ e ∈ b, CPlain P glo (ext P ps sc) fs e) (hu : used (ext P ps sc) b)
    (hctx : Ctx P glo Z (look c) fl c.cl (base act) sc fs ρ φ) (ho : ∀ p ∈ ρ, p.2 < n) (hof : ∀ p ∈ φ, p.2 < n) : FRel P glo k0 m n Z ps b ρ φ en act.env act.argv act.loc := by
  refine ⟨⟨_, sc, fs, ht, rfl, rfl, rfl, hps, hb, hu, fun lab => ⟨pre_eq hp rfl rfl, agree_eq ha rfl rfl⟩, by simp, ?_⟩, ho, hof⟩
  intro _ _
  have e : (fun d => envBase d (some (.clo en act.env act.argv act.loc))) = base act := by funext d; exact base_envBase act en d
  rw [e]
  exact hctx.look (fun x hx => agree_look hp ha hx)

theorem sim_funs {n k : Nat} (hs : SimE P glo k0 m n) {ds : List Def} {es : List Expr} {c c1 c2 : Comp} {sc fs : List Sym} {F : Code} {act : Act} {rest : List Frame} {w : CVal} {T : CState} {S : SState} {ρ φ φ' : SEnv} {Z : List Slot}
    (hc1 : c1 = compFuns ds c ∨ c1 = (compFuns ds c).changeFlets c.tasks.length) (h : compProgn (comp P.special k).1 es c1 = some c2) (hpu : c.push = none) (hd : ∀ d ∈ ds, P.fns d.1 = none)
    (hq : ∀ e ∈ es, CPlain P glo sc (extF ds fs) e) (hu : used sc es) (ha : Agree c sc) (hat : At P glo k0 m sc fs act ρ φ Z S T c) (hfu : Fut P k0 m F ((c2.setFlets c.flets).delFrame 0 ds.length))
    (hf : (∀ t ∈ c1.tasks, TS P.special k0 m.clos t) → Ctx P glo (funSlots ds (act.loc + c.pc) S.next c.lab Z) (look c) (newFlets ds c.pc c.cl c.lab c.flets) c.cl (base act) sc (extF ds fs) ρ (newEnv ds S.next φ) → ∀ i f ps b, ds[i]? = some (f, ps, b) →
      FRel P glo k0 m (S.next + ds.length) (funSlots ds (act.loc + c.pc) S.next c.lab Z) ps b ρ φ' (c.lab + i) act.env act.argv act.loc) :
    Out P glo k0 m (act.loc + c.pc) (conf F act rest c.code.length w T) F act rest Z S T ((c2.setFlets c.flets).delFrame 0 ds.length) False
      ((prognFrom (seval true P n ρ (newEnv ds S.next φ)) .nil es (sdefine ρ φ' ds S.next (sfuns ρ ds φ S).2)).bind fun v s' => .ok v (sleave P [] S s')) := by
  have st := (st_both (P := P) (glo := glo) k).1
  have hp := hat.pre
  obtain ⟨f1, f2, f3, f4, f5, f6⟩ := st_funs ds c
  obtain ⟨g1, g2, g3, _⟩ := funs_comp ds hpu
  have e1 : Ext c.lab c c1 := by
    rcases hc1 with rfl | rfl
    · exact f1
    · exact changeFlets_ext f1
  have fr1 : c1.frames = c.frames := by rcases hc1 with rfl | rfl <;> exact f2
  have sc1 : c1.scope = c.scope := by rcases hc1 with rfl | rfl <;> exact f3
  have cl1 : c1.cl = c.cl := by rcases hc1 with rfl | rfl <;> exact f4
  have pu1 : c1.push = none := by rcases hc1 with rfl | rfl <;> exact g1
  have pc1 : c1.pc = c.pc + ds.length := by rcases hc1 with rfl | rfl <;> exact g2
  have fl1 : c1.flets = newFlets ds c.pc c.cl c.lab c.flets := by rcases hc1 with rfl | rfl <;> exact g3
  have code1 : c1.code = (compFuns ds c).code := by rcases hc1 with rfl | rfl <;> rfl
  have pf : Pre P glo sc c1 := pre_eq hp fr1 sc1
  have af : Agree c1 sc := agree_eq ha fr1 sc1
  have p1 := st_progn st es h hq pf (.inr af)
  have od := op_delFrame [] 0 ds.length (c2.setFlets c.flets)
  have fu2 : Fut P k0 m F c2 := ⟨od.prefix.trans hfu.px, fun t ht => hfu.tasks t (by rw [od.tasks]; exact ht)⟩
  have fu1 := fu2.ext p1.ext
  have hbl : Below Z (act.loc + c.pc) := by have := hat.below; rwa [ht_none hpu] at this
  obtain ⟨T1, r1, m1, m2, m3, m4⟩ := funs_run (m := m) (act := act) (rest := rest) ds (w := w) (T := T) hpu (by rw [← code1]; exact fu1.px)
  have ctx1 := hat.ctx.funs (P := P) (glo := glo) (av := act.argv) (lo := act.loc) (ds := ds) (cell := S.next) (pc := c.pc) (en := c.lab) rfl hd
  have rel1 := hat.rel.funs (φ := φ) hbl m1 m2 m4 (hf fu1.tasks ctx1)
  obtain ⟨a1, a2, a3, a4⟩ := sfuns_state (ρ := ρ) (ds := ds) (φ := φ) (S := S)
  obtain ⟨b1, b2, b3, b4, b5⟩ := sdefine_state (ρ := ρ) (φ := φ') (ds := ds) (l := S.next) (S := (sfuns ρ ds φ S).2)
  have at1 : At P glo k0 m sc (extF ds fs) act ρ (newEnv ds S.next φ) (funSlots ds (act.loc + c.pc) S.next c.lab Z) (sdefine ρ φ' ds S.next (sfuns ρ ds φ S).2) T1 c1 := by
    refine ⟨pf, wf_ext e1 hat.wf, by rw [fl1, cl1, look_eq fr1 sc1]; exact ctx1, rel1, ?_⟩
    rw [ht_none pu1, pc1]
    intro s hs
    rcases mem_funSlots.mp hs with h | ⟨i, hi, rfl⟩
    · have := hbl s h; omega
    · simp; omega
  have o := sim_progn hs es (w := w) (rest := rest) .nil h pu1 hq hu (.inr af) at1 fu2 (fun _ => rfl)
  rw [code1] at o
  have back : ∀ S' T', Rel P glo k0 m (funSlots ds (act.loc + c.pc) S.next c.lab Z) S' T' → Chg (funSlots ds (act.loc + c.pc) S.next c.lab Z) (act.loc + c1.pc) (sdefine ρ φ' ds S.next (sfuns ρ ds φ S).2) T1 S' T' →
      Rel P glo k0 m Z (sleave P [] S S') T' ∧ Chg Z (act.loc + c.pc) S T (sleave P [] S S') T' := by
    intro S' T' hr' hc'
    refine hat.rel.dropF (S1 := sdefine ρ φ' ds S.next (sfuns ρ ds φ S).2) (by rw [b1, a1]; omega) (fun x hx => by rw [b5 x hx, a4 x hx]) m2 m3 (Nat.le_refl _) (by rw [pc1]; omega) hr' hc'
  cases hr : prognFrom (seval true P n ρ (newEnv ds S.next φ)) .nil es (sdefine ρ φ' ds S.next (sfuns ρ ds φ S).2) with
  | ok v S' =>
    rw [hr] at o
    obtain ⟨w', T', v', q1, t1, v1, rel2, ch2⟩ := o
    have ep : (c2.setFlets c.flets).popx.1 = c2.popx.1 := by unfold Comp.popx; cases h : c2.push <;> simp [Comp.setFlets, h]
    have t1' : Top m act w' T' (c2.setFlets c.flets) v' := by unfold Top; rw [ep]; exact t1
    obtain ⟨q2, t2⟩ := run_delFrame (m := m) (act := act) (rest := rest) (c := c2.setFlets c.flets) (w := w') (v := v') (T := T') hfu.px t1'
    obtain ⟨rel3, ch3⟩ := back S' T' rel2 ch2
    refine ⟨v', T', v', r1.trans (q1.trans q2), t2, ?_, rel3, ch3⟩
    exact v1.later ⟨Nat.le_refl _, fun s hs _ => funSlots_sub s hs⟩ rel2.uniq
  | err =>
    rw [hr] at o
    rcases o with o | ⟨_, w', T', q1, t1⟩
    · exact .inl (r1.trans o)
    · refine .inl (r1.trans (q1.trans ?_))
      have := hfu.px
      rw [delFrame_code] at this
      have ep : (c2.setFlets c.flets).popx.1 = c2.popx.1 := by unfold Comp.popx; cases h : c2.push <;> simp [Comp.setFlets, h]
      exact run_store_err (c := c2.setFlets c.flets) (d := .w) this (by simp [Dst.cx, evalX]) (by unfold TopErr; rw [ep]; exact t1)
  | _ => trivial

theorem extF_mem {g : Sym} : ∀ {ds : List Def} {fs : List Sym}, g ∈ extF ds fs ↔ g ∈ ds.map Prod.fst ∨ g ∈ fs
  | [], fs => by simp [extF]
  | (f, _, _) :: ds, fs => by
    simp only [extF]
    rw [extF_mem]
    simp only [List.mem_cons, List.map_cons]
    constructor
    · rintro (h | h | h)
      · exact .inl (.inr h)
      · exact .inl (.inl h)
      · exact .inr h
    · rintro ((h | h) | h)
      · exact .inr (.inl h)
      · exact .inl h
      · exact .inr (.inr h)

theorem sim_flet {n k : Nat} (hs : SimE P glo k0 m n) {ds : List Def} {es : List Expr} {c c' : Comp} {sc fs : List Sym} {F : Code} {act : Act} {rest : List Frame} {w : CVal} {T : CState} {S : SState} {ρ φ : SEnv} {Z : List Slot}
    (h : compF P.special (comp P.special k).1 (comp P.special k).2 (.flet ds es) c = some c') (hpu : c.push = none) (hq : CPlain P glo sc fs (.flet ds es)) (ha : Agree c sc) (hat : At P glo k0 m sc fs act ρ φ Z S T c) (hfu : Fut P k0 m F c') :
    Out P glo k0 m (act.loc + c.pc) (conf F act rest c.code.length w T) F act rest Z S T c' False (sevalF true P (seval true P n) ρ φ (.flet ds es) S) := by
  cases hq with
  | flet hd hqd hq hu =>
    simp only [compF, Option.bind_eq_some_iff, Option.some.injEq] at h
    obtain ⟨c2, h1, rfl⟩ := h
    simp only [sevalF, sfuns_env]
    refine sim_funs hs (.inl rfl) h1 hpu (fun d hd' => (hd d hd').1) hq hu ha hat hfu ?_
    intro hts _ i f ps b hi
    obtain ⟨_, _, _, ts, e1, e2⟩ := funs_comp ds hpu
    obtain ⟨fl, g1, g2⟩ := e2 i f ps b hi
    have hmem : (f, ps, b) ∈ ds := List.mem_of_getElem? hi
    have hx : Ctx P glo (funSlots ds (act.loc + c.pc) S.next c.lab Z) (look c) fl c.cl (base act) sc (fs.filter (fun f => !(ds.map Prod.fst).contains f)) ρ φ := by
      have h0 := hat.ctx.slots (Z' := funSlots ds (act.loc + c.pc) S.next c.lab Z) funSlots_sub
      refine ⟨h0.var, ?_, ?_, h0.free, h0.lv, h0.lf⟩
      · intro g hg
        simp only [List.mem_filter, Bool.not_eq_true', List.contains_eq_mem, decide_eq_false_iff_not] at hg
        obtain ⟨l, cell, av, lo, k1, k2⟩ := h0.fn g hg.1
        exact ⟨l, cell, av, lo, by rw [g2 g hg.2]; exact k1, k2⟩
      · intro g hg
        obtain ⟨k1, k2⟩ := h0.glob g hg
        refine ⟨?_, k2⟩
        rw [g2 g (fun hm => by obtain ⟨d, hd', rfl⟩ := List.mem_map.mp hm; exact hg (hd d hd').1)]
        exact k1
    refine FRel.here hat.pre ha (hts _ (by rw [e1]; simp [g1])) (hd _ hmem).2.1 (hqd _ hmem) (hd _ hmem).2.2 hx ?_ ?_
    · intro p hp; have := hat.rel.old hat.ctx.lv p hp; omega
    · intro p hp; have := hat.rel.old hat.ctx.lf p hp; omega

theorem old_newEnv : ∀ {ds : List Def} {l N : Nat} {φ : SEnv}, (∀ p ∈ φ, p.2 < l) → l + ds.length ≤ N → ∀ p ∈ newEnv ds l φ, p.2 < N
  | [], l, N, φ, h, hN, p, hp => by have := h p hp; simp at hN; omega
  | d :: ds, l, N, φ, h, hN, p, hp => by
    refine old_newEnv (ds := ds) (l := l + 1) (φ := (d.1, l) :: φ) ?_ (by simp at hN; omega) p hp
    intro q hq
    simp only [List.mem_cons] at hq
    rcases hq with rfl | hq
    · simp
    · have := h q hq; omega

theorem sim_labels {n k : Nat} (hs : SimE P glo k0 m n) {ds : List Def} {es : List Expr} {c c' : Comp} {sc fs : List Sym} {F : Code} {act : Act} {rest : List Frame} {w : CVal} {T : CState} {S : SState} {ρ φ : SEnv} {Z : List Slot}
    (h : compF P.special (comp P.special k).1 (comp P.special k).2 (.labels ds es) c = some c') (hpu : c.push = none) (hq : CPlain P glo sc fs (.labels ds es)) (ha : Agree c sc) (hat : At P glo k0 m sc fs act ρ φ Z S T c) (hfu : Fut P k0 m F c') :
    Out P glo k0 m (act.loc + c.pc) (conf F act rest c.code.length w T) F act rest Z S T c' False (sevalF true P (seval true P n) ρ φ (.labels ds es) S) := by
  cases hq with
  | labels hd hqd hq hu =>
    simp only [compF, Option.bind_eq_some_iff, Option.some.injEq] at h
    obtain ⟨c2, h1, rfl⟩ := h
    simp only [sevalF, sfuns_env]
    refine sim_funs hs (.inr rfl) h1 hpu (fun d hd' => (hd d hd').1) hq hu ha hat hfu ?_
    intro hts hctx i f ps b hi
    obtain ⟨_, _, g3, ts, e1, e2⟩ := funs_comp ds hpu
    obtain ⟨fl, g1, g2⟩ := e2 i f ps b hi
    have hmem : (f, ps, b) ∈ ds := List.mem_of_getElem? hi
    refine FRel.here hat.pre ha (fl := newFlets ds c.pc c.cl c.lab c.flets) (hts _ ?_) (hd _ hmem).2.1 (hqd _ hmem) (hd _ hmem).2.2 hctx ?_ ?_
    · show _ ∈ (compFuns ds c).tasks.take c.tasks.length ++ ((compFuns ds c).tasks.drop c.tasks.length).map (fun t => { t with flets := (compFuns ds c).flets })
      rw [e1, g3]
      simp only [List.drop_left, List.mem_append]
      right
      exact List.mem_map.mpr ⟨_, g1, rfl⟩
    · intro p hp; have := hat.rel.old hat.ctx.lv p hp; omega
    · exact old_newEnv (hat.rel.old hat.ctx.lf) (Nat.le_refl _)

end Eus.Cmp
