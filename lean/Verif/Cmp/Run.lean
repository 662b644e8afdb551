import Verif.Cmp.Ops
set_option autoImplicit false
/-
What the code written by the translator's methods does.
-/
namespace Eus.Cmp
open Eus.Lex (Sym Expr)
open Comp

/-- What the machine runs with. -/
structure Mach where
  fns : Sym → Option Code
  clos : Nat → Option Code
  builtin : Nat → List (Option Int) → Option (Option Int)

def Mach.isfn (m : Mach) (g : Sym) : Bool := (m.fns g).isSome

def Reach (m : Mach) (a b : Config) : Prop := ∃ d, stepN m.fns m.clos m.builtin d a = b

theorem stepN_add (fns : Sym → Option Code) (clos : Nat → Option Code) (bi : Nat → List (Option Int) → Option (Option Int)) : ∀ (a b : Nat) (c : Config), stepN fns clos bi (a + b) c = stepN fns clos bi b (stepN fns clos bi a c)
  | 0, b, c => by simp [stepN]
  | a + 1, b, c => by rw [Nat.succ_add]; simp only [stepN]; exact stepN_add fns clos bi a b _

def CVal.isNil : CVal → Bool
  | .nil => true
  | _ => false

theorem Reach.refl (m : Mach) (a : Config) : Reach m a a := ⟨0, rfl⟩
theorem Reach.trans {m : Mach} {a b c : Config} (h : Reach m a b) (h' : Reach m b c) : Reach m a c := by
  obtain ⟨d, rfl⟩ := h
  obtain ⟨e, rfl⟩ := h'
  exact ⟨d + e, stepN_add _ _ _ d e a⟩
theorem Reach.one {m : Mach} {a b : Config} (h : step m.fns m.clos m.builtin a = b) : Reach m a b := ⟨1, h⟩

/-- A function at a place of its code. -/
def conf (F : Code) (act : Act) (rest : List Frame) (p : Nat) (w : CVal) (T : CState) : Config := .run (⟨F, act, p, w⟩ :: rest) T

theorem conf_step {m : Mach} {F : Code} {act : Act} {rest : List Frame} {w : CVal} {T : CState} {pre : Code} {i : Instr} {b : Config} (hF : (pre ++ [i]) <+: F)
    (h : stepI m.fns m.clos m.builtin ⟨F, act, pre.length, w⟩ rest T i = b) : Reach m (conf F act rest pre.length w T) b := by
  obtain ⟨t, rfl⟩ := hF
  apply Reach.one
  have : (pre ++ [i] ++ t)[pre.length]? = some i := by simp
  simp only [conf, step, this]
  exact h

theorem labelAt_prefix {l : Nat} : ∀ {pre F : Code}, (pre ++ [.label l]) <+: F → Instr.label l ∉ pre → labelAt l F = some pre.length
  | [], F, h, _ => by obtain ⟨t, rfl⟩ := h; simp [labelAt]
  | i :: pre, F, h, hn => by
    obtain ⟨t, rfl⟩ := h
    simp only [List.mem_cons, not_or] at hn
    simp only [List.cons_append, labelAt]
    rw [if_neg (fun e => hn.1 e.symm), labelAt_prefix (pre := pre) ⟨t, rfl⟩ hn.2]
    simp

/-! ### The value on top of the stack -/

/-- The value last pushed. -/
def Top (m : Mach) (act : Act) (w : CVal) (T : CState) (c : Comp) (v : CVal) : Prop := evalX m.isfn act w T c.popx.1 = .ok v

/-- Reading it is an error. -/
def TopErr (m : Mach) (act : Act) (w : CVal) (T : CState) (c : Comp) : Prop := evalX m.isfn act w T c.popx.1 = .err

/-- A value is stored. -/
structure Put (T T' : CState) (a : Nat) (v : CVal) : Prop where
  at_ : T'.mem a = .val v
  other : ∀ b, b ≠ a → T'.mem b = T.mem b
  sbp : T'.sbp = T.sbp
  glob : T'.glob = T.glob

theorem put_write (T : CState) (a : Nat) (v : CVal) : Put T (T.write a (.val v)) a v := ⟨by simp [CState.write], fun b hb => by simp [CState.write, hb], rfl, rfl⟩
theorem put_same {T : CState} {a : Nat} {v : CVal} (h : T.mem a = .val v) : Put T T a v := ⟨h, fun _ _ => rfl, rfl, rfl⟩

theorem readW_ok {T : CState} {a : Nat} {v : CVal} (h : readW T a = .ok v) : T.mem a = .val v := by
  unfold readW at h
  split at h
  next h' => cases h; exact h'
  · cases h

theorem readW_err {T : CState} {a : Nat} : readW T a ≠ .err := by
  unfold readW; split <;> simp

section
variable {m : Mach} {F : Code} {act : Act} {rest : List Frame}

theorem Op.prefix {ls : List Nat} {c c' : Comp} (h : Op ls c c') : c.code <+: c'.code := by
  obtain ⟨n, e, _⟩ := h.code; rw [e]; exact List.prefix_append _ _

theorem clear_self {c : Comp} (h : c.push = none) : c.clear = c := by unfold clear; rw [h]

theorem run_clear {c : Comp} {w v : CVal} {T : CState} (hF : c.clear.code <+: F) (ht : Top m act w T c v) :
    ∃ T', Reach m (conf F act rest c.code.length w T) (conf F act rest c.clear.code.length w T') ∧ Put T T' (act.loc + (Cmp.ht c - 1)) v := by
  unfold Top popx at ht
  unfold clear at hF ⊢
  cases hp : c.push with
  | none =>
    rw [hp] at ht
    exact ⟨T, Reach.refl _ _, put_same (by rw [ht_none hp]; exact readW_ok ht)⟩
  | some x =>
    rw [hp] at ht hF
    simp only at ht hF ⊢
    refine ⟨T.write (act.loc + c.pc) (.val v), ?_, ?_⟩
    · refine conf_step hF ?_
      have : evalX (fun g => (m.fns g).isSome) act w T x = .ok v := ht
      simp [stepI, this, base, conf]
    · have : Cmp.ht c - 1 = c.pc := by simp [Cmp.ht, hp]
      rw [this]; exact put_write _ _ _

theorem run_clear_err {c : Comp} {w : CVal} {T : CState} (hF : c.clear.code <+: F) (ht : TopErr m act w T c) : Reach m (conf F act rest c.code.length w T) .err := by
  unfold TopErr popx at ht
  unfold clear at hF
  cases hp : c.push with
  | none => rw [hp] at ht; exact absurd ht readW_err
  | some x =>
    rw [hp] at ht hF
    refine conf_step hF ?_
    have : evalX (fun g => (m.fns g).isSome) act w T x = .err := ht
    simp [stepI, this]

theorem clear_top {c : Comp} {w v : CVal} {T : CState} (h : T.mem (act.loc + (Cmp.ht c - 1)) = .val v) : Top m act w T c.clear v := by
  unfold Top popx
  rw [clear_push]
  simp only [evalX, base, clear_pc, readW, h]

theorem run_store_w {c : Comp} {w v : CVal} {T : CState} (hF : (c.store .w).code <+: F) (ht : Top m act w T c v) :
    Reach m (conf F act rest c.code.length w T) (conf F act rest (c.store .w).code.length v T) := by
  unfold Top at ht
  unfold store at hF ⊢
  split
  next hp =>
    unfold popx at ht
    rw [hp] at ht
    cases ht
    exact Reach.refl _ _
  next hp =>
    rw [if_neg hp] at hF
    have e : c.popx.2.code = c.code := by unfold popx; split <;> rfl
    simp only [emit, e] at hF ⊢
    refine conf_step hF ?_
    have : evalX (fun g => (m.fns g).isSome) act w T c.popx.1 = .ok v := ht
    simp [stepI, this, conf]

theorem run_store_err {c : Comp} {w : CVal} {T : CState} {d : Dst} (hF : (c.store d).code <+: F) (hd : evalX m.isfn act w T d.cx ≠ .err) (ht : TopErr m act w T c) :
    Reach m (conf F act rest c.code.length w T) .err := by
  unfold TopErr at ht
  unfold store at hF
  split at hF
  next hp =>
    unfold popx at ht
    rw [hp] at ht
    exact absurd ht hd
  next hp =>
    have e : c.popx.2.code = c.code := by unfold popx; split <;> rfl
    simp only [emit, e] at hF
    refine conf_step hF ?_
    have : evalX (fun g => (m.fns g).isSome) act w T c.popx.1 = .err := ht
    simp [stepI, this]

theorem popx_code (c : Comp) : c.popx.2.code = c.code := by unfold popx; split <;> rfl

/-- Storing into a variable. -/
theorem run_store_var {c : Comp} {w v : CVal} {T : CState} {d : Dst} {k off av lo a : Nat} (hd : (d = .loc k off ∧ a = lo + off) ∨ (d = .arg k off ∧ a = av + off)) (hb : base act k = some (av, lo))
    (hF : (c.store d).code <+: F) (ht : Top m act w T c v) :
    ∃ T', Reach m (conf F act rest c.code.length w T) (conf F act rest (c.store d).code.length w T') ∧ Put T T' a v := by
  unfold Top at ht
  unfold store at hF ⊢
  split
  next hp =>
    unfold popx at ht
    rw [hp] at ht
    refine ⟨T, Reach.refl _ _, put_same ?_⟩
    rcases hd with ⟨rfl, rfl⟩ | ⟨rfl, rfl⟩ <;> simp only [Dst.cx, evalX, hb] at ht <;> exact readW_ok ht
  next hp =>
    rw [if_neg hp] at hF
    simp only [emit, popx_code] at hF ⊢
    refine ⟨T.write a (.val v), conf_step hF ?_, put_write _ _ _⟩
    have : evalX (fun g => (m.fns g).isSome) act w T c.popx.1 = .ok v := ht
    rcases hd with ⟨rfl, rfl⟩ | ⟨rfl, rfl⟩ <;> simp [stepI, this, hb, conf]

theorem run_dupe {c : Comp} {w v : CVal} {T : CState} (hF : c.dupe.code <+: F) (ht : Top m act w T c v) :
    ∃ T', Reach m (conf F act rest c.code.length w T) (conf F act rest c.dupe.code.length w T') ∧ Put T T' (act.loc + (Cmp.ht c - 1)) v ∧ Top m act w T' c.dupe v := by
  unfold dupe at hF ⊢
  split
  next hp =>
    rw [if_pos hp] at hF
    obtain ⟨T', r, p⟩ := run_clear (rest := rest) (show c.clear.code <+: F from hF) ht
    refine ⟨T', r, p, ?_⟩
    unfold Top popx at ht
    rw [hp] at ht
    exact ht
  next hp =>
    rw [if_neg hp] at hF
    have e : (c.clear.pushx (.loc 0 (c.clear.pc - 1))).code = c.clear.code := by
      show c.clear.clear.code = _
      rw [show c.clear.clear = c.clear from clear_self (clear_push c)]
    rw [e] at hF ⊢
    obtain ⟨T', r, p⟩ := run_clear (rest := rest) hF ht
    refine ⟨T', r, p, ?_⟩
    unfold Top
    simp only [popx, pushx_push, evalX, base, clear_pc, readW, p.at_]

theorem run_ifNil {c : Comp} {w v : CVal} {T : CState} {l p : Nat} (hF : (c.ifNil l).code <+: F) (hl : labelAt l F = some p) (ht : Top m act w T c v) :
    Reach m (conf F act rest c.code.length w T) (conf F act rest (if v.isNil then p else (c.ifNil l).code.length) w T) := by
  unfold Top at ht
  simp only [ifNil, emit, popx_code] at hF ⊢
  refine conf_step hF ?_
  have : evalX (fun g => (m.fns g).isSome) act w T c.popx.1 = .ok v := ht
  cases v <;> simp [stepI, this, hl, conf, CVal.isNil]

theorem run_ifT {c : Comp} {w v : CVal} {T : CState} {l p : Nat} (hF : (c.ifT l).code <+: F) (hl : labelAt l F = some p) (ht : Top m act w T c v) :
    Reach m (conf F act rest c.code.length w T) (conf F act rest (if v.isNil then (c.ifT l).code.length else p) w T) := by
  unfold Top at ht
  simp only [ifT, emit, popx_code] at hF ⊢
  refine conf_step hF ?_
  have : evalX (fun g => (m.fns g).isSome) act w T c.popx.1 = .ok v := ht
  cases v <;> simp [stepI, this, hl, conf, CVal.isNil]

theorem run_ifNil_err {c : Comp} {w : CVal} {T : CState} {l : Nat} (hF : (c.ifNil l).code <+: F) (ht : TopErr m act w T c) : Reach m (conf F act rest c.code.length w T) .err := by
  unfold TopErr at ht
  simp only [ifNil, emit, popx_code] at hF
  refine conf_step hF ?_
  have : evalX (fun g => (m.fns g).isSome) act w T c.popx.1 = .err := ht
  simp [stepI, this]

theorem run_ifT_err {c : Comp} {w : CVal} {T : CState} {l : Nat} (hF : (c.ifT l).code <+: F) (ht : TopErr m act w T c) : Reach m (conf F act rest c.code.length w T) .err := by
  unfold TopErr at ht
  simp only [ifT, emit, popx_code] at hF
  refine conf_step hF ?_
  have : evalX (fun g => (m.fns g).isSome) act w T c.popx.1 = .err := ht
  simp [stepI, this]

/-- A label is passed. -/
theorem run_emit_label {c : Comp} {w : CVal} {T : CState} {l : Nat} (hF : (c.emit (.label l)).code <+: F) :
    Reach m (conf F act rest c.code.length w T) (conf F act rest (c.emit (.label l)).code.length w T) := by
  refine conf_step (pre := c.code) hF ?_
  simp [stepI, conf, emit]

theorem run_emit_goto {c : Comp} {w : CVal} {T : CState} {l p : Nat} (hF : (c.emit (.goto l)).code <+: F) (hl : labelAt l F = some p) :
    Reach m (conf F act rest c.code.length w T) (conf F act rest p w T) := by
  refine conf_step (pre := c.code) hF ?_
  simp [stepI, hl, conf]

theorem run_label {c : Comp} {w v : CVal} {T : CState} {l : Nat} (hF : (c.label l).code <+: F) (ht : Top m act w T c v) :
    ∃ T', Reach m (conf F act rest c.code.length w T) (conf F act rest (c.label l).code.length w T') ∧ Put T T' (act.loc + (Cmp.ht c - 1)) v := by
  obtain ⟨T', r, p⟩ := run_clear (rest := rest) ((List.prefix_append _ _).trans hF) ht
  exact ⟨T', r.trans (run_emit_label hF), p⟩

theorem run_label_err {c : Comp} {w : CVal} {T : CState} {l : Nat} (hF : (c.label l).code <+: F) (ht : TopErr m act w T c) : Reach m (conf F act rest c.code.length w T) .err :=
  run_clear_err ((List.prefix_append _ _).trans hF) ht

theorem run_jump {c : Comp} {w v : CVal} {T : CState} {l p : Nat} (hF : (c.jump l).code <+: F) (hl : labelAt l F = some p) (ht : Top m act w T c v) :
    ∃ T', Reach m (conf F act rest c.code.length w T) (conf F act rest p w T') ∧ Put T T' (act.loc + (Cmp.ht c - 1)) v := by
  obtain ⟨T', r, q⟩ := run_clear (rest := rest) ((List.prefix_append _ _).trans hF) ht
  exact ⟨T', r.trans (run_emit_goto hF hl), q⟩

/-! The same without a value. -/

theorem run_label0 {c : Comp} {w : CVal} {T : CState} {l : Nat} (hp : c.push = none) (hF : (c.label l).code <+: F) :
    Reach m (conf F act rest c.code.length w T) (conf F act rest (c.label l).code.length w T) := by
  unfold label at hF ⊢; rw [clear_self hp] at hF ⊢; exact run_emit_label hF

theorem run_jump0 {c : Comp} {w : CVal} {T : CState} {l p : Nat} (hp : c.push = none) (hF : (c.jump l).code <+: F) (hl : labelAt l F = some p) :
    Reach m (conf F act rest c.code.length w T) (conf F act rest p w T) := by
  unfold jump at hF; rw [clear_self hp] at hF; exact run_emit_goto hF hl

theorem run_vsp {c : Comp} {w : CVal} {T : CState} (hF : c.resetVsp.code <+: F) :
    Reach m (conf F act rest c.code.length w T) (conf F act rest c.resetVsp.code.length w { T with vsp := act.loc + c.pc }) := by
  refine conf_step (pre := c.code) hF ?_
  simp [stepI, conf, emit, resetVsp]

end

end Eus.Cmp
