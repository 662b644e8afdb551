import Verif.Cmp.StMain
import Verif.Cmp.Run
set_option autoImplicit false
/-
How the machine's state represents the specification's.
-/
namespace Eus.Cmp
open Eus.Lex
open Comp (search assq)

/-- The cell of a variable or (en) of a local function, and the word of the stack it is in. -/
structure Slot where
  cell : Nat
  addr : Nat
  en : Option Nat

/-- The compiler at the start of a function. -/
def Task.comp (t : Task) (lab : Nat) : Comp := ⟨none, 0, [], lab, t.frames, t.scope, t.cl, t.flets, [], []⟩

/-- The functions made in compiled code have been compiled. -/
inductive TS (sp : Sym → Bool) (k : Nat) (clos : Nat → Option Code) : Task → Prop
  | mk {t : Task} {lab : Nat} {r : Code × List Task × Nat} : compileTask sp k lab t = some r → clos t.entry = some r.1 → (∀ t' ∈ r.2.1, TS sp k clos t') → TS sp k clos t

def Live (Z : List Slot) (ρ : SEnv) : Prop := ∀ p ∈ ρ, ∃ s ∈ Z, s.cell = p.2

/-- The environments ρ, φ of the specification and where compiled code looks for the names. -/
structure Ctx (P : Prog) (glo : Sym → Bool) (Z : List Slot) (L : Sym → Option Ident) (fl : List Flet) (cl : Nat) (B : Nat → Option (Nat × Nat)) (sc fs : List Sym) (ρ φ : SEnv) : Prop where
  var : ∀ x ∈ sc, ∃ i cell av lo, L x = some i ∧ i.level ≤ cl ∧ cellOf x ρ = some cell ∧ B (cl - i.level) = some (av, lo) ∧
    ((i.bnd = .loc ∧ Slot.mk cell (lo + i.off) none ∈ Z) ∨ (i.bnd = .arg ∧ Slot.mk cell (av + i.off) none ∈ Z))
  fn : ∀ f ∈ fs, ∃ l cell av lo, fl.find? (fun l => l.name == f) = some l ∧ l.level ≤ cl ∧ cellOf f φ = some cell ∧ B (cl - l.level) = some (av, lo) ∧ Slot.mk cell (lo + l.off) (some l.entry) ∈ Z
  glob : ∀ f, P.fns f ≠ none → fl.find? (fun l => l.name == f) = none ∧ cellOf f φ = none
  free : ∀ x, P.special x = false → glo x = true → cellOf x ρ = none
  lv : Live Z ρ
  lf : Live Z φ

variable (P : Prog) (glo : Sym → Bool) (k0 : Nat) (m : Mach)

/-- A function of the specification and a closure: next is the next cell. -/
structure FRel (next : Nat) (Z : List Slot) (ps : List Sym) (b : List Expr) (ρ φ : SEnv) (en : Nat) (env : Option CVal) (av lo : Nat) : Prop where
  ex : ∃ (t : Task) (sc fs : List Sym), TS P.special k0 m.clos t ∧ t.entry = en ∧ t.ps = ps ∧ t.body = b ∧ okNames P glo ps ∧ (∀ e ∈ b, CPlain P glo (ext P ps sc) fs e) ∧ used (ext P ps sc) b ∧
    (∀ lab, Pre P glo sc (t.comp lab) ∧ Agree (t.comp lab) sc) ∧ 1 ≤ t.cl ∧
    (Live Z ρ → Live Z φ → Ctx P glo Z (fun x => search x t.frames) t.flets (t.cl - 1) (fun d => envBase d (some (.clo en env av lo))) sc fs ρ φ)
  old : ∀ p ∈ ρ, p.2 < next
  oldf : ∀ p ∈ φ, p.2 < next

inductive VRel (next : Nat) (Z : List Slot) : SVal → CVal → Prop
  | nil : VRel next Z .nil .nil
  | t : VRel next Z .t .t
  | int (n : Int) : VRel next Z (.int n) (.int n)
  | clo {ps b ρ φ en env av lo} : FRel P glo k0 m next Z ps b ρ φ en env av lo → VRel next Z (.clo ps b ρ φ) (.clo en env av lo)
  | code {ps b f} : P.fns f = some (ps, b) → VRel next Z (.clo ps b [] []) (.code f)

inductive ORel (next : Nat) (Z : List Slot) : Option SVal → Option CVal → Prop
  | none : ORel next Z none none
  | some {v v'} : VRel P glo k0 m next Z v v' → ORel next Z (some v) (some v')

/-- A cell and a word of the stack. -/
inductive SRel (next : Nat) (Z : List Slot) : Option Nat → Cell → Word → Prop
  | var {v v'} : VRel P glo k0 m next Z v v' → SRel next Z none (.var v) (.val v')
  | fn {ps b ρ φ en env av lo} : FRel P glo k0 m next Z ps b ρ φ en env av lo → SRel next Z (some en) (.fn ps b ρ φ) (.val (.clo en env av lo))

structure Rel (Z : List Slot) (S : SState) (T : CState) : Prop where
  live : ∀ c, c ∈ S.live ↔ ∃ s ∈ Z, s.cell = c
  lt : ∀ s ∈ Z, s.cell < S.next
  slot : ∀ s ∈ Z, SRel P glo k0 m S.next Z s.en (S.cells s.cell) (T.mem s.addr)
  glob : ∀ x, ORel P glo k0 m S.next Z (S.glob x) (T.glob x)
  uniq : ∀ s ∈ Z, ∀ s' ∈ Z, s.cell = s'.cell ∨ s.addr = s'.addr → s = s'

/-- What evaluation leaves as it was: the stack below H but for variables. -/
structure Chg (Z : List Slot) (H : Nat) (S : SState) (T : CState) (S' : SState) (T' : CState) : Prop where
  next : S.next ≤ S'.next
  mem : ∀ a, a < H → (∀ s ∈ Z, s.addr ≠ a) → T'.mem a = T.mem a
  sbp : T'.sbp = T.sbp
  fn : ∀ s ∈ Z, s.en ≠ none → S'.cells s.cell = S.cells s.cell

def Below (Z : List Slot) (H : Nat) : Prop := ∀ s ∈ Z, s.addr < H

variable {P glo k0 m}

theorem Chg.refl (Z : List Slot) (H : Nat) (S : SState) (T : CState) : Chg Z H S T S T := ⟨Nat.le_refl _, fun _ _ _ => rfl, rfl, fun _ _ _ => rfl⟩

theorem Chg.trans {Z : List Slot} {H H' : Nat} {S S1 S2 : SState} {T T1 T2 : CState} (h : Chg Z H S T S1 T1) (h' : Chg Z H' S1 T1 S2 T2) (hH : H ≤ H') : Chg Z H S T S2 T2 :=
  ⟨Nat.le_trans h.next h'.next, fun a ha hs => (h'.mem a (by omega) hs).trans (h.mem a ha hs), h'.sbp.trans h.sbp, fun s hs he => (h'.fn s hs he).trans (h.fn s hs he)⟩

theorem Below.mono {Z : List Slot} {H H' : Nat} (h : Below Z H) (hh : H ≤ H') : Below Z H' := fun s hs => Nat.lt_of_lt_of_le (h s hs) hh

/-- Storing above the variables. -/
theorem Put.chg {Z : List Slot} {H a : Nat} {S : SState} {T T' : CState} {v : CVal} (h : Put T T' a v) (ha : H ≤ a) : Chg Z H S T S T' :=
  ⟨Nat.le_refl _, fun b hb _ => h.other b (by omega), h.sbp, fun _ _ _ => rfl⟩

theorem Put.rel {Z : List Slot} {H a : Nat} {S : SState} {T T' : CState} {v : CVal} (h : Put T T' a v) (hb : Below Z H) (ha : H ≤ a) (hr : Rel P glo k0 m Z S T) : Rel P glo k0 m Z S T' :=
  ⟨hr.live, hr.lt, fun s hs => by rw [h.other s.addr (by have := hb s hs; omega)]; exact hr.slot s hs, fun x => by rw [h.glob]; exact hr.glob x, hr.uniq⟩

/-- Only vsp differs. -/
theorem Rel.vsp {Z : List Slot} {S : SState} {T T' : CState} (hr : Rel P glo k0 m Z S T) (h : T'.mem = T.mem) (hg : T'.glob = T.glob) : Rel P glo k0 m Z S T' :=
  ⟨hr.live, hr.lt, fun s hs => by rw [h]; exact hr.slot s hs, fun x => by rw [hg]; exact hr.glob x, hr.uniq⟩

theorem Chg.vsp {Z : List Slot} {H : Nat} {S : SState} {T T' : CState} (h : T'.mem = T.mem) (hs : T'.sbp = T.sbp) : Chg Z H S T S T' :=
  ⟨Nat.le_refl _, fun a _ _ => by rw [h], hs, fun _ _ _ => rfl⟩

/-! ### Time passes -/

/-- Later, with these variables. -/
structure Later (n : Nat) (Z : List Slot) (n' : Nat) (Z' : List Slot) : Prop where
  le : n ≤ n'
  sub : ∀ s ∈ Z', s.cell < n → s ∈ Z

theorem Later.next {n n' : Nat} {Z : List Slot} (h : n ≤ n') : Later n Z n' Z := ⟨h, fun _ hs _ => hs⟩

theorem live_later {n n' : Nat} {Z Z' : List Slot} (h : Later n Z n' Z') {ρ : SEnv} (ho : ∀ p ∈ ρ, p.2 < n) (hl : Live Z' ρ) : Live Z ρ := by
  intro p hp
  obtain ⟨s, hs, e⟩ := hl p hp
  exact ⟨s, h.sub s hs (by rw [e]; exact ho p hp), e⟩

/-- A slot whose cell is live later is there later. -/
theorem slot_later {n n' : Nat} {Z Z' : List Slot} (h : Later n Z n' Z') (hu : ∀ s ∈ Z, ∀ s' ∈ Z, s.cell = s'.cell ∨ s.addr = s'.addr → s = s') {s : Slot} (hs : s ∈ Z) {ρ : SEnv} {x : Sym}
    (hc : cellOf x ρ = some s.cell) (ho : ∀ p ∈ ρ, p.2 < n) (hl : Live Z' ρ) : s ∈ Z' := by
  unfold cellOf at hc
  cases hf : ρ.find? (fun p => p.1 == x) with
  | none => rw [hf] at hc; cases hc
  | some p =>
    rw [hf] at hc
    simp only [Option.map_some, Option.some.injEq] at hc
    have hp := List.mem_of_find?_eq_some hf
    obtain ⟨s', hs', e⟩ := hl p hp
    have := h.sub s' hs' (by rw [e]; exact ho p hp)
    have := hu s hs s' this (.inl (by rw [e, hc]))
    rw [this]; exact hs'

theorem Ctx.later {n n' : Nat} {Z Z' : List Slot} (h : Later n Z n' Z') (hu : ∀ s ∈ Z, ∀ s' ∈ Z, s.cell = s'.cell ∨ s.addr = s'.addr → s = s') {L : Sym → Option Ident} {fl : List Flet} {cl : Nat}
    {B : Nat → Option (Nat × Nat)} {sc fs : List Sym} {ρ φ : SEnv} (hc : Ctx P glo Z L fl cl B sc fs ρ φ) (ho : ∀ p ∈ ρ, p.2 < n) (hof : ∀ p ∈ φ, p.2 < n) (hl : Live Z' ρ) (hlf : Live Z' φ) :
    Ctx P glo Z' L fl cl B sc fs ρ φ := by
  refine ⟨?_, ?_, hc.glob, hc.free, hl, hlf⟩
  · intro x hx
    obtain ⟨i, cell, av, lo, h1, h2, h3, h4, h5⟩ := hc.var x hx
    refine ⟨i, cell, av, lo, h1, h2, h3, h4, ?_⟩
    rcases h5 with ⟨h5, h6⟩ | ⟨h5, h6⟩
    · exact .inl ⟨h5, slot_later h hu h6 h3 ho hl⟩
    · exact .inr ⟨h5, slot_later h hu h6 h3 ho hl⟩
  · intro f hf
    obtain ⟨l, cell, av, lo, h1, h2, h3, h4, h5⟩ := hc.fn f hf
    exact ⟨l, cell, av, lo, h1, h2, h3, h4, slot_later h hu h5 h3 hof hlf⟩

theorem FRel.later {n n' : Nat} {Z Z' : List Slot} (h : Later n Z n' Z') (hu : ∀ s ∈ Z, ∀ s' ∈ Z, s.cell = s'.cell ∨ s.addr = s'.addr → s = s') {ps : List Sym} {b : List Expr} {ρ φ : SEnv}
    {en : Nat} {env : Option CVal} {av lo : Nat} (hr : FRel P glo k0 m n Z ps b ρ φ en env av lo) : FRel P glo k0 m n' Z' ps b ρ φ en env av lo := by
  obtain ⟨⟨t, sc, fs, h1, h2, h3, h4, h5, h6, h7, h8, h9, h10⟩, ho, hof⟩ := hr
  refine ⟨⟨t, sc, fs, h1, h2, h3, h4, h5, h6, h7, h8, h9, ?_⟩, fun p hp => Nat.lt_of_lt_of_le (ho p hp) h.le, fun p hp => Nat.lt_of_lt_of_le (hof p hp) h.le⟩
  intro hl hlf
  exact (h10 (live_later h ho hl) (live_later h hof hlf)).later h hu ho hof hl hlf

theorem VRel.later {n n' : Nat} {Z Z' : List Slot} (h : Later n Z n' Z') (hu : ∀ s ∈ Z, ∀ s' ∈ Z, s.cell = s'.cell ∨ s.addr = s'.addr → s = s') {v : SVal} {v' : CVal}
    (hr : VRel P glo k0 m n Z v v') : VRel P glo k0 m n' Z' v v' := by
  cases hr with
  | nil => exact .nil
  | t => exact .t
  | int n => exact .int n
  | clo h1 => exact .clo (h1.later h hu)
  | code h1 => exact .code h1

theorem ORel.later {n n' : Nat} {Z Z' : List Slot} (h : Later n Z n' Z') (hu : ∀ s ∈ Z, ∀ s' ∈ Z, s.cell = s'.cell ∨ s.addr = s'.addr → s = s') {v : Option SVal} {v' : Option CVal}
    (hr : ORel P glo k0 m n Z v v') : ORel P glo k0 m n' Z' v v' := by
  cases hr with
  | none => exact .none
  | some h1 => exact .some (h1.later h hu)

theorem SRel.later {n n' : Nat} {Z Z' : List Slot} (h : Later n Z n' Z') (hu : ∀ s ∈ Z, ∀ s' ∈ Z, s.cell = s'.cell ∨ s.addr = s'.addr → s = s') {en : Option Nat} {c : Cell} {w : Word}
    (hr : SRel P glo k0 m n Z en c w) : SRel P glo k0 m n' Z' en c w := by
  cases hr with
  | var h1 => exact .var (h1.later h hu)
  | fn h1 => exact .fn (h1.later h hu)

theorem VRel.chg {Z : List Slot} {H : Nat} {S S' : SState} {T T' : CState} (h : Chg Z H S T S' T') (hr : Rel P glo k0 m Z S T) {v : SVal} {v' : CVal} (hv : VRel P glo k0 m S.next Z v v') :
    VRel P glo k0 m S'.next Z v v' := hv.later (Later.next h.next) hr.uniq

theorem allLive_iff {Z : List Slot} {S : SState} {T : CState} (hr : Rel P glo k0 m Z S T) (ρ : SEnv) : allLive S ρ = true ↔ Live Z ρ := by
  unfold allLive Live
  rw [List.all_eq_true]
  simp only [List.contains_iff_mem]
  constructor
  · intro h p hp; exact (hr.live p.2).mp (h p hp)
  · intro h p hp; exact (hr.live p.2).mpr (h p hp)

/-- Cells of live environments are old. -/
theorem Rel.old {Z : List Slot} {S : SState} {T : CState} (hr : Rel P glo k0 m Z S T) {ρ : SEnv} (h : Live Z ρ) : ∀ p ∈ ρ, p.2 < S.next := by
  intro p hp
  obtain ⟨s, hs, e⟩ := h p hp
  rw [← e]; exact hr.lt s hs

theorem VRel.isNil {n : Nat} {Z : List Slot} {v : SVal} {v' : CVal} (h : VRel P glo k0 m n Z v v') : (v'.isNil = true ↔ v = .nil) := by
  cases h <;> simp [CVal.isNil]

theorem base_envBase (a : Act) (en d : Nat) : envBase d (some (.clo en a.env a.argv a.loc)) = base a d := by
  cases d <;> rfl

/-! ### Variables are assigned -/

/-- A variable gets a new value. -/
theorem Put.var {Z : List Slot} {H cell a : Nat} {S : SState} {T T' : CState} {v : SVal} {v' : CVal} (h : Put T T' a v') (hs : Slot.mk cell a none ∈ Z) (hr : Rel P glo k0 m Z S T)
    (hv : VRel P glo k0 m S.next Z v v') : Rel P glo k0 m Z (S.put cell (.var v)) T' ∧ Chg Z H S T (S.put cell (.var v)) T' := by
  refine ⟨⟨hr.live, hr.lt, ?_, fun x => by rw [h.glob]; exact hr.glob x, hr.uniq⟩, ⟨Nat.le_refl _, ?_, h.sbp, ?_⟩⟩
  · intro s hs'
    by_cases hc : s.cell = cell
    · have := hr.uniq s hs' ⟨cell, a, none⟩ hs (.inl hc)
      subst this
      simp only [SState.put, if_true, h.at_]
      exact .var hv
    · have ha : s.addr ≠ a := fun e => hc (by have := hr.uniq s hs' ⟨cell, a, none⟩ hs (.inr e); rw [this])
      simp only [SState.put, if_neg hc, h.other _ ha]
      exact hr.slot s hs'
  · intro b _ hb
    exact h.other b (fun e => hb _ hs e.symm)
  · intro s hs' he
    have hc : s.cell ≠ cell := fun e => he (by have := hr.uniq s hs' ⟨cell, a, none⟩ hs (.inl e); rw [this])
    simp [SState.put, hc]

theorem Rel.setGlob {Z : List Slot} {H : Nat} {S : SState} {T : CState} {x : Sym} {v : Option SVal} {v' : Option CVal} (hr : Rel P glo k0 m Z S T) (hv : ORel P glo k0 m S.next Z v v') :
    Rel P glo k0 m Z (S.setGlob x v) (T.setGlob x v') ∧ Chg Z H S T (S.setGlob x v) (T.setGlob x v') := by
  refine ⟨⟨hr.live, hr.lt, hr.slot, ?_, hr.uniq⟩, ⟨Nat.le_refl _, fun _ _ _ => rfl, rfl, fun _ _ _ => rfl⟩⟩
  intro y
  simp only [SState.setGlob, CState.setGlob]
  split
  · exact hv
  · exact hr.glob y

end Eus.Cmp
