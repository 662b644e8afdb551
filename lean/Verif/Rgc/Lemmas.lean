import Verif.Rgc.Spec
/-!
# The invariant of the concurrent collector
-/

namespace Eus.Rgc
open Spec

theorem upd_same {α : Type} (f : Nat → α) (i : Nat) (v : α) : upd f i v i = v := if_pos rfl
theorem upd_ne {α : Type} (f : Nat → α) (i : Nat) (v : α) {j : Nat} (h : j ≠ i) : upd f i v j = f j :=
  if_neg h

/-- Auxiliary history: `U` contains all that is in use, `s0` is the state at the
last root scan, `base` what was named then, `A` the cells given out since. -/
structure Ghost where
  U : Addr → Prop
  A : Addr → Prop
  s0 : St
  base : Addr → Prop

/-- Reachable at the snapshot. -/
def R0 (g : Ghost) : Addr → Prop := From g.s0 g.base

/-- On one of the mark stacks, or about to be put there. -/
def Gray (P : Params) (s : St) (a : Addr) : Prop :=
  a ∈ s.cstk ∨ a ∈ s.pstk ∨ (∃ t, a ∈ s.gs t) ∨ (s.phase = .core ∧ ∃ t, s.k ≤ t ∧ t < P.nT ∧ a ∈ s.stk t)

def MG (P : Params) (s : St) (a : Addr) : Prop := s.mark a = true ∨ Gray P s a

def Quiet (s : St) : Prop := s.cstk = [] ∧ s.scan = none ∧ ∀ t, s.gs t = []

/-- `U` is closed and exists. -/
structure Cl (P : Params) (g : Ghost) (s : St) : Prop where
  root : ∀ r ∈ P.roots, g.U r
  stk : ∀ t < P.nT, ∀ a ∈ s.stk t, g.U a
  pstk : ∀ a ∈ s.pstk, g.U a
  cstk : ∀ a ∈ s.cstk, g.U a
  gs : ∀ t, ∀ a ∈ s.gs t, g.U a
  chk : ∀ t < P.nT, ∀ o i v f, s.pend t = .checked o i v f →
    g.U o ∧ i < s.size o ∧ ∀ a, v = some a → g.U a
  psh : ∀ t < P.nT, ∀ o i v, s.pend t = .pushed o i v →
    g.U o ∧ i < s.size o ∧ ∀ a, v = some a → g.U a
  kid : ∀ a b i, g.U a → s.fld a i = some b → i < s.size a → g.U b
  live : ∀ a, g.U a → s.live a = true
  own : ∀ t < P.nT, ∀ b w, s.pend t = .taken b w → s.live b = false ∧ b < P.n ∧ g.A b
  own1 : ∀ t < P.nT, ∀ u < P.nT, ∀ b w w', s.pend t = .taken b w → s.pend u = .taken b w' → t = u
  bound : ∀ a, s.live a = true → a < P.n
  markU : ∀ a, s.mark a = true → g.U a
  stop : ∀ t < P.nT, s.stat t ≠ .run → s.pend t = .none
  gsT : ∀ t, P.nT ≤ t → s.gs t = []
  fresh : ∀ a, g.U a → R0 g a ∨ g.A a
  scanU : ∀ p i, s.scan = some (p, i) → g.U p

/-- The snapshot is marked or will be. -/
structure MkH (P : Params) (g : Ghost) (s : St) : Prop where
  base : ∀ a, g.base a → MG P s a
  black : ∀ b i a, R0 g b → i < g.s0.size b → g.s0.fld b i = some a → s.mark b = true →
    (∀ j, s.scan = some (b, j) → i < j) → MG P s a
  intact : ∀ b i a, R0 g b → i < g.s0.size b → g.s0.fld b i = some a → s.fld b i = some a ∨ MG P s a
  sz : ∀ b, R0 g b → s.size b = g.s0.size b

/-- What stores and allocations in progress have seen. -/
structure MkP (P : Params) (g : Ghost) (s : St) : Prop where
  chk : ∀ t < P.nT, ∀ o i v f, s.pend t = .checked o i v f → f = true
  psh : ∀ t < P.nT, ∀ o i v a, s.pend t = .pushed o i v → R0 g o → i < g.s0.size o →
    g.s0.fld o i = some a → MG P s a
  tk : ∀ t < P.nT, ∀ b w, s.pend t = .taken b w → w = .high

structure MkO (P : Params) (s : St) : Prop where
  ord : ∀ t < s.cur, s.gs t = []
  ordc : s.chk = true → ∀ t, s.gs t = []
  core : s.phase = .core → s.cur = 0 ∧ s.chk = false ∧ ∀ t < P.nT, s.stat t ≠ .run

structure Mk (P : Params) (g : Ghost) (s : St) : Prop where
  h : MkH P g s
  p : MkP P g s
  o : MkO P s
  rU : ∀ a, R0 g a → g.U a
  split : ∀ a, g.U a → R0 g a ∨ s.mark a = true
  fin : s.phase = .fin → Quiet s ∧ ∀ a, g.U a → s.mark a = true

structure Sw (P : Params) (g : Ghost) (s : St) : Prop where
  clean : ∀ a < s.pos, s.mark a = false
  black : ∀ a, g.U a → s.pos ≤ a → s.mark a = true
  quiet : Quiet s
  kept : ∀ a < s.pos, s.live a = true → g.U a
  tk : ∀ t < P.nT, ∀ b w, s.pend t = .taken b w → w ≠ .low
  pos : s.pos ≤ P.n
  chp1 : s.pos < P.n → s.chp = P.chunk s.pos
  chp2 : P.n ≤ s.pos → 0 < P.n → s.chp = P.last

structure Rest (P : Params) (g : Ghost) (s : St) : Prop where
  clean : ∀ a, s.mark a = false
  quiet : Quiet s
  pro : s.phase = .prologue → s.cur = 0 ∧ s.chk = false
  epi : s.phase = .epilogue → ∀ a, s.live a = true → g.U a

structure Inv (P : Params) (g : Ghost) (s : St) : Prop where
  cl : Cl P g s
  mkg : s.phase.high = true → Mk P g s
  sw : s.phase = .sweep → Sw P g s
  rest : s.phase.high = false → s.phase ≠ .sweep → Rest P g s

/-- How the auxiliary history goes on. -/
def gnext (P : Params) (g : Ghost) (s : St) : Act → Ghost
  | .allocTake _ b => { g with A := fun x => g.A x ∨ x = b }
  | .allocEnd t _ =>
    { g with U := fun x => g.U x ∨ ∃ w, s.pend t = .taken x w }
  | .scanStart =>
    { U := From s (fun a => Named P s a ∨ a ∈ s.pstk), A := fun _ => False, s0 := s
      base := fun a => Named P s a ∨ a ∈ s.pstk }
  | _ => g

variable {P : Params} {g : Ghost} {s s' : St}

theorem MkH.frame (h : MkH P g s) (hm : ∀ a, MG P s a → MG P s' a)
    (hk : ∀ b, R0 g b → s'.mark b = true → s.mark b = true)
    (hf : ∀ b i, R0 g b → s'.fld b i = s.fld b i) (hz : ∀ b, R0 g b → s'.size b = s.size b)
    (hs : s'.scan = s.scan) : MkH P g s' where
  base a ha := hm a (h.base a ha)
  black b i a hb hi hf0 hbm hj := hm a (h.black b i a hb hi hf0 (hk b hb hbm) (hs ▸ hj))
  intact b i a hb hi hf0 := by
    rw [hf b i hb]
    exact (h.intact b i a hb hi hf0).imp id (hm a)
  sz b hb := (hz b hb).trans (h.sz b hb)

theorem MkP.frame (h : MkP P g s) (hm : ∀ a, MG P s a → MG P s' a) (hp : s'.pend = s.pend) :
    MkP P g s' where
  chk t ht o i v f e := h.chk t ht o i v f (hp ▸ e)
  psh t ht o i v a e r z f := hm a (h.psh t ht o i v a (hp ▸ e) r z f)
  tk t ht b w e := h.tk t ht b w (hp ▸ e)

theorem idle_iff {t : Tid} : idle P s t = true ↔ t < P.nT ∧ s.stat t = .run ∧ s.pend t = .none := by
  simp [idle, and_assoc]

theorem notcore (h : Mk P g s) {t : Tid} (ht : t < P.nT) (hr : s.stat t = .run) : s.phase ≠ .core :=
  fun e => (h.o.core e).2.2 t ht hr

/-- Only the stack of a running thread changes. -/
theorem inv_stk (h : Inv P g s) {t : Tid} (ht : t < P.nT) (hr : s.stat t = .run) (l : List Addr)
    (hl : ∀ a ∈ l, g.U a) : Inv P g { s with stk := upd s.stk t l } where
  cl := { h.cl with
    stk := fun u hu a ha => by
      by_cases e : u = t
      · subst e; exact hl a (by simpa [upd] using ha)
      · exact h.cl.stk u hu a (by simpa [upd, e] using ha) }
  mkg hp := by
    have m := h.mkg hp
    have nc := notcore m ht hr
    have hm : ∀ a, MG P s a → MG P { s with stk := upd s.stk t l } a := by
      intro a ha
      rcases ha with ha | ha | ha | ha | ha
      · exact .inl ha
      · exact .inr (.inl ha)
      · exact .inr (.inr (.inl ha))
      · exact .inr (.inr (.inr (.inl ha)))
      · exact absurd ha.1 nc
    exact { h := m.h.frame hm (fun _ _ e => e) (fun _ _ _ => rfl) (fun _ _ => rfl) rfl
            p := m.p.frame hm rfl, o := ⟨m.o.ord, m.o.ordc, m.o.core⟩, rU := m.rU, split := m.split, fin := m.fin }
  sw hp := let w := h.sw hp; { w with }
  rest hp hq := let r := h.rest hp hq; { r with }

end Eus.Rgc
