import Verif.Cmp.Sim
set_option autoImplicit false
/-
Variables are bound, and bindings are left.
-/
namespace Eus.Cmp
open Eus.Lex
open Comp (search assq clear)

variable {P : Prog} {glo : Sym → Bool} {k0 : Nat} {m : Mach}

/-! ### Special variables -/

theorem unbindN_add : ∀ (a b : Nat) (T : CState), unbindN (a + b) T = (unbindN a T).bind (unbindN b)
  | 0, b, T => by simp [unbindN]
  | a + 1, b, T => by
    rw [Nat.succ_add]
    simp only [unbindN]
    cases hs : T.sbp with
    | none => rfl
    | some p =>
      simp only
      split
      · exact unbindN_add a b _
      · rfl

/-- Special variables have been bound, from the address p on. -/
structure Bnds (T T1 : CState) (l : List (Sym × CVal)) (p : Nat) : Prop where
  mem : ∀ a, a < p → T1.mem a = T.mem a
  unw : ∀ T', (∀ a, p ≤ a → a < p + 3 * l.length → T'.mem a = T1.mem a) → T'.sbp = T1.sbp →
    ∃ T'', unbindN l.length T' = some T'' ∧ T''.mem = T'.mem ∧ T''.sbp = T.sbp ∧ ∀ y, T''.glob y = if y ∈ l.map Prod.fst then T.glob y else T'.glob y
  get : (l.map Prod.fst).Nodup → ∀ b ∈ l, T1.glob b.1 = some b.2
  other : ∀ y, y ∉ l.map Prod.fst → T1.glob y = T.glob y

theorem Bnds.nil (T : CState) (p : Nat) : Bnds T T [] p :=
  ⟨fun _ _ => rfl, fun T' _ h => ⟨T', rfl, rfl, h, fun y => by simp⟩, fun _ b hb => by simp at hb, fun _ _ => rfl⟩

/-- One is bound. -/
structure Bnd1 (T T1 : CState) (x : Sym) (v : CVal) (p : Nat) : Prop where
  link : T1.mem p = .link T.sbp
  sym : T1.mem (p + 1) = .sym x
  old : T1.mem (p + 2) = .old (T.glob x)
  mem : ∀ a, a < p → T1.mem a = T.mem a
  sbp : T1.sbp = some p
  glob : ∀ y, T1.glob y = if y = x then some v else T.glob y

theorem Bnds.cons {T T1 T2 : CState} {x : Sym} {v : CVal} {l : List (Sym × CVal)} {p : Nat} (h : Bnd1 T T1 x v p) (h' : Bnds T1 T2 l (p + 3)) : Bnds T T2 ((x, v) :: l) p := by
  refine ⟨fun a ha => (h'.mem a (by omega)).trans (h.mem a ha), ?_, ?_, ?_⟩
  · intro T' hm hs
    obtain ⟨T'', e1, e2, e3, e4⟩ := h'.unw T' (fun a h1 h2 => hm a (by omega) (by simp only [List.length_cons]; omega)) hs
    have m0 : T''.mem p = .link T.sbp := by rw [e2, hm p (by omega) (by simp only [List.length_cons]; omega), h'.mem p (by omega), h.link]
    have m1 : T''.mem (p + 1) = .sym x := by rw [e2, hm (p + 1) (by omega) (by simp only [List.length_cons]; omega), h'.mem (p + 1) (by omega), h.sym]
    have m2 : T''.mem (p + 2) = .old (T.glob x) := by rw [e2, hm (p + 2) (by omega) (by simp only [List.length_cons]; omega), h'.mem (p + 2) (by omega), h.old]
    have s0 : T''.sbp = some p := e3.trans h.sbp
    refine ⟨{ T''.setGlob x (T.glob x) with sbp := T.sbp }, ?_, e2, rfl, ?_⟩
    · rw [List.length_cons, unbindN_add, e1]
      simp only [Option.bind_some, unbindN, s0, m0, m1, m2]
    · intro y
      simp only [CState.setGlob, List.map_cons, List.mem_cons]
      by_cases hy : y = x
      · subst hy; simp
      · simp only [hy, if_false, false_or, e4, h.glob]
  · intro hn b hb
    simp only [List.map_cons, List.nodup_cons] at hn
    simp only [List.mem_cons] at hb
    rcases hb with rfl | hb
    · simp only
      rw [h'.other x hn.1, h.glob]; simp
    · exact h'.get hn.2 b hb
  · intro y hy
    simp only [List.map_cons, List.mem_cons, not_or] at hy
    rw [h'.other y hy.2, h.glob, if_neg hy.1]

theorem run_bindSpecial {F : Code} {act : Act} {rest : List Frame} {c : Comp} {w v : CVal} {T : CState} {x : Sym} (hF : (c.bindSpecial x).code <+: F) (ht : Top m act w T c v) :
    ∃ T1, Reach m (conf F act rest c.code.length w T) (conf F act rest (c.bindSpecial x).code.length v T1) ∧ Bnd1 T T1 x v (act.loc + (Cmp.ht c - 1)) := by
  have h0 : ((c.store .w).resetVsp.emit (.bindspecial x)).code <+: F := hF
  have h1 : ((c.store .w).resetVsp).code <+: F := (List.prefix_append _ _).trans h0
  have r1 := run_store_w (rest := rest) ((List.prefix_append _ _).trans h1) ht
  have r2 := run_vsp (m := m) (act := act) (rest := rest) (w := v) (T := T) h1
  rw [store_pc] at r2
  have e1 : (c.bindSpecial x).code.length = ((c.store .w).resetVsp).code.length + 1 := by
    show ((c.store .w).resetVsp.emit (.bindspecial x)).code.length = _
    simp [Comp.emit]
  rw [e1]
  refine ⟨_, (r1.trans r2).trans (conf_step (pre := ((c.store .w).resetVsp).code) h0 rfl), ?_⟩
  refine ⟨?_, ?_, ?_, ?_, rfl, ?_⟩
  · simp [CState.setGlob, CState.write]
  · simp [CState.setGlob, CState.write]
  · simp [CState.setGlob, CState.write]
  · intro a ha
    have h1 : a ≠ act.loc + (Cmp.ht c - 1) := by omega
    have h2 : a ≠ act.loc + (Cmp.ht c - 1) + 1 := by omega
    have h3 : a ≠ act.loc + (Cmp.ht c - 1) + 2 := by omega
    simp [CState.setGlob, CState.write, h1, h2, h3]
  · intro y; simp [CState.setGlob, CState.write]

theorem run_bindSpecial_err {F : Code} {act : Act} {rest : List Frame} {c : Comp} {w : CVal} {T : CState} {x : Sym} (hF : (c.bindSpecial x).code <+: F) (ht : TopErr m act w T c) :
    Reach m (conf F act rest c.code.length w T) .err := by
  have h0 : ((c.store .w).resetVsp.emit (.bindspecial x)).code <+: F := hF
  have h1 : ((c.store .w).resetVsp).code <+: F := (List.prefix_append _ _).trans h0
  exact run_store_err (d := .w) ((List.prefix_append _ _).trans h1) (by simp [Dst.cx, evalX]) ht

/-! ### Cells for lexical variables -/

/-- The relation but for global variables. -/
structure RelM (P : Prog) (glo : Sym → Bool) (k0 : Nat) (m : Mach) (Z : List Slot) (S : SState) (M : Nat → Word) : Prop where
  live : ∀ c, c ∈ S.live ↔ ∃ s ∈ Z, s.cell = c
  lt : ∀ s ∈ Z, s.cell < S.next
  slot : ∀ s ∈ Z, SRel P glo k0 m S.next Z s.en (S.cells s.cell) (M s.addr)
  uniq : ∀ s ∈ Z, ∀ s' ∈ Z, s.cell = s'.cell ∨ s.addr = s'.addr → s = s'

theorem Rel.toM {Z : List Slot} {S : SState} {T : CState} (h : Rel P glo k0 m Z S T) : RelM P glo k0 m Z S T.mem := ⟨h.live, h.lt, h.slot, h.uniq⟩

theorem later_cons {Z : List Slot} {n n' : Nat} {s : Slot} (h : n ≤ s.cell) (hn : n ≤ n') : Later n Z n' (s :: Z) :=
  ⟨hn, fun t ht hc => by
    simp only [List.mem_cons] at ht
    rcases ht with rfl | ht
    · omega
    · exact ht⟩

/-- A new cell, in a word of the stack not used for another. -/
theorem RelM.alloc {Z : List Slot} {S : SState} {M : Nat → Word} {a : Nat} {v : SVal} {v' : CVal} (h : RelM P glo k0 m Z S M) (ha : ∀ s ∈ Z, s.addr ≠ a) (hm : M a = .val v') (hv : VRel P glo k0 m S.next Z v v') :
    RelM P glo k0 m (⟨S.next, a, none⟩ :: Z) (S.alloc (.var v)) M := by
  have hl : Later S.next Z (S.next + 1) (⟨S.next, a, none⟩ :: Z) := later_cons (Nat.le_refl _) (by omega)
  refine ⟨?_, ?_, ?_, ?_⟩
  · intro c
    simp only [SState.alloc, List.mem_append, List.mem_cons, List.not_mem_nil, or_false, h.live]
    constructor
    · rintro (⟨s, hs, e⟩ | rfl)
      · exact ⟨s, .inr hs, e⟩
      · exact ⟨_, .inl rfl, rfl⟩
    · rintro ⟨s, rfl | hs, e⟩
      · exact .inr e.symm
      · exact .inl ⟨s, hs, e⟩
  · intro s hs
    simp only [List.mem_cons] at hs
    show s.cell < S.next + 1
    rcases hs with rfl | hs
    · simp
    · have := h.lt s hs; omega
  · intro s hs
    simp only [List.mem_cons] at hs
    rcases hs with rfl | hs
    · simp only [SState.alloc, SState.put, if_true, hm]
      exact .var (hv.later hl h.uniq)
    · have hc : s.cell ≠ S.next := by have := h.lt s hs; omega
      simp only [SState.alloc, SState.put, if_neg hc]
      exact (h.slot s hs).later hl h.uniq
  · intro s hs s' hs' e
    simp only [List.mem_cons] at hs hs'
    rcases hs with rfl | hs <;> rcases hs' with rfl | hs'
    · rfl
    · rcases e with e | e
      · have := h.lt s' hs'; simp at e; omega
      · exact absurd e.symm (ha s' hs')
    · rcases e with e | e
      · have := h.lt s hs; simp at e; omega
      · exact absurd e (ha s hs)
    · exact h.uniq s hs s' hs' e

/-- The variables of a form, with values on the stack from a on. -/
def lexSlots (P : Prog) : List Sym → Nat → Nat → List Slot → List Slot
  | [], _, _, Z => Z
  | x :: xs, a, c, Z => if P.special x then lexSlots P xs (a + 1) c Z else lexSlots P xs (a + 1) (c + 1) (⟨c, a, none⟩ :: Z)

theorem mem_lexSlots {s : Slot} : ∀ {xs : List Sym} {a c : Nat} {Z : List Slot}, s ∈ lexSlots P xs a c Z → s ∈ Z ∨ (a ≤ s.addr ∧ s.addr < a + xs.length ∧ c ≤ s.cell ∧ s.en = none)
  | [], a, c, Z, h => .inl h
  | x :: xs, a, c, Z, h => by
    simp only [lexSlots] at h
    split at h
    · rcases mem_lexSlots h with h | ⟨h1, h2, h3, h4⟩
      · exact .inl h
      · exact .inr ⟨by omega, by simp; omega, h3, h4⟩
    · rcases mem_lexSlots h with h | ⟨h1, h2, h3, h4⟩
      · simp only [List.mem_cons] at h
        rcases h with rfl | h
        · exact .inr ⟨Nat.le_refl _, by simp, Nat.le_refl _, rfl⟩
        · exact .inl h
      · exact .inr ⟨by omega, by simp; omega, by omega, h4⟩

theorem lexSlots_sub {s : Slot} : ∀ {xs : List Sym} {a c : Nat} {Z : List Slot}, s ∈ Z → s ∈ lexSlots P xs a c Z
  | [], _, _, _, h => h
  | x :: xs, a, c, Z, h => by
    simp only [lexSlots]
    split
    · exact lexSlots_sub h
    · exact lexSlots_sub (by simp [h])

theorem sbind_next : ∀ {xs : List Sym} {vs : List SVal} {ρ : SEnv} {S : SState}, S.next ≤ (sbind P xs vs ρ S).2.next
  | [], _, _, _ => by simp [sbind]
  | _ :: _, [], _, _ => by simp [sbind]
  | x :: xs, v :: vs, ρ, S => by
    simp only [sbind]
    split
    · exact sbind_next (S := S.setGlob x (some v))
    · have := sbind_next (xs := xs) (vs := vs) (ρ := (x, S.next) :: ρ) (S := S.alloc (.var v))
      exact Nat.le_trans (Nat.le_succ _) this

/-- Cells made before are as they were. -/
theorem sbind_cells : ∀ {xs : List Sym} {vs : List SVal} {ρ : SEnv} {S : SState} {l : Nat}, l < S.next → (sbind P xs vs ρ S).2.cells l = S.cells l
  | [], _, _, _, _, _ => by simp [sbind]
  | _ :: _, [], _, _, _, _ => by simp [sbind]
  | x :: xs, v :: vs, ρ, S, l, h => by
    simp only [sbind]
    split
    · exact sbind_cells (S := S.setGlob x (some v)) h
    · rw [sbind_cells (S := S.alloc (.var v)) (show l < S.next + 1 by omega)]
      have : l ≠ S.next := by omega
      simp [SState.alloc, SState.put, this]

/-- What special variables are bound to. -/
theorem sbind_glob : ∀ {xs : List Sym} {vs : List SVal} {ρ : SEnv} {S : SState}, xs.Nodup → xs.length = vs.length →
    (∀ b ∈ xs.zip vs, P.special b.1 = true → (sbind P xs vs ρ S).2.glob b.1 = some b.2) ∧ ∀ y, ¬ (P.special y = true ∧ y ∈ xs) → (sbind P xs vs ρ S).2.glob y = S.glob y
  | [], _, _, _, _, _ => by simp [sbind]
  | _ :: _, [], _, _, _, h => by simp at h
  | x :: xs, v :: vs, ρ, S, hn, hl => by
    simp only [List.nodup_cons] at hn
    simp only [List.length_cons, Nat.add_right_cancel_iff] at hl
    simp only [sbind]
    cases hx : P.special x with
    | true =>
      simp only [if_true]
      obtain ⟨h1, h2⟩ := sbind_glob (ρ := ρ) (S := S.setGlob x (some v)) hn.2 hl
      refine ⟨?_, ?_⟩
      · intro b hb hs
        simp only [List.zip_cons_cons, List.mem_cons] at hb
        rcases hb with rfl | hb
        · rw [h2 x (fun h => hn.1 h.2)]; simp [SState.setGlob]
        · exact h1 b hb hs
      · intro y hy
        have hyx : y ≠ x := by rintro rfl; exact hy ⟨hx, by simp⟩
        rw [h2 y (fun h => hy ⟨h.1, by simp [h.2]⟩)]
        simp [SState.setGlob, hyx]
    | false =>
      simp only [Bool.false_eq_true, if_false]
      obtain ⟨h1, h2⟩ := sbind_glob (ρ := (x, S.next) :: ρ) (S := S.alloc (.var v)) hn.2 hl
      refine ⟨?_, ?_⟩
      · intro b hb hs
        simp only [List.zip_cons_cons, List.mem_cons] at hb
        rcases hb with rfl | hb
        · rw [hx] at hs; cases hs
        · exact h1 b hb hs
      · intro y hy
        rw [h2 y (fun h => hy ⟨h.1, by simp [h.2]⟩)]
        rfl

theorem later_lexSlots {Z : List Slot} {n n' a : Nat} {xs : List Sym} (h : n ≤ n') : Later n Z n' (lexSlots P xs a n Z) :=
  ⟨h, fun s hs hc => by
    rcases mem_lexSlots hs with h | ⟨_, _, h, _⟩
    · exact h
    · omega⟩

theorem RelM.glob {Z : List Slot} {S S' : SState} {M : Nat → Word} (h : RelM P glo k0 m Z S M) (h1 : S'.live = S.live) (h2 : S'.next = S.next) (h3 : S'.cells = S.cells) : RelM P glo k0 m Z S' M :=
  ⟨by rw [h1]; exact h.live, by rw [h2]; exact h.lt, by rw [h2, h3]; exact h.slot, h.uniq⟩

theorem RelM.sbind : ∀ {xs : List Sym} {vs : List SVal} {ρ : SEnv} {S : SState} {T : CState} {Z : List Slot} {a : Nat}, RelM P glo k0 m Z S T.mem → xs.length = vs.length → Stk P glo k0 m S.next Z T a vs →
    (∀ s ∈ Z, s.addr < a ∨ a + vs.length ≤ s.addr) → RelM P glo k0 m (lexSlots P xs a S.next Z) (sbind P xs vs ρ S).2 T.mem
  | [], [], ρ, S, T, Z, a, h, _, _, _ => h
  | [], _ :: _, _, _, _, _, _, _, hl, _, _ => by simp at hl
  | _ :: _, [], _, _, _, _, _, _, hl, _, _ => by simp at hl
  | x :: xs, v :: vs, ρ, S, T, Z, a, h, hl, ⟨⟨v', h1, h2⟩, h3⟩, hz => by
    simp only [List.length_cons, Nat.add_right_cancel_iff] at hl hz
    simp only [Lex.sbind, lexSlots]
    cases hx : P.special x with
    | true =>
      simp only [if_true]
      exact RelM.sbind (S := S.setGlob x (some v)) (h.glob rfl rfl rfl) hl h3 (fun s hs => by have := hz s hs; omega)
    | false =>
      simp only [Bool.false_eq_true, if_false]
      have hl' : Later S.next Z (S.next + 1) (⟨S.next, a, none⟩ :: Z) := later_cons (Nat.le_refl _) (by omega)
      refine RelM.sbind (S := S.alloc (.var v)) (h.alloc (fun s hs => by have := hz s hs; omega) h1 h2) hl ?_ ?_
      · exact h3.mono (fun _ _ hv => hv.later hl' h.uniq) (fun _ _ _ => rfl)
      · intro s hs
        simp only [List.mem_cons] at hs
        rcases hs with rfl | hs
        · left; exact Nat.lt_succ_self a
        · have := hz s hs; omega

/-! ### Names -/

theorem cellOf_cons (x y : Sym) (l : Nat) (ρ : SEnv) : cellOf x ((y, l) :: ρ) = if y = x then some l else cellOf x ρ := by
  unfold cellOf
  by_cases h : y = x
  · simp [h]
  · have : (y == x) = false := by simpa using h
    simp [List.find?, this, h]

theorem Live.mono {Z Z' : List Slot} {ρ : SEnv} (h : Live Z ρ) (hs : ∀ s ∈ Z, s ∈ Z') : Live Z' ρ := fun p hp => by
  obtain ⟨s, h1, h2⟩ := h p hp
  exact ⟨s, hs s h1, h2⟩

theorem Ctx.slots {Z Z' : List Slot} {L : Sym → Option Ident} {fl : List Flet} {cl : Nat} {B : Nat → Option (Nat × Nat)} {sc fs : List Sym} {ρ φ : SEnv} (h : Ctx P glo Z L fl cl B sc fs ρ φ) (hs : ∀ s ∈ Z, s ∈ Z') :
    Ctx P glo Z' L fl cl B sc fs ρ φ := by
  refine ⟨?_, ?_, h.glob, h.free, h.lv.mono hs, h.lf.mono hs⟩
  · intro x hx
    obtain ⟨i, cell, av, lo, h1, h2, h3, h4, h5⟩ := h.var x hx
    exact ⟨i, cell, av, lo, h1, h2, h3, h4, h5.imp (fun h => ⟨h.1, hs _ h.2⟩) (fun h => ⟨h.1, hs _ h.2⟩)⟩
  · intro f hf
    obtain ⟨l, cell, av, lo, h1, h2, h3, h4, h5⟩ := h.fn f hf
    exact ⟨l, cell, av, lo, h1, h2, h3, h4, hs _ h5⟩

/-- A variable of the current function. -/
theorem Ctx.bind {Z : List Slot} {L L' : Sym → Option Ident} {fl : List Flet} {cl : Nat} {B : Nat → Option (Nat × Nat)} {sc fs : List Sym} {ρ φ : SEnv} {x : Sym} {cell av lo a : Nat} {i : Ident}
    (h : Ctx P glo Z L fl cl B sc fs ρ φ) (hx : Lexical P glo x) (hb : B 0 = some (av, lo)) (h1 : L' x = some i) (h2 : i.level = cl) (h3 : (i.bnd = .loc ∧ a = lo + i.off) ∨ (i.bnd = .arg ∧ a = av + i.off))
    (h4 : ∀ y ∈ sc, y ≠ x → L' y = L y) : Ctx P glo (⟨cell, a, none⟩ :: Z) L' fl cl B (x :: sc) fs ((x, cell) :: ρ) φ := by
  have hz : ∀ s ∈ Z, s ∈ (⟨cell, a, none⟩ : Slot) :: Z := fun s hs => by simp [hs]
  have h' := h.slots hz
  refine ⟨?_, h'.fn, h.glob, ?_, ?_, h'.lf⟩
  · intro y hy
    by_cases hyx : y = x
    · subst hyx
      refine ⟨i, cell, av, lo, h1, by omega, by rw [cellOf_cons, if_pos rfl], by rw [h2, Nat.sub_self]; exact hb, ?_⟩
      rcases h3 with ⟨e, rfl⟩ | ⟨e, rfl⟩
      · exact .inl ⟨e, by simp⟩
      · exact .inr ⟨e, by simp⟩
    · have hy' : y ∈ sc := by simpa [hyx] using hy
      obtain ⟨i, cell', av, lo, g1, g2, g3, g4, g5⟩ := h'.var y hy'
      exact ⟨i, cell', av, lo, by rw [h4 y hy' hyx]; exact g1, g2, by rw [cellOf_cons, if_neg (fun e => hyx e.symm)]; exact g3, g4, g5⟩
  · intro y h5 h6
    have : x ≠ y := by rintro rfl; rw [hx.2] at h6; cases h6
    rw [cellOf_cons, if_neg this]
    exact h.free y h5 h6
  · intro p hp
    simp only [List.mem_cons] at hp
    rcases hp with rfl | hp
    · exact ⟨⟨cell, a, none⟩, by simp, rfl⟩
    · exact h'.lv p hp

/-- All variables of a form, from a on; they are at the offset off and following ones. -/
theorem Ctx.sbind {fl : List Flet} {cl av lo : Nat} {B : Nat → Option (Nat × Nat)} {fs : List Sym} {φ : SEnv} (hb : B 0 = some (av, lo)) {L' : Sym → Option Ident} {arg : Bool} : ∀ {xs : List Sym} {vs : List SVal}
    {ρ : SEnv} {S : SState} {Z : List Slot} {sc : List Sym} {L : Sym → Option Ident} {off : Nat},
    Ctx P glo Z L fl cl B sc fs ρ φ → xs.length = vs.length → xs.Nodup → (∀ x ∈ xs, okName P glo x) → (∀ y ∈ sc, Lexical P glo y) →
    (∀ b ∈ xs.zipIdx off, Lexical P glo b.1 → L' b.1 = some ⟨if arg then .arg else .loc, cl, b.2⟩) → (∀ y ∈ sc, y ∉ xs → L' y = L y) →
    Ctx P glo (lexSlots P xs ((if arg then av else lo) + off) S.next Z) L' fl cl B (ext P xs sc) fs (sbind P xs vs ρ S).1 φ
  | [], [], ρ, S, Z, sc, L, off, h, _, _, _, _, _, h2 => h.look (fun x hx => h2 x hx (by simp))
  | [], _ :: _, _, _, _, _, _, _, _, hl, _, _, _, _, _ => by simp at hl
  | _ :: _, [], _, _, _, _, _, _, _, hl, _, _, _, _, _ => by simp at hl
  | x :: xs, v :: vs, ρ, S, Z, sc, L, off, h, hl, hn, ho, hlex, h1, h2 => by
    simp only [List.length_cons, Nat.add_right_cancel_iff] at hl
    simp only [List.nodup_cons] at hn
    simp only [List.zipIdx_cons, List.mem_cons] at h1
    simp only [Lex.sbind, lexSlots, ext]
    have ho' : ∀ y ∈ xs, okName P glo y := fun y hy => ho y (by simp [hy])
    rcases okName_cases (ho x (by simp)) with hx | hx
    · simp only [hx, if_true]
      refine Ctx.sbind hb (S := S.setGlob x (some v)) h hl hn.2 ho' hlex (fun b hb => h1 b (.inr hb)) ?_
      intro y hy hyx
      have e : y ≠ x := by rintro rfl; have := (hlex y hy).1; rw [hx] at this; cases this
      exact h2 y hy (by simp [e, hyx])
    · simp only [hx.1, Bool.false_eq_true, if_false]
      have hL := h1 (x, off) (.inl rfl) hx
      refine Ctx.sbind hb (S := S.alloc (.var v)) (L := fun y => if y = x then L' x else L y) (h.bind (i := ⟨if arg then .arg else .loc, cl, off⟩) hx hb (by simp only [if_true]; exact hL) rfl ?_ ?_) hl hn.2 ho' ?_ (fun b hb => h1 b (.inr hb)) ?_
      · cases arg
        · exact .inl ⟨rfl, rfl⟩
        · exact .inr ⟨rfl, rfl⟩
      · intro y _ hy; simp [hy]
      · intro y hy
        simp only [List.mem_cons] at hy
        rcases hy with rfl | hy
        · exact hx
        · exact hlex y hy
      · intro y hy hyx
        by_cases e : y = x
        · simp [e]
        · simp only [if_neg e]
          have : y ∈ sc := by simpa [e] using hy
          exact h2 y this (by simp [e, hyx])

/-! ### All variables of a form -/

/-- What is bound to special variables: l, of the variables xs with the values vs. -/
structure Specials (P : Prog) (glo : Sym → Bool) (k0 : Nat) (m : Mach) (n : Nat) (Z : List Slot) (xs : List Sym) (vs : List SVal) (l : List (Sym × CVal)) : Prop where
  of : ∀ b ∈ l, ∃ v, (b.1, v) ∈ xs.zip vs ∧ P.special b.1 = true ∧ VRel P glo k0 m n Z v b.2
  all : ∀ x ∈ xs, P.special x = true → x ∈ l.map Prod.fst
  nodup : (l.map Prod.fst).Nodup

theorem Specials.mem {n : Nat} {Z : List Slot} {xs : List Sym} {vs : List SVal} {l : List (Sym × CVal)} (h : Specials P glo k0 m n Z xs vs l) {y : Sym} : y ∈ l.map Prod.fst ↔ P.special y = true ∧ y ∈ xs := by
  constructor
  · intro hy
    obtain ⟨b, hb, rfl⟩ := List.mem_map.mp hy
    obtain ⟨v, h1, h2, _⟩ := h.of b hb
    exact ⟨h2, (List.of_mem_zip h1).1⟩
  · rintro ⟨h1, h2⟩; exact h.all y h2 h1

theorem Rel.enter {Z : List Slot} {S : SState} {T T1 : CState} {xs : List Sym} {vs : List SVal} {l : List (Sym × CVal)} {a p : Nat} {ρ : SEnv} (hr : Rel P glo k0 m Z S T) (hn : xs.Nodup) (hl : xs.length = vs.length)
    (hs : Stk P glo k0 m S.next Z T a vs) (hz : ∀ s ∈ Z, s.addr < a ∨ a + vs.length ≤ s.addr) (hb : Bnds T T1 l p) (hap : a + vs.length ≤ p) (hbl : Below Z p) (hsp : Specials P glo k0 m S.next Z xs vs l) :
    Rel P glo k0 m (lexSlots P xs a S.next Z) (sbind P xs vs ρ S).2 T1 := by
  have r := hr.toM.sbind (ρ := ρ) hl hs hz
  have hlt : Later S.next Z (sbind P xs vs ρ S).2.next (lexSlots P xs a S.next Z) := later_lexSlots sbind_next
  obtain ⟨g1, g2⟩ := sbind_glob (P := P) (ρ := ρ) (S := S) hn hl
  refine ⟨r.live, r.lt, ?_, ?_, r.uniq⟩
  · intro s hs'
    rw [hb.mem s.addr]
    · exact r.slot s hs'
    · rcases mem_lexSlots hs' with h | ⟨_, h, _⟩
      · exact hbl s h
      · omega
  · intro y
    by_cases hy : P.special y = true ∧ y ∈ xs
    · obtain ⟨b, hb', rfl⟩ := List.mem_map.mp (hsp.mem.mpr hy)
      obtain ⟨v, h1, h2, h3⟩ := hsp.of b hb'
      rw [hb.get hsp.nodup b hb', g1 _ h1 h2]
      exact .some (h3.later hlt hr.uniq)
    · rw [hb.other y (fun h => hy (hsp.mem.mp h)), g2 y hy]
      exact (hr.glob y).later hlt hr.uniq

theorem Rel.leaveG {Z : List Slot} {S S' : SState} {T T1 T' : CState} {xs : List Sym} {vs : List SVal} {l : List (Sym × CVal)} {a p H H1 : Nat} {ρ : SEnv} (hr : Rel P glo k0 m Z S T)
    (hb : Bnds T T1 l p) (hlx : ∀ s ∈ lexSlots P xs a S.next Z, s ∈ Z ∨ (H ≤ s.addr ∧ s.addr < p)) (hbl : Below Z p) (hsp : Specials P glo k0 m S.next Z xs vs l) (hHp : H ≤ p) (hH1 : p + 3 * l.length ≤ H1)
    (hr' : Rel P glo k0 m (lexSlots P xs a S.next Z) S' T') (hc : Chg (lexSlots P xs a S.next Z) H1 (sbind P xs vs ρ S).2 T1 S' T') :
    ∃ T'', unbindN l.length T' = some T'' ∧ T''.mem = T'.mem ∧ Rel P glo k0 m Z (sleave P xs S S') T'' ∧ Chg Z H S T (sleave P xs S S') T'' := by
  have hbl1 : ∀ s ∈ lexSlots P xs a S.next Z, s.addr < p := fun s hs => by
    rcases hlx s hs with h | h
    · exact hbl s h
    · exact h.2
  obtain ⟨T'', e1, e2, e3, e4⟩ := hb.unw T' (fun b h1 h2 => hc.mem b (by omega) (fun s hs => by have := hbl1 s hs; omega)) hc.sbp
  have hnext : S.next ≤ S'.next := Nat.le_trans sbind_next hc.next
  have back : Later S'.next (lexSlots P xs a S.next Z) S'.next Z := ⟨Nat.le_refl _, fun s hs _ => lexSlots_sub hs⟩
  refine ⟨T'', e1, e2, ⟨hr.live, fun s hs => Nat.lt_of_lt_of_le (hr.lt s hs) hnext, ?_, ?_, hr.uniq⟩, ⟨hnext, ?_, e3, ?_⟩⟩
  · intro s hs
    rw [e2]
    exact (hr'.slot s (lexSlots_sub hs)).later back hr'.uniq
  · intro y
    rw [e4]
    simp only [sleave]
    by_cases hy : P.special y = true ∧ y ∈ xs
    · rw [if_pos hy, if_pos (hsp.mem.mpr hy)]
      exact (hr.glob y).later (Later.next hnext) hr.uniq
    · rw [if_neg hy, if_neg (fun h => hy (hsp.mem.mp h))]
      exact (hr'.glob y).later back hr'.uniq
  · intro b hb' hz
    rw [e2, hc.mem b (by omega), hb.mem b (by omega)]
    intro s hs
    rcases hlx s hs with h | h
    · exact hz s h
    · omega
  · intro s hs he
    show S'.cells s.cell = _
    rw [hc.fn s (lexSlots_sub hs) he]
    exact sbind_cells (hr.lt s hs)

theorem Rel.leave {Z : List Slot} {S S' : SState} {T T1 T' : CState} {xs : List Sym} {vs : List SVal} {l : List (Sym × CVal)} {a p H H1 : Nat} {ρ : SEnv} (hr : Rel P glo k0 m Z S T)
    (hb : Bnds T T1 l p) (hap : a + xs.length ≤ p) (hbl : Below Z p) (hsp : Specials P glo k0 m S.next Z xs vs l) (hH : H ≤ a) (hHp : H ≤ p) (hH1 : p + 3 * l.length ≤ H1)
    (hr' : Rel P glo k0 m (lexSlots P xs a S.next Z) S' T') (hc : Chg (lexSlots P xs a S.next Z) H1 (sbind P xs vs ρ S).2 T1 S' T') :
    ∃ T'', unbindN l.length T' = some T'' ∧ T''.mem = T'.mem ∧ Rel P glo k0 m Z (sleave P xs S S') T'' ∧ Chg Z H S T (sleave P xs S S') T'' := by
  refine hr.leaveG (ρ := ρ) hb ?_ hbl hsp hHp hH1 hr' hc
  intro s hs
  rcases mem_lexSlots hs with h | ⟨h, h', _⟩
  · exact .inl h
  · exact .inr ⟨by omega, by omega⟩

/-- A special variable is bound where its value was. -/
theorem Rel.enterSp {Z : List Slot} {S : SState} {T T1 : CState} {x : Sym} {v : SVal} {v' : CVal} {p : Nat} {ρ : SEnv} (hr : Rel P glo k0 m Z S T) (hx : P.special x = true) (hv : VRel P glo k0 m S.next Z v v') (hb : Bnds T T1 [(x, v')] p) (hbl : Below Z p) :
    Rel P glo k0 m Z (sbind P [x] [v] ρ S).2 T1 ∧ Specials P glo k0 m S.next Z [x] [v] [(x, v')] := by
  have e : (sbind P [x] [v] ρ S).2 = S.setGlob x (some v) := by simp [sbind, hx]
  rw [e]
  refine ⟨⟨hr.live, hr.lt, fun s hs => by rw [hb.mem s.addr (hbl s hs)]; exact hr.slot s hs, ?_, hr.uniq⟩, ⟨?_, ?_, by simp⟩⟩
  · intro y
    simp only [SState.setGlob]
    by_cases hy : y = x
    · subst hy
      rw [if_pos rfl, hb.get (by simp) (y, v') (by simp)]
      exact .some hv
    · rw [if_neg hy, hb.other y (by simpa using hy)]
      exact hr.glob y
  · intro b hb
    simp at hb
    subst hb
    exact ⟨v, by simp, hx, hv⟩
  · intro y hy _
    simpa using hy

theorem VRel.leave {Z : List Slot} {S S' : SState} {T' : CState} {xs : List Sym} {a n : Nat} {v : SVal} {v' : CVal} (hr' : Rel P glo k0 m (lexSlots P xs a n Z) S' T')
    (hv : VRel P glo k0 m S'.next (lexSlots P xs a n Z) v v') : VRel P glo k0 m (sleave P xs S S').next Z v v' :=
  hv.later (Later.mk (Nat.le_refl _) fun _ hs _ => lexSlots_sub hs) hr'.uniq

/-! ### Leaving a form -/

theorem run_unbind {F : Code} {act : Act} {rest : List Frame} {c : Comp} {w v : CVal} {T : CState} {n : Nat} (hF : (c.unbindSpecial n).code <+: F) (ht : Top m act w T c v) :
    ∃ T2, Put T T2 (act.loc + (Cmp.ht c - 1)) v ∧ ∀ T3, unbindN n T2 = some T3 → Reach m (conf F act rest c.code.length w T) (conf F act rest (c.unbindSpecial n).code.length w T3) := by
  have h0 : (c.clear.resetVsp.emit (.unbindx n)).code <+: F := hF
  have h1 : (c.clear.resetVsp).code <+: F := (List.prefix_append _ _).trans h0
  obtain ⟨T1, r1, p1⟩ := run_clear (rest := rest) ((List.prefix_append _ _).trans h1) ht
  have r2 := run_vsp (m := m) (act := act) (rest := rest) (w := w) (T := T1) h1
  refine ⟨{ T1 with vsp := act.loc + c.clear.pc }, ⟨p1.at_, p1.other, p1.sbp, p1.glob⟩, fun T3 h3 => (r1.trans r2).trans ?_⟩
  have e1 : (c.unbindSpecial n).code.length = (c.clear.resetVsp).code.length + 1 := by
    show (c.clear.resetVsp.emit (.unbindx n)).code.length = _
    simp [Comp.emit]
  rw [e1]
  refine conf_step (pre := (c.clear.resetVsp).code) h0 ?_
  simp only [stepI, h3]
  rfl

theorem run_unbind_err {F : Code} {act : Act} {rest : List Frame} {c : Comp} {w : CVal} {T : CState} {n : Nat} (hF : (c.unbindSpecial n).code <+: F) (ht : TopErr m act w T c) :
    Reach m (conf F act rest c.code.length w T) .err := by
  have h0 : (c.clear.resetVsp.emit (.unbindx n)).code <+: F := hF
  have h1 : (c.clear.resetVsp).code <+: F := (List.prefix_append _ _).trans h0
  exact run_clear_err ((List.prefix_append _ _).trans h1) ht

theorem delFrame_code (s l : Nat) (c : Comp) : (c.delFrame s l).code = (c.store .w).code := by
  unfold Comp.delFrame Comp.pushx
  show ((c.store .w).discard _).clear.code = _
  rw [clear_self (discard_push _ _)]
  unfold Comp.discard
  split <;> rfl

theorem run_delFrame {F : Code} {act : Act} {rest : List Frame} {c : Comp} {w v : CVal} {T : CState} {s l : Nat} (hF : (c.delFrame s l).code <+: F) (ht : Top m act w T c v) :
    Reach m (conf F act rest c.code.length w T) (conf F act rest (c.delFrame s l).code.length v T) ∧ Top m act v T (c.delFrame s l) v := by
  rw [delFrame_code] at hF ⊢
  exact ⟨run_store_w hF ht, rfl⟩

/-- The end of a form that binds variables. -/
theorem run_delete {F : Code} {act : Act} {rest : List Frame} {c : Comp} {w v : CVal} {T : CState} {s l : Nat} {r : List (Nat × Nat)} {Q : CState → Prop} (hF : c.deleteFrame.code <+: F) (hc : c.cnt = (s, l) :: r) (ht : Top m act w T c v)
    (hq : ∀ T2, T2 = T ∨ Put T T2 (act.loc + (Cmp.ht c - 1)) v → ∃ T3, unbindN s T2 = some T3 ∧ T3.mem = T2.mem ∧ Q T3) :
    ∃ T3, Reach m (conf F act rest c.code.length w T) (conf F act rest c.deleteFrame.code.length v T3) ∧ Top m act v T3 c.deleteFrame v ∧ Q T3 := by
  have ed : c.deleteFrame.code = ((if 0 < s then c.unbindSpecial s else c).delFrame s l).code ∧ c.deleteFrame.push = some .w := by
    unfold Comp.deleteFrame; simp [hc]; rfl
  have et : ∀ T3, Top m act v T3 c.deleteFrame v := by
    intro T3
    unfold Top Comp.popx
    rw [ed.2]; rfl
  rw [ed.1] at hF ⊢
  by_cases h0 : 0 < s
  · rw [if_pos h0] at hF ⊢
    have hF1 := (op_delFrame [] s l (c.unbindSpecial s)).prefix.trans hF
    obtain ⟨T2, p2, h2⟩ := run_unbind (rest := rest) hF1 ht
    obtain ⟨T3, u1, u2, u3⟩ := hq T2 (.inr p2)
    refine ⟨T3, (h2 T3 u1).trans (run_delFrame hF ?_).1, et T3, u3⟩
    have : (c.unbindSpecial s).popx = (c.clear).popx ∨ True := .inr trivial
    have e1 : (c.unbindSpecial s).popx.1 = .loc 0 (Cmp.ht c - 1) := by
      unfold Comp.popx
      rw [unbindSpecial_push]
      show CX.loc 0 (c.clear.pc - 1) = _
      rw [clear_pc]
    unfold Top
    rw [e1]
    simp only [evalX, base, readW]
    rw [u2, p2.at_]
  · rw [if_neg h0] at hF ⊢
    have hs : s = 0 := by omega
    subst hs
    obtain ⟨T3, u1, u2, u3⟩ := hq T (.inl rfl)
    simp only [unbindN, Option.some.injEq] at u1
    subst u1
    exact ⟨T, (run_delFrame hF ht).1, et T, u3⟩

theorem run_delete_err {F : Code} {act : Act} {rest : List Frame} {c : Comp} {w : CVal} {T : CState} (hF : c.deleteFrame.code <+: F) (ht : TopErr m act w T c) :
    Reach m (conf F act rest c.code.length w T) .err := by
  have ed : c.deleteFrame.code = ((if 0 < (c.cnt.headD (0, 0)).1 then c.unbindSpecial (c.cnt.headD (0, 0)).1 else c).delFrame (c.cnt.headD (0, 0)).1 (c.cnt.headD (0, 0)).2).code := rfl
  rw [ed] at hF
  by_cases h0 : 0 < (c.cnt.headD (0, 0)).1
  · rw [if_pos h0] at hF
    exact run_unbind_err ((op_delFrame [] _ _ _).prefix.trans hF) ht
  · rw [if_neg h0, delFrame_code] at hF
    exact run_store_err (d := .w) hF (by simp [Dst.cx, evalX]) ht

end Eus.Cmp
