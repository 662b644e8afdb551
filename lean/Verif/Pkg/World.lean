import Verif.Pkg.Proofs
set_option autoImplicit false
/-! Helper lemmas: the calls of the interface refine the maps of `Spec`. -/
namespace Eus.Pkg
open Eus.Hash (probe probe_lt)

/-- Everything but the counters of the tables of present symbols. -/
structure RP (w : World) (a : AW) : Prop where
  pname : w.pname = a.name
  nsym : w.nsym = a.nsym
  npkg : w.npkg = a.npkg
  use : ∀ p, (w.pkg p).use = a.use p
  usedBy : ∀ p, (w.pkg p).usedBy = a.usedBy p
  int : ∀ p, TInv a.name a.nsym (w.pkg p).int (a.int p)
  ext : ∀ p, TInv a.name a.nsym (w.pkg p).ext (a.ext p)
  cext : ∀ p, CInv (w.pkg p).ext 0
  imp : ∀ p, a.imported p ≤ 28
  nodel : ∀ p, a.cut p = false → NoDel (w.pkg p).ext

/-- The packages of `w` are the maps of `a`. -/
structure R (w : World) (a : AW) : Prop extends RP w a where
  cint : ∀ p, CInv (w.pkg p).int (a.imported p)

theorem put_same (f : Nat → Name → Option SymId) (p : Nat) (n : Name) (o : Option SymId) :
    put f p n o p = put1 (f p) n o := by
  funext n'; simp [put, put1]

theorem put_other (f : Nat → Name → Option SymId) (p q : Nat) (n : Name) (o : Option SymId) (h : q ≠ p) :
    put f p n o q = f q := by
  funext n'; simp [put, h]

theorem conflictIn_spec {w : World} {a : AW} (hr : RP w a) (s : SymId) (qs : List Nat) :
    conflictIn w s qs = some true ∧ (∃ q ∈ qs, ∃ s' ∈ a.int q (a.name s), s' ≠ s) ∨
    conflictIn w s qs = some false ∧ ¬ (∃ q ∈ qs, ∃ s' ∈ a.int q (a.name s), s' ≠ s) := by
  induction qs with
  | nil => right; simp [conflictIn]
  | cons q qs ih =>
    rw [conflictIn, hr.pname]
    rcases findsymbol_spec (hr.int q) (a.name s) with ⟨s', i, h1, _, _, _, h5⟩ | ⟨i, h1, _, _, h4, _⟩
    · rw [h1]
      simp only
      by_cases hs : s' = s
      · rw [if_pos hs]
        rcases ih with ⟨h6, q', h7, h8⟩ | ⟨h6, h7⟩
        · exact .inl ⟨h6, q', List.mem_cons_of_mem _ h7, h8⟩
        · refine .inr ⟨h6, ?_⟩
          rintro ⟨q', h8, s'', h9, h10⟩
          rcases List.mem_cons.1 h8 with rfl | h8
          · rw [h5] at h9; cases h9; exact h10 hs
          · exact h7 ⟨q', h8, s'', h9, h10⟩
      · rw [if_neg hs]
        exact .inl ⟨rfl, q, List.mem_cons_self, s', h5, hs⟩
    · rw [h1]
      simp only
      rcases ih with ⟨h6, q', h7, h8⟩ | ⟨h6, h7⟩
      · exact .inl ⟨h6, q', List.mem_cons_of_mem _ h7, h8⟩
      · refine .inr ⟨h6, ?_⟩
        rintro ⟨q', h8, s'', h9, h10⟩
        rcases List.mem_cons.1 h8 with rfl | h8
        · rw [h4] at h9; cases h9
        · exact h7 ⟨q', h8, s'', h9, h10⟩

theorem findUsed_spec {w : World} {a : AW} (hr : RP w a) (n : Name) (us : List Nat) :
    findUsed w n us = some (us.findSome? fun u => a.ext u n) := by
  induction us with
  | nil => rfl
  | cons u us ih =>
    rw [findUsed, hr.pname, List.findSome?_cons]
    rcases findsymbol_spec (hr.ext u) n with ⟨s', i, h1, _, _, _, h5⟩ | ⟨i, h1, _, _, h4, _⟩
    · rw [h1, h5]
    · rw [h1, h4]; exact ih

theorem upd_pkg_same (w : World) (p : Nat) (f : Package → Package) : (w.upd p f).pkg p = f (w.pkg p) := by
  simp [World.upd]

theorem upd_pkg_other (w : World) (p q : Nat) (f : Package → Package) (h : q ≠ p) : (w.upd p f).pkg q = w.pkg q := by
  simp [World.upd, Function.update_of_ne h]

theorem upd2_pkg (w : World) (p q x : Nat) (f g : Package → Package) :
    ((w.upd q f).upd p g).pkg x =
      if x = p then g (if p = q then f (w.pkg q) else w.pkg p) else if x = q then f (w.pkg q) else w.pkg x := by
  simp [World.upd, Function.update_apply]

/-- adding a symbol to a table with a free word -/
theorem add_ext {w : World} {a : AW} (hr : RP w a) (s : SymId) (p : Nat) (hs : s < a.nsym)
    (hm : a.ext p (a.name s) = none) (i : Nat) (hlt : i < (w.pkg p).ext.size)
    (hfree : ((w.pkg p).ext.slot i).isSym = false)
    (hpath : Path (w.pkg p).ext.slot (w.pkg p).ext.size (rehash (a.name s) % (w.pkg p).ext.size) i) :
    ∃ t', extendIf w.pname { (w.pkg p).ext.set i s with count := putCount (w.pkg p).ext i } = some t' ∧
      RP (w.upd p fun k => { k with ext := t' }) { a with ext := put a.ext p (a.name s) (some s) } := by
  have h1 := set_spec (hr.ext p) s i hs hlt hfree hm hpath (set_hole _ 0 (hr.cext p) (by omega) i hlt)
  have h2 := set_cinv _ 0 (hr.cext p) i s hlt
  have h3 : TInv a.name a.nsym { (w.pkg p).ext.set i s with count := putCount (w.pkg p).ext i }
      (put1 (a.ext p) (a.name s) (some s)) := h1.congr (Nat.le_refl _) (fun _ _ => rfl) rfl rfl
  obtain ⟨t', h4, h5, h6, h7⟩ := extendIf_spec h3 0 h2
  refine ⟨t', by rw [hr.pname]; exact h4, ?_⟩
  constructor
  · exact hr.pname
  · exact hr.nsym
  · exact hr.npkg
  · intro q
    by_cases hq : q = p
    · subst hq; rw [upd_pkg_same]; exact hr.use q
    · rw [upd_pkg_other _ _ _ _ hq]; exact hr.use q
  · intro q
    by_cases hq : q = p
    · subst hq; rw [upd_pkg_same]; exact hr.usedBy q
    · rw [upd_pkg_other _ _ _ _ hq]; exact hr.usedBy q
  · intro q
    by_cases hq : q = p
    · subst hq; rw [upd_pkg_same]; exact hr.int q
    · rw [upd_pkg_other _ _ _ _ hq]; exact hr.int q
  · intro q
    show TInv _ _ _ (put a.ext p (a.name s) (some s) q)
    by_cases hq : q = p
    · subst hq; rw [upd_pkg_same, put_same]; exact h5
    · rw [upd_pkg_other _ _ _ _ hq, put_other _ _ _ _ _ hq]; exact hr.ext q
  · intro q
    by_cases hq : q = p
    · subst hq; rw [upd_pkg_same]; exact h6
    · rw [upd_pkg_other _ _ _ _ hq]; exact hr.cext q
  · exact hr.imp
  · intro q hq'
    by_cases hq : q = p
    · subst hq; rw [upd_pkg_same]
      apply h7
      intro j hj
      show Function.update (w.pkg q).ext.slot i (.sym s) j ≠ _
      by_cases hji : j = i
      · rw [hji, Function.update_self]; simp
      · rw [Function.update_of_ne hji]; exact hr.nodel q hq' j hj
    · rw [upd_pkg_other _ _ _ _ hq]; exact hr.nodel q hq'

theorem export_spec {w : World} {a a' : AW} {r : Ans} (hr : RP w a) (s : SymId) (p : Nat)
    (h : a.export s p = some (a', r)) :
    ∃ w', «export» w s p = some (w', r) ∧ RP w' a' ∧ (∀ q, (w'.pkg q).int = (w.pkg q).int) ∧
      a'.int = a.int ∧ a'.imported = a.imported ∧ a'.nsym = a.nsym ∧ a'.name = a.name := by
  unfold AW.export at h
  rw [«export», hr.usedBy]
  by_cases hs : s < a.nsym
  · rw [if_neg (not_not_intro hs)] at h
    rcases conflictIn_spec hr s (a.usedBy p) with ⟨h1, h2⟩ | ⟨h1, h2⟩
    · rw [if_pos h2] at h
      rw [h1]
      cases h
      exact ⟨w, rfl, hr, fun _ => rfl, by trivial, by trivial, by trivial, by trivial⟩
    · rw [if_neg h2] at h
      rw [h1]
      simp only
      have hpos := (hr.ext p).pos
      have hh : rehash (a.name s) % (w.pkg p).ext.size < (w.pkg p).ext.size := Nat.mod_lt _ hpos
      obtain ⟨d, g1, g2, g3⟩ := exists_first (w.pkg p).ext.slot (w.pkg p).ext.size _ (stopAt s) hh rfl (hr.ext p).hole
      have hl := exportLoop_spec (w.pkg p).ext.slot (w.pkg p).ext.size _ d s hpos g2 g3 (w.pkg p).ext.size 0
        (Nat.zero_le _) (by omega)
      rw [probe_zero] at hl
      rw [hr.pname, hl]
      have hplt := probe_lt (w.pkg p).ext.size (rehash (a.name s) % (w.pkg p).ext.size) d hpos
      have hpath : Path (w.pkg p).ext.slot (w.pkg p).ext.size (rehash (a.name s) % (w.pkg p).ext.size)
          (probe (w.pkg p).ext.size (rehash (a.name s) % (w.pkg p).ext.size) d) := by
        refine ⟨d, g1, rfl, fun d' hd' he => ?_⟩
        have := g3 d' hd'
        rw [he] at this
        cases this
      cases hm : a.ext p (a.name s) with
      | none =>
        rw [hm] at h
        simp only at h
        cases h
        have hfree : ((w.pkg p).ext.slot (probe (w.pkg p).ext.size (rehash (a.name s) % (w.pkg p).ext.size) d)).isSym = false := by
          cases hk : (w.pkg p).ext.slot (probe (w.pkg p).ext.size (rehash (a.name s) % (w.pkg p).ext.size) d) with
          | empty => rfl
          | deleted => rfl
          | sym s' =>
            exfalso
            rw [hk] at g2
            simp only [stopAt, beq_iff_eq] at g2
            subst g2
            have := ((hr.ext p).sound _ hplt _ hk).1
            rw [hm] at this
            cases this
        obtain ⟨t', k1, k2⟩ := add_ext hr s p hs hm _ hplt hfree hpath
        rw [hfree]
        simp only
        rw [hr.pname] at k1
        rw [k1]
        refine ⟨_, rfl, k2, ?_, by trivial, by trivial, by trivial, by trivial⟩
        intro q
        by_cases hq : q = p
        · subst hq; rw [upd_pkg_same]
        · rw [upd_pkg_other _ _ _ _ hq]
      | some s' =>
        rw [hm] at h
        simp only at h
        by_cases hc : s' = s ∧ a.cut p = false
        · rw [if_pos hc] at h
          cases h
          obtain ⟨hc1, hc2⟩ := hc
          subst hc1
          have hsym : ((w.pkg p).ext.slot (probe (w.pkg p).ext.size (rehash (a.name s') % (w.pkg p).ext.size) d)).isSym = true := by
            cases hk : (w.pkg p).ext.slot (probe (w.pkg p).ext.size (rehash (a.name s') % (w.pkg p).ext.size) d) with
            | sym _ => rfl
            | deleted => exact absurd hk (hr.nodel p hc2 _ hplt)
            | empty =>
              exfalso
              obtain ⟨j, m1, m2, m3⟩ := (hr.ext p).complete _ _ hm
              obtain ⟨e, m4, m5, m6⟩ := (hr.ext p).chain j m1 s' m2
              rcases Nat.lt_trichotomy e d with hed | hed | hed
              · have := g3 e hed
                rw [← m5, m2] at this
                simp [stopAt] at this
              · rw [hed] at m5
                rw [← m5, m2] at hk
                cases hk
              · exact m6 d hed hk
          rw [hsym]
          simp only
          exact ⟨w, rfl, hr, fun _ => rfl, by trivial, by trivial, by trivial, by trivial⟩
        · rw [if_neg hc] at h; cases h
  · rw [if_pos hs] at h; cases h

theorem makesymbol_spec {w : World} {a : AW} (hr : R w a) (n : Name) : R (w.makesymbol n) (a.newSym n) := by
  have key : ∀ t m, TInv a.name a.nsym t m → TInv (a.newSym n).name (a.newSym n).nsym t m := by
    intro t m h
    refine h.congr (Nat.le_succ _) (fun s hs => ?_) rfl rfl
    show Function.update a.name a.nsym n s = a.name s
    rw [Function.update_of_ne (Nat.ne_of_lt hs)]
  constructor
  · constructor
    · show Function.update w.pname w.nsym n = Function.update a.name a.nsym n
      rw [hr.pname, hr.nsym]
    · show w.nsym + 1 = a.nsym + 1
      rw [hr.nsym]
    · exact hr.npkg
    · exact hr.use
    · exact hr.usedBy
    · exact fun p => key _ _ (hr.int p)
    · exact fun p => key _ _ (hr.ext p)
    · exact hr.cext
    · exact hr.imp
    · exact hr.nodel
  · exact hr.cint

/-- a new table of present symbols in one package -/
theorem RP.setInt {w : World} {a : AW} (hr : RP w a) (p : Nat) (t : Table) (i' : Nat → Name → Option SymId)
    (h1 : TInv a.name a.nsym t (i' p)) (h2 : ∀ q, q ≠ p → i' q = a.int q) :
    RP (w.upd p fun k => { k with int := t }) { a with int := i' } := by
  constructor
  · exact hr.pname
  · exact hr.nsym
  · exact hr.npkg
  · intro q
    by_cases hq : q = p
    · subst hq; rw [upd_pkg_same]; exact hr.use q
    · rw [upd_pkg_other _ _ _ _ hq]; exact hr.use q
  · intro q
    by_cases hq : q = p
    · subst hq; rw [upd_pkg_same]; exact hr.usedBy q
    · rw [upd_pkg_other _ _ _ _ hq]; exact hr.usedBy q
  · intro q
    by_cases hq : q = p
    · subst hq; rw [upd_pkg_same]; exact h1
    · rw [upd_pkg_other _ _ _ _ hq]
      show TInv _ _ _ (i' q)
      rw [h2 q hq]; exact hr.int q
  · intro q
    by_cases hq : q = p
    · subst hq; rw [upd_pkg_same]; exact hr.ext q
    · rw [upd_pkg_other _ _ _ _ hq]; exact hr.ext q
  · intro q
    by_cases hq : q = p
    · subst hq; rw [upd_pkg_same]; exact hr.cext q
    · rw [upd_pkg_other _ _ _ _ hq]; exact hr.cext q
  · exact hr.imp
  · intro q hq'
    by_cases hq : q = p
    · subst hq; rw [upd_pkg_same]; exact hr.nodel q hq'
    · rw [upd_pkg_other _ _ _ _ hq]; exact hr.nodel q hq'

/-- the end of intern: `t0` is the table before the new symbol, `i` its place -/
theorem internEnd_spec (c : Cfg) {w : World} {a : AW} (hr : RP w a) (s : SymId) (p l : Nat)
    (hc : CInv { (w.pkg p).int with count := l } (a.imported p + 1))
    (hother : ∀ q, q ≠ p → CInv (w.pkg q).int (a.imported q)) {a' : AW} {r : Ans}
    (h : (if c.exportAll then
        match a.export s p with
        | none => none
        | some (a, .conflict) => some (a, .conflict)
        | some (a, _) => some (a, .sym s)
      else some (a, .sym s)) = some (a', r)) :
    ∃ w', internEnd c w s p l = some (w', r) ∧ R w' a' := by
  have h0 : TInv a.name a.nsym { (w.pkg p).int with count := l } (a.int p) :=
    (hr.int p).congr (Nat.le_refl _) (fun _ _ => rfl) rfl rfl
  obtain ⟨t', h1, h2, h3, _⟩ := extendIf_spec h0 _ hc
  rw [internEnd, hr.pname, h1]
  simp only
  have hr' : RP (w.upd p fun k => { k with int := t' }) a := by
    have := hr.setInt p t' a.int h2 (fun _ _ => rfl)
    exact this
  have hcint : ∀ q, CInv ((w.upd p fun k => { k with int := t' }).pkg q).int (a.imported q) := by
    intro q
    by_cases hq : q = p
    · subst hq; rw [upd_pkg_same]; exact h3
    · rw [upd_pkg_other _ _ _ _ hq]; exact hother q hq
  cases he : c.exportAll with
  | false =>
    rw [he] at h
    simp only [Bool.false_eq_true, ↓reduceIte, Option.some.injEq, Prod.mk.injEq] at h ⊢
    exact ⟨_, ⟨rfl, h.2⟩, h.1 ▸ ⟨hr', hcint⟩⟩
  | true =>
    rw [he] at h
    simp only [↓reduceIte] at h ⊢
    cases hx : a.export s p with
    | none => rw [hx] at h; cases h
    | some x =>
      obtain ⟨a2, r2⟩ := x
      rw [hx] at h
      obtain ⟨w2, g1, g2, g3, g4, g5, g6, g7⟩ := export_spec hr' s p hx
      rw [g1]
      have hR : R w2 a2 := ⟨g2, fun q => by rw [g3 q, g5]; exact hcint q⟩
      cases r2 with
      | conflict =>
        simp only [Option.some.injEq, Prod.mk.injEq] at h ⊢
        exact ⟨_, ⟨rfl, h.2⟩, h.1 ▸ hR⟩
      | done =>
        simp only [Option.some.injEq, Prod.mk.injEq] at h ⊢
        exact ⟨_, ⟨rfl, h.2⟩, h.1 ▸ hR⟩
      | sym s' =>
        simp only [Option.some.injEq, Prod.mk.injEq] at h ⊢
        exact ⟨_, ⟨rfl, h.2⟩, h.1 ▸ hR⟩

theorem intern_spec (c : Cfg) {w : World} {a a' : AW} {r : Ans} (hr : R w a) (p : Nat) (n : Name)
    (h : a.intern c p n = some (a', r)) : ∃ w', intern c w p n = some (w', r) ∧ R w' a' := by
  unfold AW.intern AW.denotes at h
  rw [intern, hr.pname, hr.use]
  rcases findsymbol_spec (hr.int p) n with ⟨s', i, h1, _, _, _, h5⟩ | ⟨i, h1, hlt, hfree, h4, hpath⟩
  · rw [h1]
    rw [h5] at h
    simp only [Option.some_or, Option.some.injEq, Prod.mk.injEq] at h ⊢
    exact ⟨_, ⟨rfl, h.2⟩, h.1 ▸ hr⟩
  · rw [h1, findUsed_spec hr.toRP]
    rw [h4, Option.none_or] at h
    simp only
    cases hu : (a.use p).findSome? (fun u => a.ext u n) with
    | some s' =>
      rw [hu] at h
      simp only [Option.some.injEq, Prod.mk.injEq] at h ⊢
      exact ⟨_, ⟨rfl, h.2⟩, h.1 ▸ hr⟩
    | none =>
      rw [hu] at h
      simp only at h ⊢
      rw [internNew]
      have hr1 := makesymbol_spec hr n
      have hpos := (hr.int p).pos
      have hskip : skipLoop (w.pkg p).int.slot (w.pkg p).int.size (w.pkg p).int.size i = some i := by
        obtain ⟨f, hf⟩ : ∃ f, (w.pkg p).int.size = f + 1 := ⟨(w.pkg p).int.size - 1, by omega⟩
        rw [hf, skipLoop]
        cases hk : (w.pkg p).int.slot i <;> simp [hk, Slot.isSym] at hfree ⊢
      have hskip : skipLoop ((w.makesymbol n).pkg p).int.slot ((w.makesymbol n).pkg p).int.size
          ((w.makesymbol n).pkg p).int.size i = some i := hskip
      rw [hskip]
      simp only
      have hname : (a.newSym n).name a.nsym = n := by simp [AW.newSym]
      have hT := set_spec (hr1.int p) a.nsym i (Nat.lt_succ_self _) hlt hfree (by rw [hname]; exact h4)
        (by rw [hname]; exact hpath) (set_hole _ _ (hr.cint p) (hr.imp p) i hlt)
      rw [hname] at hT
      have hC := set_cinv _ _ (hr.cint p) i a.nsym hlt
      rw [hr.nsym]
      have hr2 : RP ((w.makesymbol n).upd p fun k => { k with int := ((w.makesymbol n).pkg p).int.set i a.nsym })
          { a.newSym n with int := put (a.newSym n).int p n (some a.nsym) } := by
        refine hr1.toRP.setInt p _ _ ?_ (fun q hq => put_other _ _ _ _ _ hq)
        rw [put_same]
        exact hT
      have hother : ∀ q, q ≠ p → CInv (((w.makesymbol n).upd p fun k =>
          { k with int := ((w.makesymbol n).pkg p).int.set i a.nsym }).pkg q).int (a.imported q) := by
        intro q hq
        rw [upd_pkg_other _ _ _ _ hq]
        exact hr.cint q
      by_cases hk : p = c.keyword
      · rw [if_pos hk]
        simp only [if_pos hk] at h
        cases hx : AW.export { a.newSym n with int := put (a.newSym n).int p n (some a.nsym) } a.nsym p with
        | none => rw [hx] at h; cases h
        | some x =>
          obtain ⟨a2, r2⟩ := x
          rw [hx] at h
          obtain ⟨w2, g1, g2, g3, g4, g5, g6, g7⟩ := export_spec hr2 a.nsym p hx
          cases r2 with
          | conflict => simp at h
          | sym _ => simp at h
          | done =>
            simp only at h
            rw [show «export» ((w.makesymbol n).upd p fun k => { k with int := ((w.makesymbol n).pkg p).int.set i a.nsym }) a.nsym p = some (w2, .done) from g1]
            simp only
            refine internEnd_spec c g2 a.nsym p _ ?_ ?_ h
            · rw [g3 p, g5, upd_pkg_same]
              exact hC
            · intro q hq
              rw [g3 q, g5]
              exact hother q hq
      · rw [if_neg hk]
        simp only [if_neg hk] at h
        refine internEnd_spec c hr2 a.nsym p _ ?_ hother h
        rw [upd_pkg_same]
        exact hC

theorem useConflict_spec {w : World} {a : AW} (hr : RP w a) (q : Nat) (t : Table) (is : List Nat) :
    useConflict w q t is = some true ∧
      (∃ i ∈ is, ∃ s, t.slot i = .sym s ∧ ∃ s' ∈ a.int q (a.name s), s' ≠ s) ∨
    useConflict w q t is = some false ∧
      ¬ (∃ i ∈ is, ∃ s, t.slot i = .sym s ∧ ∃ s' ∈ a.int q (a.name s), s' ≠ s) := by
  induction is with
  | nil => right; simp [useConflict]
  | cons i is ih =>
    have lift : ∀ (hno : ¬ ∃ s, t.slot i = .sym s ∧ ∃ s' ∈ a.int q (a.name s), s' ≠ s)
        (o : Option Bool), o = useConflict w q t is →
        o = some true ∧ (∃ j ∈ i :: is, ∃ s, t.slot j = .sym s ∧ ∃ s' ∈ a.int q (a.name s), s' ≠ s) ∨
        o = some false ∧ ¬ (∃ j ∈ i :: is, ∃ s, t.slot j = .sym s ∧ ∃ s' ∈ a.int q (a.name s), s' ≠ s) := by
      rintro hno o rfl
      rcases ih with ⟨h6, q', h7, h8⟩ | ⟨h6, h7⟩
      · exact .inl ⟨h6, q', List.mem_cons_of_mem _ h7, h8⟩
      · refine .inr ⟨h6, ?_⟩
        rintro ⟨j, h8, h9⟩
        rcases List.mem_cons.1 h8 with rfl | h8
        · exact hno h9
        · exact h7 ⟨j, h8, h9⟩
    rw [useConflict]
    cases hk : t.slot i with
    | empty => exact lift (by rw [hk]; simp) _ rfl
    | deleted => exact lift (by rw [hk]; simp) _ rfl
    | sym s =>
      simp only
      rw [hr.pname]
      rcases findsymbol_spec (hr.int q) (a.name s) with ⟨s', j, h1, _, _, _, h5⟩ | ⟨j, h1, _, _, h4, _⟩
      · rw [h1]
        simp only
        by_cases hs : s' = s
        · rw [if_pos hs]
          refine lift ?_ _ rfl
          rintro ⟨x, h6, y, h7, h8⟩
          rw [hk] at h6
          cases h6
          rw [h5] at h7
          cases h7
          exact h8 hs
        · rw [if_neg hs]
          exact .inl ⟨rfl, i, List.mem_cons_self, s, hk, s', h5, hs⟩
      · rw [h1]
        simp only
        refine lift ?_ _ rfl
        rintro ⟨x, h6, y, h7, h8⟩
        rw [hk] at h6
        cases h6
        rw [h4] at h7
        cases h7

/-- a change of the use lists only -/
theorem R.lists {w w' : World} {a a' : AW} (hr : R w a)
    (h1 : w'.pname = w.pname) (h2 : w'.nsym = w.nsym) (h3 : w'.npkg = w.npkg)
    (h4 : ∀ p, (w'.pkg p).int = (w.pkg p).int) (h5 : ∀ p, (w'.pkg p).ext = (w.pkg p).ext)
    (h6 : ∀ p, (w'.pkg p).use = a'.use p) (h7 : ∀ p, (w'.pkg p).usedBy = a'.usedBy p)
    (g1 : a'.name = a.name) (g2 : a'.nsym = a.nsym) (g3 : a'.npkg = a.npkg) (g4 : a'.int = a.int)
    (g5 : a'.ext = a.ext) (g6 : a'.cut = a.cut) (g7 : a'.imported = a.imported) : R w' a' := by
  constructor
  · constructor
    · rw [h1, g1]; exact hr.pname
    · rw [h2, g2]; exact hr.nsym
    · rw [h3, g3]; exact hr.npkg
    · exact h6
    · exact h7
    · intro p; rw [h4, g1, g2, g4]; exact hr.int p
    · intro p; rw [h5, g1, g2, g5]; exact hr.ext p
    · intro p; rw [h5]; exact hr.cext p
    · rw [g7]; exact hr.imp
    · intro p; rw [h5, g6]; exact hr.nodel p
  · intro p; rw [h4, g7]; exact hr.cint p

theorem use_spec {w : World} {a a' : AW} {r : Ans} (hr : R w a) (q p : Nat)
    (h : a.usePkg q p = (a', r)) : ∃ w', usePkg w q p = some (w', r) ∧ R w' a' := by
  unfold AW.usePkg at h
  rw [usePkg]
  by_cases hpq : p = q
  · rw [if_pos hpq] at h ⊢
    cases h
    exact ⟨w, rfl, hr⟩
  · rw [if_neg hpq] at h ⊢
    have hiff : (∃ i ∈ List.range (w.pkg p).ext.size, ∃ s, (w.pkg p).ext.slot i = .sym s ∧
        ∃ s' ∈ a.int q (a.name s), s' ≠ s) ↔
        ∃ s < a.nsym, a.ext p (a.name s) = some s ∧ ∃ s' ∈ a.int q (a.name s), s' ≠ s := by
      constructor
      · rintro ⟨i, h1, s, h2, s', h3, h4⟩
        exact ⟨s, ((hr.ext p).sound i (List.mem_range.1 h1) s h2).2,
          ((hr.ext p).sound i (List.mem_range.1 h1) s h2).1, s', h3, h4⟩
      · rintro ⟨s, _, h1, s', h2, h3⟩
        obtain ⟨j, h4, h5, h6⟩ := (hr.ext p).complete _ s h1
        exact ⟨j, List.mem_range.2 h4, s, h5, s', h2, h3⟩
    rcases useConflict_spec hr.toRP q (w.pkg p).ext (List.range (w.pkg p).ext.size) with ⟨h1, h2⟩ | ⟨h1, h2⟩
    · rw [if_pos (hiff.1 h2)] at h
      rw [h1]
      cases h
      exact ⟨w, rfl, hr⟩
    · rw [if_neg (fun h' => h2 (hiff.2 h'))] at h
      rw [h1]
      cases h
      refine ⟨_, rfl, hr.lists rfl rfl rfl ?_ ?_ ?_ ?_ rfl rfl rfl rfl rfl rfl rfl⟩
      · intro x; rw [upd2_pkg, if_neg hpq]
        by_cases g1 : x = p
        · rw [if_pos g1, g1]
        · rw [if_neg g1]
          by_cases g2 : x = q
          · rw [if_pos g2, g2]
          · rw [if_neg g2]
      · intro x; rw [upd2_pkg, if_neg hpq]
        by_cases g1 : x = p
        · rw [if_pos g1, g1]
        · rw [if_neg g1]
          by_cases g2 : x = q
          · rw [if_pos g2, g2]
          · rw [if_neg g2]
      · intro x; rw [upd2_pkg]; simp only [Function.update_apply]; split_ifs with h1 h2 h3
        all_goals first
          | exact absurd ‹p = q› hpq
          | (exfalso; exact hpq (by rw [← ‹x = p›, ‹x = q›]))
          | (simp only [adjoin, hr.use] <;> simp_all)
      · intro x; rw [upd2_pkg]; simp only [Function.update_apply]; split_ifs with h1 h2 h3
        all_goals first
          | exact absurd ‹p = q› hpq
          | (simp only [adjoin, hr.usedBy] <;> simp_all)

theorem unuse_spec {w : World} {a : AW} (hr : R w a) (q p : Nat) : R (unuse w q p) (a.unuse q p) := by
  refine hr.lists rfl rfl rfl ?_ ?_ ?_ ?_ rfl rfl rfl rfl rfl rfl rfl
  · intro x; rw [unuse, upd2_pkg]; split_ifs with h1 h2 h3
    · rw [h1, h2]
    · rw [h1]
    · rw [h3]
    · rfl
  · intro x; rw [unuse, upd2_pkg]; split_ifs with h1 h2 h3
    · rw [h1, h2]
    · rw [h1]
    · rw [h3]
    · rfl
  · intro x; rw [unuse, upd2_pkg]; simp only [AW.unuse, Function.update_apply, ← hr.use]
    split_ifs with h1 h2 h3 h4 h5
    all_goals first | rfl | (exfalso; omega) | rw [h1]
  · intro x; rw [unuse, upd2_pkg]; simp only [AW.unuse, Function.update_apply, ← hr.usedBy]
    split_ifs with h1 h2 h3
    all_goals first | rfl | rw [h2] | rw [h3]

theorem removeName_spec {pname nsym t m} (hi : TInv pname nsym t m) (n : Name) :
    ∃ t', removeName pname t n .deleted = some t' ∧ TInv pname nsym t' (put1 m n none) ∧
      ∀ k, CInv t k → CInv t' k := by
  unfold removeName
  rcases findsymbol_spec hi n with ⟨s', i, h1, h2, h3, h4, h5⟩ | ⟨i, h1, hlt, hfree, h4, hpath⟩
  · rw [h1]
    refine ⟨_, rfl, ?_, fun k hk => mark_cinv t k hk i s' h3⟩
    rw [← h4]
    exact mark_spec hi s' i h2 h3
  · rw [h1]
    refine ⟨t, rfl, ?_, fun _ h => h⟩
    have : put1 m n none = m := by
      funext x
      unfold put1
      by_cases hx : x = n
      · rw [if_pos hx, hx, h4]
      · rw [if_neg hx]
    rw [this]
    exact hi

theorem unintern_spec {w : World} {a a' : AW} {r : Ans} (hr : R w a) (s : SymId) (p : Nat)
    (h : a.unintern s p = some (a', r)) : ∃ w', unintern w s p = some (w', r) ∧ R w' a' := by
  unfold AW.unintern at h
  split_ifs at h with hc
  cases h
  obtain ⟨t1, h1, h2, h3⟩ := removeName_spec (hr.int p) (a.name s)
  obtain ⟨t2, g1, g2, g3⟩ := removeName_spec (hr.ext p) (a.name s)
  rw [unintern, hr.pname, h1]
  simp only
  rw [show (w.upd p fun k => { k with int := t1 }).pname = a.name from hr.pname, upd_pkg_same, g1]
  refine ⟨_, rfl, ⟨⟨hr.pname, hr.nsym, hr.npkg, ?_, ?_, ?_, ?_, ?_, hr.imp, ?_⟩, ?_⟩⟩
  · intro x; rw [upd2_pkg, if_pos rfl]
    by_cases hx : x = p
    · rw [if_pos hx, hx]; exact hr.use p
    · rw [if_neg hx, if_neg hx]; exact hr.use x
  · intro x; rw [upd2_pkg, if_pos rfl]
    by_cases hx : x = p
    · rw [if_pos hx, hx]; exact hr.usedBy p
    · rw [if_neg hx, if_neg hx]; exact hr.usedBy x
  · intro x; rw [upd2_pkg, if_pos rfl]
    show TInv _ _ _ (put a.int p (a.name s) none x)
    by_cases hx : x = p
    · rw [if_pos hx, hx, put_same]; exact h2
    · rw [if_neg hx, if_neg hx, put_other _ _ _ _ _ hx]; exact hr.int x
  · intro x; rw [upd2_pkg, if_pos rfl]
    show TInv _ _ _ (put a.ext p (a.name s) none x)
    by_cases hx : x = p
    · rw [if_pos hx, hx, put_same]; exact g2
    · rw [if_neg hx, if_neg hx, put_other _ _ _ _ _ hx]; exact hr.ext x
  · intro x; rw [upd2_pkg, if_pos rfl]
    by_cases hx : x = p
    · rw [if_pos hx]; exact g3 _ (hr.cext p)
    · rw [if_neg hx, if_neg hx]; exact hr.cext x
  · intro x hx'
    rw [upd2_pkg, if_pos rfl]
    by_cases hx : x = p
    · simp [hx] at hx'
    · rw [if_neg hx, if_neg hx]
      simp only [Function.update_of_ne hx] at hx'
      exact hr.nodel x hx'
  · intro x; rw [upd2_pkg, if_pos rfl]
    by_cases hx : x = p
    · rw [if_pos hx, hx]; exact h3 _ (hr.cint p)
    · rw [if_neg hx, if_neg hx]; exact hr.cint x

theorem enter_spec {w : World} {a a' : AW} {r : Ans} (hr : R w a) (s : SymId) (p : Nat) (hs : s < a.nsym)
    (hm : a.int p (a.name s) = none) (h : a.enter s p = some (a', r)) :
    ∃ w', enter w s p = some (w', r) ∧ R w' a' := by
  unfold AW.enter at h
  split_ifs at h with hi
  cases h
  have hc := hr.cint p
  have hpos := (hr.int p).pos
  have hh : rehash (a.name s) % (w.pkg p).int.size < (w.pkg p).int.size := Nat.mod_lt _ hpos
  obtain ⟨d, g1, g2, g3⟩ := exists_first (w.pkg p).int.slot (w.pkg p).int.size _ (fun x => !x.isSym) hh rfl (hr.int p).hole
  simp only [Bool.not_eq_true', Bool.not_eq_false'] at g2 g3
  have hl := skipLoop_spec (w.pkg p).int.slot (w.pkg p).int.size _ d hpos g2 g3 (w.pkg p).int.size 0
    (Nat.zero_le _) (by omega)
  rw [probe_zero] at hl
  have hplt := probe_lt (w.pkg p).int.size (rehash (a.name s) % (w.pkg p).int.size) d hpos
  have hpath : Path (w.pkg p).int.slot (w.pkg p).int.size (rehash (a.name s) % (w.pkg p).int.size)
      (probe (w.pkg p).int.size (rehash (a.name s) % (w.pkg p).int.size) d) := by
    refine ⟨d, g1, rfl, fun d' hd' he => ?_⟩
    have := g3 d' hd'
    rw [he] at this
    cases this
  generalize probe (w.pkg p).int.size (rehash (a.name s) % (w.pkg p).int.size) d = e at *
  have hroom := hc.room
  have hsz := hc.size
  rw [enter]
  simp only
  rw [if_neg (by omega), hr.pname, hl]
  have h1 := set_spec (hr.int p) s e hs hplt g2 hm hpath (set_hole _ _ hc (hr.imp p) e hplt)
  have h2 := set_cinv _ _ hc e s hplt
  have h3 : TInv a.name a.nsym { (w.pkg p).int.set e s with count := putCount (w.pkg p).int e }
      (put a.int p (a.name s) (some s) p) := by
    rw [put_same]
    exact h1.congr (Nat.le_refl _) (fun _ _ => rfl) rfl rfl
  have h4 := hr.toRP.setInt p _ (put a.int p (a.name s) (some s)) h3 (fun q hq => put_other _ _ _ _ _ hq)
  refine ⟨_, rfl, ⟨⟨h4.pname, h4.nsym, h4.npkg, h4.use, h4.usedBy, h4.int, h4.ext, h4.cext, ?_, h4.nodel⟩, ?_⟩⟩
  · intro q
    show Function.update a.imported p (a.imported p + 1) q ≤ 28
    by_cases hq : q = p
    · rw [hq, Function.update_self]; omega
    · rw [Function.update_of_ne hq]; exact hr.imp q
  · intro q
    show CInv _ (Function.update a.imported p (a.imported p + 1) q)
    by_cases hq : q = p
    · rw [hq, Function.update_self, upd_pkg_same]; exact h2
    · rw [Function.update_of_ne hq, upd_pkg_other _ _ _ _ hq]; exact hr.cint q

theorem import_spec {w : World} {a a' : AW} {r : Ans} (hr : R w a) (s : SymId) (p : Nat)
    (h : a.import s p = some (a', r)) : ∃ w', «import» w s p = some (w', r) ∧ R w' a' := by
  unfold AW.import at h
  rw [«import», hr.pname]
  by_cases hs : s < a.nsym
  · rw [if_neg (not_not_intro hs)] at h
    rcases findsymbol_spec (hr.int p) (a.name s) with ⟨s', i, h1, h2, h3, h4, h5⟩ | ⟨i, h1, hlt, hfree, h4, hpath⟩
    · rw [h1]
      rw [h5] at h
      simp only at h ⊢
      by_cases he : s' = s
      · rw [if_pos he] at h; cases h
      · rw [if_neg he] at h ⊢
        cases h
        exact ⟨w, rfl, hr⟩
    · rw [h1]
      rw [h4] at h
      exact enter_spec hr s p hs h4 h
  · rw [if_pos hs] at h; cases h

theorem shadow_spec {w : World} {a a' : AW} {r : Ans} (hr : R w a) (n : Name) (p : Nat)
    (h : a.shadow n p = some (a', r)) : ∃ w', shadow w n p = some (w', r) ∧ R w' a' := by
  unfold AW.shadow at h
  rw [shadow, hr.pname]
  rcases findsymbol_spec (hr.int p) n with ⟨s', i, h1, h2, h3, h4, h5⟩ | ⟨i, h1, hlt, hfree, h4, hpath⟩
  · rw [h1]
    rw [h5] at h
    cases h
    exact ⟨w, rfl, hr⟩
  · rw [h1]
    rw [h4] at h
    simp only at h ⊢
    have hname : (a.newSym n).name a.nsym = n := by simp [AW.newSym]
    rw [hr.nsym]
    exact enter_spec (makesymbol_spec hr n) a.nsym p (Nat.lt_succ_self _) (by rw [hname]; exact h4) h

theorem new_tinv (pname : SymId → Name) (nsym : Nat) : TInv pname nsym .new (fun _ => none) := by
  refine ⟨⟨0, by decide, rfl⟩, ?_, ?_, ?_, ?_⟩
  · intro j _ s h; cases h
  · intro i _ j _ a b h; cases h
  · intro j _ s h; cases h
  · intro n s h; cases h

theorem new_cinv : CInv .new 0 :=
  ⟨by decide, by decide, by decide, by decide⟩

theorem foldUsed (p : Nat) (us : List Nat) : ∀ w : World,
    let w' := us.foldl (fun w u => w.upd u fun k => { k with usedBy := adjoin p k.usedBy }) w
    w'.pname = w.pname ∧ w'.nsym = w.nsym ∧ w'.npkg = w.npkg ∧
    (∀ x, (w'.pkg x).int = (w.pkg x).int) ∧ (∀ x, (w'.pkg x).ext = (w.pkg x).ext) ∧
    (∀ x, (w'.pkg x).use = (w.pkg x).use) ∧
    (fun x => (w'.pkg x).usedBy) =
      us.foldl (fun f u => Function.update f u (if p ∈ f u then f u else p :: f u)) (fun x => (w.pkg x).usedBy) := by
  induction us with
  | nil => intro w; exact ⟨rfl, rfl, rfl, fun _ => rfl, fun _ => rfl, fun _ => rfl, rfl⟩
  | cons u us ih =>
    intro w
    obtain ⟨h1, h2, h3, h4, h5, h6, h7⟩ := ih (w.upd u fun k => { k with usedBy := adjoin p k.usedBy })
    have key : ∀ x, ((w.upd u fun k => { k with usedBy := adjoin p k.usedBy }).pkg x) =
        if x = u then { w.pkg u with usedBy := adjoin p (w.pkg u).usedBy } else w.pkg x := by
      intro x; simp [World.upd, Function.update_apply]
    simp only [List.foldl_cons]
    refine ⟨h1, h2, h3, ?_, ?_, ?_, ?_⟩
    · intro x; rw [h4, key]; split_ifs with hx
      · rw [hx]
      · rfl
    · intro x; rw [h5, key]; split_ifs with hx
      · rw [hx]
      · rfl
    · intro x; rw [h6, key]; split_ifs with hx
      · rw [hx]
      · rfl
    · rw [h7]
      congr 1
      funext x
      rw [key, Function.update_apply]
      split_ifs with hx h8
      · simp [adjoin, h8]
      · simp [adjoin, h8]
      · rfl

theorem makePkg_spec {w : World} {a : AW} (hr : R w a) (us : List Nat) : R (makePkg w us) (a.makePkg us) := by
  obtain ⟨h1, h2, h3, h4, h5, h6, h7⟩ := foldUsed w.npkg us
    { w with pkg := Function.update w.pkg w.npkg ⟨.new, .new, us, []⟩, npkg := w.npkg + 1 }
  have hn := hr.npkg
  refine ⟨⟨h1.trans hr.pname, h2.trans hr.nsym, h3.trans (by show w.npkg + 1 = a.npkg + 1; rw [hn]), ?_, ?_, ?_, ?_, ?_, ?_, ?_⟩, ?_⟩
  · intro x
    refine (h6 x).trans ?_
    show (Function.update w.pkg w.npkg ⟨.new, .new, us, []⟩ x).use = Function.update a.use a.npkg us x
    rw [hn, Function.update_apply, Function.update_apply]
    split_ifs with hx
    · rfl
    · exact hr.use x
  · intro x
    refine (congrFun h7 x).trans ?_
    show _ = us.foldl _ (Function.update a.usedBy a.npkg []) x
    have : (fun x => (Function.update w.pkg w.npkg (⟨.new, .new, us, []⟩ : Package) x).usedBy) = Function.update a.usedBy a.npkg [] := by
      funext y
      rw [hn, Function.update_apply, Function.update_apply]
      split_ifs with hx
      · rfl
      · exact hr.usedBy y
    simp only
    rw [this, hn]
  · intro x
    refine (h4 x) ▸ ?_
    show TInv a.name a.nsym (Function.update w.pkg w.npkg ⟨.new, .new, us, []⟩ x).int (Function.update a.int a.npkg (fun _ => none) x)
    rw [hn, Function.update_apply, Function.update_apply]
    split_ifs with hx
    · exact new_tinv _ _
    · exact hr.int x
  · intro x
    refine (h5 x) ▸ ?_
    show TInv a.name a.nsym (Function.update w.pkg w.npkg ⟨.new, .new, us, []⟩ x).ext (Function.update a.ext a.npkg (fun _ => none) x)
    rw [hn, Function.update_apply, Function.update_apply]
    split_ifs with hx
    · exact new_tinv _ _
    · exact hr.ext x
  · intro x
    refine (h5 x) ▸ ?_
    show CInv (Function.update w.pkg w.npkg ⟨.new, .new, us, []⟩ x).ext 0
    rw [Function.update_apply]
    split_ifs with hx
    · exact new_cinv
    · exact hr.cext x
  · intro x
    show Function.update a.imported a.npkg 0 x ≤ 28
    rw [Function.update_apply]
    split_ifs
    · omega
    · exact hr.imp x
  · intro x hx'
    refine (h5 x) ▸ ?_
    show NoDel (Function.update w.pkg w.npkg ⟨.new, .new, us, []⟩ x).ext
    rw [Function.update_apply]
    split_ifs with hx
    · intro i _; simp [Table.new]
    · apply hr.nodel x
      simp only [AW.makePkg, ← hn, Function.update_of_ne hx] at hx'
      exact hx'
  · intro x
    refine (h4 x) ▸ ?_
    show CInv (Function.update w.pkg w.npkg ⟨.new, .new, us, []⟩ x).int (Function.update a.imported a.npkg 0 x)
    rw [hn, Function.update_apply, Function.update_apply]
    split_ifs with hx
    · exact new_cinv
    · exact hr.cint x

theorem step_spec (c : Cfg) {w : World} {a a' : AW} {r : Ans} (hr : R w a) (o : Op)
    (h : AStep c a o = some (a', r)) : ∃ w', step c w o = some (w', r) ∧ R w' a' := by
  cases o with
  | «intern» p n => exact intern_spec c hr p n h
  | «export» s p =>
    obtain ⟨w', h1, h2, h3, h4, h5, h6, h7⟩ := export_spec hr.toRP s p h
    exact ⟨w', h1, h2, fun q => by rw [h3, h5]; exact hr.cint q⟩
  | use q p =>
    simp only [AStep, Option.some.injEq] at h
    exact use_spec hr q p h
  | unuse q p =>
    simp only [AStep, Option.some.injEq, Prod.mk.injEq] at h
    exact ⟨_, by rw [step, h.2], h.1 ▸ unuse_spec hr q p⟩
  | unintern s p => exact unintern_spec hr s p h
  | «import» s p => exact import_spec hr s p h
  | shadow n p => exact shadow_spec hr n p h
  | mkPkg us =>
    simp only [AStep, Option.some.injEq, Prod.mk.injEq] at h
    exact ⟨_, by rw [step, h.2], h.1 ▸ makePkg_spec hr us⟩

theorem run_spec (c : Cfg) (os : List Op) : ∀ {w : World} {a a' : AW} {rs : List Ans}, R w a →
    ARun c a os = some (a', rs) → ∃ w', run c w os = some (w', rs) ∧ R w' a' := by
  induction os with
  | nil =>
    intro w a a' rs hr h
    simp only [ARun, Option.some.injEq, Prod.mk.injEq] at h
    exact ⟨w, by rw [run, h.2], h.1 ▸ hr⟩
  | cons o os ih =>
    intro w a a' rs hr h
    rw [ARun] at h
    cases ho : AStep c a o with
    | none => rw [ho] at h; cases h
    | some x =>
      obtain ⟨a1, r1⟩ := x
      rw [ho] at h
      simp only [Option.map_eq_some_iff] at h
      obtain ⟨⟨a2, rs2⟩, h1, h2⟩ := h
      obtain ⟨w1, g1, g2⟩ := step_spec c hr o ho
      obtain ⟨w2, g3, g4⟩ := ih g2 h1
      simp only [Prod.mk.injEq] at h2
      refine ⟨w2, ?_, h2.1 ▸ g4⟩
      rw [run, g1]
      simp only [g3, Option.map_some, h2.2]

theorem init_spec : R World.init AW.init :=
  ⟨⟨rfl, rfl, rfl, fun _ => rfl, fun _ => rfl, fun _ => new_tinv _ _, fun _ => new_tinv _ _, fun _ => new_cinv,
    fun _ => Nat.zero_le _, fun _ _ i _ => by simp [World.init, Table.new]⟩, fun _ => new_cinv⟩

/-! ### facts about the specification -/

theorem ARun_append (c : Cfg) (xs ys : List Op) (a : AW) :
    ARun c a (xs ++ ys) = (ARun c a xs).bind fun x => (ARun c x.1 ys).map fun y => (y.1, x.2 ++ y.2) := by
  induction xs generalizing a with
  | nil =>
    simp only [List.nil_append, ARun, Option.bind_some]
    cases ARun c a ys <;> rfl
  | cons o os ih =>
    rw [List.cons_append, ARun, ARun]
    cases AStep c a o with
    | none => rfl
    | some x =>
      simp only [ih]
      cases ARun c x.1 os with
      | none => rfl
      | some y =>
        simp only [Option.bind_some, Option.map_some]
        cases ARun c y.1 ys <;> rfl

theorem ARun_append_some (c : Cfg) (xs ys : List Op) (a a' : AW) (rs : List Ans)
    (h : ARun c a (xs ++ ys) = some (a', rs)) :
    ∃ a1 r1 r2, ARun c a xs = some (a1, r1) ∧ ARun c a1 ys = some (a', r2) ∧ rs = r1 ++ r2 := by
  rw [ARun_append] at h
  cases h1 : ARun c a xs with
  | none => rw [h1] at h; cases h
  | some x =>
    rw [h1] at h
    simp only [Option.bind_some, Option.map_eq_some_iff, Prod.mk.injEq] at h
    obtain ⟨y, h2, h3, h4⟩ := h
    exact ⟨x.1, x.2, y.2, rfl, by rw [h2, ← h3], h4.symm⟩

theorem ARun_length (c : Cfg) (xs : List Op) : ∀ (a a' : AW) (rs : List Ans),
    ARun c a xs = some (a', rs) → rs.length = xs.length := by
  induction xs with
  | nil => intro a a' rs h; simp only [ARun, Option.some.injEq, Prod.mk.injEq] at h; rw [← h.2]; rfl
  | cons o os ih =>
    intro a a' rs h
    rw [ARun] at h
    cases ho : AStep c a o with
    | none => rw [ho] at h; cases h
    | some x =>
      rw [ho] at h
      simp only [Option.map_eq_some_iff, Prod.mk.injEq] at h
      obtain ⟨y, h1, h2, h3⟩ := h
      rw [← h3, List.length_cons, List.length_cons, ih _ _ _ h1]

theorem findSymbol_spec {w : World} {a : AW} (hr : R w a) (p : Nat) (n : Name) :
    findSymbol w p n = some (a.int p n) := by
  unfold findSymbol
  rw [hr.pname]
  rcases findsymbol_spec (hr.int p) n with ⟨s', i, h1, h2, h3, h4, h5⟩ | ⟨i, h1, hlt, hfree, h4, hpath⟩
  · rw [h1, h5]; rfl
  · rw [h1, h4]; rfl

theorem findExternal_spec {w : World} {a : AW} (hr : R w a) (p : Nat) (n : Name) :
    findExternal w p n = some (a.ext p n) := by
  unfold findExternal
  rw [hr.pname]
  rcases findsymbol_spec (hr.ext p) n with ⟨s', i, h1, h2, h3, h4, h5⟩ | ⟨i, h1, hlt, hfree, h4, hpath⟩
  · rw [h1, h5]; rfl
  · rw [h1, h4]; rfl

theorem R.denotes_name {w : World} {a : AW} (hr : R w a) (p : Nat) (n : Name) (s : SymId)
    (h : a.denotes p n = some s) : a.name s = n ∧ s < a.nsym := by
  unfold AW.denotes at h
  cases hi : a.int p n with
  | some x =>
    rw [hi, Option.some_or] at h
    cases h
    exact (hr.int p).name n s hi
  | none =>
    rw [hi, Option.none_or] at h
    obtain ⟨u, _, h2⟩ := List.exists_of_findSome?_eq_some h
    exact (hr.ext u).name n s h2

/-- what export can do -/
theorem AW.export_cases {a a' : AW} {r : Ans} {s : SymId} {p : Nat} (h : a.export s p = some (a', r)) :
    (a' = a ∧ r = .conflict) ∨
    (a' = a ∧ r = .done ∧ a.ext p (a.name s) = some s) ∨
    (a' = { a with ext := put a.ext p (a.name s) (some s) } ∧ r = .done ∧ a.ext p (a.name s) = none ∧
      s < a.nsym ∧ ∀ q ∈ a.usedBy p, ∀ s' ∈ a.int q (a.name s), s' = s) := by
  unfold AW.export at h
  by_cases hs : s < a.nsym
  · rw [if_neg (not_not_intro hs)] at h
    by_cases hc : ∃ q ∈ a.usedBy p, ∃ s' ∈ a.int q (a.name s), s' ≠ s
    · rw [if_pos hc] at h
      cases h
      exact .inl ⟨rfl, rfl⟩
    · rw [if_neg hc] at h
      cases hm : a.ext p (a.name s) with
      | none =>
        rw [hm] at h
        cases h
        refine .inr (.inr ⟨rfl, rfl, rfl, hs, ?_⟩)
        intro q hq s' hs'
        by_contra hh
        exact hc ⟨q, hq, s', hs', hh⟩
      | some x =>
        rw [hm] at h
        simp only at h
        split_ifs at h with h2
        cases h
        exact .inr (.inl ⟨rfl, rfl, by rw [h2.1]⟩)
  · rw [if_pos hs] at h; cases h

/-- what intern can do -/
theorem AW.intern_cases {c : Cfg} {a a' : AW} {r : Ans} {p : Nat} {n : Name} (h : a.intern c p n = some (a', r)) :
    (∃ s, a' = a ∧ r = .sym s ∧ a.denotes p n = some s) ∨
    (a.denotes p n = none ∧ (r = .sym a.nsym ∨ r = .conflict ∧ c.exportAll = true) ∧
      a'.name = (a.newSym n).name ∧ a'.nsym = a.nsym + 1 ∧ a'.int = put a.int p n (some a.nsym) ∧
      a'.use = a.use ∧ a'.usedBy = a.usedBy ∧ a'.npkg = a.npkg ∧ a'.cut = a.cut ∧ a'.imported = a.imported ∧
      (a'.ext = a.ext ∨ a'.ext = put a.ext p n (some a.nsym) ∧ (p = c.keyword ∨ c.exportAll = true))) := by
  unfold AW.intern at h
  cases hd : a.denotes p n with
  | some s =>
    rw [hd] at h
    cases h
    exact .inl ⟨s, rfl, rfl, rfl⟩
  | none =>
    right
    rw [hd] at h
    simp only at h
    have hname : (a.newSym n).name a.nsym = n := by simp [AW.newSym]
    have hstep : ∀ (b b' : AW) (r : Ans), b.export a.nsym p = some (b', r) → b.name = (a.newSym n).name →
        b'.name = b.name ∧ b'.nsym = b.nsym ∧ b'.int = b.int ∧ b'.use = b.use ∧ b'.usedBy = b.usedBy ∧
        b'.npkg = b.npkg ∧ b'.cut = b.cut ∧ b'.imported = b.imported ∧ (r = .done ∨ r = .conflict) ∧
        (b'.ext = b.ext ∨ b'.ext = put b.ext p n (some a.nsym) ∧ b.ext p n = none) := by
      intro b b' r hb hn
      have e : b.name a.nsym = n := by rw [hn, hname]
      rcases AW.export_cases hb with ⟨rfl, rfl⟩ | ⟨rfl, rfl, _⟩ | ⟨rfl, rfl, h5, _⟩
      · simp
      · simp
      · rw [e] at h5 ⊢
        simp [h5]
    have hput : ∀ (f : Nat → Name → Option SymId) o, put (put f p n o) p n o = put f p n o := by
      intro f o; funext x y; simp only [put]; split_ifs <;> rfl
    by_cases hk : p = c.keyword
    · simp only [if_pos hk] at h
      cases hx : AW.export { a.newSym n with int := put (a.newSym n).int p n (some a.nsym) } a.nsym p with
      | none => rw [hx] at h; cases h
      | some x =>
        obtain ⟨b, r1⟩ := x
        rw [hx] at h
        obtain ⟨e1, e2, e3, e4, e5, e6, e7, e8, _, e9⟩ := hstep _ _ _ hx rfl
        cases r1 with
        | conflict => simp at h
        | sym _ => simp at h
        | done =>
          simp only at h
          cases hea : c.exportAll with
          | false =>
            rw [hea] at h
            simp only [Bool.false_eq_true, ↓reduceIte, Option.some.injEq, Prod.mk.injEq] at h
            obtain ⟨rfl, rfl⟩ := h
            refine ⟨rfl, .inl rfl, e1, e2, e3, e4, e5, e6, e7, e8, ?_⟩
            rcases e9 with e9 | ⟨e9, _⟩
            · exact .inl e9
            · exact .inr ⟨e9, .inl hk⟩
          | true =>
            rw [hea] at h
            simp only [↓reduceIte] at h
            cases hx2 : b.export a.nsym p with
            | none => rw [hx2] at h; cases h
            | some y =>
              obtain ⟨b2, r2⟩ := y
              rw [hx2] at h
              obtain ⟨d1, d2, d3, d4, d5, d6, d7, d8, d10, d9⟩ := hstep _ _ _ hx2 e1
              have hfin : a' = b2 ∧ (r = .sym a.nsym ∨ r = .conflict) := by
                rcases d10 with rfl | rfl
                · simp only [Option.some.injEq, Prod.mk.injEq] at h
                  exact ⟨h.1.symm, .inl h.2.symm⟩
                · simp only [Option.some.injEq, Prod.mk.injEq] at h
                  exact ⟨h.1.symm, .inr h.2.symm⟩
              obtain ⟨rfl, hrr⟩ := hfin
              refine ⟨rfl, ?_, d1.trans e1, d2.trans e2, d3.trans e3, d4.trans e4, d5.trans e5, d6.trans e6,
                d7.trans e7, d8.trans e8, ?_⟩
              · rcases hrr with h | h
                · exact .inl h
                · exact .inr ⟨h, rfl⟩
              · rcases e9 with e9 | ⟨e9, _⟩
                · rcases d9 with d9 | ⟨d9, _⟩
                  · exact .inl (d9.trans e9)
                  · exact .inr ⟨d9.trans (by rw [e9]; rfl), .inl hk⟩
                · rcases d9 with d9 | ⟨d9, _⟩
                  · exact .inr ⟨d9.trans e9, .inl hk⟩
                  · exact .inr ⟨d9.trans (by rw [e9]; exact hput _ _), .inl hk⟩
    · simp only [if_neg hk] at h
      cases hea : c.exportAll with
      | false =>
        rw [hea] at h
        simp only [Bool.false_eq_true, ↓reduceIte, Option.some.injEq, Prod.mk.injEq] at h
        obtain ⟨rfl, rfl⟩ := h
        exact ⟨rfl, .inl rfl, rfl, rfl, rfl, rfl, rfl, rfl, rfl, rfl, .inl rfl⟩
      | true =>
        rw [hea] at h
        simp only [↓reduceIte] at h
        cases hx2 : AW.export { a.newSym n with int := put (a.newSym n).int p n (some a.nsym) } a.nsym p with
        | none => rw [hx2] at h; cases h
        | some y =>
          obtain ⟨b2, r2⟩ := y
          rw [hx2] at h
          obtain ⟨d1, d2, d3, d4, d5, d6, d7, d8, d10, d9⟩ := hstep _ _ _ hx2 rfl
          have hfin : a' = b2 ∧ (r = .sym a.nsym ∨ r = .conflict) := by
            rcases d10 with rfl | rfl
            · simp only [Option.some.injEq, Prod.mk.injEq] at h
              exact ⟨h.1.symm, .inl h.2.symm⟩
            · simp only [Option.some.injEq, Prod.mk.injEq] at h
              exact ⟨h.1.symm, .inr h.2.symm⟩
          obtain ⟨rfl, hrr⟩ := hfin
          refine ⟨rfl, ?_, d1, d2, d3, d4, d5, d6, d7, d8, ?_⟩
          · rcases hrr with h | h
            · exact .inl h
            · exact .inr ⟨h, rfl⟩
          · rcases d9 with d9 | ⟨d9, _⟩
            · exact .inl d9
            · exact .inr ⟨d9, .inr rfl⟩

theorem AW.enter_cases {a a' : AW} {r : Ans} {s : SymId} {p : Nat} (h : a.enter s p = some (a', r)) :
    r = .done ∧ a'.name = a.name ∧ a'.nsym = a.nsym ∧ a'.int = put a.int p (a.name s) (some s) ∧
      a'.ext = a.ext ∧ a'.npkg = a.npkg := by
  unfold AW.enter at h
  split_ifs at h
  cases h
  exact ⟨rfl, rfl, rfl, rfl, rfl, rfl⟩

/-- symbols keep their names -/
theorem AStep_names (c : Cfg) (o : Op) (a a' : AW) (r : Ans) (h : AStep c a o = some (a', r)) :
    a.nsym ≤ a'.nsym ∧ ∀ s < a.nsym, a'.name s = a.name s := by
  have hnew : ∀ n, ∀ s < a.nsym, (a.newSym n).name s = a.name s := by
    intro n s hs
    simp only [AW.newSym]
    rw [Function.update_of_ne (Nat.ne_of_lt hs)]
  cases o with
  | «intern» p n =>
    rcases AW.intern_cases h with ⟨s, rfl, _⟩ | ⟨_, _, h3, h4, _⟩
    · exact ⟨Nat.le_refl _, fun _ _ => rfl⟩
    · rw [h3, h4]
      exact ⟨Nat.le_succ _, hnew n⟩
  | «export» s p =>
    rcases AW.export_cases h with ⟨rfl, _⟩ | ⟨rfl, _⟩ | ⟨rfl, _⟩
    all_goals exact ⟨Nat.le_refl _, fun _ _ => rfl⟩
  | use q p =>
    simp only [AStep, Option.some.injEq, AW.usePkg] at h
    split_ifs at h
    all_goals cases h
    all_goals exact ⟨Nat.le_refl _, fun _ _ => rfl⟩
  | unuse q p => cases h; exact ⟨Nat.le_refl _, fun _ _ => rfl⟩
  | unintern s p =>
    simp only [AStep, AW.unintern] at h
    split_ifs at h
    cases h
    exact ⟨Nat.le_refl _, fun _ _ => rfl⟩
  | «import» s p =>
    simp only [AStep, AW.import] at h
    split_ifs at h
    cases hm : a.int p (a.name s) with
    | some x =>
      rw [hm] at h
      simp only at h
      split_ifs at h
      cases h
      exact ⟨Nat.le_refl _, fun _ _ => rfl⟩
    | none =>
      rw [hm] at h
      obtain ⟨_, h1, h2, _⟩ := AW.enter_cases h
      rw [h1, h2]
      exact ⟨Nat.le_refl _, fun _ _ => rfl⟩
  | shadow n p =>
    simp only [AStep, AW.shadow] at h
    cases hm : a.int p n with
    | some x =>
      rw [hm] at h
      cases h
      exact ⟨Nat.le_refl _, fun _ _ => rfl⟩
    | none =>
      rw [hm] at h
      obtain ⟨_, h1, h2, _⟩ := AW.enter_cases h
      rw [h1, h2]
      exact ⟨Nat.le_succ _, hnew n⟩
  | mkPkg us => cases h; exact ⟨Nat.le_refl _, fun _ _ => rfl⟩

theorem ARun_names (c : Cfg) (os : List Op) : ∀ (a a' : AW) (rs : List Ans), ARun c a os = some (a', rs) →
    a.nsym ≤ a'.nsym ∧ ∀ s < a.nsym, a'.name s = a.name s := by
  induction os with
  | nil =>
    intro a a' rs h
    simp only [ARun, Option.some.injEq, Prod.mk.injEq] at h
    rw [← h.1]
    exact ⟨Nat.le_refl _, fun _ _ => rfl⟩
  | cons o os ih =>
    intro a a' rs h
    rw [ARun] at h
    cases ho : AStep c a o with
    | none => rw [ho] at h; cases h
    | some x =>
      rw [ho] at h
      simp only [Option.map_eq_some_iff, Prod.mk.injEq] at h
      obtain ⟨y, h1, h2, h3⟩ := h
      obtain ⟨g1, g2⟩ := AStep_names c o a x.1 x.2 ho
      obtain ⟨g3, g4⟩ := ih x.1 y.1 y.2 h1
      rw [← h2]
      exact ⟨Nat.le_trans g1 g3, fun s hs => by rw [g4 s (Nat.lt_of_lt_of_le hs g1), g2 s hs]⟩

/-- a symbol stays present in its package unless it is uninterned from it -/
theorem AStep_present (c : Cfg) (o : Op) (a a' : AW) (r : Ans) (h : AStep c a o = some (a', r))
    (p : Nat) (n : Name) (s : SymId) (hp : p < a.npkg) (hs : a.int p n = some s)
    (ho : ∀ x, o = .unintern x p → a.name x ≠ n) : a'.int p n = some s ∧ p < a'.npkg := by
  have hput : ∀ q n' s', a.int q n' = none → put a.int q n' (some s') p n = some s := by
    intro q n' s' hq
    unfold put
    rw [if_neg, hs]
    rintro ⟨rfl, rfl⟩
    rw [hs] at hq
    cases hq
  cases o with
  | «intern» q n' =>
    rcases AW.intern_cases h with ⟨s, rfl, _⟩ | ⟨h1, _, _, _, h5, _, _, h8, _⟩
    · exact ⟨hs, hp⟩
    · rw [h5, h8]
      refine ⟨hput q n' _ ?_, hp⟩
      unfold AW.denotes at h1
      cases hx : a.int q n' with
      | none => rfl
      | some x => rw [hx, Option.some_or] at h1; cases h1
  | «export» s p =>
    rcases AW.export_cases h with ⟨rfl, _⟩ | ⟨rfl, _⟩ | ⟨rfl, _⟩
    all_goals exact ⟨hs, hp⟩
  | use q p =>
    simp only [AStep, Option.some.injEq, AW.usePkg] at h
    split_ifs at h
    all_goals cases h
    all_goals exact ⟨hs, hp⟩
  | unuse q p => cases h; exact ⟨hs, hp⟩
  | unintern x q =>
    simp only [AStep, AW.unintern] at h
    split_ifs at h
    cases h
    refine ⟨?_, hp⟩
    show put a.int q (a.name x) none p n = some s
    unfold put
    rw [if_neg, hs]
    rintro ⟨rfl, rfl⟩
    exact ho x rfl rfl
  | «import» x q =>
    simp only [AStep, AW.import] at h
    split_ifs at h
    cases hm : a.int q (a.name x) with
    | some y =>
      rw [hm] at h
      simp only at h
      split_ifs at h
      cases h
      exact ⟨hs, hp⟩
    | none =>
      rw [hm] at h
      obtain ⟨_, h1, h2, h3, _, h4⟩ := AW.enter_cases h
      rw [h3, h4]
      exact ⟨hput _ _ _ hm, hp⟩
  | shadow n' q =>
    simp only [AStep, AW.shadow] at h
    cases hm : a.int q n' with
    | some x =>
      rw [hm] at h
      cases h
      exact ⟨hs, hp⟩
    | none =>
      rw [hm] at h
      obtain ⟨_, h1, h2, h3, _, h4⟩ := AW.enter_cases h
      rw [h3, h4]
      have : (a.newSym n').name a.nsym = n' := by simp [AW.newSym]
      rw [this]
      exact ⟨hput _ _ _ hm, hp⟩
  | mkPkg us =>
    cases h
    refine ⟨?_, Nat.lt_succ_of_lt hp⟩
    show Function.update a.int a.npkg (fun _ => none) p n = some s
    rw [Function.update_of_ne (Nat.ne_of_lt hp), hs]

/-- interning does not change what a name denotes once it denotes something -/
theorem AStep_intern_denotes (c : Cfg) (hc : c.exportAll = false) (q : Nat) (n' : Name) (a a' : AW) (r : Ans)
    (h : AStep c a (.intern q n') = some (a', r)) (p : Nat) (n : Name) (s : SymId)
    (hk : c.keyword ∉ a.use p) (hs : a.denotes p n = some s) : a'.denotes p n = some s ∧ a'.use p = a.use p := by
  rcases AW.intern_cases h with ⟨s, rfl, _⟩ | ⟨h1, _, _, _, h5, h6, _, _, _, _, h11⟩
  · exact ⟨hs, rfl⟩
  · refine ⟨?_, by rw [h6]⟩
    have hint : a'.int p n = a.int p n := by
      rw [h5]
      unfold put
      rw [if_neg]
      rintro ⟨rfl, rfl⟩
      rw [h1] at hs
      cases hs
    have hext : (a.use p).findSome? (fun u => a'.ext u n) = (a.use p).findSome? (fun u => a.ext u n) := by
      have hx : ∀ u ∈ a.use p, a'.ext u n = a.ext u n := by
        intro u hu
        rcases h11 with h11 | ⟨h11, h12 | h12⟩
        · rw [h11]
        · rw [h11]
          unfold put
          rw [if_neg]
          rintro ⟨rfl, _⟩
          rw [h12] at hu
          exact hk hu
        · rw [hc] at h12; cases h12
      generalize a.use p = us at hx
      induction us with
      | nil => rfl
      | cons u us ih =>
        rw [List.findSome?_cons, List.findSome?_cons, hx u List.mem_cons_self,
          ih (fun v hv => hx v (List.mem_cons_of_mem _ hv))]
    unfold AW.denotes at hs ⊢
    rw [hint, h6, hext]
    exact hs

theorem ARun_interns_denotes (c : Cfg) (hc : c.exportAll = false) (ms : List (Nat × Name)) :
    ∀ (a a' : AW) (rs : List Ans), ARun c a (ms.map fun m => .intern m.1 m.2) = some (a', rs) →
    ∀ (p : Nat) (n : Name) (s : SymId), c.keyword ∉ a.use p → a.denotes p n = some s → a'.denotes p n = some s := by
  induction ms with
  | nil =>
    intro a a' rs h p n s _ hs
    simp only [ARun, List.map_nil, Option.some.injEq, Prod.mk.injEq] at h
    rw [← h.1]
    exact hs
  | cons m ms ih =>
    intro a a' rs h p n s hk hs
    rw [List.map_cons, ARun] at h
    cases ho : AStep c a (.intern m.1 m.2) with
    | none => rw [ho] at h; cases h
    | some x =>
      rw [ho] at h
      simp only [Option.map_eq_some_iff, Prod.mk.injEq] at h
      obtain ⟨y, h1, h2, h3⟩ := h
      obtain ⟨g1, g2⟩ := AStep_intern_denotes c hc m.1 m.2 a x.1 x.2 ho p n s hk hs
      rw [← h2]
      exact ih x.1 y.1 y.2 h1 p n s (by rw [g2]; exact hk) g1

/-- after an intern the name denotes the symbol given back -/
theorem AStep_intern_now (c : Cfg) (a a' : AW) (p : Nat) (n : Name) (s : SymId)
    (h : AStep c a (.intern p n) = some (a', .sym s)) : a'.denotes p n = some s ∧ a'.use = a.use := by
  rcases AW.intern_cases h with ⟨x, rfl, h2, h3⟩ | ⟨_, h2, _, _, h5, h6, _⟩
  · cases h2
    exact ⟨h3, rfl⟩
  · rcases h2 with h2 | ⟨h2, _⟩
    · cases h2
      refine ⟨?_, h6⟩
      unfold AW.denotes
      rw [h5]
      simp [put]
    · cases h2

/-- what an intern answers when the name denotes something -/
theorem AStep_intern_found (c : Cfg) (a : AW) (p : Nat) (n : Name) (s : SymId) (h : a.denotes p n = some s) :
    AStep c a (.intern p n) = some (a, .sym s) := by
  simp only [AStep, AW.intern, h]

/-- what the keyword package looks like when nobody uses it -/
structure KW (c : Cfg) (a : AW) : Prop where
  alone : a.usedBy c.keyword = []
  ext : ∀ n s, a.ext c.keyword n = some s → a.int c.keyword n = some s
  cut : ∀ p, a.cut p = false
  use : ∀ p, c.keyword ∉ a.use p

theorem foldUsedBy_other (p k : Nat) (us : List Nat) (hk : k ∉ us) : ∀ f : Nat → List Nat,
    us.foldl (fun f u => Function.update f u (if p ∈ f u then f u else p :: f u)) f k = f k := by
  induction us with
  | nil => intro f; rfl
  | cons u us ih =>
    intro f
    rw [List.foldl_cons, ih (fun h => hk (List.mem_cons_of_mem _ h)), Function.update_of_ne]
    rintro rfl
    exact hk List.mem_cons_self

theorem KW_intern (c : Cfg) (hc : c.exportAll = false) (a : AW) (h : KW c a) (p : Nat) (n : Name) :
    ∃ a' s, AStep c a (.intern p n) = some (a', .sym s) ∧ KW c a' := by
  have some_of : ∀ x, AStep c a (.intern p n) = some x → (x.1.cut = a.cut → ∃ a' s, AStep c a (.intern p n) = some (a', .sym s) ∧ KW c a') := by
    intro x hx _
    obtain ⟨a', r⟩ := x
    rcases AW.intern_cases hx with ⟨s, rfl, rfl, _⟩ | ⟨h1, h2, _, _, h5, h6, h7, _, h9, _, h11⟩
    · exact ⟨a', s, hx, h⟩
    · rcases h2 with rfl | ⟨_, h2⟩
      · refine ⟨a', _, hx, ?_, ?_, ?_, ?_⟩
        · rw [h7]; exact h.alone
        · intro m s hs
          rw [h5]
          rcases h11 with h11 | ⟨h11, h12 | h12⟩
          · rw [h11] at hs
            have := h.ext m s hs
            unfold put
            rw [if_neg, this]
            rintro ⟨rfl, rfl⟩
            unfold AW.denotes at h1
            rw [this, Option.some_or] at h1
            cases h1
          · rw [h11] at hs
            unfold put at hs ⊢
            by_cases hm : c.keyword = p ∧ m = n
            · rw [if_pos hm] at hs ⊢; exact hs
            · rw [if_neg hm] at hs ⊢; exact h.ext m s hs
          · rw [hc] at h12; cases h12
        · rw [h9]; exact h.cut
        · rw [h6]; exact h.use
      · rw [hc] at h2; cases h2
  have hsome : ∃ x, AStep c a (.intern p n) = some x ∧ x.1.cut = a.cut := by
    simp only [AStep, AW.intern]
    cases hd : a.denotes p n with
    | some s => exact ⟨_, rfl, rfl⟩
    | none =>
      simp only [hc]
      by_cases hk : p = c.keyword
      · have hname : (a.newSym n).name a.nsym = n := by simp [AW.newSym]
        have hexp : AW.export { a.newSym n with int := put (a.newSym n).int p n (some a.nsym) } a.nsym p =
            some ({ { a.newSym n with int := put (a.newSym n).int p n (some a.nsym) } with
              ext := put (a.newSym n).ext p n (some a.nsym) }, .done) := by
          unfold AW.export
          rw [if_neg (by show ¬ ¬ a.nsym < a.nsym + 1; omega), if_neg]
          · have : (a.newSym n).ext p ((a.newSym n).name a.nsym) = none := by
              rw [hname, hk]
              show a.ext c.keyword n = none
              cases hx : a.ext c.keyword n with
              | none => rfl
              | some s =>
                have := h.ext n s hx
                unfold AW.denotes at hd
                rw [hk, this, Option.some_or] at hd
                cases hd
            rw [hname] at this
            simp only [hname, this]
          · rintro ⟨q, hq, _⟩
            have : q ∈ a.usedBy p := hq
            rw [hk, h.alone] at this
            cases this
        simp only [if_pos hk, hexp]
        exact ⟨_, rfl, rfl⟩
      · simp only [if_neg hk]
        exact ⟨_, rfl, rfl⟩
  obtain ⟨x, h1, h2⟩ := hsome
  exact some_of x h1 h2

theorem KW_mkPkg (c : Cfg) (a : AW) (h : KW c a) (us : List Nat) (hu : c.keyword ∉ us) : KW c (a.makePkg us) := by
  refine ⟨?_, ?_, ?_, ?_⟩
  · simp only [AW.makePkg]
    rw [foldUsedBy_other _ _ us hu, Function.update_apply]
    split_ifs
    · rfl
    · exact h.alone
  · intro n s
    show Function.update a.ext a.npkg (fun _ => none) c.keyword n = some s → Function.update a.int a.npkg (fun _ => none) c.keyword n = some s
    rw [Function.update_apply, Function.update_apply]
    split_ifs
    · intro h; cases h
    · exact h.ext n s
  · intro p
    show Function.update a.cut a.npkg false p = false
    rw [Function.update_apply]
    split_ifs
    · rfl
    · exact h.cut p
  · intro p
    show c.keyword ∉ Function.update a.use a.npkg us p
    rw [Function.update_apply]
    split_ifs
    · exact hu
    · exact h.use p

/-- creation of packages that do not use the keyword package, and interning -/
def Plain (c : Cfg) : Op → Prop
  | .intern _ _ => True
  | .mkPkg us => c.keyword ∉ us
  | _ => False

theorem ARun_plain (c : Cfg) (hc : c.exportAll = false) (os : List Op) (ho : ∀ o ∈ os, Plain c o) : ∀ a, KW c a →
    ∃ a' rs, ARun c a os = some (a', rs) ∧ KW c a' := by
  induction os with
  | nil => intro a h; exact ⟨a, [], rfl, h⟩
  | cons o os ih =>
    intro a h
    have h1 := ho o List.mem_cons_self
    have hstep : ∃ a' r, AStep c a o = some (a', r) ∧ KW c a' := by
      cases o with
      | «intern» p n =>
        obtain ⟨a', s, h2, h3⟩ := KW_intern c hc a h p n
        exact ⟨a', _, h2, h3⟩
      | mkPkg us => exact ⟨_, _, rfl, KW_mkPkg c a h us h1⟩
      | «export» _ _ => exact h1.elim
      | use _ _ => exact h1.elim
      | unuse _ _ => exact h1.elim
      | unintern _ _ => exact h1.elim
      | «import» _ _ => exact h1.elim
      | shadow _ _ => exact h1.elim
    obtain ⟨a1, r, h2, h3⟩ := hstep
    obtain ⟨a2, rs, h4, h5⟩ := ih (fun o h => ho o (List.mem_cons_of_mem _ h)) a1 h3
    exact ⟨a2, r :: rs, by rw [ARun, h2]; simp only [h4, Option.map_some], h5⟩

end Eus.Pkg
