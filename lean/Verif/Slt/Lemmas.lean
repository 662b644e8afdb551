import Verif.Slt.Spec
import Verif.Cls.Props
import Mathlib.Data.List.Nodup
set_option autoImplicit false
/- Lemmas for C204. -/
namespace Eus.Slt
open Eus.Cls

theorem findSym_get (s : Sym) : ∀ l : List Sym, l[findSym s l]? = if s ∈ l then some s else none
  | [] => by simp [findSym]
  | v :: vs => by
    rw [findSym]
    by_cases h : v = s
    · simp [h]
    · rw [if_neg h, List.getElem?_cons_succ, findSym_get s vs]
      have : s ≠ v := fun e => h e.symm
      simp [this]

theorem findStr_get (s : String) : ∀ l : List Sym, l[findStr s l]? = l.find? fun v => v.pname == s
  | [] => by simp [findStr]
  | v :: vs => by
    rw [findStr]
    by_cases h : v.pname = s
    · simp [h]
    · rw [if_neg h, List.getElem?_cons_succ, findStr_get s vs]
      simp [h]

theorem toCInt_sane (i : Int) (h : 0 ≤ i ∧ i < 2 ^ 31) : toCInt i = i := by
  unfold toCInt
  rw [Int.bmod_eq_of_le (by omega) (by omega)]

theorem raw_spec (l : List Sym) (id : Id) (h : id.Sane) :
    match rawIndex l id with
    | none => slotOf l id = none
    | some n => 0 ≤ n ∧ slotOf l id = l[n.toNat]? := by
  cases id with
  | int i =>
    simp only [rawIndex, slotOf, toCInt_sane i h]
    exact ⟨h.1, by rw [if_pos h.1]⟩
  | sym s =>
    simp only [rawIndex, slotOf]
    exact ⟨by omega, by rw [Int.toNat_natCast, findSym_get]⟩
  | str s =>
    simp only [rawIndex, slotOf]
    exact ⟨by omega, by rw [Int.toNat_natCast, findStr_get]⟩
  | other => rfl

theorem addVars_spec : ∀ (slots rev : List Sym), rev.Nodup →
    addVars rev slots = if (rev.reverse ++ slots).Nodup then some (rev.reverse ++ slots) else none
  | [], rev, h => by simp [addVars, List.nodup_reverse.2 h]
  | v :: vs, rev, h => by
    rw [addVars]
    by_cases hv : v ∈ rev
    · rw [if_pos hv, if_neg]
      intro hn
      exact (List.nodup_append.1 hn).2.2 v (List.mem_reverse.2 hv) v (by simp) rfl
    · rw [if_neg hv, addVars_spec vs (v :: rev) (List.nodup_cons.2 ⟨hv, h⟩)]
      simp

/-- The program and the world agree. -/
structure SInv (s : St) (w : World) : Prop where
  ag : Agree s.cls w.hist
  names : s.names = w.names
  vars : s.vars = w.slots
  len : w.slots.length = w.hist.supers.length
  nlen : w.names.length = w.slots.length
  nodup : ∀ l ∈ w.slots, l.Nodup
  pre : ∀ a b la lb, w.slots[a]? = some la → w.slots[b]? = some lb → Desc w.hist.superOf a b → lb <+: la
  obj : ∀ (o k : Nat) (l : List Sym), w.hist.insts[o]? = some k → w.slots[k]? = some l → s.objs[o]? = some (l.map (w.val o))
  olen : s.objs.length = w.hist.insts.length
  nnodup : w.names.Nodup
  accS : ∀ e ∈ s.acc, ∃ (c : Nat) (l : List Sym) (v : Sym), w.names[c]? = some e.2.1 ∧ w.slots[c]? = some l ∧ l[e.2.2]? = some v ∧ e.1 = accName e.2.1 v
  accC : ∀ (c : Nat) (n : Sym) (l : List Sym) (v : Sym), w.names[c]? = some n → w.slots[c]? = some l → v ∈ l → ∃ e ∈ s.acc, e.1 = accName n v

theorem derived_iff {s : St} {w : World} (h : SInv s w) (o c : Nat) (hc : c < w.slots.length) : DERIVEDP s.cls o c = true ↔ w.isa o c := by
  have hag := h.ag
  unfold World.isa DERIVEDP
  have ho : s.cls.objs[o]? = (w.hist.insts[o]?).map s.cls.cix := by rw [hag.obj.objs, List.getElem?_map]
  cases e : w.hist.insts[o]? with
  | none => rw [ho, e]; simp
  | some k =>
    rw [ho, e]
    have hk : k < s.cls.nextcix := hag.obj.known k (List.mem_of_getElem? e)
    have hd := hag.inv.desc k c hk (by rw [hag.n, ← h.len]; exact hc)
    rw [show s.cls.super = w.hist.superOf from funext hag.sup] at hd
    simp only [Option.map_some, decide_eq_true_eq, Option.some.injEq, exists_eq_left', ge_iff_le]
    rw [hd]
    rfl

/-- what `getslotindex` finds -/
theorem index_spec {s : St} {w : World} (h : SInv s w) (o c : Nat) (id : Id) (hs : id.Sane) :
    (∃ n x k l obj, getslotindex s o c id = .ok n ∧ 0 ≤ n ∧ w.isa o c ∧ w.slot c id = some x ∧ w.hist.insts[o]? = some k ∧ w.slots[k]? = some l ∧
      l[n.toNat]? = some x ∧ s.objs[o]? = some obj ∧ obj = l.map (w.val o)) ∨
    (getslotindex s o c id = .err ∧ ¬ (w.isa o c ∧ ∃ x, w.slot c id = some x)) := by
  unfold getslotindex World.slot
  rw [h.vars]
  cases hv : w.slots[c]? with
  | none => right; simp
  | some lc =>
    have hc : c < w.slots.length := by
      rw [List.getElem?_eq_some_iff] at hv; exact hv.1
    simp only [Option.bind_some]
    by_cases hd : DERIVEDP s.cls o c = true
    · rw [if_pos hd]
      have hisa := (derived_iff h o c hc).1 hd
      have hr := raw_spec lc id hs
      cases er : rawIndex lc id with
      | none =>
        rw [er] at hr
        simp only [] at hr
        right
        exact ⟨rfl, fun ⟨_, x, hx⟩ => by rw [hr] at hx; cases hx⟩
      | some n =>
        rw [er] at hr
        simp only [] at hr ⊢
        by_cases hlen : n ≥ lc.length
        · rw [if_pos hlen]
          right
          refine ⟨rfl, fun ⟨_, x, hx⟩ => ?_⟩
          rw [hr.2, List.getElem?_eq_none (by omega)] at hx
          cases hx
        · rw [if_neg hlen]
          left
          obtain ⟨k, hk, hdesc⟩ := hisa
          have hkk : k < w.slots.length := by
            rw [h.len, ← h.ag.n]; exact h.ag.obj.known k (List.mem_of_getElem? hk)
          obtain ⟨l, hl⟩ : ∃ l, w.slots[k]? = some l := ⟨w.slots[k], List.getElem?_eq_getElem hkk⟩
          have hp := h.pre k c l lc hl hv hdesc
          have hn : n.toNat < lc.length := by omega
          refine ⟨n, lc[n.toNat], k, l, _, rfl, hr.1, ⟨k, hk, hdesc⟩, ?_, hk, hl, ?_, h.obj o k l hk hl, rfl⟩
          · rw [hr.2, List.getElem?_eq_getElem hn]
          · obtain ⟨t, rfl⟩ := hp
            rw [List.getElem?_append_left hn, List.getElem?_eq_getElem hn]
    · rw [if_neg hd]
      right
      refine ⟨rfl, fun ⟨hi, _⟩ => hd ((derived_iff h o c hc).2 hi)⟩

theorem slot_spec {s : St} {w : World} (h : SInv s w) (o c : Nat) (id : Id) (hs : id.Sane) :
    (∀ x, w.isa o c → w.slot c id = some x → SLOT s o c id = .ok (w.val o x)) ∧
    (¬ (w.isa o c ∧ ∃ x, w.slot c id = some x) → SLOT s o c id = .err) := by
  rcases index_spec h o c id hs with ⟨n, x, k, l, obj, e1, e2, e3, e4, _, _, e7, e8, e9⟩ | ⟨e1, e2⟩
  · refine ⟨fun y _ hy => ?_, fun hn => absurd ⟨e3, x, e4⟩ hn⟩
    rw [e4] at hy
    cases hy
    unfold SLOT
    rw [e1, e8]
    simp only [iv]
    rw [if_neg (by omega), e9, List.getElem?_map, e7]
    rfl
  · refine ⟨fun y hi hy => absurd ⟨hi, y, hy⟩ e2, fun _ => ?_⟩
    unfold SLOT
    rw [e1]

theorem map_set (l : List Sym) (hn : l.Nodup) (n : Nat) (x : Sym) (hx : l[n]? = some x) (f : Sym → Val) (v : Val) :
    (l.map f).set n v = l.map fun y => if y = x then v else f y := by
  apply List.ext_getElem?
  intro i
  rw [List.getElem?_set, List.getElem?_map, List.getElem?_map]
  obtain ⟨hlt, hx'⟩ := List.getElem?_eq_some_iff.1 hx
  by_cases e : n = i
  · subst e
    rw [if_pos rfl, if_pos (by simpa using hlt), hx]
    simp
  · rw [if_neg e]
    cases hi : l[i]? with
    | none => rfl
    | some y =>
      obtain ⟨hlt', hy'⟩ := List.getElem?_eq_some_iff.1 hi
      have : y ≠ x := by
        rintro rfl
        exact e ((hn.getElem_inj_iff).1 (hx'.trans hy'.symm))
      simp [this]

theorem setslot_spec {s : St} {w : World} (h : SInv s w) (o c : Nat) (id : Id) (v : Val) (hs : id.Sane) :
    (∃ s', SETSLOT s o c id v = .ok s' ∧ SInv s' (w.step (.setslot o c id v))) ∨ (SETSLOT s o c id v = .err ∧ w.step (.setslot o c id v) = w) := by
  rcases index_spec h o c id hs with ⟨n, x, k, l, obj, e1, e2, e3, e4, e5, e6, e7, e8, e9⟩ | ⟨e1, e2⟩
  · left
    refine ⟨{ s with objs := s.objs.set o (obj.set n.toNat v) }, ?_, ?_⟩
    · unfold SETSLOT
      rw [e1, e8]
      simp only [iv]
      rw [if_neg (by omega), e9, List.getElem?_map, e7]
      rfl
    · simp only [World.step, e4, if_pos e3]
      have hnd : l.Nodup := h.nodup l (List.mem_of_getElem? e6)
      refine ⟨h.ag, h.names, h.vars, h.len, h.nlen, h.nodup, h.pre, ?_, by simpa using h.olen, h.nnodup, h.accS, h.accC⟩
      intro o' k' l' h1 h2
      simp only [] at h1 h2 ⊢
      by_cases eo : o = o'
      · subst eo
        rw [e5] at h1; cases h1
        rw [e6] at h2; cases h2
        rw [List.getElem?_set_self (List.getElem?_eq_some_iff.1 e8).1, e9, map_set l hnd _ x e7]
        simp
      · rw [List.getElem?_set_ne eo, h.obj o' k' l' h1 h2]
        have : o' ≠ o := fun e => eo e.symm
        simp [this]
  · right
    refine ⟨by unfold SETSLOT; rw [e1], ?_⟩
    simp only [World.step]
    cases e : w.slot c id with
    | none => rfl
    | some x =>
      simp only []
      rw [if_neg fun hi => e2 ⟨hi, x, e⟩]

theorem superOf_append (H : Hist) (sup : Option Nat) (b : Nat → Option Nat) (hb : b = Hist.superOf { H with supers := H.supers ++ [sup] }) :
    (∀ a, a < H.supers.length → b a = H.superOf a) ∧ b H.supers.length = sup := by
  subst hb
  refine ⟨fun a ha => ?_, ?_⟩
  · simp only [Hist.superOf]
    rw [List.getElem?_append_left ha]
  · simp only [Hist.superOf]
    rw [List.getElem?_append_right (Nat.le_refl _)]
    simp

theorem mem_addAcc (name : Sym) (e : String × Sym × Nat) : ∀ (vs : List Sym) (i : Nat) (acc : List (String × Sym × Nat)),
    e ∈ addAcc name i vs acc ↔ e ∈ acc ∨ ∃ j v, vs[j]? = some v ∧ e = (accName name v, name, i + j)
  | [], i, acc => by simp [addAcc]
  | v :: vs, i, acc => by
    rw [addAcc, mem_addAcc name e vs (i + 1)]
    constructor
    · rintro (h | ⟨j, u, h1, h2⟩)
      · rcases List.mem_cons.1 h with h | h
        · exact .inr ⟨0, v, rfl, h⟩
        · exact .inl h
      · exact .inr ⟨j + 1, u, by simpa using h1, by rw [h2, show i + 1 + j = i + (j + 1) by omega]⟩
    · rintro (h | ⟨j, u, h1, h2⟩)
      · exact .inl (List.mem_cons_of_mem _ h)
      · cases j with
        | zero =>
          simp only [List.getElem?_cons_zero, Option.some.injEq] at h1
          subst h1
          exact .inl (List.mem_cons.2 (.inl h2))
        | succ j => exact .inr ⟨j, u, by simpa using h1, by rw [h2, show i + 1 + j = i + (j + 1) by omega]⟩

theorem enter_none (b : Bool) (s : Cls.St) (sup : Option Nat) :
    (if b then basicclass s sup else enterclass s sup) = none ↔ MAXCLASS ≤ s.nextcix := by
  have e : enterclass s sup = none ↔ MAXCLASS ≤ s.nextcix := by
    unfold enterclass
    by_cases h : s.nextcix ≥ MAXCLASS
    · rw [if_pos h]; simpa using h
    · rw [if_neg h]; simp only [reduceCtorEq, false_iff]; exact h
  cases b
  · simpa using e
  · simp only [if_true, basicclass, Option.map_eq_none_iff]; exact e

theorem instantiate_spec {s : St} {w : World} (h : SInv s w) (c : Nat) :
    (∃ s', instantiate s c = .ok s' ∧ SInv s' (w.step (.instantiate c))) ∨ (instantiate s c = .err ∧ w.step (.instantiate c) = w) := by
  unfold instantiate
  rw [h.vars]
  by_cases hc : c < w.slots.length
  · left
    rw [List.getElem?_eq_getElem hc]
    refine ⟨_, rfl, ?_⟩
    have hc' : c < w.hist.supers.length := by rw [← h.len]; exact hc
    have hag := agree_step h.ag (.instantiate c)
    simp only [Cls.step, hstep, if_pos (show c < s.cls.nextcix by rw [h.ag.n]; exact hc'), if_pos hc'] at hag
    simp only [World.step, if_pos hc, hstep, if_pos hc']
    refine ⟨hag, h.names, rfl, h.len, h.nlen, h.nodup, h.pre, ?_, by simp [h.olen], h.nnodup, h.accS, h.accC⟩
    intro o k l h1 h2
    simp only [] at h1 h2 ⊢
    by_cases ho : o < w.hist.insts.length
    · rw [List.getElem?_append_left ho] at h1
      rw [List.getElem?_append_left (by rw [h.olen]; exact ho), h.obj o k l h1 h2, if_neg (by omega)]
    · have ho' : o = w.hist.insts.length := by
        have := (List.getElem?_eq_some_iff.1 h1).1
        simp only [List.length_append, List.length_singleton] at this
        omega
      subst ho'
      rw [List.getElem?_append_right (Nat.le_refl _)] at h1
      simp only [Nat.sub_self, List.getElem?_cons_zero, Option.some.injEq] at h1
      subst h1
      rw [List.getElem?_eq_getElem hc] at h2
      cases h2
      rw [List.getElem?_append_right (by rw [h.olen]; exact Nat.le_refl _), h.olen]
      simp
  · right
    rw [List.getElem?_eq_none (by omega)]
    exact ⟨rfl, by simp only [World.step, if_neg hc]⟩

theorem clone_spec {s : St} {w : World} (h : SInv s w) (o : Nat) :
    (∃ s', CLONE s o = .ok s' ∧ SInv s' (w.step (.clone o))) ∨ (CLONE s o = .err ∧ w.step (.clone o) = w) := by
  cases hi : w.hist.insts[o]? with
  | none =>
    right
    have hc : classof s.cls o = none := by
      unfold classof
      rw [h.ag.obj.objs, List.getElem?_map, hi]; rfl
    exact ⟨by simp only [CLONE, hc], by simp only [World.step, hi]⟩
  | some c =>
    left
    have hk : c < s.cls.nextcix := h.ag.obj.known c (List.mem_of_getElem? hi)
    have hcl : classof s.cls o = some c := by
      unfold classof
      rw [h.ag.obj.objs, List.getElem?_map, hi]
      simp only [Option.map_some]
      rw [h.ag.inv.lnk.cls c hk]
    have hc' : c < w.hist.supers.length := by rw [← h.ag.n]; exact hk
    have hc : c < w.slots.length := by rw [h.len]; exact hc'
    have hobj := h.obj o c _ hi (List.getElem?_eq_getElem hc)
    have hv : s.vars[c]? = some w.slots[c] := by rw [h.vars, List.getElem?_eq_getElem hc]
    simp only [CLONE, hcl, hobj, hv]
    rw [if_neg (by simp)]
    refine ⟨_, rfl, ?_⟩
    have hag := agree_step h.ag (.instantiate c)
    simp only [Cls.step, hstep, if_pos hk, if_pos hc'] at hag
    simp only [World.step, hi, hstep, if_pos hc']
    refine ⟨hag, h.names, h.vars, h.len, h.nlen, h.nodup, h.pre, ?_, by simp [h.olen], h.nnodup, h.accS, h.accC⟩
    intro o' k l h1 h2
    simp only [] at h1 h2 ⊢
    by_cases ho : o' < w.hist.insts.length
    · rw [List.getElem?_append_left ho] at h1
      rw [List.getElem?_append_left (by rw [h.olen]; exact ho), h.obj o' k l h1 h2, if_neg (by omega)]
    · have ho' : o' = w.hist.insts.length := by
        have := (List.getElem?_eq_some_iff.1 h1).1
        simp only [List.length_append, List.length_singleton] at this
        omega
      subst ho'
      rw [List.getElem?_append_right (Nat.le_refl _)] at h1
      simp only [Nat.sub_self, List.getElem?_cons_zero, Option.some.injEq] at h1
      subst h1
      rw [List.getElem?_eq_getElem hc] at h2
      cases h2
      rw [List.getElem?_append_right (by rw [h.olen]; exact Nat.le_refl _), h.olen]
      simp only [Nat.sub_self, List.getElem?_cons_zero, if_true, Option.some.injEq]
      exact List.take_of_length_le (by simp)

theorem superVars_eq (s : St) (sup : Option Nat) : superVars s sup = (sup.bind fun c => s.vars[c]?).getD [] := by
  cases sup <;> rfl

theorem defclass_spec {s : St} {w : World} (h : SInv s w) (b : Bool) (name : Sym) (sup : Option Nat) (slots : List Sym) (hf : name ∉ w.names) :
    (∃ s', makeClass s b name sup slots = .ok s' ∧ SInv s' (w.step (.defclass b name sup slots)) ∧ (w.step (.defclass b name sup slots)).names = w.names ++ [name]) ∨
    (makeClass s b name sup slots = .err ∧ w.step (.defclass b name sup slots) = w) := by
  have hn : s.cls.nextcix = w.slots.length := by rw [h.ag.n, h.len]
  unfold makeClass
  rw [superVars_eq, h.vars, hn, h.names]
  simp only [World.step, if_neg hf]
  by_cases hsup : (sup.all fun c => decide (c < w.slots.length)) = true
  swap
  · right
    rw [if_neg hsup, if_neg (fun hh => hsup hh.1)]
    exact ⟨rfl, rfl⟩
  rw [if_pos hsup]
  have hsn : ((sup.bind fun c => w.slots[c]?).getD []).Nodup := by
    cases e : (sup.bind fun c => w.slots[c]?) with
    | none => simp
    | some l =>
      obtain ⟨c, _, hc⟩ := Option.bind_eq_some_iff.1 e
      exact h.nodup l (List.mem_of_getElem? hc)
  rw [addVars_spec slots _ (List.nodup_reverse.2 hsn), List.reverse_reverse]
  generalize hl : ((sup.bind fun c => w.slots[c]?).getD []) ++ slots = l
  by_cases hnd : l.Nodup
  swap
  · right
    rw [if_neg hnd, if_neg (show ¬ ((sup.all fun c => decide (c < w.slots.length)) = true ∧ l.Nodup ∧ w.slots.length < MAXCLASS) from fun hh => hnd hh.2.1)]
    exact ⟨rfl, rfl⟩
  rw [if_pos hnd]
  simp only []
  by_cases hmax : w.slots.length < MAXCLASS
  swap
  · right
    rw [(enter_none b s.cls sup).2 (by omega), if_neg (show ¬ ((sup.all fun c => decide (c < w.slots.length)) = true ∧ l.Nodup ∧ w.slots.length < MAXCLASS) from fun hh => hmax hh.2.2)]
    exact ⟨rfl, rfl⟩
  left
  rw [if_pos (show ((sup.all fun c => decide (c < w.slots.length)) = true ∧ l.Nodup ∧ w.slots.length < MAXCLASS) from ⟨hsup, hnd, hmax⟩)]
  cases ek : (if b then basicclass s.cls sup else enterclass s.cls sup) with
  | none => have := (enter_none b s.cls sup).1 ek; omega
  | some k =>
    refine ⟨_, rfl, ?_, rfl⟩
    have hag := agree_step h.ag (.defclass b sup)
    simp only [Cls.step, hn, if_pos hsup, ek, Option.getD_some] at hag
    have hh : hstep w.hist (.defclass b sup) =
        { w.hist with supers := w.hist.supers ++ [sup], builtins := if b then w.hist.supers.length :: w.hist.builtins else w.hist.builtins } := by
      simp only [hstep, ← h.len]
      rw [if_pos ⟨hsup, hmax⟩]
    rw [hh] at hag ⊢
    have hlt : ∀ x y, Hist.superOf { w.hist with supers := w.hist.supers ++ [sup], builtins := if b then w.hist.supers.length :: w.hist.builtins else w.hist.builtins } x = some y → y < x := by
      intro x y e
      rw [← hag.sup] at e
      exact (hag.inv.lnk.sup x y e).2
    have hso := superOf_append w.hist sup _ rfl
    have hget : ∀ (a : Nat) (la : List Sym), (w.slots ++ [l])[a]? = some la → (a < w.slots.length ∧ w.slots[a]? = some la) ∨ (a = w.slots.length ∧ la = l) := by
      intro a la e
      by_cases ha : a < w.slots.length
      · rw [List.getElem?_append_left ha] at e; exact .inl ⟨ha, e⟩
      · have := (List.getElem?_eq_some_iff.1 e).1
        simp only [List.length_append, List.length_singleton] at this
        have ha' : a = w.slots.length := by omega
        subst ha'
        rw [List.getElem?_append_right (Nat.le_refl _)] at e
        simp only [Nat.sub_self, List.getElem?_cons_zero, Option.some.injEq] at e
        exact .inr ⟨rfl, e.symm⟩
    have hgetn : ∀ (a : Nat) (n : Sym), (w.names ++ [name])[a]? = some n → (a < w.slots.length ∧ w.names[a]? = some n) ∨ (a = w.slots.length ∧ n = name) := by
      intro a n e
      rw [← h.nlen]
      by_cases ha : a < w.names.length
      · rw [List.getElem?_append_left ha] at e; exact .inl ⟨ha, e⟩
      · have := (List.getElem?_eq_some_iff.1 e).1
        simp only [List.length_append, List.length_singleton] at this
        have ha' : a = w.names.length := by omega
        subst ha'
        rw [List.getElem?_append_right (Nat.le_refl _)] at e
        simp only [Nat.sub_self, List.getElem?_cons_zero, Option.some.injEq] at e
        exact .inr ⟨rfl, e.symm⟩
    have hlast : (w.slots ++ [l])[w.slots.length]? = some l := by simp
    have hlastn : (w.names ++ [name])[w.slots.length]? = some name := by rw [← h.nlen]; simp
    refine ⟨hag, rfl, rfl, by simp [h.len], by simp [h.nlen], ?_, ?_, ?_, h.olen, ?_, ?_, ?_⟩
    · intro x hx
      rcases List.mem_append.1 hx with hx | hx
      · exact h.nodup x hx
      · rw [List.mem_singleton.1 hx]; exact hnd
    · intro a c la lc ha hc hd
      simp only [] at ha hc
      have hdesc : a < w.slots.length → Desc w.hist.superOf a c := fun h' =>
        Desc.congr (n := w.slots.length) hlt (fun x hx => (hso.1 x (by rw [← h.len]; exact hx)).symm) h' hd
      have hle := Desc.le hlt hd
      rcases hget a la ha with ⟨a1, a2⟩ | ⟨a1, rfl⟩
      · rcases hget c lc hc with ⟨c1, c2⟩ | ⟨c1, rfl⟩
        · exact h.pre a c la lc a2 c2 (hdesc a1)
        · omega
      · rcases hget c lc hc with ⟨c1, c2⟩ | ⟨c1, rfl⟩
        · have e : Hist.superOf { w.hist with supers := w.hist.supers ++ [sup], builtins := if b then w.hist.supers.length :: w.hist.builtins else w.hist.builtins } a = sup := by
            rw [a1, h.len]; exact hso.2
          cases sup with
          | none =>
            have := (desc_none e).1 hd
            omega
          | some p =>
            rcases (desc_some e).1 hd with h' | h'
            · omega
            · have hp : p < w.slots.length := by simpa using hsup
              have h2 : Desc w.hist.superOf p c := Desc.congr (n := w.slots.length) hlt (fun x hx => (hso.1 x (by rw [← h.len]; exact hx)).symm) hp h'
              have h3 := h.pre p c _ lc (List.getElem?_eq_getElem hp) c2 h2
              have e4 : (Option.bind (some p) fun c => w.slots[c]?).getD [] = w.slots[p] := by
                simp [List.getElem?_eq_getElem hp]
              rw [e4] at hl
              rw [← hl]
              exact h3.trans (List.prefix_append _ _)
        · exact List.prefix_refl _
    · intro o k' l' h1 h2
      simp only [] at h1 h2 ⊢
      rcases hget k' l' h2 with ⟨a1, a2⟩ | ⟨a1, _⟩
      · exact h.obj o k' l' h1 a2
      · have := h.ag.obj.known k' (List.mem_of_getElem? h1)
        omega
    · exact List.nodup_append.2 ⟨h.nnodup, by simp, by
        intro x hx y hy e
        rw [List.mem_singleton.1 hy] at e
        exact hf (e ▸ hx)⟩
    · intro e he
      rcases (mem_addAcc name e l 0 s.acc).1 he with he | ⟨j, v, h1, rfl⟩
      · obtain ⟨c, l', v, g1, g2, g3, g4⟩ := h.accS e he
        refine ⟨c, l', v, ?_, ?_, g3, g4⟩
        · show (w.names ++ [name])[c]? = _
          rw [List.getElem?_append_left (List.getElem?_eq_some_iff.1 g1).1]; exact g1
        · show (w.slots ++ [l])[c]? = _
          rw [List.getElem?_append_left (List.getElem?_eq_some_iff.1 g2).1]; exact g2
      · exact ⟨w.slots.length, l, v, hlastn, hlast, by simpa using h1, rfl⟩
    · intro c n l' v g1 g2 g3
      simp only [] at g1 g2 ⊢
      rcases hget c l' g2 with ⟨a1, a2⟩ | ⟨a1, rfl⟩
      · rcases hgetn c n g1 with ⟨b1, b2⟩ | ⟨b1, _⟩
        · obtain ⟨e, e1, e2⟩ := h.accC c n l' v b2 a2 g3
          exact ⟨e, (mem_addAcc name e l 0 s.acc).2 (.inl e1), e2⟩
        · omega
      · rcases hgetn c n g1 with ⟨b1, _⟩ | ⟨_, rfl⟩
        · omega
        · obtain ⟨j, hj, e⟩ := List.getElem_of_mem g3
          exact ⟨_, (mem_addAcc n _ l' 0 s.acc).2 (.inr ⟨j, v, by rw [← e]; exact List.getElem?_eq_getElem hj, rfl⟩), rfl⟩

theorem run_spec : ∀ (ops : List Op) (s : St) (w : World), SInv s w → (w.names ++ ops.filterMap Op.name).Nodup → (∀ op ∈ ops, op.Sane) →
    ∃ s', ops.foldl step (.ok s) = .ok s' ∧ SInv s' (ops.foldl World.step w)
  | [], s, w, h, _, _ => ⟨s, rfl, h⟩
  | op :: ops, s, w, h, hn, hs => by
    have hs' : ∀ op ∈ ops, op.Sane := fun o ho => hs o (List.mem_cons_of_mem _ ho)
    rw [List.foldl_cons, List.foldl_cons]
    cases op with
    | defclass b name sup slots =>
      have hn' : (w.names ++ name :: ops.filterMap Op.name).Nodup := hn
      have hf : name ∉ w.names := fun hm => (List.nodup_append.1 hn').2.2 name hm name (by simp) rfl
      rcases defclass_spec h b name sup slots hf with ⟨s', e1, e2, e3⟩ | ⟨e1, e2⟩
      · simp only [step, e1]
        exact run_spec ops s' _ e2 (by rw [e3]; simpa using hn') hs'
      · simp only [step, e1, e2]
        exact run_spec ops s w h (List.Nodup.sublist (List.Sublist.append_left (List.sublist_cons_self _ _) _) hn') hs'
    | instantiate c =>
      have hn' : (w.names ++ ops.filterMap Op.name).Nodup := hn
      rcases instantiate_spec h c with ⟨s', e1, e2⟩ | ⟨e1, e2⟩
      · simp only [step, e1]
        refine run_spec ops s' _ e2 ?_ hs'
        have : (w.step (.instantiate c)).names = w.names := by
          simp only [World.step]; split_ifs <;> rfl
        rw [this]; exact hn'
      · simp only [step, e1, e2]
        exact run_spec ops s w h hn' hs'
    | clone o =>
      have hn' : (w.names ++ ops.filterMap Op.name).Nodup := hn
      rcases clone_spec h o with ⟨s', e1, e2⟩ | ⟨e1, e2⟩
      · simp only [step, e1]
        refine run_spec ops s' _ e2 ?_ hs'
        have : (w.step (.clone o)).names = w.names := by
          simp only [World.step]
          cases w.hist.insts[o]? <;> rfl
        rw [this]; exact hn'
      · simp only [step, e1, e2]
        exact run_spec ops s w h hn' hs'
    | setslot o c id v =>
      have hn' : (w.names ++ ops.filterMap Op.name).Nodup := hn
      rcases setslot_spec h o c id v (hs (.setslot o c id v) (by simp)) with ⟨s', e1, e2⟩ | ⟨e1, e2⟩
      · simp only [step, e1]
        refine run_spec ops s' _ e2 ?_ hs'
        have : (w.step (.setslot o c id v)).names = w.names := by
          simp only [World.step]
          cases w.slot c id with
          | none => rfl
          | some x => simp only []; split_ifs <;> rfl
        rw [this]; exact hn'
      · simp only [step, e1, e2]
        exact run_spec ops s w h hn' hs'

theorem inv_init : SInv .init ⟨⟨[], [], []⟩, [], [], fun _ _ => 0⟩ := by
  refine ⟨agree_init, rfl, rfl, rfl, rfl, ?_, ?_, ?_, rfl, ?_, ?_, ?_⟩
  · simp
  · intro a b la lb h; simp at h
  · intro o k l h; simp at h
  · simp
  · intro e he; simp [St.init] at he
  · intro c n l v h; simp at h

end Eus.Slt
