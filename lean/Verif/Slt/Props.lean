import Verif.Slt.Lemmas
set_option autoImplicit false
/-
C204: slots of objects.
-/
namespace Eus.Slt
open Eus.Cls

/-- C204: after any history of definitions of new classes, instances, copies and assignments of slots, a slot has the value that the history of that slot of that object gives it,
through whichever class it is named; an object that is not an instance, or a slot the class does not have, is an error. -/
theorem C204_slot_partial (ops : List Op) (hp : Plain ops) :
    ∃ s, run ops = .ok s ∧ ∀ (o c : Nat) (id : Id), id.Sane →
      (∀ x, (world ops).isa o c → (world ops).slot c id = some x → SLOT s o c id = .ok ((world ops).val o x)) ∧
      (¬ ((world ops).isa o c ∧ ∃ x, (world ops).slot c id = some x) → SLOT s o c id = .err) := by
  obtain ⟨s, e1, e2⟩ := run_spec ops _ _ inv_init (by simpa using hp.1) hp.2
  exact ⟨s, e1, fun o c id hs => slot_spec e2 o c id hs⟩

/-- C204: the access macro of a slot, when no other slot of any class has a macro of that name -/
theorem C204_accessor_partial (ops : List Op) (hp : Plain ops) (o c : Nat) (n x : Sym) (l : List Sym)
    (hn : (world ops).names[c]? = some n) (hl : (world ops).slots[c]? = some l) (hx : x ∈ l) (hi : (world ops).isa o c) (hlen : l.length ≤ 2 ^ 31)
    (hu : ∀ (c' : Nat) (n' x' : Sym) (l' : List Sym), (world ops).names[c']? = some n' → (world ops).slots[c']? = some l' → x' ∈ l' →
      accName n' x' = accName n x → c' = c ∧ x' = x) :
    ∃ s, run ops = .ok s ∧ access s (accName n x) o = .ok ((world ops).val o x) := by
  obtain ⟨s, e1, e2⟩ := run_spec ops _ _ inv_init (by simpa using hp.1) hp.2
  change SInv s (world ops) at e2
  refine ⟨s, e1, ?_⟩
  obtain ⟨e, he, hk⟩ := e2.accC c n l x hn hl hx
  have hsome : ∃ p, s.acc.lookup (accName n x) = some p := by
    rw [← hk]
    clear e1 e2 hk
    revert he
    generalize s.acc = acc
    intro he
    induction acc with
    | nil => simp at he
    | cons a acc ih =>
      rw [List.lookup_cons]
      by_cases ha : e.1 == a.1
      · rw [ha]; exact ⟨_, rfl⟩
      · rw [Bool.not_eq_true] at ha
        rw [ha]
        refine ih ?_
        rcases List.mem_cons.1 he with h | h
        · rw [h] at ha; simp at ha
        · exact h
  obtain ⟨⟨n', i⟩, hlk⟩ := hsome
  have hmem : (accName n x, n', i) ∈ s.acc := by
    clear e1 e2 he
    revert hlk
    generalize s.acc = acc
    intro hlk
    induction acc with
    | nil => simp at hlk
    | cons a acc ih =>
      rw [List.lookup_cons] at hlk
      by_cases ha : accName n x == a.1
      · rw [ha] at hlk
        simp only [Option.some.injEq] at hlk
        have ha' := eq_of_beq ha
        rw [List.mem_cons]
        left
        rw [ha', ← hlk]
      · rw [Bool.not_eq_true] at ha
        rw [ha] at hlk
        exact List.mem_cons_of_mem _ (ih hlk)
  obtain ⟨c', l', x', g1, g2, g3, g4⟩ := e2.accS _ hmem
  simp only [] at g1 g3 g4
  obtain ⟨rfl, rfl⟩ := hu c' n' x' l' g1 g2 (List.mem_of_getElem? g3) g4.symm
  rw [hn] at g1
  cases g1
  rw [hl] at g2
  cases g2
  obtain ⟨hc, hc'⟩ := List.getElem?_eq_some_iff.1 hn
  have hidx : s.names.idxOf n = c' := by
    rw [e2.names, ← hc']
    exact e2.nnodup.idxOf_getElem c' hc
  have hin : n ∈ s.names := by rw [e2.names]; exact List.mem_of_getElem? hn
  simp only [access, hlk, if_pos hin, hidx]
  have hil := (List.getElem?_eq_some_iff.1 g3).1
  refine (slot_spec e2 o c' (.int i) ⟨by omega, by omega⟩).1 x' hi ?_
  simp only [World.slot, hl, Option.bind_some, slotOf]
  rw [if_pos (by omega), Int.toNat_natCast]
  exact g3

/-! A history: point (x y), a subclass (z), two objects and a copy. -/

def sy (s : String) : Sym := ⟨0, s⟩

def sample : List Op :=
  [.defclass true (sy "OBJECT") none [], .defclass false (sy "POINT") (some 0) [sy "X", sy "Y"], .defclass false (sy "P3") (some 1) [sy "Z"],
   .instantiate 2, .setslot 0 1 (.sym (sy "Y")) 7, .setslot 0 2 (.str "Z") 8, .clone 0, .setslot 0 2 (.int 1) 9, .instantiate 1]

example : Plain sample := ⟨by decide, by intro op h; simp [sample] at h; rcases h with rfl | rfl | rfl | rfl | rfl | rfl | rfl | rfl | rfl <;> simp [Op.Sane, Id.Sane]⟩

/-- run, then look -/
def look (ops : List Op) (f : St → R Val) : R Val :=
  match run ops with
  | .ok s => f s
  | .err => .err
  | .ub => .ub

example : look sample (fun s => SLOT s 0 1 (.sym (sy "Y"))) = .ok 9 ∧ look sample (fun s => SLOT s 1 2 (.sym (sy "Y"))) = .ok 7 ∧
    look sample (fun s => SLOT s 1 2 (.str "Z")) = .ok 8 ∧ look sample (fun s => SLOT s 2 1 (.sym (sy "X"))) = .ok 0 ∧
    look sample (fun s => SLOT s 2 2 (.sym (sy "X"))) = .err ∧ look sample (fun s => SLOT s 0 1 (.sym (sy "Z"))) = .err ∧
    look sample (fun s => access s "P3-Y" 0) = .ok 9 := by decide +kernel

def small : List Op := [.defclass true (sy "OBJECT") none [], .defclass false (sy "POINT") (some 0) [sy "X", sy "Y"], .instantiate 1, .setslot 0 1 (.sym (sy "Y")) 7]

theorem small_world : (world small).names = [sy "OBJECT", sy "POINT"] ∧ (world small).slots = [[], [sy "X", sy "Y"]] ∧ (world small).isa 0 1 ∧
    (world small).val 0 (sy "Y") = 7 := by
  have hi : Desc (Hist.superOf ⟨[none, some 0], [1], [0]⟩) 1 1 := .refl 1
  have hxy : sy "X" ≠ sy "Y" := by decide
  have e1 : (world (small.take 3)) = ⟨⟨[none, some 0], [1], [0]⟩, [sy "OBJECT", sy "POINT"], [[], [sy "X", sy "Y"]], fun o => if o = 0 then fun _ => 0 else fun _ => 0⟩ := by
    simp [world, small, World.step, hstep, MAXCLASS, hxy]
  have e2 : world small = World.step (world (small.take 3)) (.setslot 0 1 (.sym (sy "Y")) 7) := rfl
  rw [e1] at e2
  simp only [World.step, World.slot, slotOf] at e2
  simp only [List.getElem?_cons_succ, List.getElem?_cons_zero, Option.bind_some, List.mem_cons, true_or, or_true, if_true] at e2
  rw [if_pos (show World.isa _ 0 1 from ⟨1, rfl, hi⟩)] at e2
  rw [e2]
  exact ⟨rfl, rfl, ⟨1, rfl, hi⟩, by simp⟩

/-- the hypotheses of the access macro are met -/
example : ∃ s, run small = .ok s ∧ access s "POINT-Y" 0 = .ok 7 := by
  obtain ⟨h1, h2, h3, h4⟩ := small_world
  rw [← h4]
  refine C204_accessor_partial small ⟨by decide, by intro op h; simp [small] at h; rcases h with rfl | rfl | rfl | rfl <;> simp [Op.Sane, Id.Sane]⟩
    0 1 (sy "POINT") (sy "Y") [sy "X", sy "Y"] (by rw [h1]; rfl) (by rw [h2]; rfl) (by simp) h3 (by simp) ?_
  intro c' n' x' l' g1 g2 g3 g4
  rw [h1] at g1
  rw [h2] at g2
  match c', g1, g2 with
  | 0, g1, g2 => simp at g2; subst g2; simp at g3
  | 1, g1, g2 =>
    simp at g1 g2
    subst g1 g2
    simp only [List.mem_cons, List.not_mem_nil, or_false] at g3
    rcases g3 with rfl | rfl
    · exact absurd g4 (by decide)
    · exact ⟨rfl, rfl⟩
  | n + 2, g1, g2 => simp at g1

/-! What goes wrong outside. -/

/-- C204: any negative index gets past the check. -/
theorem C204_negative_wrong (i : Int) (h : -2 ^ 31 ≤ i ∧ i < 0) : look sample (fun s => SLOT s 0 1 (.int i)) = .ub := by
  have e : toCInt i = i := by
    unfold toCInt
    rw [Int.bmod_eq_of_le (by omega) (by omega)]
  have hr : ∃ s, run sample = .ok s ∧ s.vars[1]? = some [sy "X", sy "Y"] ∧ DERIVEDP s.cls 0 1 = true ∧ s.objs[0]? = some [0, 9, 8] := by
    have : (match run sample with
      | .ok s => decide (s.vars[1]? = some [sy "X", sy "Y"] ∧ DERIVEDP s.cls 0 1 = true ∧ s.objs[0]? = some [0, 9, 8])
      | _ => false) = true := by decide +kernel
    cases hs : run sample with
    | ok s => rw [hs] at this; exact ⟨s, rfl, of_decide_eq_true this⟩
    | err => rw [hs] at this; cases this
    | ub => rw [hs] at this; cases this
  obtain ⟨s, h1, h2, h3, h4⟩ := hr
  simp only [look, h1, SLOT, getslotindex, h2, h3, if_true, rawIndex, e, h4]
  have : ¬ i ≥ (([sy "X", sy "Y"] : List Sym).length : Int) := by simp; omega
  rw [if_neg this]
  simp only [iv, if_pos h.2]

/-- C204: an index is cut to 32 bits: slot 4294967297 is slot 1. -/
theorem C204_wild_wrong : look sample (fun s => SLOT s 0 1 (.int 4294967297)) = .ok 9 := by decide +kernel

/-- C204: a class defined again with more slots: its old objects are too short. -/
theorem C204_redefine_wrong :
    look (sample ++ [.defclass false (sy "POINT") (some 0) [sy "X", sy "Y", sy "W"]]) (fun s => SLOT s 2 1 (.sym (sy "W"))) = .ub := by decide +kernel

/-- C204: a class defined again: its subclasses keep the old slots, and a slot named through the class is another one: W is Z. -/
theorem C204_redefine_super_wrong :
    look (sample ++ [.defclass false (sy "POINT") (some 0) [sy "X", sy "Y", sy "W"], .instantiate 2, .setslot 3 2 (.sym (sy "Z")) 5])
      (fun s => SLOT s 3 1 (.sym (sy "W"))) = .ok 5 := by decide +kernel

/-- C204: A-B-C is a slot of the class A and of the class A-B; the class defined later wins. -/
theorem C204_accessor_wrong :
    look [.defclass true (sy "OBJECT") none [], .defclass false (sy "A") (some 0) [sy "B-C"], .instantiate 1, .setslot 0 1 (.sym (sy "B-C")) 5]
      (fun s => access s "A-B-C" 0) = .ok 5 ∧
    look [.defclass true (sy "OBJECT") none [], .defclass false (sy "A") (some 0) [sy "B-C"], .instantiate 1, .setslot 0 1 (.sym (sy "B-C")) 5,
      .defclass false (sy "A-B") (some 0) [sy "C"]] (fun s => access s "A-B-C" 0) = .err := by decide +kernel

end Eus.Slt
