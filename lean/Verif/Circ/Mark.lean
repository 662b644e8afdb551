import Verif.Circ.Spec
import Mathlib.Data.List.Perm.Subperm
import Mathlib.Data.List.Nodup
set_option autoImplicit false
/-
`printmark` finds the objects that can be reached, and gives numbers to those met more than once.
-/
namespace Eus.Circ
open Spec

/-- The pointer in a value. -/
def ptrs : Val → List Nat
  | .ptr a => [a]
  | _ => []

/-- The pointers in an object of the heap. -/
def kids (G : Heap) (a : Nat) : List Nat :=
  match G[a]? with
  | some c => (parts c).flatMap ptrs
  | none => []

theorem kids_eq {G : Heap} {a : Nat} {c : Cell} (h : G[a]? = some c) : kids G a = (parts c).flatMap ptrs := by simp [kids, h]

theorem mem_ptrs {v : Val} {a : Nat} : a ∈ ptrs v ↔ v = .ptr a := by
  cases v <;> simp [ptrs, eq_comm]

theorem slots_parts {G : Heap} (hG : GoodHeap G) {a : Nat} {c : Cell} (h : G[a]? = some c) : c.slots = parts c := by
  have hc : c ∈ G := List.mem_of_getElem? h
  cases c with
  | cons x y => rfl
  | str s k => rfl
  | vec s vs =>
    have := (hG _ hc).2 s vs rfl
    simp [Cell.slots, parts, ← this]

theorem good_parts {G : Heap} (hG : GoodHeap G) {a : Nat} {c : Cell} (h : G[a]? = some c) : ∀ v ∈ parts c, GoodVal G v :=
  (hG _ (List.mem_of_getElem? h)).1

theorem length_le_of_nodup {l : List Nat} {N : Nat} (hn : l.Nodup) (h : ∀ a ∈ l, a < N) : l.length ≤ N := by
  have := (List.subperm_of_subset hn (l₂ := List.range N) (fun a ha => List.mem_range.2 (h a ha))).length_le
  simpa using this

theorem reach_lt {G : Heap} (hG : GoodHeap G) {v : Val} (hv : GoodVal G v) {a : Nat} (h : Reach G v a) : a < G.length := by
  induction h with
  | here a => exact hv
  | step _ hc hb _ => exact good_parts hG hc _ hb

/-- The state of marking, with `pend` still to be visited. -/
structure MInv (G : Heap) (v : Val) (st : PSt) (pend : List Nat) : Prop where
  bag : ∃ D : List Nat, (ptrs v ++ st.pm.flatMap (kids G)).Perm (D ++ pend) ∧ (∀ a, a ∈ st.pm ↔ a ∈ D) ∧ ∀ a, a ∈ st.sm ↔ 2 ≤ D.count a
  pmnd : st.pm.Nodup
  smnd : st.sm.Nodup
  reach : ∀ a ∈ st.pm, Reach G v a
  preach : ∀ a ∈ pend, Reach G v a
  hlen : st.heap.length = G.length
  ixlen : st.ix.length = st.sm.length
  plain : ∀ a, a ∉ st.sm → st.heap[a]? = G[a]?
  shared : ∀ (j a : Nat) (c : Cell), st.sm[j]? = some a → G[a]? = some c →
    st.heap[a]? = some (c.setFirst (.num (j + 1))) ∧ st.ix[j]? = some c.first

theorem getElem?_append_some {α : Type} {l : List α} {x y : α} {j : Nat} (h : (l ++ [x])[j]? = some y) :
    (l[j]? = some y) ∨ (j = l.length ∧ y = x) := by
  rcases Nat.lt_trichotomy j l.length with hl | hl | hl
  · rw [List.getElem?_append_left hl] at h; exact .inl h
  · subst hl; simp at h; exact .inr ⟨rfl, h.symm⟩
  · rw [List.getElem?_append_right (by omega)] at h
    have : j - l.length ≠ 0 := by omega
    obtain ⟨m, hm⟩ := Nat.exists_eq_succ_of_ne_zero this
    rw [hm] at h; simp at h

theorem getElem?_lt {α : Type} {l : List α} {x : α} {j : Nat} (h : l[j]? = some x) : j < l.length := by
  rcases Nat.lt_or_ge j l.length with hl | hl
  · exact hl
  · rw [List.getElem?_eq_none hl] at h; cases h

theorem mark_spec {G : Heap} {v : Val} (hG : GoodHeap G) (hv : GoodVal G v) : ∀ (n : Nat) (st : PSt) (x : Val) (pend : List Nat),
    MInv G v st (ptrs x ++ pend) → GoodVal G x → G.length - st.pm.length < n →
    ∃ st', mark n st x = some st' ∧ MInv G v st' pend ∧ st.pm.length ≤ st'.pm.length := by
  intro n
  induction n with
  | zero => intro st x pend _ _ h; omega
  | succ n ih =>
    have hfold : ∀ (xs : List Val) (st : PSt) (pend : List Nat), MInv G v st (xs.flatMap ptrs ++ pend) → (∀ x ∈ xs, GoodVal G x) →
        G.length - st.pm.length < n →
        ∃ st', xs.foldlM (mark n) st = some st' ∧ MInv G v st' pend ∧ st.pm.length ≤ st'.pm.length := by
      intro xs
      induction xs with
      | nil => intro st pend h _ _; exact ⟨st, rfl, by simpa using h, Nat.le_refl _⟩
      | cons x xs ihx =>
        intro st pend h hg hm
        obtain ⟨st1, h1, i1, l1⟩ := ih st x (xs.flatMap ptrs ++ pend) (by simpa [List.flatMap_cons, List.append_assoc] using h)
          (hg x (by simp)) hm
        obtain ⟨st2, h2, i2, l2⟩ := ihx st1 pend i1 (fun y hy => hg y (by simp [hy])) (by omega)
        exact ⟨st2, by simp [List.foldlM_cons, h1, h2], i2, by omega⟩
    intro st x pend inv hx hm
    cases x with
    | nil => exact ⟨st, by simp [mark], by simpa [ptrs] using inv, Nat.le_refl _⟩
    | quote => exact ⟨st, by simp [mark], by simpa [ptrs] using inv, Nat.le_refl _⟩
    | sym m => exact ⟨st, by simp [mark], by simpa [ptrs] using inv, Nat.le_refl _⟩
    | num m => exact ⟨st, by simp [mark], by simpa [ptrs] using inv, Nat.le_refl _⟩
    | lab m => exact absurd hx (by simp [GoodVal])
    | hole m => exact absurd hx (by simp [GoodVal])
    | ptr a =>
      have ha : a < G.length := hx
      obtain ⟨c, hc⟩ : ∃ c, G[a]? = some c := ⟨G[a], by simp [ha]⟩
      obtain ⟨D, hp, hpm, hsm⟩ := inv.bag
      have hra : Reach G v a := inv.preach a (by simp [ptrs])
      have hnew : (ptrs v ++ st.pm.flatMap (kids G)).Perm ((a :: D) ++ pend) := by
        refine hp.trans ?_
        simp only [ptrs, List.cons_append, List.nil_append]
        exact List.perm_middle
      by_cases hap : a ∈ st.pm
      · by_cases has : a ∈ st.sm
        · -- again
          have hh : ∃ c', st.heap[a]? = some c' := ⟨st.heap[a]'(by rw [inv.hlen]; exact ha), by simp [inv.hlen, ha]⟩
          obtain ⟨c', hc'⟩ := hh
          refine ⟨st, by simp [mark, hc', hap, has], ?_, Nat.le_refl _⟩
          exact { inv with
            bag := ⟨a :: D, hnew, fun b => by
                constructor
                · intro hb; exact List.mem_cons_of_mem _ ((hpm b).1 hb)
                · intro hb; rcases List.mem_cons.1 hb with rfl | hb
                  · exact hap
                  · exact (hpm b).2 hb, fun b => by
                constructor
                · intro hb
                  exact Nat.le_trans ((hsm b).1 hb) (List.count_le_count_cons)
                · intro hb
                  by_cases hba : a = b
                  · subst hba; exact has
                  · rw [List.count_cons_of_ne (by simpa using hba)] at hb; exact (hsm b).2 hb⟩
            preach := fun b hb => inv.preach b (by simp [hb]) }
        · -- the second time
          have hheap : st.heap[a]? = some c := by rw [inv.plain a has, hc]
          refine ⟨{ st with sm := st.sm ++ [a], ix := st.ix ++ [c.first], heap := st.heap.set a (c.setFirst (.num (st.ix.length + 1))) },
            by simp [mark, hheap, hap, has], ?_, Nat.le_refl _⟩
          have hD1 : 1 ≤ D.count a := List.count_pos_iff.2 ((hpm a).1 hap)
          have hD2 : ¬ 2 ≤ D.count a := fun h => has ((hsm a).2 h)
          refine ⟨⟨a :: D, hnew, ?_, ?_⟩, inv.pmnd, ?_, inv.reach, fun b hb => inv.preach b (by simp [hb]), ?_, ?_, ?_, ?_⟩
          · intro b
            constructor
            · intro hb; exact List.mem_cons_of_mem _ ((hpm b).1 hb)
            · intro hb; rcases List.mem_cons.1 hb with rfl | hb
              · exact hap
              · exact (hpm b).2 hb
          · intro b
            by_cases hba : a = b
            · subst hba
              rw [List.count_cons_self]
              exact ⟨fun _ => by omega, fun _ => by simp⟩
            · rw [List.count_cons_of_ne (by simpa using hba)]
              simp only [List.mem_append, List.mem_singleton]
              constructor
              · rintro (h | h)
                · exact (hsm b).1 h
                · exact absurd h.symm hba
              · intro h; exact .inl ((hsm b).2 h)
          · exact List.nodup_append.2 ⟨inv.smnd, by simp, by
              intro x hx' y hy hxy
              rw [List.mem_singleton.1 hy] at hxy
              exact has (hxy ▸ hx')⟩
          · simp [inv.hlen]
          · simp [inv.ixlen]
          · intro b hb
            simp only [List.mem_append, List.mem_singleton, not_or] at hb
            have : a ≠ b := fun h => hb.2 h.symm
            simp only [List.getElem?_set_ne this]
            exact inv.plain b hb.1
          · intro j b cb hj hcb
            rcases getElem?_append_some hj with h | ⟨rfl, rfl⟩
            · have hb : b ∈ st.sm := List.mem_of_getElem? h
              have hne : a ≠ b := fun h => has (h ▸ hb)
              obtain ⟨h1, h2⟩ := inv.shared j b cb h hcb
              refine ⟨by simp only [List.getElem?_set_ne hne]; exact h1, ?_⟩
              rw [List.getElem?_append_left (getElem?_lt h2)]; exact h2
            · rw [hc] at hcb; cases hcb
              refine ⟨?_, ?_⟩
              · simp [inv.hlen, ha, inv.ixlen]
              · simp [← inv.ixlen]
      · -- the first time
        have has : a ∉ st.sm := by
          intro h
          have := (hsm a).1 h
          have : a ∈ D := List.count_pos_iff.1 (by omega)
          exact hap ((hpm a).2 this)
        have hheap : st.heap[a]? = some c := by rw [inv.plain a has, hc]
        have hnd : (a :: st.pm).Nodup := List.nodup_cons.2 ⟨hap, inv.pmnd⟩
        have hle : (a :: st.pm).length ≤ G.length := by
          apply length_le_of_nodup hnd
          intro b hb
          rcases List.mem_cons.1 hb with rfl | hb
          · exact ha
          · exact reach_lt hG hv (inv.reach b hb)
        simp only [List.length_cons] at hle
        have inv1 : MInv G v { st with pm := a :: st.pm } ((parts c).flatMap ptrs ++ pend) := by
          refine { inv with
            bag := ⟨a :: D, ?_, ?_, ?_⟩
            pmnd := hnd
            reach := ?_
            preach := ?_ }
          · simp only [List.flatMap_cons, kids_eq hc]
            have h1 : (ptrs v ++ (List.flatMap ptrs (parts c) ++ List.flatMap (kids G) st.pm)).Perm
                (List.flatMap ptrs (parts c) ++ (ptrs v ++ List.flatMap (kids G) st.pm)) := by
              rw [← List.append_assoc, ← List.append_assoc]
              exact List.Perm.append_right _ List.perm_append_comm
            refine h1.trans ?_
            refine (List.Perm.append_left _ hnew).trans ?_
            rw [← List.append_assoc, ← List.append_assoc]
            exact List.Perm.append_right _ List.perm_append_comm
          · intro b; simp [hpm b]
          · intro b
            by_cases hba : a = b
            · subst hba
              have : List.count a D = 0 := List.count_eq_zero.2 (fun h => hap ((hpm a).2 h))
              simp [this, has]
            · rw [List.count_cons_of_ne (by simpa using hba)]; exact hsm b
          · intro b hb
            rcases List.mem_cons.1 hb with rfl | hb
            · exact hra
            · exact inv.reach b hb
          · intro b hb
            rcases List.mem_append.1 hb with hb | hb
            · obtain ⟨w, hw, hbw⟩ := List.mem_flatMap.1 hb
              exact .step hra hc (mem_ptrs.1 hbw ▸ hw)
            · exact inv.preach b (by simp [hb])
        obtain ⟨st', h1, h2, h3⟩ := hfold (parts c) { st with pm := a :: st.pm } pend inv1 (good_parts hG hc) (by simp; omega)
        refine ⟨st', ?_, h2, by simp at h3; omega⟩
        simp [mark, hheap, hap, slots_parts hG hc, h1]

/-- The state after marking. -/
structure Marked (G : Heap) (v : Val) (st : PSt) : Prop where
  pmnd : st.pm.Nodup
  smnd : st.sm.Nodup
  reach : ∀ a, a ∈ st.pm ↔ Reach G v a
  sm : ∀ a, a ∈ st.sm ↔ 2 ≤ (ptrs v ++ st.pm.flatMap (kids G)).count a
  hlen : st.heap.length = G.length
  ixlen : st.ix.length = st.sm.length
  plain : ∀ a, a ∉ st.sm → st.heap[a]? = G[a]?
  shared : ∀ (j a : Nat) (c : Cell), st.sm[j]? = some a → G[a]? = some c →
    st.heap[a]? = some (c.setFirst (.num (j + 1))) ∧ st.ix[j]? = some c.first

theorem mem_kids {G : Heap} {a b : Nat} : b ∈ kids G a ↔ ∃ c, G[a]? = some c ∧ Val.ptr b ∈ parts c := by
  unfold kids
  cases h : G[a]? with
  | none => simp
  | some c =>
    simp only [List.mem_flatMap, Option.some.injEq, exists_eq_left']
    constructor
    · rintro ⟨w, hw, hb⟩; exact mem_ptrs.1 hb ▸ hw
    · intro h; exact ⟨_, h, by simp [ptrs]⟩

theorem reach_closed {G : Heap} {v : Val} {P : Nat → Prop} (h0 : ∀ a ∈ ptrs v, P a) (h1 : ∀ a, P a → ∀ b ∈ kids G a, P b) :
    ∀ a, Reach G v a → P a := by
  intro a h
  generalize hv : v = w at h
  induction h with
  | here a => exact h0 a (by simp [hv, ptrs])
  | step _ hc hb ih => exact h1 _ (ih hv) _ (mem_kids.2 ⟨_, hc, hb⟩)

theorem mark_done {G : Heap} {v : Val} (hG : GoodHeap G) (hv : GoodVal G v) (n : Nat) (hn : G.length < n) :
    ∃ st, mark n { heap := G, pm := [], sm := [], ix := [] } v = some st ∧ Marked G v st := by
  have inv : MInv G v { heap := G, pm := [], sm := [], ix := [] } (ptrs v ++ []) := by
    refine ⟨⟨[], by simp, by simp, by simp⟩, by simp, by simp, by simp, ?_, rfl, rfl, by simp, by simp⟩
    intro a ha
    simp only [List.append_nil] at ha
    rw [mem_ptrs.1 ha]; exact .here a
  obtain ⟨st, h1, i, _⟩ := mark_spec hG hv n _ v [] inv hv (by simpa using hn)
  refine ⟨st, h1, ?_⟩
  obtain ⟨D, hp, hpm, hsm⟩ := i.bag
  rw [List.append_nil] at hp
  refine ⟨i.pmnd, i.smnd, ?_, ?_, i.hlen, i.ixlen, i.plain, i.shared⟩
  · intro a
    refine ⟨i.reach a, ?_⟩
    apply reach_closed
    · intro a ha; exact (hpm a).2 (hp.subset (by simp [ha]))
    · intro a ha b hb
      exact (hpm b).2 (hp.subset (List.mem_append_right _ (List.mem_flatMap.2 ⟨a, ha, hb⟩)))
  · intro a; rw [hsm a, hp.count_eq]

end Eus.Circ
