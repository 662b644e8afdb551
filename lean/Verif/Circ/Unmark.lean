import Verif.Circ.Print
set_option autoImplicit false
/-
`printunmark` puts everything back, when every shared object was printed.
-/
namespace Eus.Circ
open Spec

/-- The state of unmarking: `U` are the objects done. -/
structure UInv (G : Heap) (v : Val) (st0 st : PSt) (U pend : List Nat) : Prop where
  bag : ∃ D : List Nat, (ptrs v ++ U.flatMap (kids G)).Perm (D ++ pend) ∧ ∀ a ∈ D, a ∈ U
  nd : U.Nodup
  reach : ∀ a ∈ U, Reach G v a
  preach : ∀ a ∈ pend, Reach G v a
  pmnd : st.pm.Nodup
  smnd : st.sm.Nodup
  pm : ∀ a, a ∈ st.pm ↔ (a ∈ st0.pm ∧ a ∉ U)
  sm : ∀ a, a ∈ st.sm ↔ (a ∈ st0.sm ∧ a ∉ U)
  hlen : st.heap.length = G.length
  ix : st.ix = st0.ix
  done : ∀ a ∈ U, st.heap[a]? = G[a]?
  todo : ∀ a, a ∉ U → st.heap[a]? = st0.heap[a]?

theorem unmark_spec {G : Heap} {v : Val} {st0 : PSt} (hG : GoodHeap G) (hv : GoodVal G v) (hr : ∀ a, (a ∈ st0.sm ∨ a ∈ st0.pm) ↔ Reach G v a)
    (hd : ∀ a ∈ st0.sm, a ∉ st0.pm) (hpl : ∀ a, a ∉ st0.sm → st0.heap[a]? = G[a]?)
    (hsh : ∀ (j a : Nat) (c : Cell), st0.sm[j]? = some a → G[a]? = some c →
      st0.heap[a]? = some (c.setFirst (.num (j + 1))) ∧ st0.ix[j]? = some c.first) : ∀ (n : Nat) (st : PSt) (x : Val) (U pend : List Nat),
    UInv G v st0 st U (ptrs x ++ pend) → GoodVal G x → G.length - U.length < n →
    ∃ st' U', unmark n st x = some st' ∧ UInv G v st0 st' U' pend ∧ U.length ≤ U'.length := by
  intro n
  induction n with
  | zero => intro st x U pend _ _ h; omega
  | succ n ih =>
    have hfold : ∀ (xs : List Val) (st : PSt) (U pend : List Nat), UInv G v st0 st U (xs.flatMap ptrs ++ pend) → (∀ x ∈ xs, GoodVal G x) →
        G.length - U.length < n →
        ∃ st' U', xs.foldlM (unmark n) st = some st' ∧ UInv G v st0 st' U' pend ∧ U.length ≤ U'.length := by
      intro xs
      induction xs with
      | nil => intro st U pend h _ _; exact ⟨st, U, rfl, by simpa using h, Nat.le_refl _⟩
      | cons x xs ihx =>
        intro st U pend h hg hm
        obtain ⟨st1, U1, h1, i1, l1⟩ := ih st x U (xs.flatMap ptrs ++ pend) (by simpa [List.flatMap_cons, List.append_assoc] using h)
          (hg x (by simp)) hm
        obtain ⟨st2, U2, h2, i2, l2⟩ := ihx st1 U1 pend i1 (fun y hy => hg y (by simp [hy])) (by omega)
        exact ⟨st2, U2, by simp [List.foldlM_cons, h1, h2], i2, by omega⟩
    intro st x U pend inv hx hm
    cases x with
    | nil => exact ⟨st, U, by simp [unmark], by simpa [ptrs] using inv, Nat.le_refl _⟩
    | quote => exact ⟨st, U, by simp [unmark], by simpa [ptrs] using inv, Nat.le_refl _⟩
    | sym m => exact ⟨st, U, by simp [unmark], by simpa [ptrs] using inv, Nat.le_refl _⟩
    | num m => exact ⟨st, U, by simp [unmark], by simpa [ptrs] using inv, Nat.le_refl _⟩
    | lab m => exact absurd hx (by simp [GoodVal])
    | hole m => exact absurd hx (by simp [GoodVal])
    | ptr a =>
      have ha : a < G.length := hx
      obtain ⟨c, hc⟩ : ∃ c, G[a]? = some c := ⟨G[a], by simp [ha]⟩
      obtain ⟨D, hp, hD⟩ := inv.bag
      have hra : Reach G v a := inv.preach a (by simp [ptrs])
      have hnew : (ptrs v ++ U.flatMap (kids G)).Perm ((a :: D) ++ pend) := by
        refine hp.trans ?_
        simp only [ptrs, List.cons_append, List.nil_append]
        exact List.perm_middle
      by_cases haU : a ∈ U
      · have h1 : a ∉ st.sm := fun h => ((inv.sm a).1 h).2 haU
        have h2 : a ∉ st.pm := fun h => ((inv.pm a).1 h).2 haU
        refine ⟨st, U, by simp [unmark, inv.done a haU, hc, h1, h2], ?_, Nat.le_refl _⟩
        exact { inv with
          bag := ⟨a :: D, hnew, fun b hb => by
            rcases List.mem_cons.1 hb with rfl | hb
            · exact haU
            · exact hD b hb⟩
          preach := fun b hb => inv.preach b (by simp [hb]) }
      · have hmarked : ¬ (a ∉ st.sm ∧ a ∉ st.pm) := by
          rintro ⟨h1, h2⟩
          rcases (hr a).2 hra with h | h
          · exact h1 ((inv.sm a).2 ⟨h, haU⟩)
          · exact h2 ((inv.pm a).2 ⟨h, haU⟩)
        obtain ⟨ch, hch, hfix⟩ : ∃ ch, st.heap[a]? = some ch ∧ restore st a ch = c := by
          rw [inv.todo a haU]
          by_cases hs : a ∈ st.sm
          · have hs0 := ((inv.sm a).1 hs).1
            have hp0 : a ∉ st.pm := fun h => hd a hs0 ((inv.pm a).1 h).1
            obtain ⟨j, hj⟩ := List.getElem?_of_mem hs0
            obtain ⟨h1, h2⟩ := hsh j a c hj hc
            refine ⟨_, h1, ?_⟩
            have hixd : st.ix.getD (j + 1 - 1) .nil = c.first := by
              rw [Nat.add_sub_cancel, inv.ix, List.getD_eq_getElem?_getD, h2]; rfl
            simp only [restore, hs, hp0, not_false_eq_true, and_self, if_true, first_setFirst, hixd, setFirst_setFirst]
          · have hs0 : a ∉ st0.sm := fun h => hs ((inv.sm a).2 ⟨h, haU⟩)
            exact ⟨c, by rw [hpl a hs0, hc], by simp [restore, hs]⟩
        have hnd : (a :: U).Nodup := List.nodup_cons.2 ⟨haU, inv.nd⟩
        have hreach : ∀ b ∈ a :: U, Reach G v b := by
          intro b hb
          rcases List.mem_cons.1 hb with rfl | hb
          · exact hra
          · exact inv.reach b hb
        have hle : (a :: U).length ≤ G.length := length_le_of_nodup hnd (fun b hb => reach_lt hG hv (hreach b hb))
        simp only [List.length_cons] at hle
        have inv1 : UInv G v st0 { st with heap := st.heap.set a c, pm := st.pm.erase a, sm := st.sm.erase a } (a :: U)
            ((parts c).flatMap ptrs ++ pend) := by
          refine ⟨⟨a :: D, ?_, ?_⟩, hnd, hreach, ?_, inv.pmnd.erase a, inv.smnd.erase a, ?_, ?_, by simp [inv.hlen], inv.ix, ?_, ?_⟩
          · simp only [List.flatMap_cons, kids_eq hc]
            have h1 : (ptrs v ++ (List.flatMap ptrs (parts c) ++ List.flatMap (kids G) U)).Perm
                (List.flatMap ptrs (parts c) ++ (ptrs v ++ List.flatMap (kids G) U)) := by
              rw [← List.append_assoc, ← List.append_assoc]
              exact List.Perm.append_right _ List.perm_append_comm
            refine h1.trans ?_
            refine (List.Perm.append_left _ hnew).trans ?_
            rw [← List.append_assoc, ← List.append_assoc]
            exact List.Perm.append_right _ List.perm_append_comm
          · intro b hb
            rcases List.mem_cons.1 hb with rfl | hb
            · simp
            · exact List.mem_cons_of_mem _ (hD b hb)
          · intro b hb
            rcases List.mem_append.1 hb with hb | hb
            · obtain ⟨w, hw, hbw⟩ := List.mem_flatMap.1 hb
              exact .step hra hc (mem_ptrs.1 hbw ▸ hw)
            · exact inv.preach b (by simp [hb])
          · intro b
            rw [inv.pmnd.mem_erase_iff, inv.pm b, List.mem_cons, not_or]
            exact ⟨fun h => ⟨h.2.1, h.1, h.2.2⟩, fun h => ⟨h.2.1, h.1, h.2.2⟩⟩
          · intro b
            rw [inv.smnd.mem_erase_iff, inv.sm b, List.mem_cons, not_or]
            exact ⟨fun h => ⟨h.2.1, h.1, h.2.2⟩, fun h => ⟨h.2.1, h.1, h.2.2⟩⟩
          · intro b hb
            by_cases hba : a = b
            · subst hba
              rw [hc]; simp [inv.hlen, ha]
            · simp only [List.getElem?_set_ne hba]
              rcases List.mem_cons.1 hb with h | hb
              · exact absurd h.symm hba
              · exact inv.done b hb
          · intro b hb
            have hba : a ≠ b := fun h => hb (h ▸ List.mem_cons_self)
            simp only [List.getElem?_set_ne hba]
            exact inv.todo b (fun h => hb (List.mem_cons_of_mem _ h))
        obtain ⟨st', U', h1, h2, h3⟩ := hfold (parts c) _ (a :: U) pend inv1 (good_parts hG hc) (by simp; omega)
        refine ⟨st', U', ?_, h2, by simp at h3; omega⟩
        simp only [unmark, hch, hmarked, if_false, hfix, slots_parts hG hc]
        exact h1

theorem unmark_done {G : Heap} {v : Val} {st : PSt} (hG : GoodHeap G) (hv : GoodVal G v) (hM : Marked G v st) (pm : List Nat) (hnd : pm.Nodup)
    (hpm : ∀ a, a ∈ pm ↔ (a ∈ st.pm ∧ a ∉ st.sm)) (n : Nat) (hn : G.length < n) :
    ∃ st', unmark n { st with pm := pm } v = some st' ∧ st'.heap = G ∧ st'.pm = [] ∧ st'.sm = [] := by
  have hr : ∀ a, (a ∈ st.sm ∨ a ∈ pm) ↔ Reach G v a := by
    intro a
    rw [hpm a, ← hM.reach a]
    constructor
    · rintro (h | h)
      · exact hM.smpm a h
      · exact h.1
    · intro h
      by_cases hs : a ∈ st.sm
      · exact .inl hs
      · exact .inr ⟨h, hs⟩
  have inv : UInv G v { st with pm := pm } { st with pm := pm } [] (ptrs v ++ []) := by
    refine ⟨⟨[], by simp, by simp⟩, by simp, by simp, ?_, hnd, hM.smnd, by simp, by simp, hM.hlen, rfl, by simp, by simp⟩
    intro a ha
    simp only [List.append_nil] at ha
    rw [mem_ptrs.1 ha]; exact .here a
  obtain ⟨st', U, h1, i, _⟩ := unmark_spec (st0 := { st with pm := pm }) hG hv hr (fun a ha h => ((hpm a).1 h).2 ha) hM.plain hM.shared n _ v [] [] inv hv
    (by simpa using hn)
  obtain ⟨D, hp, hD⟩ := i.bag
  rw [List.append_nil] at hp
  have hU : ∀ a, Reach G v a → a ∈ U := by
    apply reach_closed
    · intro a ha; exact hD a (hp.subset (by simp [ha]))
    · intro a ha b hb
      exact hD b (hp.subset (List.mem_append_right _ (List.mem_flatMap.2 ⟨a, ha, hb⟩)))
  refine ⟨st', h1, ?_, ?_, ?_⟩
  · apply List.ext_getElem?
    intro a
    by_cases ha : a ∈ U
    · exact i.done a ha
    · rw [i.todo a ha]
      exact hM.plain a (fun h => ha (hU a ((hr a).1 (.inl h))))
  · apply List.eq_nil_iff_forall_not_mem.2
    intro a h
    have := (i.pm a).1 h
    exact this.2 (hU a ((hr a).1 (.inr this.1)))
  · apply List.eq_nil_iff_forall_not_mem.2
    intro a h
    have := (i.sm a).1 h
    exact this.2 (hU a ((hr a).1 (.inl this.1)))

end Eus.Circ
