import Verif.Mem.Inv
set_option autoImplicit false
/-
`splitheap` and the collection preserve the invariant.
-/
namespace Eus.Mem

theorem splitheap_spec (k : Nat) (H : Heap) (h : St H) (hk : 2 ≤ k) (hf : H.free k ≠ []) :
    ∃ H', splitheap k H = .ok H' ∧ St H' ∧ Keep H H' ∧ H'.free (k - 1) ≠ [] ∧
      (3 ≤ k → H'.free (k - 2) ≠ []) := by
  obtain ⟨hg, lv, i⟩ := h
  unfold splitheap
  rw [if_neg (by omega)]
  cases hfk : H.free k with
  | nil => exact absurd hfk hf
  | cons b1 bnext =>
  simp only
  set b2 : Cell := (b1.1, b1.2 + buddysize (k - 1)) with hb2
  set k2 := if k = 2 then 1 else k - 2 with hk2
  have hk2' : k2 = rightIx (k - 2) := by
    rw [hk2]; unfold rightIx; split_ifs <;> omega
  set hdr' := upd (upd H.hdr b2 (⟨k2, true, (H.hdr b1).m, false, false⟩ : Hdr)) b1
    ⟨k - 1, false, (H.hdr b1).b, (H.hdr b1).mark, false⟩ with hhdr'
  set free2 := (if k = 2 then upd (upd H.free k bnext) 1 (b1 :: b2 :: upd H.free k bnext 1)
      else upd (upd (upd H.free k bnext) (k - 1) (b1 :: upd H.free k bnext (k - 1))) (k - 2)
        (b2 :: upd H.free k bnext (k - 2))) with hfree2
  set count2 := (if k = 2 then upd (upd H.count k (H.count k - 1)) 1 (upd H.count k (H.count k - 1) 1 + 2)
      else upd (upd (upd H.count k (H.count k - 1)) (k - 1) (upd H.count k (H.count k - 1) (k - 1) + 1)) (k - 2)
        (upd H.count k (H.count k - 1) (k - 2) + 1)) with hcount2
  have hb1k : b1 ∈ H.free k := by rw [hfk]; simp
  obtain ⟨hb1f, hb1c, _, hk38⟩ := i.free_mem hb1k
  have hb1ix := i.freeix k b1 hb1k
  have hsz := (size_pos (k - 1)).1
  have hne : b2 ≠ b1 := by
    intro e
    have := congrArg Prod.snd e
    simp only [hb2] at this
    omega
  -- the chunk
  obtain ⟨hcm, hpm⟩ := mem_cellsOf.1 hb1c
  obtain ⟨X, Y, hXY⟩ := List.append_of_mem hpm
  have hhb1 : hdr' b1 = ⟨k - 1, false, (H.hdr b1).b, (H.hdr b1).mark, false⟩ := by simp [hhdr', upd]
  have hhb2 : hdr' b2 = ⟨k2, true, (H.hdr b1).m, false, false⟩ := by simp [hhdr', upd, hne]
  have hho : ∀ x, x ≠ b1 → x ≠ b2 → hdr' x = H.hdr x := by
    intro x h1 h2; simp [hhdr', upd, h1, h2]
  set lv' := upd lv b1.1 (X ++ b1.2 :: b2.2 :: Y) with hlv'
  have hq : b2.2 ∉ X ++ b1.2 :: Y := by
    obtain ⟨ck, hck, he⟩ := List.mem_map.1 hcm
    have t := i.tiled ck hck
    rw [he, hXY] at t
    have hp := t.seg.pairwise
    have hn := t.seg.nodup
    rw [List.pairwise_append, List.pairwise_cons] at hp
    have e1 : hc H b1.1 b1.2 = H.hdr b1 := rfl
    have hsz2 : buddysize (k - 1) < buddysize k := by
      obtain ⟨j, rfl⟩ : ∃ j, k = j + 2 := ⟨k - 2, by omega⟩
      have := size_two j
      have := (size_pos j).1
      simp only [Nat.add_sub_cancel, show j + 2 - 1 = j + 1 by omega] at *
      omega
    intro hh
    rcases List.mem_append.1 hh with hh | hh
    · have := hp.2.2 b2.2 hh b1.2 (by simp)
      simp only [hb2] at this
      omega
    · rcases List.mem_cons.1 hh with hh | hh
      · simp only [hb2] at hh; omega
      · have := hp.2.1.1 b2.2 hh
        rw [e1, hb1ix] at this
        simp only [hb2] at this
        omega
  have hb2c : b2 ∉ cellsOf H.chunks lv := by
    intro hh
    have := (mem_cellsOf.1 hh).2
    rw [show lv b2.1 = _ from hXY] at this
    exact hq this
  have hcl : ∀ x, x ∈ cellsOf H.chunks lv' ↔ x = b2 ∨ x ∈ cellsOf H.chunks lv := by
    intro x
    obtain ⟨x1, x2⟩ := x
    simp only [mem_cellsOf]
    by_cases hx : x1 = b1.1
    · subst hx
      have e1 : lv' b1.1 = X ++ b1.2 :: b2.2 :: Y := by simp [hlv', upd]
      rw [e1, hXY]
      have e2 : ((b1.1, x2) : Cell) = b2 ↔ x2 = b2.2 := by
        simp [hb2]
      rw [e2]
      simp only [List.mem_append, List.mem_cons, hcm, true_and]
      tauto
    · have e1 : lv' x1 = lv x1 := by simp [hlv', upd, hx]
      have e2 : ((x1, x2) : Cell) ≠ b2 := by
        intro e
        exact hx (congrArg Prod.fst e)
      rw [e1]
      simp [e2]
  have hhu : ∀ x, x ∈ tbL H ∨ x ∈ usedL H → x ≠ b1 ∧ x ≠ b2 := by
    intro x hx
    refine ⟨?_, ?_⟩
    · rintro rfl
      have h1 := count_pos.2 hb1f
      have h2 := i.occ x
      rcases hx with hx | hx <;> have := count_pos.2 hx <;> omega
    · rintro rfl
      exact hb2c (i.cell _ (Or.inr hx))
  have hhk : ∀ x, x ∈ tbL H ∨ x ∈ usedL H → hdr' x = H.hdr x :=
    fun x hx => hho x (hhu x hx).1 (hhu x hx).2
  have hocc0 : (freeL H).count b2 = 0 ∧ (tbL H).count b2 = 0 ∧ (usedL H).count b2 = 0 :=
    ⟨List.count_eq_zero.2 fun h => hb2c (i.cell _ (Or.inl h)),
     List.count_eq_zero.2 fun h => hb2c (i.cell _ (Or.inr (Or.inl h))),
     List.count_eq_zero.2 fun h => hb2c (i.cell _ (Or.inr (Or.inr h)))⟩
  have hfree : ∀ x, ((List.range MAXBUDDY).flatMap free2).count x = (freeL H).count x + [b2].count x := by
    intro x
    have hM : MAXBUDDY = 40 := rfl
    have c1 := free_count H.free k bnext (by omega) x
    rw [hfk, List.count_cons] at c1
    rw [hfree2]
    unfold freeL
    by_cases h2 : k = 2
    · rw [if_pos h2]
      have c2 := free_count (upd H.free k bnext) 1 (b1 :: b2 :: upd H.free k bnext 1) (by omega) x
      rw [List.count_cons, List.count_cons] at c2
      rw [List.count_cons, List.count_nil]
      omega
    · rw [if_neg h2]
      have c2 := free_count (upd H.free k bnext) (k - 1) (b1 :: upd H.free k bnext (k - 1)) (by omega) x
      have c3 := free_count (upd (upd H.free k bnext) (k - 1) (b1 :: upd H.free k bnext (k - 1))) (k - 2)
        (b2 :: upd H.free k bnext (k - 2)) (by omega) x
      have e : upd (upd H.free k bnext) (k - 1) (b1 :: upd H.free k bnext (k - 1)) (k - 2) =
          upd H.free k bnext (k - 2) := by
        have : k - 2 ≠ k - 1 := by omega
        simp [upd, this]
      rw [e, List.count_cons] at c3
      rw [List.count_cons] at c2
      rw [List.count_cons, List.count_nil]
      omega
  -- membership in the new lists
  have hmem : ∀ j x, x ∈ free2 j → (x = b1 ∧ j = k - 1) ∨ (x = b2 ∧ j = k2) ∨
      (x ∈ H.free j ∧ x ≠ b1) := by
    intro j x hx
    have hold : ∀ j x, x ∈ upd H.free k bnext j → x ∈ H.free j ∧ x ≠ b1 := by
      intro j y hy
      have hcc := i.occ b1
      by_cases hj : j = k
      · subst hj
        simp only [upd, if_true] at hy
        refine ⟨by rw [hfk]; simp [hy], ?_⟩
        rintro rfl
        have := free_count H.free j [] (by simp [MAXBUDDY]; omega) y
        rw [hfk, List.count_cons_self, List.count_nil] at this
        have h3 := count_pos.2 hy
        unfold freeL at hcc
        omega
      · simp only [upd, hj, if_false] at hy
        refine ⟨hy, ?_⟩
        rintro rfl
        exact hj ((i.freeix j y hy).symm.trans hb1ix)
    rw [hfree2] at hx
    by_cases h2 : k = 2
    · rw [if_pos h2] at hx
      by_cases hj : j = 1
      · rw [hj] at hx
        simp only [show ∀ v, upd (upd H.free k bnext) 1 v 1 = v by intro v; simp [upd]] at hx
        rcases List.mem_cons.1 hx with rfl | hx
        · exact Or.inl ⟨rfl, by omega⟩
        rcases List.mem_cons.1 hx with rfl | hx
        · exact Or.inr (Or.inl ⟨rfl, by rw [hk2, if_pos h2]; exact hj⟩)
        · rw [hj]; exact Or.inr (Or.inr (hold 1 x hx))
      · rw [show upd (upd H.free k bnext) 1 _ j = upd H.free k bnext j by simp [upd, hj]] at hx
        exact Or.inr (Or.inr (hold j x hx))
    · rw [if_neg h2] at hx
      by_cases hj : j = k - 2
      · rw [hj] at hx
        simp only [show ∀ v, upd (upd (upd H.free k bnext) (k - 1) (b1 :: upd H.free k bnext (k - 1))) (k - 2) v (k - 2) = v by
          intro v; simp [upd]] at hx
        rcases List.mem_cons.1 hx with rfl | hx
        · exact Or.inr (Or.inl ⟨rfl, by rw [hk2, if_neg h2]; exact hj⟩)
        · rw [hj]; exact Or.inr (Or.inr (hold _ x hx))
      · rw [show ∀ v, upd (upd (upd H.free k bnext) (k - 1) (b1 :: upd H.free k bnext (k - 1))) (k - 2) v j =
            upd (upd H.free k bnext) (k - 1) (b1 :: upd H.free k bnext (k - 1)) j by intro v; simp [upd, hj]] at hx
        by_cases hj1 : j = k - 1
        · rw [hj1] at hx
          simp only [show ∀ v, upd (upd H.free k bnext) (k - 1) v (k - 1) = v by intro v; simp [upd]] at hx
          rcases List.mem_cons.1 hx with rfl | hx
          · exact Or.inl ⟨rfl, hj1⟩
          · rw [hj1]; exact Or.inr (Or.inr (hold _ x hx))
        · rw [show upd (upd H.free k bnext) (k - 1) _ j = upd H.free k bnext j by simp [upd, hj1]] at hx
          exact Or.inr (Or.inr (hold j x hx))
  have hcount : ∀ j, j < 16 → count2 j = ((free2 j).length : Int) := by
    intro j hj
    have hlen : ∀ j, j < 16 → upd H.count k (H.count k - 1) j = ((upd H.free k bnext j).length : Int) := by
      intro j hj
      by_cases hjk : j = k
      · subst hjk
        have := i.count j hj
        rw [hfk] at this
        simp only [upd, if_true]
        simp only [List.length_cons] at this
        push_cast at this
        omega
      · simp only [upd, hjk, if_false]
        exact i.count j hj
    have hu : ∀ {α : Type} (f : Nat → α) (a : Nat) (v : α) (j : Nat), upd f a v j = if j = a then v else f j :=
      fun _ _ _ _ => rfl
    rw [hcount2, hfree2]
    by_cases h2 : k = 2
    · rw [if_pos h2, if_pos h2, hu _ 1, hu _ 1]
      by_cases hj1 : j = 1
      · rw [if_pos hj1, if_pos hj1, hlen 1 (by omega)]
        simp only [List.length_cons]
        push_cast
        omega
      · rw [if_neg hj1, if_neg hj1]; exact hlen j hj
    · rw [if_neg h2, if_neg h2, hu _ (k - 2), hu _ (k - 2)]
      by_cases hj2 : j = k - 2
      · rw [if_pos hj2, if_pos hj2, hlen (k - 2) (by omega)]
        simp only [List.length_cons]
        push_cast
        omega
      · rw [if_neg hj2, if_neg hj2, hu _ (k - 1), hu _ (k - 1)]
        by_cases hj1 : j = k - 1
        · rw [if_pos hj1, if_pos hj1, hlen (k - 1) (by omega)]
          simp only [List.length_cons]
          push_cast
          omega
        · rw [if_neg hj1, if_neg hj1]; exact hlen j hj
  refine ⟨_, rfl, ⟨hg, lv', ?_⟩, ?_, ?_, ?_⟩
  · constructor
    · exact i.num
    · exact i.nodup
    · exact i.ix
    · intro ck hck
      by_cases hc1 : ck.1 = b1.1
      · have t := i.tiled ck hck
        rw [hc1, hXY] at t
        rw [hc1, show lv' b1.1 = X ++ b1.2 :: b2.2 :: Y by simp [hlv', upd]]
        have eb1 : hc H b1.1 b1.2 = H.hdr b1 := rfl
        refine t.split X Y b1.2 b2.2 rfl ?_ ?_ ?_ ?_
        · rw [eb1, hb1ix]; exact hk
        · rw [eb1, hb1ix]
        · rw [eb1, hb1ix]
          show (hdr' b1).bix = k - 1 ∧ (hdr' b1).b = false ∧ (hdr' b1).m = (H.hdr b1).b ∧
            (hdr' b2).bix = rightIx (k - 2) ∧ (hdr' b2).b = true ∧ (hdr' b2).m = (H.hdr b1).m
          rw [hhb1, hhb2]
          exact ⟨rfl, rfl, rfl, hk2', rfl, rfl⟩
        · intro x hx
          have hnd := t.seg.nodup
          have hx1 : x ≠ b1.2 := by
            rintro rfl
            have := notin_of_nodup hnd
            rcases List.mem_append.1 hx with h | h
            · exact this.1 h
            · exact this.2 h
          have hx2 : x ≠ b2.2 := by
            rintro rfl
            apply hq
            rcases List.mem_append.1 hx with h | h <;> simp [h]
          have : hdr' (b1.1, x) = H.hdr (b1.1, x) := hho _
            (fun e => hx1 (congrArg Prod.snd e)) (fun e => hx2 (congrArg Prod.snd e))
          show (hdr' (b1.1, x)).bix = (H.hdr (b1.1, x)).bix ∧ (hdr' (b1.1, x)).b = (H.hdr (b1.1, x)).b ∧
            (hdr' (b1.1, x)).m = (H.hdr (b1.1, x)).m
          rw [this]
          exact ⟨rfl, rfl, rfl⟩
      · rw [show lv' ck.1 = lv ck.1 by simp [hlv', upd, hc1]]
        refine (i.tiled ck hck).frame fun x _ => ?_
        have : hdr' (ck.1, x) = H.hdr (ck.1, x) := hho _
          (fun e => by have := congrArg Prod.fst e; exact hc1 this)
          (fun e => by have := congrArg Prod.fst e; exact hc1 this)
        show (hdr' (ck.1, x)).bix = (H.hdr (ck.1, x)).bix ∧ (hdr' (ck.1, x)).b = (H.hdr (ck.1, x)).b ∧
            (hdr' (ck.1, x)).m = (H.hdr (ck.1, x)).m
        rw [this]
        exact ⟨rfl, rfl, rfl⟩
    · intro x
      show ((List.range MAXBUDDY).flatMap free2).count x + (tbL H).count x + (usedL H).count x ≤ 1
      rw [hfree x]
      have := i.occ x
      by_cases hx : x = b2
      · subst hx
        rw [List.count_singleton_self]
        omega
      · rw [show [b2].count x = 0 from List.count_eq_zero.2 (by simpa using hx)]
        omega
    · intro x hx
      show x ∈ cellsOf H.chunks lv'
      rw [hcl]
      rcases hx with hx | hx
      · obtain ⟨j, hj, hx⟩ := mem_freeL.1 hx
        rcases hmem j x hx with h | h | h
        · rw [h.1]; exact Or.inr hb1c
        · exact Or.inl h.1
        · exact Or.inr (i.free_mem h.1).2.1
      · exact Or.inr (i.cell x (Or.inr hx))
    · intro j x hx
      show (hdr' x).bix = j
      rcases hmem j x hx with h | h | h
      · rw [h.1, hhb1]; exact h.2.symm
      · rw [h.1, hhb2]; exact h.2.symm
      · rw [hho x h.2 (by rintro rfl; exact hb2c (i.free_mem h.1).2.1)]
        exact i.freeix j x h.1
    · intro j hj
      have : ∀ x, x ∉ free2 j := by
        intro x hx
        rcases hmem j x hx with h | h | h
        · omega
        · have : k2 ≤ 38 := by rw [hk2]; split_ifs <;> omega
          omega
        · rw [i.freeout j hj] at h; exact absurd h.1 (by simp)
      exact List.eq_nil_iff_forall_not_mem.2 this
    · intro t j x hx
      show (hdr' x).bix = j
      rw [hhk x (Or.inl (i.tb_mem hx))]
      exact i.tbix t j x hx
    · exact i.tbout
    · have h1 : ((tbL H).map fun x => buddysize (hdr' x).bix).sum =
          ((tbL H).map fun x => buddysize (H.hdr x).bix).sum :=
        sum_congr fun x hx => by rw [hhk x (Or.inl hx)]
      have h2 : ((usedL H).map fun x => buddysize (hdr' x).bix).sum =
          ((usedL H).map fun x => buddysize (H.hdr x).bix).sum :=
        sum_congr fun x hx => by rw [hhk x (Or.inr hx)]
      show H.freeheap + (((tbL H).map fun x => buddysize (hdr' x).bix).sum : Nat) +
        (((usedL H).map fun x => buddysize (hdr' x).bix).sum : Nat) = H.totalheap
      rw [h1, h2]
      exact i.acc
    · exact i.tot
    · exact hcount
    · exact i.tcount
    · intro x
      show (hdr' x).mark = false
      by_cases h1 : x = b1
      · rw [h1, hhb1]; exact i.mark b1
      · by_cases h2 : x = b2
        · rw [h2, hhb2]
        · rw [hho x h1 h2]; exact i.mark x
    · intro x
      show (hdr' x).nodispose = true → _
      by_cases h1 : x = b1
      · rw [h1, hhb1]; simp
      · by_cases h2 : x = b2
        · rw [h2, hhb2]; simp
        · rw [hho x h1 h2]; exact i.nod x
    · intro u hu
      show u.2 + 1 ≤ buddysize (hdr' u.1).bix
      rw [hhk u.1 (Or.inr (List.mem_map_of_mem hu))]
      exact i.fits u hu
  · refine ⟨rfl, rfl, rfl, rfl, rfl, rfl, .refl _, ?_, ?_, rfl, rfl⟩
    · intro x hx
      show (hdr' x).bix = _
      rw [hhk x (Or.inr hx)]
    · intro x hx
      show (hdr' x).nodispose = _
      rw [hhk x (Or.inr (hg x hx))]
  · show free2 (k - 1) ≠ []
    rw [hfree2]
    by_cases h2 : k = 2
    · rw [if_pos h2, h2]; simp [upd]
    · rw [if_neg h2]
      have : k - 1 ≠ k - 2 := by omega
      simp [upd, this]
  · intro h3
    show free2 (k - 2) ≠ []
    rw [hfree2, if_neg (by omega)]
    simp [upd]

/-! ### collection -/

theorem clear_fold (L : List Cell) : ∀ (H : Heap),
    ∃ hdr', L.foldl (fun H p => { H with hdr := upd H.hdr p { H.hdr p with nodispose := false } }) H =
        { H with hdr := hdr' } ∧
      (∀ x, hdr' x = { H.hdr x with nodispose := (hdr' x).nodispose }) ∧
      (∀ x, (hdr' x).nodispose = true → (H.hdr x).nodispose = true) ∧
      (∀ x, x ∉ L → hdr' x = H.hdr x) := by
  induction L with
  | nil => intro H; exact ⟨H.hdr, rfl, fun _ => rfl, fun _ h => h, fun _ _ => rfl⟩
  | cons p L ih =>
    intro H
    obtain ⟨hdr', h1, h2, h3, h4⟩ := ih { H with hdr := upd H.hdr p { H.hdr p with nodispose := false } }
    refine ⟨hdr', ?_, fun x => ?_, fun x hx => ?_, fun x hx => ?_⟩
    · rw [List.foldl_cons, h1]
    · rw [h2 x]
      by_cases hp : x = p
      · subst hp; simp [upd]
      · simp [upd, hp]
    · have := h3 x hx
      by_cases hp : x = p
      · subst hp; simp [upd] at this
      · simpa [upd, hp] using this
    · simp only [List.mem_cons, not_or] at hx
      rw [h4 x hx.2]
      simp [upd, hx.1]

theorem sum_cells {H : Heap} {cs : List (Nat × Nat)} {lv : Nat → List Nat}
    (ht : ∀ ck ∈ cs, Tiled (hc H ck.1) ck.2 0 true false (lv ck.1)) :
    ((cellsOf cs lv).map fun x => buddysize (H.hdr x).bix).sum = (cs.map fun ck => buddysize ck.2).sum := by
  induction cs with
  | nil => rfl
  | cons ck cs ih =>
    have h1 := ih fun x hx => ht x (by simp [hx])
    have h2 := (ht ck (by simp)).seg.sum
    show ((((lv ck.1).map fun p => (ck.1, p)) ++ cellsOf cs lv).map fun x => buddysize (H.hdr x).bix).sum = _
    rw [List.map_append, List.sum_append, h1, List.map_map]
    simp only [List.map_cons, List.sum_cons]
    have : (List.map ((fun x : Cell => buddysize (H.hdr x).bix) ∘ fun p => (ck.1, p)) (lv ck.1)) =
        List.map (fun x => buddysize (hc H ck.1 x).bix) (lv ck.1) := rfl
    rw [this]
    omega

theorem flatMap_filter {bx : Cell → Nat} (n : Nat) : ∀ (Z : List Cell), (∀ z ∈ Z, bx z < n) →
    ((List.range n).flatMap fun j => Z.filter fun z => bx z = j).Perm Z := by
  intro Z
  induction Z with
  | nil => intro _; simp
  | cons z Z ih =>
    intro h
    have h1 := ih fun x hx => h x (by simp [hx])
    have h2 := flatMap_upd (List.range n) (fun j => Z.filter fun z => bx z = j) (bx z)
      (z :: Z.filter fun x => bx x = bx z) List.nodup_range (by simpa using h z (by simp))
    have e : (fun j => (z :: Z).filter fun z => bx z = j) =
        upd (fun j => Z.filter fun z => bx z = j) (bx z) (z :: Z.filter fun x => bx x = bx z) := by
      funext j
      by_cases hj : j = bx z
      · subst hj; simp [upd]
      · have : bx z ≠ j := Ne.symm hj
        simp [upd, hj, this]
    rw [e]
    have h3 : ((List.range n).flatMap (upd (fun j => Z.filter fun z => bx z = j) (bx z)
        (z :: Z.filter fun x => bx x = bx z)) ++ Z.filter fun x => bx x = bx z).Perm
        ((z :: (List.range n).flatMap fun j => Z.filter fun z => bx z = j) ++ Z.filter fun x => bx x = bx z) := by
      refine h2.trans ?_
      simp only [List.cons_append]
      exact List.Perm.cons z List.perm_append_comm
    exact ((List.perm_append_right_iff _).1 h3).trans (List.Perm.cons z h1)

theorem count_filter_of {p : Cell → Bool} {L : List Cell} {x : Cell} :
    (L.filter p).count x = if p x then L.count x else 0 := by
  by_cases h : p x = true
  · rw [if_pos h, List.count_filter h]
  · rw [if_neg h]
    exact List.count_eq_zero.2 fun hh => h (List.mem_filter.1 hh).2

/-- Everything a collection does. -/
theorem gc_spec (env : Env) (n : Nat) (H : Heap) (hg : Good H) (lv : Nat → List Nat) (i : Inv H lv) (H1 : Heap)
    (hm : markall n H = .ok H1) :
    ∃ H' lv', gc env n H = .ok H' ∧ Good H' ∧ Inv H' lv' ∧ Keep H H' ∧ H'.chunks = H.chunks ∧
      (∀ x, (H1.hdr x).mark = true ↔ ReachFrom H.obj (rootsL H) x ∨ x ∈ tbL H) ∧
      H'.used = H.used.filter (fun u => live H1 u.1) ∧
      (∀ x, x ∈ cellsOf H'.chunks lv' → (x ∈ freeL H' ↔ live H1 x = false)) ∧
      (∀ c, (lv' c).Sublist (lv c)) ∧
      (∀ x, x ∈ tbL H ∨ x ∈ usedL H' → (H'.hdr x).bix = (H.hdr x).bix) ∧
      (∀ pre ck post, H.chunks = pre ++ ck :: post → env.gcmerge H.totalheap ≤
          (((freeL H').filter fun x => decide (x.1 ∈ pre.map Prod.fst)).map fun x => buddysize (H'.hdr x).bix).sum →
        (lv' ck.1).IsChain (Coarse (fun q => (H'.hdr (ck.1, q)).b) fun q => live H1 (ck.1, q))) ∧
      H'.freeheap = (((freeL H').map fun x => buddysize (H'.hdr x).bix).sum : Nat) ∧
      H'.disposed = (cellsOf H.chunks lv).filter (fun x => !(H1.hdr x).mark && (H1.hdr x).nodispose) := by
  have hlu : ∀ x, ReachFrom H.obj (rootsL H) x → x ∉ tbL H := by
    intro x hx hh
    have h1 := count_pos.2 (hg x hx)
    have h2 := count_pos.2 hh
    have := i.occ x
    omega
  have hmk := markall_iff n H H1 hm (fun x _ => i.mark x) (fun x h => by rw [i.mark x] at h; cases h) hlu
  have mo := (markall_spec n H H1 hm).only
  have hb1 : ∀ x, (H1.hdr x).bix = (H.hdr x).bix ∧ (H1.hdr x).b = (H.hdr x).b ∧ (H1.hdr x).m = (H.hdr x).m ∧
      (H1.hdr x).nodispose = (H.hdr x).nodispose := by
    intro x; rw [mo.bits x]; exact ⟨rfl, rfl, rfl, rfl⟩
  have hL : ∀ x, live H1 x = true ↔ (ReachFrom H.obj (rootsL H) x ∨ x ∈ tbL H) ∨ (H.hdr x).nodispose = true := by
    intro x
    unfold live
    rw [Bool.or_eq_true, hmk, (hb1 x).2.2.2]
  have hLo : ∀ x, live H1 x = true → x ∈ tbL H ∨ x ∈ usedL H := by
    intro x hx
    rcases (hL x).1 hx with (h | h) | h
    · exact Or.inr (hg x h)
    · exact Or.inl h
    · exact Or.inr (i.nod x h)
  have ec : H1.chunks = H.chunks := by rw [mo.rest]
  have et : H1.totalheap = H.totalheap := by rw [mo.rest]
  have ef : H1.free = H.free := by rw [mo.rest]
  set H2 : Heap := { H1 with
    free := fun i => if i < MAXBUDDY - 1 then [] else H1.free i
    count := fun i => if i < MAXBUDDY - 1 then 0 else H1.count i
    freeheap := 0
    disposed := [] } with hH2
  have hl2 : ∀ x, live H2 x = live H1 x := fun _ => rfl
  obtain ⟨H3, lv', f1, f2, f3, f4, f5, f6, f7, f8, f9, f10, f11⟩ :=
    sweepChunks_spec (env.gcmerge H.totalheap) H.chunks H2 lv i.nodup (by
      intro ck hck
      refine (i.tiled ck hck).frame fun x _ => ?_
      have := hb1 (ck.1, x)
      exact ⟨this.1, this.2.1, this.2.2.1⟩)
  set H4 : Heap := { H3 with used := H3.used.filter fun u => live H1 u.1 } with hH4
  obtain ⟨hdr', d1, d2, d3, d4⟩ := clear_fold (H4.disposed.take 256) H4
  set H' : Heap := { H4 with hdr := hdr' } with hH'
  have hgc : gc env n H = .ok H' := by
    unfold gc
    rw [hm]
    show sweepall env H1 = _
    unfold sweepall
    simp only
    have f1' : sweepChunks (env.gcmerge H1.totalheap) H1.chunks H2 = .ok H3 := by rw [ec, et]; exact f1
    show (sweepChunks (env.gcmerge H1.totalheap) H1.chunks H2).bind _ = _
    rw [f1']
    show Res.ok (clearDispose H4) = _
    unfold clearDispose
    rw [d1]
  -- headers
  have hhdr : ∀ x, (H'.hdr x).bix = (H3.hdr x).bix ∧ (H'.hdr x).b = (H3.hdr x).b ∧ (H'.hdr x).m = (H3.hdr x).m ∧
      (H'.hdr x).mark = (H3.hdr x).mark := by
    intro x
    show (hdr' x).bix = _ ∧ (hdr' x).b = _ ∧ (hdr' x).m = _ ∧ (hdr' x).mark = _
    rw [d2 x]
    exact ⟨rfl, rfl, rfl, rfl⟩
  have hbx : (fun x => (H'.hdr x).bix) = fun x => (H3.hdr x).bix := by funext x; exact (hhdr x).1
  have hdisp : H'.disposed = (cellsOf H.chunks lv).filter (fun x => !(H1.hdr x).mark && (H1.hdr x).nodispose) := by
    show H3.disposed = _
    rw [f11]
    rfl
  -- plain fields
  have g_chunks : H'.chunks = H.chunks := by show H3.chunks = _; rw [f8.chunks]; exact ec
  have g_tb : H'.tb = H.tb := by show H3.tb = _; rw [f8.tb]; show H1.tb = _; rw [mo.rest]
  have g_tcount : H'.tcount = H.tcount := by show H3.tcount = _; rw [f8.tcount]; show H1.tcount = _; rw [mo.rest]
  have g_tot : H'.totalheap = H.totalheap := by show H3.totalheap = _; rw [f8.totalheap]; exact et
  have g_obj : H'.obj = H.obj := by show H3.obj = _; rw [f8.obj]; show H1.obj = _; rw [mo.rest]
  have g_sys : H'.sys = H.sys := by show H3.sys = _; rw [f8.sys]; show H1.sys = _; rw [mo.rest]
  have g_stk : H'.stk = H.stk := by show H3.stk = _; rw [f8.stk]; show H1.stk = _; rw [mo.rest]
  have g_spec : H'.spec = H.spec := by show H3.spec = _; rw [f8.spec]; show H1.spec = _; rw [mo.rest]
  have g_last : H'.last = H.last := by show H3.last = _; rw [f8.last]; show H1.last = _; rw [mo.rest]
  have g_cls : H'.cls = H.cls := by show H3.cls = _; rw [f8.cls]; show H1.cls = _; rw [mo.rest]
  have g_used : H'.used = H.used.filter fun u => live H1 u.1 := by
    show H3.used.filter _ = _
    rw [f8.used]
    show H1.used.filter _ = _
    rw [mo.rest]
  have g_tbL : tbL H' = tbL H := tbL_congr g_tb
  have g_usedL : usedL H' = (usedL H).filter fun x => live H1 x := by
    unfold usedL
    rw [g_used, List.filter_map]
    rfl
  -- the new free lists
  set Z := (cellsOf H.chunks lv').filter fun x => !live H1 x with hZ
  have hP : Pushed (fun x => (H3.hdr x).bix) H2 H3 Z := f9
  have hcells : ∀ x, x ∈ cellsOf H.chunks lv' → x ∈ cellsOf H.chunks lv := by
    intro x hx
    rw [mem_cellsOf] at hx ⊢
    exact ⟨hx.1, (f3 x.1).subset hx.2⟩
  have hbix3 : ∀ x ∈ cellsOf H.chunks lv', 1 ≤ (H3.hdr x).bix ∧ (H3.hdr x).bix ≤ 38 := by
    intro x hx
    obtain ⟨h1, h2⟩ := mem_cellsOf.1 hx
    obtain ⟨ck, hck, he⟩ := List.mem_map.1 h1
    have t := f2 ck hck
    rw [he] at t
    have := t.bix x.2 h2
    have h3 := i.ix ck hck
    have e : hc H3 x.1 x.2 = H3.hdr x := rfl
    rw [e] at this
    omega
  have hfree2 : ∀ j, H2.free j = [] := by
    intro j
    show (if j < MAXBUDDY - 1 then [] else H1.free j) = []
    by_cases hj : j < MAXBUDDY - 1
    · rw [if_pos hj]
    · rw [if_neg hj, ef]
      exact i.freeout j (by simp [MAXBUDDY] at hj; omega)
  have hfreej : ∀ j, (H'.free j).Perm (Z.filter fun z => (H3.hdr z).bix = j) := by
    intro j
    have := hP.1 j
    rw [hfree2 j, List.append_nil] at this
    exact this
  have hfreeL : (freeL H').Perm Z := by
    refine (List.Perm.flatMap_left _ fun j _ => hfreej j).trans ?_
    exact flatMap_filter MAXBUDDY Z fun z hz => by
      have := hbix3 z (List.mem_filter.1 hz).1
      simp [MAXBUDDY]; omega
  have hnd' : (cellsOf H.chunks lv').Nodup := cellsOf_nodup i.nodup fun ck hck => (f2 ck hck).seg.nodup
  have hlivec : ∀ x, live H1 x = true → x ∈ cellsOf H.chunks lv' ∧ H3.hdr x = { H1.hdr x with mark := false } := by
    intro x hx
    have hc0 : x ∈ cellsOf H.chunks lv := i.cell x (Or.inr (hLo x hx))
    exact f4 x hc0 hx
  have hfl : ∀ x, x ∈ cellsOf H.chunks lv' → (x ∈ freeL H' ↔ live H1 x = false) := by
    intro x hx
    rw [hfreeL.mem_iff, hZ, List.mem_filter]
    simp [hx]
  have hbl : ∀ x, live H1 x = true → (H'.hdr x).bix = (H.hdr x).bix := by
    intro x hx
    rw [(hhdr x).1, (hlivec x hx).2]
    exact (hb1 x).1
  have htbl : ∀ x, x ∈ tbL H → live H1 x = true := fun x hx => (hL x).2 (Or.inl (Or.inr hx))
  have hul : ∀ x, x ∈ usedL H' → live H1 x = true := by
    intro x hx; rw [g_usedL] at hx; exact (List.mem_filter.1 hx).2
  have hbt : ∀ x, x ∈ tbL H ∨ x ∈ usedL H' → (H'.hdr x).bix = (H.hdr x).bix := by
    rintro x (hx | hx)
    · exact hbl x (htbl x hx)
    · exact hbl x (hul x hx)
  have s1 : H'.freeheap = ((Z.map fun z => buddysize (H'.hdr z).bix).sum : Nat) := by
    show H3.freeheap = _
    rw [hP.2.2]
    show (0 : Int) + _ = _
    rw [Int.zero_add]
    have : (fun z : Cell => buddysize (H'.hdr z).bix) = fun z => buddysize (H3.hdr z).bix := by
      funext z; rw [(hhdr z).1]
    rw [this]
  have hgood : Good H' := by
    intro x hx
    have hr : rootsL H' = rootsL H := by
      unfold rootsL
      rw [g_sys, g_cls]
      have : threadRoots H' = threadRoots H := by
        funext t; unfold threadRoots; rw [g_stk, g_spec, g_last]
      rw [this]
    rw [g_obj, hr] at hx
    rw [g_usedL, List.mem_filter]
    exact ⟨hg x hx, (hL x).2 (Or.inl (Or.inl hx))⟩
  refine ⟨H', lv', hgc, hgood, ?_, ?_, g_chunks, hmk, g_used, by rw [g_chunks]; exact hfl, f3, hbt, ?_, ?_, hdisp⟩
  · constructor
    · rw [g_chunks]; exact i.num
    · rw [g_chunks]; exact i.nodup
    · rw [g_chunks]; exact i.ix
    · rw [g_chunks]
      intro ck hck
      refine (f2 ck hck).frame fun x _ => ?_
      have := hhdr (ck.1, x)
      exact ⟨this.1, this.2.1, this.2.2.1⟩
    · intro x
      rw [hfreeL.count_eq, g_tbL, g_usedL, hZ, count_filter_of, count_filter_of]
      have h0 := i.occ x
      by_cases hx : live H1 x = true
      · simp only [hx, Bool.not_true, if_true]
        simp
        omega
      · have h1 : x ∉ tbL H := fun hh => hx (htbl x hh)
        have h2 := List.nodup_iff_count_le_one.1 hnd' x
        simp only [hx, Bool.not_false, if_true]
        rw [List.count_eq_zero.2 h1]
        simp
        omega
    · intro x hx
      rw [g_chunks]
      rcases hx with hx | hx | hx
      · rw [hfreeL.mem_iff, hZ, List.mem_filter] at hx
        exact hx.1
      · rw [g_tbL] at hx
        exact (hlivec x (htbl x hx)).1
      · exact (hlivec x (hul x hx)).1
    · intro k x hx
      have := (hfreej k).mem_iff.1 hx
      rw [(hhdr x).1]
      simpa using (List.mem_filter.1 this).2
    · intro k hk
      apply List.eq_nil_iff_forall_not_mem.2
      intro x hx
      have := (hfreej k).mem_iff.1 hx
      obtain ⟨h1, h2⟩ := List.mem_filter.1 this
      have h3 := hbix3 x (List.mem_filter.1 h1).1
      have h4 : (H3.hdr x).bix = k := by simpa using h2
      omega
    · intro t j x hx
      rw [g_tb] at hx
      rw [hbt x (Or.inl (i.tb_mem hx))]
      exact i.tbix t j x hx
    · rw [g_tb]; exact i.tbout
    · rw [g_tbL, g_tot, i.tot]
      have s2 := sum_cells (H := H') (cs := H.chunks) (lv := lv') (by
        intro ck hck
        refine (f2 ck hck).frame fun x _ => ?_
        have := hhdr (ck.1, x)
        exact ⟨this.1, this.2.1, this.2.2.1⟩)
      have p1 : (((cellsOf H.chunks lv').filter fun x => live H1 x) ++ Z).Perm (cellsOf H.chunks lv') := by
        rw [hZ]; exact List.filter_append_perm _ _
      have p2 : ((cellsOf H.chunks lv').filter fun x => live H1 x).Perm (tbL H ++ usedL H') := by
        rw [List.perm_iff_count]
        intro x
        rw [List.count_append, g_usedL, count_filter_of, count_filter_of]
        by_cases hx : live H1 x = true
        · rw [if_pos hx, if_pos hx]
          have h1 := List.nodup_iff_count_le_one.1 hnd' x
          have h2 := count_pos.2 (hlivec x hx).1
          have h3 := i.occ x
          rcases hLo x hx with h | h <;> have := count_pos.2 h <;> omega
        · rw [if_neg hx, if_neg hx]
          rw [List.count_eq_zero.2 fun hh => hx (htbl x hh)]
      have q1 := ((p2.append_right Z).symm.trans p1).map (fun x => buddysize (H'.hdr x).bix)
      have q2 := q1.sum_nat
      rw [List.map_append, List.map_append, List.sum_append, List.sum_append, s2] at q2
      rw [s1]
      omega
    · rw [g_tot, g_chunks]; exact i.tot
    · intro k hk
      have h1 : H3.count k = H2.count k + ((Z.filter fun z => decide ((H3.hdr z).bix = k)).length : Int) := hP.2.1 k
      have h2 : H2.count k = 0 := by
        show (if k < MAXBUDDY - 1 then 0 else H1.count k) = 0
        rw [if_pos (by simp [MAXBUDDY]; omega)]
      rw [h2] at h1
      rw [(hfreej k).length_eq]
      show H3.count k = _
      rw [h1]; omega
    · rw [g_tb, g_tcount]; exact i.tcount
    · intro x
      rw [(hhdr x).2.2.2]
      by_contra hh
      have hh : (H3.hdr x).mark = true := by simpa using hh
      have h1 : (H1.hdr x).mark = true := (f7 x).2 hh
      have h2 : live H1 x = true := by unfold live; rw [h1]; rfl
      rw [(hlivec x h2).2] at hh
      cases hh
    · intro x hx
      have h1 : (H3.hdr x).nodispose = true := d3 x hx
      rw [(f7 x).1] at h1
      have h2 : (H1.hdr x).nodispose = true := h1
      rw [g_usedL, List.mem_filter]
      refine ⟨i.nod x (by rw [← (hb1 x).2.2.2]; exact h2), ?_⟩
      unfold live; rw [h2, Bool.or_true]
    · intro u hu
      rw [hbl u.1 (hul u.1 (List.mem_map_of_mem hu))]
      rw [g_used] at hu
      exact i.fits u (List.mem_filter.1 hu).1
  · refine ⟨g_obj, g_sys, g_stk, g_spec, g_last, g_cls, ?_, fun x hx => hbt x (Or.inr hx), ?_, g_tb, g_tcount⟩
    · rw [g_used]; exact List.filter_sublist
    · intro x hx
      have hxd : x ∉ H4.disposed.take 256 := by
        intro hh
        have h1 : x ∈ H'.disposed := List.mem_of_mem_take hh
        rw [hdisp, List.mem_filter] at h1
        have := (hmk x).2 (Or.inl hx)
        simp [this] at h1
      show (hdr' x).nodispose = _
      rw [d4 x hxd]
      show (H3.hdr x).nodispose = _
      rw [(f7 x).1]
      exact (hb1 x).2.2.2
  · intro pre ck post he hge
    refine (f10 pre ck post he ?_).imp_of_mem_imp fun x y _ _ hxy => ?_
    · have e1 : (Z.filter fun x => decide (x.1 ∈ pre.map Prod.fst)) =
          (cellsOf pre lv').filter fun x => !live H2 x := by
        rw [hZ, List.filter_filter, he]
        have hsplit : cellsOf (pre ++ ck :: post) lv' = cellsOf pre lv' ++ cellsOf (ck :: post) lv' := by
          simp [cellsOf]
        rw [hsplit, List.filter_append]
        have a1 : ((cellsOf pre lv').filter fun x => decide (x.1 ∈ pre.map Prod.fst) && !live H1 x) =
            (cellsOf pre lv').filter fun x => !live H2 x := by
          apply List.filter_congr
          intro x hx
          have := (mem_cellsOf.1 hx).1
          rw [hl2, decide_eq_true this, Bool.true_and]
        have a2 : ((cellsOf (ck :: post) lv').filter fun x => decide (x.1 ∈ pre.map Prod.fst) && !live H1 x) = [] := by
          rw [List.filter_eq_nil_iff]
          intro x hx
          have h1 := (mem_cellsOf.1 hx).1
          have hn := i.nodup
          rw [he, List.map_append, List.nodup_append] at hn
          have h2 : x.1 ∉ pre.map Prod.fst := fun h => hn.2.2 _ h _ h1 rfl
          simp [h2]
        rw [a1, a2, List.append_nil]
      have e2 := ((hfreeL.filter fun x => decide (x.1 ∈ pre.map Prod.fst)).map
        fun x => buddysize (H'.hdr x).bix).sum_nat
      rw [e1] at e2
      have e3 : (fun z : Cell => buddysize (H'.hdr z).bix) = fun z => buddysize (H3.hdr z).bix := by
        funext z; rw [(hhdr z).1]
      rw [e2, e3] at hge
      show _ ≤ (0 : Int) + _
      rw [Int.zero_add]
      exact hge
    · unfold Coarse at hxy ⊢
      beta_reduce at hxy ⊢
      rw [(hhdr _).2.1, (hhdr _).2.1]
      exact hxy
  · rw [s1, (hfreeL.map fun x => buddysize (H'.hdr x).bix).sum_nat]

end Eus.Mem
