import Verif.Mem.Sweep
import Verif.Mem.Mark
import Mathlib.Data.List.Nodup
set_option autoImplicit false
/-
What the sweep phase does to all chunks.
-/
namespace Eus.Mem

/-- The cells of the chunks `cs`, with the leaves `lv`. -/
def cellsOf (cs : List (Nat × Nat)) (lv : Nat → List Nat) : List Cell :=
  cs.flatMap fun ck => (lv ck.1).map fun p => (ck.1, p)

theorem mem_cellsOf {cs : List (Nat × Nat)} {lv : Nat → List Nat} {x : Cell} :
    x ∈ cellsOf cs lv ↔ x.1 ∈ cs.map Prod.fst ∧ x.2 ∈ lv x.1 := by
  simp only [cellsOf, List.mem_flatMap, List.mem_map]
  constructor
  · rintro ⟨ck, h1, p, h2, rfl⟩
    exact ⟨⟨ck, h1, rfl⟩, h2⟩
  · rintro ⟨⟨ck, h1, h2⟩, h3⟩
    exact ⟨ck, h1, x.2, by rw [h2]; exact h3, by rw [h2]⟩

theorem cellsOf_nodup {cs : List (Nat × Nat)} {lv : Nat → List Nat} (h : (cs.map Prod.fst).Nodup)
    (hl : ∀ ck ∈ cs, (lv ck.1).Nodup) : (cellsOf cs lv).Nodup := by
  induction cs with
  | nil => simp [cellsOf]
  | cons ck cs ih =>
    simp only [List.map_cons, List.nodup_cons] at h
    have h1 := ih h.2 fun x hx => hl x (by simp [hx])
    show (((lv ck.1).map fun p => (ck.1, p)) ++ cellsOf cs lv).Nodup
    rw [List.nodup_append]
    refine ⟨?_, h1, ?_⟩
    · exact List.Nodup.map (fun a b e => by simpa using e) (hl ck (by simp))
    · rintro a ha b hb rfl
      obtain ⟨p, _, rfl⟩ := List.mem_map.1 ha
      exact h.1 (mem_cellsOf.1 hb).1

theorem sweepChunks_spec (g : Int) : ∀ (cs : List (Nat × Nat)) (H : Heap) (lv : Nat → List Nat),
    (cs.map Prod.fst).Nodup → (∀ ck ∈ cs, Tiled (hc H ck.1) ck.2 0 true false (lv ck.1)) →
    ∃ H' lv', sweepChunks g cs H = .ok H' ∧
      (∀ ck ∈ cs, Tiled (hc H' ck.1) ck.2 0 true false (lv' ck.1)) ∧
      (∀ c, (lv' c).Sublist (lv c)) ∧
      (∀ x ∈ cellsOf cs lv, live H x = true → x ∈ cellsOf cs lv' ∧ H'.hdr x = { H.hdr x with mark := false }) ∧
      (∀ x : Cell, x.1 ∉ cs.map Prod.fst → H'.hdr x = H.hdr x) ∧
      (∀ x ∈ cellsOf cs lv', (H'.hdr x).mark = false) ∧
      (∀ x : Cell, (H'.hdr x).nodispose = (H.hdr x).nodispose ∧
        ((H'.hdr x).mark = true → (H.hdr x).mark = true)) ∧
      Same H H' ∧
      Pushed (fun x => (H'.hdr x).bix) H H' ((cellsOf cs lv').filter fun x => !live H x) ∧
      (∀ pre ck post, cs = pre ++ ck :: post →
        g ≤ H.freeheap + (((cellsOf pre lv').filter fun x => !live H x).map fun x => buddysize (H'.hdr x).bix).sum →
        (lv' ck.1).IsChain (Coarse (fun q => (H'.hdr (ck.1, q)).b) fun q => live H (ck.1, q))) ∧
      H'.disposed = H.disposed ++ (cellsOf cs lv).filter fun x => !(H.hdr x).mark && (H.hdr x).nodispose := by
  intro cs
  induction cs with
  | nil =>
    intro H lv _ _
    exact ⟨H, lv, rfl, by simp, fun c => List.Sublist.refl _, by simp [cellsOf], fun _ _ => rfl,
      by simp [cellsOf], fun _ => ⟨rfl, id⟩, Same.refl H, Pushed.refl _ _, by simp, by simp [cellsOf]⟩
  | cons ck cs ih =>
    intro H lv hn ht
    obtain ⟨c, k⟩ := ck
    simp only [List.map_cons, List.nodup_cons] at hn
    obtain ⟨hcn, hn⟩ := hn
    have t0 : Tiled (hc H c) k 0 true false (lv c) := ht (c, k) (by simp)
    have s0 := t0.seg
    rw [Nat.zero_add] at s0
    obtain ⟨H1, Y', e1, e2, e3, _, e4, e5, e6, e7, e8, e9, e10, e11⟩ :=
      sweepLoop_spec c k g (buddysize k + 1) H [] (lv c) 0 (by simpa using t0) s0 (by
        have := s0.le
        omega)
    have hoth : ∀ x : Cell, x.1 ≠ c → H1.hdr x = H.hdr x := fun x hx => e5 x (Or.inl hx)
    have hcc : ∀ ck ∈ cs, ck.1 ≠ c := fun ck hck h => hcn (h ▸ List.mem_map_of_mem hck)
    obtain ⟨H2, lv2, f1, f2, f3, f4, f5, f6, f7, f8, f9, f10, f11⟩ := ih H1 lv hn (by
      intro ck hck
      refine (ht ck (by simp [hck])).frame fun x _ => ?_
      have : hc H1 ck.1 x = hc H ck.1 x := hoth (ck.1, x) (hcc ck hck)
      rw [this]
      exact ⟨rfl, rfl, rfl⟩)
    set lv' : Nat → List Nat := upd lv2 c Y' with hlv'
    have hlc : lv' c = Y' := by simp [hlv', upd]
    have hlo : ∀ d, d ≠ c → lv' d = lv2 d := fun d hd => by simp [hlv', upd, hd]
    have hcells : ∀ cs', (∀ ck ∈ cs', ck.1 ≠ c) → cellsOf cs' lv' = cellsOf cs' lv2 := by
      intro cs' h
      induction cs' with
      | nil => rfl
      | cons a cs' ih' =>
        show (lv' a.1).map _ ++ cellsOf cs' lv' = (lv2 a.1).map _ ++ cellsOf cs' lv2
        rw [ih' fun ck hck => h ck (by simp [hck]), hlo _ (h a (by simp))]
    have hlive : ∀ x : Cell, x.1 ≠ c → live H1 x = live H x := fun x hx => by unfold live; rw [hoth x hx]
    have h2c : ∀ p, H2.hdr (c, p) = H1.hdr (c, p) := fun p => f5 (c, p) hcn
    have hne : ∀ {lv0 : Nat → List Nat} {x : Cell}, x ∈ cellsOf cs lv0 → x.1 ≠ c := by
      intro lv0 x hx h
      exact hcn (h ▸ (mem_cellsOf.1 hx).1)
    have hcons : ∀ lv0 : Nat → List Nat, cellsOf ((c, k) :: cs) lv0 = (lv0 c).map (fun p => (c, p)) ++ cellsOf cs lv0 :=
      fun _ => rfl
    refine ⟨H2, lv', ?_, ?_, ?_, ?_, ?_, ?_, ?_, ?_, ?_, ?_, ?_⟩
    · rw [sweepChunks, e1]; exact f1
    · intro ck hck
      rcases List.mem_cons.1 hck with rfl | hck
      · simp only
        rw [hlc]
        refine Tiled.frame (by simpa using e2) fun x _ => ?_
        have : hc H2 c x = hc H1 c x := h2c x
        rw [this]
        exact ⟨rfl, rfl, rfl⟩
      · rw [hlo _ (hcc ck hck)]
        exact f2 ck hck
    · intro d
      by_cases hd : d = c
      · subst hd; rw [hlc]; exact e3
      · rw [hlo d hd]; exact f3 d
    · intro x hx hl
      rw [hcons] at hx
      rcases List.mem_append.1 hx with hx | hx
      · obtain ⟨p, hp, rfl⟩ := List.mem_map.1 hx
        obtain ⟨g1, g2⟩ := e4 p hp hl
        refine ⟨mem_cellsOf.2 ⟨by simp, by simpa [hlc] using g1⟩, ?_⟩
        rw [h2c, g2]
      · obtain ⟨g1, g2⟩ := f4 x hx (by rw [hlive x (hne hx)]; exact hl)
        refine ⟨?_, ?_⟩
        · rw [mem_cellsOf] at g1 ⊢
          exact ⟨by simp [g1.1], by rw [hlo _ (hne hx)]; exact g1.2⟩
        · rw [g2, hoth x (hne hx)]
    · intro x hx
      simp only [List.map_cons, List.mem_cons, not_or] at hx
      rw [f5 x hx.2, hoth x hx.1]
    · intro x hx
      rw [mem_cellsOf] at hx
      by_cases hxc : x.1 = c
      · obtain ⟨x1, x2⟩ := x
        simp only at hxc
        subst hxc
        rw [h2c]
        exact e6 x2 (by simpa [hlc] using hx.2)
      · refine f6 x (mem_cellsOf.2 ⟨by simpa [hxc] using hx.1, ?_⟩)
        rw [← hlo _ hxc]; exact hx.2
    · intro x
      rw [(f7 x).1, (e7 x).1]
      exact ⟨rfl, fun h => (e7 x).2 ((f7 x).2 h)⟩
    · exact e8.trans f8
    · rw [hcons, List.filter_append, hlc, hcells cs hcc, List.filter_map]
      have p1 := e9.congr (bx' := fun x => (H2.hdr x).bix) (by
        intro z hz
        obtain ⟨p, _, rfl⟩ := List.mem_map.1 hz
        rw [h2c])
      have hf : ((cellsOf cs lv2).filter fun x => !live H x) = (cellsOf cs lv2).filter fun x => !live H1 x := by
        apply List.filter_congr
        intro x hx
        rw [hlive x (hne hx)]
      rw [hf]
      exact p1.trans f9
    · intro pre ck post he hg
      cases pre with
      | nil =>
        simp only [List.nil_append, List.cons.injEq] at he
        obtain ⟨rfl, rfl⟩ := he
        simp only
        rw [hlc]
        refine (e10 (by simpa [cellsOf] using hg)).imp_of_mem_imp fun x y _ _ hxy => ?_
        unfold Coarse at hxy ⊢
        beta_reduce at hxy ⊢
        rw [h2c, h2c]
        exact hxy
      | cons a pre =>
        simp only [List.cons_append, List.cons.injEq] at he
        obtain ⟨rfl, he⟩ := he
        have hck : ck ∈ cs := by rw [he]; simp
        have hpre : ∀ a ∈ pre, a ∈ cs := fun a ha => by rw [he]; simp [ha]
        rw [hlo _ (hcc ck hck)]
        refine (f10 pre ck post he ?_).imp_of_mem_imp fun x y _ _ hxy => ?_
        · have e0 : cellsOf ((c, k) :: pre) lv' = (Y'.map fun p => (c, p)) ++ cellsOf pre lv2 := by
            show (lv' c).map _ ++ cellsOf pre lv' = _
            rw [hlc, hcells pre fun a ha => hcc a (hpre a ha)]
          have hne' : ∀ x ∈ cellsOf pre lv2, x.1 ≠ c := by
            intro x hx h
            obtain ⟨a, ha, hh⟩ := List.mem_map.1 (mem_cellsOf.1 hx).1
            exact hcc a (hpre a ha) (hh.trans h)
          have hf : ((cellsOf pre lv2).filter fun x => !live H x) = (cellsOf pre lv2).filter fun x => !live H1 x := by
            apply List.filter_congr
            intro x hx
            rw [hlive x (hne' x hx)]
          rw [e0, List.filter_append, List.map_append, List.sum_append, hf, List.filter_map] at hg
          rw [e9.2.2]
          have hs : (List.map (fun x => buddysize (H2.hdr x).bix)
              (List.map (fun p => (c, p)) (List.filter ((fun x => !live H x) ∘ fun p => (c, p)) Y'))).sum =
              (List.map (fun z => buddysize (H1.hdr z).bix)
              (List.map (fun q => (c, q)) (List.filter (fun q => !live H (c, q)) Y'))).sum := by
            rw [List.map_map, List.map_map]
            congr 1
            apply List.map_congr_left
            intro x _
            show buddysize (H2.hdr (c, x)).bix = _
            rw [h2c]
            rfl
          rw [hs] at hg
          push_cast at hg ⊢
          omega
        · unfold Coarse at hxy ⊢
          beta_reduce at hxy ⊢
          rw [← hlive (ck.1, x) (hcc ck hck), ← hlive (ck.1, y) (hcc ck hck)]
          exact hxy
    · rw [f11, e11, hcons, List.filter_append, List.filter_map, List.append_assoc]
      congr 2
      apply List.filter_congr
      intro x hx
      rw [hoth x (hne hx)]

end Eus.Mem
