import Verif.Mem.Tile
import Mathlib.Data.List.Perm.Basic
import Mathlib.Data.List.Chain
import Mathlib.Tactic.Set
set_option autoImplicit false
/-
What `mergecell` and `sweep` do to a chunk.
-/
namespace Eus.Mem

/-- The headers of one chunk. -/
def hc (H : Heap) (c : Nat) : Nat → Hdr := fun a => H.hdr (c, a)

/-- The fields the sweep does not touch. -/
structure Same (H H' : Heap) : Prop where
  chunks : H'.chunks = H.chunks
  tb : H'.tb = H.tb
  tcount : H'.tcount = H.tcount
  totalheap : H'.totalheap = H.totalheap
  obj : H'.obj = H.obj
  sys : H'.sys = H.sys
  stk : H'.stk = H.stk
  spec : H'.spec = H.spec
  last : H'.last = H.last
  cls : H'.cls = H.cls
  used : H'.used = H.used

theorem Same.refl (H : Heap) : Same H H := ⟨rfl, rfl, rfl, rfl, rfl, rfl, rfl, rfl, rfl, rfl, rfl⟩

theorem Same.trans {H H' H'' : Heap} (a : Same H H') (b : Same H' H'') : Same H H'' :=
  ⟨b.1.trans a.1, b.2.trans a.2, b.3.trans a.3, b.4.trans a.4, b.5.trans a.5, b.6.trans a.6,
   b.7.trans a.7, b.8.trans a.8, b.9.trans a.9, b.10.trans a.10, b.11.trans a.11⟩

/-- The cells `Z` (with indices `bx`) have been put on the free lists. -/
def Pushed (bx : Cell → Nat) (H H' : Heap) (Z : List Cell) : Prop :=
  (∀ j, (H'.free j).Perm (Z.filter (fun z => bx z = j) ++ H.free j)) ∧
  (∀ j, H'.count j = H.count j + (Z.filter (fun z => bx z = j)).length) ∧
  H'.freeheap = H.freeheap + (Z.map fun z => buddysize (bx z)).sum

theorem Pushed.refl (bx : Cell → Nat) (H : Heap) : Pushed bx H H [] :=
  ⟨fun j => by simp, fun j => by simp, by simp⟩

theorem Pushed.trans {bx : Cell → Nat} {H H1 H2 : Heap} {Z1 Z2 : List Cell} (a : Pushed bx H H1 Z1)
    (b : Pushed bx H1 H2 Z2) : Pushed bx H H2 (Z1 ++ Z2) := by
  refine ⟨fun j => ?_, fun j => ?_, ?_⟩
  · refine (b.1 j).trans ?_
    rw [List.filter_append]
    refine (List.Perm.append_left _ (a.1 j)).trans ?_
    rw [← List.append_assoc]
    exact List.Perm.append_right _ List.perm_append_comm
  · rw [b.2.1, a.2.1, List.filter_append, List.length_append]; push_cast; omega
  · rw [b.2.2, a.2.2]; simp only [List.map_append, List.sum_append]; push_cast; omega

theorem Pushed.congr {bx bx' : Cell → Nat} {H H' : Heap} {Z : List Cell} (a : Pushed bx H H' Z)
    (e : ∀ z ∈ Z, bx z = bx' z) : Pushed bx' H H' Z := by
  have hf : ∀ j, Z.filter (fun z => bx' z = j) = Z.filter (fun z => bx z = j) := by
    intro j
    apply List.filter_congr
    intro z hz; rw [e z hz]
  have hm : (Z.map fun z => buddysize (bx' z)) = Z.map fun z => buddysize (bx z) := by
    apply List.map_congr_left
    intro z hz; rw [e z hz]
  refine ⟨fun j => ?_, fun j => ?_, ?_⟩
  · rw [hf]; exact a.1 j
  · rw [hf]; exact a.2.1 j
  · rw [hm]; exact a.2.2

theorem Pushed.perm {bx : Cell → Nat} {H H' : Heap} {Z Z' : List Cell} (a : Pushed bx H H' Z)
    (e : Z.Perm Z') : Pushed bx H H' Z' := by
  refine ⟨fun j => ?_, fun j => ?_, ?_⟩
  · exact (a.1 j).trans (List.Perm.append_right _ (e.filter _))
  · rw [a.2.1, (e.filter _).length_eq]
  · rw [a.2.2, (e.map _).sum_nat]

theorem reclaim_pushed (H : Heap) (p : Cell) (bx : Cell → Nat) (h : bx p = (H.hdr p).bix) :
    Pushed bx H (reclaim H p) [p] ∧ Same H (reclaim H p) ∧ (reclaim H p).hdr = H.hdr ∧
      (reclaim H p).disposed = H.disposed := by
  refine ⟨⟨fun j => ?_, fun j => ?_, ?_⟩, ⟨rfl, rfl, rfl, rfl, rfl, rfl, rfl, rfl, rfl, rfl, rfl⟩, rfl, rfl⟩
  · simp only [reclaim, upd]
    by_cases hj : j = (H.hdr p).bix
    · rw [if_pos hj, hj, List.filter_cons_of_pos (by simp [h])]; simp
    · rw [if_neg hj, List.filter_cons_of_neg (by simp [h]; omega)]; simp
  · simp only [reclaim, upd]
    by_cases hj : j = (H.hdr p).bix
    · rw [if_pos hj, hj, List.filter_cons_of_pos (by simp [h])]; simp
    · rw [if_neg hj, List.filter_cons_of_neg (by simp [h]; omega)]; simp
  · simp [reclaim, h]

/-- Marked or with a disposal hook: not collected. -/
def live (H : Heap) (c : Cell) : Bool := (H.hdr c).mark || (H.hdr c).nodispose

/-- The bits of `x` and `y`, neighbours, say that they can be merged, and both are free. -/
def Mergeable (H : Heap) (c : Nat) (x y : Nat) : Prop :=
  (H.hdr (c, x)).b = false ∧ (H.hdr (c, y)).b = true ∧ live H (c, x) = false ∧ live H (c, y) = false

/-- No two neighbours in the list can be merged. -/
def NoMerge (H : Heap) (c : Nat) (L : List Nat) : Prop :=
  ∀ X x y Y, L = X ++ x :: y :: Y → ¬ Mergeable H c x y

theorem Seg.start {h : Nat → Hdr} {X Y : List Nat} {p a e : Nat} (s : Seg h a (X ++ p :: Y) e) :
    Seg h (p + buddysize (h p).bix) Y e := by
  obtain ⟨x, _, h2⟩ := Seg.append.1 s
  obtain ⟨rfl, h3⟩ := h2
  exact h3

theorem notin_of_nodup {X Y : List Nat} {p : Nat} (h : (X ++ p :: Y).Nodup) : p ∉ X ∧ p ∉ Y := by
  rw [List.nodup_append] at h
  obtain ⟨h1, h2, h3⟩ := h
  exact ⟨fun hx => h3 p hx p (by simp) rfl, (List.nodup_cons.1 h2).1⟩

theorem mergecell_spec (c k : Nat) : ∀ (n : Nat) (H : Heap) (X Y : List Nat) (p : Nat),
    Tiled (hc H c) k 0 true false (X ++ p :: Y) → live H (c, p) = false → Y.length + 1 ≤ n →
    ∃ H' e W Z Y', mergecell c k n H p (nextbuddy H c p) = .ok (H', e) ∧
      Tiled (hc H' c) k 0 true false (X ++ p :: (Z ++ Y')) ∧
      Y = W ++ Y' ∧ (∀ q ∈ W, live H (c, q) = false) ∧ Z.Sublist W ∧
      Seg (hc H' c) e Y' (buddysize k) ∧
      (∀ x, (x.1 ≠ c ∨ x.2 ∉ p :: W) → H'.hdr x = H.hdr x) ∧
      (∀ x, (H'.hdr x).mark = (H.hdr x).mark ∧ (H'.hdr x).nodispose = (H.hdr x).nodispose) ∧
      Same H H' ∧ H'.disposed = H.disposed ∧
      Pushed (fun x => (H'.hdr x).bix) H H' (Z.map fun z => (c, z)) ∧
      ((H'.hdr (c, p)).b = true → Z = []) ∧
      ((H'.hdr (c, p)).b = true ∨ ∃ q Y'', Y' = q :: Y'' ∧ live H (c, q) = true) ∧
      NoMerge H' c (p :: (Z ++ Y'.take 1)) := by
  intro n
  induction n with
  | zero => intro H X Y p _ _ h; omega
  | succ n ih =>
    intro H X Y p ht hl hn
    have hseg := ht.seg
    rw [Nat.zero_add] at hseg
    have hnd := hseg.nodup
    rw [mergecell]
    by_cases hb : (H.hdr (c, p)).b = false ∧ (H.hdr (c, p)).bix < k
    · rw [if_pos hb]
      -- there is a cell after p
      obtain ⟨q, Y1, rfl⟩ : ∃ q Y1, Y = q :: Y1 := by
        cases Y with
        | cons q Y1 => exact ⟨q, Y1, rfl⟩
        | nil =>
          obtain ⟨X', z, e, h1, h2⟩ := ht.last
          have := List.append_inj' e (by simp)
          have hz : p = z := by simpa using this.2
          subst hz
          have hbt : (hc H c p).b = true := by
            by_cases hX : X' = []
            · exact (h2 hX).1
            · exact h1 hX
          exfalso
          have : (H.hdr (c, p)).b = true := hbt
          rw [hb.1] at this
          exact absurd this (by decide)
      have hq : nextbuddy H c p = q := by
        have := hseg.start
        exact this.1.symm
      rw [hq]
      have hqseg := hseg.start
      have stop : live H (c, q) = true →
          ∃ H' e W Z Y', Res.ok (H, q) = .ok (H', e) ∧
            Tiled (hc H' c) k 0 true false (X ++ p :: (Z ++ Y')) ∧
            q :: Y1 = W ++ Y' ∧ (∀ q ∈ W, live H (c, q) = false) ∧ Z.Sublist W ∧
            Seg (hc H' c) e Y' (buddysize k) ∧
            (∀ x, (x.1 ≠ c ∨ x.2 ∉ p :: W) → H'.hdr x = H.hdr x) ∧
            (∀ x, (H'.hdr x).mark = (H.hdr x).mark ∧ (H'.hdr x).nodispose = (H.hdr x).nodispose) ∧
            Same H H' ∧ H'.disposed = H.disposed ∧
            Pushed (fun x => (H'.hdr x).bix) H H' (Z.map fun z => (c, z)) ∧
            ((H'.hdr (c, p)).b = true → Z = []) ∧
            ((H'.hdr (c, p)).b = true ∨ ∃ q' Y'', Y' = q' :: Y'' ∧ live H (c, q') = true) ∧
            NoMerge H' c (p :: (Z ++ Y'.take 1)) := by
        intro hlq
        refine ⟨H, q, [], [], q :: Y1, rfl, by simpa using ht, by simp, by simp, List.Sublist.refl _, ?_,
          fun x _ => rfl, fun x => ⟨rfl, rfl⟩, Same.refl H, rfl, Pushed.refl _ _, fun _ => rfl,
          Or.inr ⟨q, Y1, rfl, hlq⟩, ?_⟩
        · have : q = p + buddysize (hc H c p).bix := hqseg.1
          rw [← this] at hqseg; exact hqseg
        · intro X' x y Y' e hm
          simp only [List.nil_append, List.take_succ_cons, List.take_zero] at e
          cases X' with
          | nil =>
            simp only [List.nil_append, List.cons.injEq] at e
            rw [← e.2.1] at hm
            rw [hm.2.2.2] at hlq; exact absurd hlq (by decide)
          | cons x' X' =>
            have := congrArg List.length e
            simp at this
            omega
      by_cases hmq : (H.hdr (c, q)).mark = true
      · rw [if_pos hmq]; exact stop (by simp [live, hmq])
      rw [if_neg hmq]
      by_cases hnq : (H.hdr (c, q)).nodispose = true
      · rw [if_pos hnq]; exact stop (by simp [live, hnq])
      rw [if_neg hnq]
      have hlq : live H (c, q) = false := by simp [live, hmq, hnq]
      obtain ⟨H1, e1, W1, Z1, Y2, g1, g2, g3, g4, g5, g6, g7, g8, g9, g9', g10, g11, g12, g13⟩ :=
        ih H (X ++ [p]) Y1 q (by simpa using ht) hlq (by simp at hn; omega)
      rw [g1]
      have hpq : p ≠ q := by
        have := (notin_of_nodup hnd).2
        intro h; apply this; simp [h]
      have hpW1 : p ∉ W1 := by
        have := (notin_of_nodup hnd).2
        intro h; apply this; rw [g3]; simp [h]
      have hp1 : H1.hdr (c, p) = H.hdr (c, p) := g7 (c, p) (Or.inr (by simp [hpq, hpW1]))
      have hlive1 : ∀ x, live H1 x = live H x := fun x => by simp [live, g8 x]
      simp only [Res.bind]
      by_cases hb1 : (H1.hdr (c, q)).b = true
      · rw [if_pos hb1]
        have hZ1 : Z1 = [] := g11 hb1
        subst hZ1
        simp only [List.nil_append, List.append_assoc, List.cons_append, List.nil_append] at g2
        -- the merged cell
        set Ha := absorb H1 (c, p) (c, q) with hHa
        have hHap : Ha.hdr (c, p) = ⟨(H.hdr (c, p)).bix + 1, (H.hdr (c, p)).m, (H1.hdr (c, q)).m,
            (H.hdr (c, p)).mark, (H.hdr (c, p)).nodispose⟩ := by
          simp [hHa, absorb, upd, hp1]
        have hHao : ∀ x, x ≠ (c, p) → Ha.hdr x = H1.hdr x := by
          intro x hx; simp [hHa, absorb, upd, hx]
        have hnd1 := g2.seg.nodup
        have hpX := (notin_of_nodup hnd1).1
        have hpY2 := (notin_of_nodup hnd1).2
        have hmerge := Tiled.merge (h' := hc Ha c) g2 X Y2 p q rfl (by
            show (H1.hdr (c, p)).b = false
            rw [hp1]; exact hb.1) hb1 (by
            show (Ha.hdr (c, p)).bix = (H1.hdr (c, p)).bix + 1
            rw [hHap, hp1]) (by
            show (Ha.hdr (c, p)).b = (H1.hdr (c, p)).m
            rw [hHap, hp1]) (by
            show (Ha.hdr (c, p)).m = (H1.hdr (c, q)).m
            rw [hHap]) (by
            intro x hx
            have hxp : x ≠ p := by
              rintro rfl
              rcases List.mem_append.1 hx with h | h
              · exact hpX h
              · exact hpY2 (by simp [h])
            have : hc Ha c x = hc H1 c x := hHao (c, x) (by simp [hxp])
            rw [this]; exact ⟨rfl, rfl, rfl⟩)
        have hnext : nextbuddy Ha c p = e1 := by
          have s1 := hmerge.1.seg
          rw [Nat.zero_add] at s1
          have s2 := s1.start
          -- both e1 and nextbuddy start Y2
          have s3 : Seg (hc Ha c) e1 Y2 (buddysize k) := g6.frame (by
            intro x hx
            have hxp : x ≠ p := by rintro rfl; exact hpY2 (by simp [hx])
            show (Ha.hdr (c, x)).bix = _
            rw [hHao (c, x) (by simp [hxp])]; rfl)
          cases Y2 with
          | nil => simp only [Seg] at s2 s3; unfold nextbuddy; rw [s3]; exact s2
          | cons y Y2 =>
            have h1 := s2.1; have h2 := s3.1
            rw [← h2, h1]; rfl
        have hlive2 : ∀ x, live Ha x = live H x := by
          intro x
          by_cases hx : x = (c, p)
          · rw [hx]; simp [live, hHap]
          · rw [← hlive1 x]; unfold live; rw [hHao x hx]
        obtain ⟨H2, e2, W2, Z2, Y3, f1, f2, f3, f4, f5, f6, f7, f8, f9, f9', f10, f11, f12, f13⟩ :=
          ih Ha X Y2 p hmerge.1 (by rw [hlive2]; exact hl) (by
            have h3 := congrArg List.length g3
            simp only [List.length_append] at h3
            simp only [List.length_cons] at hn
            omega)
        rw [hnext] at f1
        refine ⟨H2, e2, q :: W1 ++ W2, Z2, Y3, f1, f2, by simp [g3, f3], ?_, ?_, f6, ?_, ?_, ?_, ?_, ?_, f11, ?_, f13⟩
        · intro x hx
          rcases List.mem_append.1 hx with h | h
          · rcases List.mem_cons.1 h with rfl | h
            · exact hlq
            · exact g4 x h
          · rw [← hlive2]; exact f4 x h
        · exact f5.trans (List.sublist_append_right _ _)
        · intro x hx
          have hx2 : x.1 ≠ c ∨ x.2 ∉ p :: W2 := by
            rcases hx with h | h
            · exact Or.inl h
            · right
              intro hh; apply h
              rcases List.mem_cons.1 hh with h' | h'
              · simp [h']
              · simp [h']
          have hx1 : x.1 ≠ c ∨ x.2 ∉ q :: W1 := by
            rcases hx with h | h
            · exact Or.inl h
            · right
              intro hh; apply h
              rcases List.mem_cons.1 hh with h' | h'
              · simp [h']
              · simp [h']
          have hxp : x ≠ (c, p) := by
            rintro rfl
            rcases hx with h | h
            · exact h rfl
            · exact h (by simp)
          rw [f7 x hx2, hHao x hxp, g7 x hx1]
        · intro x
          have h1 := f8 x
          have h2 := g8 x
          by_cases hx : x = (c, p)
          · rw [h1.1, h1.2, hx, hHap]; exact ⟨rfl, rfl⟩
          · rw [h1.1, h1.2, hHao x hx]; exact h2
        · refine g9.trans (Same.trans ?_ f9)
          exact ⟨rfl, rfl, rfl, rfl, rfl, rfl, rfl, rfl, rfl, rfl, rfl⟩
        · rw [f9']; exact g9'
        · have : Pushed (fun x => (H2.hdr x).bix) H Ha [] := by
            have h0 := g10.congr (bx' := fun x => (H2.hdr x).bix) (by simp)
            exact ⟨h0.1, h0.2.1, h0.2.2⟩
          simpa using this.trans f10
        · rcases f12 with h | ⟨y, Y'', h1, h2⟩
          · exact Or.inl h
          · exact Or.inr ⟨y, Y'', h1, by rw [← hlive2]; exact h2⟩
      · rw [if_neg hb1]
        have hb1' : (H1.hdr (c, q)).b = false := by simpa using hb1
        obtain ⟨r1, r2, r3, r4⟩ := reclaim_pushed H1 (c, q) (fun x => (H1.hdr x).bix) rfl
        refine ⟨reclaim H1 (c, q), e1, q :: W1, q :: Z1, Y2, rfl, ?_, by simp [g3], ?_, ?_, ?_, ?_, ?_,
          g9.trans r2, by rw [r4, g9'], ?_, ?_, ?_, ?_⟩
        · show Tiled (hc H1 c) k 0 true false _
          simpa using g2
        · intro x hx
          rcases List.mem_cons.1 hx with rfl | h
          · exact hlq
          · exact g4 x h
        · exact g5.cons_cons q
        · exact g6
        · intro x hx
          rw [r3]
          apply g7 x
          rcases hx with h | h
          · exact Or.inl h
          · right; intro hh; apply h; simp [hh]
        · intro x; rw [r3]; exact g8 x
        · rw [r3]
          have := (g10.trans r1).perm (Z' := (c, q) :: (Z1.map fun z => (c, z)))
            (by simpa using List.perm_append_comm (l₁ := Z1.map fun z => (c, z)) (l₂ := [(c, q)]))
          simpa using this
        · rw [r3, hp1, hb.1]; intro h; exact absurd h (by decide)
        · right
          rcases g12 with h | h
          · rw [hb1'] at h; exact absurd h (by decide)
          · exact h
        · intro X' x y Y' e hm
          unfold Mergeable at hm
          have hlr : ∀ x, live (reclaim H1 (c, q)) x = live H1 x := fun x => rfl
          rw [r3, hlr, hlr] at hm
          cases X' with
          | nil =>
            simp only [List.nil_append, List.cons_append, List.cons.injEq] at e
            rw [← e.2.1, hb1'] at hm
            exact absurd hm.2.1 (by decide)
          | cons x' X' =>
            simp only [List.cons_append, List.cons.injEq] at e
            exact g13 X' x y Y' e.2 hm
    · rw [if_neg hb]
      -- a right part, or the whole chunk
      have hbt : (H.hdr (c, p)).b = true := by
        by_contra hbf
        have hbf' : (H.hdr (c, p)).b = false := by simpa using hbf
        have hkk : (H.hdr (c, p)).bix = k := by
          have := (ht.bix p (by simp)).2
          have h1 : (hc H c p).bix = (H.hdr (c, p)).bix := rfl
          by_contra hne
          exact hb ⟨hbf', by omega⟩
        -- then it is the only cell
        have hr := hseg.range p (by simp)
        have h1 : (hc H c p).bix = k := hkk
        rw [h1] at hr
        have hX : X = [] := by
          cases X with
          | nil => rfl
          | cons x X =>
            have hx := hseg.pairwise
            have := (List.pairwise_cons.1 hx).1 p (by simp)
            have := (size_pos (hc H c x).bix).1
            omega
        have hY : Y = [] := by
          cases Y with
          | nil => rfl
          | cons y Y =>
            have h2 := hseg.start.le
            rw [h1] at h2
            simp at h2
            omega
        subst hX hY
        obtain ⟨Y', e, _, h3⟩ := ht.first
        simp only [List.nil_append, List.cons.injEq] at e
        obtain ⟨rfl, rfl⟩ := e
        have := (h3 rfl).1
        have h4 : (H.hdr (c, 0)).b = true := this
        rw [hbf'] at h4; exact absurd h4 (by decide)
      refine ⟨H, nextbuddy H c p, [], [], Y, rfl, by simpa using ht, by simp, by simp, List.Sublist.refl _,
        hseg.start, fun x _ => rfl, fun x => ⟨rfl, rfl⟩, Same.refl H, rfl, Pushed.refl _ _, fun _ => rfl,
        Or.inl hbt, ?_⟩
      intro X' x y Y' e hm
      simp only [List.nil_append] at e
      cases X' with
      | nil =>
        simp only [List.nil_append, List.cons.injEq] at e
        have h5 := hm.1
        rw [← e.1, hbt] at h5
        exact absurd h5 (by decide)
      | cons x' X' =>
        have := congrArg List.length e
        simp only [List.cons_append, List.length_cons, List.length_append, List.length_take] at this
        omega

/-- No neighbours in the list that could be merged: bits `bt`, collected or not `lv`. -/
def Coarse (bt lv : Nat → Bool) (x y : Nat) : Prop :=
  ¬ (bt x = false ∧ bt y = true ∧ lv x = false ∧ lv y = false)

theorem chain_of_split {R : Nat → Nat → Prop} : ∀ {L : List Nat},
    (∀ X x y Y, L = X ++ x :: y :: Y → R x y) → L.IsChain R
  | [], _ => by simp
  | [a], _ => by simp
  | a :: b :: L, h => by
    rw [List.isChain_cons_cons]
    refine ⟨h [] a b L rfl, chain_of_split fun X x y Y e => h (a :: X) x y Y (by rw [e]; rfl)⟩

theorem sweepLoop_spec (c k : Nat) (g : Int) : ∀ (n : Nat) (H : Heap) (X Y : List Nat) (p : Nat),
    Tiled (hc H c) k 0 true false (X ++ Y) → Seg (hc H c) p Y (buddysize k) → Y.length + 1 ≤ n →
    ∃ H' Y', sweepLoop c k g n H p = .ok H' ∧
      Tiled (hc H' c) k 0 true false (X ++ Y') ∧ Y'.Sublist Y ∧ Y'.head? = Y.head? ∧
      (∀ q ∈ Y, live H (c, q) = true → q ∈ Y' ∧ H'.hdr (c, q) = { H.hdr (c, q) with mark := false }) ∧
      (∀ x : Cell, (x.1 ≠ c ∨ x.2 ∉ Y) → H'.hdr x = H.hdr x) ∧
      (∀ q ∈ Y', (H'.hdr (c, q)).mark = false) ∧
      (∀ x : Cell, (H'.hdr x).nodispose = (H.hdr x).nodispose ∧
        ((H'.hdr x).mark = true → (H.hdr x).mark = true)) ∧
      Same H H' ∧
      Pushed (fun x => (H'.hdr x).bix) H H' ((Y'.filter fun q => !live H (c, q)).map fun q => (c, q)) ∧
      (g ≤ H.freeheap → Y'.IsChain (Coarse (fun q => (H'.hdr (c, q)).b) fun q => live H (c, q))) ∧
      H'.disposed = H.disposed ++ (Y.filter fun q => !(H.hdr (c, q)).mark && (H.hdr (c, q)).nodispose).map
        fun q => (c, q) := by
  intro n
  induction n with
  | zero => intro H X Y p _ _ h; omega
  | succ n ih =>
    intro H X Y p ht hs hn
    rw [sweepLoop]
    cases Y with
    | nil =>
      have hp : p = buddysize k := hs
      rw [if_neg (by omega)]
      exact ⟨H, [], rfl, ht, by simp, rfl, by simp, fun x _ => rfl, by simp, fun x => ⟨rfl, id⟩, Same.refl H,
        Pushed.refl _ _, fun _ => by simp, by simp⟩
    | cons q Y =>
      obtain ⟨rfl, hs⟩ := hs
      have hseg := ht.seg
      rw [Nat.zero_add] at hseg
      have hnd := hseg.nodup
      have hqX := (notin_of_nodup hnd).1
      have hqY := (notin_of_nodup hnd).2
      have hndY : (q :: Y).Nodup := (List.nodup_append.1 hnd).2.1
      have hlt : q < buddysize k := by
        have := hseg.range q (by simp)
        have := (size_pos (hc H c q).bix).1
        omega
      rw [if_pos hlt]
      simp only
      simp only [List.length_cons] at hn
      by_cases hm : (H.hdr (c, q)).mark = true
      · -- marked: kept
        rw [if_pos hm]
        set H1 : Heap := { H with hdr := upd H.hdr (c, q) { H.hdr (c, q) with mark := false } } with hH1
        have hq1 : H1.hdr (c, q) = { H.hdr (c, q) with mark := false } := by simp [hH1, upd]
        have ho1 : ∀ x, x ≠ (c, q) → H1.hdr x = H.hdr x := by intro x hx; simp [hH1, upd, hx]
        have hbits : ∀ x, (hc H1 c x).bix = (hc H c x).bix ∧ (hc H1 c x).b = (hc H c x).b ∧
            (hc H1 c x).m = (hc H c x).m := by
          intro x
          by_cases hx : x = q
          · subst hx; show (H1.hdr (c, x)).bix = _ ∧ (H1.hdr (c, x)).b = _ ∧ (H1.hdr (c, x)).m = _
            rw [hq1]; exact ⟨rfl, rfl, rfl⟩
          · have : hc H1 c x = hc H c x := ho1 (c, x) (by simp [hx])
            rw [this]; exact ⟨rfl, rfl, rfl⟩
        obtain ⟨H', Y', e1, e2, e3, e3', e4, e5, e6, e7, e8, e9, e10, e11⟩ := ih H1 (X ++ [q]) Y (q + buddysize (H.hdr (c, q)).bix)
          (by simpa using ht.frame fun x _ => hbits x) (hs.frame fun x _ => (hbits x).1) (by omega)
        have hlv : ∀ x ∈ Y, live H1 (c, x) = live H (c, x) := by
          intro x hx
          have : x ≠ q := by rintro rfl; exact hqY hx
          unfold live; rw [ho1 (c, x) (by simp [this])]
        have hq' : H'.hdr (c, q) = { H.hdr (c, q) with mark := false } := by
          rw [e5 (c, q) (Or.inr hqY), hq1]
        have hlq : live H (c, q) = true := by simp [live, hm]
        refine ⟨H', q :: Y', e1, by simpa using e2, e3.cons_cons q, rfl, ?_, ?_, ?_, ?_, ?_, ?_, ?_, ?_⟩
        · intro x hx hl
          rcases List.mem_cons.1 hx with rfl | hx
          · exact ⟨by simp, hq'⟩
          · have := e4 x hx (by rw [hlv x hx]; exact hl)
            refine ⟨by simp [this.1], ?_⟩
            rw [this.2]
            have hxq : x ≠ q := fun h => hqY (h ▸ hx)
            rw [ho1 (c, x) (by simp [hxq])]
        · intro x hx
          have hxq : x ≠ (c, q) := by
            rintro rfl
            rcases hx with h | h
            · exact h rfl
            · exact h (by simp)
          rw [e5 x (by
            rcases hx with h | h
            · exact Or.inl h
            · right; intro hh; apply h; simp [hh]), ho1 x hxq]
        · intro x hx
          rcases List.mem_cons.1 hx with rfl | hx
          · rw [hq']
          · exact e6 x hx
        · intro x
          rw [(e7 x).1]
          have := (e7 x).2
          by_cases hx : x = (c, q)
          · subst hx; rw [hq1] at this ⊢; exact ⟨rfl, fun _ => hm⟩
          · rw [ho1 x hx] at this ⊢; exact ⟨rfl, this⟩
        · exact Same.trans (H' := H1) ⟨rfl, rfl, rfl, rfl, rfl, rfl, rfl, rfl, rfl, rfl, rfl⟩ e8
        · have hf : (q :: Y').filter (fun q => !live H (c, q)) = Y'.filter fun q => !live H1 (c, q) := by
            rw [List.filter_cons_of_neg (by simp [hlq])]
            apply List.filter_congr
            intro x hx
            rw [hlv x (e3.subset hx)]
          rw [hf]
          exact ⟨e9.1, e9.2.1, e9.2.2⟩
        · intro hg
          have := e10 hg
          rw [List.isChain_cons]
          refine ⟨?_, ?_⟩
          · intro y _ hh
            have := hh.2.2.1
            simp only [hlq] at this
            exact absurd this (by decide)
          · refine (List.IsChain.imp_of_mem_imp ?_ this)
            intro x y hx hy hxy hh
            apply hxy
            beta_reduce
            rw [hlv x (e3.subset hx), hlv y (e3.subset hy)]
            exact hh
        · rw [e11, List.filter_cons_of_neg (by simp [hm])]
          show H.disposed ++ _ = _
          congr 2
          apply List.filter_congr
          intro x hx
          have hxq : x ≠ q := fun h => hqY (h ▸ hx)
          rw [ho1 (c, x) (by simp [hxq])]
      · rw [if_neg hm]
        by_cases hd : (H.hdr (c, q)).nodispose = true
        · -- a disposal hook: kept
          rw [if_pos hd]
          have hlq : live H (c, q) = true := by simp [live, hd]
          set H1 : Heap := { H with disposed := H.disposed ++ [(c, q)] } with hH1
          obtain ⟨H', Y', e1, e2, e3, e3', e4, e5, e6, e7, e8, e9, e10, e11⟩ :=
            ih H1 (X ++ [q]) Y (nextbuddy H c q) (by
              show Tiled (hc H c) k 0 true false _
              simpa using ht) hs (by omega)
          have hq' : H'.hdr (c, q) = H.hdr (c, q) := e5 (c, q) (Or.inr hqY)
          refine ⟨H', q :: Y', e1, by simpa using e2, e3.cons_cons q, rfl, ?_, ?_, ?_, ?_, ?_, ?_, ?_, ?_⟩
          · intro x hx hl
            rcases List.mem_cons.1 hx with rfl | hx
            · refine ⟨by simp, ?_⟩
              rw [hq']
              have : (H.hdr (c, x)).mark = false := by simpa using hm
              rw [← this]
            · have := e4 x hx hl
              exact ⟨by simp [this.1], this.2⟩
          · intro x hx
            exact e5 x (by
              rcases hx with h | h
              · exact Or.inl h
              · right; intro hh; apply h; simp [hh])
          · intro x hx
            rcases List.mem_cons.1 hx with rfl | hx
            · rw [hq']; simpa using hm
            · exact e6 x hx
          · exact e7
          · exact Same.trans (H' := H1) ⟨rfl, rfl, rfl, rfl, rfl, rfl, rfl, rfl, rfl, rfl, rfl⟩ e8
          · rw [List.filter_cons_of_neg (by simp [hlq])]
            exact ⟨e9.1, e9.2.1, e9.2.2⟩
          · intro hg
            have := e10 hg
            rw [List.isChain_cons]
            refine ⟨?_, this⟩
            intro y _ hh
            have := hh.2.2.1
            simp only [hlq] at this
            exact absurd this (by decide)
          · rw [e11, List.filter_cons_of_pos (by simp [hm, hd])]
            show H.disposed ++ [(c, q)] ++ _ = _
            simp only [List.map_cons, List.append_assoc, List.singleton_append]
            rfl
        · rw [if_neg hd]
          have hlq : live H (c, q) = false := by simp [live, hm, hd]
          by_cases hg : g > H.freeheap
          · -- collected, no merging
            rw [if_pos hg]
            obtain ⟨r1, r2, r3, r4⟩ := reclaim_pushed H (c, q) (fun x => (H.hdr x).bix) rfl
            obtain ⟨H', Y', e1, e2, e3, e3', e4, e5, e6, e7, e8, e9, e10, e11⟩ :=
              ih (reclaim H (c, q)) (X ++ [q]) Y (nextbuddy H c q) (by
                show Tiled (hc H c) k 0 true false _
                simpa using ht) hs (by omega)
            have hq' : H'.hdr (c, q) = H.hdr (c, q) := e5 (c, q) (Or.inr hqY)
            refine ⟨H', q :: Y', e1, by simpa using e2, e3.cons_cons q, rfl, ?_, ?_, ?_, ?_, ?_, ?_, ?_, ?_⟩
            · intro x hx hl
              rcases List.mem_cons.1 hx with rfl | hx
              · rw [hlq] at hl; exact absurd hl (by decide)
              · have := e4 x hx hl
                exact ⟨by simp [this.1], this.2⟩
            · intro x hx
              exact e5 x (by
                rcases hx with h | h
                · exact Or.inl h
                · right; intro hh; apply h; simp [hh])
            · intro x hx
              rcases List.mem_cons.1 hx with rfl | hx
              · rw [hq']; simpa using hm
              · exact e6 x hx
            · exact e7
            · exact r2.trans e8
            · rw [List.filter_cons_of_pos (by simp [hlq])]
              have hr := r1.congr (bx' := fun x => (H'.hdr x).bix) (by
                intro z hz; simp at hz; subst hz; rw [hq'])
              exact hr.trans e9
            · intro hg'; omega
            · rw [e11, List.filter_cons_of_neg (by simp [hd])]
              rfl
          · -- collected, with merging
            rw [if_neg hg]
            obtain ⟨H1, e, W, Z, Y2, m1, m2, m3, m4, m5, m6, m7, m8, m9, m9', m10, m11, m12, m13⟩ :=
              mergecell_spec c k (buddysize k + 1) H X Y q ht hlq (by
                have := hs.le
                omega)
            rw [m1]
            simp only [Res.bind]
            obtain ⟨r1, r2, r3, r4⟩ := reclaim_pushed H1 (c, q) (fun x => (H1.hdr x).bix) rfl
            have hY2 : Y2.length ≤ Y.length := by rw [m3]; simp
            obtain ⟨H', Y', e1, e2, e3, e3', e4, e5, e6, e7, e8, e9, e10, e11⟩ :=
              ih (reclaim H1 (c, q)) (X ++ q :: Z) Y2 e (by
                show Tiled (hc H1 c) k 0 true false _
                simpa using m2) m6 (by omega)
            have hndY' : (W ++ Y2).Nodup := by rw [← m3]; exact (List.nodup_cons.1 hndY).2
            have hW2 : ∀ x ∈ W, x ∉ Y2 := fun x hx hx2 =>
              (List.nodup_append.1 hndY').2.2 x hx x hx2 rfl
            have hqW : q ∉ W := by intro h; apply hqY; rw [m3]; simp [h]
            have hqY2 : q ∉ Y2 := by intro h; apply hqY; rw [m3]; simp [h]
            have hlv : ∀ x, live (reclaim H1 (c, q)) x = live H x := by
              intro x
              show live H1 x = live H x
              simp [live, m8 x]
            have hdone : ∀ x, x = q ∨ x ∈ Z → H'.hdr (c, x) = H1.hdr (c, x) := by
              intro x hx
              rw [e5 (c, x) (Or.inr (by
                rcases hx with rfl | hx
                · exact hqY2
                · exact hW2 x (m5.subset hx)))]
              rfl
            have hlZ : ∀ x ∈ Z, live H (c, x) = false := fun x hx => m4 x (m5.subset hx)
            refine ⟨H', q :: (Z ++ Y'), e1, by simpa using e2, ?_, rfl, ?_, ?_, ?_, ?_, ?_, ?_, ?_, ?_⟩
            · rw [m3]; exact (m5.append e3).cons_cons q
            · intro x hx hl
              rcases List.mem_cons.1 hx with rfl | hx
              · rw [hlq] at hl; exact absurd hl (by decide)
              rw [m3] at hx
              rcases List.mem_append.1 hx with hx | hx
              · rw [m4 x hx] at hl; exact absurd hl (by decide)
              · have := e4 x hx (by rw [hlv]; exact hl)
                refine ⟨by simp [this.1], ?_⟩
                rw [this.2]
                have hxq : x ∉ q :: W := by
                  intro hh
                  rcases List.mem_cons.1 hh with hh | hh
                  · exact hqY2 (hh ▸ hx)
                  · exact hW2 x hh hx
                show { H1.hdr (c, x) with mark := false } = _
                rw [m7 (c, x) (Or.inr hxq)]
            · intro x hx
              rw [e5 x (by
                rcases hx with h | h
                · exact Or.inl h
                · right; intro hh; apply h; rw [m3]; simp [hh])]
              show H1.hdr x = _
              apply m7
              rcases hx with h | h
              · exact Or.inl h
              · right; intro hh; apply h
                rcases List.mem_cons.1 hh with hh | hh
                · simp [hh]
                · rw [m3]; simp [hh]
            · intro x hx
              have hfree : ∀ x, live H (c, x) = false → (H1.hdr (c, x)).mark = false := by
                intro x hx
                rw [(m8 (c, x)).1]
                unfold live at hx
                exact (Bool.or_eq_false_iff.1 hx).1
              rcases List.mem_cons.1 hx with rfl | hx
              · rw [hdone x (Or.inl rfl)]; exact hfree x hlq
              · rcases List.mem_append.1 hx with hx | hx
                · rw [hdone x (Or.inr hx)]; exact hfree x (hlZ x hx)
                · exact e6 x hx
            · intro x
              rw [(e7 x).1]
              refine ⟨(m8 x).2, fun hh => ?_⟩
              rw [← (m8 x).1]
              exact (e7 x).2 hh
            · exact (m9.trans r2).trans e8
            · rw [List.filter_cons_of_pos (by simp [hlq]), List.filter_append]
              have hfZ : Z.filter (fun q => !live H (c, q)) = Z := by
                rw [List.filter_eq_self]
                intro x hx; simp [hlZ x hx]
              have hfY : (Y'.filter fun q => !live H (c, q)) =
                  Y'.filter fun x => !live (reclaim H1 (c, q)) (c, x) := by
                apply List.filter_congr
                intro x _; rw [hlv]
              rw [hfZ, hfY]
              have p1 := m10.congr (bx' := fun x => (H'.hdr x).bix) (by
                intro z hz
                obtain ⟨x, hx, rfl⟩ := List.mem_map.1 hz
                rw [hdone x (Or.inr hx)])
              have p2 := r1.congr (bx' := fun x => (H'.hdr x).bix) (by
                intro z hz; simp at hz; subst hz; rw [hdone q (Or.inl rfl)])
              refine ((p1.trans p2).trans e9).perm ?_
              simp only [List.map_cons, List.map_append, List.append_assoc, List.singleton_append]
              exact List.perm_middle
            · intro hg'
              have c1 := e10 (by
                have := r1.2.2; rw [this, m10.2.2]; push_cast
                have h1 : (0:Int) ≤ ((List.map (fun z => buddysize (H1.hdr z).bix) (List.map (fun z => (c, z)) Z)).sum : Nat) := by omega
                have h2 : (0:Int) ≤ ((List.map (fun z => buddysize (H1.hdr z).bix) [(c, q)]).sum : Nat) := by omega
                omega)
              have c2 : (q :: Z ++ Y2.take 1).IsChain fun x y => ¬ Mergeable H1 c x y :=
                chain_of_split (by simpa [NoMerge] using m13)
              rw [List.isChain_append] at c2
              obtain ⟨c3, _, c4⟩ := c2
              rw [← List.cons_append, List.isChain_append]
              refine ⟨?_, ?_, ?_⟩
              · refine List.IsChain.imp_of_mem_imp ?_ c3
                intro x y hx hy hxy hh
                apply hxy
                have hx' := hdone x (by simpa using hx)
                have hy' := hdone y (by simpa using hy)
                beta_reduce at hh
                rw [hx', hy'] at hh
                have hl1 : ∀ x, live H1 x = live H x := hlv
                exact ⟨hh.1, hh.2.1, by rw [hl1]; exact hh.2.2.1, by rw [hl1]; exact hh.2.2.2⟩
              · refine List.IsChain.imp_of_mem_imp ?_ c1
                intro x y hx hy hxy hh
                apply hxy
                beta_reduce
                rw [hlv, hlv]
                exact hh
              · intro x hx y hy hh
                rw [e3'] at hy
                rcases m12 with hb | ⟨q', Y'', e', hl'⟩
                · have hZ := m11 hb
                  subst hZ
                  simp at hx
                  subst hx
                  have := hh.1
                  beta_reduce at this
                  rw [hdone q (Or.inl rfl), hb] at this
                  exact absurd this (by decide)
                · rw [e'] at hy
                  simp at hy
                  subst hy
                  have := hh.2.2.2
                  simp only [hl'] at this
                  exact absurd this (by decide)
            · rw [e11, List.filter_cons_of_neg (by simp [hd]), m3, List.filter_append]
              have hfW : (W.filter fun q => !(H.hdr (c, q)).mark && (H.hdr (c, q)).nodispose) = [] := by
                rw [List.filter_eq_nil_iff]
                intro x hx
                have := m4 x hx
                unfold live at this
                rw [(Bool.or_eq_false_iff.1 this).2]
                simp
              rw [hfW, List.nil_append]
              show H1.disposed ++ _ = _
              rw [m9']
              congr 2
              apply List.filter_congr
              intro x _
              show (!(H1.hdr (c, x)).mark && (H1.hdr (c, x)).nodispose) = _
              rw [(m8 (c, x)).1, (m8 (c, x)).2]

end Eus.Mem
