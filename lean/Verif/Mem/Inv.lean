import Verif.Mem.Gc
import Mathlib.Data.List.Perm.Basic
import Mathlib.Data.List.Perm.Subperm
set_option autoImplicit false
/-
The invariant of the heap, and its preservation by the root allocator's primitives.
-/
namespace Eus.Mem

/-! ### lists indexed by numbers -/

theorem flatMap_upd {α : Type} (L : List Nat) (f : Nat → List α) (k : Nat) (v : List α)
    (hn : L.Nodup) (hk : k ∈ L) : (L.flatMap (upd f k v) ++ f k).Perm (v ++ L.flatMap f) := by
  induction L with
  | nil => cases hk
  | cons a L ih =>
    rw [List.nodup_cons] at hn
    simp only [List.flatMap_cons]
    by_cases ha : a = k
    · subst ha
      have h1 : upd f a v a = v := by simp [upd]
      have h2 : L.flatMap (upd f a v) = L.flatMap f := by
        clear ih hk
        induction L with
        | nil => rfl
        | cons b L ih' =>
          simp only [List.mem_cons, not_or, List.nodup_cons] at hn
          simp only [List.flatMap_cons]
          rw [ih' ⟨hn.1.2, hn.2.2⟩, show upd f a v b = f b by simp [upd, Ne.symm hn.1.1]]
      rw [h1, h2, List.append_assoc]
      exact List.Perm.append_left v List.perm_append_comm
    · have h1 : upd f k v a = f a := by simp [upd, ha]
      have := ih hn.2 (by simpa [Ne.symm ha] using hk)
      rw [h1, List.append_assoc]
      refine (List.Perm.append_left (f a) this).trans ?_
      rw [← List.append_assoc, ← List.append_assoc]
      exact List.Perm.append_right _ List.perm_append_comm

/-- The cells on the free lists. -/
def freeL (H : Heap) : List Cell := (List.range MAXBUDDY).flatMap H.free

/-- The cells handed out. -/
def usedL (H : Heap) : List Cell := H.used.map Prod.fst

theorem free_count (f : Nat → List Cell) (k : Nat) (v : List Cell) (hk : k < MAXBUDDY) (x : Cell) :
    ((List.range MAXBUDDY).flatMap (upd f k v)).count x + (f k).count x =
      v.count x + ((List.range MAXBUDDY).flatMap f).count x := by
  have := (flatMap_upd (List.range MAXBUDDY) f k v List.nodup_range (by simpa using hk)).count_eq x
  rw [List.count_append, List.count_append] at this
  exact this

theorem mem_freeL {H : Heap} {x : Cell} : x ∈ freeL H ↔ ∃ k < MAXBUDDY, x ∈ H.free k := by
  simp [freeL, List.mem_flatMap]

theorem mem_locals {H : Heap} {t : Nat} {x : Cell} : x ∈ locals H t ↔ ∃ j, 1 ≤ j ∧ j ≤ 5 ∧ x ∈ H.tb t j := by
  simp only [locals, List.mem_flatMap]
  constructor
  · rintro ⟨j, hj, hx⟩
    refine ⟨j, ?_, ?_, hx⟩ <;> simp at hj <;> omega
  · rintro ⟨j, h1, h2, hx⟩
    exact ⟨j, by simp; omega, hx⟩

theorem mem_tbL {H : Heap} {x : Cell} :
    x ∈ tbL H ↔ ∃ t < MAXTHREAD, ∃ j, 1 ≤ j ∧ j ≤ 5 ∧ x ∈ H.tb t j := by
  simp only [tbL, List.mem_flatMap, List.mem_range, mem_locals]

/-- The invariant; `lv` gives the cells of each chunk, in order. -/
structure Inv (H : Heap) (lv : Nat → List Nat) : Prop where
  num : ∀ c, c ∈ H.chunks.map Prod.fst ↔ c < H.chunks.length
  nodup : (H.chunks.map Prod.fst).Nodup
  ix : ∀ ck ∈ H.chunks, 16 ≤ ck.2 ∧ ck.2 ≤ 38
  tiled : ∀ ck ∈ H.chunks, Tiled (hc H ck.1) ck.2 0 true false (lv ck.1)
  occ : ∀ x, (freeL H).count x + (tbL H).count x + (usedL H).count x ≤ 1
  cell : ∀ x, x ∈ freeL H ∨ x ∈ tbL H ∨ x ∈ usedL H → x ∈ cellsOf H.chunks lv
  freeix : ∀ k, ∀ x ∈ H.free k, (H.hdr x).bix = k
  freeout : ∀ k, 39 ≤ k → H.free k = []
  tbix : ∀ t j, ∀ x ∈ H.tb t j, (H.hdr x).bix = j
  tbout : ∀ t j, ¬ (t < MAXTHREAD ∧ 1 ≤ j ∧ j ≤ 5) → H.tb t j = []
  acc : H.freeheap + ((tbL H).map fun x => buddysize (H.hdr x).bix).sum +
    ((usedL H).map fun x => buddysize (H.hdr x).bix).sum = H.totalheap
  tot : H.totalheap = ((H.chunks.map fun ck => buddysize ck.2).sum : Nat)
  count : ∀ k, k < 16 → H.count k = (H.free k).length
  tcount : ∀ t j, H.tcount t j = (H.tb t j).length
  mark : ∀ x, (H.hdr x).mark = false
  nod : ∀ x, (H.hdr x).nodispose = true → x ∈ usedL H
  fits : ∀ u ∈ H.used, u.2 + 1 ≤ buddysize (H.hdr u.1).bix

/-- What the program sees is kept: contents, roots, and the size of every block still in use. -/
structure Keep (H H' : Heap) : Prop where
  obj : H'.obj = H.obj
  sys : H'.sys = H.sys
  stk : H'.stk = H.stk
  spec : H'.spec = H.spec
  last : H'.last = H.last
  cls : H'.cls = H.cls
  used : H'.used.Sublist H.used
  bix : ∀ x ∈ usedL H', (H'.hdr x).bix = (H.hdr x).bix
  hook : ∀ x, ReachFrom H.obj (rootsL H) x → (H'.hdr x).nodispose = (H.hdr x).nodispose
  tb : H'.tb = H.tb
  tcount : H'.tcount = H.tcount

/-- Every reachable cell is one handed out. -/
def Good (H : Heap) : Prop := ∀ x, ReachFrom H.obj (rootsL H) x → x ∈ usedL H

theorem Keep.roots {H H' : Heap} (k : Keep H H') : rootsL H' = rootsL H := by
  unfold rootsL
  rw [k.sys, k.cls]
  have : threadRoots H' = threadRoots H := by
    funext t; unfold threadRoots; rw [k.stk, k.spec, k.last]
  rw [this]

theorem Keep.refl (H : Heap) : Keep H H :=
  ⟨rfl, rfl, rfl, rfl, rfl, rfl, .refl _, fun _ _ => rfl, fun _ _ => rfl, rfl, rfl⟩

theorem Keep.trans {H H1 H2 : Heap} (a : Keep H H1) (b : Keep H1 H2) : Keep H H2 where
  obj := b.obj.trans a.obj
  sys := b.sys.trans a.sys
  stk := b.stk.trans a.stk
  spec := b.spec.trans a.spec
  last := b.last.trans a.last
  cls := b.cls.trans a.cls
  used := b.used.trans a.used
  bix := fun x hx => (b.bix x hx).trans (a.bix x ((b.used.map Prod.fst).subset hx))
  hook := fun x hx => (b.hook x (by rw [a.obj, a.roots]; exact hx)).trans (a.hook x hx)
  tb := b.tb.trans a.tb
  tcount := b.tcount.trans a.tcount

/-- A heap in order. -/
def St (H : Heap) : Prop := Good H ∧ ∃ lv, Inv H lv

theorem Inv.cells_nodup {H : Heap} {lv : Nat → List Nat} (i : Inv H lv) : (cellsOf H.chunks lv).Nodup :=
  cellsOf_nodup i.nodup fun ck hck => (i.tiled ck hck).seg.nodup

theorem Inv.bix {H : Heap} {lv : Nat → List Nat} (i : Inv H lv) {x : Cell} (hx : x ∈ cellsOf H.chunks lv) :
    1 ≤ (H.hdr x).bix ∧ (H.hdr x).bix ≤ 38 := by
  obtain ⟨h1, h2⟩ := mem_cellsOf.1 hx
  obtain ⟨ck, hck, he⟩ := List.mem_map.1 h1
  have t := i.tiled ck hck
  rw [he] at t
  have := t.bix x.2 h2
  have h3 := i.ix ck hck
  have e : hc H x.1 x.2 = H.hdr x := rfl
  rw [e] at this
  omega

theorem Inv.free_mem {H : Heap} {lv : Nat → List Nat} (i : Inv H lv) {k : Nat} {x : Cell} (hx : x ∈ H.free k) :
    x ∈ freeL H ∧ x ∈ cellsOf H.chunks lv ∧ 1 ≤ k ∧ k ≤ 38 := by
  have hk : k < 39 := by
    by_contra h
    rw [i.freeout k (by omega)] at hx
    cases hx
  have h1 : x ∈ freeL H := mem_freeL.2 ⟨k, by simp [MAXBUDDY]; omega, hx⟩
  have h2 := i.cell x (Or.inl h1)
  have h3 := i.bix h2
  rw [i.freeix k x hx] at h3
  exact ⟨h1, h2, h3⟩

theorem Inv.tb_mem {H : Heap} {lv : Nat → List Nat} (i : Inv H lv) {t j : Nat} {x : Cell} (hx : x ∈ H.tb t j) :
    x ∈ tbL H := by
  by_cases h : t < MAXTHREAD ∧ 1 ≤ j ∧ j ≤ 5
  · exact mem_tbL.2 ⟨t, h.1, j, h.2.1, h.2.2, hx⟩
  · rw [i.tbout t j h] at hx; cases hx

theorem count_pos {L : List Cell} {x : Cell} : 1 ≤ L.count x ↔ x ∈ L := List.one_le_count_iff

theorem tbL_congr {H H' : Heap} (h : H'.tb = H.tb) : tbL H' = tbL H := by
  have : locals H' = locals H := by funext t; unfold locals; rw [h]
  unfold tbL; rw [this]

theorem usedL_congr {H H' : Heap} (h : H'.used = H.used) : usedL H' = usedL H := by unfold usedL; rw [h]

theorem sum_congr {L : List Cell} {f g : Cell → Nat} (h : ∀ x ∈ L, f x = g x) : (L.map f).sum = (L.map g).sum := by
  rw [List.map_congr_left h]

/-! ### newchunk -/

theorem newchunk_spec (env : Env) (k0 : Nat) (H : Heap) (h : St H) (hk : k0 ≤ 38) :
    ∃ H' r, newchunk env k0 H = .ok (H', r) ∧ St H' ∧ Keep H H' ∧
      (∀ k, r = some k → k0 ≤ k ∧ 16 ≤ k ∧ k ≤ 38 ∧ H'.free k ≠ []) ∧ (r = none → H' = H) := by
  unfold newchunk
  simp only
  set k := if k0 < DEFAULTCHUNKINDEX then DEFAULTCHUNKINDEX else k0 with hkd
  have hk1 : k0 ≤ k ∧ 16 ≤ k ∧ k ≤ 38 := by
    rw [hkd]; unfold DEFAULTCHUNKINDEX; split_ifs <;> omega
  rw [if_neg (by simp [MAXBUDDY]; omega)]
  by_cases hm : env.mallocOk H.chunks.length k = true
  swap
  · rw [if_neg hm]
    exact ⟨H, none, rfl, h, .refl H, by simp, fun _ => rfl⟩
  rw [if_pos hm]
  obtain ⟨hg, lv, i⟩ := h
  set c := H.chunks.length with hc'
  refine ⟨_, _, rfl, ⟨?_, upd lv c [0], ?_⟩, ?_, ?_, by simp⟩
  · exact hg
  · have hcn : c ∉ H.chunks.map Prod.fst := by rw [i.num]; omega
    have hnc : ∀ p, (c, p) ∉ cellsOf H.chunks lv := fun p h => hcn (mem_cellsOf.1 h).1
    have hcl : ∀ x, x ∈ cellsOf ((c, k) :: H.chunks) (upd lv c [0]) ↔ x = (c, 0) ∨ x ∈ cellsOf H.chunks lv := by
      intro x
      obtain ⟨x1, x2⟩ := x
      simp only [mem_cellsOf, List.map_cons, List.mem_cons, Prod.mk.injEq]
      by_cases hx : x1 = c
      · subst hx; simp [upd, hcn]
      · simp [upd, hx]
    have hhd : ∀ x ∈ cellsOf H.chunks lv, upd H.hdr (c, 0) (⟨k, true, false, false, false⟩ : Hdr) x = H.hdr x := by
      intro x hx
      have : x ≠ (c, 0) := by rintro rfl; exact hnc 0 hx
      simp [upd, this]
    have hocc0 : ∀ p, (freeL H).count (c, p) = 0 ∧ (tbL H).count (c, p) = 0 ∧ (usedL H).count (c, p) = 0 := by
      intro p
      have := hnc p
      refine ⟨List.count_eq_zero.2 fun h => this (i.cell _ (Or.inl h)),
        List.count_eq_zero.2 fun h => this (i.cell _ (Or.inr (Or.inl h))),
        List.count_eq_zero.2 fun h => this (i.cell _ (Or.inr (Or.inr h)))⟩
    constructor
    · intro d
      simp only [List.map_cons, List.mem_cons, i.num, List.length_cons]
      omega
    · simp only [List.map_cons, List.nodup_cons]
      exact ⟨hcn, i.nodup⟩
    · intro ck hck
      rcases List.mem_cons.1 hck with rfl | hck
      · exact hk1.2
      · exact i.ix ck hck
    · intro ck hck
      rcases List.mem_cons.1 hck with rfl | hck
      · show Tiled _ k 0 true false (upd lv c [0] c)
        rw [show upd lv c [0] c = [0] by simp [upd]]
        refine .leaf k 0 true false (by omega) ?_ ?_ ?_ <;> simp [hc, upd]
      · have hne : ck.1 ≠ c := fun e => hcn (e ▸ List.mem_map_of_mem hck)
        rw [show upd lv c [0] ck.1 = lv ck.1 by simp [upd, hne]]
        refine (i.tiled ck hck).frame fun x hx => ?_
        have : upd H.hdr (c, 0) (⟨k, true, false, false, false⟩ : Hdr) (ck.1, x) = H.hdr (ck.1, x) := by
          simp [upd, hne]
        show (upd H.hdr (c, 0) _ (ck.1, x)).bix = _ ∧ (upd H.hdr (c, 0) _ (ck.1, x)).b = _ ∧
          (upd H.hdr (c, 0) _ (ck.1, x)).m = _
        rw [this]
        exact ⟨rfl, rfl, rfl⟩
    · intro x
      have h1 := free_count H.free k [(c, 0)] (by simp [MAXBUDDY]; omega) x
      have h2 := i.occ x
      show ((List.range MAXBUDDY).flatMap (upd H.free k [(c, 0)])).count x + (tbL H).count x + (usedL H).count x ≤ 1
      by_cases hx : x = (c, 0)
      · subst hx
        obtain ⟨o1, o2, o3⟩ := hocc0 0
        unfold freeL at o1
        simp only [List.count_singleton_self] at h1
        omega
      · have : ([(c, 0)] : List Cell).count x = 0 := List.count_eq_zero.2 (by simpa using hx)
        unfold freeL at h2
        omega
    · intro x hx
      show x ∈ cellsOf ((c, k) :: H.chunks) (upd lv c [0])
      rw [hcl]
      rcases hx with hx | hx
      · obtain ⟨j, hj, hx⟩ := mem_freeL.1 hx
        have hx : x ∈ upd H.free k [(c, 0)] j := hx
        by_cases hjk : j = k
        · subst hjk; simp [upd] at hx; exact Or.inl hx
        · simp [upd, hjk] at hx
          exact Or.inr (i.free_mem hx).2.1
      · exact Or.inr (i.cell x (Or.inr hx))
    · intro j x hx
      have hx : x ∈ upd H.free k [(c, 0)] j := hx
      show (upd H.hdr (c, 0) _ x).bix = j
      by_cases hjk : j = k
      · subst hjk; simp [upd] at hx; subst hx; simp [upd]
      · simp [upd, hjk] at hx
        rw [hhd x (i.free_mem hx).2.1]
        exact i.freeix j x hx
    · intro j hj
      have : j ≠ k := by omega
      show upd H.free k _ j = []
      simp [upd, this, i.freeout j hj]
    · intro t j x hx
      show (upd H.hdr (c, 0) _ x).bix = j
      rw [hhd x (i.cell x (Or.inr (Or.inl (i.tb_mem hx))))]
      exact i.tbix t j x hx
    · exact i.tbout
    · have h1 : ((tbL H).map fun x => buddysize (upd H.hdr (c, 0) (⟨k, true, false, false, false⟩ : Hdr) x).bix).sum =
          ((tbL H).map fun x => buddysize (H.hdr x).bix).sum :=
        sum_congr fun x hx => by rw [hhd x (i.cell x (Or.inr (Or.inl hx)))]
      have h2 : ((usedL H).map fun x => buddysize (upd H.hdr (c, 0) (⟨k, true, false, false, false⟩ : Hdr) x).bix).sum =
          ((usedL H).map fun x => buddysize (H.hdr x).bix).sum :=
        sum_congr fun x hx => by rw [hhd x (i.cell x (Or.inr (Or.inr hx)))]
      show H.freeheap + (buddysize k : Int) + (((tbL H).map fun x => buddysize (upd H.hdr (c, 0) (⟨k, true, false, false, false⟩ : Hdr) x).bix).sum : Nat) +
        (((usedL H).map fun x => buddysize (upd H.hdr (c, 0) (⟨k, true, false, false, false⟩ : Hdr) x).bix).sum : Nat) = H.totalheap + buddysize k
      rw [h1, h2]
      have := i.acc
      omega
    · show H.totalheap + (buddysize k : Int) = _
      rw [i.tot]
      simp only [List.map_cons, List.sum_cons]
      push_cast
      omega
    · intro j hj
      have : j ≠ k := by omega
      show upd H.count k _ j = ((upd H.free k _ j).length : Int)
      simp [upd, this, i.count j hj]
    · exact i.tcount
    · intro x
      show (upd H.hdr (c, 0) _ x).mark = false
      by_cases hx : x = (c, 0)
      · simp [upd, hx]
      · simp [upd, hx, i.mark x]
    · intro x
      show (upd H.hdr (c, 0) _ x).nodispose = true → _
      by_cases hx : x = (c, 0)
      · simp [upd, hx]
      · simp only [upd, hx, if_false]; exact i.nod x
    · intro u hu
      show u.2 + 1 ≤ buddysize (upd H.hdr (c, 0) _ u.1).bix
      rw [hhd u.1 (i.cell _ (Or.inr (Or.inr (List.mem_map_of_mem hu))))]
      exact i.fits u hu
  · have hnc : ∀ x, x ∈ usedL H → x ≠ (c, 0) := by
      rintro x hx rfl
      have := (mem_cellsOf.1 (i.cell _ (Or.inr (Or.inr hx)))).1
      rw [i.num] at this
      simp [hc'] at this
    refine ⟨rfl, rfl, rfl, rfl, rfl, rfl, .refl _, ?_, ?_, rfl, rfl⟩
    · intro x hx
      show (upd H.hdr (c, 0) _ x).bix = _
      simp [upd, hnc x hx]
    · intro x hx
      show (upd H.hdr (c, 0) _ x).nodispose = _
      simp [upd, hnc x (hg x hx)]
  · intro k' e
    cases e
    exact ⟨hk1.1, hk1.2.1, hk1.2.2, by simp [upd]⟩

end Eus.Mem
