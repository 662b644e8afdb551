import Verif.Mem.Model
import Mathlib.Tactic.SplitIfs
set_option autoImplicit false
/-
Chunks as trees of splits: lemmas.
-/
namespace Eus.Mem

theorem size_two (k : Nat) : buddysize (k + 2) = buddysize (k + 1) + buddysize k := by
  simp only [buddysize, sizes]; omega

theorem size_pos (k : Nat) : 3 ≤ buddysize k ∧ buddysize k ≤ buddysize (k + 1) := by
  have : ∀ k, 3 ≤ (sizes k).1 ∧ (sizes k).1 ≤ (sizes k).2 := by
    intro k
    induction k with
    | zero => decide
    | succ k ih => simp only [sizes]; omega
  have h := this k
  simp only [buddysize, sizes]; exact h

theorem size_mono {j k : Nat} (h : j ≤ k) : buddysize j ≤ buddysize k := by
  induction h with
  | refl => exact Nat.le_refl _
  | step _ ih => exact Nat.le_trans ih (size_pos _).2

/-- The index of the right part when a cell of index `k + 2` is split. -/
def rightIx (k : Nat) : Nat := if k = 0 then 1 else k

theorem size_rightIx (k : Nat) : buddysize (rightIx k) = buddysize k := by
  unfold rightIx
  by_cases h : k = 0
  · rw [if_pos h, h]; rfl
  · rw [if_neg h]

/-- The cells `L` come from splitting a cell of index `k` at `a` with the bits `b`, `m`. -/
inductive Tiled (h : Nat → Hdr) : Nat → Nat → Bool → Bool → List Nat → Prop
  | leaf (k a : Nat) (b m : Bool) (h1 : 1 ≤ k) (h2 : (h a).bix = k) (h3 : (h a).b = b) (h4 : (h a).m = m) :
      Tiled h k a b m [a]
  | node (k a : Nat) (b m : Bool) (L1 L2 : List Nat) (h1 : Tiled h (k + 1) a false b L1)
      (h2 : Tiled h (rightIx k) (a + buddysize (k + 1)) true m L2) :
      Tiled h (k + 2) a b m (L1 ++ L2)

/-- The cells `L` follow each other from `a` to `e`. -/
def Seg (h : Nat → Hdr) : Nat → List Nat → Nat → Prop
  | a, [], e => a = e
  | a, x :: xs, e => x = a ∧ Seg h (a + buddysize (h a).bix) xs e

theorem Seg.append {h : Nat → Hdr} {L1 L2 : List Nat} {a e : Nat} :
    Seg h a (L1 ++ L2) e ↔ ∃ x, Seg h a L1 x ∧ Seg h x L2 e := by
  induction L1 generalizing a with
  | nil => simp [Seg]
  | cons y ys ih =>
    simp only [List.cons_append, Seg, ih]
    constructor
    · rintro ⟨rfl, x, h1, h2⟩; exact ⟨x, ⟨rfl, h1⟩, h2⟩
    · rintro ⟨x, ⟨rfl, h1⟩, h2⟩; exact ⟨rfl, x, h1, h2⟩

theorem Tiled.seg {h : Nat → Hdr} {k a : Nat} {b m : Bool} {L : List Nat} (t : Tiled h k a b m L) :
    Seg h a L (a + buddysize k) := by
  induction t with
  | leaf k a b m h1 h2 h3 h4 => simp [Seg, h2]
  | node k a b m L1 L2 t1 t2 ih1 ih2 =>
    rw [Seg.append]
    refine ⟨_, ih1, ?_⟩
    rw [size_rightIx] at ih2
    rw [size_two, ← Nat.add_assoc]
    exact ih2

theorem Seg.le {h : Nat → Hdr} {L : List Nat} {a e : Nat} (s : Seg h a L e) :
    a + 3 * L.length ≤ e := by
  induction L generalizing a with
  | nil => simp [Seg] at s; simp; omega
  | cons x xs ih =>
    obtain ⟨rfl, s⟩ := s
    have := ih s
    have := (size_pos (h x).bix).1
    simp only [List.length_cons]; omega

/-- Where the cells of a segment lie. -/
theorem Seg.range {h : Nat → Hdr} {L : List Nat} {a e : Nat} (s : Seg h a L e) :
    ∀ x ∈ L, a ≤ x ∧ x + buddysize (h x).bix ≤ e := by
  induction L generalizing a with
  | nil => simp
  | cons x xs ih =>
    obtain ⟨rfl, s⟩ := s
    intro y hy
    have hle := s.le
    rcases List.mem_cons.1 hy with rfl | hy
    · omega
    · have := ih s y hy
      omega

/-- The cells of a segment are disjoint and in order. -/
theorem Seg.pairwise {h : Nat → Hdr} {L : List Nat} {a e : Nat} (s : Seg h a L e) :
    L.Pairwise fun x y => x + buddysize (h x).bix ≤ y := by
  induction L generalizing a with
  | nil => simp
  | cons x xs ih =>
    obtain ⟨rfl, s⟩ := s
    exact List.pairwise_cons.2 ⟨fun y hy => (s.range y hy).1, ih s⟩

theorem Seg.nodup {h : Nat → Hdr} {L : List Nat} {a e : Nat} (s : Seg h a L e) : L.Nodup :=
  s.pairwise.imp fun {x y} hxy => by
    have := (size_pos (h x).bix).1
    omega

theorem Seg.sum {h : Nat → Hdr} {L : List Nat} {a e : Nat} (s : Seg h a L e) :
    a + (L.map fun x => buddysize (h x).bix).sum = e := by
  induction L generalizing a with
  | nil => simpa [Seg] using s
  | cons x xs ih =>
    obtain ⟨rfl, s⟩ := s
    have := ih s
    simp only [List.map_cons, List.sum_cons]; omega

theorem Tiled.ne_nil {h : Nat → Hdr} {k a : Nat} {b m : Bool} {L : List Nat} (t : Tiled h k a b m L) :
    L ≠ [] := by
  induction t with
  | leaf => simp
  | node k a b m L1 L2 t1 t2 ih1 ih2 => simp [ih1]

theorem Tiled.bix {h : Nat → Hdr} {k a : Nat} {b m : Bool} {L : List Nat} (t : Tiled h k a b m L) :
    ∀ x ∈ L, 1 ≤ (h x).bix ∧ (h x).bix ≤ k := by
  induction t with
  | leaf k a b m h1 h2 h3 h4 => intro x hx; simp at hx; subst hx; omega
  | node k a b m L1 L2 t1 t2 ih1 ih2 =>
    intro x hx
    have hr : rightIx k ≤ k + 1 := by unfold rightIx; split_ifs <;> omega
    rcases List.mem_append.1 hx with hx | hx
    · have := ih1 x hx; omega
    · have := ih2 x hx; omega

/-- Only the bits of the cells matter. -/
theorem Tiled.frame {h h' : Nat → Hdr} {k a : Nat} {b m : Bool} {L : List Nat} (t : Tiled h k a b m L)
    (e : ∀ x ∈ L, (h' x).bix = (h x).bix ∧ (h' x).b = (h x).b ∧ (h' x).m = (h x).m) :
    Tiled h' k a b m L := by
  induction t with
  | leaf k a b m h1 h2 h3 h4 =>
    have := e a (by simp)
    exact .leaf k a b m h1 (by rw [this.1, h2]) (by rw [this.2.1, h3]) (by rw [this.2.2, h4])
  | node k a b m L1 L2 t1 t2 ih1 ih2 =>
    exact .node k a b m L1 L2 (ih1 fun x hx => e x (by simp [hx])) (ih2 fun x hx => e x (by simp [hx]))

theorem Seg.frame {h h' : Nat → Hdr} {L : List Nat} {a e : Nat} (s : Seg h a L e)
    (hh : ∀ x ∈ L, (h' x).bix = (h x).bix) : Seg h' a L e := by
  induction L generalizing a with
  | nil => exact s
  | cons x xs ih =>
    obtain ⟨rfl, s⟩ := s
    refine ⟨rfl, ?_⟩
    rw [hh x (by simp)]
    exact ih s fun y hy => hh y (by simp [hy])

/-- The first cell: the whole, or a left part. -/
theorem Tiled.first {h : Nat → Hdr} {k a : Nat} {b m : Bool} {L : List Nat} (t : Tiled h k a b m L) :
    ∃ Y, L = a :: Y ∧ (Y ≠ [] → (h a).b = false) ∧ (Y = [] → (h a).b = b ∧ (h a).bix = k ∧ (h a).m = m) := by
  induction t with
  | leaf k a b m h1 h2 h3 h4 => exact ⟨[], rfl, by simp, fun _ => ⟨h3, h2, h4⟩⟩
  | node k a b m L1 L2 t1 t2 ih1 ih2 =>
    obtain ⟨Y, rfl, hy, hy'⟩ := ih1
    refine ⟨Y ++ L2, rfl, fun _ => ?_, fun hh => ?_⟩
    · by_cases hY : Y = []
      · exact (hy' hY).1
      · exact hy hY
    · exact absurd (List.append_eq_nil_iff.1 hh).2 t2.ne_nil

/-- The last cell: the whole, or a right part. -/
theorem Tiled.last {h : Nat → Hdr} {k a : Nat} {b m : Bool} {L : List Nat} (t : Tiled h k a b m L) :
    ∃ X z, L = X ++ [z] ∧ (X ≠ [] → (h z).b = true) ∧ (X = [] → (h z).b = b ∧ (h z).bix = k ∧ (h z).m = m) := by
  induction t with
  | leaf k a b m h1 h2 h3 h4 => exact ⟨[], a, rfl, by simp, fun _ => ⟨h3, h2, h4⟩⟩
  | node k a b m L1 L2 t1 t2 ih1 ih2 =>
    obtain ⟨X, z, rfl, hz, hz'⟩ := ih2
    refine ⟨L1 ++ X, z, by simp, fun _ => ?_, fun hh => ?_⟩
    · by_cases hX : X = []
      · exact (hz' hX).1
      · exact hz hX
    · exact absurd (List.append_eq_nil_iff.1 hh).1 t1.ne_nil

/-- The bits after a split (memory.c:205-211). -/
def splitBits (h : Nat → Hdr) (p q j : Nat) (h' : Nat → Hdr) : Prop :=
  (h' p).bix = j - 1 ∧ (h' p).b = false ∧ (h' p).m = (h p).b ∧
  (h' q).bix = rightIx (j - 2) ∧ (h' q).b = true ∧ (h' q).m = (h p).m

theorem Tiled.split {h h' : Nat → Hdr} {k a : Nat} {b m : Bool} {L : List Nat} (t : Tiled h k a b m L) :
    ∀ (X Y : List Nat) (p q : Nat), L = X ++ p :: Y → 2 ≤ (h p).bix → q = p + buddysize ((h p).bix - 1) →
      splitBits h p q (h p).bix h' →
      (∀ x ∈ X ++ Y, (h' x).bix = (h x).bix ∧ (h' x).b = (h x).b ∧ (h' x).m = (h x).m) →
      Tiled h' k a b m (X ++ p :: q :: Y) := by
  induction t with
  | leaf k a b m h1 h2 h3 h4 =>
    intro X Y p q e hj hq hs hf
    cases X with
    | cons x X => simp at e
    | nil =>
      simp only [List.nil_append, List.cons.injEq] at e
      obtain ⟨rfl, rfl⟩ := e
      obtain ⟨s1, s2, s3, s4, s5, s6⟩ := hs
      obtain ⟨j, hj'⟩ : ∃ j, (h a).bix = j + 2 := ⟨(h a).bix - 2, by omega⟩
      rw [hj'] at s1 s4 hq
      have hk : k = j + 2 := by omega
      rw [hk]
      have := Tiled.node (h := h') j a b m [a] [q]
        (.leaf (j + 1) a false b (by omega) s1 s2 (by rw [s3, h3]))
        (by
          rw [show q = a + buddysize (j + 1) from hq] at s4 s5 s6 ⊢
          exact .leaf _ _ _ _ (by unfold rightIx; split_ifs <;> omega) s4 s5 (by rw [s6, h4]))
      simpa using this
  | node k a b m L1 L2 t1 t2 ih1 ih2 =>
    intro X Y p q e hj hq hs hf
    rcases List.append_eq_append_iff.1 e with ⟨C, rfl, e2⟩ | ⟨C, rfl, e2⟩
    · have := ih2 C Y p q e2 hj hq hs (fun x hx => hf x (by
        rcases List.mem_append.1 hx with h | h <;> simp [h]))
      have t1' := t1.frame (h' := h') fun x hx => hf x (by simp [hx])
      simpa using Tiled.node k a b m _ _ t1' this
    · cases C with
      | nil =>
        simp only [List.nil_append, List.append_nil] at e2 ih1 ⊢
        subst e2
        have := ih2 [] Y p q rfl hj hq hs (fun x hx => hf x (by simp at hx ⊢; simp [hx]))
        have t1' := t1.frame (h' := h') fun x hx => hf x (by simp at hx ⊢; simp [hx])
        simpa using Tiled.node k a b m _ _ t1' this
      | cons c C =>
        simp only [List.cons_append, List.cons.injEq] at e2
        obtain ⟨rfl, rfl⟩ := e2
        have := ih1 X C p q rfl hj hq hs (fun x hx => hf x (by
          rcases List.mem_append.1 hx with h | h <;> simp [h]))
        have t2' := t2.frame (h' := h') fun x hx => hf x (by simp [hx])
        simpa using Tiled.node k a b m _ _ this t2'

/-- Two neighbours with the bits 0 and 1 are the two parts of one cell. -/
theorem Tiled.merge {h h' : Nat → Hdr} {k a : Nat} {b m : Bool} {L : List Nat} (t : Tiled h k a b m L) :
    ∀ (X Y : List Nat) (p q : Nat), L = X ++ p :: q :: Y → (h p).b = false → (h q).b = true →
      (h' p).bix = (h p).bix + 1 → (h' p).b = (h p).m → (h' p).m = (h q).m →
      (∀ x ∈ X ++ Y, (h' x).bix = (h x).bix ∧ (h' x).b = (h x).b ∧ (h' x).m = (h x).m) →
      Tiled h' k a b m (X ++ p :: Y) ∧ (h p).bix < k ∧
        (h q).bix = rightIx ((h p).bix - 1) := by
  induction t with
  | leaf k a b m h1 h2 h3 h4 =>
    intro X Y p q e
    have := congrArg List.length e
    simp at this
    omega
  | node k a b m L1 L2 t1 t2 ih1 ih2 =>
    intro X Y p q e hp hq e1 e2 e3 hf
    rcases List.append_eq_append_iff.1 e with ⟨C, rfl, e4⟩ | ⟨C, rfl, e4⟩
    · have := ih2 C Y p q e4 hp hq e1 e2 e3 (fun x hx => hf x (by
        rcases List.mem_append.1 hx with h | h <;> simp [h]))
      have t1' := t1.frame (h' := h') fun x hx => hf x (by simp [hx])
      have hr : rightIx k ≤ k + 1 := by unfold rightIx; split_ifs <;> omega
      exact ⟨by simpa using Tiled.node k a b m _ _ t1' this.1, by omega, this.2.2⟩
    · cases C with
      | nil =>
        simp only [List.nil_append, List.append_nil] at e4 ih1 ⊢
        subst e4
        have := ih2 [] Y p q rfl hp hq e1 e2 e3 (fun x hx => hf x (by simp at hx ⊢; simp [hx]))
        have t1' := t1.frame (h' := h') fun x hx => hf x (by simp at hx ⊢; simp [hx])
        have hr : rightIx k ≤ k + 1 := by unfold rightIx; split_ifs <;> omega
        exact ⟨by simpa using Tiled.node k a b m _ _ t1' this.1, by omega, this.2.2⟩
      | cons c C =>
        simp only [List.cons_append, List.cons.injEq] at e4
        obtain ⟨rfl, e4⟩ := e4
        cases C with
        | nil =>
          simp only [List.nil_append] at e4
          subst e4
          -- p is the last cell of the left part, q the first of the right one
          obtain ⟨X', z, eX, l1, l2⟩ := t1.last
          obtain ⟨Y', eY, f1, f2⟩ := t2.first
          have hz : X' = X ∧ z = p := by
            have := List.append_inj' eX (by simp)
            exact ⟨this.1.symm, by simpa using this.2.symm⟩
          obtain ⟨rfl, rfl⟩ := hz
          simp only [List.cons.injEq] at eY
          obtain ⟨rfl, rfl⟩ := eY
          have hX : X' = [] := by
            by_contra hX
            rw [l1 hX] at hp
            exact absurd hp (by decide)
          have hY : Y = [] := by
            by_contra hY
            rw [f1 hY] at hq
            exact absurd hq (by decide)
          subst hX hY
          obtain ⟨g1, g2, g3⟩ := l2 rfl
          obtain ⟨g4, g5, g6⟩ := f2 rfl
          obtain ⟨Y'', ea, _⟩ := t1.first
          simp only [List.nil_append, List.cons.injEq] at ea
          obtain ⟨rfl, _⟩ := ea
          refine ⟨.leaf _ _ _ _ (by omega) (by omega) (by rw [e2, g3]) (by rw [e3, g6]), by omega, ?_⟩
          rw [g5, g2]; rfl
        | cons d C =>
          simp only [List.cons_append, List.cons.injEq] at e4
          obtain ⟨rfl, rfl⟩ := e4
          have := ih1 X C p q rfl hp hq e1 e2 e3 (fun x hx => hf x (by
            rcases List.mem_append.1 hx with h | h <;> simp [h]))
          have t2' := t2.frame (h' := h') fun x hx => hf x (by simp [hx])
          exact ⟨by simpa using Tiled.node k a b m _ _ this.1 t2', by omega, this.2.2⟩

end Eus.Mem
