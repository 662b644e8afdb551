import Verif.Crd.Spec
import Mathlib.Tactic.Group
set_option autoImplicit false
set_option linter.unusedSectionVars false
/-
Invariant of trees of cascaded-coords: an object not marked as changed holds its world coordinates, and what is attached to a changed object is changed.
-/
namespace Eus.Crd

variable {G : Type}

/-! ### Changed flags -/

/-- h' is h with more flags; below a new flag everything is flagged. -/
structure Flagged (h h' : Heap G) : Prop where
  rest : ∀ x, h'.node x = { h.node x with changed := (h'.node x).changed }
  val : h'.val = h.val
  next : h'.next = h.next
  mono : ∀ x, (h.node x).changed = true → (h'.node x).changed = true
  kids : ∀ p, (h'.node p).changed = true → (h.node p).changed = true ∨ ∀ c ∈ (h.node p).desc, (h'.node c).changed = true

theorem Flagged.refl (h : Heap G) : Flagged h h := ⟨fun _ => rfl, rfl, rfl, fun _ => id, fun _ => Or.inl⟩

theorem Flagged.desc {h h' : Heap G} (a : Flagged h h') (x : Nat) : (h'.node x).desc = (h.node x).desc := by rw [a.rest]
theorem Flagged.parent {h h' : Heap G} (a : Flagged h h') (x : Nat) : (h'.node x).parent = (h.node x).parent := by rw [a.rest]
theorem Flagged.cell {h h' : Heap G} (a : Flagged h h') (x : Nat) : (h'.node x).cell = (h.node x).cell := by rw [a.rest]
theorem Flagged.world {h h' : Heap G} (a : Flagged h h') (x : Nat) : (h'.node x).world = (h.node x).world := by rw [a.rest]
theorem Flagged.loc {h h' : Heap G} (a : Flagged h h') (x : Nat) : h'.loc x = h.loc x := by
  unfold Heap.loc; rw [a.cell, a.val]

theorem Flagged.trans {h1 h2 h3 : Heap G} (a : Flagged h1 h2) (b : Flagged h2 h3) : Flagged h1 h3 where
  rest x := by rw [b.rest, a.rest]
  val := b.val.trans a.val
  next := b.next.trans a.next
  mono x e := b.mono x (a.mono x e)
  kids p e := by
    rcases b.kids p e with e | e
    · rcases a.kids p e with e | e
      · exact .inl e
      · exact .inr fun c i => b.mono c (e c i)
    · exact .inr fun c i => e c (by rw [a.desc]; exact i)

theorem fold_flagged {d : Nat → Nat} {k b : Nat}
    (ih : ∀ (h : Heap G) (n : Nat), (∀ p, ∀ c ∈ (h.node p).desc, d c < d p) → d n < k →
      ∃ h', changedF k h n = some h' ∧ Flagged h h' ∧ (h'.node n).changed = true)
    (bk : b ≤ k) : ∀ (l : List Nat) (h : Heap G), (∀ p, ∀ c ∈ (h.node p).desc, d c < d p) → (∀ c ∈ l, d c < b) →
      ∃ h', l.foldlM (changedF k) h = some h' ∧ Flagged h h' ∧ ∀ c ∈ l, (h'.node c).changed = true
  | [], h, _, _ => ⟨h, rfl, .refl h, fun _ i => by cases i⟩
  | c :: l, h, r, m => by
    obtain ⟨h1, e1, f1, c1⟩ := ih h c r (Nat.lt_of_lt_of_le (m c (by simp)) bk)
    obtain ⟨h2, e2, f2, c2⟩ := fold_flagged ih bk l h1 (fun p c i => r p c (by rw [← f1.desc]; exact i)) (fun x i => m x (by simp [i]))
    refine ⟨h2, by rw [List.foldlM_cons, e1]; exact e2, f1.trans f2, fun x i => ?_⟩
    rcases List.mem_cons.1 i with rfl | i
    · exact f2.mono _ c1
    · exact c2 x i

theorem changed_spec {d : Nat → Nat} : ∀ (k : Nat) (h : Heap G) (n : Nat), (∀ p, ∀ c ∈ (h.node p).desc, d c < d p) → d n < k →
    ∃ h', changedF k h n = some h' ∧ Flagged h h' ∧ (h'.node n).changed = true
  | 0, _, _, _, l => absurd l (by omega)
  | k + 1, h, n, r, l => by
    by_cases e : (h.node n).changed = true
    · exact ⟨h, by rw [changedF, if_pos e], .refl h, e⟩
    · let h0 := h.setNode n { h.node n with changed := true }
      have dd : ∀ x, (h0.node x).desc = (h.node x).desc := fun x => by
        simp only [h0, Heap.setNode]; split
        · rename_i q; rw [q]
        · rfl
      obtain ⟨h1, e1, f1, c1⟩ := fold_flagged (b := d n) (changed_spec (d := d) k) (by omega) (h.node n).desc h0
        (fun p c i => r p c (by rw [← dd]; exact i)) (fun c i => r n c i)
      have f0 : (h0.node n).changed = true := by simp [h0, Heap.setNode]
      refine ⟨h1, by rw [changedF, if_neg e]; exact e1, ⟨fun x => ?_, f1.val, f1.next, fun x q => f1.mono x ?_, fun p q => ?_⟩, f1.mono _ f0⟩
      · rw [f1.rest]; simp only [h0, Heap.setNode]; split
        · rename_i q; rw [q]
        · rfl
      · simp only [h0, Heap.setNode]; split
        · rfl
        · exact q
      · by_cases pn : p = n
        · subst pn; exact .inr c1
        · rcases f1.kids p q with q | q
          · left; simpa [h0, Heap.setNode, pn] using q
          · right; rw [dd] at q; exact q

/-! ### World coordinates -/

variable [Group G]

/-- The invariant, without what is said about the lists of descendants.  f gets smaller from an object to its parent. -/
structure Inv0 (h : Heap G) (v : View G) (f : Nat → Nat) : Prop where
  par : ∀ n, (h.node n).parent = v.parent n
  inj : ∀ n m, (h.node n).cell = (h.node m).cell → n = m
  fresh : ∀ n i, (h.node n).cell = .later i → i < h.next
  up : ∀ c p, v.parent c = some p → f p < f c
  eqn : ∀ n, v.world n = v.up n * h.loc n
  closed : ∀ c p, v.parent c = some p → (h.node p).changed = true → (h.node c).changed = true
  clean : ∀ n, (h.node n).changed = false → (h.node n).world = v.world n

/-- Descendants are the objects that have this one as parent; d gets smaller from an object to its descendants. -/
structure Inv (h : Heap G) (v : View G) (f d : Nat → Nat) : Prop extends Inv0 h v f where
  desc : ∀ p c, c ∈ (h.node p).desc ↔ v.parent c = some p
  dn : ∀ c p, v.parent c = some p → d c < d p

/-- h' is h with other caches and flags. -/
structure Same (h h' : Heap G) : Prop where
  cell : ∀ x, (h'.node x).cell = (h.node x).cell
  parent : ∀ x, (h'.node x).parent = (h.node x).parent
  desc : ∀ x, (h'.node x).desc = (h.node x).desc
  val : h'.val = h.val
  next : h'.next = h.next

theorem Same.refl (h : Heap G) : Same h h := ⟨fun _ => rfl, fun _ => rfl, fun _ => rfl, rfl, rfl⟩
theorem Same.loc {h h' : Heap G} (s : Same h h') (x : Nat) : h'.loc x = h.loc x := by unfold Heap.loc; rw [s.cell, s.val]
theorem Same.trans {a b c : Heap G} (s : Same a b) (t : Same b c) : Same a c :=
  ⟨fun x => (t.cell x).trans (s.cell x), fun x => (t.parent x).trans (s.parent x), fun x => (t.desc x).trans (s.desc x),
   t.val.trans s.val, t.next.trans s.next⟩

/-- Storing the world coordinates in an object whose parent is not changed. -/
theorem store_world {h : Heap G} {v : View G} {f : Nat → Nat} (i : Inv0 h v f) (n : Nat) (g : G) (e : g = v.world n)
    (pc : ∀ p, v.parent n = some p → (h.node p).changed = false) :
    Inv0 (h.setNode n { h.node n with world := g, changed := false }) v f ∧
    Same h (h.setNode n { h.node n with world := g, changed := false }) ∧
    ((h.setNode n { h.node n with world := g, changed := false }).node n).changed = false ∧
    ∀ x, (h.node x).changed = false → ((h.setNode n { h.node n with world := g, changed := false }).node x).changed = false := by
  have s : Same h (h.setNode n { h.node n with world := g, changed := false }) := by
    refine ⟨fun x => ?_, fun x => ?_, fun x => ?_, rfl, rfl⟩ <;>
    · simp only [Heap.setNode]; split
      · rename_i q; rw [q]
      · rfl
  have ch : ∀ x, ((h.setNode n { h.node n with world := g, changed := false }).node x).changed = if x = n then false else (h.node x).changed :=
    fun x => by simp only [Heap.setNode]; split <;> rfl
  refine ⟨⟨fun x => by rw [s.parent]; exact i.par x, fun x y => by rw [s.cell, s.cell]; exact i.inj x y,
    fun x y => by rw [s.cell, s.next]; exact i.fresh x y, i.up, fun x => by rw [s.loc]; exact i.eqn x, fun c p e q => ?_, fun x q => ?_⟩,
    s, by rw [ch, if_pos rfl], fun x q => by rw [ch]; split <;> simp [q]⟩
  · rw [ch] at q ⊢
    split at q
    · cases q
    · rename_i pn
      split
      · rename_i cn
        rw [cn] at e
        rw [pc p e] at q; cases q
      · exact i.closed c p e q
  · rw [ch] at q
    by_cases xn : x = n
    · subst xn; simp [Heap.setNode, e]
    · rw [if_neg xn] at q; simpa [Heap.setNode, xn] using i.clean x q

theorem world_spec {v : View G} {f : Nat → Nat} : ∀ (k : Nat) (h : Heap G) (n : Nat), Inv0 h v f → f n < k →
    ∃ h', worldF k h n = some (v.world n, h') ∧ Inv0 h' v f ∧ Same h h' ∧ (h'.node n).changed = false ∧
      ∀ x, (h.node x).changed = false → (h'.node x).changed = false
  | 0, _, _, _, l => absurd l (by omega)
  | k + 1, h, n, i, l => by
    rw [worldF]
    by_cases e : (h.node n).changed = true
    · rw [if_pos e]
      cases pe : v.parent n with
      | none =>
        have w : h.loc n = v.world n := by rw [i.eqn n, View.up, pe]; simp
        have := store_world i n (h.loc n) w (fun p q => by rw [pe] at q; cases q)
        rw [i.par n, pe]
        exact ⟨_, by rw [← w], this.1, this.2.1, this.2.2⟩
      | some p =>
        obtain ⟨h1, e1, i1, s1, c1, m1⟩ := world_spec k h p i (by have := i.up n p pe; omega)
        have w : v.world p * h1.loc n = v.world n := by rw [i1.eqn n, View.up, pe]
        have := store_world i1 n (v.world p * h1.loc n) w (fun p' q => by rw [pe] at q; injection q with q; rw [← q]; exact c1)
        rw [i.par n, pe]
        simp only [e1, Option.bind_some]
        refine ⟨_, by rw [w], by rw [← w]; exact this.1, by rw [← w]; exact s1.trans this.2.1, by rw [← w]; exact this.2.2.1, fun x q => by rw [← w]; exact this.2.2.2 x (m1 x q)⟩
    · have e : (h.node n).changed = false := by simpa using e
      rw [e, if_neg (by simp)]
      exact ⟨h, by rw [i.clean n e], i, .refl h, e, fun _ => id⟩

theorem Inv.same {h h' : Heap G} {v : View G} {f d : Nat → Nat} (i : Inv h v f d) (j : Inv0 h' v f) (s : Same h h') : Inv h' v f d :=
  { j with desc := fun p c => by rw [s.desc]; exact i.desc p c, dn := i.dn }

/-- `:worldcoords` -/
theorem world_inv {v : View G} {f d : Nat → Nat} {h : Heap G} (i : Inv h v f d) (n : Nat) {k : Nat} (l : f n < k) :
    ∃ h', worldF k h n = some (v.world n, h') ∧ Inv h' v f d ∧ Same h h' ∧ (h'.node n).changed = false ∧
      ∀ x, (h.node x).changed = false → (h'.node x).changed = false := by
  obtain ⟨h', e, j, s, c⟩ := world_spec k h n i.toInv0 l
  exact ⟨h', e, i.same j s, s, c⟩

/-- `:parentcoords` -/
theorem parentcoords_inv {v : View G} {f d : Nat → Nat} {h : Heap G} (i : Inv h v f d) (n : Nat) {k : Nat} (l : f n < k) :
    ∃ h', parentcoords k h n = some (v.up n, h') ∧ Inv h' v f d ∧ Same h h' ∧
      ∀ x, (h.node x).changed = false → (h'.node x).changed = false := by
  unfold parentcoords
  rw [i.par]
  cases e : v.parent n with
  | none => exact ⟨h, by simp [View.up, e], i, .refl h, fun _ => id⟩
  | some p =>
    obtain ⟨h', e', j, s, _, m⟩ := world_inv i p (k := k) (by have := i.up n p e; omega)
    exact ⟨h', by simp [View.up, e, e'], j, s, m⟩

/-! ### Moving -/

theorem Below.trans {par : Nat → Option Nat} {a b c : Nat} (x : Below par a b) (y : Below par b c) : Below par a c := by
  induction y with
  | refl => exact x
  | step e _ ih => exact .step e ih

theorem Below.rank {par : Nat → Option Nat} {f : Nat → Nat} (up : ∀ c p, par c = some p → f p < f c) {n x : Nat} (b : Below par n x) : f n ≤ f x := by
  induction b with
  | refl => exact Nat.le_refl _
  | step e _ ih => have := up _ _ e; omega

/-- The parent of x is below n if x is, and x is not n. -/
theorem Below.parent {par : Nat → Option Nat} {n x y : Nat} (b : Below par n x) (ne : x ≠ n) (e : par x = some y) : Below par n y := by
  cases b with
  | refl => exact absurd rfl ne
  | step e' b => rw [e] at e'; injection e' with e'; rw [e']; exact b

theorem parent_not_below {par : Nat → Option Nat} {f : Nat → Nat} (up : ∀ c p, par c = some p → f p < f c) {n y : Nat} (e : par n = some y) : ¬ Below par n y :=
  fun b => by have := b.rank up; have := up n y e; omega

/-- After a move, world coordinates are still those of the parent times the object's own. -/
theorem moved_eqn {v v' : View G} {f : Nat → Nat} (up : ∀ c p, v.parent c = some p → f p < f c) {n : Nat} {loc : Nat → G}
    (m : Moved v v' n (v.up n * loc n)) (eqn : ∀ x, x ≠ n → v.world x = v.up x * loc x) (x : Nat) : v'.world x = v'.up x * loc x := by
  obtain ⟨mp, mb, mn⟩ := m
  by_cases xn : x = n
  · subst xn
    rw [mb x .refl, inv_mul_cancel_right]
    congr 1
    unfold View.up; rw [mp]
    cases e : v.parent x with
    | none => rfl
    | some p => exact (mn p (parent_not_below up e)).symm
  · by_cases b : Below v.parent n x
    · have : ∃ y, v.parent x = some y := by
        cases b with
        | refl => exact absurd rfl xn
        | step e _ => exact ⟨_, e⟩
      obtain ⟨y, e⟩ := this
      rw [mb x b, eqn x xn]
      unfold View.up; rw [mp]
      simp only [e]
      rw [mb y (b.parent xn e)]
      simp only [mul_assoc]
      rfl
    · rw [mn x b, eqn x xn]
      congr 1
      unfold View.up; rw [mp]
      cases e : v.parent x with
      | none => rfl
      | some p => exact (mn p fun q => b (.step e q)).symm

/-- `:changed` after the coordinates of n have been set, which may have just got a parent that does not know it yet. -/
theorem finish {h : Heap G} {v v' : View G} {f d : Nat → Nat} {n k : Nat}
    (par : ∀ x, (h.node x).parent = v.parent x)
    (inj : ∀ x y, (h.node x).cell = (h.node y).cell → x = y)
    (fresh : ∀ x i, (h.node x).cell = .later i → i < h.next)
    (up : ∀ c p, v.parent c = some p → f p < f c)
    (dn : ∀ p, ∀ c ∈ (h.node p).desc, d c < d p) (dk : d n < k)
    (eqn : ∀ x, x ≠ n → v.world x = v.up x * h.loc x)
    (desc : ∀ c p, c ≠ n → v.parent c = some p → c ∈ (h.node p).desc)
    (closed : ∀ c p, c ≠ n → v.parent c = some p → (h.node p).changed = true → (h.node c).changed = true)
    (clean : ∀ x, (h.node x).changed = false → (h.node x).world = v.world x)
    (m : Moved v v' n (v.up n * h.loc n)) :
    ∃ h', changedF k h n = some h' ∧ Inv0 h' v' f ∧ Flagged h h' ∧ (h'.node n).changed = true := by
  obtain ⟨h', e, fl, cn⟩ := changed_spec (d := d) k h n dn dk
  have cl : ∀ c p, v.parent c = some p → (h'.node p).changed = true → (h'.node c).changed = true := fun c p e q => by
    by_cases c' : c = n
    · rw [c']; exact cn
    · rcases fl.kids p q with q | q
      · exact fl.mono c (closed c p c' e q)
      · exact q c (desc c p c' e)
  have bl : ∀ x, Below v.parent n x → (h'.node x).changed = true := fun x b => by
    induction b with
    | refl => exact cn
    | step e _ ih => exact cl _ _ e ih
  refine ⟨h', e, ⟨fun x => by rw [fl.parent, m.1]; exact par x, fun x y => by rw [fl.cell, fl.cell]; exact inj x y,
    fun x i => by rw [fl.cell, fl.next]; exact fresh x i, by rw [m.1]; exact up,
    fun x => by rw [fl.loc]; exact moved_eqn up m eqn x, by rw [m.1]; exact cl, fun x q => ?_⟩, fl, cn⟩
  have nb : ¬ Below v.parent n x := fun b => by rw [bl x b] at q; cases q
  rw [m.2.2 x nb, fl.world]
  refine clean x ?_
  cases z : (h.node x).changed with
  | false => rfl
  | true => rw [fl.mono x z] at q; cases q

/-- h2 is h except for the rotation and position of n. -/
structure Set (h h2 : Heap G) (n : Nat) (g : G) : Prop where
  parent : ∀ x, (h2.node x).parent = (h.node x).parent
  desc : ∀ x, (h2.node x).desc = (h.node x).desc
  world : ∀ x, (h2.node x).world = (h.node x).world
  changed : ∀ x, (h2.node x).changed = (h.node x).changed
  inj : ∀ x y, (h2.node x).cell = (h2.node y).cell → x = y
  fresh : ∀ x i, (h2.node x).cell = .later i → i < h2.next
  loc : h2.loc n = g
  other : ∀ x, x ≠ n → h2.loc x = h.loc x

theorem set_loc {h : Heap G} {v : View G} {f : Nat → Nat} (i : Inv0 h v f) (n : Nat) (g : G) : Set h (h.setLoc n g) n g where
  parent _ := rfl
  desc _ := rfl
  world _ := rfl
  changed _ := rfl
  inj := i.inj
  fresh := i.fresh
  loc := by simp [Heap.loc, Heap.setLoc]
  other x ne := by simp only [Heap.loc, Heap.setLoc]; rw [if_neg fun e => ne (i.inj _ _ e)]

/-- New storage for rotation and position. -/
def Heap.newCell (h : Heap G) (n : Nat) (g : G) : Heap G :=
  { (h.setNode n { h.node n with cell := .later h.next }) with val := fun c => if c = .later h.next then g else h.val c, next := h.next + 1 }

theorem newcoords_eq (k : Nat) (h : Heap G) (n : Nat) (g : G) : newcoords k h n g = changedF k (h.newCell n g) n := rfl

theorem newCell_cell (h : Heap G) (n : Nat) (g : G) (x : Nat) : ((h.newCell n g).node x).cell = if x = n then .later h.next else (h.node x).cell := by
  simp only [Heap.newCell, Heap.setNode]; split <;> rfl

theorem set_new {h : Heap G} (inj : ∀ x y, (h.node x).cell = (h.node y).cell → x = y)
    (fresh : ∀ x i, (h.node x).cell = .later i → i < h.next) (n : Nat) (g : G) : Set h (h.newCell n g) n g where
  parent x := by simp only [Heap.newCell, Heap.setNode]; split <;> simp_all
  desc x := by simp only [Heap.newCell, Heap.setNode]; split <;> simp_all
  world x := by simp only [Heap.newCell, Heap.setNode]; split <;> simp_all
  changed x := by simp only [Heap.newCell, Heap.setNode]; split <;> simp_all
  inj x y e := by
    rw [newCell_cell, newCell_cell] at e
    split at e <;> split at e
    · simp_all
    · exact absurd (fresh y _ e.symm) (by omega)
    · exact absurd (fresh x _ e) (by omega)
    · exact inj x y e
  fresh x i e := by
    rw [newCell_cell] at e
    show i < h.next + 1
    split at e
    · injection e; omega
    · have := fresh x i e; omega
  loc := by unfold Heap.loc; rw [newCell_cell]; simp [Heap.newCell]
  other x ne := by
    unfold Heap.loc; rw [newCell_cell, if_neg ne]
    simp only [Heap.newCell]
    rw [if_neg fun e => by have := fresh x _ e; omega]

/-- Coordinates of n are set and `:changed` is sent. -/
theorem move_inv {h h2 : Heap G} {v v' : View G} {f d : Nat → Nat} {n k : Nat} {g : G} (i : Inv h v f d) (s : Set h h2 n g) (dk : d n < k)
    (m : Moved v v' n (v.up n * g)) : ∃ h', changedF k h2 n = some h' ∧ Inv h' v' f d := by
  obtain ⟨h', e, j, fl, _⟩ := finish (h := h2) (v := v) (v' := v') (f := f) (d := d) (n := n) (k := k)
    (fun x => by rw [s.parent]; exact i.par x) s.inj s.fresh i.up
    (fun p c q => i.dn c p ((i.desc p c).1 (by rw [← s.desc]; exact q))) dk
    (fun x ne => by rw [s.other x ne]; exact i.eqn x)
    (fun c p _ e => by rw [s.desc]; exact (i.desc p c).2 e)
    (fun c p _ e q => by rw [s.changed] at q ⊢; exact i.closed c p e q)
    (fun x q => by rw [s.changed] at q; rw [s.world]; exact i.clean x q)
    (by rw [s.loc]; exact m)
  exact ⟨h', e, { j with
    desc := fun p c => by rw [fl.desc, s.desc, m.1]; exact i.desc p c
    dn := by rw [m.1]; exact i.dn }⟩

theorem moved_refl (v : View G) (n : Nat) : Moved v v n (v.world n) :=
  ⟨rfl, fun x _ => by simp, fun _ _ => rfl⟩

end Eus.Crd
