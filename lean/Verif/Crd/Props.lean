import Verif.Crd.RigidOps
import Verif.Mat.Props
import Mathlib.GroupTheory.Perm.Fin
import Mathlib.Algebra.Group.TypeTags.Basic
import Mathlib.Algebra.Group.Int.Defs
set_option autoImplicit false
set_option linter.unusedSectionVars false
/-
C110 to C115: trees of coordinate systems.
-/
namespace Eus.Crd

/-! ### C110 world coordinates -/

section
variable {G : Type} [Group G]

/-- C110, partial: for every history of attaching, detaching, moving and asking (that attaches nothing to itself, and moves nothing with respect to its own descendants), what is returned is what the specification says, in which there are no caches; and so is every world coordinates asked for afterwards.  Missing: operations that store coordinates without `:changed`, or share them (below). -/
theorem C110_world_partial (at_ : Nat → G) {ops : List (Op G)} {rs : List (Option G)} {v : View G}
    (r : Runs ⟨fun _ => none, at_⟩ ops rs v) (x : Nat) :
    ∃ k0, ∀ k, k0 ≤ k → ∃ h h', run k (init at_) ops = some (rs, h) ∧ worldF k h x = some (v.world x, h') ∧ (h.node x).parent = v.parent x := by
  obtain ⟨f, d, k0, st⟩ := runs_inv r (fun _ => 0) (fun _ => 0)
  refine ⟨k0 + f x + 1, fun k kk => ?_⟩
  obtain ⟨h, e, i⟩ := st k (by omega) (init at_) (init_inv at_)
  obtain ⟨h', e', _⟩ := world_inv i x (k := k) (by omega)
  exact ⟨h, h', e, e', i.par x⟩

/-- C110: the specification says what happens in every case, and says it once. -/
theorem C110_spec (v : View G) (op : Op G) : ∃ q : Option G × View G, Does v op q.1 q.2 ∧ ∀ r v', Does v op r v' → (r, v') = q := by
  classical
  have mv : ∀ (u : View G) (n : Nat) (g : G), ∃ u', Moved u u' n g ∧ ∀ u2, Moved u u2 n g → u2 = u' := fun u n g => by
    refine ⟨⟨u.parent, fun x => if Below u.parent n x then g * (u.world n)⁻¹ * u.world x else u.world x⟩,
      ⟨rfl, fun x b => if_pos b, fun x b => if_neg b⟩, fun u2 ⟨m1, m2, m3⟩ => ?_⟩
    cases u2 with
    | mk p w =>
      simp only at m1 m2 m3
      subst m1
      congr
      funext x
      by_cases b : Below u.parent n x
      · rw [if_pos b, m2 x b]
      · rw [if_neg b, m3 x b]
  have one : ∀ (u : View G) (n : Nat) (g : G), ∃ q : Option G × View G, (q.1 = none ∧ Moved u q.2 n g) ∧
      ∀ r v', (r = none ∧ Moved u v' n g) → (r, v') = q := fun u n g => by
    obtain ⟨u', m, un⟩ := mv u n g
    exact ⟨(none, u'), ⟨rfl, m⟩, fun r v' ⟨e, m'⟩ => by rw [e, un v' m']⟩
  cases op with
  | world n => exact ⟨(_, _), ⟨rfl, rfl⟩, fun r v' ⟨e1, e2⟩ => by rw [e1, e2]⟩
  | transformation n m w => exact ⟨(_, _), ⟨rfl, rfl⟩, fun r v' ⟨e1, e2⟩ => by rw [e1, e2]⟩
  | transform n g w => exact one v n _
  | moveTo n g w => exact one v n _
  | dissoc p c =>
    by_cases e : v.parent c = some p
    · exact ⟨(none, ⟨fun x => if x = c then none else v.parent x, v.world⟩), ⟨rfl, by rw [if_pos e]⟩, fun r v' ⟨e1, e2⟩ => by rw [if_pos e] at e2; rw [e1, e2]⟩
    · exact ⟨(none, v), ⟨rfl, by rw [if_neg e]⟩, fun r v' ⟨e1, e2⟩ => by rw [if_neg e] at e2; rw [e1, e2]⟩
  | assoc p c at_ =>
    by_cases e : v.parent c = some p
    · exact ⟨(none, v), ⟨rfl, by rw [if_pos e]⟩, fun r v' ⟨e1, e2⟩ => by rw [if_pos e] at e2; rw [e1, e2]⟩
    · cases at_ with
      | none => exact ⟨(none, ⟨fun x => if x = c then some p else v.parent x, v.world⟩), ⟨rfl, by rw [if_neg e]⟩, fun r v' ⟨e1, e2⟩ => by rw [if_neg e] at e2; rw [e1, e2]⟩
      | some g =>
        obtain ⟨q, h1, h2⟩ := one ⟨fun x => if x = c then some p else v.parent x, v.world⟩ c (v.world p * g)
        exact ⟨q, ⟨h1.1, by rw [if_neg e]; exact h1.2⟩, fun r v' ⟨e1, e2⟩ => h2 r v' ⟨e1, by rw [if_neg e] at e2; exact e2⟩⟩

/-- Object 1 attached to object 0. -/
def pair : Nat → Option Nat := fun x => if x = 1 then some 0 else none

theorem below_pair (x : Nat) : Below pair 0 x ↔ x = 0 ∨ x = 1 := by
  constructor
  · intro b
    cases b with
    | refl => exact .inl rfl
    | step e _ => unfold pair at e; split at e
                  · exact .inr (by assumption)
                  · cases e
  · rintro (rfl | rfl)
    · exact .refl
    · exact .step (y := 0) (by simp [pair]) .refl

/-- Objects 0 and 1 at places a and b; 1 is attached to 0, 0 is moved by g in the world: then 1 is at g * b. -/
theorem pair_runs (at_ : Nat → G) (g : G) : Runs ⟨fun _ => none, at_⟩ [.assoc 0 1 none, .transform 0 g .world, .world 1] [none, none, some (g * at_ 1)]
    ⟨pair, fun x => if x = 0 ∨ x = 1 then g * at_ x else at_ x⟩ := by
  refine .cons (v1 := ⟨pair, at_⟩) ?_ ⟨rfl, ?_⟩ (.cons (v1 := ⟨pair, fun x => if x = 0 ∨ x = 1 then g * at_ x else at_ x⟩) trivial ⟨rfl, rfl, fun x b => ?_, fun x b => ?_⟩
    (.cons trivial ⟨by simp, rfl⟩ (.nil _)))
  · intro b; cases b with
    | step e _ => cases e
  · rw [if_neg (by simp)]; rfl
  · simp only [(below_pair x).1 b, if_true, View.wrt]; group
  · simp only [mt (below_pair x).2 b, if_false]

example (a b g : G) : ∃ k0, ∀ k, k0 ≤ k → ∃ h h', run k (init fun n => if n = 0 then a else b) [.assoc 0 1 none, .transform 0 g .world, .world 1] = some ([none, none, some (g * b)], h) ∧
    worldF k h 0 = some (g * a, h') := by
  obtain ⟨k0, st⟩ := C110_world_partial _ (pair_runs (fun n => if n = 0 then a else b) g) 0
  refine ⟨k0, fun k kk => ?_⟩
  obtain ⟨h, h', e, e', _⟩ := st k kk
  exact ⟨h, h', e, e'⟩

end

/-- Places along a line. -/
abbrev Line := Multiplicative Int
def pt (x : Int) : Line := Multiplicative.ofAdd x

/-- C110 fails for `:replace-coords` (and `:4X4`, and `:copy-coords` into the object): object 0 is at 5, world coordinates are asked for, 7 is stored; the world coordinates are still 5. -/
theorem C110_replace_wrong : ∃ h : Heap Line, (run 3 (init fun _ => pt 5) [.world 0]).map Prod.fst = some [some (pt 5)] ∧
    (run 3 (init fun _ => pt 5) [.world 0]).map Prod.snd = some h ∧ (worldF 3 (replaceCoords h 0 (pt 7)) 0).map Prod.fst = some (pt 5) :=
  ⟨_, by decide +kernel, rfl, by decide +kernel⟩

/-- C110 fails after `(send a :newcoords b)`: rot and pos are shared, and moving b by 1 moves a too, though neither is attached to the other. -/
theorem C110_shared_wrong : ∃ h h' : Heap Line, newcoordsOf 3 (init fun _ => pt 5) 0 1 = some h ∧
    transform 3 h 1 (pt 1) .local = some h' ∧ (h'.node 0).parent = none ∧ (h'.node 1).parent = none ∧
    (worldF 3 h 0).map Prod.fst = some (pt 5) ∧ (worldF 3 h' 0).map Prod.fst = some (pt 6) :=
  ⟨_, _, rfl, rfl, rfl, rfl, by decide +kernel, by decide +kernel⟩

section
variable {G : Type} [Group G]

theorem cycle_aux {h : Heap G} (p0 : (h.node 0).parent = some 1) (p1 : (h.node 1).parent = some 0) (c0 : (h.node 0).changed = true)
    (c1 : (h.node 1).changed = true) : ∀ k, worldF k h 0 = none ∧ worldF k h 1 = none
  | 0 => ⟨rfl, rfl⟩
  | k + 1 => by
    obtain ⟨e0, e1⟩ := cycle_aux p0 p1 c0 c1 k
    constructor
    · rw [worldF, if_pos c0, p0]; simp only [e1, Option.bind_none]
    · rw [worldF, if_pos c1, p1]; simp only [e0, Option.bind_none]

end

/-- C110 fails when an object is attached to something attached to it: `:assoc` does that without a word, and then `:worldcoords` never returns. -/
theorem C110_cycle_wrong : ∃ h : Heap Line, (run 9 (init fun _ => pt 0) [.assoc 0 1 none, .assoc 1 0 none]).map Prod.snd = some h ∧ ∀ k, worldF k h 0 = none :=
  ⟨_, rfl, fun k => (cycle_aux (by decide +kernel) (by decide +kernel) (by decide +kernel) (by decide +kernel) k).1⟩

/-- Object n at the n-th of these. -/
def perms : Nat → Equiv.Perm (Fin 3)
  | 0 => Equiv.swap 0 1
  | _ => Equiv.swap 1 2

/-- C110 fails for a move with respect to an object attached to the one moved: 1 is attached to 0, and 2 to 1; 1 is transformed with respect to 2.  Where it gets depends on whether someone asked for the world coordinates of 2 before. -/
theorem C110_descendant_wrong :
    (run 9 (init perms) [.assoc 1 2 none, .assoc 0 1 none, .world 2, .transform 1 (Equiv.swap 0 1) (.node 2), .world 1]).map (fun q => q.1.getLast?) ≠
    (run 9 (init perms) [.assoc 1 2 none, .assoc 0 1 none, .transform 1 (Equiv.swap 0 1) (.node 2), .world 1]).map (fun q => q.1.getLast?) := by
  decide +kernel

/-! ### C111 attaching and detaching move nothing -/

section
variable {G : Type} [Group G]

/-- C111: in any state a program reaches, attaching c to p (which is not attached to c), or detaching it, leaves all objects where they are in the world. -/
theorem C111_attach (at_ : Nat → G) {ops : List (Op G)} {rs : List (Option G)} {v : View G}
    (r : Runs ⟨fun _ => none, at_⟩ ops rs v) (op : Op G) (p c : Nat) (ho : op = .assoc p c none ∧ ¬ Below v.parent c p ∨ op = .dissoc p c) (x : Nat) :
    ∃ k0, ∀ k, k0 ≤ k → ∃ h h1 w h' h1', run k (init at_) ops = some (rs, h) ∧ step k h op = some (none, h1) ∧
      worldF k h x = some (w, h') ∧ worldF k h1 x = some (w, h1') := by
  have al : Allowed v op := by
    rcases ho with ⟨rfl, nb⟩ | rfl
    · exact nb
    · trivial
  obtain ⟨⟨r1, v1⟩, do_, -⟩ := C110_spec v op
  have rn : r1 = none ∧ v1.world = v.world := by
    rcases ho with ⟨rfl, _⟩ | rfl
    · obtain ⟨e1, e2⟩ := do_
      refine ⟨e1, ?_⟩
      split at e2
      · simp only at e2; rw [e2]
      · simp only at e2; rw [e2]
    · obtain ⟨e1, e2⟩ := do_
      refine ⟨e1, ?_⟩
      split at e2
      · simp only at e2; rw [e2]
      · simp only at e2; rw [e2]
  obtain ⟨rfl, we⟩ := rn
  obtain ⟨f, d, k0, st⟩ := runs_inv r (fun _ => 0) (fun _ => 0)
  obtain ⟨f1, d1, k1, st1⟩ := step_inv (f := f) (d := d) al do_
  refine ⟨k0 + k1 + f x + f1 x + 1, fun k kk => ?_⟩
  obtain ⟨h, e, i⟩ := st k (by omega) (init at_) (init_inv at_)
  obtain ⟨h1, e1, i1⟩ := st1 k (by omega) h i
  obtain ⟨h', e', _⟩ := world_inv i x (k := k) (by omega)
  obtain ⟨h1', e1', _⟩ := world_inv i1 x (k := k) (by omega)
  exact ⟨h, h1, _, h', h1', e, e1, e', by rw [e1']; simp only [we]⟩

/-- Detaching 1 from 0 after 0 has been moved. -/
example (at_ : Nat → G) (g : G) (x : Nat) := C111_attach at_ (pair_runs at_ g) (.dissoc 0 1) 0 1 (.inr rfl) x

/-! ### C112 what is attached stays where it is relative to the others -/

/-- C112: in any state a program reaches, moving n (by `:transform` or `:move-to`) leaves y where it was as seen from x, when both are n or attached to it, and when neither is. -/
theorem C112_relative (at_ : Nat → G) {ops : List (Op G)} {rs : List (Option G)} {v : View G}
    (r : Runs ⟨fun _ => none, at_⟩ ops rs v) (n : Nat) (g : G) (w : Wrt G) (op : Op G)
    (ho : op = .transform n g w ∧ (∀ m, w = .node m → m ≠ n → ¬ Below v.parent n m) ∨ op = .moveTo n g w) (x y : Nat)
    (xy : Below v.parent n x ↔ Below v.parent n y) :
    ∃ k0, ∀ k, k0 ≤ k → ∃ h h1 t h' h1', run k (init at_) ops = some (rs, h) ∧ step k h op = some (none, h1) ∧
      transformation k h x y .local = some (t, h') ∧ transformation k h1 x y .local = some (t, h1') := by
  have al : Allowed v op := by
    rcases ho with ⟨rfl, nb⟩ | rfl
    · cases w <;> first | trivial | exact nb _ rfl
    · trivial
  obtain ⟨⟨r1, v1⟩, do_, -⟩ := C110_spec v op
  have mv : r1 = none ∧ ∃ g', Moved v v1 n g' := by
    rcases ho with ⟨rfl, _⟩ | rfl
    · exact ⟨do_.1, _, do_.2⟩
    · exact ⟨do_.1, _, do_.2⟩
  obtain ⟨rfl, g', mv⟩ := mv
  have we : (v1.world x)⁻¹ * (v1.world y * (v1.world x)⁻¹) * v1.world x = (v.world x)⁻¹ * (v.world y * (v.world x)⁻¹) * v.world x := by
    by_cases b : Below v.parent n x
    · rw [mv.2.1 x b, mv.2.1 y (xy.1 b)]; group
    · rw [mv.2.2 x b, mv.2.2 y (mt xy.2 b)]
  obtain ⟨f, d, k0, st⟩ := runs_inv r (fun _ => 0) (fun _ => 0)
  obtain ⟨f1, d1, k1, st1⟩ := step_inv (f := f) (d := d) al do_
  refine ⟨k0 + k1 + f x + f1 x + f y + f1 y + 1, fun k kk => ?_⟩
  obtain ⟨h, e, i⟩ := st k (by omega) (init at_) (init_inv at_)
  obtain ⟨h1, e1, i1⟩ := st1 k (by omega) h i
  obtain ⟨h', e', _⟩ := transformation_inv (w := .local) i (n := x) (m := y) (k := k) (by omega) (by omega) (by simp)
  obtain ⟨h1', e1', _⟩ := transformation_inv (w := .local) i1 (n := x) (m := y) (k := k) (by omega) (by omega) (by simp)
  exact ⟨h, h1, _, h', h1', e, e1, e', by rw [e1']; simp only [View.wrt]; rw [we]⟩

example (at_ : Nat → G) (g : G) := C112_relative at_ (pair_runs at_ g) 0 g .local (.transform 0 g .local) (.inl ⟨rfl, by simp⟩) 0 1
  (by simp [below_pair])

end

/-! ### C113 rotation matrix and position vector -/

section
open Matrix
variable {d : Nat} {K : Type} [CommRing K]

theorem sum_fin (f : Nat → K) (n : Nat) : Mat.sumFrom (· + ·) 0 n f = ∑ i : Fin n, f i := by
  rw [← Finset.sum_range]
  induction n with
  | zero => rfl
  | succ n ih => rw [Mat.sumFrom, List.range_succ, List.map_append, List.foldl_append, Finset.sum_range_succ, ← ih]; rfl

/-- C113, partial: `(transform-coords c1 c2 c3)` stores the product of c1 and c2 in c3, which may be one of them, and changes nothing else.  Missing: c1, c2 and c3 all the same (below). -/
theorem C113_transform_coords_partial (S : Mat.Store K) (c1 c2 c3 : Coords) (tmp : Mat.Vec) (g1 g2 : Rigid d K)
    (h1 : Holds c1 S g1) (h2 : Holds c2 S g2) (r3 : c3.rot.rows = d) (k3 : c3.rot.cols = d) (p3 : c3.pos.size = d)
    (a1 : c3 = c1 ∨ Apart c3 c1) (a2 : c3 = c2 ∨ Apart c3 c2) (a12 : ¬ (c3 = c1 ∧ c3 = c2)) (so : Sound [c1, c2, c3])
    (ts : tmp.size = d) (tn : ∀ c ∈ [c1, c2, c3], tmp.ent ≠ c.rot.ent ∧ tmp.ent ≠ c.pos.ent) :
    ∃ S', transformCoords (· + ·) (· * ·) 0 S c1 c2 c3 tmp = some S' ∧ Holds c3 S' (g1 * g2) ∧
      ∀ e, e ≠ c3.rot.ent → e ≠ c3.pos.ent → e ≠ tmp.ent → S' e = S e := by
  have t1 := tn c1 (by simp)
  have t2 := tn c2 (by simp)
  have t3 := tn c3 (by simp)
  have s13 := so c1 (by simp) c3 (by simp)
  have s23 := so c2 (by simp) c3 (by simp)
  have s33 := so c3 (by simp) c3 (by simp)
  have pos : ∃ S1, (if c1.id = c3.id then
      (Mat.transformMV (· + ·) (· * ·) 0 S c1.rot c2.pos tmp).bind fun S => Mat.vzip (· + ·) S c1.pos tmp c3.pos
    else
      (Mat.transformMV (· + ·) (· * ·) 0 S c1.rot c2.pos c3.pos).bind fun S => Mat.vzip (· + ·) S c1.pos c3.pos c3.pos) = some S1 ∧
      (∀ e, e ≠ c3.pos.ent → e ≠ tmp.ent → S1 e = S e) ∧
      ∀ i : Fin d, S1 c3.pos.ent i = g1.pos i + ∑ j : Fin d, g1.rot i j * g2.pos j := by
    have sum : ∀ i : Fin d, (Mat.sumFrom (· + ·) 0 c1.rot.cols fun j => c1.rot.at S i j * S c2.pos.ent j) = ∑ j : Fin d, g1.rot i j * g2.pos j := fun i => by
      rw [sum_fin, h1.cols]
      exact Finset.sum_congr rfl fun j _ => by rw [h1.rot, h2.pos]
    split
    · rename_i same
      have e13 : c3 = c1 := a1.resolve_right fun a => a.1 same.symm
      have tr := (Mat.C104_transform (· + ·) (· * ·) (0 : K) S c1.rot c2.pos tmp).1
      rw [if_pos ⟨by rw [h1.cols, h2.size], by rw [ts, h1.rows]⟩] at tr
      obtain ⟨S1, e1, b1⟩ := tr
      have zi := Mat.C104_sum (K := K) (· + ·) S1 c1.pos tmp c3.pos
      rw [if_pos ⟨by rw [h1.size, ts], by rw [p3, h1.size]⟩] at zi
      obtain ⟨S2, e2, b2⟩ := zi
      refine ⟨S2, by rw [e1, Option.bind_some, e2], fun e n1 n2 => ?_, fun i => ?_⟩
      · funext j; rw [b2, if_neg fun q => n1 q.1, b1, if_neg fun q => n2 q.1]
      · rw [b2, if_pos ⟨rfl, by rw [p3]; exact i.2⟩]
        show S1 _ _ + S1 _ _ = _
        rw [b1, if_neg fun q => t1.2 q.1.symm, b1, if_pos ⟨rfl, by rw [ts]; exact i.2⟩, h1.pos]
        exact congrArg (g1.pos i + ·) (sum i)
    · rename_i other
      have n13 : Apart c3 c1 := a1.resolve_left fun a => other (by rw [a])
      have tr := (Mat.C104_transform (· + ·) (· * ·) (0 : K) S c1.rot c2.pos c3.pos).1
      rw [if_pos ⟨by rw [h1.cols, h2.size], by rw [p3, h1.rows]⟩] at tr
      obtain ⟨S1, e1, b1⟩ := tr
      have zi := Mat.C104_sum (K := K) (· + ·) S1 c1.pos c3.pos c3.pos
      rw [if_pos ⟨by rw [h1.size, p3], by rw [p3, h1.size]⟩] at zi
      obtain ⟨S2, e2, b2⟩ := zi
      refine ⟨S2, by rw [e1, Option.bind_some, e2], fun e n1 n2 => ?_, fun i => ?_⟩
      · funext j; rw [b2, if_neg fun q => n1 q.1, b1, if_neg fun q => n1 q.1]
      · rw [b2, if_pos ⟨rfl, by rw [p3]; exact i.2⟩]
        show S1 _ _ + S1 _ _ = _
        rw [b1, if_neg fun q => n13.2.2.2 q.1.symm, b1, if_pos ⟨rfl, by rw [p3]; exact i.2⟩, h1.pos]
        exact congrArg (g1.pos i + ·) (sum i)
  obtain ⟨S1, e1, f1, q1⟩ := pos
  have rot1 : ∀ i j, c1.rot.at S1 i j = c1.rot.at S i j := fun i j => by unfold Mat.Mtx.at; rw [f1 _ s13 (Ne.symm t1.1)]
  have rot2 : ∀ i j, c2.rot.at S1 i j = c2.rot.at S i j := fun i j => by unfold Mat.Mtx.at; rw [f1 _ s23 (Ne.symm t2.1)]
  obtain ⟨S2, e2, b2, f2⟩ := (Mat.C103_product_partial (· + ·) (· * ·) (0 : K) S1 c1.rot c2.rot c3.rot).1
    (by rw [h1.cols, h2.rows]) (by rw [r3, h1.rows]) (by rw [k3, h2.cols]) (fun _ => by rw [h1.cols, k3]) (fun ⟨q1, q2⟩ => by
      have z1 : c3 = c1 := a1.resolve_right fun a => a.2.2.1 q1.symm
      have z2 : c3 = c2 := a2.resolve_right fun a => a.2.2.1 q2.symm
      exact a12 ⟨z1, z2⟩)
  refine ⟨S2, by rw [transformCoords, e1, Option.bind_some, e2], ⟨r3, k3, p3, fun i j => ?_, fun i => ?_⟩, fun e n1 n2 n3 => ?_⟩
  · rw [b2 i j (by rw [r3]; exact i.2) (by rw [k3]; exact j.2)]
    beta_reduce
    rw [sum_fin, h1.cols, mul_rot, Matrix.mul_apply]
    exact Finset.sum_congr rfl fun k _ => by rw [rot1, rot2, h1.rot, h2.rot]
  · rw [f2 _ (Ne.symm s33), q1]; rfl
  · rw [f2 e n1, f1 e n2 n3]

/-- C113: `:inverse-transformation` stores the inverse, in the object itself or in another one, and changes nothing else. -/
theorem C113_inverse (S : Mat.Store K) (c dest : Coords) (g : Rigid d K) (hc : Holds c S g)
    (r3 : dest.rot.rows = d) (k3 : dest.rot.cols = d) (p3 : dest.pos.size = d) (a : dest = c ∨ Apart dest c) (so : Sound [c, dest]) :
    ∃ S', inverseTransformation (· + ·) (· * ·) 0 (-1) S c dest = some S' ∧ Holds dest S' g⁻¹ ∧
      ∀ e, e ≠ dest.rot.ent → e ≠ dest.pos.ent → S' e = S e := by
  have s1 := so dest (by simp) dest (by simp)
  have s2 := so dest (by simp) c (by simp)
  have tr := Mat.C104_transpose S c.rot dest.rot (a.imp (fun e => by rw [e]) fun a => ⟨a.2.1, a.2.2.1⟩)
  rw [if_pos ⟨by rw [r3, hc.cols], by rw [k3, hc.rows]⟩] at tr
  obtain ⟨S1, e1, b1, f1⟩ := tr
  have mv := (Mat.C104_transform (· + ·) (· * ·) (0 : K) S1 dest.rot c.pos dest.pos).1
  rw [if_pos ⟨by rw [k3, hc.size], by rw [p3, r3]⟩] at mv
  obtain ⟨S2, e2, b2⟩ := mv
  have sc := Mat.C104_scale (K := K) (· * ·) S2 (-1) dest.pos dest.pos
  rw [if_pos rfl] at sc
  obtain ⟨S3, e3, b3⟩ := sc
  refine ⟨S3, by rw [inverseTransformation, e1, Option.bind_some, e2, Option.bind_some, e3], ⟨r3, k3, p3, fun i j => ?_, fun i => ?_⟩, fun e n1 n2 => ?_⟩
  · have : dest.rot.at S3 i j = dest.rot.at S1 i j := by
      unfold Mat.Mtx.at; rw [b3, if_neg fun q => s1 q.1, b2, if_neg fun q => s1 q.1]
    rw [this, b1 i j (by rw [r3]; exact i.2) (by rw [k3]; exact j.2)]
    exact hc.rot j i
  · rw [b3, if_pos ⟨rfl, by rw [p3]; exact i.2⟩]
    beta_reduce
    rw [b2, if_pos ⟨rfl, by rw [p3]; exact i.2⟩]
    beta_reduce
    rw [sum_fin, k3, inv_pos, neg_one_mul]
    show -_ = -_
    congr 1
    exact Finset.sum_congr rfl fun j _ => by
      rw [b1 i j (by rw [r3]; exact i.2) (by rw [k3]; exact j.2), f1 _ (Ne.symm s2), hc.pos]
      beta_reduce
      rw [hc.rot]; rfl
  · funext j; rw [b3, if_neg fun q => n2 q.1, b2, if_neg fun q => n2 q.1, f1 e n1]

/-- Coordinates objects that share nothing. -/
def obj (d n : Nat) : Coords := ⟨n, ⟨n, 2 * n, d, d⟩, ⟨2 * n + 1, d⟩⟩

theorem obj_apart (d : Nat) {n m : Nat} (h : n ≠ m) : Apart (obj d n) (obj d m) := by
  refine ⟨h, h, ?_, ?_⟩ <;> · simp only [obj]; omega

theorem obj_sound (d : Nat) (l : List Nat) : Sound (l.map (obj d)) := by
  intro c hc c' hc'
  obtain ⟨n, _, rfl⟩ := List.mem_map.1 hc
  obtain ⟨m, _, rfl⟩ := List.mem_map.1 hc'
  simp only [obj]; omega

/-- A quarter turn, and a step. -/
def quarter : Rigid 2 Int := ⟨!![0, -1; 1, 0], ![1, 0], by decide +kernel⟩

/-- Storage in which object 0 is the quarter turn. -/
def quarterStore : Mat.Store Int := Mat.ofLists [[0, -1, 1, 0], [1, 0], [0, -1, 1, 0], [1, 0]]

theorem quarter_holds (n : Nat) (hn : n < 2) : Holds (obj 2 n) quarterStore quarter := by
  have : n = 0 ∨ n = 1 := by omega
  rcases this with rfl | rfl <;>
  · refine ⟨rfl, rfl, rfl, fun i j => ?_, fun i => ?_⟩
    · match i, j with
      | 0, 0 => rfl
      | 0, 1 => rfl
      | 1, 0 => rfl
      | 1, 1 => rfl
    · revert i; decide +kernel

example : ∃ S', transformCoords (· + ·) (· * ·) 0 quarterStore (obj 2 0) (obj 2 1) (obj 2 0) ⟨9, 2⟩ = some S' ∧ Holds (obj 2 0) S' (quarter * quarter) ∧
    ∀ e, e ≠ 0 → e ≠ 1 → e ≠ 9 → S' e = quarterStore e :=
  C113_transform_coords_partial quarterStore (obj 2 0) (obj 2 1) (obj 2 0) ⟨9, 2⟩ quarter quarter (quarter_holds 0 (by decide)) (quarter_holds 1 (by decide))
    rfl rfl rfl (.inl rfl) (.inr (obj_apart 2 (by decide))) (fun h => absurd (congrArg Coords.id h.2) (by decide)) (obj_sound 2 [0, 1, 0]) rfl (by decide)

example : ∃ S', inverseTransformation (· + ·) (· * ·) 0 (-1) quarterStore (obj 2 0) (obj 2 0) = some S' ∧ Holds (obj 2 0) S' quarter⁻¹ ∧
    ∀ e, e ≠ 0 → e ≠ 1 → S' e = quarterStore e :=
  C113_inverse quarterStore (obj 2 0) (obj 2 0) quarter (quarter_holds 0 (by decide)) rfl rfl rfl (.inl rfl) (obj_sound 2 [0, 0])

/-- C113 fails for `(transform-coords c c c)`, as in `(send c :transform c)`: a quarter turn becomes something that is no rotation. -/
theorem C113_self_wrong : ∃ S', transformCoords (· + ·) (· * ·) 0 quarterStore (obj 2 0) (obj 2 0) (obj 2 0) ⟨9, 2⟩ = some S' ∧ ∀ g : Rigid 2 Int, ¬ Holds (obj 2 0) S' g := by
  refine ⟨_, rfl, fun g h => ?_⟩
  have o := congrFun (congrFun g.orth 0) 0
  rw [Matrix.mul_apply, Fin.sum_univ_two] at o
  simp only [Matrix.transpose_apply, ← h.rot] at o
  revert o
  decide +kernel

/-- C113 fails for `:inverse-transformation` of a cascaded-coords in two dimensions (coordinates.l:398): the object made for the result has three, and the result is an error. -/
theorem C113_plane_wrong (S : Mat.Store K) : inverseTransformation (· + ·) (· * ·) 0 (-1) S (obj 2 0) (obj 3 1) = none := by
  simp [inverseTransformation, Mat.transpose, obj]

/-! ### C114 rotations and translations in trees -/

/-- C114, partial: as C110, for programs that also rotate, orient, translate and locate objects, and transform vectors to the world and back.  Missing: as for C110; numbers are exact, and the matrices given are orthogonal. -/
theorem C114_rigid_partial (at_ : Nat → Rigid d K) {ops : List (ROp d K)} {rs : List (Option (Value d K))} {v : View (Rigid d K)}
    (r : RRuns ⟨fun _ => none, at_⟩ ops rs v) (x : Nat) :
    ∃ k0, ∀ k, k0 ≤ k → ∃ h h', rrun k (init at_) ops = some (rs, h) ∧ worldF k h x = some (v.world x, h') ∧ (h.node x).parent = v.parent x := by
  obtain ⟨f, e, k0, st⟩ := rruns_inv r (fun _ => 0) (fun _ => 0)
  refine ⟨k0 + f x + 1, fun k kk => ?_⟩
  obtain ⟨h, e, i⟩ := st k (by omega) (init at_) (init_inv at_)
  obtain ⟨h', e', _⟩ := world_inv i x (k := k) (by omega)
  exact ⟨h, h', e, e', i.par x⟩

/-- C114: the specification says what happens in every case. -/
theorem C114_spec (v : View (Rigid d K)) (op : ROp d K) : ∃ r v', RDoes v op r v' := by
  classical
  have mv : ∀ (n : Nat) (g : Rigid d K), ∃ v', Moved v v' n g := fun n g =>
    ⟨⟨v.parent, fun x => if Below v.parent n x then g * (v.world n)⁻¹ * v.world x else v.world x⟩, rfl, fun x b => if_pos b, fun x b => if_neg b⟩
  have pl : ∀ (n : Nat) (m : Orth d K) (p : Fin d → K), ∃ v', Placed v v' n m.mat p := fun n m p => by
    obtain ⟨v', h⟩ := mv n ⟨m.mat, p, m.orth⟩
    exact ⟨v', _, rfl, rfl, h⟩
  cases op with
  | op o =>
    obtain ⟨q, h, _⟩ := C110_spec v o
    exact ⟨_, q.2, q.1, rfl, h⟩
  | translate n u w =>
    obtain ⟨v', h⟩ := pl n (v.world n).toOrth ((v.world n).pos + (v.wrt n w).rot *ᵥ u)
    exact ⟨none, v', rfl, h⟩
  | locate n u w =>
    obtain ⟨v', h⟩ := pl n (v.world n).toOrth ((v.wrt n w).point u)
    exact ⟨none, v', rfl, h⟩
  | rotate n m w =>
    obtain ⟨v', h⟩ := pl n ((((v.wrt n w).toOrth.mul m).mul (v.wrt n w).toOrth.t).mul (v.world n).toOrth) (v.world n).pos
    exact ⟨none, v', rfl, h⟩
  | orient n m w =>
    obtain ⟨v', h⟩ := pl n ((v.wrt n w).toOrth.mul m) (v.world n).pos
    exact ⟨none, v', rfl, h⟩
  | transformVector n u => exact ⟨_, v, rfl, rfl⟩
  | inverseTransformVector n u =>
    refine ⟨_, v, ⟨(v.world n).rotᵀ *ᵥ (u - (v.world n).pos), rfl, ?_⟩, rfl⟩
    rw [Rigid.point, rot_cancel]; abel

/-- Object 1 is attached to 0, and 0 is turned by a quarter about its origin: object 1, which was 2 to the right of it, is 2 above it. -/
example : ∃ k0, ∀ k, k0 ≤ k → ∃ h, rrun k (init fun n => (⟨1, ![2 * n, 0], by simp⟩ : Rigid 2 Int))
    [.op (.assoc 0 1 none), .rotate 0 quarter.toOrth .world, .transformVector 1 ![0, 0]] = some ([none, none, some (.vec ![0, 2])], h) := by
  let at_ : Nat → Rigid 2 Int := fun n => ⟨1, ![2 * n, 0], by simp⟩
  let g : Rigid 2 Int := ⟨!![0, -1; 1, 0], ![0, 0], by decide +kernel⟩
  have r : RRuns ⟨fun _ => none, at_⟩ [.op (.assoc 0 1 none), .rotate 0 quarter.toOrth .world, .transformVector 1 ![0, 0]] [none, none, some (.vec ![0, 2])]
      ⟨pair, fun x => if x = 0 ∨ x = 1 then g * at_ x else at_ x⟩ := by
    refine .cons (v1 := ⟨pair, at_⟩) ?_ ⟨none, rfl, rfl, ?_⟩ (.cons (v1 := ⟨pair, fun x => if x = 0 ∨ x = 1 then g * at_ x else at_ x⟩) trivial
      ⟨rfl, g, ?_, ?_, rfl, fun x b => ?_, fun x b => ?_⟩ (.cons trivial ⟨?_, rfl⟩ (.nil _)))
    · intro b; cases b with
      | step e _ => cases e
    · rw [if_neg (by simp)]; rfl
    · simp [turned, View.wrt, one_rot, g, at_, quarter, Rigid.toOrth]
    · simp [g, at_]
    · have : at_ 0 = 1 := by ext1 <;> simp [at_, one_rot, one_pos]
      simp only [(below_pair x).1 b, if_true, this]; group
    · simp only [mt (below_pair x).2 b, if_false]
    · simp only [Rigid.point]
      congr 2
      decide +kernel
  obtain ⟨k0, st⟩ := C114_rigid_partial at_ r 0
  exact ⟨k0, fun k kk => let ⟨h, _, e, _⟩ := st k kk; ⟨h, e⟩⟩

/-- C114 fails for the argument of `(send c :rotate m nil :world)`: m, a quarter turn about the first axis, becomes another rotation when the parent is turned about the third. -/
theorem C114_argument_wrong : ∃ S S' : Mat.Store Int, rotateWorld (· + ·) (· * ·) 0 S ⟨0, 0, 3, 3⟩ ⟨1, 1, 3, 3⟩ ⟨2, 2, 3, 3⟩ ⟨3, 3, 3, 3⟩ = some S' ∧
    (List.range 9).map (S 0) = [1, 0, 0, 0, 0, -1, 0, 1, 0] ∧ (List.range 9).map (S' 0) = [0, 0, -1, 0, 1, 0, 1, 0, 0] :=
  ⟨Mat.ofLists [[1, 0, 0, 0, 0, -1, 0, 1, 0], [0, -1, 0, 1, 0, 0, 0, 0, 1], [], [1, 0, 0, 0, 1, 0, 0, 0, 1]], _, rfl, by decide +kernel, by decide +kernel⟩

/-! ### C115 vectors -/

/-- C115: `:transform-vector` and `:inverse-transform-vector` undo each other; transforming by a product is transforming twice; distances and angles stay the same. -/
theorem C115_vectors (a b : Rigid d K) (u w : Fin d → K) :
    inverseTransformVector a (transformVector a u) = u ∧ transformVector a (inverseTransformVector a u) = u ∧
    transformVector (a * b) u = transformVector a (transformVector b u) ∧
    inverseTransformVector a u = transformVector a⁻¹ u ∧
    (∀ x y z, (transformVector a x - transformVector a y) ⬝ᵥ (transformVector a z - transformVector a y) = (x - y) ⬝ᵥ (z - y)) ∧
    rotateVec a u ⬝ᵥ rotateVec a w = u ⬝ᵥ w := by
  have ip : ∀ x y : Fin d → K, (a.rot *ᵥ x) ⬝ᵥ (a.rot *ᵥ y) = x ⬝ᵥ y := fun x y => by
    rw [dotProduct_mulVec, vecMul_mulVec, ← dotProduct_mulVec, a.orth', one_mulVec]
  have rc : ∀ x, a.rotᵀ *ᵥ (a.rot *ᵥ x) = x := fun x => by rw [mulVec_mulVec, a.orth', one_mulVec]
  refine ⟨?_, ?_, ?_, ?_, fun x y z => ?_, ip u w⟩
  · simp only [inverseTransformVector, transformVector, mulVec_add, rc]; abel
  · simp only [inverseTransformVector, transformVector, mulVec_sub, rot_cancel]; abel
  · simp only [transformVector, mul_rot, mul_pos, mulVec_add, mulVec_mulVec]; abel
  · simp only [inverseTransformVector, transformVector, inv_rot, inv_pos]; abel
  · simp only [transformVector, add_sub_add_right_eq_sub, ← mulVec_sub]; exact ip _ _

example : transformVector quarter ![3, 4] = ![-3, 3] ∧ inverseTransformVector quarter ![-3, 3] = ![3, 4] := by decide +kernel

end
end Eus.Crd
