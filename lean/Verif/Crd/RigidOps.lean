import Verif.Crd.Ops
import Verif.Crd.RigidSpec
import Mathlib.Tactic.Abel
set_option autoImplicit false
set_option linter.unusedSectionVars false
/-
Rotations and translations keep the invariant.
-/
namespace Eus.Crd
open Matrix

variable {d : Nat} {K : Type} [CommRing K]

theorem wrtWorld_inv {v : View (Rigid d K)} {f e : Nat → Nat} {h : Heap (Rigid d K)} (i : Inv h v f e) (w : Wrt (Rigid d K)) {k : Nat}
    (km : ∀ m, w = .node m → f m < k) (hl : w ≠ .local) (hp : w ≠ .parent) (n : Nat) :
    ∃ h' o, wrtWorld k h w = some (o, h') ∧ Inv h' v f e ∧ Same h h' ∧ (o = some (v.wrt n w) ∨ o = none ∧ v.wrt n w = 1) := by
  cases w with
  | «local» => exact absurd rfl hl
  | parent => exact absurd rfl hp
  | world => exact ⟨h, none, rfl, i, .refl h, .inr ⟨rfl, rfl⟩⟩
  | plain x => exact ⟨h, _, rfl, i, .refl h, .inl rfl⟩
  | node m =>
    obtain ⟨h1, e1, i1, s1, _⟩ := world_inv i m (km m rfl)
    exact ⟨h1, some (v.world m), by simp only [wrtWorld, e1, Option.map_some], i1, s1, .inl rfl⟩

theorem resolve_km {w : Wrt (Rigid d K)} {h : Heap (Rigid d K)} {n k : Nat} {f : Nat → Nat} (km : ∀ m, w = .node m → f m < k) :
    ∀ m, w.resolve h n = .node m → f m < k := fun m e => km m (resolve_node e).1

theorem rot_cancel (a : Rigid d K) (x : Fin d → K) : a.rot *ᵥ (a.rotᵀ *ᵥ x) = x := by
  rw [mulVec_mulVec, a.orth, one_mulVec]

theorem up_some {v : View (Rigid d K)} {n p : Nat} (e : v.parent n = some p) : v.up n = v.world p := by simp [View.up, e]
theorem up_none {v : View (Rigid d K)} {n : Nat} (e : v.parent n = none) : v.up n = 1 := by simp [View.up, e]

theorem world_rot {h : Heap (Rigid d K)} {v : View (Rigid d K)} {f : Nat → Nat} (i : Inv0 h v f) (n : Nat) :
    (v.world n).rot = (v.up n).rot * (h.loc n).rot := by rw [i.eqn n]; rfl
theorem world_pos {h : Heap (Rigid d K)} {v : View (Rigid d K)} {f : Nat → Nat} (i : Inv0 h v f) (n : Nat) :
    (v.world n).pos = (v.up n).pos + (v.up n).rot *ᵥ (h.loc n).pos := by rw [i.eqn n]; rfl

/-- Direction u of wrt, in the parent. -/
theorem parentOrientation_inv {v : View (Rigid d K)} {f e : Nat → Nat} {h : Heap (Rigid d K)} (i : Inv h v f e) (n : Nat) (u : Fin d → K)
    (w : Wrt (Rigid d K)) {k : Nat} (kf : f n < k) (km : ∀ m, w = .node m → f m < k) :
    ∃ h' u', parentOrientation k h n u w = some (u', h') ∧ Inv h' v f e ∧ (v.up n).rot *ᵥ u' = (v.wrt n w).rot *ᵥ u := by
  rw [← resolve_wrt w i.par]
  have km := resolve_km (h := h) (n := n) km
  unfold parentOrientation
  generalize w.resolve h n = w at km
  have other : w ≠ .local → w ≠ .parent → ∃ h' u', ((wrtWorld k h w).bind fun q =>
      let v := q.1.elim u fun x => x.rot *ᵥ u
      match (q.2.node n).parent with
      | some p => (worldF k q.2 p).map fun r => (r.1.rotᵀ *ᵥ v, r.2)
      | none => some (v, q.2)) = some (u', h') ∧ Inv h' v f e ∧ (v.up n).rot *ᵥ u' = (v.wrt n w).rot *ᵥ u := fun hl hp => by
    obtain ⟨h1, o, e1, i1, _, ho⟩ := wrtWorld_inv i w km hl hp n
    simp only [e1, Option.bind_some]
    have hu : (o.elim u fun x => x.rot *ᵥ u) = (v.wrt n w).rot *ᵥ u := by
      rcases ho with ho | ⟨ho, h1⟩
      · rw [ho]; rfl
      · rw [ho, h1, one_rot, one_mulVec]; rfl
    rw [hu, i1.par]
    cases pe : v.parent n with
    | none => exact ⟨h1, _, rfl, i1, by rw [up_none pe, one_rot, one_mulVec]⟩
    | some p =>
      obtain ⟨h2, e2, i2, _⟩ := world_inv i1 p (k := k) (by have := i.up n p pe; omega)
      exact ⟨h2, _, by simp only [e2, Option.map_some]; rfl, i2, by rw [up_some pe, rot_cancel]⟩
  cases w with
  | «local» => exact ⟨h, _, rfl, i, by simp only [View.wrt]; rw [world_rot i.toInv0, mulVec_mulVec]⟩
  | parent => exact ⟨h, _, rfl, i, by simp only [View.wrt]⟩
  | world => exact other (by simp) (by simp)
  | plain x => exact other (by simp) (by simp)
  | node m => exact other (by simp) (by simp)

/-- Point u of wrt, in the parent. -/
theorem parentVector_inv {v : View (Rigid d K)} {f e : Nat → Nat} {h : Heap (Rigid d K)} (i : Inv h v f e) (n : Nat) (u : Fin d → K)
    (w : Wrt (Rigid d K)) {k : Nat} (kf : f n < k) (km : ∀ m, w = .node m → f m < k) :
    ∃ h' u', parentVector k h n u w = some (u', h') ∧ Inv h' v f e ∧ (v.up n).point u' = (v.wrt n w).point u := by
  rw [← resolve_wrt w i.par]
  have km := resolve_km (h := h) (n := n) km
  unfold parentVector
  generalize w.resolve h n = w at km
  have other : w ≠ .local → w ≠ .parent → ∃ h' u', ((wrtWorld k h w).bind fun q =>
      let v := q.1.elim u fun x => transformVector x u
      match (q.2.node n).parent with
      | some p => (worldF k q.2 p).map fun r => (inverseTransformVector r.1 v, r.2)
      | none => some (v, q.2)) = some (u', h') ∧ Inv h' v f e ∧ (v.up n).point u' = (v.wrt n w).point u := fun hl hp => by
    obtain ⟨h1, o, e1, i1, _, ho⟩ := wrtWorld_inv i w km hl hp n
    simp only [e1, Option.bind_some]
    have hu : (o.elim u fun x => transformVector x u) = (v.wrt n w).point u := by
      rcases ho with ho | ⟨ho, h1⟩
      · rw [ho]; exact add_comm _ _
      · rw [ho, h1]; simp only [Rigid.point, one_rot, one_pos, one_mulVec, zero_add]; rfl
    rw [hu, i1.par]
    cases pe : v.parent n with
    | none => exact ⟨h1, _, rfl, i1, by rw [up_none pe]; simp only [Rigid.point, one_rot, one_pos, one_mulVec, zero_add]⟩
    | some p =>
      obtain ⟨h2, e2, i2, _⟩ := world_inv i1 p (k := k) (by have := i.up n p pe; omega)
      refine ⟨h2, _, by simp only [e2, Option.map_some]; rfl, i2, ?_⟩
      rw [up_some pe]
      simp only [Rigid.point, inverseTransformVector, mulVec_sub, rot_cancel]
      abel
  cases w with
  | «local» =>
    refine ⟨h, _, rfl, i, ?_⟩
    simp only [View.wrt, Rigid.point, transformVector]
    rw [world_rot i.toInv0, world_pos i.toInv0, mulVec_add, mulVec_mulVec]
    abel
  | parent => exact ⟨h, _, rfl, i, by simp only [View.wrt]⟩
  | world => exact other (by simp) (by simp)
  | plain x => exact other (by simp) (by simp)
  | node m => exact other (by simp) (by simp)

theorem translate_inv {v v' : View (Rigid d K)} {f e : Nat → Nat} {n : Nat} {u : Fin d → K} {w : Wrt (Rigid d K)}
    (m : Placed v v' n (v.world n).rot ((v.world n).pos + (v.wrt n w).rot *ᵥ u)) {h : Heap (Rigid d K)} (i : Inv h v f e) {k : Nat}
    (kf : f n < k) (kd : e n < k) (km : ∀ m, w = .node m → f m < k) : ∃ h', translate k h n u w = some h' ∧ Inv h' v' f e := by
  obtain ⟨g, gr, gp, m⟩ := m
  unfold translate
  obtain ⟨h1, u', e1, i1, ue⟩ := parentOrientation_inv i n u w kf km
  simp only [e1, Option.bind_some]
  refine move_inv i1 (set_loc i1.toInv0 n _) kd (moved_cast m ?_)
  ext1
  · rw [gr, world_rot i1.toInv0]; rfl
  · rw [gp, ← ue, world_pos i1.toInv0, mul_pos, mulVec_add]; abel

theorem locate_inv {v v' : View (Rigid d K)} {f e : Nat → Nat} {n : Nat} {u : Fin d → K} {w : Wrt (Rigid d K)}
    (m : Placed v v' n (v.world n).rot ((v.wrt n w).point u)) {h : Heap (Rigid d K)} (i : Inv h v f e) {k : Nat}
    (kf : f n < k) (kd : e n < k) (km : ∀ m, w = .node m → f m < k) : ∃ h', locate k h n u w = some h' ∧ Inv h' v' f e := by
  obtain ⟨g, gr, gp, m⟩ := m
  unfold locate
  obtain ⟨h1, u', e1, i1, ue⟩ := parentVector_inv i n u w kf km
  simp only [e1, Option.bind_some]
  refine move_inv i1 (set_loc i1.toInv0 n _) kd (moved_cast m ?_)
  ext1
  · rw [gr, world_rot i1.toInv0]; rfl
  · rw [gp, ← ue]; rfl

theorem rotate_inv {v v' : View (Rigid d K)} {f e : Nat → Nat} {n : Nat} {M : Orth d K} {w : Wrt (Rigid d K)}
    (m : Placed v v' n (turned (v.wrt n w) M.mat * (v.world n).rot) (v.world n).pos) {h : Heap (Rigid d K)} (i : Inv h v f e) {k : Nat}
    (kf : f n < k) (kd : e n < k) (km : ∀ m, w = .node m → f m < k) : ∃ h', rotate k h n M w = some h' ∧ Inv h' v' f e := by
  obtain ⟨g, gr, gp, m⟩ := m
  rw [← resolve_wrt w i.par] at gr
  have km := resolve_km (h := h) (n := n) km
  unfold rotate
  generalize w.resolve h n = w at km gr
  have oo : ∀ a : Rigid d K, a.rotᵀ * a.rot = 1 := Rigid.orth'
  have other : w ≠ .local → w ≠ .parent → ∃ h', ((parentcoords k h n).bind fun pc => (wrtWorld k pc.2 w).bind fun q =>
    let mat := q.1.elim M fun x => (x.toOrth.mul M).mul x.toOrth.t
    let mat := mat.mul pc.1.toOrth
    let mat := pc.1.toOrth.t.mul mat
    changedF k (q.2.setLoc n ((q.2.loc n).setRot (mat.mul (q.2.loc n).toOrth))) n) = some h' ∧ Inv h' v' f e := fun hl hp => by
    obtain ⟨h0, e0, i0, _, _⟩ := parentcoords_inv i n kf
    obtain ⟨h1, o, e1, i1, _, ho⟩ := wrtWorld_inv i0 w km hl hp n
    simp only [e0, e1, Option.bind_some]
    have hm : (o.elim M fun x => (x.toOrth.mul M).mul x.toOrth.t).mat = turned (v.wrt n w) M.mat := by
      rcases ho with ho | ⟨ho, h1⟩
      · rw [ho]; rfl
      · rw [ho, h1]; simp [turned, one_rot]
    generalize (o.elim M fun x => (x.toOrth.mul M).mul x.toOrth.t) = M' at hm
    refine move_inv i1 (set_loc i1.toInv0 n _) kd (moved_cast m ?_)
    ext1
    · rw [gr, ← hm, world_rot i1.toInv0, mul_rot]
      simp only [Rigid.setRot, Rigid.toOrth, Orth.mul, Orth.t]
      simp only [← Matrix.mul_assoc, Rigid.orth, Matrix.one_mul]
    · rw [gp, world_pos i1.toInv0]; rfl
  cases w with
  | «local» =>
    refine move_inv i (set_loc i.toInv0 n _) kd (moved_cast m ?_)
    ext1
    · rw [gr, turned]; simp only [View.wrt]
      rw [Matrix.mul_assoc, oo, Matrix.mul_one, world_rot i.toInv0, Matrix.mul_assoc]; rfl
    · rw [gp, world_pos i.toInv0]; rfl
  | parent =>
    refine move_inv i (set_loc i.toInv0 n _) kd (moved_cast m ?_)
    ext1
    · rw [gr, turned]; simp only [View.wrt]
      rw [world_rot i.toInv0, Matrix.mul_assoc _ _ (_ * _), ← Matrix.mul_assoc (v.up n).rotᵀ, oo, Matrix.one_mul, Matrix.mul_assoc]; rfl
    · rw [gp, world_pos i.toInv0]; rfl
  | world => exact other (by simp) (by simp)
  | plain x => exact other (by simp) (by simp)
  | node m => exact other (by simp) (by simp)

theorem orient_inv {v v' : View (Rigid d K)} {f e : Nat → Nat} {n : Nat} {M : Orth d K} {w : Wrt (Rigid d K)}
    (m : Placed v v' n ((v.wrt n w).rot * M.mat) (v.world n).pos) {h : Heap (Rigid d K)} (i : Inv h v f e) {k : Nat}
    (kf : f n < k) (kd : e n < k) (km : ∀ m, w = .node m → f m < k) : ∃ h', orient k h n M w = some h' ∧ Inv h' v' f e := by
  obtain ⟨g, gr, gp, m⟩ := m
  rw [← resolve_wrt w i.par] at gr
  have km := resolve_km (h := h) (n := n) km
  unfold orient
  generalize w.resolve h n = w at km gr
  have other : w ≠ .local → w ≠ .parent → ∃ h', ((parentcoords k h n).bind fun pc => (wrtWorld k pc.2 w).bind fun q =>
    let mat := q.1.elim M fun x => x.toOrth.mul M
    changedF k (q.2.setLoc n ((q.2.loc n).setRot (pc.1.toOrth.t.mul mat))) n) = some h' ∧ Inv h' v' f e := fun hl hp => by
    obtain ⟨h0, e0, i0, _, _⟩ := parentcoords_inv i n kf
    obtain ⟨h1, o, e1, i1, _, ho⟩ := wrtWorld_inv i0 w km hl hp n
    simp only [e0, e1, Option.bind_some]
    have hm : (o.elim M fun x => x.toOrth.mul M).mat = (v.wrt n w).rot * M.mat := by
      rcases ho with ho | ⟨ho, h1⟩
      · rw [ho]; rfl
      · rw [ho, h1]; simp [one_rot]
    generalize (o.elim M fun x => x.toOrth.mul M) = M' at hm
    refine move_inv i1 (set_loc i1.toInv0 n _) kd (moved_cast m ?_)
    ext1
    · rw [gr, ← hm, mul_rot]
      simp only [Rigid.setRot, Rigid.toOrth, Orth.mul, Orth.t]
      simp only [← Matrix.mul_assoc, Rigid.orth, Matrix.one_mul]
    · rw [gp, world_pos i1.toInv0]; rfl
  cases w with
  | «local» =>
    refine move_inv i (set_loc i.toInv0 n _) kd (moved_cast m ?_)
    ext1
    · rw [gr]; simp only [View.wrt]
      rw [world_rot i.toInv0, Matrix.mul_assoc]; rfl
    · rw [gp, world_pos i.toInv0]; rfl
  | parent =>
    refine move_inv i (set_loc i.toInv0 n _) kd (moved_cast m ?_)
    ext1
    · rw [gr]; rfl
    · rw [gp, world_pos i.toInv0]; rfl
  | world => exact other (by simp) (by simp)
  | plain x => exact other (by simp) (by simp)
  | node m => exact other (by simp) (by simp)

theorem rstep_inv {v v' : View (Rigid d K)} {f e : Nat → Nat} {op : ROp d K} {r : Option (Value d K)} (al : RAllowed v op) (do_ : RDoes v op r v') :
    ∃ f' e' k0, ∀ k, k0 ≤ k → ∀ h, Inv h v f e → ∃ h', rstep k h op = some (r, h') ∧ Inv h' v' f' e' := by
  cases op with
  | op o =>
    obtain ⟨r', re, do_⟩ := do_
    obtain ⟨f', e', k0, st⟩ := step_inv (f := f) (d := e) al do_
    refine ⟨f', e', k0, fun k kk h i => ?_⟩
    obtain ⟨h', e1, i1⟩ := st k kk h i
    exact ⟨h', by rw [rstep, e1, Option.map_some, re], i1⟩
  | translate n u w =>
    obtain ⟨re, mv⟩ := do_
    subst re
    refine ⟨f, e, f n + e n + (match w with | .node x => f x | _ => 0) + 1, fun k kk h i => ?_⟩
    obtain ⟨h1, e1, i1⟩ := translate_inv mv i (k := k) (by omega) (by omega) (fun x e => by subst e; simp only at kk; omega)
    exact ⟨h1, by simp only [rstep, e1, Option.map_some], i1⟩
  | locate n u w =>
    obtain ⟨re, mv⟩ := do_
    subst re
    refine ⟨f, e, f n + e n + (match w with | .node x => f x | _ => 0) + 1, fun k kk h i => ?_⟩
    obtain ⟨h1, e1, i1⟩ := locate_inv mv i (k := k) (by omega) (by omega) (fun x e => by subst e; simp only at kk; omega)
    exact ⟨h1, by simp only [rstep, e1, Option.map_some], i1⟩
  | rotate n u w =>
    obtain ⟨re, mv⟩ := do_
    subst re
    refine ⟨f, e, f n + e n + (match w with | .node x => f x | _ => 0) + 1, fun k kk h i => ?_⟩
    obtain ⟨h1, e1, i1⟩ := rotate_inv mv i (k := k) (by omega) (by omega) (fun x e => by subst e; simp only at kk; omega)
    exact ⟨h1, by simp only [rstep, e1, Option.map_some], i1⟩
  | orient n u w =>
    obtain ⟨re, mv⟩ := do_
    subst re
    refine ⟨f, e, f n + e n + (match w with | .node x => f x | _ => 0) + 1, fun k kk h i => ?_⟩
    obtain ⟨h1, e1, i1⟩ := orient_inv mv i (k := k) (by omega) (by omega) (fun x e => by subst e; simp only at kk; omega)
    exact ⟨h1, by simp only [rstep, e1, Option.map_some], i1⟩
  | transformVector n u =>
    obtain ⟨re, ve⟩ := do_
    subst re; subst ve
    refine ⟨f, e, f n + 1, fun k kk h i => ?_⟩
    obtain ⟨h1, e1, i1, _⟩ := world_inv i n (k := k) (by omega)
    exact ⟨h1, by simp only [rstep, e1, Option.map_some, transformVector, Rigid.point, add_comm], i1⟩
  | inverseTransformVector n u =>
    obtain ⟨⟨u', re, ue⟩, ve⟩ := do_
    subst re; subst ve
    refine ⟨f, e, f n + 1, fun k kk h i => ?_⟩
    obtain ⟨h1, e1, i1, _⟩ := world_inv i n (k := k) (by omega)
    refine ⟨h1, ?_, i1⟩
    simp only [rstep, e1, Option.map_some, inverseTransformVector]
    congr 4
    rw [← ue, Rigid.point, mulVec_add, mulVec_mulVec, Rigid.orth', one_mulVec]
    abel

theorem rruns_inv {v v' : View (Rigid d K)} {ops : List (ROp d K)} {rs : List (Option (Value d K))} (r : RRuns v ops rs v') : ∀ (f e : Nat → Nat),
    ∃ f' e' k0, ∀ k, k0 ≤ k → ∀ h, Inv h v f e → ∃ h', rrun k h ops = some (rs, h') ∧ Inv h' v' f' e' := by
  induction r with
  | nil v => exact fun f d => ⟨f, d, 0, fun k _ h i => ⟨h, rfl, i⟩⟩
  | cons al do_ _ ih =>
    intro f d
    obtain ⟨f1, d1, k1, s1⟩ := rstep_inv (f := f) (e := d) al do_
    obtain ⟨f2, d2, k2, s2⟩ := ih f1 d1
    refine ⟨f2, d2, k1 + k2, fun k kk h i => ?_⟩
    obtain ⟨h1, e1, i1⟩ := s1 k (by omega) h i
    obtain ⟨h2, e2, i2⟩ := s2 k (by omega) h1 i1
    exact ⟨h2, by simp only [rrun, e1, e2, Option.bind_some, Option.map_some], i2⟩

end Eus.Crd
