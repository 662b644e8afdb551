import Verif.Crd.Cache
set_option autoImplicit false
set_option linter.unusedSectionVars false
/-
Each operation keeps the invariant and does what the specification says.
-/
namespace Eus.Crd

variable {G : Type} [Group G]

/-! ### Storing rotation and position while world coordinates are computed -/

theorem setLoc_loc (h : Heap G) (n : Nat) (g : G) : (h.setLoc n g).loc n = g := by simp [Heap.loc, Heap.setLoc]

theorem setLoc_setLoc (h : Heap G) (n : Nat) (a b : G) : (h.setLoc n a).setLoc n b = h.setLoc n b := by
  simp only [Heap.setLoc]
  congr 1
  funext c
  split <;> rfl

theorem world_same : ∀ (k : Nat) (h : Heap G) (n : Nat) (q : G × Heap G), worldF k h n = some q → Same h q.2
  | 0, _, _, _, e => by simp [worldF] at e
  | k + 1, h, n, q, e => by
    have st : ∀ (h : Heap G) (g : G), Same h (h.setNode n { h.node n with world := g, changed := false }) := fun h g => by
      refine ⟨fun x => ?_, fun x => ?_, fun x => ?_, rfl, rfl⟩ <;>
      · simp only [Heap.setNode]; split
        · rename_i q; rw [q]
        · rfl
    rw [worldF] at e
    split at e
    · split at e
      · cases r : worldF k h ‹Nat› with
        | none => rw [r] at e; cases e
        | some r' =>
          rw [r] at e
          simp only [Option.bind_some, Option.some.injEq] at e
          rw [← e]
          exact (world_same k h _ r' r).trans (st r'.2 _)
      · injection e with e; rw [← e]; exact st h _
    · injection e with e; rw [← e]; exact .refl h

theorem setLoc_setNode (h : Heap G) (n m : Nat) (g : G) (x : Node G) (e : x.cell = (h.node m).cell) :
    (h.setLoc n g).setNode m x = (h.setNode m x).setLoc n g := by
  have c : ((h.setNode m x).node n).cell = (h.node n).cell := by
    simp only [Heap.setNode]; split
    · rename_i q; rw [q, e]
    · rfl
  simp only [Heap.setLoc, c]
  simp only [Heap.setNode]

/-- World coordinates of what is not attached to n do not depend on what n holds. -/
theorem world_frame {n : Nat} {X : G} : ∀ (k : Nat) (h : Heap G) (m : Nat), (∀ x y, (h.node x).cell = (h.node y).cell → x = y) →
    ¬ Below (fun x => (h.node x).parent) n m →
    worldF k (h.setLoc n X) m = (worldF k h m).map fun q => (q.1, q.2.setLoc n X)
  | 0, _, _, _, _ => rfl
  | k + 1, h, m, inj, nb => by
    have mn : m ≠ n := fun e => nb (by rw [e]; exact .refl)
    have lo : ∀ h' : Heap G, (∀ x, (h'.node x).cell = (h.node x).cell) → (h'.setLoc n X).loc m = h'.loc m := fun h' c => by
      simp only [Heap.loc, Heap.setLoc, c]
      rw [if_neg fun e => mn (inj _ _ e)]
    rw [worldF, worldF]
    show (if (h.node m).changed = true then match (h.node m).parent with | some p => _ | none => _ else some ((h.node m).world, h.setLoc n X)) = _
    split
    · cases pe : (h.node m).parent with
      | some p =>
        simp only
        rw [world_frame k h p inj fun b => nb (.step pe b)]
        cases r : worldF k h p with
        | none => rfl
        | some q =>
          simp only [Option.map_some, Option.bind_some]
          have l := lo q.2 (world_same k h p q r).cell
          rw [l]
          exact congrArg (fun z => some (_, z)) (setLoc_setNode q.2 n m X _ rfl)
      | none =>
        simp only [Option.map_some]
        rw [lo h fun _ => rfl]
        exact congrArg (fun z => some (_, z)) (setLoc_setNode h n m X _ rfl)
    · rfl

/-! ### `:transform` and `:move-to` -/

theorem resolve_wrt (w : Wrt G) {h : Heap G} {v : View G} (par : ∀ n, (h.node n).parent = v.parent n) (n : Nat) :
    v.wrt n (w.resolve h n) = v.wrt n w := by
  cases w with
  | node m =>
    unfold Wrt.resolve
    by_cases e : m = n
    · simp [e, View.wrt]
    · by_cases e' : v.parent n = some m
      · simp [e, par, e', View.wrt, View.up]
      · simp [e, par, e', View.wrt]
  | _ => rfl

theorem resolve_node {w : Wrt G} {h : Heap G} {n m : Nat} (e : w.resolve h n = .node m) : w = .node m ∧ m ≠ n := by
  cases w with
  | node x =>
    unfold Wrt.resolve at e
    simp only at e
    split at e
    · cases e
    · split at e
      · cases e
      · injection e with e; subst e; exact ⟨rfl, by assumption⟩
  | _ => cases e

theorem moved_cast {v v' : View G} {n : Nat} {a b : G} (m : Moved v v' n a) (e : b = a) : Moved v v' n b := e ▸ m

theorem loc_eq {h : Heap G} {v : View G} {f : Nat → Nat} (i : Inv0 h v f) (n : Nat) : h.loc n = (v.up n)⁻¹ * v.world n := by
  rw [i.eqn n, inv_mul_cancel_left]

theorem transform_inv {v v' : View G} {f d : Nat → Nat} {n : Nat} {g : G} {w : Wrt G}
    (al : ∀ m, w = .node m → m ≠ n → ¬ Below v.parent n m)
    (m : Moved v v' n (v.wrt n w * g * (v.wrt n w)⁻¹ * v.world n)) {h : Heap G} (i : Inv h v f d) {k : Nat} (kf : f n < k) (kd : d n < k)
    (km : ∀ m, w = .node m → f m < k) : ∃ h', transform k h n g w = some h' ∧ Inv h' v' f d := by
  rw [← resolve_wrt w i.par] at m
  unfold transform
  cases r : w.resolve h n with
  | «local» =>
    rw [r] at m
    refine move_inv i (set_loc i.toInv0 n _) kd (moved_cast m ?_)
    simp only [View.wrt, loc_eq i.toInv0]; group
  | parent =>
    rw [r] at m
    refine move_inv i (set_loc i.toInv0 n _) kd (moved_cast m ?_)
    simp only [View.wrt, loc_eq i.toInv0]; group
  | world =>
    rw [r] at m
    obtain ⟨h1, e1, i1, s1, _⟩ := parentcoords_inv i n kf
    simp only [e1, Option.bind_some, setLoc_loc, setLoc_setLoc]
    refine move_inv i1 (set_loc i1.toInv0 n _) kd (moved_cast m ?_)
    simp only [View.wrt, loc_eq i1.toInv0]; group
  | plain x =>
    rw [r] at m
    obtain ⟨h1, e1, i1, s1, _⟩ := parentcoords_inv i n kf
    simp only [e1, Option.bind_some, setLoc_loc, setLoc_setLoc]
    refine move_inv i1 (set_loc i1.toInv0 n _) kd (moved_cast m ?_)
    simp only [View.wrt, loc_eq i1.toInv0]; group
  | node y =>
    rw [r] at m
    obtain ⟨wy, yn⟩ := resolve_node r
    have nb := al y wy yn
    obtain ⟨h1, e1, i1, s1, _⟩ := parentcoords_inv i n kf
    obtain ⟨h2, e2, i2, s2, _⟩ := world_inv i1 y (km y wy)
    obtain ⟨h3, e3, i3, s3, _⟩ := world_inv i2 y (km y wy)
    have p1 : (fun x => (h1.node x).parent) = v.parent := funext i1.par
    have p2 : (fun x => (h2.node x).parent) = v.parent := funext i2.par
    simp only [e1, Option.bind_some]
    rw [world_frame k h1 y i1.inj (by rw [p1]; exact nb), e2]
    simp only [Option.map_some, Option.bind_some, setLoc_loc, setLoc_setLoc]
    rw [world_frame k h2 y i2.inj (by rw [p2]; exact nb), e3]
    simp only [Option.map_some, Option.bind_some, setLoc_loc, setLoc_setLoc]
    refine move_inv i3 (set_loc i3.toInv0 n _) kd (moved_cast m ?_)
    simp only [View.wrt, loc_eq i1.toInv0]; group

theorem moveTo_inv {v v' : View G} {f d : Nat → Nat} {n : Nat} {g : G} {w : Wrt G}
    (m : Moved v v' n (v.wrt n w * g)) {h : Heap G} (i : Inv h v f d) {k : Nat} (kf : f n < k) (kd : d n < k)
    (km : ∀ m, w = .node m → f m < k) : ∃ h', moveTo k h n g w = some h' ∧ Inv h' v' f d := by
  rw [← resolve_wrt w i.par] at m
  unfold moveTo
  have new : ∀ {h1 : Heap G} (i1 : Inv h1 v f d) (X : G), v.up n * X = v.wrt n (w.resolve h n) * g →
      ∃ h', newcoords k h1 n X = some h' ∧ Inv h' v' f d := fun i1 X e => by
    rw [newcoords_eq]
    exact move_inv i1 (set_new i1.inj i1.fresh n X) kd (moved_cast m e)
  cases r : w.resolve h n with
  | «local» => rw [r] at new; exact new i _ (by simp only [View.wrt, loc_eq i.toInv0]; group)
  | parent => rw [r] at new; exact new i _ (by simp only [View.wrt])
  | world =>
    rw [r] at new
    obtain ⟨h1, e1, i1, s1, _⟩ := parentcoords_inv i n kf
    simp only [e1, Option.bind_some]
    exact new i1 _ (by simp only [View.wrt]; group)
  | plain x =>
    rw [r] at new
    obtain ⟨h1, e1, i1, s1, _⟩ := parentcoords_inv i n kf
    simp only [e1, Option.bind_some]
    exact new i1 _ (by simp only [View.wrt]; group)
  | node y =>
    rw [r] at new
    obtain ⟨wy, yn⟩ := resolve_node r
    obtain ⟨h0, e0, i0, s0, _⟩ := world_inv i y (km y wy)
    obtain ⟨h1, e1, i1, s1, _⟩ := parentcoords_inv i0 n kf
    simp only [e0, e1, Option.bind_some]
    exact new i1 _ (by simp only [View.wrt]; group)

theorem transformation_inv {v : View G} {f d : Nat → Nat} {n m : Nat} {w : Wrt G}
    {h : Heap G} (i : Inv h v f d) {k : Nat} (kf : f n < k) (km : f m < k) (kx : ∀ x, w = .node x → f x < k) :
    ∃ h', transformation k h n m w = some ((v.wrt n w)⁻¹ * (v.world m * (v.world n)⁻¹) * v.wrt n w, h') ∧ Inv h' v f d := by
  unfold transformation
  obtain ⟨h1, e1, i1, s1, _⟩ := world_inv i m km
  obtain ⟨h2, e2, i2, s2, _⟩ := world_inv i1 n kf
  simp only [e1, e2, Option.bind_some]
  rw [← resolve_wrt w i2.par]
  cases r : w.resolve h2 n with
  | «local» => exact ⟨h2, by simp only [View.wrt]; congr 2; group, i2⟩
  | parent => exact ⟨h2, by simp only [View.wrt, loc_eq i2.toInv0]; congr 2; group, i2⟩
  | world => exact ⟨h2, by simp only [View.wrt]; congr 2; group, i2⟩
  | plain x => exact ⟨h2, by simp only [View.wrt]; congr 2; group, i2⟩
  | node y =>
    obtain ⟨wy, yn⟩ := resolve_node r
    obtain ⟨h3, e3, i3, s3, _⟩ := world_inv i2 y (kx y wy)
    simp only [e3, Option.map_some]
    exact ⟨h3, by simp only [View.wrt]; congr 2; group, i3⟩

/-! ### `:dissoc` and `:assoc` -/

/-- c has no parent any more. -/
def View.detach (v : View G) (c : Nat) : View G := ⟨fun x => if x = c then none else v.parent x, v.world⟩

/-- c has p as its parent. -/
def View.attach (v : View G) (p c : Nat) : View G := ⟨fun x => if x = c then some p else v.parent x, v.world⟩

theorem dissoc_inv {v : View G} {f d : Nat → Nat} {p c : Nat} {h : Heap G} (i : Inv h v f d) (e : v.parent c = some p)
    {k : Nat} (kf : f c < k) (kd : d c < k) : ∃ h', dissoc k h p c = some h' ∧ Inv h' (v.detach c) f d := by
  unfold dissoc
  rw [if_pos ((i.desc p c).2 e)]
  obtain ⟨h1, e1, i1, s1, _⟩ := world_inv i c kf
  have pc : p ≠ c := fun q => by have := i.up c p e; rw [q] at this; omega
  simp only [e1, Option.bind_some]
  rw [newcoords_eq]
  -- the state before `:newcoords`
  generalize h2e : (h1.setNode p { h1.node p with desc := (h1.node p).desc.filter (· ≠ c) }) = h2
  generalize h3e : (h2.setNode c { h2.node c with parent := if (h2.node c).parent = some p then none else (h2.node c).parent }) = h3
  have n2 : ∀ x, h2.node x = if x = p then { h1.node p with desc := (h1.node p).desc.filter (· ≠ c) } else h1.node x := fun x => by rw [← h2e]; rfl
  have n2c : h2.node c = h1.node c := by rw [n2, if_neg (Ne.symm pc)]
  have n3 : ∀ x, h3.node x = if x = c then { h1.node c with parent := none } else h2.node x := fun x => by
    rw [← h3e]; simp only [Heap.setNode, n2c, i1.par, e, if_true]
  have nn : h3.next = h1.next := by rw [← h3e, ← h2e]; rfl
  have nv : h3.val = h1.val := by rw [← h3e, ← h2e]; rfl
  have cell : ∀ x, (h3.node x).cell = (h1.node x).cell := fun x => by
    rw [n3]; split
    · rename_i q; rw [q]
    · rw [n2]; split
      · rename_i q; rw [q]
      · rfl
  have world : ∀ x, (h3.node x).world = (h1.node x).world := fun x => by
    rw [n3]; split
    · rename_i q; rw [q]
    · rw [n2]; split
      · rename_i q; rw [q]
      · rfl
  have changed : ∀ x, (h3.node x).changed = (h1.node x).changed := fun x => by
    rw [n3]; split
    · rename_i q; rw [q]
    · rw [n2]; split
      · rename_i q; rw [q]
      · rfl
  have par : ∀ x, (h3.node x).parent = (v.detach c).parent x := fun x => by
    rw [n3]; simp only [View.detach]; split
    · rfl
    · rw [n2]; split
      · rename_i q; rw [q]; exact i1.par p
      · exact i1.par x
  have sub : ∀ x y, (v.detach c).parent x = some y → v.parent x = some y := fun x y q => by
    simp only [View.detach] at q; split at q
    · cases q
    · exact q
  have desc : ∀ q x, x ∈ (h3.node q).desc ↔ (v.detach c).parent x = some q := fun q x => by
    simp only [View.detach]
    rw [n3]
    split
    · rename_i qc
      subst qc
      have : x ∈ (h1.node q).desc ↔ v.parent x = some q := i1.desc q x
      simp only [this]
      split
      · rename_i xc; subst xc
        simp only [reduceCtorEq, iff_false]
        rw [e]; intro z; injection z with z; exact pc z
      · exact Iff.rfl
    · rw [n2]
      split
      · rename_i qp
        subst qp
        simp only [List.mem_filter, i1.desc q x, ne_eq, decide_not, Bool.not_eq_eq_eq_not, Bool.not_true, decide_eq_false_iff_not]
        split
        · rename_i xc; simp [xc]
        · rename_i xc; simp [xc]
      · rename_i qp
        rw [i1.desc q x]
        split
        · rename_i xc; subst xc
          simp only [reduceCtorEq, iff_false]
          rw [e]; intro z; injection z with z; exact qp z.symm
        · exact Iff.rfl
  have inj : ∀ x y, (h3.node x).cell = (h3.node y).cell → x = y := fun x y => by rw [cell, cell]; exact i1.inj x y
  have fresh : ∀ x j, (h3.node x).cell = .later j → j < h3.next := fun x j => by rw [cell, nn]; exact i1.fresh x j
  have s := set_new inj fresh c (v.world c)
  have loc : ∀ x, h3.loc x = h1.loc x := fun x => by unfold Heap.loc; rw [cell, nv]
  obtain ⟨h', e', j, fl, _⟩ := finish (h := h3.newCell c (v.world c)) (v := v.detach c) (v' := v.detach c) (f := f) (d := d) (n := c) (k := k)
    (fun x => by rw [s.parent]; exact par x) s.inj s.fresh (fun x y q => i.up x y (sub x y q))
    (fun q x z => i.dn x q (sub x q ((desc q x).1 (by rw [← s.desc]; exact z)))) kd
    (fun x ne => by
      rw [s.other x ne, loc]
      have := i1.eqn x
      show v.world x = _
      rw [this]
      congr 1
      simp only [View.up, View.detach, if_neg ne])
    (fun x q _ z => by rw [s.desc]; exact (desc q x).2 z)
    (fun x q _ z w => by rw [s.changed, changed] at w ⊢; exact i1.closed x q (sub x q z) w)
    (fun x z => by rw [s.changed, changed] at z; rw [s.world, world]; exact i1.clean x z)
    (by
      rw [s.loc]
      have : (v.detach c).up c = 1 := by simp [View.up, View.detach]
      rw [this, one_mul]
      exact moved_refl (v.detach c) c)
  exact ⟨h', e', { j with
    desc := fun q x => by rw [fl.desc, s.desc]; exact desc q x
    dn := fun x q z => i.dn x q (sub x q z) }⟩

theorem dissoc_nothing {v : View G} {f d : Nat → Nat} {p c : Nat} {h : Heap G} (i : Inv h v f d) (e : v.parent c ≠ some p) (k : Nat) :
    dissoc k h p c = some h := by
  unfold dissoc
  rw [if_neg fun q => e ((i.desc p c).1 q)]

theorem below_detach {v : View G} {c x : Nat} (b : Below (v.detach c).parent c x) : Below v.parent c x := by
  induction b with
  | refl => exact .refl
  | step e _ ih =>
    simp only [View.detach] at e
    split at e
    · cases e
    · exact .step e ih

open Classical in
/-- Attaching c, which has no parent, to p. -/
theorem attach_inv {v v' : View G} {f d : Nat → Nat} {p c : Nat} {g : G} (nb : ¬ Below v.parent c p) (e : v.parent c = none)
    (m : Moved (v.attach p c) v' c (v.world p * g)) {h : Heap G} (i : Inv h v f d) {k : Nat} (kd : d c < k) :
    ∃ h', ((newcoords k (h.setNode c { h.node c with parent := some p }) c g).map fun (h : Heap G) => h.setNode p { h.node p with desc := c :: (h.node p).desc })
        = some h' ∧
      Inv h' v' (fun x => if Below v.parent c x then f x + f p + 1 else f x) (fun x => if Below v.parent c x then d x else d x + d c + 1) := by
  have pc : p ≠ c := fun q => nb (by rw [q]; exact .refl)
  rw [newcoords_eq]
  generalize h1e : h.setNode c { h.node c with parent := some p } = h1
  have n1 : ∀ x, h1.node x = if x = c then { h.node c with parent := some p } else h.node x := fun x => by rw [← h1e]; rfl
  have nn : h1.next = h.next := by rw [← h1e]; rfl
  have nv : h1.val = h.val := by rw [← h1e]; rfl
  have cell : ∀ x, (h1.node x).cell = (h.node x).cell := fun x => by
    rw [n1]; split
    · rename_i q; rw [q]
    · rfl
  have world : ∀ x, (h1.node x).world = (h.node x).world := fun x => by
    rw [n1]; split
    · rename_i q; rw [q]
    · rfl
  have changed : ∀ x, (h1.node x).changed = (h.node x).changed := fun x => by
    rw [n1]; split
    · rename_i q; rw [q]
    · rfl
  have desc : ∀ x, (h1.node x).desc = (h.node x).desc := fun x => by
    rw [n1]; split
    · rename_i q; rw [q]
    · rfl
  have par : ∀ x, (h1.node x).parent = (v.attach p c).parent x := fun x => by
    rw [n1]; simp only [View.attach]; split
    · rfl
    · exact i.par x
  have old : ∀ x y, x ≠ c → ((v.attach p c).parent x = some y ↔ v.parent x = some y) := fun x y ne => by
    simp only [View.attach, if_neg ne]
  have inj : ∀ x y, (h1.node x).cell = (h1.node y).cell → x = y := fun x y => by rw [cell, cell]; exact i.inj x y
  have fresh : ∀ x j, (h1.node x).cell = .later j → j < h1.next := fun x j => by rw [cell, nn]; exact i.fresh x j
  have s := set_new inj fresh c g
  have loc : ∀ x, h1.loc x = h.loc x := fun x => by unfold Heap.loc; rw [cell, nv]
  have up' : ∀ x y, (v.attach p c).parent x = some y →
      (if Below v.parent c y then f y + f p + 1 else f y) < (if Below v.parent c x then f x + f p + 1 else f x) := fun x y q => by
    by_cases xc : x = c
    · subst xc
      simp only [View.attach, if_true, Option.some.injEq] at q
      subst q
      rw [if_neg nb, if_pos .refl]; omega
    · have q := (old x y xc).1 q
      have := i.up x y q
      by_cases b : Below v.parent c y
      · rw [if_pos b, if_pos (.step q b)]; omega
      · rw [if_neg b]; split <;> omega
  have dn' : ∀ x y, (v.attach p c).parent x = some y →
      (if Below v.parent c x then d x else d x + d c + 1) < (if Below v.parent c y then d y else d y + d c + 1) := fun x y q => by
    by_cases xc : x = c
    · subst xc
      simp only [View.attach, if_true, Option.some.injEq] at q
      subst q
      rw [if_neg nb, if_pos .refl]; omega
    · have q := (old x y xc).1 q
      have := i.dn x y q
      by_cases b : Below v.parent c y
      · rw [if_pos b, if_pos (.step q b)]; omega
      · rw [if_neg b]; split <;> omega
  obtain ⟨h', e', j, fl, cn⟩ := finish (h := h1.newCell c g) (v := v.attach p c) (v' := v')
    (f := fun x => if Below v.parent c x then f x + f p + 1 else f x) (d := d) (n := c) (k := k)
    (fun x => by rw [s.parent]; exact par x) s.inj s.fresh up'
    (fun q x z => i.dn x q ((i.desc q x).1 (by rw [← desc, ← s.desc]; exact z))) kd
    (fun x ne => by
      rw [s.other x ne, loc]
      show v.world x = _
      rw [i.eqn x]
      congr 1
      simp only [View.up, View.attach, if_neg ne])
    (fun x q ne z => by rw [s.desc, desc]; exact (i.desc q x).2 ((old x q ne).1 z))
    (fun x q ne z w => by rw [s.changed, changed] at w ⊢; exact i.closed x q ((old x q ne).1 z) w)
    (fun x z => by rw [s.changed, changed] at z; rw [s.world, world]; exact i.clean x z)
    (by
      rw [s.loc]
      have : (v.attach p c).up c = v.world p := by simp [View.up, View.attach]
      rw [this]
      exact m)
  rw [e', Option.map_some]
  have nf : ∀ x, (h'.setNode p { h'.node p with desc := c :: (h'.node p).desc }).node x =
      { h'.node x with desc := if x = p then c :: (h'.node x).desc else (h'.node x).desc } := fun x => by
    simp only [Heap.setNode]; split
    · rename_i q; rw [q]
    · rfl
  refine ⟨_, rfl, ⟨⟨fun x => ?_, fun x y => ?_, fun x y => ?_, j.up, fun x => ?_, fun x y => ?_, fun x => ?_⟩, fun q x => ?_, ?_⟩⟩
  · rw [nf]; exact j.par x
  · rw [nf, nf]; exact j.inj x y
  · rw [nf]; exact j.fresh x y
  · rw [j.eqn x]; unfold Heap.loc; rw [nf]; rfl
  · rw [nf, nf]; exact j.closed x y
  · rw [nf]; exact j.clean x
  · rw [nf]
    have dd : x ∈ (h'.node q).desc ↔ v.parent x = some q := by rw [fl.desc, s.desc, desc]; exact i.desc q x
    rw [m.1]
    simp only [View.attach]
    by_cases xc : x = c
    · subst xc
      rw [if_pos rfl]
      split
      · rename_i qp; simp [qp]
      · rename_i qp; rw [dd, e]
        constructor
        · intro z; cases z
        · intro z; injection z with z; exact absurd z.symm qp
    · rw [if_neg xc]
      split
      · rw [List.mem_cons, dd]; simp [xc]
      · exact dd
  · rw [m.1]; exact dn'

theorem detach_none {v : View G} {c : Nat} (e : v.parent c = none) : v.detach c = v := by
  unfold View.detach
  cases v with
  | mk pa w =>
    congr
    funext x
    split
    · rename_i q; rw [q]; exact e.symm
    · rfl

/-- Where `:assoc` puts c. -/
def View.target (v : View G) (p c : Nat) : Option G → G
  | some g => v.world p * g
  | none => v.world c

open Classical in
theorem assoc_inv {v v' : View G} {f d : Nat → Nat} {p c : Nat} {at_ : Option G} (nb : ¬ Below v.parent c p) (ne : v.parent c ≠ some p)
    (m : Moved (v.attach p c) v' c (v.target p c at_))
    {h : Heap G} (i : Inv h v f d) {k : Nat} (kp : f p < k) (kf : f c < k) (kd : d c < k) :
    ∃ h', assoc k h p c at_ = some h' ∧
      Inv h' v' (fun x => if Below (v.detach c).parent c x then f x + f p + 1 else f x)
        (fun x => if Below (v.detach c).parent c x then d x else d x + d c + 1) := by
  unfold assoc
  rw [if_neg fun q => ne ((i.desc p c).1 q)]
  have att : (v.detach c).attach p c = v.attach p c := by
    unfold View.attach View.detach
    congr
    funext x
    split
    · rfl
    · rename_i q; simp [q]
  have fin : ∀ (g : G) (h1 : Heap G), Inv h1 v f d → v.world p * g = (v.target p c at_) →
      ∃ h', ((obey k h1 c p).bind fun h => (newcoords k h c g).map fun (h : Heap G) => h.setNode p { h.node p with desc := c :: (h.node p).desc }) = some h' ∧
      Inv h' v' (fun x => if Below (v.detach c).parent c x then f x + f p + 1 else f x)
        (fun x => if Below (v.detach c).parent c x then d x else d x + d c + 1) := fun g h1 i1 ge => by
    have ob : ∃ h2, obey k h1 c p = some (h2.setNode c { h2.node c with parent := some p }) ∧ Inv h2 (v.detach c) f d := by
      unfold obey
      rw [i1.par]
      cases pe : v.parent c with
      | none => exact ⟨h1, rfl, by rw [detach_none pe]; exact i1⟩
      | some q =>
        obtain ⟨h2, e2, i2⟩ := dissoc_inv i1 pe kf kd
        exact ⟨h2, by simp only [e2, Option.map_some], i2⟩
    obtain ⟨h2, e2, i2⟩ := ob
    simp only [e2, Option.bind_some]
    exact attach_inv (v := v.detach c) (g := g) (fun b => nb (below_detach b)) (by simp [View.detach]) (by rw [att]; exact ge ▸ m) i2 kd
  cases at_ with
  | some g => exact fin g h i rfl
  | none =>
    obtain ⟨h1, e1, i1, _⟩ := world_inv i p kp
    obtain ⟨h2, e2, i2, _⟩ := world_inv i1 c kf
    simp only [e1, e2, Option.bind_some, Option.map_some]
    exact fin _ h2 i2 (by simp only [View.target]; group)

/-! ### Programs -/

theorem step_inv {v v' : View G} {f d : Nat → Nat} {op : Op G} {r : Option G} (al : Allowed v op) (do_ : Does v op r v') :
    ∃ f' d' k0, ∀ k, k0 ≤ k → ∀ h, Inv h v f d → ∃ h', step k h op = some (r, h') ∧ Inv h' v' f' d' := by
  classical
  cases op with
  | world n =>
    obtain ⟨re, ve⟩ := do_
    subst re; subst ve
    refine ⟨f, d, f n + 1, fun k kk h i => ?_⟩
    obtain ⟨h1, e1, i1, _⟩ := world_inv i n (k := k) (by omega)
    exact ⟨h1, by simp only [step, e1, Option.map_some], i1⟩
  | transformation n m w =>
    obtain ⟨re, ve⟩ := do_
    subst re; subst ve
    refine ⟨f, d, f n + f m + (match w with | .node x => f x | _ => 0) + 1, fun k kk h i => ?_⟩
    obtain ⟨h1, e1, i1⟩ := transformation_inv (w := w) i (n := n) (m := m) (k := k) (by omega) (by omega) (fun x e => by subst e; simp only at kk; omega)
    exact ⟨h1, by simp only [step, e1, Option.map_some], i1⟩
  | transform n g w =>
    obtain ⟨re, mv⟩ := do_
    subst re
    refine ⟨f, d, f n + d n + (match w with | .node x => f x | _ => 0) + 1, fun k kk h i => ?_⟩
    obtain ⟨h1, e1, i1⟩ := transform_inv (w := w) (fun m e => by subst e; exact al) mv i (k := k) (by omega) (by omega) (fun x e => by subst e; simp only at kk; omega)
    exact ⟨h1, by simp only [step, e1, Option.map_some], i1⟩
  | moveTo n g w =>
    obtain ⟨re, mv⟩ := do_
    subst re
    refine ⟨f, d, f n + d n + (match w with | .node x => f x | _ => 0) + 1, fun k kk h i => ?_⟩
    obtain ⟨h1, e1, i1⟩ := moveTo_inv (w := w) mv i (k := k) (by omega) (by omega) (fun x e => by subst e; simp only at kk; omega)
    exact ⟨h1, by simp only [step, e1, Option.map_some], i1⟩
  | dissoc p c =>
    obtain ⟨re, ve⟩ := do_
    subst re
    refine ⟨f, d, f c + d c + 1, fun k kk h i => ?_⟩
    by_cases e : v.parent c = some p
    · rw [if_pos e] at ve; subst ve
      obtain ⟨h1, e1, i1⟩ := dissoc_inv i e (k := k) (by omega) (by omega)
      exact ⟨h1, by simp only [step, e1, Option.map_some], i1⟩
    · rw [if_neg e] at ve; subst ve
      exact ⟨h, by simp only [step, dissoc_nothing i e, Option.map_some], i⟩
  | assoc p c at_ =>
    obtain ⟨re, ve⟩ := do_
    subst re
    by_cases e : v.parent c = some p
    · rw [if_pos e] at ve; subst ve
      refine ⟨f, d, 0, fun k kk h i => ⟨h, ?_, i⟩⟩
      simp only [step, assoc, if_pos ((i.desc p c).2 e), Option.map_some]
    · rw [if_neg e] at ve
      refine ⟨fun x => if Below (v.detach c).parent c x then f x + f p + 1 else f x,
        fun x => if Below (v.detach c).parent c x then d x else d x + d c + 1, f p + f c + d c + 1, fun k kk h i => ?_⟩
      have mv : Moved (v.attach p c) v' c (v.target p c at_) := by
        cases at_ with
        | some g => exact ve
        | none => simp only at ve; subst ve; exact moved_refl (v.attach p c) c
      obtain ⟨h1, e1, i1⟩ := assoc_inv al e mv i (k := k) (by omega) (by omega) (by omega)
      exact ⟨h1, by simp only [step, e1, Option.map_some], i1⟩

theorem runs_inv {v v' : View G} {ops : List (Op G)} {rs : List (Option G)} (r : Runs v ops rs v') : ∀ (f d : Nat → Nat),
    ∃ f' d' k0, ∀ k, k0 ≤ k → ∀ h, Inv h v f d → ∃ h', run k h ops = some (rs, h') ∧ Inv h' v' f' d' := by
  induction r with
  | nil v => exact fun f d => ⟨f, d, 0, fun k _ h i => ⟨h, rfl, i⟩⟩
  | cons al do_ _ ih =>
    intro f d
    obtain ⟨f1, d1, k1, s1⟩ := step_inv (f := f) (d := d) al do_
    obtain ⟨f2, d2, k2, s2⟩ := ih f1 d1
    refine ⟨f2, d2, k1 + k2, fun k kk h i => ?_⟩
    obtain ⟨h1, e1, i1⟩ := s1 k (by omega) h i
    obtain ⟨h2, e2, i2⟩ := s2 k (by omega) h1 i1
    exact ⟨h2, by simp only [run, e1, e2, Option.bind_some, Option.map_some], i2⟩

theorem init_inv (at_ : Nat → G) : Inv (init at_) ⟨fun _ => none, at_⟩ (fun _ => 0) (fun _ => 0) where
  par _ := rfl
  inj n m e := by simpa [init] using e
  fresh n i e := by simp [init] at e
  up _ _ e := by cases e
  eqn n := by simp [View.up, init, Heap.loc]
  closed _ _ e := by cases e
  clean n e := by simp [init] at e
  desc p c := by simp [init]
  dn _ _ e := by cases e

end Eus.Crd
