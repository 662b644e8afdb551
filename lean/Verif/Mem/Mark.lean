import Verif.Mem.Model
import Mathlib.Tactic.Set
set_option autoImplicit false
/-
What the mark phase does.
-/
namespace Eus.Mem

/-- Reachable from the cells `R` along the pointers the collector follows. -/
inductive ReachFrom (obj : Cell → Obj) (R : List Cell) : Cell → Prop
  | root (x : Cell) (h : x ∈ R) : ReachFrom obj R x
  | step (x y : Cell) (h : ReachFrom obj R x) (h' : y ∈ children (obj x)) : ReachFrom obj R y

theorem ReachFrom.mono {obj : Cell → Obj} {R R' : List Cell} (h : ∀ x ∈ R, ReachFrom obj R' x) {x : Cell}
    (hx : ReachFrom obj R x) : ReachFrom obj R' x := by
  induction hx with
  | root x hx => exact h x hx
  | step x y _ hy ih => exact .step x y ih hy

/-- `H'` is `H` with some marks set. -/
structure MarkOnly (H H' : Heap) : Prop where
  rest : H' = { H with hdr := H'.hdr }
  bits : ∀ x, H'.hdr x = { H.hdr x with mark := (H'.hdr x).mark }
  mono : ∀ x, (H.hdr x).mark = true → (H'.hdr x).mark = true

theorem MarkOnly.refl (H : Heap) : MarkOnly H H := ⟨rfl, fun _ => rfl, fun _ h => h⟩

theorem MarkOnly.obj {H H' : Heap} (a : MarkOnly H H') : H'.obj = H.obj := by rw [a.rest]

theorem MarkOnly.trans {H H' H'' : Heap} (a : MarkOnly H H') (b : MarkOnly H' H'') : MarkOnly H H'' := by
  refine ⟨?_, fun x => ?_, fun x h => b.mono x (a.mono x h)⟩
  · rw [b.rest, a.rest]
  · rw [b.bits x, a.bits x]

theorem markon_only (H : Heap) (p : Cell) : MarkOnly H (markon H p) := by
  refine ⟨rfl, fun x => ?_, fun x h => ?_⟩
  · by_cases hx : x = p
    · subst hx; simp [markon, upd]
    · simp [markon, upd, hx]
  · by_cases hx : x = p
    · subst hx; simp [markon, upd]
    · simpa [markon, upd, hx] using h

theorem markon_mark (H : Heap) (p x : Cell) :
    ((markon H p).hdr x).mark = true ↔ (H.hdr x).mark = true ∨ x = p := by
  by_cases hx : x = p
  · subst hx; simp [markon, upd]
  · simp [markon, upd, hx]

/-- The marks added from the roots `R` and the cells `L` marked without being followed. -/
structure MarkRel (H H' : Heap) (R L : List Cell) : Prop where
  only : MarkOnly H H'
  roots : ∀ x ∈ R, (H'.hdr x).mark = true
  loc : ∀ x ∈ L, (H'.hdr x).mark = true
  sound : ∀ x, (H'.hdr x).mark = true → (H.hdr x).mark = true ∨ ReachFrom H.obj R x ∨ x ∈ L
  closed : ∀ x, (H'.hdr x).mark = true → (H.hdr x).mark = false → x ∉ L →
    ∀ y ∈ children (H.obj x), (H'.hdr y).mark = true

theorem MarkRel.refl (H : Heap) : MarkRel H H [] [] :=
  ⟨.refl H, by simp, by simp, fun x h => Or.inl h, fun x h h' => by rw [h] at h'; cases h'⟩

theorem MarkRel.trans {H H1 H2 : Heap} {R1 L1 R2 L2 : List Cell} (a : MarkRel H H1 R1 L1)
    (b : MarkRel H1 H2 R2 L2) : MarkRel H H2 (R1 ++ R2) (L1 ++ L2) := by
  have ho := a.only.obj
  refine ⟨a.only.trans b.only, fun x hx => ?_, fun x hx => ?_, fun x hx => ?_, fun x hx h0 hL y hy => ?_⟩
  · rcases List.mem_append.1 hx with h | h
    · exact b.only.mono x (a.roots x h)
    · exact b.roots x h
  · rcases List.mem_append.1 hx with h | h
    · exact b.only.mono x (a.loc x h)
    · exact b.loc x h
  · rcases b.sound x hx with h | h | h
    · rcases a.sound x h with h | h | h
      · exact Or.inl h
      · exact Or.inr (Or.inl (h.mono fun x hx => .root x (by simp [hx])))
      · exact Or.inr (Or.inr (by simp [h]))
    · rw [ho] at h
      exact Or.inr (Or.inl (h.mono fun x hx => .root x (by simp [hx])))
    · exact Or.inr (Or.inr (by simp [h]))
  · simp only [List.mem_append, not_or] at hL
    by_cases h1 : (H1.hdr x).mark = true
    · exact b.only.mono y (a.closed x h1 h0 hL.1 y hy)
    · exact b.closed x hx (by simpa using h1) hL.2 y (by rw [ho]; exact hy)

theorem markLoop_spec : ∀ (n : Nat) (H : Heap) (st : List Cell) (H' : Heap),
    markLoop n H st = .ok H' → MarkRel H H' st [] := by
  intro n
  induction n with
  | zero => intro H st H' h; simp [markLoop] at h
  | succ n ih =>
    intro H st H' h
    cases st with
    | nil =>
      simp [markLoop] at h
      subst h
      exact .refl H
    | cons p st =>
      rw [markLoop] at h
      by_cases hm : (H.hdr p).mark = true
      · rw [if_pos hm] at h
        have r := ih _ _ _ h
        refine ⟨r.only, fun x hx => ?_, by simp, fun x hx => ?_, r.closed⟩
        · rcases List.mem_cons.1 hx with rfl | hx
          · exact r.only.mono _ hm
          · exact r.roots x hx
        · rcases r.sound x hx with h | h | h
          · exact Or.inl h
          · exact Or.inr (Or.inl (h.mono fun x hx => .root x (by simp [hx])))
          · cases h
      · rw [if_neg hm] at h
        have r := ih _ _ _ h
        have ho : (markon H p).obj = H.obj := rfl
        refine ⟨(markon_only H p).trans r.only, fun x hx => ?_, by simp, fun x hx => ?_, fun x hx h0 _ y hy => ?_⟩
        · rcases List.mem_cons.1 hx with rfl | hx
          · exact r.only.mono _ ((markon_mark _ _ _).2 (Or.inr rfl))
          · exact r.roots x (by simp [hx])
        · rcases r.sound x hx with h | h | h
          · rcases (markon_mark _ _ _).1 h with h | rfl
            · exact Or.inl h
            · exact Or.inr (Or.inl (.root _ (by simp)))
          · refine Or.inr (Or.inl (h.mono fun z hz => ?_))
            rcases List.mem_append.1 hz with hz | hz
            · exact .step p z (.root p (by simp)) (List.mem_reverse.1 hz)
            · exact .root z (by simp [hz])
          · cases h
        · by_cases hx' : ((markon H p).hdr x).mark = true
          · rcases (markon_mark _ _ _).1 hx' with h | rfl
            · rw [h] at h0; cases h0
            · exact r.roots y (by simp [hy])
          · exact r.closed x hx (by simpa using hx') (by simp) y hy

theorem markRoots_spec (n : Nat) : ∀ (rs : List Cell) (H H' : Heap),
    markRoots n rs H = .ok H' → MarkRel H H' rs [] := by
  intro rs
  induction rs with
  | nil => intro H H' h; simp [markRoots] at h; subst h; exact .refl H
  | cons r rs ih =>
    intro H H' h
    rw [markRoots] at h
    cases h1 : markLoop n H [r] with
    | ok H1 =>
      rw [h1] at h
      have := (markLoop_spec n H [r] H1 h1).trans (ih H1 H' h)
      simpa using this
    | err => rw [h1] at h; cases h
    | ub => rw [h1] at h; cases h
    | fuel => rw [h1] at h; cases h

theorem foldMarkon (L : List Cell) : ∀ (H : Heap), MarkRel H (L.foldl markon H) [] L := by
  induction L with
  | nil => intro H; exact .refl H
  | cons p L ih =>
    intro H
    have a : MarkRel H (markon H p) [] [p] := by
      refine ⟨markon_only H p, by simp, fun x hx => (markon_mark _ _ _).2 (Or.inr (by simpa using hx)),
        fun x hx => ?_, fun x hx h0 hL => ?_⟩
      · rcases (markon_mark _ _ _).1 hx with h | h
        · exact Or.inl h
        · exact Or.inr (Or.inr (by simp [h]))
      · rcases (markon_mark _ _ _).1 hx with h | h
        · rw [h] at h0; cases h0
        · exact absurd (by simp [h]) hL
    have := a.trans (ih (markon H p))
    simpa using this

/-- The cells in the local free lists of a thread. -/
def locals (H : Heap) (t : Nat) : List Cell := [1, 2, 3, 4, 5].flatMap (H.tb t)

theorem MarkRel.tb {H H' : Heap} {R L : List Cell} (a : MarkRel H H' R L) : H'.tb = H.tb := by rw [a.only.rest]

theorem markLocal_spec (t : Nat) (H : Heap) : MarkRel H (markLocal t H) [] (locals H t) := by
  unfold markLocal locals
  have : ∀ (js : List Nat) (H0 : Heap), H0.tb = H.tb →
      MarkRel H0 (js.foldl (fun H j => (H.tb t j).foldl markon H) H0) [] (js.flatMap (H.tb t)) := by
    intro js
    induction js with
    | nil => intro H0 _; exact .refl H0
    | cons j js ih =>
      intro H0 h0
      have a := foldMarkon (H0.tb t j) H0
      have b := ih ((H0.tb t j).foldl markon H0) (by rw [a.tb, h0])
      have := a.trans b
      simp only [List.foldl_cons, List.flatMap_cons]
      rw [← h0] at this ⊢
      simpa using this
  exact this _ H rfl

/-- The roots of a thread. -/
def threadRoots (H : Heap) (t : Nat) : List Cell := H.stk t ++ (H.spec t ++ (H.last t).toList)

theorem markThreads_spec (n : Nat) (H0 : Heap) : ∀ (ts : List Nat) (H H' : Heap), H = { H0 with hdr := H.hdr } →
    markThreads n ts H = .ok H' → MarkRel H H' (ts.flatMap (threadRoots H0)) (ts.flatMap (locals H0)) := by
  intro ts
  induction ts with
  | nil => intro H H' _ h; simp [markThreads] at h; subst h; exact .refl H
  | cons t ts ih =>
    intro H H' hr h
    rw [markThreads] at h
    cases h1 : markRoots n (H.stk t) H with
    | ok H1 =>
      rw [h1] at h
      simp only [Res.bind] at h
      have a := markRoots_spec n _ _ _ h1
      have b := markLocal_spec t H1
      cases h2 : markRoots n (H1.spec t ++ (H1.last t).toList) (markLocal t H1) with
      | ok H2 =>
        rw [h2] at h
        simp only at h
        have c := markRoots_spec n _ _ _ h2
        have e1 : H1 = { H0 with hdr := H1.hdr } := by rw [a.only.rest, hr]
        have e2 : H2 = { H0 with hdr := H2.hdr } := by rw [c.only.rest, b.only.rest, e1]
        have d := ih H2 H' e2 h
        have := ((a.trans b).trans c).trans d
        have s1 : H.stk t = H0.stk t := by rw [hr]
        have s2 : H1.spec t = H0.spec t := by rw [e1]
        have s3 : H1.last t = H0.last t := by rw [e1]
        have s4 : locals H1 t = locals H0 t := by unfold locals; rw [e1]
        rw [s1, s2, s3, s4] at this
        simp only [List.flatMap_cons, threadRoots]
        simpa using this
      | err => rw [h2] at h; cases h
      | ub => rw [h2] at h; cases h
      | fuel => rw [h2] at h; cases h
    | err => rw [h1] at h; cases h
    | ub => rw [h1] at h; cases h
    | fuel => rw [h1] at h; cases h

/-- All roots. -/
def rootsL (H : Heap) : List Cell :=
  H.sys ++ (List.range MAXTHREAD).flatMap (threadRoots H) ++ H.cls

/-- All cells in local free lists. -/
def tbL (H : Heap) : List Cell := (List.range MAXTHREAD).flatMap (locals H)

theorem markall_spec (n : Nat) (H H' : Heap) (h : markall n H = .ok H') :
    MarkRel H H' (rootsL H) (tbL H) := by
  unfold markall at h
  cases h1 : markRoots n H.sys H with
  | ok H1 =>
    rw [h1] at h
    simp only [Res.bind] at h
    cases h2 : markThreads n (List.range MAXTHREAD) H1 with
    | ok H2 =>
      rw [h2] at h
      simp only at h
      have a := markRoots_spec n _ _ _ h1
      have b := markThreads_spec n H _ H1 H2 a.only.rest h2
      have c := markRoots_spec n _ _ _ h
      have e : H2.cls = H.cls := by rw [b.only.rest, a.only.rest]
      have := (a.trans b).trans c
      rw [e] at this
      simpa [rootsL, tbL] using this
    | err => rw [h2] at h; cases h
    | ub => rw [h2] at h; cases h
    | fuel => rw [h2] at h; cases h
  | err => rw [h1] at h; cases h
  | ub => rw [h1] at h; cases h
  | fuel => rw [h1] at h; cases h

/-- Starting without marks, the marked cells are the reachable ones and those in local lists, if no
reachable cell is in a local list. -/
theorem markall_iff (n : Nat) (H H' : Heap) (h : markall n H = .ok H') (h0 : ∀ x, ReachFrom H.obj (rootsL H) x →
    (H.hdr x).mark = false) (h0' : ∀ x, (H.hdr x).mark = true → False)
    (hl : ∀ x, ReachFrom H.obj (rootsL H) x → x ∉ tbL H) (x : Cell) :
    (H'.hdr x).mark = true ↔ ReachFrom H.obj (rootsL H) x ∨ x ∈ tbL H := by
  have r := markall_spec n H H' h
  constructor
  · intro hx
    rcases r.sound x hx with h | h | h
    · exact absurd (h0' x h) id
    · exact Or.inl h
    · exact Or.inr h
  · rintro (hx | hx)
    · induction hx with
      | root x hx => exact r.roots x hx
      | step x y hx hy ih => exact r.closed x ih (h0 x hx) (hl x hx) y hy
    · exact r.loc x hx

/-! ### termination -/

/-- Work left: the unmarked cells of `U` with their pointers. -/
def work (U : List Cell) (H : Heap) : Nat :=
  (U.map fun x => if (H.hdr x).mark then 0 else 1 + (children (H.obj x)).length).sum

theorem work_mono {U : List Cell} {H H' : Heap} (a : MarkOnly H H') : work U H' ≤ work U H := by
  unfold work
  rw [a.obj]
  induction U with
  | nil => simp
  | cons x U ih =>
    simp only [List.map_cons, List.sum_cons]
    have : (if (H'.hdr x).mark then 0 else 1 + (children (H.obj x)).length) ≤
        (if (H.hdr x).mark then 0 else 1 + (children (H.obj x)).length) := by
      by_cases h : (H.hdr x).mark = true
      · rw [if_pos (a.mono x h), if_pos h]; exact Nat.le_refl _
      · rw [if_neg h]; split <;> omega
    omega

theorem work_markon {U : List Cell} {H : Heap} {p : Cell} (hp : p ∈ U) (hm : (H.hdr p).mark ≠ true) :
    work U (markon H p) + 1 + (children (H.obj p)).length ≤ work U H := by
  induction U with
  | nil => cases hp
  | cons x U ih =>
    have hmono : work U (markon H p) ≤ work U H := work_mono (markon_only H p)
    unfold work at hmono ih ⊢
    simp only [List.map_cons, List.sum_cons]
    have ho : (markon H p).obj = H.obj := rfl
    rw [ho] at hmono ih ⊢
    by_cases hx : x = p
    · subst hx
      rw [if_pos ((markon_mark _ _ _).2 (Or.inr rfl)), if_neg hm]
      omega
    · have := ih (by simpa [Ne.symm hx] using hp)
      have h1 : ((markon H p).hdr x).mark = (H.hdr x).mark := by simp [markon, upd, hx]
      rw [h1]
      omega

theorem markLoop_ok (U : List Cell) : ∀ (n : Nat) (H : Heap) (st : List Cell),
    (∀ x ∈ st, x ∈ U) → (∀ x ∈ U, ∀ y ∈ children (H.obj x), y ∈ U) → work U H + st.length < n →
    ∃ H', markLoop n H st = .ok H' := by
  intro n
  induction n with
  | zero => intro H st _ _ h; omega
  | succ n ih =>
    intro H st hs hc h
    cases st with
    | nil => exact ⟨H, rfl⟩
    | cons p st =>
      rw [markLoop]
      simp only [List.length_cons] at h
      by_cases hm : (H.hdr p).mark = true
      · rw [if_pos hm]
        exact ih H st (fun x hx => hs x (by simp [hx])) hc (by omega)
      · rw [if_neg hm]
        have hw := work_markon (hs p (by simp)) hm
        refine ih _ _ (fun x hx => ?_) hc (by simp; omega)
        rcases List.mem_append.1 hx with hx | hx
        · exact hc p (hs p (by simp)) x (List.mem_reverse.1 hx)
        · exact hs x (by simp [hx])

theorem markRoots_ok (U : List Cell) (n : Nat) : ∀ (rs : List Cell) (H : Heap),
    (∀ x ∈ rs, x ∈ U) → (∀ x ∈ U, ∀ y ∈ children (H.obj x), y ∈ U) → work U H + 1 < n →
    ∃ H', markRoots n rs H = .ok H' := by
  intro rs
  induction rs with
  | nil => intro H _ _ _; exact ⟨H, rfl⟩
  | cons r rs ih =>
    intro H hr hc h
    obtain ⟨H1, h1⟩ := markLoop_ok U n H [r] (by simpa using hr r (by simp)) hc (by simpa using h)
    have a := markLoop_spec n H [r] H1 h1
    have := work_mono (U := U) a.only
    rw [markRoots, h1]
    exact ih H1 (fun x hx => hr x (by simp [hx])) (by rw [a.only.obj]; exact hc) (by omega)

theorem markThreads_ok (U : List Cell) (n : Nat) (H0 : Heap) : ∀ (ts : List Nat) (H : Heap),
    H = { H0 with hdr := H.hdr } → (∀ x ∈ ts.flatMap (threadRoots H0), x ∈ U) →
    (∀ x ∈ U, ∀ y ∈ children (H.obj x), y ∈ U) → work U H + 1 < n →
    ∃ H', markThreads n ts H = .ok H' := by
  intro ts
  induction ts with
  | nil => intro H _ _ _ _; exact ⟨H, rfl⟩
  | cons t ts ih =>
    intro H hr hR hc h
    simp only [List.flatMap_cons, threadRoots, List.mem_append] at hR
    obtain ⟨H1, h1⟩ := markRoots_ok U n (H.stk t) H (fun x hx => hR x (by rw [hr] at hx; simp [hx])) hc h
    have a := markRoots_spec n _ _ _ h1
    have b := markLocal_spec t H1
    have e1 : H1 = { H0 with hdr := H1.hdr } := by rw [a.only.rest, hr]
    have w1 := work_mono (U := U) (a.only.trans b.only)
    have o1 := (a.only.trans b.only).obj
    obtain ⟨H2, h2⟩ := markRoots_ok U n (H1.spec t ++ (H1.last t).toList) (markLocal t H1)
      (fun x hx => hR x (by
        rw [e1] at hx
        rcases List.mem_append.1 hx with hx | hx
        · exact Or.inl (Or.inr (Or.inl hx))
        · exact Or.inl (Or.inr (Or.inr hx)))) (by rw [o1]; exact hc) (by omega)
    have c := markRoots_spec n _ _ _ h2
    have w2 := work_mono (U := U) c.only
    obtain ⟨H3, h3⟩ := ih H2 (by rw [c.only.rest, b.only.rest, e1])
      (fun x hx => hR x (Or.inr hx)) (by rw [c.only.obj, o1]; exact hc) (by omega)
    refine ⟨H3, ?_⟩
    rw [markThreads, h1]
    simp only [Res.bind]
    rw [h2]
    exact h3

/-- The mark phase ends normally with enough fuel. -/
theorem markall_ok (U : List Cell) (n : Nat) (H : Heap) (hR : ∀ x ∈ rootsL H, x ∈ U)
    (hc : ∀ x ∈ U, ∀ y ∈ children (H.obj x), y ∈ U) (h : work U H + 1 < n) :
    ∃ H', markall n H = .ok H' := by
  simp only [rootsL, List.mem_append] at hR
  obtain ⟨H1, h1⟩ := markRoots_ok U n H.sys H (fun x hx => hR x (Or.inl (Or.inl hx))) hc h
  have a := markRoots_spec n _ _ _ h1
  have w1 := work_mono (U := U) a.only
  obtain ⟨H2, h2⟩ := markThreads_ok U n H (List.range MAXTHREAD) H1 a.only.rest
    (fun x hx => hR x (Or.inl (Or.inr hx))) (by rw [a.only.obj]; exact hc) (by omega)
  have b := markThreads_spec n H _ H1 H2 a.only.rest h2
  have w2 := work_mono (U := U) b.only
  obtain ⟨H3, h3⟩ := markRoots_ok U n H2.cls H2 (fun x hx => hR x (Or.inr (by
    rw [b.only.rest, a.only.rest] at hx; exact hx))) (by rw [b.only.obj, a.only.obj]; exact hc) (by omega)
  refine ⟨H3, ?_⟩
  rw [markall, h1]
  simp only [Res.bind]
  rw [h2]
  exact h3

end Eus.Mem
