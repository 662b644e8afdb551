import Verif.Cpy.Proofs
set_option autoImplicit false
/-! Property C30. -/
namespace Eus.Cpy

/-- C30 (objects that fill word 1; for the others see `C30_one_slot_wrong`): `copy-object` of any value in any heap —
shared, cyclic, of any depth — gives an isomorphic copy made of new objects, and leaves every object that was there as
it was; or it says that the object is too big, which only happens when the stack has fewer places than there are
objects, and then too nothing is changed. -/
theorem C30_copy_partial (s : St) (hg : Good s.next s.cell) (lim fuel : Nat) (hfuel : s.next + 1 ≤ fuel) (v : Val)
    (hv : v ≠ .null) (hvn : ∀ o, v = .ref o → o < s.next) (hbig : ∀ o, Reach s.cell v o → (s.cell o).Big) :
    let r := COPYOBJ lim fuel s v
    (∀ o, o < s.next → r.2.cell o = s.cell o) ∧
    match r.1 with
    | .ok w => IsCopy s.next s.cell r.2.cell v w
    | .overflow => lim < s.next
    | .ub => False :=
  COPYOBJ_spec s hg lim fuel hfuel v hv hvn hbig

/-- The corollary for a stack that is large enough. -/
theorem C30_copy_enough_stack_partial (s : St) (hg : Good s.next s.cell) (lim fuel : Nat) (hfuel : s.next + 1 ≤ fuel)
    (v : Val) (hlim : s.next ≤ lim) (hv : v ≠ .null) (hvn : ∀ o, v = .ref o → o < s.next)
    (hbig : ∀ o, Reach s.cell v o → (s.cell o).Big) :
    ∃ w, (COPYOBJ lim fuel s v).1 = .ok w ∧ IsCopy s.next s.cell (COPYOBJ lim fuel s v).2.cell v w ∧
      ∀ o, o < s.next → (COPYOBJ lim fuel s v).2.cell o = s.cell o := by
  have h := C30_copy_partial s hg lim fuel hfuel v hv hvn hbig
  simp only at h
  cases hr : (COPYOBJ lim fuel s v).1 with
  | ok w => rw [hr] at h; exact ⟨w, rfl, h.2, h.1⟩
  | overflow => rw [hr] at h; have := h.2; simp only at this; omega
  | ub => rw [hr] at h; exact h.2.elim

/-- A record of two slots that refers to a vector and to itself; the vector refers to both, to a string and to a
number. -/
def sample : St where
  cell
    | 0 => ⟨10, .record, 2, fun i => if i = 0 then .ref 1 else if i = 1 then .ref 0 else .null, false⟩
    | 1 => ⟨11, .vector, 4, fun i => match i with
        | 0 => .int 4 | 1 => .ref 0 | 2 => .ref 1 | 3 => .ref 2 | 4 => .int 7 | _ => .null, false⟩
    | _ => ⟨12, .raw, 2, fun i => match i with | 0 => .int 9 | 1 => .int 65 | 2 => .int 66 | _ => .null, false⟩
  next := 3
  stack := []

example : Good sample.next sample.cell := by
  constructor
  · intro o ho
    match o, ho with
    | 0, _ => rfl
    | 1, _ => rfl
    | 2, _ => rfl
  · intro o i ho hs
    match o, ho with
    | 0, _ =>
      have : i = 0 ∨ i = 1 := by simp only [sample, Cell.Slot] at hs; omega
      rcases this with rfl | rfl <;> exact ⟨by decide, fun p hp => by cases hp; decide⟩
    | 1, _ =>
      have : i = 1 ∨ i = 2 ∨ i = 3 ∨ i = 4 := by simp only [sample, Cell.Slot] at hs; omega
      rcases this with rfl | rfl | rfl | rfl <;> exact ⟨by decide, fun p hp => by cases hp; try decide⟩
    | 2, _ => exact hs.elim

example : ∀ o, (sample.cell o).Big := by
  intro o
  match o with
  | 0 => show 2 ≤ 2; omega
  | 1 => show 1 ≤ 4; omega
  | _ + 2 => trivial

example : (COPYOBJ 3 4 sample (.ref 1)).1 = .ok (.ref 3) ∧ (COPYOBJ 3 4 sample (.ref 1)).2.next = 6 ∧
    (fun i => ((COPYOBJ 3 4 sample (.ref 1)).2.cell 3).iv i) 1 = .ref 4 ∧
    ((COPYOBJ 3 4 sample (.ref 1)).2.cell 3).iv 2 = .ref 3 ∧ ((COPYOBJ 3 4 sample (.ref 1)).2.cell 4).iv 1 = .ref 4 ∧
    ((COPYOBJ 3 4 sample (.ref 1)).2.cell 5).iv 2 = .int 66 := by decide
/-- Too small a stack. -/
example : (COPYOBJ 2 4 sample (.ref 1)).1 = .overflow := by decide

/-- C30 refuted for small objects: a record with one slot (such as an instance of `propertied-object`) has the NULL
that fills its memory cell in word 1, and `copy-object` follows it. -/
theorem C30_one_slot_wrong :
    let s : St := ⟨fun _ => ⟨10, .record, 1, fun i => if i = 0 then .int 5 else .null, false⟩, 1, []⟩
    Good s.next s.cell ∧ (COPYOBJ 100 100 s (.ref 0)).1 = .ub := by
  refine ⟨⟨fun _ _ => rfl, ?_⟩, by decide⟩
  intro o i _ hs
  have : i = 0 := by simp only [Cell.Slot] at hs; omega
  subst this
  exact ⟨by simp, fun p hp => by simp at hp⟩

/-- C30 refuted for empty vectors of pointers, likewise. -/
theorem C30_empty_vector_wrong :
    let s : St := ⟨fun _ => ⟨10, .vector, 0, fun i => if i = 0 then .int 0 else .null, false⟩, 1, []⟩
    Good s.next s.cell ∧ (COPYOBJ 100 100 s (.ref 0)).1 = .ub := by
  refine ⟨⟨fun _ _ => rfl, ?_⟩, by decide⟩
  intro o i _ hs
  simp only [Cell.Slot] at hs; omega

end Eus.Cpy
