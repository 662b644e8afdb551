import Verif.Fgn.Lemmas
set_option autoImplicit false
/-
The layout of a packed C structure and that of its declaration in Lisp.
-/
namespace Eus.Fgn

/-- The part of a slot that is compared. -/
def Slot.place (s : Slot) : String × Ty × Nat × Nat := (s.name, s.ty, s.count, s.offset)

/-- Layout as places. -/
def lay (e : Nat) (fs : List Flat) : List (String × Ty × Nat × Nat) × Nat :=
  ((layout e fs).1.map Slot.place, (layout e fs).2)

mutual
/-- The numbers of a type in order. -/
def CType.flat (path : String) : CType → List Flat
  | .prim ty n => [⟨path, ty, false, some n⟩]
  | .struct fs => fs.flat (path ++ ".")
def CFields.flat (pre : String) : CFields → List Flat
  | .nil => []
  | .cons name t rest => t.flat (pre ++ name) ++ rest.flat pre
end

theorem layout_append (l l' : List Flat) : ∀ e, layout e (l ++ l') =
    ((layout e l).1 ++ (layout (layout e l).2 l').1, (layout (layout e l).2 l').2) := by
  induction l with
  | nil => intro e; rfl
  | cons f l ih =>
    intro e
    simp only [List.cons_append, layout]
    rw [ih]

theorem lay_append (l l' : List Flat) (e : Nat) : lay e (l ++ l') =
    ((lay e l).1 ++ (lay (lay e l).2 l').1, (lay (lay e l).2 l').2) := by
  unfold lay
  rw [layout_append]
  simp

theorem roundUp_shift (b e a : Nat) (ha : 0 < a) (h : a ∣ b) : roundUp (b + e) a = b + roundUp e a := by
  apply next_unique (roundUp_spec _ _ ha)
  obtain ⟨h1, h2, h3⟩ := roundUp_spec e a ha
  refine ⟨(Nat.dvd_add_right h).2 h1, by omega, ?_⟩
  intro k hk hek
  have hbk : a ∣ k - b := Nat.dvd_sub hk h
  have := h3 (k - b) hbk (by omega)
  omega

/-- The number of bytes one element of a declaration takes. -/
def Flat.unit (f : Flat) : Nat := if f.star then 8 else byteSize f.ty

theorem unit_pos (f : Flat) : 0 < f.unit := by
  unfold Flat.unit; split
  · decide
  · exact byteSize_pos _

/-- From a place every alignment divides, the layout is the one from 0. -/
theorem lay_shift (b : Nat) (l : List Flat) : ∀ e, (∀ f ∈ l, f.unit ∣ b) →
    lay (b + e) l = ((lay e l).1.map (fun p => (p.1, p.2.1, p.2.2.1, b + p.2.2.2)), b + (lay e l).2) := by
  induction l with
  | nil => intro e _; rfl
  | cons f l ih =>
    intro e h
    have h0 := roundUp_shift b e f.unit (unit_pos f) (h f List.mem_cons_self)
    have hp : ∀ e, (placeSlot e f).offset = roundUp e f.unit := fun e => rfl
    have hs : ∀ e, (placeSlot e f).ssize = (placeSlot 0 f).ssize := fun e => rfl
    have hl : ∀ e, lay e (f :: l) = ((placeSlot e f).place ::
        (lay ((placeSlot e f).offset + (placeSlot e f).ssize) l).1,
        (lay ((placeSlot e f).offset + (placeSlot e f).ssize) l).2) := fun e => rfl
    rw [hl, hl, hp, hp, hs (b + e), hs e, h0, Nat.add_assoc, ih _ (fun f hf => h f (List.mem_cons_of_mem _ hf))]
    have : (placeSlot (b + e) f).place = ((placeSlot e f).place.1, (placeSlot e f).place.2.1,
        (placeSlot e f).place.2.2.1, b + (placeSlot e f).place.2.2.2) := by
      show (_, _, _, (placeSlot (b + e) f).offset) = (_, _, _, b + (placeSlot e f).offset)
      rw [hp, hp, h0]; rfl
    rw [this]
    rfl

/-- A layout begins at the first place its first number can have. -/
theorem lay_head (e : Nat) (f : Flat) (l : List Flat) : lay e (f :: l) = lay (roundUp e f.unit) (f :: l) := by
  have hl : ∀ e, lay e (f :: l) = ((placeSlot e f).place ::
      (lay ((placeSlot e f).offset + (placeSlot e f).ssize) l).1,
      (lay ((placeSlot e f).offset + (placeSlot e f).ssize) l).2) := fun e => rfl
  have hp : ∀ e, (placeSlot e f).offset = roundUp e f.unit := fun e => rfl
  have hs : ∀ e, (placeSlot e f).ssize = (placeSlot 0 f).ssize := fun e => rfl
  have hr : roundUp (roundUp e f.unit) f.unit = roundUp e f.unit := by
    have := roundUp_shift (roundUp e f.unit) 0 f.unit (unit_pos f) (roundUp_spec e _ (unit_pos f)).1
    rw [Nat.add_zero] at this
    rw [this]
    have h0 : roundUp 0 f.unit = 0 := Nat.le_zero.1 ((roundUp_spec 0 _ (unit_pos f)).2.2 0 (dvd_zero _) (le_refl _))
    omega
  have hq : (placeSlot e f).place = (placeSlot (roundUp e f.unit) f).place := by
    show (_, _, _, (placeSlot e f).offset) = (_, _, _, (placeSlot (roundUp e f.unit) f).offset)
    rw [hp, hp, hr]; rfl
  rw [hl, hl, hp, hp, hs e, hs (roundUp e f.unit), hr, hq]

/-! ### Alignments -/

/-- The alignments there are. -/
def Pow (a : Nat) : Prop := a = 1 ∨ a = 2 ∨ a = 4 ∨ a = 8

theorem pow_byteSize (t : Ty) : Pow (byteSize t) := by cases t <;> simp [Pow, byteSize]

theorem pow_max {a b : Nat} (ha : Pow a) (hb : Pow b) : Pow (max a b) := by
  rcases max_choice a b with h | h <;> rw [h] <;> assumption

theorem pow_dvd {a b : Nat} (ha : Pow a) (hb : Pow b) (h : a ≤ b) : a ∣ b := by
  rcases ha with rfl | rfl | rfl | rfl <;> rcases hb with rfl | rfl | rfl | rfl <;> revert h <;> decide

mutual
theorem CType.pow_align : ∀ t : CType, Pow t.align
  | .prim ty _ => by rw [CType.align]; exact pow_byteSize ty
  | .struct fs => by rw [CType.align]; exact fs.pow_align
theorem CFields.pow_align : ∀ fs : CFields, Pow fs.align
  | .nil => by rw [CFields.align]; exact Or.inl rfl
  | .cons _ t rest => by rw [CFields.align]; exact pow_max t.pow_align rest.pow_align
end

theorem pow_pos' {a : Nat} (h : Pow a) : 0 < a := by rcases h with rfl | rfl | rfl | rfl <;> decide

mutual
theorem CType.flat_units : ∀ (t : CType) (path : String), ∀ f ∈ t.flat path, Pow f.unit ∧ f.unit ≤ t.align
  | .prim ty n, path => by
    intro f hf
    rw [CType.flat] at hf
    rw [List.mem_singleton] at hf
    subst hf
    rw [CType.align]
    exact ⟨pow_byteSize ty, le_refl _⟩
  | .struct fs, path => by
    intro f hf
    rw [CType.flat] at hf
    rw [CType.align]
    exact fs.flat_units _ f hf
theorem CFields.flat_units : ∀ (fs : CFields) (pre : String), ∀ f ∈ fs.flat pre, Pow f.unit ∧ f.unit ≤ fs.align
  | .nil, pre => by intro f hf; rw [CFields.flat] at hf; cases hf
  | .cons name t rest, pre => by
    intro f hf
    rw [CFields.flat] at hf
    rw [CFields.align]
    rcases List.mem_append.1 hf with h | h
    · obtain ⟨h1, h2⟩ := t.flat_units _ f h
      exact ⟨h1, le_trans h2 (le_max_left _ _)⟩
    · obtain ⟨h1, h2⟩ := rest.flat_units _ f h
      exact ⟨h1, le_trans h2 (le_max_right _ _)⟩
end

/-- A packed structure begins with a number of its first alignment. -/
theorem CFields.flat_first : ∀ (fs : CFields) (pre : String), fs.Packed → fs ≠ .nil →
    ∃ f l, fs.flat pre = f :: l ∧ f.unit = fs.first
  | .nil, _, _, h => absurd rfl h
  | .cons name (.prim ty n) rest, pre, _, _ => by
    rw [CFields.flat, CType.flat, CFields.first]
    exact ⟨_, _, rfl, rfl⟩
  | .cons name (.struct fs) rest, pre, hp, _ => by
    rw [CFields.Packed, CType.Packed] at hp
    obtain ⟨f, l, h1, h2⟩ := fs.flat_first (pre ++ name ++ ".") hp.1.1 hp.1.2.2.2
    rw [CFields.flat, CType.flat, CFields.first, h1]
    exact ⟨f, l ++ rest.flat pre, rfl, h2⟩

mutual
theorem CType.places_shift : ∀ (t : CType) (base : Nat) (path : String),
    t.places base path = (t.places 0 path).map (fun p => (p.1, p.2.1, p.2.2.1, base + p.2.2.2))
  | .prim ty n, base, path => by rw [CType.places, CType.places]; rfl
  | .struct fs, base, path => by rw [CType.places, CType.places, fs.places_shift]
theorem CFields.places_shift : ∀ (fs : CFields) (base e : Nat) (pre : String),
    fs.places base e pre = (fs.places 0 e pre).map (fun p => (p.1, p.2.1, p.2.2.1, base + p.2.2.2))
  | .nil, _, _, _ => by rw [CFields.places, CFields.places]; rfl
  | .cons name t rest, base, e, pre => by
    rw [CFields.places, CFields.places, List.map_append, rest.places_shift, t.places_shift,
      t.places_shift (0 + _), List.map_map]
    congr 1
    apply List.map_congr_left
    intro p _
    simp only [Function.comp]
    congr 3
    omega
end

mutual
theorem CType.lay_flat : ∀ (t : CType) (e : Nat) (path : String), t.Packed →
    lay e (t.flat path) = (t.places (nextMultiple t.align e) path, nextMultiple t.align e + t.size)
  | .prim ty n, e, path, _ => by
    rw [CType.flat, CType.places, CType.align, CType.size, ← roundUp_eq _ _ (byteSize_pos ty)]
    rfl
  | .struct fs, e, path, hp => by
    rw [CType.Packed] at hp
    obtain ⟨hp, hf, hd, hn⟩ := hp
    obtain ⟨f, l, h1, h2⟩ := fs.flat_first (path ++ ".") hp hn
    have hpos := pow_pos' fs.pow_align
    have hsz : nextMultiple fs.align (fs.finish 0) = fs.finish 0 := by
      unfold nextMultiple; rw [if_pos (Nat.mod_eq_zero_of_dvd hd)]
    rw [CType.flat, CType.places, CType.align, CType.size, hsz, h1, lay_head, ← h1, h2, hf, roundUp_eq _ _ hpos]
    have hdv := (nextMultiple_spec fs.align e hpos).1
    have := lay_shift (nextMultiple fs.align e) (fs.flat (path ++ ".")) 0 (by
      intro g hg
      obtain ⟨k1, k2⟩ := fs.flat_units _ g hg
      exact dvd_trans (pow_dvd k1 fs.pow_align k2) hdv)
    rw [Nat.add_zero] at this
    rw [this, fs.lay_flat 0 _ hp, fs.places_shift (nextMultiple fs.align e)]
theorem CFields.lay_flat : ∀ (fs : CFields) (e : Nat) (pre : String), fs.Packed →
    lay e (fs.flat pre) = (fs.places 0 e pre, fs.finish e)
  | .nil, e, pre, _ => by rw [CFields.flat, CFields.places, CFields.finish]; rfl
  | .cons name t rest, e, pre, hp => by
    rw [CFields.Packed] at hp
    rw [CFields.flat, CFields.places, CFields.finish, lay_append, t.lay_flat e _ hp.1, rest.lay_flat _ _ hp.2,
      Nat.zero_add]
end

/-! ### The declaration -/

/-- Putting a path in front. -/
def Flat.under (pre : String) (f : Flat) : Flat := { f with name := pre ++ f.name }

mutual
theorem CType.flat_under : ∀ (t : CType) (pre path : String),
    t.flat (pre ++ path) = (t.flat path).map (Flat.under pre)
  | .prim ty n, pre, path => by rw [CType.flat, CType.flat]; rfl
  | .struct fs, pre, path => by rw [CType.flat, CType.flat, String.append_assoc, fs.flat_under]
theorem CFields.flat_under : ∀ (fs : CFields) (pre path : String),
    fs.flat (pre ++ path) = (fs.flat path).map (Flat.under pre)
  | .nil, _, _ => by rw [CFields.flat, CFields.flat]; rfl
  | .cons name t rest, pre, path => by
    rw [CFields.flat, CFields.flat, List.map_append, String.append_assoc, t.flat_under, rest.flat_under]
end

mutual
theorem CType.flat_plain : ∀ (t : CType) (path : String), ∀ f ∈ t.flat path, f.star = false ∧ f.dim.isSome
  | .prim ty n, path => by
    intro f hf
    rw [CType.flat, List.mem_singleton] at hf
    subst hf
    exact ⟨rfl, rfl⟩
  | .struct fs, path => by
    intro f hf
    rw [CType.flat] at hf
    exact fs.flat_plain _ f hf
theorem CFields.flat_plain : ∀ (fs : CFields) (pre : String), ∀ f ∈ fs.flat pre, f.star = false ∧ f.dim.isSome
  | .nil, pre => by intro f hf; rw [CFields.flat] at hf; cases hf
  | .cons name t rest, pre => by
    intro f hf
    rw [CFields.flat] at hf
    rcases List.mem_append.1 hf with h | h
    · exact t.flat_plain _ f h
    · exact rest.flat_plain _ f h
end

/-- A slot list of plain declarations, taken into another structure. -/
theorem layout_again (n : String) (fs : List Flat) (h : ∀ f ∈ fs, f.star = false ∧ f.dim.isSome) : ∀ e,
    ((layout e fs).1.map fun x => (⟨n ++ "." ++ x.name, x.ty, false, some x.count⟩ : Flat)) =
    fs.map (Flat.under (n ++ ".")) := by
  induction fs with
  | nil => intro e; rfl
  | cons f fs ih =>
    intro e
    obtain ⟨h1, h2⟩ := h f List.mem_cons_self
    obtain ⟨name, ty, star, dim⟩ := f
    cases dim with
    | none => cases h2
    | some k =>
      simp only at h1
      subst h1
      exact congrArg _ (ih (fun f hf => h f (List.mem_cons_of_mem _ hf)) _)

theorem append_empty (s : String) : s ++ "" = s := by simp
theorem empty_append (s : String) : "" ++ s = s := by simp

mutual
theorem CType.expand_decl : ∀ (t : CType) (name : String), expand1 (t.decl name) = t.flat name
  | .prim ty n, name => by rw [CType.decl, CType.flat]; rfl
  | .struct fs, name => by
    rw [CType.decl, CType.flat, expand1, slotlist, fs.expand_decls,
      layout_again name _ (fs.flat_plain "") 0, ← fs.flat_under, append_empty]
theorem CFields.expand_decls : ∀ fs : CFields, expand fs.decls = fs.flat ""
  | .nil => by rw [CFields.decls, CFields.flat]; rfl
  | .cons name t rest => by
    rw [CFields.decls, CFields.flat, empty_append, ← t.expand_decl, ← rest.expand_decls]
    simp [expand]
end

theorem layout_c (fs : CFields) (h : fs.Packed) :
    ((slotlist fs.decls).1.map Slot.place, (slotlist fs.decls).2) = (cPlaces fs, fs.finish 0) := by
  unfold slotlist
  rw [fs.expand_decls]
  exact fs.lay_flat 0 "" h

end Eus.Fgn
