import Verif.Fgn.Spec
import Mathlib.Data.List.Basic
import Mathlib.Tactic.Ring
import Mathlib.Tactic.Linarith
set_option autoImplicit false
namespace Eus.Fgn

/-! ### The layout -/

theorem byteSize_pos (t : Ty) : 0 < byteSize t := by cases t <;> decide

theorem roundUp_spec (e a : Nat) (ha : 0 < a) : NextMultiple a e (roundUp e a) := by
  unfold roundUp
  have h1 := Nat.div_add_mod (e + a - 1) a
  have h2 := Nat.mod_lt (e + a - 1) ha
  rw [Nat.mul_comm] at h1
  refine ⟨Nat.dvd_mul_left _ _, by omega, ?_⟩
  rintro k ⟨q, rfl⟩ hk
  rw [Nat.mul_comm a q]
  apply Nat.mul_le_mul_right
  have : (e + a - 1) / a < q + 1 := by
    rw [Nat.div_lt_iff_lt_mul ha, Nat.add_mul, Nat.mul_comm q a]
    omega
  omega

theorem next_unique {a e m k : Nat} (h : NextMultiple a e m) (h' : NextMultiple a e k) : m = k :=
  le_antisymm (h.2.2 k h'.1 h'.2.1) (h'.2.2 m h.1 h.2.1)

theorem nextMultiple_spec (a e : Nat) (ha : 0 < a) : NextMultiple a e (nextMultiple a e) := by
  unfold nextMultiple
  have h2 := Nat.mod_lt e ha
  have h1 := Nat.div_add_mod e a
  split
  · rename_i h
    exact ⟨Nat.dvd_of_mod_eq_zero h, le_refl _, fun k _ hk => hk⟩
  · rename_i h
    refine ⟨⟨e / a + 1, by rw [Nat.mul_add]; omega⟩, by omega, ?_⟩
    rintro k ⟨q, rfl⟩ hk
    have : e / a < q := by
      by_contra hq
      have := Nat.mul_le_mul_left a (Nat.le_of_not_lt hq)
      omega
    have := Nat.mul_le_mul_left a this
    rw [Nat.succ_eq_add_one, Nat.mul_add] at this
    omega

theorem roundUp_eq (e a : Nat) (ha : 0 < a) : roundUp e a = nextMultiple a e :=
  next_unique (roundUp_spec e a ha) (nextMultiple_spec a e ha)

theorem place_esize (e : Nat) (f : Flat) : (placeSlot e f).esize = byteSize (placeSlot e f).ty := by
  unfold placeSlot; dsimp only; split <;> rfl

theorem place_ssize (e : Nat) (f : Flat) :
    (placeSlot e f).ssize = (placeSlot e f).esize * (placeSlot e f).count := rfl

theorem place_offset (e : Nat) (f : Flat) :
    (placeSlot e f).offset = roundUp e (byteSize (placeSlot e f).ty) := by
  rw [← place_esize]; rfl

theorem place_next (e : Nat) (f : Flat) :
    NextMultiple (byteSize (placeSlot e f).ty) e (placeSlot e f).offset := by
  rw [place_offset]; exact roundUp_spec _ _ (byteSize_pos _)

theorem layout_end (fs : List Flat) : ∀ e, e ≤ (layout e fs).2 := by
  induction fs with
  | nil => intro e; exact le_refl _
  | cons f fs ih =>
    intro e
    have := ih ((placeSlot e f).offset + (placeSlot e f).ssize)
    have h := (place_next e f).2.1
    show e ≤ (layout ((placeSlot e f).offset + (placeSlot e f).ssize) fs).2
    omega

/-- Every slot is well formed and inside. -/
theorem layout_mem (fs : List Flat) : ∀ e, ∀ s ∈ (layout e fs).1,
    e ≤ s.offset ∧ s.offset + s.ssize ≤ (layout e fs).2 ∧ byteSize s.ty ∣ s.offset ∧ s.esize = byteSize s.ty ∧
    s.ssize = s.esize * s.count := by
  induction fs with
  | nil => intro e s hs; cases hs
  | cons f fs ih =>
    intro e s hs
    have h := place_next e f
    have hs' : s ∈ placeSlot e f :: (layout ((placeSlot e f).offset + (placeSlot e f).ssize) fs).1 := hs
    show _ ∧ _ ≤ (layout ((placeSlot e f).offset + (placeSlot e f).ssize) fs).2 ∧ _
    rcases List.mem_cons.1 hs' with rfl | hs'
    · exact ⟨h.2.1, layout_end _ _, h.1, place_esize e f, place_ssize e f⟩
    · obtain ⟨h1, h2⟩ := ih _ s hs'
      exact ⟨by have := h.2.1; omega, h2⟩

theorem layout_pairwise (fs : List Flat) : ∀ e,
    (layout e fs).1.Pairwise (fun a b => a.offset + a.ssize ≤ b.offset) := by
  induction fs with
  | nil => intro e; exact List.Pairwise.nil
  | cons f fs ih =>
    intro e
    show (placeSlot e f :: (layout ((placeSlot e f).offset + (placeSlot e f).ssize) fs).1).Pairwise _
    exact List.Pairwise.cons (fun b hb => (layout_mem fs _ b hb).1) (ih _)

theorem layout_keys (fs : List Flat) : ∀ e, (layout e fs).1.map (fun s => (s.name, s.ty, s.count)) =
    fs.map (fun f => (f.name, (if f.star then Ty.pointer else f.ty), f.dim.getD 1)) := by
  induction fs with
  | nil => intro e; rfl
  | cons f fs ih => intro e; exact congrArg _ (ih _)

theorem expand1_keys (d : Decl) :
    (expand1 d).map (fun f => (f.name, (if f.star then Ty.pointer else f.ty), f.dim.getD 1)) = d.declared := by
  cases d with
  | prim n t s d => cases s <;> cases d <;> rfl
  | sub n sl => simp [expand1, Decl.declared]

theorem layout_next (fs : List Flat) : ∀ e pre s post, (layout e fs).1 = pre ++ s :: post →
    NextMultiple (byteSize s.ty) ((pre.getLast?.map fun a => a.offset + a.ssize).getD e) s.offset := by
  induction fs with
  | nil => intro e pre s post h; simp [layout] at h
  | cons f fs ih =>
    intro e pre s post h
    have h' : placeSlot e f :: (layout ((placeSlot e f).offset + (placeSlot e f).ssize) fs).1 = pre ++ s :: post := h
    cases pre with
    | nil =>
      simp only [List.nil_append, List.cons.injEq] at h'
      rw [← h'.1]; exact place_next e f
    | cons a pre =>
      simp only [List.cons_append, List.cons.injEq] at h'
      have := ih _ pre s post h'.2
      cases pre with
      | nil => simpa [← h'.1] using this
      | cons b pre =>
        obtain ⟨z, hz⟩ : ∃ z, (b :: pre).getLast? = some z := by
          cases hq : (b :: pre).getLast? with
          | none => simp at hq
          | some z => exact ⟨z, rfl⟩
        rw [List.getLast?_cons_cons, hz]
        rw [hz] at this
        exact this

theorem layout_size (fs : List Flat) : ∀ e,
    (layout e fs).2 = (((layout e fs).1.getLast?).map fun a => a.offset + a.ssize).getD e := by
  induction fs with
  | nil => intro e; rfl
  | cons f fs ih =>
    intro e
    show (layout ((placeSlot e f).offset + (placeSlot e f).ssize) fs).2 = (((placeSlot e f ::
      (layout ((placeSlot e f).offset + (placeSlot e f).ssize) fs).1).getLast?).map fun a => a.offset + a.ssize).getD e
    rw [ih]
    generalize (layout ((placeSlot e f).offset + (placeSlot e f).ssize) fs).1 = L
    cases L with
    | nil => rfl
    | cons b L =>
      obtain ⟨z, hz⟩ : ∃ z, (b :: L).getLast? = some z := by
        cases hq : (b :: L).getLast? with
        | none => simp at hq
        | some z => exact ⟨z, rfl⟩
      rw [List.getLast?_cons_cons, hz]; rfl

/-! ### Bytes -/

theorem leBytes_length (n x : Nat) : (leBytes n x).length = n := by
  induction n generalizing x with
  | zero => rfl
  | succ n ih => simp [leBytes, ih]

theorem ofLe_leBytes (n x : Nat) : ofLe (leBytes n x) = x % 256 ^ n := by
  induction n generalizing x with
  | zero => simp [leBytes, ofLe, Nat.mod_one]
  | succ n ih =>
    simp only [leBytes, ofLe, ih]
    rw [Nat.pow_succ, Nat.mul_comm (256 ^ n) 256, Nat.mod_mul]

theorem store_ok {m bs m' : List Nat} {off : Int} (h : store m off bs = .ok m') :
    0 ≤ off ∧ off + bs.length ≤ m.length ∧
    m' = m.take off.toNat ++ bs ++ m.drop (off.toNat + bs.length) := by
  unfold store at h
  split at h
  · rename_i hc
    exact ⟨hc.1, hc.2, (Except.ok.inj h).symm⟩
  · cases h

theorem store_length {m bs m' : List Nat} {off : Int} (h : store m off bs = .ok m') : m'.length = m.length := by
  obtain ⟨h1, h2, rfl⟩ := store_ok h
  simp only [List.length_append, List.length_take, List.length_drop]
  omega

theorem store_get {m bs m' : List Nat} {off : Int} (h : store m off bs = .ok m') (k : Nat) :
    m'[k]? = if k < off.toNat ∨ off.toNat + bs.length ≤ k then m[k]? else bs[k - off.toNat]? := by
  obtain ⟨h1, h2, rfl⟩ := store_ok h
  have ht : (m.take off.toNat).length = off.toNat := by rw [List.length_take]; omega
  by_cases hk : k < off.toNat
  · rw [if_pos (Or.inl hk), List.append_assoc, List.getElem?_append_left (by omega), List.getElem?_take]
    simp [hk]
  · rw [List.append_assoc, List.getElem?_append_right (by omega), ht]
    by_cases hk' : off.toNat + bs.length ≤ k
    · rw [if_pos (Or.inr hk'), List.getElem?_append_right (by omega), List.getElem?_drop]
      congr 1; omega
    · rw [if_neg (by omega), List.getElem?_append_left (by omega)]

theorem load_same {m bs m' : List Nat} {off : Int} (h : store m off bs = .ok m') :
    load m' off bs.length = .ok bs := by
  have hl := store_length h
  obtain ⟨h1, h2, _⟩ := store_ok h
  unfold load
  rw [if_pos ⟨h1, by omega⟩]
  congr 1
  apply List.ext_getElem?
  intro k
  rw [List.getElem?_take, List.getElem?_drop, store_get h]
  split
  · rename_i hk
    rw [if_neg (by omega)]
    congr 1; omega
  · rename_i hk
    rw [List.getElem?_eq_none (by omega)]

theorem load_other {m bs m' : List Nat} {off off' : Int} {n : Nat} (h : store m off bs = .ok m')
    (hd : off' + n ≤ off ∨ off + bs.length ≤ off') : load m' off' n = load m off' n := by
  have hl := store_length h
  obtain ⟨h1, h2, _⟩ := store_ok h
  unfold load
  rw [hl]
  split
  · rename_i hc
    congr 1
    apply List.ext_getElem?
    intro k
    rw [List.getElem?_take, List.getElem?_take, List.getElem?_drop, List.getElem?_drop]
    split
    · rename_i hk
      rw [store_get h, if_pos (by omega)]
    · rfl
  · rfl

/-- `sys:peek` looks at the bytes of its type only. -/
theorem PEEK_congr (c : FConv) (m m' : List Nat) (off : Int) (ty : Ty)
    (h : load m' off (byteSize ty) = load m off (byteSize ty)) : PEEK c m' off ty = PEEK c m off ty := by
  cases ty <;> simp only [byteSize] at h <;> simp only [PEEK, h]

/-- `sys:poke` is a store of as many bytes as the type has. -/
theorem POKE_store {c : FConv} {v : Val} {m m' : List Nat} {off : Int} {ty : Ty} (h : POKE c v m off ty = .ok m') :
    ∃ x, store m off (leBytes (byteSize ty) x) = .ok m' := by
  cases ty <;> simp only [POKE, bind, Except.bind, byteSize] at h ⊢
  all_goals first
    | exact ⟨_, h⟩
    | (split at h
       · cases h
       · exact ⟨_, h⟩)
    | cases h

theorem store_can {m bs : List Nat} {off : Int} (h : 0 ≤ off ∧ off + bs.length ≤ m.length) :
    ∃ m', store m off bs = .ok m' := by
  unfold store
  rw [if_pos h]; exact ⟨_, rfl⟩

theorem load_leBytes {m m' : List Nat} {off : Int} {n x : Nat} (h : store m off (leBytes n x) = .ok m') :
    load m' off n = .ok (leBytes n x) := by
  have := load_same h
  rwa [leBytes_length] at this

/-! ### Access -/

theorem slot_mem {sl : List Slot} {id : String} {s : Slot} (h : slot sl id = some s) : s ∈ sl ∧ s.name = id := by
  unfold slot at h
  exact ⟨List.mem_of_find?_eq_some h, by simpa using List.find?_some h⟩

theorem access_ok {sl : List Slot} {id : String} {s : Slot} {index : Option Int} (h : slot sl id = some s)
    (hi : HasIndex s index) : access sl id index = .ok (s.ty, s.offset + element index * s.esize) := by
  unfold access
  rw [h]
  cases index with
  | none => simp [element]
  | some i =>
    simp only [HasIndex] at hi
    simp only [element]
    rw [if_neg (by omega)]

theorem pair_mem {α : Type} {R : α → α → Prop} {l : List α} (h : l.Pairwise R) {a b : α} (ha : a ∈ l) (hb : b ∈ l)
    (hne : a ≠ b) : R a b ∨ R b a := by
  induction h with
  | nil => cases ha
  | cons h1 _ ih =>
    rcases List.mem_cons.1 ha with ha' | ha'
    · rcases List.mem_cons.1 hb with hb' | hb'
      · exact absurd (ha'.trans hb'.symm) hne
      · exact Or.inl (ha' ▸ h1 _ hb')
    · rcases List.mem_cons.1 hb with hb' | hb'
      · exact Or.inr (hb' ▸ h1 _ ha')
      · exact ih ha' hb'

/-- The bytes of an element lie in its slot. -/
theorem element_in {s : Slot} {index : Option Int} (hi : HasIndex s index) :
    0 ≤ element index * (s.esize : Int) ∧ element index * (s.esize : Int) + s.esize ≤ ((s.esize * s.count : Nat) : Int) := by
  have h : 0 ≤ element index ∧ element index + 1 ≤ s.count := by
    cases index with
    | none => simp only [HasIndex] at hi; simp only [element]; omega
    | some i => simp only [HasIndex] at hi; simp only [element]; omega
  refine ⟨mul_nonneg h.1 (by omega), ?_⟩
  have := mul_le_mul_of_nonneg_right h.2 (Int.natCast_nonneg s.esize)
  push_cast
  rw [mul_comm (s.esize : Int) s.count]
  linarith

end Eus.Fgn
