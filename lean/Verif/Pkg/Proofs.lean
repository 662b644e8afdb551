import Verif.Pkg.Spec
import Verif.Hash.Proofs
set_option autoImplicit false
/-! Helper lemmas about symbol tables. -/
namespace Eus.Pkg
open Eus.Hash (probe probe_lt probe_surj countP_range_congr countP_range_update countP_range_lt countP_range_succ)

def Slot.used : Slot → Bool
  | .empty => false
  | _ => true

def Slot.isSym : Slot → Bool
  | .sym _ => true
  | _ => false

theorem next_probe (size h d : Nat) (hs : 0 < size) : next size (probe size h d) = probe size h (d + 1) :=
  Eus.Hash.next_probe size h d hs

/-- the word `i` can be reached from `h` without meeting an empty word -/
def Path (slot : Nat → Slot) (size h i : Nat) : Prop :=
  ∃ d < size, i = probe size h d ∧ ∀ d' < d, slot (probe size h d') ≠ .empty

/-- The table holds the symbols of the map `m`, each where findsymbol looks for it. -/
structure TInv (pname : SymId → Name) (nsym : Nat) (t : Table) (m : Name → Option SymId) : Prop where
  hole : ∃ i < t.size, t.slot i = .empty
  chain : ∀ j < t.size, ∀ s, t.slot j = .sym s → Path t.slot t.size (rehash (pname s) % t.size) j
  uniq : ∀ i < t.size, ∀ j < t.size, ∀ a b, t.slot i = .sym a → t.slot j = .sym b → pname a = pname b → i = j
  sound : ∀ j < t.size, ∀ s, t.slot j = .sym s → m (pname s) = some s ∧ s < nsym
  complete : ∀ n s, m n = some s → ∃ j < t.size, t.slot j = .sym s ∧ pname s = n

/-- The counter of the table is right and leaves room. -/
structure CInv (t : Table) (k : Nat) : Prop where
  size : 60 ≤ t.size
  cell : t.size + 2 ≤ buddysize t.bix
  count : t.count = (List.range t.size).countP fun i => (t.slot i).used
  room : t.count ≤ t.size / 2 + k

theorem TInv.pos {pname nsym t m} (h : TInv pname nsym t m) : 0 < t.size := by
  obtain ⟨i, hi, _⟩ := h.hole
  omega

theorem TInv.name {pname nsym t m} (h : TInv pname nsym t m) (n : Name) (s : SymId) (hm : m n = some s) :
    pname s = n ∧ s < nsym := by
  obtain ⟨j, h1, h2, h3⟩ := h.complete n s hm
  exact ⟨h3, (h.sound j h1 s h2).2⟩

/-! ### loops that stop at the first word of some kind -/

theorem exists_first (slot : Nat → Slot) (size h : Nat) (P : Slot → Bool) (hh : h < size) (hP : P .empty = true)
    (hole : ∃ i < size, slot i = .empty) :
    ∃ d < size, P (slot (probe size h d)) = true ∧ ∀ d' < d, P (slot (probe size h d')) = false := by
  obtain ⟨i, hi, he⟩ := hole
  obtain ⟨d, hd, hp⟩ := probe_surj size h i hh hi
  have hex : ∃ d, P (slot (probe size h d)) = true := ⟨d, by rw [hp, he, hP]⟩
  classical
  refine ⟨Nat.find hex, ?_, Nat.find_spec hex, ?_⟩
  · exact Nat.lt_of_le_of_lt (Nat.find_min' hex (by rw [hp, he, hP])) hd
  · intro d' hd'
    have := Nat.find_min hex hd'
    simpa using this

theorem emptyLoop_spec (slot : Nat → Slot) (size h e : Nat) (hs : 0 < size)
    (he : slot (probe size h e) = .empty) (hlt : ∀ d < e, slot (probe size h d) ≠ .empty) :
    ∀ f d, d ≤ e → e < d + f → emptyLoop slot size f (probe size h d) = some (probe size h e) := by
  intro f
  induction f with
  | zero => intro d h1 h2; omega
  | succ f ih =>
    intro d h1 h2
    rw [emptyLoop]
    by_cases hd : d = e
    · rw [hd, if_pos he]
    · rw [if_neg (hlt d (by omega)), next_probe size h d hs]
      exact ih (d + 1) (by omega) (by omega)

theorem skipLoop_spec (slot : Nat → Slot) (size h e : Nat) (hs : 0 < size)
    (he : (slot (probe size h e)).isSym = false) (hlt : ∀ d < e, (slot (probe size h d)).isSym = true) :
    ∀ f d, d ≤ e → e < d + f → skipLoop slot size f (probe size h d) = some (probe size h e) := by
  intro f
  induction f with
  | zero => intro d h1 h2; omega
  | succ f ih =>
    intro d h1 h2
    rw [skipLoop]
    by_cases hd : d = e
    · subst hd
      cases hk : slot (probe size h d) <;> simp [hk, Slot.isSym] at he ⊢
    · have := hlt d (by omega)
      cases hk : slot (probe size h d) <;> simp [hk, Slot.isSym] at this
      simp only
      rw [next_probe size h d hs]
      exact ih (d + 1) (by omega) (by omega)

/-- where export stops -/
def stopAt (s : SymId) : Slot → Bool
  | .sym s' => s' == s
  | _ => true

theorem exportLoop_spec (slot : Nat → Slot) (size h e : Nat) (s : SymId) (hs : 0 < size)
    (he : stopAt s (slot (probe size h e)) = true) (hlt : ∀ d < e, stopAt s (slot (probe size h d)) = false) :
    ∀ f d, d ≤ e → e < d + f →
      exportLoop slot size s f (probe size h d) = some ((slot (probe size h e)).isSym, probe size h e) := by
  intro f
  induction f with
  | zero => intro d h1 h2; omega
  | succ f ih =>
    intro d h1 h2
    rw [exportLoop]
    by_cases hd : d = e
    · subst hd
      cases hk : slot (probe size h d) with
      | empty => rfl
      | deleted => rfl
      | sym s' =>
        rw [hk] at he
        simp only [stopAt, beq_iff_eq] at he
        simp [he, Slot.isSym]
    · have := hlt d (by omega)
      cases hk : slot (probe size h d) with
      | empty => rw [hk] at this; cases this
      | deleted => rw [hk] at this; cases this
      | sym s' =>
        rw [hk] at this
        simp only [stopAt, beq_eq_false_iff_ne, ne_eq] at this
        simp only
        rw [if_neg this, next_probe size h d hs]
        exact ih (d + 1) (by omega) (by omega)

/-! ### findsymbol -/

theorem findLoop_spec (pname : SymId → Name) (slot : Nat → Slot) (size : Nat) (n : Name) (h : Nat) (hs : 0 < size) :
    ∀ (f d : Nat) (ep : Option Nat),
      (∀ e, ep = some e → ∃ d' < d, e = probe size h d' ∧ slot e = .deleted) →
      (∀ d' < d, slot (probe size h d') ≠ .empty) →
      (∀ d' < d, ∀ s, slot (probe size h d') = .sym s → pname s ≠ n) →
      match findLoop pname slot size n f (probe size h d) ep with
      | none => ∀ d' < d + f, slot (probe size h d') ≠ .empty ∧
          ∀ s, slot (probe size h d') = .sym s → pname s ≠ n
      | some (.found s r) => r < size ∧ slot r = .sym s ∧ pname s = n
      | some (.absent r) => ∃ i, i < d + f ∧ slot (probe size h i) = .empty ∧
          (∀ i' < i, slot (probe size h i') ≠ .empty ∧ ∀ s, slot (probe size h i') = .sym s → pname s ≠ n) ∧
          ∃ j ≤ i, r = probe size h j ∧ (slot r).isSym = false := by
  intro f
  induction f with
  | zero =>
    intro d ep _ h2 h3
    simp only [findLoop, Nat.add_zero]
    exact fun d' hd => ⟨h2 d' hd, h3 d' hd⟩
  | succ f ih =>
    intro d ep h1 h2 h3
    have hp := probe_lt size h d hs
    rw [findLoop]
    cases hk : slot (probe size h d) with
    | empty =>
      simp only
      refine ⟨d, by omega, hk, fun i' hi' => ⟨h2 i' hi', h3 i' hi'⟩, ?_⟩
      cases ep with
      | none => exact ⟨d, le_refl d, rfl, by rw [Option.getD_none, hk]; rfl⟩
      | some e =>
        obtain ⟨d', hd', he, hk'⟩ := h1 e rfl
        exact ⟨d', by omega, he, by rw [Option.getD_some, hk']; rfl⟩
    | deleted =>
      simp only
      rw [next_probe size h d hs]
      have := ih (d + 1) (some (ep.getD (probe size h d))) ?_ ?_ ?_
      · rw [show d + 1 + f = d + (f + 1) by omega] at this
        exact this
      · intro e he
        cases ep with
        | none =>
          simp only [Option.getD_none, Option.some.injEq] at he
          exact ⟨d, by omega, he.symm, he ▸ hk⟩
        | some e' =>
          simp only [Option.getD_some, Option.some.injEq] at he
          obtain ⟨d', hd', h4, h5⟩ := h1 e' rfl
          exact ⟨d', by omega, he ▸ h4, he ▸ h5⟩
      · intro d' hd'
        by_cases hh : d' = d
        · rw [hh, hk]; simp
        · exact h2 d' (by omega)
      · intro d' hd' k hk'
        by_cases hh : d' = d
        · rw [hh, hk] at hk'; cases hk'
        · exact h3 d' (by omega) k hk'
    | sym k =>
      simp only
      by_cases ht : pname k = n
      · rw [if_pos ht]
        exact ⟨hp, hk, ht⟩
      · rw [if_neg ht, next_probe size h d hs]
        have := ih (d + 1) ep ?_ ?_ ?_
        · rw [show d + 1 + f = d + (f + 1) by omega] at this
          exact this
        · intro e he
          obtain ⟨d', hd', h4⟩ := h1 e he
          exact ⟨d', by omega, h4⟩
        · intro d' hd'
          by_cases hh : d' = d
          · rw [hh, hk]; simp
          · exact h2 d' (by omega)
        · intro d' hd' k' hk'
          by_cases hh : d' = d
          · rw [hh, hk] at hk'
            cases hk'
            exact ht
          · exact h3 d' (by omega) k' hk'

theorem probe_zero (size h : Nat) : probe size (h % size) 0 = h % size := by
  unfold probe; rw [Nat.add_zero, Nat.mod_mod]

theorem findsymbol_spec {pname nsym t m} (hi : TInv pname nsym t m) (n : Name) :
    (∃ s i, findsymbol pname t n = some (.found s i) ∧ i < t.size ∧ t.slot i = .sym s ∧ pname s = n ∧ m n = some s) ∨
    (∃ i, findsymbol pname t n = some (.absent i) ∧ i < t.size ∧ (t.slot i).isSym = false ∧ m n = none ∧
      Path t.slot t.size (rehash n % t.size) i) := by
  have hs := hi.pos
  have hh : rehash n % t.size < t.size := Nat.mod_lt _ hs
  have hf := findLoop_spec pname t.slot t.size n (rehash n % t.size) hs t.size 0 none (by simp) (by omega) (by omega)
  rw [probe_zero, Nat.zero_add] at hf
  unfold findsymbol
  split at hf
  · obtain ⟨i, h1, h2⟩ := hi.hole
    obtain ⟨d, h3, h4⟩ := probe_surj t.size _ i hh h1
    exact absurd h2 (h4 ▸ (hf d h3).1)
  · rename_i s r heq
    obtain ⟨h1, h2, h3⟩ := hf
    exact .inl ⟨s, r, heq, h1, h2, h3, h3 ▸ (hi.sound r h1 s h2).1⟩
  · rename_i r heq
    obtain ⟨i, h2, h3, h4, j, h5, h6, h7⟩ := hf
    refine .inr ⟨r, heq, by rw [h6]; exact probe_lt _ _ _ hs, h7, ?_, j, by omega, h6, fun d' hd' => (h4 d' (by omega)).1⟩
    cases hm : m n with
    | none => rfl
    | some v =>
      exfalso
      obtain ⟨q, hq, hk', ht⟩ := hi.complete n v hm
      obtain ⟨d, hd, e1, e2⟩ := hi.chain q hq v hk'
      rw [ht] at e1 e2
      rcases Nat.lt_trichotomy d i with hdi | hdi | hdi
      · exact (h4 d hdi).2 v (e1 ▸ hk') ht
      · rw [e1, hdi, h3] at hk'; cases hk'
      · exact e2 i hdi h3

/-! ### changes of a table -/

/-- names do not matter beyond the symbols in the table -/
theorem TInv.congr {pname pname' nsym nsym' t t' m} (hi : TInv pname nsym t m) (hn : nsym ≤ nsym')
    (hp : ∀ s < nsym, pname' s = pname s) (hs : t'.slot = t.slot) (hz : t'.size = t.size) :
    TInv pname' nsym' t' m := by
  have key : ∀ j < t.size, ∀ s, t.slot j = .sym s → pname' s = pname s := fun j hj s h => hp s (hi.sound j hj s h).2
  constructor
  · rw [hs, hz]; exact hi.hole
  · rw [hs, hz]
    intro j hj s h
    rw [key j hj s h]
    exact hi.chain j hj s h
  · rw [hs, hz]
    intro i hi' j hj a b ha hb hab
    rw [key i hi' a ha, key j hj b hb] at hab
    exact hi.uniq i hi' j hj a b ha hb hab
  · rw [hs, hz]
    intro j hj s h
    rw [key j hj s h]
    exact ⟨(hi.sound j hj s h).1, Nat.lt_of_lt_of_le (hi.sound j hj s h).2 hn⟩
  · rw [hs, hz]
    intro n s h
    obtain ⟨j, h1, h2, h3⟩ := hi.complete n s h
    exact ⟨j, h1, h2, by rw [key j h1 s h2, h3]⟩

/-- the map with one name changed -/
def put1 (m : Name → Option SymId) (n : Name) (o : Option SymId) : Name → Option SymId :=
  fun n' => if n' = n then o else m n'

theorem set_spec {pname nsym t m} (hi : TInv pname nsym t m) (s : SymId) (i : Nat) (hs : s < nsym)
    (hlt : i < t.size) (hfree : (t.slot i).isSym = false) (hm : m (pname s) = none)
    (hpath : Path t.slot t.size (rehash (pname s) % t.size) i)
    (hole : ∃ j < t.size, j ≠ i ∧ t.slot j = .empty) :
    TInv pname nsym (t.set i s) (put1 m (pname s) (some s)) := by
  have hne : ∀ p, t.slot p ≠ .empty → Function.update t.slot i (.sym s) p ≠ .empty := by
    intro p h
    by_cases hp : p = i
    · subst hp; simp
    · rwa [Function.update_of_ne hp]
  have hnomatch : ∀ j < t.size, ∀ a, t.slot j = .sym a → pname a ≠ pname s := by
    intro j hj a ha he
    have h1 := (hi.sound j hj a ha).1
    rw [he, hm] at h1
    cases h1
  have hpathne : ∀ h j, Path t.slot t.size h j → Path (Function.update t.slot i (.sym s)) t.size h j := by
    rintro h j ⟨d, h1, h2, h3⟩
    exact ⟨d, h1, h2, fun d' hd' => hne _ (h3 d' hd')⟩
  constructor
  · obtain ⟨j, h1, h2, h3⟩ := hole
    exact ⟨j, h1, by simp only [Table.set]; rw [Function.update_of_ne h2, h3]⟩
  · intro j hj x hx
    by_cases hje : j = i
    · subst hje
      simp only [Table.set, Function.update_self, Slot.sym.injEq] at hx
      subst hx
      exact hpathne _ _ hpath
    · simp only [Table.set, Function.update_of_ne hje] at hx
      exact hpathne _ _ (hi.chain j hj x hx)
  · intro a ha b hb x y hx hy hxy
    simp only [Table.set] at ha hb hx hy
    by_cases hai : a = i
    · by_cases hbi : b = i
      · rw [hai, hbi]
      · rw [hai, Function.update_self] at hx
        rw [Function.update_of_ne hbi] at hy
        cases hx
        exact absurd hxy.symm (hnomatch b hb y hy)
    · by_cases hbi : b = i
      · rw [hbi, Function.update_self] at hy
        rw [Function.update_of_ne hai] at hx
        cases hy
        exact absurd hxy (hnomatch a ha x hx)
      · rw [Function.update_of_ne hai] at hx
        rw [Function.update_of_ne hbi] at hy
        exact hi.uniq a ha b hb x y hx hy hxy
  · intro j hj x hx
    simp only [Table.set] at hx hj
    by_cases hje : j = i
    · rw [hje, Function.update_self] at hx
      cases hx
      exact ⟨by simp [put1], hs⟩
    · rw [Function.update_of_ne hje] at hx
      refine ⟨?_, (hi.sound j hj x hx).2⟩
      unfold put1
      rw [if_neg (hnomatch j hj x hx)]
      exact (hi.sound j hj x hx).1
  · intro n x hx
    unfold put1 at hx
    by_cases hn : n = pname s
    · rw [if_pos hn] at hx
      cases hx
      exact ⟨i, hlt, by simp [Table.set], hn.symm⟩
    · rw [if_neg hn] at hx
      obtain ⟨j, h1, h2, h3⟩ := hi.complete n x hx
      refine ⟨j, h1, ?_, h3⟩
      simp only [Table.set]
      rw [Function.update_of_ne]
      · exact h2
      · rintro rfl
        rw [h2] at hfree
        cases hfree

theorem mark_spec {pname nsym t m} (hi : TInv pname nsym t m) (s : SymId) (i : Nat) (hlt : i < t.size)
    (hs : t.slot i = .sym s) : TInv pname nsym (t.mark i .deleted) (put1 m (pname s) none) := by
  have hne : ∀ p, t.slot p ≠ .empty → Function.update t.slot i .deleted p ≠ .empty := by
    intro p h
    by_cases hp : p = i
    · subst hp; simp
    · rwa [Function.update_of_ne hp]
  have hsym : ∀ j x, Function.update t.slot i .deleted j = .sym x → j ≠ i ∧ t.slot j = .sym x := by
    intro j x h
    by_cases hj : j = i
    · rw [hj, Function.update_self] at h; cases h
    · rw [Function.update_of_ne hj] at h; exact ⟨hj, h⟩
  constructor
  · obtain ⟨j, h1, h2⟩ := hi.hole
    refine ⟨j, h1, ?_⟩
    simp only [Table.mark]
    rw [Function.update_of_ne]
    · exact h2
    · rintro rfl; rw [h2] at hs; cases hs
  · intro j hj x hx
    obtain ⟨h1, h2⟩ := hsym j x hx
    obtain ⟨d, h3, h4, h5⟩ := hi.chain j hj x h2
    exact ⟨d, h3, h4, fun d' hd' => hne _ (h5 d' hd')⟩
  · intro a ha b hb x y hx hy hxy
    exact hi.uniq a ha b hb x y (hsym a x hx).2 (hsym b y hy).2 hxy
  · intro j hj x hx
    obtain ⟨h1, h2⟩ := hsym j x hx
    refine ⟨?_, (hi.sound j hj x h2).2⟩
    unfold put1
    rw [if_neg, (hi.sound j hj x h2).1]
    intro he
    exact h1 (hi.uniq j hj i hlt x s h2 hs he)
  · intro n x hx
    unfold put1 at hx
    by_cases hn : n = pname s
    · rw [if_pos hn] at hx; cases hx
    · rw [if_neg hn] at hx
      obtain ⟨j, h1, h2, h3⟩ := hi.complete n x hx
      refine ⟨j, h1, ?_, h3⟩
      simp only [Table.mark]
      rw [Function.update_of_ne]
      · exact h2
      · rintro rfl
        rw [h2] at hs
        cases hs
        exact hn h3.symm

/-! ### counting -/

theorem putCount_spec (t : Table) (k : Nat) (hc : CInv t k) (i : Nat) (s : SymId) (hlt : i < t.size) :
    putCount t i = (List.range t.size).countP (fun j => (Function.update t.slot i (.sym s) j).used) ∧
    putCount t i ≤ t.count + 1 := by
  have := countP_range_update (fun j => (Function.update t.slot i (.sym s) j).used) (fun j => (t.slot j).used)
    t.size i hlt (fun j _ hj => by simp only [Function.update_of_ne hj])
  simp only [Function.update_self] at this
  rw [← hc.count] at this
  unfold putCount
  cases hk : t.slot i <;> simp [hk, Slot.used] at this ⊢ <;> omega

theorem set_hole (t : Table) (k : Nat) (hc : CInv t k) (hk : k ≤ 28) (i : Nat) (hlt : i < t.size) :
    ∃ j < t.size, j ≠ i ∧ t.slot j = .empty := by
  obtain ⟨h1, h2⟩ := putCount_spec t k hc i 0 hlt
  have := hc.room
  have := hc.size
  obtain ⟨j, h3, h4⟩ := countP_range_lt (fun j => (Function.update t.slot i (.sym 0) j).used) t.size (by omega)
  refine ⟨j, h3, ?_⟩
  by_cases hj : j = i
  · simp [hj, Slot.used] at h4
  · simp only [Function.update_of_ne hj] at h4
    refine ⟨hj, ?_⟩
    cases hs : t.slot j <;> simp [hs, Slot.used] at h4 ⊢

theorem set_cinv (t : Table) (k : Nat) (hc : CInv t k) (i : Nat) (s : SymId) (hlt : i < t.size) :
    CInv { t.set i s with count := putCount t i } (k + 1) := by
  obtain ⟨h1, h2⟩ := putCount_spec t k hc i s hlt
  refine ⟨hc.size, hc.cell, h1, ?_⟩
  show putCount t i ≤ t.size / 2 + (k + 1)
  have := hc.room
  omega

theorem mark_cinv (t : Table) (k : Nat) (hc : CInv t k) (i : Nat) (s : SymId) (hs : t.slot i = .sym s) :
    CInv (t.mark i .deleted) k := by
  refine ⟨hc.size, hc.cell, ?_, hc.room⟩
  show t.count = _
  rw [hc.count]
  apply countP_range_congr
  intro j _
  show _ = (Function.update t.slot i .deleted j).used
  by_cases hj : j = i
  · rw [hj, Function.update_self, hs]; rfl
  · rw [Function.update_of_ne hj]

/-! ### growth -/

theorem buddysize_ge (n : Nat) : 3 ≤ buddysize n := by
  induction n using buddysize.induct with
  | case1 => decide
  | case2 => decide
  | case3 n ih1 ih2 => rw [buddysize]; omega

theorem buddysize_succ (n : Nat) (h : 1 ≤ n) : buddysize n + 3 ≤ buddysize (n + 1) := by
  obtain ⟨k, rfl⟩ : ∃ k, n = k + 1 := ⟨n - 1, by omega⟩
  rw [buddysize]
  have := buddysize_ge k
  omega

theorem CInv.bix {t : Table} {k : Nat} (h : CInv t k) : 1 ≤ t.bix := by
  have h1 := h.size
  have h2 := h.cell
  rcases Nat.eq_zero_or_pos t.bix with h3 | h3
  · rw [h3, buddysize] at h2; omega
  · exact h3

/-- symbols of the first `i` words -/
def firstMap (t : Table) (m : Name → Option SymId) (i : Nat) (n : Name) : Option SymId :=
  (m n).filter fun s => decide (∃ j < i, t.slot j = .sym s)

/-- no word is marked as deleted -/
def NoDel (t : Table) : Prop := ∀ i < t.size, t.slot i ≠ .deleted

theorem rehashOne_spec {pname nsym t m} (hi : TInv pname nsym t m)
    (hc : t.count = (List.range t.size).countP fun i => (t.slot i).used)
    (hroom : t.count + 1 < t.size) (s : SymId) (hs : s < nsym) (hm : m (pname s) = none) :
    ∃ t', rehashOne pname t s = some t' ∧ TInv pname nsym t' (put1 m (pname s) (some s)) ∧
      t'.size = t.size ∧ t'.bix = t.bix ∧ t'.count = t.count + 1 ∧
      (t'.count = (List.range t'.size).countP fun i => (t'.slot i).used) ∧ (NoDel t → NoDel t') := by
  have hpos := hi.pos
  have hh : rehash (pname s) % t.size < t.size := Nat.mod_lt _ hpos
  obtain ⟨d, h1, h2, h3⟩ := exists_first t.slot t.size _ (fun x => x == .empty) hh (by decide) hi.hole
  simp only [beq_iff_eq, beq_eq_false_iff_ne, ne_eq] at h2 h3
  have hl := emptyLoop_spec t.slot t.size _ d hpos h2 h3 t.size 0 (Nat.zero_le _) (by omega)
  rw [probe_zero] at hl
  have hplt := probe_lt t.size (rehash (pname s) % t.size) d hpos
  generalize hidx : probe t.size (rehash (pname s) % t.size) d = e at *
  have hcnt : (List.range t.size).countP (fun j => (Function.update t.slot e (.sym s) j).used) = t.count + 1 := by
    have := countP_range_update (fun j => (Function.update t.slot e (.sym s) j).used)
      (fun j => (t.slot j).used) t.size e hplt (fun j _ hj => by simp only [Function.update_of_ne hj])
    rw [← hc, Function.update_self, h2] at this
    have e1 : Slot.used .empty = false := rfl
    have e2 : Slot.used (.sym s) = true := rfl
    simpa [e1, e2] using this
  refine ⟨{ t.set e s with count := t.count + 1 }, by rw [rehashOne, hl]; rfl, ?_, rfl, rfl, rfl, ?_, ?_⟩
  · have hole : ∃ j < t.size, j ≠ e ∧ t.slot j = .empty := by
      obtain ⟨j, h4, h5⟩ := countP_range_lt (fun j => (Function.update t.slot e (.sym s) j).used) t.size
        (by omega)
      refine ⟨j, h4, ?_⟩
      by_cases hj : j = e
      · simp [hj, Slot.used] at h5
      · simp only [Function.update_of_ne hj] at h5
        refine ⟨hj, ?_⟩
        cases hs : t.slot j <;> simp [hs, Slot.used] at h5 ⊢
    have := set_spec hi s e hs hplt (by rw [h2]; rfl) hm ⟨d, h1, hidx.symm, h3⟩ hole
    exact this.congr (Nat.le_refl _) (fun _ _ => rfl) rfl rfl
  · exact hcnt.symm
  · intro hn j hj
    show Function.update t.slot e (.sym s) j ≠ _
    by_cases hje : j = e
    · rw [hje, Function.update_self]; simp
    · rw [Function.update_of_ne hje]; exact hn j hj

theorem firstMap_succ_sym {pname nsym t m} (hi : TInv pname nsym t m) (i : Nat) (h : i < t.size) (s : SymId)
    (hs : t.slot i = .sym s) : firstMap t m (i + 1) = put1 (firstMap t m i) (pname s) (some s) := by
  funext n
  unfold put1 firstMap
  have hsnd := (hi.sound i h s hs).1
  by_cases hn : n = pname s
  · rw [if_pos hn, hn, hsnd, Option.filter_some, if_pos]
    exact decide_eq_true ⟨i, by omega, hs⟩
  · rw [if_neg hn]
    cases hm : m n with
    | none => rfl
    | some x =>
      have hne : x ≠ s := by
        rintro rfl
        exact hn (hi.name n x hm).1.symm
      rw [Option.filter_some, Option.filter_some]
      have : (∃ j < i + 1, t.slot j = .sym x) ↔ (∃ j < i, t.slot j = .sym x) := by
        constructor
        · rintro ⟨j, h1, h2⟩
          refine ⟨j, ?_, h2⟩
          by_contra hh
          have : j = i := by omega
          rw [this, hs] at h2
          cases h2
          exact hne rfl
        · rintro ⟨j, h1, h2⟩
          exact ⟨j, by omega, h2⟩
      simp only [this]

theorem firstMap_succ_other (t : Table) (m : Name → Option SymId) (i : Nat) (hs : (t.slot i).isSym = false) :
    firstMap t m (i + 1) = firstMap t m i := by
  funext n
  unfold firstMap
  cases hm : m n with
  | none => rfl
  | some x =>
    rw [Option.filter_some, Option.filter_some]
    have : (∃ j < i + 1, t.slot j = .sym x) ↔ (∃ j < i, t.slot j = .sym x) := by
      constructor
      · rintro ⟨j, h1, h2⟩
        refine ⟨j, ?_, h2⟩
        by_contra hh
        have : j = i := by omega
        rw [this] at h2
        rw [h2] at hs
        cases hs
      · rintro ⟨j, h1, h2⟩
        exact ⟨j, by omega, h2⟩
    simp only [this]

theorem countP_mono (p q : Nat → Bool) (n : Nat) (h : ∀ i < n, p i = true → q i = true) :
    (List.range n).countP p ≤ (List.range n).countP q :=
  List.countP_mono_left fun i hi => h i (List.mem_range.1 hi)

theorem extendsymvec_spec {pname nsym t m} (hi : TInv pname nsym t m) (k : Nat) (hc : CInv t (k + 1)) :
    ∃ t', extendsymvec pname t = some t' ∧ TInv pname nsym t' m ∧ CInv t' k ∧ NoDel t' := by
  have hbig : t.size + 3 ≤ buddysize (t.bix + 1) - 2 := by
    have h1 := buddysize_succ t.bix hc.bix
    have h2 := hc.cell
    omega
  have key : ∀ i ≤ t.size, ∃ t', (List.range i).foldl
      (fun acc i => acc.bind fun t' =>
        match t.slot i with
        | .sym s => rehashOne pname t' s
        | _ => some t')
      (some (⟨buddysize (t.bix + 1) - 2, fun _ => .empty, 0, t.bix + 1⟩ : Table)) = some t' ∧
      TInv pname nsym t' (firstMap t m i) ∧ t'.size = buddysize (t.bix + 1) - 2 ∧ t'.bix = t.bix + 1 ∧
      t'.count = (List.range i).countP (fun j => (t.slot j).isSym) ∧
      (t'.count = (List.range t'.size).countP fun i => (t'.slot i).used) ∧ NoDel t' := by
    intro i
    induction i with
    | zero =>
      intro _
      refine ⟨_, rfl, ⟨⟨0, by show 0 < buddysize (t.bix + 1) - 2; omega, rfl⟩, ?_, ?_, ?_, ?_⟩, rfl, rfl, rfl, ?_, ?_⟩
      · intro j _ s h; cases h
      · intro i _ j _ a b h; cases h
      · intro j _ s h; cases h
      · intro n s h
        exfalso
        unfold firstMap at h
        rw [Option.filter_eq_some_iff] at h
        simp at h
      · simp [Slot.used]
      · intro i _; simp
    | succ i ih =>
      intro hle
      obtain ⟨t', h1, h2, h3, h4, h5, h6, h7⟩ := ih (by omega)
      rw [List.range_succ, List.foldl_append, h1]
      simp only [List.foldl_cons, List.foldl_nil, Option.bind_some]
      rw [List.countP_append]
      cases hs : t.slot i with
      | sym s =>
        have hsnd := hi.sound i (by omega) s hs
        have hlt : t'.count + 1 < t'.size := by
          have : (List.range i).countP (fun j => (t.slot j).isSym) ≤ (List.range i).length := List.countP_le_length
          rw [List.length_range] at this
          omega
        have hm : firstMap t m i (pname s) = none := by
          unfold firstMap
          rw [hsnd.1, Option.filter_some, if_neg]
          rw [decide_eq_true_eq]
          rintro ⟨j, hj1, hj2⟩
          have := hi.uniq j (by omega) i (by omega) s s hj2 hs rfl
          omega
        obtain ⟨t2, g1, g2, g3, g4, g5, g6, g7⟩ := rehashOne_spec h2 h6 hlt s hsnd.2 hm
        refine ⟨t2, g1, ?_, by rw [g3, h3], by rw [g4, h4], ?_, g6, g7 h7⟩
        · rw [firstMap_succ_sym hi i (by omega) s hs]; exact g2
        · rw [g5, h5]; simp [hs, Slot.isSym]
      | empty =>
        refine ⟨t', rfl, ?_, h3, h4, ?_, h6, h7⟩
        · rw [firstMap_succ_other t m i (by rw [hs]; rfl)]; exact h2
        · rw [h5]; simp [hs, Slot.isSym]
      | deleted =>
        refine ⟨t', rfl, ?_, h3, h4, ?_, h6, h7⟩
        · rw [firstMap_succ_other t m i (by rw [hs]; rfl)]; exact h2
        · rw [h5]; simp [hs, Slot.isSym]
  obtain ⟨t', h1, h2, h3, h4, h5, h6, h7⟩ := key t.size (Nat.le_refl _)
  refine ⟨t', h1, ?_, ⟨?_, ?_, h6, ?_⟩, h7⟩
  · have : firstMap t m t.size = m := by
      funext n
      unfold firstMap
      cases hm : m n with
      | none => rfl
      | some s =>
        obtain ⟨j, g1, g2, g3⟩ := hi.complete n s hm
        rw [Option.filter_some, if_pos]
        exact decide_eq_true ⟨j, g1, g2⟩
    rwa [this] at h2
  · have := hc.size; omega
  · rw [h3, h4]; omega
  · have h8 : t'.count ≤ t.count := by
      rw [h5, hc.count]
      apply countP_mono
      intro i _ h
      cases hs : t.slot i <;> simp [hs, Slot.isSym, Slot.used] at h ⊢
    have := hc.room
    omega

theorem extendIf_spec {pname nsym t m} (hi : TInv pname nsym t m) (k : Nat) (hc : CInv t (k + 1)) :
    ∃ t', extendIf pname t = some t' ∧ TInv pname nsym t' m ∧ CInv t' k ∧ (NoDel t → NoDel t') := by
  unfold extendIf
  by_cases h : t.count > t.size / 2
  · rw [if_pos h]
    obtain ⟨t', h1, h2, h3, h4⟩ := extendsymvec_spec hi k hc
    exact ⟨t', h1, h2, h3, fun _ => h4⟩
  · rw [if_neg h]
    exact ⟨t, rfl, hi, ⟨hc.size, hc.cell, hc.count, by omega⟩, id⟩

end Eus.Pkg
