import Verif.Hash.Spec
import Mathlib.Data.List.Range
import Mathlib.Tactic.Ring
import Mathlib.Tactic.Linarith
set_option autoImplicit false
namespace Eus.Hash

variable {K V : Type}

/-! ### counting over a range -/

theorem countP_range_succ (p : Nat → Bool) (n : Nat) :
    (List.range (n + 1)).countP p = (List.range n).countP p + if p n then 1 else 0 := by
  rw [List.range_succ, List.countP_append]; simp [List.countP_cons]

theorem countP_range_congr (p q : Nat → Bool) (n : Nat) (h : ∀ i < n, p i = q i) :
    (List.range n).countP p = (List.range n).countP q := by
  apply List.countP_congr
  intro i hi
  rw [h i (List.mem_range.1 hi)]

theorem countP_range_update (p q : Nat → Bool) (n e : Nat) (he : e < n)
    (h : ∀ i < n, i ≠ e → p i = q i) :
    (List.range n).countP p + (if q e then 1 else 0) = (List.range n).countP q + if p e then 1 else 0 := by
  induction n with
  | zero => omega
  | succ n ih =>
    rw [countP_range_succ, countP_range_succ]
    by_cases hn : e = n
    · subst hn
      rw [countP_range_congr p q e (fun i hi => h i (by omega) (by omega))]
      omega
    · have := ih (by omega) (fun i hi hne => h i (by omega) hne)
      rw [h n (by omega) (fun h => hn h.symm)]
      omega

theorem countP_range_lt (p : Nat → Bool) (n : Nat) (h : (List.range n).countP p < n) :
    ∃ i < n, p i = false := by
  by_contra hh
  push Not at hh
  have : (List.range n).countP p = (List.range n).length := by
    rw [List.countP_eq_length]
    intro i hi
    have := hh i (List.mem_range.1 hi)
    simpa using this
  rw [List.length_range] at this
  omega

/-! ### invariant -/

def Slot.used : Slot K → Bool
  | .empty => false
  | _ => true

def Slot.live : Slot K → Bool
  | .key _ => true
  | _ => false

/-- position of the `d`-th probe -/
def probe (size h d : Nat) : Nat := (h + d) % size

structure Inv (c : Cfg K) (t : HT K V) : Prop where
  good : t.size * c.rd + c.rn < t.size * c.rn
  chain : ∀ j < t.size, ∀ k, t.key j = .key k →
    ∃ d < t.size, j = probe t.size (home c t.size k) d ∧
      ∀ d' < d, t.key (probe t.size (home c t.size k) d') ≠ .empty
  uniq : ∀ i < t.size, ∀ j < t.size, ∀ a b, t.key i = .key a → t.key j = .key b → c.test a b = true → i = j
  fill : t.fill = (List.range t.size).countP (fun i => (t.key i).used)
  count : t.count = (List.range t.size).countP (fun i => (t.key i).live)
  room : t.fill < t.size

/-- The table represents the map `m`. -/
structure Rep (c : Cfg K) (t : HT K V) (m : K → Option V) : Prop where
  resp : ∀ a b, c.test a b = true → m a = m b
  sound : ∀ j < t.size, ∀ k, t.key j = .key k → m k = some (t.value j)
  complete : ∀ k v, m k = some v → ∃ j < t.size, ∃ k', t.key j = .key k' ∧ c.test k' k = true

theorem home_lt (c : Cfg K) (size : Nat) (h : 0 < size) (s : K) : home c size s < size := by
  unfold home
  rw [Int.natAbs_tmod]
  exact Nat.mod_lt _ (by simpa using h)

theorem next_probe (size h d : Nat) (hs : 0 < size) : next size (probe size h d) = probe size h (d + 1) := by
  unfold next probe
  have h1 := Nat.mod_lt (h + d) hs
  have e : (h + (d + 1)) % size = ((h + d) % size + 1) % size := by
    rw [← Nat.add_assoc, Nat.add_mod (h + d) 1]
    rw [Nat.add_mod ((h + d) % size) 1, Nat.mod_mod]
  rw [e]
  split_ifs with hh
  · have : (h + d) % size + 1 = size := by omega
    rw [this, Nat.mod_self]
  · exact (Nat.mod_eq_of_lt (Nat.lt_of_not_le hh)).symm

theorem probe_lt (size h d : Nat) (hs : 0 < size) : probe size h d < size := Nat.mod_lt _ hs

theorem probe_surj (size h j : Nat) (hh : h < size) (hj : j < size) : ∃ d < size, probe size h d = j := by
  unfold probe
  by_cases hle : h ≤ j
  · exact ⟨j - h, by omega, by rw [Nat.add_sub_cancel' hle, Nat.mod_eq_of_lt hj]⟩
  · refine ⟨j + size - h, by omega, ?_⟩
    rw [show h + (j + size - h) = j + size by omega, Nat.add_mod_right, Nat.mod_eq_of_lt hj]

/-- What the probe loop does from its `d`-th probe on. -/
theorem findLoop_spec (c : Cfg K) (key : Nat → Slot K) (size : Nat) (s : K) (h : Nat) (hs : 0 < size) :
    ∀ (n d : Nat) (ep : Option Nat),
      (∀ e, ep = some e → ∃ d' < d, e = probe size h d' ∧ key e = .deleted) →
      (∀ d' < d, key (probe size h d') ≠ .empty) →
      (∀ d' < d, ∀ k, key (probe size h d') = .key k → c.test k s = false) →
      match findLoop c key size s n (probe size h d) ep with
      | none => ∀ d' < d + n, key (probe size h d') ≠ .empty ∧
          ∀ k, key (probe size h d') = .key k → c.test k s = false
      | some r =>
        (r < size ∧ ∃ k, key r = .key k ∧ c.test k s = true) ∨
        (size ≤ r ∧ ∃ i, i < d + n ∧ key (probe size h i) = .empty ∧
          (∀ i' < i, key (probe size h i') ≠ .empty ∧ ∀ k, key (probe size h i') = .key k → c.test k s = false) ∧
          ∃ j ≤ i, r - size = probe size h j ∧ (key (r - size) = .empty ∨ key (r - size) = .deleted)) := by
  intro n
  induction n with
  | zero =>
    intro d ep _ h2 h3
    simp only [findLoop, Nat.add_zero]
    exact fun d' hd => ⟨h2 d' hd, h3 d' hd⟩
  | succ n ih =>
    intro d ep h1 h2 h3
    have hp := probe_lt size h d hs
    rw [findLoop]
    cases hk : key (probe size h d) with
    | empty =>
      simp only
      right
      refine ⟨by omega, d, by omega, hk, fun i' hi' => ⟨h2 i' hi', h3 i' hi'⟩, ?_⟩
      rw [Nat.add_sub_cancel]
      cases ep with
      | none => exact ⟨d, le_refl d, rfl, .inl hk⟩
      | some e =>
        obtain ⟨d', hd', he, hk'⟩ := h1 e rfl
        exact ⟨d', by omega, he, .inr hk'⟩
    | deleted =>
      simp only
      rw [next_probe size h d hs]
      have := ih (d + 1) (some (ep.getD (probe size h d))) ?_ ?_ ?_
      · rw [show d + 1 + n = d + (n + 1) by omega] at this
        exact this
      · intro e he
        cases ep with
        | none =>
          simp only [Option.getD_none, Option.some.injEq] at he
          exact ⟨d, by omega, he.symm, he ▸ hk⟩
        | some e' =>
          simp only [Option.getD_some, Option.some.injEq] at he
          obtain ⟨d', hd', h4, h5⟩ := h1 e' rfl
          exact ⟨d', by omega, he ▸ h4, he ▸ h5⟩
      · intro d' hd'
        by_cases hh : d' = d
        · rw [hh, hk]; simp
        · exact h2 d' (by omega)
      · intro d' hd' k hk'
        by_cases hh : d' = d
        · rw [hh, hk] at hk'; cases hk'
        · exact h3 d' (by omega) k hk'
    | key k =>
      simp only
      by_cases ht : c.test k s = true
      · rw [if_pos ht]
        exact .inl ⟨hp, k, hk, ht⟩
      · rw [if_neg ht, next_probe size h d hs]
        have := ih (d + 1) ep ?_ ?_ ?_
        · rw [show d + 1 + n = d + (n + 1) by omega] at this
          exact this
        · intro e he
          obtain ⟨d', hd', h4⟩ := h1 e he
          exact ⟨d', by omega, h4⟩
        · intro d' hd'
          by_cases hh : d' = d
          · rw [hh, hk]; simp
          · exact h2 d' (by omega)
        · intro d' hd' k' hk'
          by_cases hh : d' = d
          · rw [hh, hk] at hk'
            cases hk'
            simpa using ht
          · exact h3 d' (by omega) k' hk'

/-- `:find` on a table satisfying the invariant. -/
theorem find_spec (c : Cfg K) (hc : c.Lawful) (t : HT K V) (m : K → Option V) (hi : Inv c t) (hr : Rep c t m)
    (s : K) :
    (∃ e < t.size, find c t s = some e ∧ ∃ k, t.key e = .key k ∧ c.test k s = true ∧ m s = some (t.value e)) ∨
    (∃ e < t.size, find c t s = some (e + t.size) ∧ m s = none ∧ (t.key e).live = false ∧
      ∃ d < t.size, e = probe t.size (home c t.size s) d ∧
        ∀ d' < d, t.key (probe t.size (home c t.size s) d') ≠ .empty) := by
  have hs : 0 < t.size := by have := hi.room; omega
  have hh := home_lt c t.size hs s
  have hp0 : probe t.size (home c t.size s) 0 = home c t.size s := by
    unfold probe; rw [Nat.add_zero, Nat.mod_eq_of_lt hh]
  have hf := findLoop_spec c t.key t.size s (home c t.size s) hs t.size 0 none
    (by simp) (by omega) (by omega)
  rw [hp0, Nat.zero_add] at hf
  have hempty : ∃ i < t.size, t.key i = .empty := by
    obtain ⟨i, h1, h2⟩ := countP_range_lt (fun i => (t.key i).used) t.size (by rw [← hi.fill]; exact hi.room)
    refine ⟨i, h1, ?_⟩
    cases hk : t.key i <;> simp [hk, Slot.used] at h2 ⊢
  show (∃ e < t.size, findLoop c t.key t.size s t.size (home c t.size s) none = some e ∧ _) ∨
    (∃ e < t.size, findLoop c t.key t.size s t.size (home c t.size s) none = some (e + t.size) ∧ _)
  cases hfl : findLoop c t.key t.size s t.size (home c t.size s) none with
  | none =>
    rw [hfl] at hf
    simp only at hf
    obtain ⟨i, h1, h2⟩ := hempty
    obtain ⟨d, h3, h4⟩ := probe_surj t.size _ i hh h1
    exact absurd h2 (h4 ▸ (hf d h3).1)
  | some r =>
    rw [hfl] at hf
    simp only at hf
    rcases hf with ⟨h1, k, h2, h3⟩ | ⟨h1, i, h2, h3, h4, j, h5, h6, h7⟩
    · exact .inl ⟨r, h1, rfl, k, h2, h3, by rw [← hr.resp k s h3]; exact hr.sound r h1 k h2⟩
    · right
      have hlt : r - t.size < t.size := by rw [h6]; exact probe_lt _ _ _ hs
      refine ⟨r - t.size, hlt, by rw [Nat.sub_add_cancel h1], ?_, ?_, j, by omega, h6, ?_⟩
      · cases hm : m s with
        | none => rfl
        | some v =>
          exfalso
          obtain ⟨q, hq, k', hk', ht⟩ := hr.complete s v hm
          obtain ⟨d, hd, e1, e2⟩ := hi.chain q hq k' hk'
          have hhome : home c t.size k' = home c t.size s := by
            unfold home; rw [hc.hash k' s ht]
          rw [hhome] at e1 e2
          rcases Nat.lt_trichotomy d i with hdi | hdi | hdi
          · have := (h4 d hdi).2 k' (e1 ▸ hk')
            rw [this] at ht; cases ht
          · rw [e1, hdi, h3] at hk'; cases hk'
          · exact e2 i hdi h3
      · rcases h7 with h | h <;> rw [h] <;> rfl
      · intro d' hd'
        exact (h4 d' (by omega)).1

/-! ### updates -/

/-- the map updated at (the class of) a key -/
def upd (test : K → K → Bool) (m : K → Option V) (k : K) (o : Option V) : K → Option V :=
  fun k' => if test k k' then o else m k'

theorem upd_resp (c : Cfg K) (hc : c.Lawful) (m : K → Option V) (k : K) (o : Option V)
    (h : ∀ a b, c.test a b = true → m a = m b) : ∀ a b, c.test a b = true → upd c.test m k o a = upd c.test m k o b := by
  intro a b hab
  unfold upd
  by_cases h1 : c.test k a = true
  · rw [if_pos h1, if_pos (hc.trans _ _ _ h1 hab)]
  · rw [if_neg h1, if_neg (fun h2 => h1 (hc.trans _ _ _ h2 (hc.symm _ _ hab))), h a b hab]

/-- overwriting an existing key -/
theorem store_spec (c : Cfg K) (hc : c.Lawful) (t : HT K V) (m : K → Option V) (hi : Inv c t) (hr : Rep c t m)
    (k : K) (v : V) (e : Nat) (he : e < t.size) (k0 : K) (hk0 : t.key e = .key k0) (ht : c.test k0 k = true) :
    Inv c (store t e k v) ∧ Rep c (store t e k v) (upd c.test m k (some v)) := by
  have hhome : home c t.size k = home c t.size k0 := by
    unfold home; rw [hc.hash k0 k ht]
  have hne : ∀ p, Function.update t.key e (.key k) p ≠ .empty ↔ t.key p ≠ .empty := by
    intro p
    by_cases hp : p = e
    · subst hp; simp [hk0]
    · rw [Function.update_of_ne hp]
  constructor
  · constructor
    · exact hi.good
    · intro j hj x hx
      show ∃ d < t.size, j = probe t.size (home c t.size x) d ∧
        ∀ d' < d, Function.update t.key e (.key k) (probe t.size (home c t.size x) d') ≠ .empty
      have hx' : ∃ x', t.key j = .key x' ∧ home c t.size x' = home c t.size x := by
        by_cases hje : j = e
        · subst hje
          simp only [store, Function.update_self, Slot.key.injEq] at hx
          exact ⟨k0, hk0, by rw [← hx, hhome]⟩
        · simp only [store, Function.update_of_ne hje] at hx
          exact ⟨x, hx, rfl⟩
      obtain ⟨x', h1, h2⟩ := hx'
      obtain ⟨d, hd, e1, e2⟩ := hi.chain j hj x' h1
      rw [h2] at e1 e2
      exact ⟨d, hd, e1, fun d' hd' => (hne _).2 (e2 d' hd')⟩
    · intro i hi' j hj a b ha hb hab
      have key : ∀ i < t.size, ∀ a, Function.update t.key e (.key k) i = .key a →
          ∃ a', t.key i = .key a' ∧ c.test a' a = true := by
        intro i _ a ha
        by_cases hie : i = e
        · subst hie
          rw [Function.update_self] at ha
          cases ha
          exact ⟨k0, hk0, ht⟩
        · rw [Function.update_of_ne hie] at ha
          exact ⟨a, ha, hc.refl a⟩
      obtain ⟨a', h1, h2⟩ := key i hi' a ha
      obtain ⟨b', h3, h4⟩ := key j hj b hb
      exact hi.uniq i hi' j hj a' b' h1 h3
        (hc.trans _ _ _ h2 (hc.trans _ _ _ hab (hc.symm _ _ h4)))
    · show t.fill = _
      rw [hi.fill]
      apply countP_range_congr
      intro i _
      show (t.key i).used = (Function.update t.key e (.key k) i).used
      by_cases hie : i = e
      · subst hie; rw [Function.update_self, hk0]; rfl
      · rw [Function.update_of_ne hie]
    · show t.count = _
      rw [hi.count]
      apply countP_range_congr
      intro i _
      show (t.key i).live = (Function.update t.key e (.key k) i).live
      by_cases hie : i = e
      · subst hie; rw [Function.update_self, hk0]; rfl
      · rw [Function.update_of_ne hie]
    · exact hi.room
  · constructor
    · exact upd_resp c hc m k _ hr.resp
    · intro j hj x hx
      simp only [store] at hx ⊢
      by_cases hje : j = e
      · subst hje
        rw [Function.update_self] at hx ⊢
        cases hx
        unfold upd; rw [if_pos (hc.refl k)]
      · rw [Function.update_of_ne hje] at hx ⊢
        unfold upd
        rw [if_neg, hr.sound j hj x hx]
        intro hkx
        exact hje (hi.uniq j hj e he x k0 hx hk0 (hc.symm _ _ (hc.trans _ _ _ ht hkx)))
    · intro x w hx
      simp only [store]
      unfold upd at hx
      by_cases hkx : c.test k x = true
      · exact ⟨e, he, k, by rw [Function.update_self], hkx⟩
      · rw [if_neg hkx] at hx
        obtain ⟨j, hj, k', h1, h2⟩ := hr.complete x w hx
        refine ⟨j, hj, k', ?_, h2⟩
        rw [Function.update_of_ne]
        · exact h1
        · rintro rfl
          rw [hk0] at h1
          cases h1
          exact hkx (hc.trans _ _ _ (hc.symm _ _ ht) h2)

/-- adding a new key in the slot that `:find` proposes -/
theorem add_spec (c : Cfg K) (hc : c.Lawful) (t : HT K V) (m : K → Option V) (hi : Inv c t) (hr : Rep c t m)
    (k : K) (v : V) (e : Nat) (he : e < t.size) (hm : m k = none) (hfree : (t.key e).live = false)
    (hpath : ∃ d < t.size, e = probe t.size (home c t.size k) d ∧
        ∀ d' < d, t.key (probe t.size (home c t.size k) d') ≠ .empty)
    (hroom : t.fill + 1 < t.size) :
    Inv c (add t e k v) ∧ Rep c (add t e k v) (upd c.test m k (some v)) ∧
      (add t e k v).fill ≤ t.fill + 1 := by
  have hne : ∀ p, t.key p ≠ .empty → Function.update t.key e (.key k) p ≠ .empty := by
    intro p h
    by_cases hp : p = e
    · subst hp; simp
    · rwa [Function.update_of_ne hp]
  have hfill : (add t e k v).fill = t.fill + if (t.key e).used then 0 else 1 := by
    show (match t.key e with | .empty => t.fill + 1 | _ => t.fill) = _
    cases t.key e <;> rfl
  have hnomatch : ∀ j < t.size, ∀ a, t.key j = .key a → c.test k a = false := by
    intro j hj a ha
    by_contra hh
    have h1 := hr.sound j hj a ha
    rw [← hr.resp k a (by simpa using hh), hm] at h1
    cases h1
  refine ⟨?_, ?_, by rw [hfill]; split_ifs <;> omega⟩
  · constructor
    · exact hi.good
    · intro j hj x hx
      show ∃ d < t.size, j = probe t.size (home c t.size x) d ∧
        ∀ d' < d, Function.update t.key e (.key k) (probe t.size (home c t.size x) d') ≠ .empty
      by_cases hje : j = e
      · subst hje
        simp only [add, store, Function.update_self, Slot.key.injEq] at hx
        subst hx
        obtain ⟨d, hd, e1, e2⟩ := hpath
        exact ⟨d, hd, e1, fun d' hd' => hne _ (e2 d' hd')⟩
      · simp only [add, store, Function.update_of_ne hje] at hx
        obtain ⟨d, hd, e1, e2⟩ := hi.chain j hj x hx
        exact ⟨d, hd, e1, fun d' hd' => hne _ (e2 d' hd')⟩
    · intro i hi' j hj a b ha hb hab
      simp only [add, store] at ha hb hi' hj
      by_cases hie : i = e
      · by_cases hje : j = e
        · rw [hie, hje]
        · subst hie
          rw [Function.update_self] at ha
          rw [Function.update_of_ne hje] at hb
          cases ha
          rw [hnomatch j hj b hb] at hab; cases hab
      · by_cases hje : j = e
        · subst hje
          rw [Function.update_self] at hb
          rw [Function.update_of_ne hie] at ha
          cases hb
          have := hnomatch i hi' a ha
          rw [hc.symm _ _ hab] at this; cases this
        · rw [Function.update_of_ne hie] at ha
          rw [Function.update_of_ne hje] at hb
          exact hi.uniq i hi' j hj a b ha hb hab
    · rw [hfill, hi.fill]
      have := countP_range_update (fun i => ((add t e k v).key i).used) (fun i => (t.key i).used) t.size e he ?_
      · beta_reduce at this
        have h1 : ((add t e k v).key e).used = true := by
          show (Function.update t.key e (.key k) e).used = true
          rw [Function.update_self]; rfl
        rw [h1] at this
        show _ = (List.range t.size).countP (fun i => ((add t e k v).key i).used)
        simp only [if_true] at this
        split_ifs at this ⊢ <;> omega
      · intro i _ hie
        show (Function.update t.key e (.key k) i).used = _
        rw [Function.update_of_ne hie]
    · have := countP_range_update (fun i => ((add t e k v).key i).live) (fun i => (t.key i).live) t.size e he ?_
      · beta_reduce at this
        have h1 : ((add t e k v).key e).live = true := by
          show (Function.update t.key e (.key k) e).live = true
          rw [Function.update_self]; rfl
        rw [h1, hfree] at this
        show t.count + 1 = (List.range t.size).countP (fun i => ((add t e k v).key i).live)
        rw [hi.count]
        simp only [if_true, Bool.false_eq_true, if_false] at this
        omega
      · intro i _ hie
        show (Function.update t.key e (.key k) i).live = _
        rw [Function.update_of_ne hie]
    · rw [hfill]
      show _ < t.size
      split_ifs <;> omega
  · constructor
    · exact upd_resp c hc m k _ hr.resp
    · intro j hj x hx
      simp only [add, store] at hx ⊢
      by_cases hje : j = e
      · subst hje
        rw [Function.update_self] at hx ⊢
        cases hx
        unfold upd; rw [if_pos (hc.refl k)]
      · rw [Function.update_of_ne hje] at hx ⊢
        unfold upd
        rw [if_neg, hr.sound j hj x hx]
        rw [hnomatch j hj x hx]; simp
    · intro x w hx
      simp only [add, store]
      unfold upd at hx
      by_cases hkx : c.test k x = true
      · exact ⟨e, he, k, by rw [Function.update_self], hkx⟩
      · rw [if_neg hkx] at hx
        obtain ⟨j, hj, k', h1, h2⟩ := hr.complete x w hx
        refine ⟨j, hj, k', ?_, h2⟩
        rw [Function.update_of_ne]
        · exact h1
        · rintro rfl
          rw [h1] at hfree
          cases hfree

theorem init_spec (c : Cfg K) (nil : V) (s : Nat) (h : s * c.rd + c.rn < s * c.rn) :
    Inv c (init nil s : HT K V) ∧ Rep c (init nil s : HT K V) (fun _ => none) := by
  have hs : 0 < s := by rcases Nat.eq_zero_or_pos s with rfl | h' <;> omega
  refine ⟨⟨h, ?_, ?_, ?_, ?_, hs⟩, ⟨fun _ _ _ => rfl, ?_, ?_⟩⟩
  · intro j _ k hk; cases hk
  · intro i _ j _ a b ha; cases ha
  · symm; show (List.range s).countP _ = 0
    rw [List.countP_eq_zero]; intro i _; simp [init, Slot.used]
  · symm; show (List.range s).countP _ = 0
    rw [List.countP_eq_zero]; intro i _; simp [init, Slot.live]
  · intro j _ k hk; cases hk
  · intro k v hv; cases hv

theorem good_double (a rd rn : Nat) (h : a * rd + rn < a * rn) : 2 * a * rd + rn < 2 * a * rn := by
  rw [Nat.mul_assoc, Nat.mul_assoc]; omega

open scoped Classical in
/-- the map restricted to the keys in the first `i` slots -/
noncomputable def pre (c : Cfg K) (t : HT K V) (m : K → Option V) (i : Nat) : K → Option V := fun k =>
  if ∃ j < i, ∃ k', t.key j = .key k' ∧ c.test k' k = true then m k else none

open scoped Classical in
theorem enterD_spec (c : Cfg K) (hc : c.Lawful) (nil : V) : ∀ (d : Nat) (t : HT K V) (m : K → Option V) (k : K) (v : V),
    Inv c t → Rep c t m → t.fill * c.rn ≤ t.size * c.rd * 2 ^ d →
    ∃ t', enterD c nil d t k v = some t' ∧ Inv c t' ∧ Rep c t' (upd c.test m k (some v)) ∧
      t.size ≤ t'.size ∧ t'.fill ≤ t.fill + 1 := by
  intro d
  induction d with
  | zero =>
    intro t m k v hi hr hd
    rw [enterD]
    rcases find_spec c hc t m hi hr k with ⟨e, he, h1, k0, h2, h3, h4⟩ | ⟨e, he, h1, h2, h3, h4⟩
    · rw [h1]
      simp only
      rw [if_pos he]
      obtain ⟨s1, s2⟩ := store_spec c hc t m hi hr k v e he k0 h2 h3
      exact ⟨_, rfl, s1, s2, le_refl _, Nat.le_succ _⟩
    · rw [h1]
      simp only
      rw [if_neg (by omega), if_neg (by simpa using hd), Nat.add_sub_cancel]
      obtain ⟨s1, s2, s3⟩ := add_spec c hc t m hi hr k v e he h2 h3 h4 (by
        have := hi.good
        have h5 : (t.fill + 1) * c.rn < t.size * c.rn := by rw [Nat.add_mul]; omega
        exact Nat.lt_of_mul_lt_mul_right h5)
      exact ⟨_, rfl, s1, s2, le_refl _, s3⟩
  | succ d ih =>
    intro t m k v hi hr hd
    rw [enterD]
    rcases find_spec c hc t m hi hr k with ⟨e, he, h1, k0, h2, h3, h4⟩ | ⟨e, he, h1, h2, h3, h4⟩
    · rw [h1]
      simp only
      rw [if_pos he]
      obtain ⟨s1, s2⟩ := store_spec c hc t m hi hr k v e he k0 h2 h3
      exact ⟨_, rfl, s1, s2, le_refl _, Nat.le_succ _⟩
    · rw [h1]
      simp only
      rw [if_neg (by omega)]
      by_cases hov : t.fill * c.rn > t.size * c.rd
      · rw [if_pos hov]
        -- the loop of :extend
        have loop : ∀ i ≤ t.size, ∃ t', (List.range i).foldl
            (fun acc i => acc.bind fun t' =>
              match t.key i with
              | .key x => enterD c nil d t' x (t.value i)
              | _ => some t')
            (some (init nil (2 * t.size))) = some t' ∧ Inv c t' ∧ Rep c t' (pre c t m i) ∧
              2 * t.size ≤ t'.size ∧ t'.fill ≤ (List.range i).countP (fun i => (t.key i).live) := by
          intro i
          induction i with
          | zero =>
            intro _
            obtain ⟨q1, q2⟩ := init_spec (V := V) c nil (2 * t.size) (good_double _ _ _ hi.good)
            refine ⟨_, rfl, q1, ?_, le_refl _, by simp [init]⟩
            have : pre c t m 0 = fun _ => none := by
              funext k; unfold pre; rw [if_neg]; rintro ⟨j, hj, _⟩; omega
            rw [this]; exact q2
          | succ i ihi =>
            intro hle
            obtain ⟨t1, e1, e2, e3, e4, e5⟩ := ihi (by omega)
            rw [List.range_succ, List.foldl_append, e1]
            simp only [List.foldl_cons, List.foldl_nil, Option.bind_some]
            cases hk : t.key i with
            | key x =>
              simp only
              have hcnt : (List.range i).countP (fun i => (t.key i).live) ≤ t.fill := by
                rw [hi.fill]
                calc _ ≤ (List.range i).countP (fun i => (t.key i).used) := by
                      apply List.countP_mono_left
                      intro j _ hj
                      cases h : t.key j <;> simp [h, Slot.live, Slot.used] at hj ⊢
                  _ ≤ _ := by
                      apply List.Sublist.countP_le
                      exact List.range_sublist.2 (by omega)
              obtain ⟨t2, f1, f2, f3, f4, f5⟩ := ih t1 (pre c t m i) x (t.value i) e2 e3 (by
                calc t1.fill * c.rn ≤ t.fill * c.rn := Nat.mul_le_mul_right _ (by omega)
                  _ ≤ t.size * c.rd * 2 ^ (d + 1) := hd
                  _ = 2 * t.size * c.rd * 2 ^ d := by rw [pow_succ]; ring
                  _ ≤ t1.size * c.rd * 2 ^ d :=
                    Nat.mul_le_mul_right _ (Nat.mul_le_mul_right _ e4))
              refine ⟨t2, f1, f2, ?_, by omega, ?_⟩
              · have : pre c t m (i + 1) = upd c.test (pre c t m i) x (some (t.value i)) := by
                  funext y
                  unfold upd
                  by_cases hxy : c.test x y = true
                  · rw [if_pos hxy]
                    unfold pre
                    rw [if_pos ⟨i, by omega, x, hk, hxy⟩, ← hr.resp x y hxy]
                    exact hr.sound i (by omega) x hk
                  · rw [if_neg hxy]
                    unfold pre
                    apply if_congr _ rfl rfl
                    constructor
                    · rintro ⟨j, hj, k', h5, h6⟩
                      refine ⟨j, ?_, k', h5, h6⟩
                      rcases Nat.lt_or_ge j i with h7 | h7
                      · exact h7
                      · exfalso
                        have : j = i := by omega
                        subst this
                        rw [hk] at h5
                        cases h5
                        exact hxy h6
                    · rintro ⟨j, hj, h5⟩
                      exact ⟨j, by omega, h5⟩
                rw [this]; exact f3
              · rw [List.countP_append]
                have : List.countP (fun i => (t.key i).live) [i] = 1 := by simp [hk, Slot.live]
                rw [this]
                omega
            | empty =>
              refine ⟨t1, rfl, e2, ?_, e4, ?_⟩
              · have : pre c t m (i + 1) = pre c t m i := by
                  funext y; unfold pre; apply if_congr _ rfl rfl
                  constructor
                  · rintro ⟨j, hj, k', h5, h6⟩
                    refine ⟨j, ?_, k', h5, h6⟩
                    rcases Nat.lt_or_ge j i with h7 | h7
                    · exact h7
                    · exfalso
                      have : j = i := by omega
                      subst this
                      rw [hk] at h5
                      cases h5
                  · rintro ⟨j, hj, h5⟩
                    exact ⟨j, by omega, h5⟩
                rw [this]; exact e3
              · rw [List.countP_append]; omega
            | deleted =>
              refine ⟨t1, rfl, e2, ?_, e4, ?_⟩
              · have : pre c t m (i + 1) = pre c t m i := by
                  funext y; unfold pre; apply if_congr _ rfl rfl
                  constructor
                  · rintro ⟨j, hj, k', h5, h6⟩
                    refine ⟨j, ?_, k', h5, h6⟩
                    rcases Nat.lt_or_ge j i with h7 | h7
                    · exact h7
                    · exfalso
                      have : j = i := by omega
                      subst this
                      rw [hk] at h5
                      cases h5
                  · rintro ⟨j, hj, h5⟩
                    exact ⟨j, by omega, h5⟩
                rw [this]; exact e3
              · rw [List.countP_append]; omega
        obtain ⟨t1, e1, e2, e3, e4, e5⟩ := loop t.size (le_refl _)
        have hext : extendWith nil (enterD c nil d) t = some t1 := e1
        rw [hext]
        simp only
        have hpre : pre c t m t.size = m := by
          funext y
          unfold pre
          by_cases hy : ∃ j < t.size, ∃ k', t.key j = .key k' ∧ c.test k' y = true
          · rw [if_pos hy]
          · rw [if_neg hy]
            cases hm : m y with
            | none => rfl
            | some w => exact absurd (hr.complete y w hm) hy
        rw [hpre] at e3
        have hle : (List.range t.size).countP (fun i => (t.key i).live) ≤ t.fill := by
          rw [hi.fill]
          apply List.countP_mono_left
          intro j _ hj
          cases h : t.key j <;> simp [h, Slot.live, Slot.used] at hj ⊢
        rcases find_spec c hc t1 m e2 e3 k with ⟨e', he', g1, k0, g2, g3, g4⟩ | ⟨e', he', g1, g2, g3, g4⟩
        · rw [h2] at g4; cases g4
        · rw [g1]
          simp only
          rw [if_neg (by omega), Nat.add_sub_cancel]
          obtain ⟨s1, s2, s3⟩ := add_spec c hc t1 m e2 e3 k v e' he' g2 g3 g4 (by
            have := hi.room; omega)
          refine ⟨_, rfl, s1, s2, ?_, ?_⟩
          · show t.size ≤ t1.size
            omega
          · omega
      · rw [if_neg hov, Nat.add_sub_cancel]
        obtain ⟨s1, s2, s3⟩ := add_spec c hc t m hi hr k v e he h2 h3 h4 (by
          have := hi.good
          have h5 : (t.fill + 1) * c.rn < t.size * c.rn := by rw [Nat.add_mul]; omega
          exact Nat.lt_of_mul_lt_mul_right h5)
        exact ⟨_, rfl, s1, s2, le_refl _, s3⟩

theorem enter_spec (c : Cfg K) (hc : c.Lawful) (hrd : 0 < c.rd) (nil : V) (t : HT K V) (m : K → Option V) (k : K) (v : V)
    (hi : Inv c t) (hr : Rep c t m) :
    ∃ t', enter c nil t k v = some t' ∧ Inv c t' ∧ Rep c t' (upd c.test m k (some v)) := by
  obtain ⟨t', h1, h2, h3, _⟩ := enterD_spec c hc nil (t.fill * c.rn) t m k v hi hr (by
    have h1 : t.fill * c.rn < 2 ^ (t.fill * c.rn) := Nat.lt_two_pow_self
    have h2 : 1 ≤ t.size * c.rd := Nat.mul_pos (by have := hi.room; omega) hrd
    calc t.fill * c.rn ≤ 1 * 2 ^ (t.fill * c.rn) := by omega
      _ ≤ t.size * c.rd * 2 ^ (t.fill * c.rn) := Nat.mul_le_mul_right _ h2)
  exact ⟨t', h1, h2, h3⟩

theorem delete_spec (c : Cfg K) (hc : c.Lawful) (nil : V) (t : HT K V) (m : K → Option V) (k : K)
    (hi : Inv c t) (hr : Rep c t m) :
    ∃ t', delete c nil t k = some t' ∧ Inv c t' ∧ Rep c t' (upd c.test m k none) := by
  unfold delete
  rcases find_spec c hc t m hi hr k with ⟨e, he, h1, k0, h2, h3, h4⟩ | ⟨e, he, h1, h2, h3, h4⟩
  · rw [h1, Option.map_some, if_pos he]
    refine ⟨_, rfl, ?_, ?_⟩
    · have hne : ∀ p, t.key p ≠ .empty → Function.update t.key e .deleted p ≠ .empty := by
        intro p h
        by_cases hp : p = e
        · subst hp; simp
        · rwa [Function.update_of_ne hp]
      have hsub : ∀ j x, Function.update t.key e .deleted j = .key x → t.key j = .key x := by
        intro j x hx
        by_cases hje : j = e
        · subst hje; rw [Function.update_self] at hx; cases hx
        · rwa [Function.update_of_ne hje] at hx
      constructor
      · exact hi.good
      · intro j hj x hx
        obtain ⟨d, hd, e1, e2⟩ := hi.chain j hj x (hsub j x hx)
        exact ⟨d, hd, e1, fun d' hd' => hne _ (e2 d' hd')⟩
      · intro i hi' j hj a b ha hb hab
        exact hi.uniq i hi' j hj a b (hsub _ _ ha) (hsub _ _ hb) hab
      · show t.fill = (List.range t.size).countP (fun i => (Function.update t.key e .deleted i).used)
        rw [hi.fill]
        apply countP_range_congr
        intro i _
        by_cases hie : i = e
        · subst hie; rw [Function.update_self, h2]; rfl
        · rw [Function.update_of_ne hie]
      · show t.count - 1 = (List.range t.size).countP (fun i => (Function.update t.key e .deleted i).live)
        have := countP_range_update (fun i => (Function.update t.key e .deleted i).live)
          (fun i => (t.key i).live) t.size e he (by
            intro i _ hie
            rw [Function.update_of_ne hie])
        rw [Function.update_self, h2, ← hi.count] at this
        have l1 : (Slot.deleted : Slot K).live = false := rfl
        have l2 : (Slot.key k0 : Slot K).live = true := rfl
        rw [l1, l2] at this
        simp only [if_true, Bool.false_eq_true, if_false] at this
        omega
      · exact hi.room
    · constructor
      · exact upd_resp c hc m k _ hr.resp
      · intro j hj x hx
        simp only at hx ⊢
        by_cases hje : j = e
        · subst hje; rw [Function.update_self] at hx; cases hx
        · rw [Function.update_of_ne hje] at hx ⊢
          unfold upd
          rw [if_neg, hr.sound j hj x hx]
          intro hkx
          exact hje (hi.uniq j hj e he x k0 hx h2 (hc.symm _ _ (hc.trans _ _ _ h3 hkx)))
      · intro x w hx
        simp only
        unfold upd at hx
        by_cases hkx : c.test k x = true
        · rw [if_pos hkx] at hx; cases hx
        · rw [if_neg hkx] at hx
          obtain ⟨j, hj, k', g1, g2⟩ := hr.complete x w hx
          refine ⟨j, hj, k', ?_, g2⟩
          rw [Function.update_of_ne]
          · exact g1
          · rintro rfl
            rw [h2] at g1
            cases g1
            exact hkx (hc.trans _ _ _ (hc.symm _ _ h3) g2)
  · rw [h1, Option.map_some, if_neg (by omega)]
    refine ⟨t, rfl, hi, upd_resp c hc m k _ hr.resp, ?_, ?_⟩
    · intro j hj x hx
      unfold upd
      rw [if_neg, hr.sound j hj x hx]
      intro hkx
      have := hr.sound j hj x hx
      rw [← hr.resp k x hkx, h2] at this
      cases this
    · intro x w hx
      unfold upd at hx
      by_cases hkx : c.test k x = true
      · rw [if_pos hkx] at hx; cases hx
      · rw [if_neg hkx] at hx
        exact hr.complete x w hx

/-- every reachable table satisfies the invariant and represents the meaning of its history -/
theorem run_spec (c : Cfg K) (hc : c.Lawful) (hrd : 0 < c.rd) (nil : V) (s : Nat)
    (hs : s * c.rd + c.rn < s * c.rn) (ops : List (Op K V)) :
    ∃ t, run c nil (init nil s) ops = some t ∧ Inv c t ∧ Rep c t (meaning c.test ops.reverse) := by
  induction ops using List.reverseRecOn with
  | nil =>
    obtain ⟨h1, h2⟩ := init_spec (K := K) (V := V) c nil s hs
    exact ⟨_, rfl, h1, h2⟩
  | append_singleton ops o ih =>
    obtain ⟨t, h1, h2, h3⟩ := ih
    have hrun : run c nil (init nil s) (ops ++ [o]) = step c nil t o := by
      unfold run at h1 ⊢
      rw [List.foldl_append, h1]; rfl
    rw [hrun, List.reverse_append]
    cases o with
    | set k v => exact enter_spec c hc hrd nil t _ k v h2 h3
    | rem k => exact delete_spec c hc nil t _ k h2 h3
    | clr =>
      obtain ⟨q1, q2⟩ := init_spec (K := K) (V := V) c nil t.size h2.good
      exact ⟨_, rfl, q1, q2⟩

end Eus.Hash
