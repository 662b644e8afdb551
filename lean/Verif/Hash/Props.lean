import Verif.Hash.Proofs
set_option autoImplicit false
/-
Properties C22, C23, C24 of hash tables.  The hypothesis `s * c.rd + c.rn < s * c.rn` says
`s / rehash-size + 1 < s` for the initial size `s`; for the default rehash size 1.7 it means `3 ≤ s`
(`default_sizes` below).
-/
namespace Eus.Hash

variable {K V : Type}

/-- The configuration of `(make-hash-table :test f :hash g)`: rehash size 1.7. -/
def dflt (hash : K → Int) (test : K → K → Bool) : Cfg K := ⟨hash, test, 17, 10⟩

/-- with the default rehash size the hypothesis on the initial size is `3 ≤ s` -/
theorem default_sizes (hash : K → Int) (test : K → K → Bool) (s : Nat) :
    s * (dflt hash test).rd + (dflt hash test).rn < s * (dflt hash test).rn ↔ 3 ≤ s := by
  simp only [dflt]; omega

/-- C22.  After any sequence of sethash, remhash and clrhash on a fresh table, every call has
returned, and gethash returns the value most recently stored under the key and not since removed, or
the not-found value. -/
theorem C22_hash_table_is_map (c : Cfg K) (hc : c.Lawful) (hrd : 0 < c.rd) (nil notfound : V) (s : Nat)
    (hs : s * c.rd + c.rn < s * c.rn) (ops : List (Op K V)) :
    ∃ t, run c nil (init nil s) ops = some t ∧
      ∀ k, get c notfound t k = some ((meaning c.test ops.reverse k).getD notfound) := by
  obtain ⟨t, h1, h2, h3⟩ := run_spec c hc hrd nil s hs ops
  refine ⟨t, h1, fun k => ?_⟩
  unfold get
  rcases find_spec c hc t _ h2 h3 k with ⟨e, he, g1, k0, g2, g3, g4⟩ | ⟨e, he, g1, g2, g3, g4⟩
  · rw [g1, Option.map_some, if_neg (by omega), g4]; rfl
  · rw [g1, Option.map_some, if_pos (by omega), g2]; rfl

/-- C24.  Every sequence of operations terminates (on tables large enough for their rehash size). -/
theorem C24_operations_terminate_partial (c : Cfg K) (hc : c.Lawful) (hrd : 0 < c.rd) (nil notfound : V) (s : Nat)
    (hs : s * c.rd + c.rn < s * c.rn) (ops : List (Op K V)) :
    ∃ t, run c nil (init nil s) ops = some t ∧
      (∀ k, (get c notfound t k).isSome) ∧ ∀ o, (step c nil t o).isSome := by
  obtain ⟨t, h1, h2⟩ := C22_hash_table_is_map c hc hrd nil notfound s hs ops
  refine ⟨t, h1, fun k => by rw [h2]; rfl, fun o => ?_⟩
  obtain ⟨t', h3, _⟩ := C22_hash_table_is_map c hc hrd nil notfound s hs (ops ++ [o])
  have : run c nil (init nil s) (ops ++ [o]) = step c nil t o := by
    unfold run at h1 ⊢
    rw [List.foldl_append, h1]; rfl
  rw [← this, h3]; rfl

/-- `none` from the bounded probe loop does mean that `:find` never returns: if no slot is empty and
none matches, no number of probes ends the loop. -/
theorem C24_full_table_never_returns (c : Cfg K) (key : Nat → Slot K) (size : Nat) (s : K)
    (hfull : ∀ i < size, key i ≠ .empty) (hno : ∀ i < size, ∀ k, key i = .key k → c.test k s = false) :
    ∀ n h ep, h < size → findLoop c key size s n h ep = none := by
  intro n
  induction n with
  | zero => intros; rfl
  | succ n ih =>
    intro h ep hh
    have hn : next size h < size := by unfold next; split_ifs <;> omega
    rw [findLoop]
    cases hk : key h with
    | empty => exact absurd hk (hfull h hh)
    | deleted => exact ih _ _ hn
    | key k =>
      simp only
      rw [hno h hh k hk]
      exact ih _ _ hn

/-- C24 fails for small tables: with the default rehash size and `:size 2`, after two insertions
looking up a third key never returns; with `:size 1` one insertion is enough. -/
theorem C24_small_table_hangs :
    (let c : Cfg Int := dflt id (· == ·)
     (run c 0 (init 0 2) [.set 0 (7 : Int), .set 1 8]).bind (fun t => find c t 2) = none ∧
     (run c 0 (init 0 2) [.set 0 (7 : Int), .set 1 8]).isSome ∧
     (run c 0 (init 0 1) [.set 0 (7 : Int)]).isSome ∧
     (run c 0 (init 0 1) [.set 0 (7 : Int)]).bind (fun t => find c t 1) = none) := by decide

theorem toList_eq (t : HT K V) : toList t = (mapCalls t).reverse := by
  unfold toList mapCalls
  generalize List.range t.size = l
  have : ∀ (l : List Nat) (acc : List (K × V)), l.foldl
      (fun acc i => match t.key i with | .key k => (k, t.value i) :: acc | _ => acc) acc =
      (l.filterMap (fun i => match t.key i with | .key k => some (k, t.value i) | _ => none)).reverse ++ acc := by
    intro l
    induction l with
    | nil => intro acc; rfl
    | cons i l ih =>
      intro acc
      rw [List.foldl_cons, ih]
      cases h : t.key i <;> simp [h]
  exact (this l []).trans (by rw [List.append_nil]; rfl)

/-- C23.  `maphash` calls its function with each present key exactly once, with the key's current
value, and with nothing else; `:list` and the count agree with it. -/
theorem C23_enumeration (c : Cfg K) (hc : c.Lawful) (hrd : 0 < c.rd) (nil : V) (s : Nat)
    (hs : s * c.rd + c.rn < s * c.rn) (ops : List (Op K V)) :
    ∃ t, run c nil (init nil s) ops = some t ∧
      (∀ k v, (∃ k', c.test k' k = true ∧ (k', v) ∈ mapCalls t) ↔ meaning c.test ops.reverse k = some v) ∧
      (mapCalls t).Pairwise (fun p q => c.test p.1 q.1 = false) ∧
      toList t = (mapCalls t).reverse ∧
      t.count = (mapCalls t).length := by
  obtain ⟨t, h1, h2, h3⟩ := run_spec c hc hrd nil s hs ops
  have hmem : ∀ p : K × V, p ∈ mapCalls t ↔ ∃ i < t.size, t.key i = .key p.1 ∧ t.value i = p.2 := by
    intro p
    unfold mapCalls
    rw [List.mem_filterMap]
    constructor
    · rintro ⟨i, hi, h⟩
      cases hk : t.key i with
      | key k =>
        rw [hk] at h
        simp only [Option.some.injEq] at h
        subst h
        exact ⟨i, List.mem_range.1 hi, hk, rfl⟩
      | empty => rw [hk] at h; cases h
      | deleted => rw [hk] at h; cases h
    · rintro ⟨i, hi, hk, hv⟩
      refine ⟨i, List.mem_range.2 hi, ?_⟩
      rw [hk, hv]
  refine ⟨t, h1, ?_, ?_, toList_eq t, ?_⟩
  · intro k v
    constructor
    · rintro ⟨k', ht, hm⟩
      obtain ⟨i, hi, hk, hv⟩ := (hmem _).1 hm
      have := h3.sound i hi k' hk
      rw [hv] at this
      rw [← h3.resp k' k ht, this]
    · intro hm
      obtain ⟨j, hj, k', hk, ht⟩ := h3.complete k v hm
      refine ⟨k', ht, (hmem _).2 ⟨j, hj, hk, ?_⟩⟩
      have := h3.sound j hj k' hk
      rw [h3.resp k' k ht, hm] at this
      exact (Option.some.inj this).symm
  · unfold mapCalls
    rw [List.pairwise_filterMap]
    apply List.Pairwise.imp_of_mem _ (List.pairwise_lt_range (n := t.size))
    intro i j hi hj hlt p hp q hq
    rw [List.mem_range] at hi hj
    by_contra hh
    have hk : ∀ i (p : K × V), (match t.key i with | .key k => some (k, t.value i) | _ => none) = some p →
        t.key i = .key p.1 := by
      intro i p hp
      cases hk : t.key i with
      | key k => rw [hk] at hp; simp only [Option.some.injEq] at hp; rw [← hp]
      | empty => rw [hk] at hp; cases hp
      | deleted => rw [hk] at hp; cases hp
    have := h2.uniq i hi j hj p.1 q.1 (hk i p hp) (hk j q hq) (by simpa using hh)
    omega
  · rw [h2.count]
    unfold mapCalls
    generalize List.range t.size = l
    induction l with
    | nil => rfl
    | cons i l ih =>
      cases hk : t.key i <;> simp [hk, Slot.live] <;> exact ih

/-- a lawful configuration: integers under `=`, hashed to themselves -/
example : (dflt (id : Int → Int) (· == ·)).Lawful :=
  ⟨by simp [dflt], by simp only [dflt, beq_iff_eq]; intro a b h; exact h.symm, by simp [dflt], by simp [dflt]⟩

/-- a table of size 3 that collides, deletes and grows -/
def sample : List (Op Int Int) := [.set 0 7, .set 3 8, .rem 0, .set 6 9, .set 3 1, .set 9 2]

example : (run (dflt (id : Int → Int) (· == ·)) 0 (init 0 3) sample).map (fun t => (t.size, t.count, t.fill)) =
    some (6, 3, 3) := by decide
example : (run (dflt (id : Int → Int) (· == ·)) 0 (init 0 3) sample).map mapCalls =
    some [(6, 9), (3, 1), (9, 2)] := by decide
example : (run (dflt (id : Int → Int) (· == ·)) 0 (init 0 3) sample).bind
    (fun t => get (dflt (id : Int → Int) (· == ·)) 0 t 3) = some 1 := by decide

end Eus.Hash
