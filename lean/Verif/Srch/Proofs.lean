import Verif.Srch.Spec
import Verif.Lst.Proofs
import Mathlib.Data.List.Nodup
import Mathlib.Algebra.BigOperators.Group.List.Basic
set_option autoImplicit false
set_option linter.unusedSectionVars false
namespace Eus.Srch
open Eus.Lst (Sorted Compatible)

variable {N : Type} [DecidableEq N]

/-- All five searches: they differ in how the extensions join the queue. -/
def search (finish : N) (extend : List N → List (List N))
    (comb : List (List N) → List (List N) → Option (List (List N))) : Nat → List (List N) → Out N
  | _, [] => .nil
  | 0, _ :: _ => .more
  | k + 1, q :: rest =>
    if q.head? = some finish then .path q.reverse
    else match comb (extend q) rest with
      | none => .err
      | some queue => search finish extend comb k queue

theorem depthFirst_eq (t : N) (ext : List N → List (List N)) : ∀ k q,
    depthFirst t ext k q = search t ext (fun e r => some (e ++ r)) k q
  | _, [] => by cases ‹Nat› <;> rfl
  | 0, _ :: _ => rfl
  | k + 1, q :: rest => by
    simp only [depthFirst, search]; split
    · rfl
    · exact depthFirst_eq t ext k _

theorem breadthFirst_eq (t : N) (ext : List N → List (List N)) : ∀ k q,
    breadthFirst t ext k q = search t ext (fun e r => some (r ++ e)) k q
  | _, [] => by cases ‹Nat› <;> rfl
  | 0, _ :: _ => rfl
  | k + 1, q :: rest => by
    simp only [breadthFirst, search]; split
    · rfl
    · exact breadthFirst_eq t ext k _

theorem bestFirst_eq (t : N) (ext : List N → List (List N)) (sort : List (List N) → List (List N))
    (ev : Option (List N) → List N → Option Bool) : ∀ k q,
    bestFirst t ext sort ev k q = search t ext (fun e r => Eus.Lst.mergeList ev (sort e) r) k q
  | _, [] => by cases ‹Nat› <;> rfl
  | 0, _ :: _ => rfl
  | k + 1, q :: rest => by
    simp only [bestFirst, search]; split
    · rfl
    · cases Eus.Lst.mergeList ev (sort (ext q)) rest with
      | none => rfl
      | some queue => exact bestFirst_eq t ext sort ev k queue

theorem hillClimb_eq (t : N) (ext : List N → List (List N)) (sort : List (List N) → List (List N)) : ∀ k q,
    hillClimb t ext sort k q = search t ext (fun e r => some (sort e ++ r)) k q
  | _, [] => by cases ‹Nat› <;> rfl
  | 0, _ :: _ => rfl
  | k + 1, q :: rest => by
    simp only [hillClimb, search]; split
    · rfl
    · exact hillClimb_eq t ext sort k _

theorem branchAndBound_eq (t : N) (ext : List N → List (List N)) (sort : List (List N) → List (List N)) :
    ∀ k q, branchAndBound t ext sort k q = search t ext (fun e r => some (sort (e ++ r))) k q
  | _, [] => by cases ‹Nat› <;> rfl
  | 0, _ :: _ => rfl
  | k + 1, q :: rest => by
    simp only [branchAndBound, search]; split
    · rfl
    · exact branchAndBound_eq t ext sort k _

section generic
variable {t : N} {ext : List N → List (List N)}
  {comb : List (List N) → List (List N) → Option (List (List N))}

/-- More fuel does not change an answer. -/
theorem search_mono (k : Nat) : ∀ (j : Nat) (q : List (List N)), search t ext comb k q ≠ .more →
    search t ext comb (k + j) q = search t ext comb k q := by
  induction k with
  | zero =>
    intro j q h
    cases q with
    | nil => cases j <;> rfl
    | cons a q => exact absurd rfl h
  | succ k ih =>
    intro j q h
    cases q with
    | nil => rw [Nat.add_right_comm]; rfl
    | cons a q =>
      rw [Nat.add_right_comm]
      simp only [search] at h ⊢
      split
      · rfl
      · rename_i hn
        simp only [if_neg hn] at h
        cases hc : comb (ext a) q with
        | none => rfl
        | some queue => rw [hc] at h; exact ih j queue h

theorem search_det {k k' : Nat} {q : List (List N)} (h : search t ext comb k q ≠ .more)
    (h' : search t ext comb k' q ≠ .more) : search t ext comb k q = search t ext comb k' q := by
  rw [← search_mono k k' q h, ← search_mono k' k q h', Nat.add_comm]

variable (hp : ∀ e r q, comb e r = some q → q.Perm (e ++ r))
include hp

/-- A path that is returned leads to the goal and arises from the queue. -/
theorem search_path (k : Nat) : ∀ (queue : List (List N)) (r : List N),
    search t ext comb k queue = .path r →
    ∃ p, r = p.reverse ∧ p.head? = some t ∧ ∃ q ∈ queue, ∃ n, Desc ext n q p := by
  induction k with
  | zero => intro q r h; cases q <;> simp [search] at h
  | succ k ih =>
    intro queue r h
    cases queue with
    | nil => simp [search] at h
    | cons q rest =>
      simp only [search] at h
      split at h
      · rename_i hq
        injection h with h
        exact ⟨q, h.symm, hq, q, by simp, 0, .refl q⟩
      · cases hc : comb (ext q) rest with
        | none => simp [hc] at h
        | some q' =>
          simp only [hc] at h
          obtain ⟨p, e, hg, a, ha, n, hd⟩ := ih q' r h
          refine ⟨p, e, hg, ?_⟩
          rcases List.mem_append.1 ((hp _ _ _ hc).mem_iff.1 ha) with h1 | h1
          · exact ⟨q, by simp, n + 1, .step h1 hd⟩
          · exact ⟨a, by simp [h1], n, hd⟩

/-- NIL means that nothing that arises from the queue leads to the goal. -/
theorem search_nil (k : Nat) : ∀ (queue : List (List N)), search t ext comb k queue = .nil →
    ∀ q ∈ queue, ∀ n p, Desc ext n q p → p.head? ≠ some t := by
  induction k with
  | zero => intro q h; cases q <;> simp [search] at h ⊢
  | succ k ih =>
    intro queue h
    cases queue with
    | nil => simp
    | cons q rest =>
      simp only [search] at h
      split at h
      · simp at h
      · rename_i hq
        cases hc : comb (ext q) rest with
        | none => simp [hc] at h
        | some q' =>
          simp only [hc] at h
          have := ih q' h
          intro a ha n p hd
          rcases List.mem_cons.1 ha with rfl | h1
          · cases hd with
            | refl => exact hq
            | step hm hd' => exact this _ ((hp _ _ _ hc).mem_iff.2 (List.mem_append_left _ hm)) _ _ hd'
          · exact this _ ((hp _ _ _ hc).mem_iff.2 (List.mem_append_right _ h1)) _ _ hd

omit hp in
/-- The number of paths that arise from `q` in at most `n` extensions. -/
def size (ext : List N → List (List N)) : Nat → List N → Nat
  | 0, _ => 1
  | n + 1, q => 1 + ((ext q).map (size ext n)).sum

omit hp in
theorem size_stable (inv : List N → Prop) (rank : List N → Nat)
    (hr : ∀ q, inv q → ∀ p ∈ ext q, inv p ∧ rank p < rank q) : ∀ (n m : Nat) (q : List N), inv q →
    rank q ≤ n → rank q ≤ m → size ext n q = size ext m q := by
  intro n
  induction n with
  | zero =>
    intro m q hi h1 _
    have he : ext q = [] := by
      cases h : ext q with
      | nil => rfl
      | cons p l =>
        have := (hr q hi p (by simp [h])).2
        omega
    cases m with
    | zero => rfl
    | succ m => simp [size, he]
  | succ n ih =>
    intro m q hi h1 h2
    cases m with
    | zero =>
      have he : ext q = [] := by
        cases h : ext q with
        | nil => rfl
        | cons p l =>
          have := (hr q hi p (by simp [h])).2
          omega
      simp [size, he]
    | succ m =>
      simp only [size]
      congr 2
      apply List.map_congr_left
      intro p hp'
      obtain ⟨h3, h4⟩ := hr q hi p hp'
      exact ih m p h3 (by omega) (by omega)

/-- If extension ends and the queue can always be joined, the search ends. -/
theorem search_ends (ht : ∀ e r, ∃ q, comb e r = some q) (inv : List N → Prop) (rank : List N → Nat)
    (hr : ∀ q, inv q → ∀ p ∈ ext q, inv p ∧ rank p < rank q) : ∀ (k : Nat) (queue : List (List N)),
    (∀ q ∈ queue, inv q) → (queue.map fun q => size ext (rank q) q).sum ≤ k →
    search t ext comb k queue ≠ .more ∧ search t ext comb k queue ≠ .err := by
  intro k
  induction k with
  | zero =>
    intro queue hi hk
    cases queue with
    | nil => simp [search]
    | cons q rest =>
      have : 1 ≤ size ext (rank q) q := by cases rank q <;> simp [size]
      simp at hk; omega
  | succ k ih =>
    intro queue hi hk
    cases queue with
    | nil => simp [search]
    | cons q rest =>
      simp only [search]
      split
      · simp
      · obtain ⟨q', hc⟩ := ht (ext q) rest
        simp only [hc]
        have hiq := hi q (by simp)
        apply ih q'
        · intro a ha
          rcases List.mem_append.1 ((hp _ _ _ hc).mem_iff.1 ha) with h1 | h1
          · exact (hr q hiq a h1).1
          · exact hi a (by simp [h1])
        · rw [((hp _ _ _ hc).map _).sum_eq]
          have e : size ext (rank q) q = 1 + ((ext q).map fun p => size ext (rank p) p).sum := by
            rw [size_stable inv rank hr (rank q) (rank q + 1) q hiq (le_refl _) (by omega)]
            simp only [size]
            congr 2
            apply List.map_congr_left
            intro p hp'
            obtain ⟨h3, h4⟩ := hr q hiq p hp'
            exact size_stable inv rank hr _ _ p h3 (by omega) (le_refl _)
          simp only [List.map_cons, List.sum_cons, List.map_append, List.sum_append] at hk ⊢
          omega

/-- If the queue is kept in order and extension does not improve a path, the path returned is the best. -/
theorem search_best (R : List N → List N → Prop) (refl : ∀ p, R p p)
    (trans : ∀ a b c, R a b → R b c → R a c) (hs : ∀ e r q, Sorted R r → comb e r = some q → Sorted R q)
    (mono : ∀ q, ∀ p ∈ ext q, R q p) (k : Nat) : ∀ (queue : List (List N)) (r : List N),
    Sorted R queue → search t ext comb k queue = .path r →
    ∀ q ∈ queue, ∀ n p, Desc ext n q p → p.head? = some t → R r.reverse p := by
  have desc : ∀ n q p, Desc ext n q p → R q p := by
    intro n q p hd
    induction hd with
    | refl q => exact refl q
    | step h1 _ ih => exact trans _ _ _ (mono _ _ h1) ih
  induction k with
  | zero => intro q r _ h; cases q <;> simp [search] at h
  | succ k ih =>
    intro queue r hso h
    cases queue with
    | nil => simp [search] at h
    | cons q rest =>
      simp only [search] at h
      have hso' := List.pairwise_cons.1 hso
      split at h
      · injection h with h
        subst h
        intro a ha n p hd _
        rw [List.reverse_reverse]
        rcases List.mem_cons.1 ha with rfl | h1
        · exact desc _ _ _ hd
        · exact trans _ _ _ (hso'.1 a h1) (desc _ _ _ hd)
      · rename_i hq
        cases hc : comb (ext q) rest with
        | none => simp [hc] at h
        | some q' =>
          simp only [hc] at h
          have := ih q' r (hs _ _ _ hso'.2 hc) h
          intro a ha n p hd hg
          rcases List.mem_cons.1 ha with rfl | h1
          · cases hd with
            | refl => exact absurd hg hq
            | step hm hd' => exact this _ ((hp _ _ _ hc).mem_iff.2 (List.mem_append_left _ hm)) _ _ hd' hg
          · exact this _ ((hp _ _ _ hc).mem_iff.2 (List.mem_append_right _ h1)) _ _ hd hg

end generic

/-! ### breadth first -/

theorem bfs_level {t : N} {ext : List N → List (List N)} (A : List (List N)) : ∀ (B : List (List N)) (k : Nat),
    (∀ q ∈ A, q.head? ≠ some t) →
    breadthFirst t ext (k + A.length) (A ++ B) = breadthFirst t ext k (B ++ A.flatMap ext) := by
  induction A with
  | nil => intro B k _; simp
  | cons q A ih =>
    intro B k h
    have h0 := h q (by simp)
    rw [List.length_cons, ← Nat.add_assoc, List.cons_append, breadthFirst, if_neg h0, List.append_assoc,
      ih (B ++ ext q) k (fun a ha => h a (by simp [ha]))]
    simp

theorem bfs_goal {t : N} {ext : List N → List (List N)} (A : List (List N)) : ∀ (B : List (List N)),
    (∃ q ∈ A, q.head? = some t) →
    ∃ k, ∃ q ∈ A, q.head? = some t ∧ breadthFirst t ext k (A ++ B) = .path q.reverse := by
  induction A with
  | nil => intro B h; simp at h
  | cons q A ih =>
    intro B h
    by_cases h0 : q.head? = some t
    · refine ⟨1, q, by simp, h0, ?_⟩
      simp [breadthFirst, h0]
    · obtain ⟨a, ha, hg⟩ := h
      have ha' : a ∈ A := by
        rcases List.mem_cons.1 ha with rfl | h1
        · exact absurd hg h0
        · exact h1
      obtain ⟨k, a, ha, hg, e⟩ := ih (B ++ ext q) ⟨a, ha', hg⟩
      refine ⟨k + 1, a, by simp [ha], hg, ?_⟩
      rw [List.cons_append, breadthFirst, if_neg h0, List.append_assoc, e]

theorem bfs_shortest {t : N} {ext : List N → List (List N)} (n : Nat) : ∀ (L : List (List N)),
    (∃ q ∈ L, ∃ p, Desc ext n q p ∧ p.head? = some t) →
    ∃ k p m, breadthFirst t ext k L = .path p.reverse ∧ m ≤ n ∧ p.head? = some t ∧ (∃ q ∈ L, Desc ext m q p) ∧
      ∀ j q p', j < m → q ∈ L → Desc ext j q p' → p'.head? ≠ some t := by
  induction n with
  | zero =>
    intro L h
    obtain ⟨q, hq, p, hd, hg⟩ := h
    cases hd
    obtain ⟨k, a, ha, hga, e⟩ := bfs_goal (ext := ext) L [] ⟨q, hq, hg⟩
    rw [List.append_nil] at e
    exact ⟨k, a, 0, e, le_refl _, hga, ⟨a, ha, .refl a⟩, fun j _ _ hj => by omega⟩
  | succ n ih =>
    intro L h
    by_cases h0 : ∃ q ∈ L, q.head? = some t
    · obtain ⟨k, a, ha, hga, e⟩ := bfs_goal (ext := ext) L [] h0
      rw [List.append_nil] at e
      exact ⟨k, a, 0, e, Nat.zero_le _, hga, ⟨a, ha, .refl a⟩, fun j _ _ hj => by omega⟩
    · push Not at h0
      obtain ⟨q, hq, p, hd, hg⟩ := h
      cases hd with
      | step hr hd =>
        rename_i r
        obtain ⟨k, p', m, e, hm, hg', ⟨a, ha, hd'⟩, hmin⟩ :=
          ih (L.flatMap ext) ⟨r, List.mem_flatMap.2 ⟨q, hq, hr⟩, p, hd, hg⟩
        obtain ⟨b, hb, hab⟩ := List.mem_flatMap.1 ha
        refine ⟨k + L.length, p', m + 1, ?_, by omega, hg', ⟨b, hb, .step hab hd'⟩, ?_⟩
        · have := bfs_level (ext := ext) L [] k h0
          rw [List.append_nil, List.nil_append] at this
          rw [this, e]
        · intro j a' p'' hj ha' hd''
          cases hd'' with
          | refl => exact h0 _ ha'
          | step h1 h2 => exact hmin _ _ _ (by omega) (List.mem_flatMap.2 ⟨_, ha', h1⟩) h2

/-! ### simple paths -/

theorem mem_extendSimple {nb : N → List N} {q p : List N} : p ∈ extendSimple nb q ↔
    ∃ x l y, q = x :: l ∧ y ∈ nb x ∧ y ∉ q ∧ p = y :: q := by
  cases q with
  | nil => simp [extendSimple]
  | cons x l =>
    simp only [extendSimple, List.mem_map, List.mem_filter]
    constructor
    · rintro ⟨y, ⟨h1, h2⟩, rfl⟩
      exact ⟨x, l, y, rfl, h1, by simpa using h2, rfl⟩
    · rintro ⟨x', l', y, h, h1, h2, rfl⟩
      injection h with h3 h4
      subst h3; subst h4
      exact ⟨y, ⟨h1, by simpa using h2⟩, rfl⟩

/-- A path under construction, newest node first. -/
structure Good (nb : N → List N) (s : N) (p : List N) : Prop where
  last : p.getLast? = some s
  edges : p.IsChain (fun a b => a ∈ nb b)
  nodup : p.Nodup

theorem Good.simple {nb : N → List N} {s t : N} {p : List N} (h : Good nb s p) (ht : p.head? = some t) :
    SimplePath nb s t p.reverse :=
  ⟨by rw [List.head?_reverse]; exact h.last, by rw [List.getLast?_reverse]; exact ht,
   by rw [List.isChain_reverse]; exact h.edges, List.nodup_reverse.2 h.nodup⟩

theorem SimplePath.good {nb : N → List N} {s t : N} {r : List N} (h : SimplePath nb s t r) :
    Good nb s r.reverse ∧ r.reverse.head? = some t :=
  ⟨⟨by rw [List.getLast?_reverse]; exact h.first, by rw [List.isChain_reverse]; exact h.edges,
    List.nodup_reverse.2 h.nodup⟩, by rw [List.head?_reverse]; exact h.last⟩

theorem good_extend {nb : N → List N} {s : N} {q p : List N} (h : Good nb s q) (hp : p ∈ extendSimple nb q) :
    Good nb s p := by
  obtain ⟨x, l, y, rfl, h1, h2, rfl⟩ := mem_extendSimple.1 hp
  refine ⟨by rw [List.getLast?_cons_cons]; exact h.last, ?_, List.nodup_cons.2 ⟨h2, h.nodup⟩⟩
  exact List.isChain_cons_cons.2 ⟨h1, h.edges⟩

theorem good_desc {nb : N → List N} {s : N} {n : Nat} {q p : List N} (hd : Desc (extendSimple nb) n q p)
    (h : Good nb s q) : Good nb s p ∧ p.length = n + q.length := by
  induction hd with
  | refl q => exact ⟨h, by simp⟩
  | step h1 _ ih =>
    obtain ⟨h2, h3⟩ := ih (good_extend h h1)
    obtain ⟨x, l, y, rfl, _, _, rfl⟩ := mem_extendSimple.1 h1
    exact ⟨h2, by simp at h3 ⊢; omega⟩

theorem good_start (nb : N → List N) (s : N) : Good nb s [s] := ⟨rfl, by simp, by simp⟩

theorem desc_snoc {ext : List N → List (List N)} {n : Nat} {q p r : List N} (h : Desc ext n q p) (hr : r ∈ ext p) :
    Desc ext (n + 1) q r := by
  induction h with
  | refl q => exact .step hr (.refl r)
  | step h1 _ ih => exact .step h1 (ih hr)

theorem desc_of_good {nb : N → List N} {s : N} (p : List N) (h : Good nb s p) :
    Desc (extendSimple nb) (p.length - 1) [s] p := by
  induction p with
  | nil => simpa using h.last
  | cons y p ih =>
    cases p with
    | nil => have := h.last; simp at this; subst this; exact .refl _
    | cons x l =>
      have h1 := List.isChain_cons_cons.1 h.edges
      have h2 := List.nodup_cons.1 h.nodup
      have hg : Good nb s (x :: l) := ⟨by have := h.last; rwa [List.getLast?_cons_cons] at this, h1.2, h2.2⟩
      exact desc_snoc (ih hg) (mem_extendSimple.2 ⟨x, l, y, rfl, h1.1, h2.1, rfl⟩)

theorem walk_good {nb : N → List N} {s t : N} {n : Nat} (h : Walk nb n s t) :
    ∃ p, Good nb s p ∧ p.head? = some t ∧ p.length ≤ n + 1 := by
  induction h with
  | nil s => exact ⟨[s], good_start nb s, rfl, by simp⟩
  | snoc h1 h2 ih =>
    rename_i n s x t
    obtain ⟨p, hg, hx, hl⟩ := ih
    by_cases ht : t ∈ p
    · obtain ⟨a, b, rfl⟩ := List.append_of_mem ht
      refine ⟨t :: b, ⟨?_, ?_, ?_⟩, rfl, by simp at hl ⊢; omega⟩
      · have := hg.last; rwa [List.getLast?_append_cons] at this
      · exact (List.isChain_append.1 hg.edges).2.1
      · exact (List.nodup_append.1 hg.nodup).2.1
    · cases p with
      | nil => simp at hx
      | cons y l =>
        simp at hx; subst hx
        exact ⟨t :: y :: l, good_extend hg (mem_extendSimple.2 ⟨y, l, t, rfl, h2, ht, rfl⟩), rfl,
          by simp at hl ⊢; omega⟩

theorem walk_of_good {nb : N → List N} {s : N} (p : List N) : ∀ (t : N), Good nb s p → p.head? = some t →
    Walk nb (p.length - 1) s t := by
  induction p with
  | nil => intro t h ht; simp at ht
  | cons y p ih =>
    intro t h ht
    simp at ht; subst ht
    cases p with
    | nil => have := h.last; simp at this; subst this; exact .nil _
    | cons x l =>
      have h1 := List.isChain_cons_cons.1 h.edges
      have h2 := List.nodup_cons.1 h.nodup
      have hg : Good nb s (x :: l) := ⟨by have := h.last; rwa [List.getLast?_cons_cons] at this, h1.2, h2.2⟩
      exact .snoc (ih x hg rfl) h1.1

/-- A list without repetitions inside a finite set is not longer than it. -/
theorem nodup_length_le {p V : List N} (hn : p.Nodup) (hs : p ⊆ V) : p.length ≤ V.length :=
  (List.subperm_of_subset hn hs).length_le

/-! ### sort -/

section sort
variable {α ρ : Type}

theorem runAlg_pure (le : α → α → Bool) {σ : Type} (pred : α → α → σ → Call σ) (inv : σ → Prop) (a : Alg α) :
    ∀ (s : σ), inv s → (∀ x y s, inv s → ∃ s', pred x y s = .ret (le x y) s' ∧ inv s') →
    ∃ s', runAlg pred a s = .ret (a.result le) s' ∧ inv s' := by
  induction a with
  | stop l => intro s hi _; exact ⟨s, rfl, hi⟩
  | ask x y neg pos ihn ihp =>
    intro s hi h
    obtain ⟨s', e, hi'⟩ := h x y s hi
    cases hb : le x y with
    | true =>
      obtain ⟨s'', e2, h2⟩ := ihn s' hi' h
      exact ⟨s'', by simp [runAlg, e, hb, Alg.result, e2], h2⟩
    | false =>
      obtain ⟨s'', e2, h2⟩ := ihp s' hi' h
      exact ⟨s'', by simp [runAlg, e, hb, Alg.result, e2], h2⟩

end sort
end Eus.Srch
