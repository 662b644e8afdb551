import Verif.Srch.Proofs
set_option autoImplicit false
set_option linter.unusedSectionVars false
/-! Properties C116-C119: searching and sorting. -/
namespace Eus.Srch
open Eus.Lst (Sorted Compatible)

variable {N : Type} [DecidableEq N]

/-- An infinite graph (every number leads to its double and to its successor), and a finite one. -/
def nbDouble (n : Nat) : List Nat := [2 * n, n + 1]
def nbSquare : Nat → List Nat
  | 0 => [1, 2]
  | 1 => [0, 3]
  | 2 => [0, 3]
  | 3 => [4]
  | _ => []

/-! ## C116 -/

theorem perm_depth (e r q : List (List N)) (h : some (e ++ r) = some q) : q.Perm (e ++ r) := by
  injection h with h; subst h; exact .refl _
theorem perm_breadth (e r q : List (List N)) (h : some (r ++ e) = some q) : q.Perm (e ++ r) := by
  injection h with h; subst h; exact List.perm_append_comm
theorem perm_hill {sort : List (List N) → List (List N)} (hs : Rearranges sort) (e r q : List (List N))
    (h : some (sort e ++ r) = some q) : q.Perm (e ++ r) := by
  injection h with h; subst h; exact (hs e).append_right r
theorem perm_bb {sort : List (List N) → List (List N)} (hs : Rearranges sort) (e r q : List (List N))
    (h : some (sort (e ++ r)) = some q) : q.Perm (e ++ r) := by
  injection h with h; subst h; exact hs _

theorem best_total {ev : Option (List N) → List N → Option Bool} (hev : ∀ x y, ev x y ≠ none)
    (l1 l2 : List (List N)) : ∃ q, Eus.Lst.mergeList ev l1 l2 = some q ∧ q.Perm (l1 ++ l2) := by
  refine ⟨_, Eus.Lst.mergeList_eq (le := fun x y => (ev (some x) y).getD true)
    (nl := fun y => (ev none y).getD true) ⟨fun x y => ?_, fun y => ?_⟩ l1 l2, Eus.Lst.mrg_perm _ _ _⟩
  · cases h : ev (some x) y with
    | none => exact absurd h (hev _ _)
    | some b => simp [h]
  · cases h : ev none y with
    | none => exact absurd h (hev _ _)
    | some b => simp [h]

theorem perm_best {sort : List (List N) → List (List N)} (hs : Rearranges sort)
    {ev : Option (List N) → List N → Option Bool} (hev : ∀ x y, ev x y ≠ none) (e r q : List (List N))
    (h : Eus.Lst.mergeList ev (sort e) r = some q) : q.Perm (e ++ r) := by
  obtain ⟨q', e', hp⟩ := best_total hev (sort e) r
  rw [e'] at h; injection h with h; subst h
  exact hp.trans ((hs e).append_right r)

/-- The five searches, with their queues as arguments. -/
inductive Fn where
  | depth | breadth | hill | bb | best
deriving DecidableEq

/-- The call `(fn start finish extend [evaluator])`, with fuel. -/
def Fn.call (f : Fn) (t : N) (ext : List N → List (List N)) (sort : List (List N) → List (List N))
    (ev : Option (List N) → List N → Option Bool) (k : Nat) (s : N) : Out N :=
  match f with
  | .depth => depthFirst t ext k (start0 s)
  | .breadth => breadthFirst t ext k (start0 s)
  | .hill => hillClimb t ext sort k (start0 s)
  | .bb => branchAndBound t ext sort k (start0 s)
  | .best => bestFirst t ext sort ev k (start0 s)

theorem Fn.generic (f : Fn) {sort : List (List N) → List (List N)} (hs : Rearranges sort)
    {ev : Option (List N) → List N → Option Bool} (hev : ∀ x y, ev x y ≠ none) :
    ∃ comb : List (List N) → List (List N) → Option (List (List N)),
      (∀ e r q, comb e r = some q → q.Perm (e ++ r)) ∧ (∀ e r, ∃ q, comb e r = some q) ∧
      ∀ (t : N) ext k s, f.call t ext sort ev k s = search t ext comb k [[s]] := by
  cases f with
  | depth => exact ⟨_, perm_depth, fun e r => ⟨_, rfl⟩, fun t ext k s => depthFirst_eq t ext k _⟩
  | breadth => exact ⟨_, perm_breadth, fun e r => ⟨_, rfl⟩, fun t ext k s => breadthFirst_eq t ext k _⟩
  | hill => exact ⟨_, perm_hill hs, fun e r => ⟨_, rfl⟩, fun t ext k s => hillClimb_eq t ext sort k _⟩
  | bb => exact ⟨_, perm_bb hs, fun e r => ⟨_, rfl⟩, fun t ext k s => branchAndBound_eq t ext sort k _⟩
  | best =>
    exact ⟨_, perm_best hs hev, fun e r => (best_total hev (sort e) r).imp fun _ h => h.1,
      fun t ext k s => bestFirst_eq t ext sort ev k _⟩

/-- Whatever the extension function is: a path that is returned was reached by extensions from the start
and ends in the goal; if NIL is returned, no path that extensions reach ends in the goal.  (The evaluator
must not signal an error, not even when `merge` calls it with NIL.) -/
theorem C116_search (f : Fn) (t s : N) (ext : List N → List (List N)) (sort : List (List N) → List (List N))
    (hs : Rearranges sort) (ev : Option (List N) → List N → Option Bool) (hev : ∀ x y, ev x y ≠ none) (k : Nat) :
    (∀ r, f.call t ext sort ev k s = .path r → ∃ p n, r = p.reverse ∧ p.head? = some t ∧ Desc ext n [s] p) ∧
    (f.call t ext sort ev k s = .nil → ∀ n p, Desc ext n [s] p → p.head? ≠ some t) := by
  obtain ⟨comb, hp, _, he⟩ := f.generic hs hev
  rw [he]
  constructor
  · intro r h
    obtain ⟨p, h1, h2, q, hq, n, hd⟩ := search_path hp k _ _ h
    simp at hq; subst hq
    exact ⟨p, n, h1, h2, hd⟩
  · intro h n p
    exact search_nil hp k _ h [s] (by simp) n p

/-- On a finite graph, with `extend-wing`'s way of extending a path, every one of the searches ends; it
returns a path from the start to the goal that follows edges and repeats no node, and NIL exactly if the
goal cannot be reached. -/
theorem C116_graph (f : Fn) (nb : N → List N) (V : List N) (hV : ∀ x ∈ V, ∀ y ∈ nb x, y ∈ V) (s t : N)
    (hsV : s ∈ V) (sort : List (List N) → List (List N)) (hs : Rearranges sort)
    (ev : Option (List N) → List N → Option Bool) (hev : ∀ x y, ev x y ≠ none) :
    ∃ k0, ∀ k ≥ k0,
      ((∃ n, Walk nb n s t) →
        ∃ r, f.call t (extendSimple nb) sort ev k s = .path r ∧ SimplePath nb s t r) ∧
      ((¬ ∃ n, Walk nb n s t) → f.call t (extendSimple nb) sort ev k s = .nil) := by
  obtain ⟨comb, hp, ht, he⟩ := f.generic hs hev
  have hr : ∀ q : List N, (q.Nodup ∧ q ⊆ V) → ∀ p ∈ extendSimple nb q,
      (p.Nodup ∧ p ⊆ V) ∧ V.length - p.length < V.length - q.length := by
    rintro q ⟨h1, h2⟩ p hpm
    obtain ⟨x, l, y, rfl, h3, h4, rfl⟩ := mem_extendSimple.1 hpm
    have h5 : (y :: x :: l).Nodup := List.nodup_cons.2 ⟨h4, h1⟩
    have h6 : (y :: x :: l) ⊆ V := List.cons_subset.2 ⟨hV x (h2 (by simp)) y h3, h2⟩
    refine ⟨⟨h5, h6⟩, ?_⟩
    have := nodup_length_le h5 h6
    simp at this ⊢; omega
  refine ⟨([[s]].map fun q => size (extendSimple nb) (V.length - q.length) q).sum, fun k hk => ?_⟩
  have hend := search_ends (t := t) hp ht (fun q => q.Nodup ∧ q ⊆ V) (fun q => V.length - q.length) hr k [[s]]
    (by simp [hsV]) hk
  rw [he]
  constructor
  · rintro ⟨n, hw⟩
    obtain ⟨p, hg, hh, _⟩ := walk_good hw
    cases hres : search t (extendSimple nb) comb k [[s]] with
    | path r =>
      obtain ⟨p', rfl, h2, q, hq, m, hd⟩ := search_path hp k _ _ hres
      simp at hq; subst hq
      exact ⟨_, rfl, (good_desc hd (good_start nb s)).1.simple h2⟩
    | nil => exact absurd hh (search_nil hp k _ hres [s] (by simp) _ p (desc_of_good p hg))
    | err => exact absurd hres hend.2
    | more => exact absurd hres hend.1
  · intro hno
    cases hres : search t (extendSimple nb) comb k [[s]] with
    | path r =>
      obtain ⟨p', rfl, h2, q, hq, m, hd⟩ := search_path hp k _ _ hres
      simp at hq; subst hq
      exact absurd ⟨_, walk_of_good p' t (good_desc hd (good_start nb s)).1 h2⟩ hno
    | nil => rfl
    | err => exact absurd hres hend.2
    | more => exact absurd hres hend.1

example : depthFirst 4 (extendSimple nbSquare) 20 (start0 0) = .path [0, 1, 3, 4] := by decide
example : depthFirst 0 (extendSimple nbSquare) 20 (start0 4) = .nil := by decide
example : ∀ x ∈ [0, 1, 2, 3, 4], ∀ y ∈ nbSquare x, y ∈ [0, 1, 2, 3, 4] := by decide
example : Walk nbSquare 3 0 4 :=
  .snoc (.snoc (.snoc (.nil 0) (x := 0) (t := 2) (by decide)) (x := 2) (t := 3) (by decide)) (by decide)

/-- Depth-first need not end on an infinite graph although the goal is one step away. -/
theorem C116_depth_first_infinite : ∀ k, depthFirst 2 (extendSimple fun n : Nat => [n + 3, n + 2]) k (start0 0) = .more := by
  have key : ∀ k (p : List Nat) rest, (∃ m, p.head? = some (3 * m) ∧ ∀ x ∈ p, x ≤ 3 * m) →
      depthFirst 2 (extendSimple fun n : Nat => [n + 3, n + 2]) k (p :: rest) = .more := by
    intro k
    induction k with
    | zero => intros; rfl
    | succ k ih =>
      rintro p rest ⟨m, hm, hle⟩
      cases p with
      | nil => simp at hm
      | cons x l =>
        simp only [List.head?_cons, Option.some.injEq] at hm
        have hne : (x :: l).head? ≠ some 2 := by simp; omega
        have h3 : x + 3 ∉ x :: l := fun h => by have := hle _ h; omega
        rw [depthFirst, if_neg hne]
        simp only [extendSimple, List.filter_cons, h3, decide_false, Bool.not_false, if_true,
          List.map_cons, List.cons_append]
        apply ih
        refine ⟨m + 1, by simp; omega, ?_⟩
        intro y hy
        rcases List.mem_cons.1 hy with rfl | h
        · omega
        · have := hle y h; omega
  intro k
  exact key k [0] [] ⟨0, rfl, by simp⟩

/-! ## C117 -/

/-- If the goal can be reached by extensions, breadth-first returns a path to it, in a finite or infinite
search space alike, and no path to the goal is reached by fewer extensions. -/
theorem C117_breadth_first (s t : N) (ext : List N → List (List N)) (n : Nat) (p : List N)
    (hd : Desc ext n [s] p) (ht : p.head? = some t) :
    ∃ k0 p' m, (∀ k ≥ k0, breadthFirst t ext k (start0 s) = .path p'.reverse) ∧ p'.head? = some t ∧
      Desc ext m [s] p' ∧ ∀ j p'', Desc ext j [s] p'' → p''.head? = some t → m ≤ j := by
  obtain ⟨k, p', m, e, hm, hg, ⟨q, hq, hd'⟩, hmin⟩ := bfs_shortest n [[s]] ⟨[s], by simp, p, hd, ht⟩
  simp at hq; subst hq
  refine ⟨k, p', m, fun k' hk => ?_, hg, hd', fun j p'' h1 h2 => ?_⟩
  · obtain ⟨j, rfl⟩ := Nat.exists_eq_add_of_le hk
    rw [breadthFirst_eq] at e
    rw [breadthFirst_eq]
    change search t ext _ (k + j) [[s]] = _
    rw [search_mono k j [[s]] (by rw [e]; simp), e]
  · by_contra h
    exact hmin j [s] p'' (by omega) (by simp) h1 h2

/-- On a graph, finite or infinite, breadth-first finds a shortest way to any goal that can be reached. -/
theorem C117_shortest (nb : N → List N) (s t : N) (n : Nat) (hw : Walk nb n s t) :
    ∃ k0 r, (∀ k ≥ k0, breadthFirst t (extendSimple nb) k (start0 s) = .path r) ∧ SimplePath nb s t r ∧
      ∀ j, Walk nb j s t → r.length ≤ j + 1 := by
  obtain ⟨p, hg, hh, _⟩ := walk_good hw
  obtain ⟨k0, p', m, h1, h2, h3, h4⟩ := C117_breadth_first s t (extendSimple nb) _ p (desc_of_good p hg) hh
  obtain ⟨h5, h6⟩ := good_desc h3 (good_start nb s)
  refine ⟨k0, p'.reverse, h1, h5.simple h2, fun j hj => ?_⟩
  obtain ⟨p'', hg', hh', hl⟩ := walk_good hj
  have := h4 _ p'' (desc_of_good p'' hg') hh'
  simp at h6 ⊢
  omega

example : breadthFirst 9 (extendSimple nbDouble) 60 (start0 1) = .path [1, 2, 4, 8, 9] := by decide +kernel
example : Walk nbDouble 4 1 9 := .snoc (.snoc (.snoc (.snoc (.nil 1) (x := 1) (t := 2) (by decide)) (x := 2) (t := 4)
  (by decide)) (x := 4) (t := 8) (by decide)) (by decide)

/-! ## C118 -/

/-- If extending a path never makes it better, branch-and-bound returns a path to the goal that is at least
as good as any other. -/
theorem C118_branch_and_bound (s t : N) (ext : List N → List (List N)) (sort : List (List N) → List (List N))
    (R : List N → List N → Prop) (refl : ∀ p, R p p) (trans : ∀ a b c, R a b → R b c → R a c)
    (hs : Sorts R sort) (mono : ∀ q, ∀ p ∈ ext q, R q p) (k : Nat) (r : List N)
    (h : branchAndBound t ext sort k (start0 s) = .path r) :
    ∀ n p, Desc ext n [s] p → p.head? = some t → R r.reverse p := by
  rw [branchAndBound_eq] at h
  intro n p
  refine search_best (perm_bb fun l => (hs l).1) R refl trans ?_ mono k [[s]] r (by simp [Sorted]) h [s] (by simp) n p
  intro e r q _ hq
  injection hq with hq; subst hq
  exact (hs _).2

/-- The same for best-first, if the evaluator accepts NIL in place of a path.  What is missing: evaluators
that do not (`C118_best_first_wrong`). -/
theorem C118_best_first_partial (s t : N) (ext : List N → List (List N))
    (sort : List (List N) → List (List N)) (ev : Option (List N) → List N → Option Bool)
    (pred : List N → List N → Bool) (hq : ∀ x y, ev (some x) y = some (pred x y)) (hn : ∀ y, ev none y ≠ none)
    (R : List N → List N → Prop) (hc : Compatible R pred) (hs : Sorts R sort)
    (mono : ∀ q, ∀ p ∈ ext q, R q p) (k : Nat) (r : List N)
    (h : bestFirst t ext sort ev k (start0 s) = .path r) :
    ∀ n p, Desc ext n [s] p → p.head? = some t → R r.reverse p := by
  have hev : ∀ x y, ev x y ≠ none := by
    intro x y
    cases x with
    | none => exact hn y
    | some x => rw [hq]; simp
  have refl : ∀ p, R p p := fun p => by
    cases h : pred p p with
    | true => exact hc.pos _ _ h
    | false => exact hc.neg _ _ h
  rw [bestFirst_eq] at h
  intro n p
  refine search_best (perm_best (fun l => (hs l).1) hev) R refl hc.trans ?_ mono k [[s]] r (by simp [Sorted]) h [s]
    (by simp) n p
  intro e r q hr hm
  have := Eus.Lst.mergeList_eq (q := ev) (le := pred) (nl := fun y => (ev none y).getD true) ⟨hq, fun y => by
    cases h : ev none y with
    | none => exact absurd h (hn y)
    | some b => simp [h]⟩ (sort e) r
  rw [this] at hm; injection hm with hm; subst hm
  exact Eus.Lst.mrg_sorted hc _ _ (hs e).2 hr

/-- Cost: the sum of the nodes on the path, as `evaluator` and as a sorting function. -/
def cost (p : List Nat) : Nat := p.sum
def insertBy (x : List Nat) : List (List Nat) → List (List Nat)
  | [] => [x]
  | y :: l => if cost x ≤ cost y then x :: y :: l else y :: insertBy x l
def sortBy : List (List Nat) → List (List Nat)
  | [] => []
  | x :: l => insertBy x (sortBy l)

theorem insertBy_perm (x : List Nat) (l : List (List Nat)) : (insertBy x l).Perm (x :: l) := by
  induction l with
  | nil => exact .refl _
  | cons y l ih =>
    simp only [insertBy]; split
    · exact .refl _
    · exact (List.Perm.cons y ih).trans (.swap _ _ _)

theorem sortBy_perm : ∀ l, (sortBy l).Perm l
  | [] => .refl _
  | x :: l => (insertBy_perm x _).trans (.cons x (sortBy_perm l))

theorem insertBy_sorted (x : List Nat) (l : List (List Nat)) (h : Sorted (fun a b => cost a ≤ cost b) l) :
    Sorted (fun a b => cost a ≤ cost b) (insertBy x l) := by
  induction l with
  | nil => simp [insertBy, Sorted]
  | cons y l ih =>
    have h' := List.pairwise_cons.1 h
    simp only [insertBy]; split
    · rename_i hle
      refine List.pairwise_cons.2 ⟨fun z hz => ?_, h⟩
      rcases List.mem_cons.1 hz with rfl | hz
      · exact hle
      · exact Nat.le_trans hle (h'.1 z hz)
    · rename_i hle
      refine List.pairwise_cons.2 ⟨fun z hz => ?_, ih h'.2⟩
      rcases List.mem_cons.1 ((insertBy_perm x l).mem_iff.1 hz) with rfl | hz
      · omega
      · exact h'.1 z hz

theorem sortBy_sorts : Sorts (fun a b => cost a ≤ cost b) sortBy := fun l =>
  ⟨sortBy_perm l, by
    induction l with
    | nil => simp [sortBy, Sorted]
    | cons x l ih => exact insertBy_sorted x _ ih⟩

example : ∀ q, ∀ p ∈ extendSimple nbSquare q, cost q ≤ cost p := by
  intro q p hp
  obtain ⟨x, l, y, rfl, _, _, rfl⟩ := mem_extendSimple.1 hp
  simp [cost]
example : branchAndBound 4 (extendSimple nbSquare) sortBy 20 (start0 0) = .path [0, 1, 3, 4] := by decide
example : bestFirst 4 (extendSimple nbSquare) sortBy (fun a b => some (decide ((a.map cost).getD 0 < cost b))) 20
    (start0 0) = .path [0, 1, 3, 4] := by decide

/-- best-first with an evaluator that signals an error on NIL, such as one that compares lengths of roads:
it fails although the goal can be reached, as soon as a path cannot be extended. -/
theorem C118_best_first_wrong :
    bestFirst 4 (extendSimple fun n => if n = 0 then [1, 2] else if n = 2 then [4] else []) sortBy
      (fun a b => a.map fun a => decide (cost a < cost b)) 20 (start0 0) = .err := by decide

/-! ## C119 -/

section sort
variable {α ρ : Type}

/-- If every call of the predicate returns, `sort` returns what the C library's algorithm makes of the
answers, and the next `sort` can run. -/
theorem C119_sort_partial (alg : List α → Alg α) (le : α → α → Bool) (pred : α → α → World ρ → Call (World ρ))
    (hp : ∀ x y w, ∃ w', pred x y w = .ret (le x y) w' ∧ w'.locked = w.locked) (l : List α) (w : World ρ)
    (hw : w.locked = false) (seq : SeqArg α) (hseq : seq = .vector l ∨ ∃ x l', l = x :: l' ∧ seq = .list x l') :
    ∃ w', sortC alg pred seq w = .ret ((alg l).result le) w' ∧ w'.locked = false := by
  obtain ⟨w', e, _⟩ := runAlg_pure le pred (fun w => w.locked = true) (alg l) { w with locked := true } rfl
    (fun x y s hs => by
      obtain ⟨w', e, h⟩ := hp x y s
      exact ⟨w', e, h.trans hs⟩)
  rcases hseq with rfl | ⟨x, l', rfl, rfl⟩
  · exact ⟨{ w' with locked := false }, by simp [sortC, hw, e], rfl⟩
  · exact ⟨{ w' with locked := false }, by simp [sortC, hw, e], rfl⟩

/-- If the predicate leaves `sort` by a throw or an error, no later `sort` of a non-empty sequence ever
returns. -/
theorem C119_sort_after_exit_wrong (alg alg' : List α → Alg α) (pred pred' : α → α → World ρ → Call (World ρ))
    (hp : ∀ x y w w', w.locked = true → (pred x y w = .exit w' ∨ ∃ b, pred x y w = .ret b w') → w'.locked = true)
    (seq : SeqArg α) (w w' : World ρ) (h : sortC alg pred seq w = .exit w') (x : α) (l : List α) :
    sortC alg' pred' (.list x l) w' = .stuck ∧ sortC alg' pred' (.vector l) w' = .stuck := by
  have hrun : ∀ (a : Alg α) (w w' : World ρ), w.locked = true → runAlg pred a w = .exit w' → w'.locked = true := by
    intro a
    induction a with
    | stop l => intro w w' _ h; simp [runAlg] at h
    | ask x y neg pos ihn ihp =>
      intro w w' hw h
      simp only [runAlg] at h
      cases hc : pred x y w with
      | ret b w1 =>
        have h1 := hp x y w w1 hw (Or.inr ⟨b, hc⟩)
        cases b with
        | true => rw [hc] at h; exact ihn w1 w' h1 h
        | false => rw [hc] at h; exact ihp w1 w' h1 h
      | exit w1 =>
        rw [hc] at h; injection h with h; subst h
        exact hp x y w w1 hw (Or.inl hc)
      | stuck => rw [hc] at h; simp at h
  have hl : w'.locked = true := by
    cases seq with
    | nil => simp [sortC] at h
    | other => simp only [sortC] at h; split at h <;> simp at h
    | bits =>
      simp only [sortC] at h
      split at h
      · simp at h
      · injection h with h; subst h; rfl
    | list y m =>
      simp only [sortC] at h
      split at h
      · simp at h
      · cases hr : runAlg pred (alg (y :: m)) { w with locked := true } with
        | ret r w1 => rw [hr] at h; simp at h
        | exit w1 => rw [hr] at h; injection h with h; subst h; exact hrun _ _ _ rfl hr
        | stuck => rw [hr] at h; simp at h
    | vector m =>
      simp only [sortC] at h
      split at h
      · simp at h
      · cases hr : runAlg pred (alg m) { w with locked := true } with
        | ret r w1 => rw [hr] at h; simp at h
        | exit w1 => rw [hr] at h; injection h with h; subst h; exact hrun _ _ _ rfl hr
        | stuck => rw [hr] at h; simp at h
  simp [sortC, hl]

/-- A predicate that itself sorts a non-empty list never returns from the inner `sort`: such a `sort` of two
or more elements never ends, whatever the algorithm, if the algorithm makes a comparison. -/
theorem C119_nested_sort_wrong (alg alg' : List α → Alg α) (pred' : α → α → World ρ → Call (World ρ))
    (pred : α → α → World ρ → Call (World ρ)) (inner : α → α → α × List α)
    (hpred : ∀ x y w, sortC alg' pred' (.list (inner x y).1 (inner x y).2) w = .stuck → pred x y w = .stuck)
    (x : α) (l : List α) (w : World ρ) (a b : α) (neg pos : Alg α) (halg : alg (x :: l) = .ask a b neg pos) :
    sortC alg pred (.list x l) w = .stuck := by
  simp only [sortC]
  split
  · rfl
  · have : pred a b { w with locked := true } = .stuck := hpred a b _ (by simp [sortC])
    rw [halg]
    simp [runAlg, this]

/-- An algorithm for two elements. -/
def alg2 : List Nat → Alg Nat
  | [x, y] => .ask x y (.stop [x, y]) (.stop [y, x])
  | l => .stop l

example : sortC alg2 (fun x y (w : World Unit) => .ret (decide (x < y)) w) (.list 2 [1]) ⟨false, ()⟩
    = .ret [1, 2] ⟨false, ()⟩ := by rfl
example : sortC alg2 (fun _ _ (w : World Unit) => .exit w) (.list 2 [1]) ⟨false, ()⟩ = .exit ⟨true, ()⟩ := by rfl

end sort
end Eus.Srch
