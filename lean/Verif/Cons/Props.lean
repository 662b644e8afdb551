import Verif.Cons.Proofs
set_option autoImplicit false
/-
Properties C32 (lists), C40, C46, C66: functions that relink cons cells.

`IsList h v cs`: in heap `h`, `v` is a proper list consisting of the cells `cs`; `elems h cs` are its
elements.
-/
namespace Eus.Cons
open Eus.Seq (dropFirst)

/-- The list (1 2 3) in cells 0 1 2, and (4 5) in cells 3 4. -/
def demo : H := ⟨fun a => .atom (a + 1), fun a => if a = 2 ∨ a = 4 then .nil else .cell (a + 1), 5⟩

theorem demo_list1 : IsList demo (.cell 0) [0, 1, 2] := by
  refine ⟨?_, ?_⟩
  · simp [Chain, demo]
  · simp [demo]

theorem demo_list2 : IsList demo (.cell 3) [3, 4] := by
  refine ⟨?_, ?_⟩
  · simp [Chain, demo]
  · simp [demo]

/-! ### C32: delete on lists -/

/-- `delete` on a list with :start 0: the result consists of the original cells that are not deleted,
in order; no CAR changes and no other cell changes. -/
theorem C32_delete_list (p : V → Bool) (e c : Nat) (h : H) (v : V) (cs : List Nat) (hl : IsList h v cs)
    (he : e ≤ cs.length) :
    ∃ h' r cs', delete p 0 e c h v = some (h', r) ∧ IsList h' r cs' ∧
      elems h' cs' = dropFirst p c ((elems h cs).take e) ++ (elems h cs).drop e ∧
      cs'.Sublist cs ∧ h'.car = h.car ∧ (∀ a, a ∉ cs → h'.cdr a = h.cdr a) := by
  cases cs with
  | nil =>
    have hv : v = .nil := hl.1
    subst hv
    have : e = 0 := by simpa using he
    subst this
    exact ⟨h, .nil, [], rfl, hl, by cases c <;> simp [elems, dropFirst], by simp, rfl, fun _ _ => rfl⟩
  | cons a as =>
    obtain ⟨rfl, h2⟩ := id hl.1
    obtain ⟨h', r, e1, e2, e3⟩ := delLoop_first p (a :: as) e c h (.cell a) a hl.1 he
    have hsub : (dropFirst (fun a => p (h.car a)) c ((a :: as).take e) ++ (a :: as).drop e).Sublist (a :: as) := by
      conv_rhs => rw [← List.take_append_drop e (a :: as)]
      exact (dropFirst_sublist _ _ _).append (List.Sublist.refl _)
    refine ⟨h', r, _, ?_, ⟨e2, ?_⟩, ?_, hsub, e3.1, e3.2.2⟩
    · simpa [delete, skip] using e1
    · intro x hx; rw [e3.2.1]; exact hl.2 x (hsub.subset hx)
    · simp only [elems, e3.1, List.map_append, dropFirst_map h.car p, List.map_take, List.map_drop]

/-- Without keywords `delete` is the filter (up to a million matches). -/
theorem C32_delete_list_default (p : V → Bool) (h : H) (v : V) (cs : List Nat) (hl : IsList h v cs)
    (hc : (elems h cs).countP p ≤ 1000000) :
    ∃ h' r cs', delete p 0 cs.length 1000000 h v = some (h', r) ∧ IsList h' r cs' ∧
      elems h' cs' = (elems h cs).filter (fun x => !p x) := by
  obtain ⟨h', r, cs', h1, h2, h3, _⟩ := C32_delete_list p cs.length 1000000 h v cs hl (Nat.le_refl _)
  refine ⟨h', r, cs', h1, h2, ?_⟩
  have hlen : (elems h cs).length = cs.length := by simp [elems]
  rw [h3, ← hlen, List.take_length, List.drop_length, List.append_nil]
  have : ∀ (l : List V) (c : Nat), l.countP p ≤ c → dropFirst p c l = l.filter (fun x => !p x) := by
    intro l
    induction l with
    | nil => intro c _; cases c <;> rfl
    | cons x l ih =>
      intro c h
      cases c with
      | zero =>
        rw [dropFirst_zero']
        symm; rw [List.filter_eq_self]
        intro a ha
        have := (List.countP_eq_zero (p := p)).1 (by omega) a ha
        simpa using this
      | succ c =>
        rw [List.countP_cons] at h
        by_cases hx : p x = true
        · simp only [hx, if_true] at h
          simp [dropFirst, hx, ih c (by omega)]
        · simp only [hx] at h
          simp [dropFirst, hx, ih (c + 1) (by simpa using h)]
  exact this _ _ hc

/-- With :start `s > 0` the element at index `s` is never deleted (though it is counted). -/
theorem C32_delete_list_start_result (p : V → Bool) (s e c : Nat) (h : H) (v : V) (pre : List Nat) (a : Nat)
    (post : List Nat) (hl : IsList h v (pre ++ a :: post)) (hs : pre.length = s) (hs0 : 0 < s)
    (he : s < e) (he' : e ≤ s + 1 + post.length) :
    ∃ h' cs', delete p s e (c + 1) h v = some (h', v) ∧ IsList h' v cs' ∧
      elems h' cs' = elems h pre ++ h.car a ::
        (dropFirst p (if p (h.car a) then c else c + 1) ((elems h post).take (e - s - 1))
          ++ (elems h post).drop (e - s - 1)) := by
  have hnd := chain_nodup h _ _ hl.1
  have hsk := skip_spec h pre (a :: post) v hl.1
  obtain ⟨hn1, hn2⟩ := nthcdr_spec h pre (a :: post) v hl.1
  rw [hs] at hsk hn1 hn2
  have hcell : nthcdr h s v = .cell a := hn1.1
  obtain ⟨x, rfl⟩ : ∃ x, v = .cell x := by
    cases pre with
    | nil => simp at hs; omega
    | cons x xs => exact ⟨x, hl.1.1⟩
  obtain ⟨n, hn⟩ : ∃ n, e - s = n + 1 := ⟨e - s - 1, by omega⟩
  rw [show e - s - 1 = n by omega]
  -- first round: the store of line 760 changes nothing
  have hset : h.setCdr a (h.cdr a) = h := by
    unfold H.setCdr
    congr 1
    funext y
    split
    · rename_i hy; rw [hy]
    · rfl
  have step : delLoop p (n + 1) (c + 1) h (.cell x) (.cell a) a false =
      delLoop p n (if p (h.car a) then c else c + 1) h (.cell x) (h.cdr a) a false := by
    by_cases hp : p (h.car a) = true
    · simp only [delLoop, hp, if_true, Bool.false_eq_true, if_false, hset]
    · simp only [delLoop, hp, if_false, Bool.false_eq_true]
  obtain ⟨h', e1, e2, e3⟩ := delLoop_kept p post n (if p (h.car a) then c else c + 1) h (.cell x) pre a hl.1
    (by omega)
  refine ⟨h', _, ?_, ⟨e2, ?_⟩, ?_⟩
  · have hs1 : decide (s = 0) = false := by simp; omega
    simp only [delete, hsk, hcell, hn, hs1, step]
    exact e1
  · intro y hy
    rw [e3.2.1]
    refine hl.2 y ?_
    have hsub : (dropFirst (fun a => p (h.car a)) (if p (h.car a) then c else c + 1) (post.take n)
        ++ post.drop n).Sublist post := by
      conv_rhs => rw [← List.take_append_drop n post]
      exact (dropFirst_sublist _ _ _).append (List.Sublist.refl _)
    rcases List.mem_append.1 hy with hy | hy
    · exact List.mem_append_left _ hy
    · refine List.mem_append_right _ ?_
      rcases List.mem_cons.1 hy with rfl | hy
      · exact List.mem_cons_self
      · exact List.mem_cons_of_mem _ (hsub.subset hy)
  · simp only [elems, e3.1, List.map_append, List.map_cons, dropFirst_map h.car p, List.map_take, List.map_drop]

/-- So `delete` with :start is right if the element at `start` does not match. -/
theorem C32_delete_list_start_partial (p : V → Bool) (s e c : Nat) (h : H) (v : V) (pre : List Nat) (a : Nat)
    (post : List Nat) (hl : IsList h v (pre ++ a :: post)) (hs : pre.length = s) (hs0 : 0 < s)
    (he : s < e) (he' : e ≤ s + 1 + post.length) (hp : p (h.car a) = false) :
    ∃ h' cs', delete p s e (c + 1) h v = some (h', v) ∧ IsList h' v cs' ∧
      elems h' cs' = Eus.Seq.within (dropFirst p (c + 1)) s e (elems h (pre ++ a :: post)) := by
  obtain ⟨h', cs', h1, h2, h3⟩ := C32_delete_list_start_result p s e c h v pre a post hl hs hs0 he he'
  refine ⟨h', cs', h1, h2, ?_⟩
  rw [h3]
  have hl1 : (elems h pre).length = s := by simp [elems, hs]
  have : elems h (pre ++ a :: post) = elems h pre ++ (h.car a :: elems h post) := by simp [elems]
  rw [this, Eus.Seq.within, List.take_left' hl1, List.drop_left' hl1,
    show e - s = (e - s - 1) + 1 by omega, List.take_succ_cons, List.drop_succ_cons]
  simp [dropFirst, hp]

/-- `(delete 2 '(1 2 3) :start 1)` returns (1 2 3). -/
theorem C32_delete_start_wrong :
    ∃ h' cs', delete (· == .atom 2) 1 3 1000000 demo (.cell 0) = some (h', .cell 0) ∧
      IsList h' (.cell 0) cs' ∧ elems h' cs' = [.atom 1, .atom 2, .atom 3] := by
  obtain ⟨h', cs', h1, h2, h3⟩ := C32_delete_list_start_result (· == .atom 2) 1 3 999999 demo (.cell 0) [0] 1 [2]
    demo_list1 rfl (by omega) (by omega) (by simp)
  refine ⟨h', cs', h1, h2, h3.trans ?_⟩
  simp [demo, elems, dropFirst]

example : ∃ h' r cs', delete (· == .atom 1) 0 3 1000000 demo (.cell 0) = some (h', r) ∧ IsList h' r cs' ∧
    elems h' cs' = [.atom 2, .atom 3] := by
  obtain ⟨h', r, cs', h1, h2, h3⟩ := C32_delete_list_default (· == .atom 1) demo (.cell 0) [0, 1, 2] demo_list1
    (by simp [demo, elems])
  exact ⟨h', r, cs', h1, h2, h3.trans (by simp [demo, elems])⟩

/-! ### C40: append, nconc, butlast, nbutlast -/

/-- `append` of two lists: new cells for the first, the very cells of the second; nothing allocated
before is modified. -/
theorem C40_append (h : H) (args : List (V × List Nat)) (v : V) (cs : List Nat) (fuel : Nat)
    (ha : ∀ x ∈ args, IsList h x.1 x.2 ∧ x.2.length ≤ fuel) (hv : IsList h v cs) :
    ∃ h' r new, append fuel h (args.map Prod.fst ++ [v]) = some (h', r) ∧ IsList h' r (new ++ cs) ∧
      elems h' (new ++ cs) = ((args.map fun x => elems h x.2).flatten ++ elems h cs) ∧
      (∀ a ∈ new, h.next ≤ a) ∧ Extends h h' := by
  have key : ∀ (rargs : List (V × List Nat)) (h0 : H) (r : V) (new : List Nat), Extends h h0 →
      (∀ x ∈ rargs, IsList h x.1 x.2 ∧ x.2.length ≤ fuel) → IsList h0 r (new ++ cs) →
      (∀ a ∈ new, h.next ≤ a) →
      ∃ h' r' new', appendLoop fuel h0 (rargs.map Prod.fst) r = some (h', r') ∧ IsList h' r' (new' ++ cs) ∧
        elems h' new' = (rargs.reverse.map fun x => elems h x.2).flatten ++ elems h0 new ∧
        (∀ a ∈ new', h.next ≤ a) ∧ Extends h h' := by
    intro rargs
    induction rargs with
    | nil => intro h0 r new e _ hr hn; exact ⟨h0, r, new, rfl, hr, by simp, hn, e⟩
    | cons x xs ih =>
      intro h0 r new e hx hr hn
      obtain ⟨⟨g1, g2⟩, g3⟩ := hx x List.mem_cons_self
      have gch : Chain h0 x.1 x.2 .nil := extends_chain e _ _ _ g2 g1
      have hp := pushAll_spec h0 x.2 fuel x.1 [] gch g3
      obtain ⟨nw, k1, k2, k3, k4⟩ := consAll_spec ((elems h0 x.2).reverse ++ []) h0 r (new ++ cs) hr
      have e' := e.trans k4
      rw [← List.append_assoc] at k1
      obtain ⟨h', r', new', f1, f2, f3, f4, f5⟩ := ih _ _ (nw ++ new) e'
        (fun y hy => hx y (List.mem_cons_of_mem _ hy)) k1
        (fun a ha => by
          rcases List.mem_append.1 ha with ha | ha
          · have := k3 a ha; have := e.1; omega
          · exact hn a ha)
      refine ⟨h', r', new', ?_, f2, ?_, f4, f5⟩
      · have hnat : ∀ k, x.1 ≠ .atom k := by
          intro k hk
          rw [hk] at g1
          cases hx2 : x.2 with
          | nil => rw [hx2] at g1; simp [Chain] at g1
          | cons y ys => rw [hx2] at g1; simp [Chain] at g1
        simp only [List.map_cons]
        cases hx1 : x.1 with
        | atom k => exact absurd hx1 (hnat k)
        | nil => rw [hx1] at hp; simp only [appendLoop, hp, Option.bind_some]; exact f1
        | cell k => rw [hx1] at hp; simp only [appendLoop, hp, Option.bind_some]; exact f1
      · rw [f3]
        have : elems (consAll h0 ((elems h0 x.2).reverse ++ []) r).1 new = elems h0 new := by
          refine extends_elems k4 new ?_
          intro a ha
          exact hr.2 a (List.mem_append_left _ ha)
        rw [show elems (consAll h0 ((elems h0 x.2).reverse ++ []) r).1 (nw ++ new)
            = elems (consAll h0 ((elems h0 x.2).reverse ++ []) r).1 nw
              ++ elems (consAll h0 ((elems h0 x.2).reverse ++ []) r).1 new by simp [elems], k2, this]
        simp [extends_elems e x.2 g2]
  obtain ⟨h', r', new', f1, f2, f3, f4, f5⟩ := key args.reverse h v [] (Extends.refl h)
    (fun x hx => ha x (List.mem_reverse.1 hx)) (by simpa using hv) (by simp)
  refine ⟨h', r', new', ?_, f2, ?_, f4, f5⟩
  · unfold append
    simp only [List.reverse_append, List.reverse_cons, List.reverse_nil, List.nil_append,
      List.singleton_append, ← List.map_reverse]
    exact f1
  · rw [show elems h' (new' ++ cs) = elems h' new' ++ elems h' cs by simp [elems], f3,
      extends_elems f5 cs hv.2]
    simp [elems]

example : ∃ h' r cs, append 9 demo [.cell 0, .cell 3] = some (h', r) ∧ IsList h' r cs ∧
    elems h' cs = [.atom 1, .atom 2, .atom 3, .atom 4, .atom 5] := by
  obtain ⟨h', r, new, h1, h2, h3, _⟩ := C40_append demo [(.cell 0, [0, 1, 2])] (.cell 3) [3, 4] 9
    (by simp; exact demo_list1) demo_list2
  exact ⟨h', r, _, h1, h2, h3.trans (by simp [demo, elems])⟩

/-- `nconc` of proper lists with disjoint cells: the result consists of their cells in order. -/
theorem C40_nconc (h : H) (args : List (V × List Nat)) (fuel : Nat)
    (ha : ∀ x ∈ args, IsList h x.1 x.2 ∧ x.2.length ≤ fuel) (hd : (args.map Prod.snd).flatten.Nodup) :
    ∃ h' r, nconc fuel h (args.map Prod.fst) = some (h', r) ∧
      IsList h' r (args.map Prod.snd).flatten ∧ h'.car = h.car ∧
      (∀ x, x ∉ (args.map Prod.snd).flatten → h'.cdr x = h.cdr x) := by
  have key : ∀ (ra : List (V × List Nat)), (∀ x ∈ ra, IsList h x.1 x.2 ∧ x.2.length ≤ fuel) →
      (ra.map Prod.snd).flatten.Nodup →
      ∃ h' r, nconcStart fuel h (ra.map Prod.fst) = some (h', r) ∧
        IsList h' r (ra.reverse.map Prod.snd).flatten ∧ h'.car = h.car ∧
        (∀ x, x ∉ (ra.map Prod.snd).flatten → h'.cdr x = h.cdr x) := by
    intro ra
    induction ra with
    | nil => intro _ _; exact ⟨h, .nil, rfl, ⟨rfl, by simp⟩, rfl, fun _ _ => rfl⟩
    | cons x xs ih =>
      intro hx hnd
      obtain ⟨v, cells⟩ := x
      obtain ⟨⟨g1, g2⟩, g3⟩ := hx _ List.mem_cons_self
      simp only at g1 g2 g3
      cases hv : v with
      | atom k =>
        subst hv
        cases cells <;> simp [Chain] at g1
      | nil =>
        subst hv
        have hc : cells = [] := by cases cells <;> simp [Chain] at g1 ⊢
        subst hc
        obtain ⟨h', r, e1, e2, e3, e4⟩ := ih (fun y hy => hx y (List.mem_cons_of_mem _ hy)) (by simpa using hnd)
        exact ⟨h', r, by simpa [nconcStart] using e1, by simpa using e2, e3, by simpa using e4⟩
      | cell c =>
        subst hv
        obtain ⟨h', e1, e2, e3, e4, e5⟩ := nconcLoop_spec fuel xs h (.cell c) cells ⟨g1, g2⟩
          (fun y hy => hx y (List.mem_cons_of_mem _ hy)) (by simpa using hnd)
        refine ⟨h', _, by simpa [nconcStart] using e1, by simpa using e2, e3, fun y hy => e5 y ?_⟩
        simp only [List.map_cons, List.flatten_cons, List.mem_append, not_or] at hy
        exact hy.2
  obtain ⟨h', r, e1, e2, e3, e4⟩ := key args.reverse (fun x hx => ha x (List.mem_reverse.1 hx)) (by
    have : ((args.reverse.map Prod.snd).flatten).Perm (args.map Prod.snd).flatten :=
      (List.Perm.map _ (List.reverse_perm args)).flatten
    exact this.nodup_iff.2 hd)
  refine ⟨h', r, by simpa [nconc, List.map_reverse] using e1, by simpa using e2, e3, fun x hx => e4 x ?_⟩
  intro hx'
  apply hx
  simp only [List.mem_flatten, List.mem_map, List.mem_reverse] at hx' ⊢
  exact hx'

example : ∃ h' r, nconc 9 demo [.cell 0, .nil, .cell 3] = some (h', r) ∧ IsList h' r [0, 1, 2, 3, 4] := by
  obtain ⟨h', r, h1, h2, _⟩ := C40_nconc demo [(.cell 0, [0, 1, 2]), (.nil, []), (.cell 3, [3, 4])] 9
    (by
      intro x hx
      simp only [List.mem_cons, List.not_mem_nil, or_false] at hx
      rcases hx with rfl | rfl | rfl
      · exact ⟨demo_list1, by decide⟩
      · exact ⟨⟨rfl, by simp⟩, by decide⟩
      · exact ⟨demo_list2, by decide⟩) (by decide)
  exact ⟨h', r, h1, h2⟩

/-- A last argument that is not a list is dropped: `(nconc '(1 2 3) 7)` is `(1 2 3)`. -/
theorem C40_nconc_ignores_atom (h : H) (c k : Nat) (fuel : Nat) :
    nconc fuel h [.cell c, .atom k] = some (h, .cell c) := by
  simp [nconc, nconcStart, nconcLoop]

/-- `butlast`: a new list of all but the last `n` elements; nothing is modified. -/
theorem C40_butlast (h : H) (v : V) (cs : List Nat) (n fuel : Nat) (hl : IsList h v cs)
    (hf : cs.length ≤ fuel) :
    ∃ h' r new, butlast fuel h v n = some (h', r) ∧ IsList h' r new ∧
      elems h' new = (elems h cs).take (cs.length - n) ∧ (∀ a ∈ new, h.next ≤ a) ∧ Extends h h' := by
  have hp := pushAll_spec h cs fuel v [] hl.1 hf
  obtain ⟨new, k1, k2, k3, k4⟩ := consAll_spec
    (((elems h cs).reverse ++ []).drop (min ((elems h cs).reverse ++ []).length n)) h .nil [] ⟨rfl, by simp⟩
  rw [List.append_nil new] at k1
  refine ⟨_, _, new, ?_, k1, ?_, k3, k4⟩
  · have hnat : ∀ k, v ≠ .atom k := by
      rintro k rfl
      have := hl.1
      cases cs <;> simp [Chain] at this
    unfold butlast
    cases v with
    | atom k => exact absurd rfl (hnat k)
    | nil => simp only [hp, Option.map_some]
    | cell k => simp only [hp, Option.map_some]
  · rw [k2]
    simp only [List.append_nil, List.length_reverse, elems, List.length_map]
    rw [List.drop_reverse, List.reverse_reverse]
    congr 1
    simp; omega

/-- `nbutlast` with `n` less than the length cuts the list in place. -/
theorem C40_nbutlast_partial (h : H) (v : V) (cs : List Nat) (n fuel : Nat) (hl : IsList h v cs)
    (hf : cs.length ≤ fuel) (hn : n < cs.length) :
    ∃ h', nbutlast fuel h v n = some (h', v) ∧ IsList h' v (cs.take (cs.length - n)) ∧ h'.car = h.car := by
  have hp := pushCells_spec h cs fuel v [] hl.1 hf
  obtain ⟨c, rfl⟩ : ∃ c, v = .cell c := by
    have := hl.1
    cases cs with
    | nil => simp at hn
    | cons x xs => exact ⟨x, this.1⟩
  obtain ⟨m, hm⟩ : ∃ m, cs.length - n = m + 1 := ⟨cs.length - n - 1, by omega⟩
  have hmlt : m < cs.length := by omega
  have hget : (cs.reverse ++ [])[min (cs.reverse ++ []).length n]? = some cs[m] := by
    simp only [List.append_nil, List.length_reverse]
    rw [Nat.min_eq_right (by omega), List.getElem?_reverse hn, List.getElem?_eq_getElem (by omega)]
    congr 2; omega
  refine ⟨h.setCdr cs[m] .nil, ?_, ⟨?_, ?_⟩, rfl⟩
  · unfold nbutlast
    simp only [hp, Option.bind_some, hget]
  · rw [hm, List.take_add_one, List.getElem?_eq_getElem hmlt, Option.toList_some]
    have hsplit : cs = (cs.take m ++ [cs[m]]) ++ cs.drop (m + 1) := by
      simp
    have hch := hl.1
    rw [hsplit] at hch
    obtain ⟨t, h1, _⟩ := (chain_append h _ _ _ _).1 hch
    refine chain_setCdr h _ t _ _ _ h1 ?_
    have hnd := chain_nodup h _ _ hl.1
    rw [hsplit, List.nodup_append, List.nodup_append] at hnd
    intro hmem
    exact hnd.1.2.2 _ hmem _ (by simp) rfl
  · intro a ha
    exact hl.2 a (List.mem_of_mem_take ha)

example : ∃ h', nbutlast 9 demo (.cell 0) 1 = some (h', .cell 0) ∧ IsList h' (.cell 0) [0, 1] := by
  obtain ⟨h', h1, h2, _⟩ := C40_nbutlast_partial demo (.cell 0) [0, 1, 2] 1 9 demo_list1 (by decide) (by decide)
  exact ⟨h', h1, h2⟩

/-- `nbutlast` with `n` at least the length reads below its part of the stack (undefined). -/
theorem C40_nbutlast_undefined (h : H) (c : Nat) (cs : List Nat) (n fuel : Nat) (hl : IsList h (.cell c) cs)
    (hf : cs.length ≤ fuel) (hn : cs.length ≤ n) : nbutlast fuel h (.cell c) n = none := by
  have hp := pushCells_spec h cs fuel (.cell c) [] hl.1 hf
  simp only [nbutlast, hp, Option.bind_some]
  rw [List.getElem?_eq_none_iff.2 (by simp; omega)]

/-- `nthcdr` is `drop`: the result is the list of the remaining cells. -/
theorem C40_nthcdr (h : H) (v : V) (cs : List Nat) (n : Nat) (hl : IsList h v cs) :
    IsList h (nthcdr h n v) (cs.drop n) := by
  refine ⟨?_, fun a ha => hl.2 a (List.mem_of_mem_drop ha)⟩
  by_cases hn : n ≤ cs.length
  · have := (nthcdr_spec h (cs.take n) (cs.drop n) v (by rw [List.take_append_drop]; exact hl.1)).1
    rwa [List.length_take, Nat.min_eq_left hn] at this
  · rw [List.drop_eq_nil_of_le (by omega)]
    have key : ∀ (cs : List Nat) (n : Nat) (v : V), Chain h v cs .nil → cs.length < n → nthcdr h n v = .nil := by
      intro cs
      induction cs with
      | nil =>
        intro n v hh hn
        rw [show v = V.nil from hh]
        cases n <;> rfl
      | cons a as ih =>
        intro n v hh hn
        obtain ⟨rfl, h2⟩ := hh
        cases n with
        | zero => simp at hn
        | succ n => exact ih n _ h2 (by simpa using hn)
    exact key cs n v hl.1 (by omega)

/-! ### C66: list-insert, list-delete -/

/-- `list-insert` puts the item at the position (at the end if the position is beyond it). -/
theorem C66_list_insert (h : H) (item v : V) (cs : List Nat) (pos fuel : Nat) (hl : IsList h v cs)
    (hf : cs.length < fuel) :
    ∃ h' r cs', listInsert fuel h item pos v = some (h', r) ∧ IsList h' r cs' ∧
      elems h' cs' = (elems h cs).take pos ++ item :: (elems h cs).drop pos := by
  cases cs with
  | nil =>
    have hv : v = .nil := hl.1
    subst hv
    refine ⟨_, _, [h.next], rfl, ⟨⟨rfl, ?_⟩, ?_⟩, ?_⟩
    · simp [Chain]
    · simp
    · simp [elems]
  | cons c0 cs0 =>
    obtain ⟨rfl, _⟩ := id hl.1
    have hlen := len_spec h (c0 :: cs0) fuel (.cell c0) hl.1 (by omega)
    have hnew : ∀ a ∈ c0 :: cs0, a ≠ h.next := fun a ha => Nat.ne_of_lt (hl.2 a ha)
    generalize hcs : c0 :: cs0 = cs at *
    by_cases hpos : pos ≥ cs.length
    · -- nconc
      have he := cons_extends h item .nil
      have hl1 : IsList (h.cons item .nil).1 (.cell c0) cs :=
        ⟨extends_chain he _ _ _ hl.2 hl.1, fun a ha => by have := hl.2 a ha; have := he.1; omega⟩
      have hl2 : IsList (h.cons item .nil).1 (.cell h.next) [h.next] := by
        refine ⟨⟨rfl, ?_⟩, ?_⟩ <;> simp [Chain, H.cons]
      obtain ⟨h', r, e1, e2, e3, _⟩ := C40_nconc (h.cons item .nil).1 [(.cell c0, cs), (.cell h.next, [h.next])] fuel
        (by
          intro x hx
          simp only [List.mem_cons, List.not_mem_nil, or_false] at hx
          rcases hx with rfl | rfl
          · exact ⟨hl1, by simp; omega⟩
          · exact ⟨hl2, by simp; omega⟩)
        (by
          simp only [List.map_cons, List.map_nil, List.flatten_cons, List.flatten_nil, List.append_nil]
          rw [List.nodup_append]
          refine ⟨chain_nodup h _ _ hl.1, by simp, ?_⟩
          intro a ha b hb
          simp only [List.mem_singleton] at hb
          rw [hb]; exact hnew a ha)
      refine ⟨h', r, _, ?_, e2, ?_⟩
      · simp only [listInsert, hlen, Option.bind_some, if_pos hpos]
        exact e1
      · simp only [List.map_cons, List.map_nil, List.flatten_cons, List.flatten_nil, List.append_nil]
        rw [List.take_of_length_le (by simp [elems]; omega), List.drop_eq_nil_of_le (by simp [elems]; omega)]
        simp only [elems, e3, List.map_append, List.map_cons, List.map_nil]
        congr 1
        · exact extends_elems he cs hl.2
        · simp [H.cons]
    · by_cases hp0 : pos = 0
      · subst hp0
        have he := cons_extends h item (.cell c0)
        refine ⟨(h.cons item (.cell c0)).1, _, h.next :: cs, ?_, ⟨⟨rfl, ?_⟩, ?_⟩, ?_⟩
        · simp only [listInsert, hlen, Option.bind_some, if_neg hpos, if_true]
          rfl
        · have : (h.cons item (.cell c0)).1.cdr h.next = .cell c0 := by simp [H.cons]
          rw [this]; exact extends_chain he _ _ _ hl.2 hl.1
        · intro a ha
          rcases List.mem_cons.1 ha with rfl | ha
          · simp [H.cons]
          · have := hl.2 a ha; have := he.1; omega
        · have hcar : (h.cons item (.cell c0)).1.car h.next = item := by simp [H.cons]
          have := extends_elems he cs hl.2
          simp only [elems] at this
          simp [elems, hcar, this]
      · obtain ⟨m, rfl⟩ : ∃ m, pos = m + 1 := ⟨pos - 1, by omega⟩
        have hm : m < cs.length := by omega
        have hsplit : cs = (cs.take m ++ [cs[m]]) ++ cs.drop (m + 1) := by simp
        set d := nthcdr h (m + 1) (.cell c0) with hd
        have hdl : IsList h d (cs.drop (m + 1)) := C40_nthcdr h _ cs (m + 1) hl
        have he := cons_extends h item d
        set h1 := (h.cons item d).1 with hh1
        have hl1 : IsList h1 (.cell c0) cs :=
          ⟨extends_chain he _ _ _ hl.2 hl.1, fun a ha => by have := hl.2 a ha; have := he.1; omega⟩
        have hb : nthcdr h1 m (.cell c0) = .cell cs[m] := by
          have := (C40_nthcdr h1 _ cs m hl1).1
          rw [List.drop_eq_getElem_cons hm] at this
          exact this.1
        have hch := hl1.1
        rw [hsplit] at hch
        obtain ⟨t, k1, _⟩ := (chain_append h1 _ _ _ _).1 hch
        have hnd := chain_nodup h _ _ hl.1
        have hnd' := hnd
        rw [hsplit, List.nodup_append, List.nodup_append] at hnd'
        have hnb : cs[m] ∉ cs.take m := fun hmem => hnd'.1.2.2 _ hmem _ (by simp) rfl
        have hnd2 : cs[m] ∉ cs.drop (m + 1) := fun hmem =>
          hnd'.2.2 _ (List.mem_append_right _ List.mem_cons_self) _ hmem rfl
        have hnext : cs[m] ≠ h.next := hnew _ (List.getElem_mem hm)
        refine ⟨h1.setCdr cs[m] (.cell h.next), .cell c0, (cs.take m ++ [cs[m]]) ++ h.next :: cs.drop (m + 1),
          ?_, ⟨?_, ?_⟩, ?_⟩
        · simp only [listInsert, hlen, Option.bind_some, if_neg hpos, if_neg hp0, Nat.add_sub_cancel]
          rw [← hd, ← hh1, hb]
          rfl
        · refine (chain_append _ _ _ _ _).2 ⟨.cell h.next, chain_setCdr h1 _ t _ _ _ k1 hnb, rfl, ?_⟩
          rw [setCdr_cdr, if_neg (Ne.symm hnext)]
          have : h1.cdr h.next = d := by simp [hh1, H.cons]
          rw [this]
          refine chain_congr h1 _ _ ?_ _ _ (extends_chain he _ _ _ hdl.2 hdl.1)
          intro a ha
          rw [setCdr_cdr, if_neg]
          rintro rfl; exact hnd2 ha
        · intro a ha
          have hn1 : (h1.setCdr cs[m] (.cell h.next)).next = h.next + 1 := rfl
          rw [hn1]
          rcases List.mem_append.1 ha with ha | ha
          · have : a ∈ cs := by rw [hsplit]; exact List.mem_append_left _ ha
            have := hl.2 a this; omega
          · rcases List.mem_cons.1 ha with rfl | ha
            · omega
            · have := hdl.2 a ha; omega
        · have hcar : h1.car h.next = item := by simp [hh1, H.cons]
          have hc : (h1.setCdr cs[m] (.cell h.next)).car = h1.car := rfl
          have e1 : (cs.take m ++ [cs[m]]) = cs.take (m + 1) := by simp
          rw [e1]
          have hE : elems h1 cs = elems h cs := extends_elems he cs hl.2
          simp only [elems] at hE
          simp only [elems, hc, List.map_append, List.map_cons, hcar]
          rw [List.map_take, List.map_drop, hE]

example : ∃ h' r cs', listInsert 9 demo (.atom 77) 2 (.cell 0) = some (h', r) ∧ IsList h' r cs' ∧
    elems h' cs' = [.atom 1, .atom 2, .atom 77, .atom 3] := by
  obtain ⟨h', r, cs', h1, h2, h3⟩ := C66_list_insert demo (.atom 77) (.cell 0) [0, 1, 2] 2 9 demo_list1 (by decide)
  exact ⟨h', r, cs', h1, h2, h3.trans (by simp [demo, elems])⟩

/-- `list-delete` removes the element at the position, for positions inside the list. -/
theorem C66_list_delete (h : H) (v : V) (cs : List Nat) (n : Nat) (hl : IsList h v cs) (hn : n < cs.length) :
    ∃ h' r cs', listDelete h v n = some (h', r) ∧ IsList h' r cs' ∧
      elems h' cs' = (elems h cs).take n ++ (elems h cs).drop (n + 1) := by
  unfold listDelete
  by_cases h0 : n = 0
  · subst h0
    rw [if_pos rfl]
    cases cs with
    | nil => simp at hn
    | cons c cs =>
      obtain ⟨rfl, h2⟩ := id hl.1
      exact ⟨h, h.cdr c, cs, rfl, ⟨h2, fun a ha => hl.2 a (List.mem_cons_of_mem _ ha)⟩, by simp [elems]⟩
  · rw [if_neg h0]
    obtain ⟨m, rfl⟩ : ∃ m, n = m + 1 := ⟨n - 1, by omega⟩
    have hm : m < cs.length := by omega
    have hb : nthcdr h m v = .cell cs[m] := by
      have := (C40_nthcdr h _ cs m hl).1
      rw [List.drop_eq_getElem_cons hm] at this
      exact this.1
    have hdl := C40_nthcdr h v cs (m + 1 + 1) hl
    have hsplit : cs = (cs.take m ++ [cs[m]]) ++ cs.drop (m + 1) := by simp
    have hch := hl.1
    rw [hsplit] at hch
    obtain ⟨t, k1, _⟩ := (chain_append h _ _ _ _).1 hch
    have hnd' := chain_nodup h _ _ hl.1
    rw [hsplit, List.nodup_append, List.nodup_append] at hnd'
    have hnb : cs[m] ∉ cs.take m := fun hmem => hnd'.1.2.2 _ hmem _ (by simp) rfl
    have hnd2 : cs[m] ∉ cs.drop (m + 1) := fun hmem =>
          hnd'.2.2 _ (List.mem_append_right _ List.mem_cons_self) _ hmem rfl
    simp only [Nat.add_sub_cancel, hb]
    refine ⟨_, v, (cs.take m ++ [cs[m]]) ++ cs.drop (m + 1 + 1), rfl, ⟨?_, ?_⟩, ?_⟩
    · refine (chain_append _ _ _ _ _).2 ⟨_, chain_setCdr h _ t (nthcdr h (m + 1 + 1) v) _ _ k1 hnb, ?_⟩
      refine chain_congr h _ _ ?_ _ _ hdl.1
      intro a ha
      rw [setCdr_cdr, if_neg]
      rintro rfl
      apply hnd2
      have : cs.drop (m + 1 + 1) = (cs.drop (m + 1)).drop 1 := by rw [List.drop_drop]
      rw [this] at ha
      exact List.mem_of_mem_drop ha
    · intro a ha
      refine hl.2 a ?_
      rcases List.mem_append.1 ha with ha | ha
      · rw [hsplit]; exact List.mem_append_left _ ha
      · exact List.mem_of_mem_drop ha
    · have e1 : (cs.take m ++ [cs[m]]) = cs.take (m + 1) := by simp
      rw [e1]
      simp only [elems, H.setCdr, List.map_append, List.map_take, List.map_drop]

example : ∃ h' r cs', listDelete demo (.cell 0) 1 = some (h', r) ∧ IsList h' r cs' ∧
    elems h' cs' = [.atom 1, .atom 3] := by
  obtain ⟨h', r, cs', h1, h2, h3⟩ := C66_list_delete demo (.cell 0) [0, 1, 2] 1 demo_list1 (by decide)
  exact ⟨h', r, cs', h1, h2, h3.trans (by simp [demo, elems])⟩

/-! ### C46: queue -/

theorem QRep_nil (q : Q) (h : QRep q []) : q.car = .nil ∧ q.cdr = .nil := by
  obtain ⟨cs, h1, h2, h3⟩ := h
  have : cs = [] := by simpa [elems] using h2
  subst this
  exact ⟨h1.1, h3⟩

theorem enqueue_rep (q : Q) (l : List V) (x : V) (h : QRep q l) :
    ∃ q', q.enqueue x = some q' ∧ QRep q' (l ++ [x]) ∧ q'.h.next = q.h.next + 1 := by
  obtain ⟨cs, h1, h2, h3⟩ := h
  cases hrev : cs.reverse with
  | nil =>
    have hc : cs = [] := by simpa using hrev
    subst hc
    have hl : l = [] := by rw [← h2]; rfl
    subst hl
    have h3 : q.cdr = .nil := h3
    refine ⟨⟨(q.h.cons x .nil).1, .cell q.h.next, .cell q.h.next⟩, ?_, ⟨[q.h.next], ⟨⟨rfl, ?_⟩, ?_⟩, ?_, rfl⟩, rfl⟩
    · simp [Q.enqueue, h3, H.cons]
    · simp [Chain, H.cons]
    · simp [H.cons]
    · simp [elems, H.cons]
  | cons b as =>
    have hcs : cs = as.reverse ++ [b] := by
      have := congrArg List.reverse hrev; simpa using this
    have h3 : q.cdr = .cell b := by rw [h3, hcs]; simp
    have he := cons_extends q.h x .nil
    have hbn : b < q.h.next := h1.2 b (by rw [hcs]; simp)
    have hne : q.h.next ≠ b := by omega
    have hch := extends_chain he _ _ _ h1.2 h1.1
    have hnd := chain_nodup q.h _ _ h1.1
    rw [hcs] at hch hnd
    have hb : b ∉ as.reverse := by
      rw [List.nodup_append] at hnd
      exact fun hmem => hnd.2.2 b hmem b (by simp) rfl
    refine ⟨⟨(q.h.cons x .nil).1.setCdr b (.cell q.h.next), q.car, .cell q.h.next⟩, ?_,
      ⟨(as.reverse ++ [b]) ++ [q.h.next], ⟨?_, ?_⟩, ?_, ?_⟩, rfl⟩
    · simp only [Q.enqueue, h3]
      rw [show (q.h.cons x .nil).2 = .cell q.h.next from rfl]
      congr 2
      rw [setCdr_cdr, if_pos rfl]
    · refine (chain_append _ _ _ _ _).2 ⟨.cell q.h.next, chain_setCdr _ _ _ _ _ _ hch hb, rfl, ?_⟩
      rw [setCdr_cdr, if_neg hne]
      simp [Chain, H.cons]
    · intro a ha
      show a < q.h.next + 1
      rcases List.mem_append.1 ha with ha | ha
      · have := h1.2 a (by rw [hcs]; exact ha); omega
      · simp at ha; omega
    · have := extends_elems he cs h1.2
      rw [h2] at this
      rw [hcs] at this
      show elems (q.h.cons x .nil).1 _ = _
      rw [show elems (q.h.cons x .nil).1 ((as.reverse ++ [b]) ++ [q.h.next])
        = elems (q.h.cons x .nil).1 (as.reverse ++ [b]) ++ [(q.h.cons x .nil).1.car q.h.next] by simp [elems],
        this]
      simp [H.cons]
    · simp

theorem dequeue_rep (q : Q) (l : List V) (h : QRep q l) :
    ∃ q', q.dequeue = some (q', l.head?.getD .nil) ∧ QRep q' l.tail ∧ q'.h = q.h := by
  obtain ⟨cs, h1, h2, h3⟩ := h
  cases cs with
  | nil =>
    have hl : l = [] := by rw [← h2]; rfl
    subst hl
    have hc : q.car = .nil := h1.1
    refine ⟨q, ?_, ⟨[], h1, rfl, h3⟩, rfl⟩
    simp [Q.dequeue, hc]
  | cons a as =>
    have hc : q.car = .cell a := h1.1.1
    have hd : l = q.h.car a :: elems q.h as := by rw [← h2]; simp [elems]
    subst hd
    have hnd := chain_nodup q.h _ _ h1.1
    by_cases heq : q.car = q.cdr
    · -- single element
      have : as = [] := by
        cases has : as.getLast? with
        | none => simpa using has
        | some b =>
          exfalso
          rw [List.getLast?_cons, has] at h3
          simp only [Option.getD_some] at h3
          rw [hc, h3] at heq
          injection heq with heq
          subst heq
          rw [List.nodup_cons] at hnd
          exact hnd.1 (List.mem_of_getLast? has)
      subst this
      refine ⟨⟨q.h, .nil, .nil⟩, ?_, ⟨[], ⟨rfl, by simp⟩, rfl, rfl⟩, rfl⟩
      unfold Q.dequeue
      rw [hc] at heq ⊢
      simp [heq]
    · refine ⟨⟨q.h, q.h.cdr a, q.cdr⟩, ?_, ⟨as, ⟨h1.1.2, fun b hb => h1.2 b (List.mem_cons_of_mem _ hb)⟩, rfl, ?_⟩, rfl⟩
      · unfold Q.dequeue
        rw [hc] at heq ⊢
        simp [heq]
      · show q.cdr = _
        rw [h3, List.getLast?_cons]
        cases has : as.getLast? with
        | some b => rfl
        | none =>
          exfalso
          apply heq
          rw [hc, h3, List.getLast?_cons, has]
          rfl

theorem dequeueN_rep (n : Nat) : ∀ (q : Q) (l : List V), QRep q l →
    ∃ q', Q.dequeueN n q = some q' ∧ QRep q' (l.drop n) ∧ q'.h = q.h := by
  induction n with
  | zero => intro q l h; exact ⟨q, rfl, by simpa using h, rfl⟩
  | succ n ih =>
    intro q l h
    obtain ⟨q1, h1, h2, h3⟩ := dequeue_rep q l h
    obtain ⟨q2, h4, h5, h6⟩ := ih q1 _ h2
    refine ⟨q2, by simp [Q.dequeueN, h1, h4], ?_, h6.trans h3⟩
    rw [← List.drop_one, List.drop_drop, Nat.add_comm] at h5
    exact h5

theorem delete_rep (q : Q) (l : List V) (p : V → Bool) (c fuel : Nat) (h : QRep q l) (hf : l.length < fuel) :
    ∃ q', q.delete fuel p c = some q' ∧ QRep q' (dropFirst p c l) ∧ q'.h.next = q.h.next := by
  obtain ⟨cs, h1, h2, h3⟩ := h
  have hlen : l.length = cs.length := by rw [← h2]; simp [elems]
  have hl := len_spec q.h cs fuel q.car h1.1 (by omega)
  obtain ⟨h', r, cs', e1, e2, e3, e4, e5, e6⟩ := C32_delete_list p cs.length c q.h q.car cs h1 (Nat.le_refl _)
  have hnx : h'.next = q.h.next := by
    -- the loop allocates nothing
    have : ∀ (n c : Nat) (h : H) (r s : V) (b : Nat) (f : Bool) (h' : H) (r' : V),
        delLoop p n c h r s b f = some (h', r') → h'.next = h.next := by
      intro n
      induction n with
      | zero => intro c h r s b f h' r' hh; simp [delLoop] at hh; rw [hh.1]
      | succ n ih =>
        intro c h r s b f h' r' hh
        cases c with
        | zero => simp [delLoop] at hh; rw [hh.1]
        | succ c =>
          cases s with
          | nil => simp [delLoop] at hh
          | atom k => simp [delLoop] at hh
          | cell a =>
            cases r with
            | nil => simp [delLoop] at hh
            | atom k => simp [delLoop] at hh
            | cell k =>
              simp only [delLoop] at hh
              split_ifs at hh
              · exact ih _ _ _ _ _ _ _ _ hh
              · exact (ih _ _ _ _ _ _ _ _ hh).trans rfl
              · exact ih _ _ _ _ _ _ _ _ hh
    unfold delete at e1
    cases hcar : q.car with
    | nil => rw [hcar] at e1; simp at e1; rw [e1.1]
    | atom k => rw [hcar] at e1; simp at e1
    | cell k =>
      rw [hcar] at e1
      simp only [skip] at e1
      exact this _ _ _ _ _ _ _ _ _ e1
  have hel : elems h' cs' = dropFirst p c l := by
    rw [e3, h2, ← hlen, List.take_length, List.drop_length, List.append_nil]
  have hcl : cs'.length ≤ cs.length := e4.length_le
  cases hrev : cs'.reverse with
  | nil =>
    have hc : cs' = [] := by simpa using hrev
    subst hc
    have hr : r = .nil := e2.1
    subst hr
    refine ⟨⟨h', .nil, .nil⟩, ?_, ⟨[], e2, hel, rfl⟩, hnx⟩
    simp [Q.delete, hl, e1, last]
  | cons b as =>
    have hcs : cs' = as.reverse ++ [b] := by
      have := congrArg List.reverse hrev; simpa using this
    obtain ⟨c0, rfl⟩ : ∃ c0, r = .cell c0 := by
      have := e2.1
      rw [hcs] at this
      cases hl : as.reverse with
      | nil => rw [hl] at this; exact ⟨b, this.1⟩
      | cons y ys => rw [hl] at this; exact ⟨y, this.1⟩
    have hlast : lastCell h' fuel c0 = some b := by
      refine lastCell_spec h' as.reverse fuel c0 b (by rw [← hcs]; exact e2.1) ?_
      have := congrArg List.length hcs
      simp at this ⊢; omega
    refine ⟨⟨h', .cell c0, .cell b⟩, ?_, ⟨cs', e2, hel, ?_⟩, hnx⟩
    · simp [Q.delete, hl, e1, last, hlast]
    · rw [hcs]; simp

theorem QRep_len (q : Q) (l : List V) (h : QRep q l) (fuel : Nat) (hf : l.length ≤ fuel) :
    q.length fuel = some l.length := by
  obtain ⟨cs, h1, h2, h3⟩ := h
  have hlen : l.length = cs.length := by rw [← h2]; simp [elems]
  rw [hlen]
  exact len_spec q.h cs fuel q.car h1.1 (by omega)

/-- Every operation on a queue does what it means on the list of contents, and never fails. -/
theorem C46_queue_step (op : QOp) (fuel : Nat) (q : Q) (l : List V) (h : QRep q l) (hf : l.length < fuel) :
    ∃ q', op.run fuel q = some (q', (op.spec l).2) ∧ QRep q' (op.spec l).1 := by
  cases op with
  | enqueue x =>
    obtain ⟨q', h1, h2, _⟩ := enqueue_rep q l x h
    exact ⟨q', by simp [QOp.run, h1, QOp.spec], h2⟩
  | dequeue =>
    obtain ⟨q', h1, h2, _⟩ := dequeue_rep q l h
    exact ⟨q', h1, h2⟩
  | trim s =>
    obtain ⟨q', h1, h2, _⟩ := dequeueN_rep (l.length - s) q l h
    refine ⟨q', ?_, h2⟩
    simp [QOp.run, Q.trim, QRep_len q l h fuel (by omega), h1, QOp.spec]
  | delete p c =>
    obtain ⟨q', h1, h2, _⟩ := delete_rep q l p c fuel h hf
    exact ⟨q', by simp [QOp.run, h1, QOp.spec], h2⟩

/-- Any number of operations on a new queue: the values returned are those of the first-in first-out
list, and in every state `:length`, `:first`, `:last` and `:empty?` agree with it. -/
theorem C46_queue_fifo (ops : List QOp) (h0 : H) (fuel : Nat) (hf : ops.length < fuel) :
    ∃ (q : Q) (l : List V) (outs : List V),
      ops.foldl (fun st op => st.bind fun (s : Q × List V) =>
          (op.run fuel s.1).map fun r => (r.1, s.2 ++ [r.2])) (some (Q.init h0, [])) = some (q, outs) ∧
      (l, outs) = ops.foldl (fun (s : List V × List V) op => ((op.spec s.1).1, s.2 ++ [(op.spec s.1).2])) ([], []) ∧
      q.length fuel = some l.length ∧ q.first = some (l.head?.getD .nil) ∧ q.last = some (l.getLast?.getD .nil) ∧
      (q.car = .nil ↔ l = []) := by
  have key : ∀ (ops : List QOp) (q : Q) (l outs : List V), QRep q l → l.length + ops.length < fuel →
      ∃ (q' : Q) (l' outs' : List V),
        ops.foldl (fun st op => st.bind fun (s : Q × List V) =>
          (op.run fuel s.1).map fun r => (r.1, s.2 ++ [r.2])) (some (q, outs)) = some (q', outs') ∧
        (l', outs') = ops.foldl (fun (s : List V × List V) op => ((op.spec s.1).1, s.2 ++ [(op.spec s.1).2])) (l, outs) ∧
        QRep q' l' ∧ l'.length < fuel := by
    intro ops
    induction ops with
    | nil => intro q l outs h hl; exact ⟨q, l, outs, rfl, rfl, h, by simpa using hl⟩
    | cons op ops ih =>
      intro q l outs h hl
      simp only [List.length_cons] at hl
      obtain ⟨q1, h1, h2⟩ := C46_queue_step op fuel q l h (by omega)
      have hlen : (op.spec l).1.length ≤ l.length + 1 := by
        cases op with
        | enqueue x => simp [QOp.spec]
        | dequeue => simp [QOp.spec]; omega
        | trim s => simp [QOp.spec]; omega
        | delete p c => simp only [QOp.spec]; have := (dropFirst_sublist p l c).length_le; omega
      obtain ⟨q', l', outs', k1, k2, k3⟩ := ih q1 (op.spec l).1 (outs ++ [(op.spec l).2]) h2 (by omega)
      refine ⟨q', l', outs', ?_, ?_, k3⟩
      · rw [List.foldl_cons, Option.bind_some, h1, Option.map_some]; exact k1
      · rw [List.foldl_cons]; exact k2
  have hinit : QRep (Q.init h0) [] := ⟨[], ⟨rfl, by simp⟩, rfl, rfl⟩
  obtain ⟨q, l, outs, k1, k2, k3, k4⟩ := key ops (Q.init h0) [] [] hinit (by simpa using hf)
  refine ⟨q, l, outs, k1, k2, QRep_len q l k3 fuel (by omega), ?_, ?_, ?_⟩
  · obtain ⟨cs, h1, h2, h3⟩ := k3
    cases cs with
    | nil =>
      have hc : q.car = .nil := h1.1
      rw [← h2]; simp [Q.first, hc, H.CAR, elems]
    | cons a as =>
      have hc : q.car = .cell a := h1.1.1
      rw [← h2]; simp [Q.first, hc, H.CAR, elems]
  · obtain ⟨cs, h1, h2, h3⟩ := k3
    rw [← h2]
    simp only [elems, List.getLast?_map]
    cases hg : cs.getLast? with
    | none => rw [hg] at h3; simp [Q.last, h3, H.CAR]
    | some a => rw [hg] at h3; simp [Q.last, h3, H.CAR]
  · obtain ⟨cs, h1, h2, h3⟩ := k3
    cases cs with
    | nil => have hc : q.car = .nil := h1.1; rw [← h2]; simp [hc, elems]
    | cons a as => have hc : q.car = .cell a := h1.1.1; rw [← h2]; simp [hc, elems]

/-- non-trivial instance: enqueue 1 2 3, dequeue, delete 3, enqueue 4 leaves (2 4) -/
example : [QOp.enqueue (.atom 1), .enqueue (.atom 2), .enqueue (.atom 3), .dequeue,
      .delete (· == .atom 3) 1, .enqueue (.atom 4)].foldl
    (fun (s : List V × List V) op => ((op.spec s.1).1, s.2 ++ [(op.spec s.1).2])) ([], []) =
    ([.atom 2, .atom 4], [.atom 1, .atom 2, .atom 3, .atom 1, .nil, .atom 4]) := by decide

end Eus.Cons
