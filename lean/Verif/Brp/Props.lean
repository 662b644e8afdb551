import Verif.Brp.Rings
set_option autoImplicit false
set_option linter.unusedSectionVars false
namespace Eus.Brp

variable {V : Type} [DecidableEq V]

/-! ### C191: faces share their edges -/

theorem brep_of {fs : List (List V)} {st : St V} (h : FInv fs st) : Brep fs st where
  faces := h.len
  face := by
    intro k vs hk
    obtain ⟨es, h1, h2, h3⟩ := h.face k vs hk
    refine ⟨es, h1, h2, ?_⟩
    intro j i a b hj hab
    exact joins_isSide h.inv (h3 j i a b hj hab) hk (List.mem_of_getElem? hab)
  ends := h.inv.ends
  pface := by
    intro i e he
    obtain ⟨k, h1, h2⟩ := h.inv.pf i e he
    obtain ⟨-, vs, h3, h4⟩ := (mem_labelled _ _ _ _).1 h2
    exact ⟨k, vs, h1, by simpa using h3, h4⟩
  nface := by
    intro i e he k
    rw [h.inv.nf i e he k, mem_labelled]
    simp
  single := h.inv.single

/-- C191.  Making faces from lists of corners that fit together always succeeds, in whatever order the faces
are made: each face gets its corners and, in order, an edge for each side; two faces along the same line
share its one edge, which knows each of them by the direction it goes in. -/
theorem C191_faces (fs : List (List V)) (hf : Fit fs) :
    ∃ st, makeFaces (St.empty V) fs = some st ∧ Brep fs st := by
  obtain ⟨st, e, h⟩ := makeFaces_inv fs finv_empty (by simpa using hf)
  exact ⟨st, e, brep_of (by simpa using h)⟩

theorem labelled_length (fs : List (List V)) (n : Nat) : (labelled n fs).length = (fs.map List.length).sum := by
  induction fs generalizing n with
  | nil => rfl
  | cons vs fs ih => simp [labelled, ih, sides_length]

/-- C191.  If there are no open borders, every edge has two different faces, and there are half as many edges
as corners in all faces together. -/
theorem C191_closed (fs : List (List V)) (hf : Fit fs) (hc : Closed fs) :
    ∃ st, makeFaces (St.empty V) fs = some st ∧ Solid fs st ∧ 2 * st.edges.length = (fs.map List.length).sum := by
  obtain ⟨st, e, h⟩ := makeFaces_inv fs finv_empty (by simpa using hf)
  rw [List.nil_append] at h
  have htwo : ∀ (i : Nat) (e : Edge V), st.edges[i]? = some e → ∃ k k', e.pf = some k ∧ e.nf = some k' ∧ k ≠ k' := by
    intro i x hx
    obtain ⟨k, h1, h2⟩ := h.inv.pf i x hx
    obtain ⟨k', h3⟩ := (mem_flat _ _).1 (hc _ _ ((mem_flat _ _).2 ⟨k, h2⟩))
    refine ⟨k, k', h1, (h.inv.nf i x hx k').2 h3, ?_⟩
    rintro rfl
    obtain ⟨-, vs, h5, h6⟩ := (mem_labelled _ _ _ _).1 h2
    obtain ⟨-, vs', h5', h6'⟩ := (mem_labelled _ _ _ _).1 h3
    rw [h5] at h5'
    obtain rfl := Option.some.inj h5'
    exact hf.oneway vs (List.mem_of_getElem? h5) _ _ h6 h6'
  refine ⟨st, e, ⟨brep_of h, htwo⟩, ?_⟩
  have hcount := h.inv.count
  rw [labelled_length] at hcount
  have : st.edges.countP (fun e => e.nf.isSome) = st.edges.length := by
    rw [List.countP_eq_length]
    intro x hx
    obtain ⟨i, hi⟩ := List.getElem?_of_mem hx
    obtain ⟨_, k', _, h2, _⟩ := htwo i x hi
    rw [h2]; rfl
  omega

theorem mem_removeDuplicates {α : Type} [DecidableEq α] (l : List α) (x : α) : x ∈ removeDuplicates l ↔ x ∈ l := by
  induction l with
  | nil => simp [removeDuplicates]
  | cons a l ih =>
    unfold removeDuplicates
    split
    · rename_i h
      rw [ih, List.mem_cons]
      constructor
      · exact Or.inr
      · rintro (rfl | h1)
        · exact h
        · exact h1
    · simp [ih]

theorem nodup_removeDuplicates {α : Type} [DecidableEq α] (l : List α) : (removeDuplicates l).Nodup := by
  induction l with
  | nil => simp [removeDuplicates]
  | cons a l ih =>
    unfold removeDuplicates
    split
    · exact ih
    · rename_i h
      exact List.nodup_cons.2 ⟨fun hm => h ((mem_removeDuplicates l a).1 hm), ih⟩

/-- C191.  The body of the faces, taken in any order, has every edge once and every corner once. -/
theorem C191_body (fs : List (List V)) (hf : Fit fs) (st : St V) (h : Brep fs st) (faces : List (List Nat × List (Option V)))
    (hp : faces.Perm st.faces) :
    (bodyEdges faces).Nodup ∧ (∀ i, i ∈ bodyEdges faces ↔ i < st.edges.length) ∧
    (bodyVertices faces).Nodup ∧ (∀ v, v ∈ bodyVertices faces ↔ ∃ vs ∈ fs, ∃ x ∈ vs, v = some x) := by
  refine ⟨nodup_removeDuplicates _, ?_, nodup_removeDuplicates _, ?_⟩
  · intro i
    unfold bodyEdges
    rw [mem_removeDuplicates, List.mem_flatten]
    constructor
    · rintro ⟨es, hes, hi⟩
      obtain ⟨⟨es', vv⟩, hf, rfl⟩ := List.mem_map.1 hes
      obtain ⟨k, hk⟩ := List.getElem?_of_mem (hp.mem_iff.1 hf)
      have hkl : k < fs.length := by rw [← h.faces]; exact (List.getElem?_eq_some_iff.1 hk).1
      obtain ⟨es2, q1, q2, q3⟩ := h.face k _ (List.getElem?_eq_getElem hkl)
      rw [hk] at q1
      simp only [Option.some.injEq, Prod.mk.injEq] at q1
      obtain ⟨rfl, -⟩ := q1
      obtain ⟨j, hj⟩ := List.getElem?_of_mem hi
      have hjl : j < (sides fs[k]).length := by
        rw [sides_length, ← q2]; exact (List.getElem?_eq_some_iff.1 hj).1
      obtain ⟨e, he, -⟩ := q3 j i _ _ hj (List.getElem?_eq_getElem hjl)
      exact (List.getElem?_eq_some_iff.1 he).1
    · intro hi
      obtain ⟨k, vs, h1, h2, h3⟩ := h.pface i _ (List.getElem?_eq_getElem hi)
      obtain ⟨es, q1, q2, q3⟩ := h.face k vs h2
      obtain ⟨j, hj⟩ := List.getElem?_of_mem h3
      have hjl : j < es.length := by
        rw [q2, ← sides_length]; exact (List.getElem?_eq_some_iff.1 hj).1
      obtain ⟨e, he, hs⟩ := q3 j _ _ _ (List.getElem?_eq_getElem hjl) hj
      have : i = es[j] := by
        apply h.single i es[j] _ e (List.getElem?_eq_getElem hi) he
        rcases hs with hs | hs
        · exact Or.inl ⟨hs.1.symm, hs.2.1.symm⟩
        · exact Or.inr ⟨hs.2.1.symm, hs.1.symm⟩
      refine ⟨es, List.mem_map.2 ⟨_, hp.mem_iff.2 (List.mem_of_getElem? q1), rfl⟩, ?_⟩
      rw [this]; exact List.getElem_mem hjl
  · intro v
    unfold bodyVertices
    rw [mem_removeDuplicates, List.mem_flatten]
    have hlast : ∀ vs : List V, vs ≠ [] → ∀ v, v ∈ vs.getLast? :: vs.map some ↔ ∃ x ∈ vs, v = some x := by
      intro vs hne v
      obtain ⟨l, hl⟩ : ∃ l, vs.getLast? = some l := ⟨_, List.getLast?_eq_some_getLast hne⟩
      rw [List.mem_cons, List.mem_map, hl]
      constructor
      · rintro (rfl | ⟨x, hx, rfl⟩)
        · exact ⟨l, List.mem_of_getLast? hl, rfl⟩
        · exact ⟨x, hx, rfl⟩
      · rintro ⟨x, hx, rfl⟩
        exact Or.inr ⟨x, hx, rfl⟩
    constructor
    · rintro ⟨vv, hvv, hv⟩
      obtain ⟨⟨es', vv'⟩, hff, rfl⟩ := List.mem_map.1 hvv
      obtain ⟨k, hk⟩ := List.getElem?_of_mem (hp.mem_iff.1 hff)
      have hkl : k < fs.length := by rw [← h.faces]; exact (List.getElem?_eq_some_iff.1 hk).1
      obtain ⟨es2, q1, q2, q3⟩ := h.face k _ (List.getElem?_eq_getElem hkl)
      rw [hk] at q1
      simp only [Option.some.injEq, Prod.mk.injEq] at q1
      obtain ⟨-, rfl⟩ := q1
      exact ⟨_, List.getElem_mem hkl, (hlast _ (hf.corners _ (List.getElem_mem hkl)) v).1 hv⟩
    · rintro ⟨vs, hvs, x, hx, rfl⟩
      obtain ⟨k, hk⟩ := List.getElem?_of_mem hvs
      obtain ⟨es, q1, -, -⟩ := h.face k vs hk
      exact ⟨_, List.mem_map.2 ⟨_, hp.mem_iff.2 (List.mem_of_getElem? q1), rfl⟩, (hlast vs (by rintro rfl; simp at hx) _).2 ⟨x, hx, rfl⟩⟩

/-! ### C192: the primitive bodies -/

theorem closed_of_perm {fs : List (List V)} {L : List (V × V)} (h : (fs.flatMap sides).Perm L)
    (hs : ∀ a b, (a, b) ∈ L → (b, a) ∈ L) : Closed fs := by
  intro a b hab
  exact h.mem_iff.2 (hs a b (h.mem_iff.1 hab))

theorem swap_swap (l : List (V × V)) : (l.map Prod.swap).map Prod.swap = l := by
  rw [List.map_map]
  have : (Prod.swap ∘ Prod.swap : V × V → V × V) = id := by funext ⟨a, b⟩; rfl
  rw [this, List.map_id]

theorem prism_perm (B T : List V) (hl : B.length = T.length) :
    ((prism B T).flatMap sides).Perm (R T.reverse ++ (R B.reverse ++ Z T.reverse B.reverse)) := by
  unfold prism
  simp only [List.cons_append, List.flatMap_cons, List.flatMap_append, List.flatMap_nil, List.append_nil]
  have h1 := sideFaces_perm T.reverse B.reverse (by simp [hl])
  have h2 : (sides B).Perm ((sides B.reverse).map Prod.swap) := by
    have := sides_reverse B.reverse
    rwa [List.reverse_reverse] at this
  refine ((List.Perm.refl _).append (h1.append h2)).trans ?_
  rw [List.perm_iff_count]
  intro x
  simp only [R, List.count_append]
  omega

/-- C192.  A prism over three or more points is closed: every edge has two faces.  It has twice as many
vertices, three times as many edges, and two more faces than the points it is made of. -/
theorem C192_prism (B T : List V) (hl : B.length = T.length) (h3 : 3 ≤ B.length) (hn : (B ++ T).Nodup) :
    ∃ st, makeFaces (St.empty V) (prism B T) = some st ∧ Solid (prism B T) st ∧
      st.edges.length = 3 * B.length ∧ st.faces.length = B.length + 2 := by
  obtain ⟨hB, hT, hd⟩ := List.nodup_append.1 hn
  have hBr : B.reverse.Nodup := List.pairwise_reverse.2 (hB.imp Ne.symm)
  have hTr : T.reverse.Nodup := List.pairwise_reverse.2 (hT.imp Ne.symm)
  have hd' : ∀ x ∈ T.reverse, x ∉ B.reverse := by
    intro x hx hx'
    exact hd x (by simpa using hx') x (by simpa using hx) rfl
  have hperm := prism_perm B T hl
  have hnd : ((prism B T).flatMap sides).Nodup := by
    refine hperm.nodup_iff.2 ?_
    refine List.nodup_append.2 ⟨R_nodup hTr (by simp; omega), List.nodup_append.2 ⟨R_nodup hBr (by simpa using h3), Z_nodup hTr hBr hd', ?_⟩, ?_⟩
    · rintro ⟨a, b⟩ h1 q h2 rfl
      have h1 := mem_R h1
      rcases mem_Z h2 with h2 | h2
      · exact hd' a h2.1 h1.1
      · exact hd' b h2.2 h1.2
    · rintro ⟨a, b⟩ h1 q h2 rfl
      have h1 := mem_R h1
      rcases List.mem_append.1 h2 with h2 | h2
      · exact hd' a h1.1 (mem_R h2).1
      · rcases mem_Z h2 with h2 | h2
        · exact hd' b h1.2 h2.2
        · exact hd' a h1.1 h2.1
  have hfit : Fit (prism B T) := by
    refine fit_of ?_ hnd
    intro vs hvs
    simp only [prism, List.cons_append, List.mem_cons, List.mem_append, List.mem_nil_iff, or_false] at hvs
    rcases hvs with rfl | hvs | rfl
    · exact ⟨hTr, by simp; omega⟩
    · exact sideFaces_nodup hTr hBr (by simp; omega) (by simp [hl]) hd' vs hvs
    · exact ⟨hB, h3⟩
  have hclosed : Closed (prism B T) := by
    refine closed_of_perm hperm ?_
    intro a b hab
    rcases List.mem_append.1 hab with h | h
    · exact List.mem_append_left _ (R_swap h)
    · rcases List.mem_append.1 h with h | h
      · exact List.mem_append_right _ (List.mem_append_left _ (R_swap h))
      · exact List.mem_append_right _ (List.mem_append_right _ (Z_swap h))
  obtain ⟨st, e, hs, hc⟩ := C191_closed _ hfit hclosed
  refine ⟨st, e, hs, ?_, ?_⟩
  · have h4 : ((sideFaces T.reverse B.reverse).map List.length).sum = 4 * T.length := by
      have : ((sideFaces T.reverse B.reverse).map List.length) = List.replicate T.length 4 := by
        rw [List.eq_replicate_iff]
        refine ⟨by simp [sideFaces_length, hl], ?_⟩
        intro x hx
        obtain ⟨vs, hvs, rfl⟩ := List.mem_map.1 hx
        unfold sideFaces at hvs
        split at hvs
        · obtain ⟨b, b', t, t', rfl, -, -⟩ := sideLoop_mem _ _ _ _ vs hvs
          rfl
        · simp at hvs
      rw [this]; simp [Nat.mul_comm]
    simp only [prism, List.cons_append, List.map_cons, List.map_append, List.sum_cons, List.sum_append, h4] at hc
    simp at hc
    omega
  · rw [hs.faces]
    simp [prism, sideFaces_length, hl]

/-- A cube. -/
example : ∃ st, makeFaces (St.empty Nat) (prism [0, 1, 2, 3] [4, 5, 6, 7]) = some st ∧
    Solid (prism [0, 1, 2, 3] [4, 5, 6, 7]) st ∧ st.edges.length = 12 ∧ st.faces.length = 6 :=
  C192_prism [0, 1, 2, 3] [4, 5, 6, 7] rfl (by decide) (by decide)

example : ((makeFaces (St.empty Nat) (prism [0, 1, 2] [4, 5, 6])).map
    fun st => st.edges.map fun e => ((e.pv, e.nv), (e.pf, e.nf))) =
    some [((4, 6), (some 0, some 3)), ((6, 5), (some 0, some 1)), ((5, 4), (some 0, some 2)),
      ((6, 2), (some 1, some 3)), ((2, 1), (some 1, some 4)), ((1, 5), (some 1, some 2)), ((1, 0), (some 2, some 4)),
      ((0, 4), (some 2, some 3)), ((0, 2), (some 3, some 4))] := by rfl

/-- With two points only, a face overwrites another in the edge they share. -/
theorem C192_needs_three : ∃ st, makeFaces (St.empty Nat) (prism [0, 1] [2, 3]) = some st ∧
    ∃ e, st.edges[0]? = some e ∧ e.pf = some 1 ∧ e.nf = some 2 := by
  refine ⟨_, rfl, ?_⟩
  exact ⟨_, rfl, rfl, rfl⟩

/-- C192.  So is a cone over three or more points. -/
theorem C192_cone (p : V) (B : List V) (h3 : 3 ≤ B.length) (hn : (p :: B).Nodup) :
    ∃ st, makeFaces (St.empty V) (cone p B) = some st ∧ Solid (cone p B) st ∧
      st.edges.length = 2 * B.length ∧ st.faces.length = B.length + 1 := by
  obtain ⟨hp, hB⟩ := List.nodup_cons.1 hn
  have hperm : ((cone p B).flatMap sides).Perm (R B ++ Cn p B) := by
    unfold cone R
    rw [List.flatMap_cons, List.append_assoc]
    exact (List.Perm.refl _).append (conicFaces_perm p B)
  have hnd : ((cone p B).flatMap sides).Nodup := by
    refine hperm.nodup_iff.2 (List.nodup_append.2 ⟨R_nodup hB h3, Cn_nodup hB hp, ?_⟩)
    rintro ⟨a, b⟩ h1 q h2 rfl
    have h1 := mem_R h1
    rcases mem_Cn h2 with ⟨_, rfl⟩ | ⟨rfl, _⟩
    · exact hp h1.2
    · exact hp h1.1
  have hfit : Fit (cone p B) := by
    refine fit_of ?_ hnd
    intro vs hvs
    rcases List.mem_cons.1 hvs with rfl | hvs
    · exact ⟨hB, h3⟩
    · exact conicFaces_nodup hB h3 hp vs hvs
  have hclosed : Closed (cone p B) := by
    refine closed_of_perm hperm ?_
    intro a b hab
    rcases List.mem_append.1 hab with h | h
    · exact List.mem_append_left _ (R_swap h)
    · exact List.mem_append_right _ (Cn_swap h)
  obtain ⟨st, e, hs, hc⟩ := C191_closed _ hfit hclosed
  refine ⟨st, e, hs, ?_, ?_⟩
  · have h4 : ((conicFaces p B).map List.length).sum = 3 * B.length := by
      have : ((conicFaces p B).map List.length) = List.replicate B.length 3 := by
        rw [List.eq_replicate_iff]
        refine ⟨by simp [conicFaces_length], ?_⟩
        intro x hx
        obtain ⟨vs, hvs, rfl⟩ := List.mem_map.1 hx
        unfold conicFaces at hvs
        split at hvs
        · simp at hvs
        · obtain ⟨b, b', rfl, -⟩ := conicLoop_mem _ _ _ vs hvs
          rfl
      rw [this]; simp [Nat.mul_comm]
    simp only [cone, List.map_cons, List.sum_cons, h4] at hc
    omega
  · rw [hs.faces]
    simp [cone, conicFaces_length]

example : ∃ st, makeFaces (St.empty Nat) (cone 9 [0, 1, 2, 3]) = some st ∧
    Solid (cone 9 [0, 1, 2, 3]) st ∧ st.edges.length = 8 ∧ st.faces.length = 5 :=
  C192_cone 9 [0, 1, 2, 3] (by decide) (by decide)

/-! rings one after the other -/

theorem nodup_of_flatten {L : List (List V)} (h : L.flatten.Nodup) (l : List V) (hl : l ∈ L) : l.Nodup := by
  induction L with
  | nil => simp at hl
  | cons a L ih =>
    rw [List.flatten_cons] at h
    rcases List.mem_cons.1 hl with rfl | hl
    · exact (List.nodup_append.1 h).1
    · exact ih (List.nodup_append.1 h).2.1 hl


/-- The lines between rings and along all of them but the first. -/
def chain : List V → List (List V) → List (V × V)
  | _, [] => []
  | v, w :: r => Z v w ++ (R w ++ chain w r)

theorem mem_chain : ∀ (r : List (List V)) (v : List V) (a b : V), (a, b) ∈ chain v r →
    (a ∈ v ∨ a ∈ r.flatten) ∧ (b ∈ v ∨ b ∈ r.flatten) ∧ (a ∈ r.flatten ∨ b ∈ r.flatten) := by
  intro r
  induction r with
  | nil => intro v a b h; simp [chain] at h
  | cons w r ih =>
    intro v a b h
    simp only [List.flatten_cons, List.mem_append]
    rcases List.mem_append.1 h with h | h
    · rcases mem_Z h with ⟨h1, h2⟩ | ⟨h1, h2⟩
      · exact ⟨Or.inl h1, Or.inr (Or.inl h2), Or.inr (Or.inl h2)⟩
      · exact ⟨Or.inr (Or.inl h1), Or.inl h2, Or.inl (Or.inl h1)⟩
    · rcases List.mem_append.1 h with h | h
      · have := mem_R h
        exact ⟨Or.inr (Or.inl this.1), Or.inr (Or.inl this.2), Or.inl (Or.inl this.1)⟩
      · have := ih w a b h
        exact ⟨Or.inr this.1, Or.inr this.2.1, Or.inl this.1⟩

theorem chain_swap : ∀ (r : List (List V)) (v : List V) (a b : V), (a, b) ∈ chain v r → (b, a) ∈ chain v r := by
  intro r
  induction r with
  | nil => intro v a b h; simp [chain] at h
  | cons w r ih =>
    intro v a b h
    rw [chain] at h ⊢
    rcases List.mem_append.1 h with h | h
    · exact List.mem_append_left _ (Z_swap h)
    · rcases List.mem_append.1 h with h | h
      · exact List.mem_append_right _ (List.mem_append_left _ (R_swap h))
      · exact List.mem_append_right _ (List.mem_append_right _ (ih w a b h))

theorem chain_nodup (n : Nat) (h3 : 3 ≤ n) : ∀ (r : List (List V)) (v : List V), (∀ l ∈ v :: r, l.length = n) →
    (v ++ r.flatten).Nodup → (chain v r).Nodup := by
  intro r
  induction r with
  | nil => intro v _ _; simp [chain]
  | cons w r ih =>
    intro v hl hn
    obtain ⟨hv, hr, hd⟩ := List.nodup_append.1 hn
    obtain ⟨hw, hrr, hd2⟩ := List.nodup_append.1 hr
    have hvw : ∀ x ∈ v, x ∉ w := fun x hx hx' => hd x hx x (by simp [hx']) rfl
    refine List.nodup_append.2 ⟨Z_nodup hv hw hvw, List.nodup_append.2 ⟨R_nodup hw (by rw [hl w (by simp)]; exact h3),
      ih w (fun l hm => hl l (by simp [List.mem_cons.1 hm])) hr, ?_⟩, ?_⟩
    · rintro ⟨a, b⟩ h1 q h2 rfl
      have h1 := mem_R h1
      have h2 := mem_chain _ _ _ _ h2
      rcases h2.2.2 with h2 | h2
      · exact hd2 a h1.1 a h2 rfl
      · exact hd2 b h1.2 b h2 rfl
    · rintro ⟨a, b⟩ h1 q h2 rfl
      have h2 : (a ∈ w ∨ a ∈ r.flatten) ∧ (b ∈ w ∨ b ∈ r.flatten) := by
        rcases List.mem_append.1 h2 with h2 | h2
        · exact ⟨Or.inl (mem_R h2).1, Or.inl (mem_R h2).2⟩
        · have := mem_chain _ _ _ _ h2; exact ⟨this.1, this.2.1⟩
      rcases mem_Z h1 with ⟨h1, -⟩ | ⟨-, h1⟩
      · exact hd a h1 a (by simpa using h2.1) rfl
      · exact hd b h1 b (by simpa using h2.2) rfl

theorem torusLoop_perm (first : List V) (n : Nat) (hf : first.length = n) : ∀ (r : List (List V)) (v z : List V),
    (∀ l ∈ v :: r, l.length = n) → (v :: r).getLast? = some z →
    ((torusLoop first v r).flatMap sides).Perm ((sides v).map Prod.swap ++ (chain v r ++ (Z z first ++ sides first))) := by
  intro r
  induction r with
  | nil =>
    intro v z hl hz
    simp at hz; subst hz
    exact sideFaces_perm v first ((hl v (by simp)).trans hf.symm)
  | cons w r ih =>
    intro v z hl hz
    simp only [torusLoop, List.flatMap_append]
    have h1 := sideFaces_perm v w ((hl v (by simp)).trans (hl w (by simp)).symm)
    have h2 := ih w z (fun l hm => hl l (by simp [List.mem_cons.1 hm])) (by rw [List.getLast?_cons_cons] at hz; exact hz)
    refine (h1.append h2).trans ?_
    rw [List.perm_iff_count]
    intro x
    simp only [chain, R, List.count_append]
    omega

theorem torusLoop_nodup (first : List V) (n : Nat) (h3 : 3 ≤ n) (hf : first.length = n) (hfn : first.Nodup) :
    ∀ (r : List (List V)) (v : List V), (∀ l ∈ v :: r, l.length = n) → (v ++ r.flatten).Nodup →
    (∀ x ∈ (v :: r).getLast?.getD [], x ∉ first) →
    ∀ vs ∈ torusLoop first v r, vs.Nodup ∧ 3 ≤ vs.length := by
  intro r
  induction r with
  | nil =>
    intro v hl hn hd vs hvs
    have hv : v.length = n := hl v (by simp)
    exact sideFaces_nodup (by simpa using hn) hfn (by omega) (by omega) (by simpa using hd) vs hvs
  | cons w r ih =>
    intro v hl hn hd vs hvs
    obtain ⟨hv, hr, hdd⟩ := List.nodup_append.1 hn
    have e1 : v.length = n := hl v (by simp)
    have e2 : w.length = n := hl w (by simp)
    rcases List.mem_append.1 hvs with hvs | hvs
    · refine sideFaces_nodup hv (List.nodup_append.1 hr).1 (by omega) (by omega) ?_ vs hvs
      intro x hx hx'
      exact hdd x hx x (by simp [hx']) rfl
    · refine ih w (fun l hm => hl l (by simp [List.mem_cons.1 hm])) hr ?_ vs hvs
      rw [List.getLast?_cons_cons] at hd; exact hd

/-- C192.  So is a torus of three or more rings of three or more vertices. -/
theorem C192_torus (n : Nat) (rings : List (List V)) (h3 : 3 ≤ rings.length) (hn3 : 3 ≤ n)
    (hl : ∀ l ∈ rings, l.length = n) (hn : rings.flatten.Nodup) :
    ∃ st, makeFaces (St.empty V) (torus rings) = some st ∧ Solid (torus rings) st := by
  obtain ⟨u, v, r, rfl⟩ : ∃ u v r, rings = u :: v :: r := by
    match rings, h3 with
    | u :: v :: r, _ => exact ⟨u, v, r, rfl⟩
  obtain ⟨z, hz⟩ : ∃ z, (v :: r).getLast? = some z := ⟨_, List.getLast?_eq_some_getLast (by simp)⟩
  have hr : r ≠ [] := by rintro rfl; simp at h3
  have hzr : z ∈ r := by
    obtain ⟨w, s, rfl⟩ : ∃ w s, r = w :: s := by
      cases r with
      | nil => exact absurd rfl hr
      | cons w s => exact ⟨w, s, rfl⟩
    rw [List.getLast?_cons_cons] at hz
    exact List.mem_of_getLast? hz
  have hn' : (u ++ (v :: r).flatten).Nodup := by simpa using hn
  obtain ⟨hu, hvr, hd⟩ := List.nodup_append.1 hn'
  have hvr' : (v ++ r.flatten).Nodup := by simpa using hvr
  obtain ⟨hv, hrr, hd2⟩ := List.nodup_append.1 hvr'
  have hz' : z ∈ v :: r := by simp [hzr]
  have hzu : ∀ x ∈ z, x ∉ u := fun x hx hx' => hd x hx' x (List.mem_flatten.2 ⟨z, hz', hx⟩) rfl
  have hzv : ∀ x ∈ z, x ∉ v := fun x hx hx' => hd2 x hx' x (List.mem_flatten.2 ⟨z, hzr, hx⟩) rfl
  have hzn : z.Nodup := nodup_of_flatten hvr z hz'
  have eu : u.length = n := hl u (by simp)
  have hperm : ((torus (u :: v :: r)).flatMap sides).Perm (R u ++ (chain u (v :: r) ++ Z z u)) := by
    have := torusLoop_perm u n eu (v :: r) u z hl (by rw [List.getLast?_cons_cons]; exact hz)
    refine this.trans ?_
    rw [List.perm_iff_count]
    intro x
    simp only [R, List.count_append]
    omega
  have hnd : ((torus (u :: v :: r)).flatMap sides).Nodup := by
    refine hperm.nodup_iff.2 (List.nodup_append.2 ⟨R_nodup hu (by omega), List.nodup_append.2
      ⟨chain_nodup n hn3 (v :: r) u hl hn', Z_nodup hzn hu hzu, ?_⟩, ?_⟩)
    · rintro ⟨a, b⟩ h1 q h2 rfl
      -- one end is in the first ring, the other in the last; the lines of the chain from the first ring go to the second
      have key : ∀ x y, (x, y) ∈ chain u (v :: r) → x ∈ u → y ∈ v := by
        intro x y hxy hxu
        have hxn : x ∉ (v :: r).flatten := fun h => hd x hxu x h rfl
        rcases List.mem_append.1 hxy with h | h
        · rcases mem_Z h with h | h
          · exact h.2
          · exact absurd (List.mem_flatten.2 ⟨v, by simp, h.1⟩) hxn
        · exfalso
          apply hxn
          rcases List.mem_append.1 h with h | h
          · exact List.mem_flatten.2 ⟨v, by simp, (mem_R h).1⟩
          · have := (mem_chain _ _ _ _ h).1; simpa using this
      rcases mem_Z h2 with h2 | h2
      · exact hzv a h2.1 (key b a (chain_swap _ _ _ _ h1) h2.2)
      · exact hzv b h2.2 (key a b h1 h2.1)
    · rintro ⟨a, b⟩ h1 q h2 rfl
      have h1 := mem_R h1
      rcases List.mem_append.1 h2 with h2 | h2
      · rcases (mem_chain _ _ _ _ h2).2.2 with h2 | h2
        · exact hd a h1.1 a h2 rfl
        · exact hd b h1.2 b h2 rfl
      · rcases mem_Z h2 with h2 | h2
        · exact hzu a h2.1 h1.1
        · exact hzu b h2.2 h1.2
  have hfit : Fit (torus (u :: v :: r)) := by
    refine fit_of (torusLoop_nodup u n hn3 eu hu (v :: r) u hl hn' ?_) hnd
    rw [List.getLast?_cons_cons, hz]
    exact hzu
  have hclosed : Closed (torus (u :: v :: r)) := by
    refine closed_of_perm hperm ?_
    intro a b hab
    rcases List.mem_append.1 hab with h | h
    · exact List.mem_append_left _ (R_swap h)
    · rcases List.mem_append.1 h with h | h
      · exact List.mem_append_right _ (List.mem_append_left _ (chain_swap _ _ _ _ h))
      · exact List.mem_append_right _ (List.mem_append_right _ (Z_swap h))
  obtain ⟨st, e, hs, -⟩ := C191_closed _ hfit hclosed
  exact ⟨st, e, hs⟩

example : ∃ st, makeFaces (St.empty Nat) (torus [[0, 1, 2], [3, 4, 5], [6, 7, 8]]) = some st ∧
    Solid (torus [[0, 1, 2], [3, 4, 5], [6, 7, 8]]) st :=
  C192_torus 3 _ (by decide) (by decide) (by decide) (by decide)

/-! a contour turned round the axis -/

/-- The lines from the last ring to the last pole. -/
def stopLines : Option V → List V → List (V × V)
  | none, _ => []
  | some p, z => Cn p z

theorem revLoop_ring (n : Nat) (stop : Option V) : ∀ (r : List (List V)) (v z : List V) (first : Bool),
    (∀ l ∈ v :: r, l.length = n) → (v :: r).getLast? = some z → (first = true → r ≠ [] ∨ stop ≠ none) →
    ∃ fs, revLoop first (.ring v) (r.map .ring ++ stop.toList.map .pole) = some fs ∧
      (fs.flatMap sides).Perm ((sides v).map Prod.swap ++ (chain v r ++ stopLines stop z)) := by
  intro r
  induction r with
  | nil =>
    intro v z first hl hz hfst
    simp at hz; subst hz
    cases stop with
    | none =>
      have : first = false := by
        cases first with
        | false => rfl
        | true => simp at hfst
      subst this
      refine ⟨[v.reverse], by simp [revLoop], ?_⟩
      simpa [chain, stopLines] using sides_reverse v
    | some p =>
      refine ⟨conicFaces p v, by simp [revLoop], ?_⟩
      simpa [chain, stopLines] using conicFaces_perm p v
  | cons w r ih =>
    intro v z first hl hz _
    rw [List.getLast?_cons_cons] at hz
    obtain ⟨fs, e, hp⟩ := ih w z false (fun l hm => hl l (by simp [List.mem_cons.1 hm])) hz (by simp)
    refine ⟨sideFaces v w ++ fs, by simp [revLoop, e], ?_⟩
    rw [List.flatMap_append]
    have h1 := sideFaces_perm v w ((hl v (by simp)).trans (hl w (by simp)).symm)
    refine (h1.append hp).trans ?_
    rw [List.perm_iff_count]
    intro x
    simp only [chain, R, List.count_append]
    omega

theorem revLoop_faces (n : Nat) (h3 : 3 ≤ n) (stop : Option V) : ∀ (r : List (List V)) (v : List V) (first : Bool)
    (fs : List (List V)), (∀ l ∈ v :: r, l.length = n) → (v ++ r.flatten ++ stop.toList).Nodup →
    revLoop first (.ring v) (r.map .ring ++ stop.toList.map .pole) = some fs → ∀ vs ∈ fs, vs.Nodup ∧ 3 ≤ vs.length := by
  intro r
  induction r with
  | nil =>
    intro v first fs hl hn he vs hvs
    have e1 : v.length = n := hl v (by simp)
    simp only [List.flatten_nil, List.append_nil] at hn
    obtain ⟨hv, -, hd⟩ := List.nodup_append.1 hn
    cases stop with
    | none =>
      cases first
      · simp [revLoop] at he
        subst he
        simp at hvs; subst hvs
        exact ⟨List.pairwise_reverse.2 (hv.imp Ne.symm), by simp; omega⟩
      · simp [revLoop] at he
        subst he; simp at hvs
    | some p =>
      simp [revLoop] at he
      subst he
      refine conicFaces_nodup hv (by omega) ?_ vs hvs
      intro hp
      exact hd p hp p (by simp) rfl
  | cons w r ih =>
    intro v first fs hl hn he vs hvs
    have e1 : v.length = n := hl v (by simp)
    have e2 : w.length = n := hl w (by simp)
    simp only [List.map_cons, List.cons_append, revLoop, Option.map_eq_some_iff] at he
    obtain ⟨gs, hg, rfl⟩ := he
    simp only [List.flatten_cons, List.append_assoc] at hn
    obtain ⟨hv, hr, hd⟩ := List.nodup_append.1 hn
    rcases List.mem_append.1 hvs with hvs | hvs
    · refine sideFaces_nodup hv (List.nodup_append.1 hr).1 (by omega) (by omega) ?_ vs hvs
      intro x hx hx'
      exact hd x hx x (by simp [hx']) rfl
    · exact ih w false gs (fun l hm => hl l (by simp [List.mem_cons.1 hm])) (by simpa using hr) hg vs hvs

/-- C192.  So is a contour of points turned round the axis by steps of which there are three or more, whether
or not it begins or ends on the axis. -/
theorem C192_revolution (n : Nat) (h3 : 3 ≤ n) (start : Option V) (rings : List (List V)) (stop : Option V)
    (h : Contour n start rings stop) :
    ∃ fs, revolution (items start rings stop) = some fs ∧
      ∃ st, makeFaces (St.empty V) fs = some st ∧ Solid fs st := by
  obtain ⟨hne, hl, hn, h2⟩ := h
  obtain ⟨v, r, rfl⟩ : ∃ v r, rings = v :: r := by
    cases rings with
    | nil => exact absurd rfl hne
    | cons v r => exact ⟨v, r, rfl⟩
  obtain ⟨z, hz⟩ : ∃ z, (v :: r).getLast? = some z := ⟨_, List.getLast?_eq_some_getLast (by simp)⟩
  have hzm : z ∈ v :: r := List.mem_of_getLast? hz
  have ev : v.length = n := hl v (by simp)
  rw [List.append_assoc] at hn
  obtain ⟨-, hn1, hd0⟩ := List.nodup_append.1 hn
  obtain ⟨hn2, -, hd1⟩ := List.nodup_append.1 hn1
  have hv : v.Nodup := nodup_of_flatten hn2 v (by simp)
  have hzn : z.Nodup := nodup_of_flatten hn2 z hzm
  have hn2' : (v ++ r.flatten).Nodup := by simpa using hn2
  have hn1' : (v ++ r.flatten ++ stop.toList).Nodup := by simpa using hn1
  -- the lines to the last pole
  have hE : ∃ E : List (V × V), (E = stopLines stop z) ∧ E.Nodup ∧
      (∀ a b, (a, b) ∈ E → (b, a) ∈ E) ∧ (∀ a b, (a, b) ∈ E → (a ∈ z ∧ b ∈ stop.toList) ∨ (a ∈ stop.toList ∧ b ∈ z)) := by
    cases stop with
    | none => exact ⟨[], rfl, by simp, by simp, by simp⟩
    | some p =>
      refine ⟨Cn p z, rfl, Cn_nodup hzn ?_, fun a b => Cn_swap, ?_⟩
      · intro hp
        exact hd1 p (List.mem_flatten.2 ⟨z, hzm, hp⟩) p (by simp) rfl
      · intro a b hab
        rcases mem_Cn hab with ⟨h1, rfl⟩ | ⟨rfl, h1⟩
        · exact Or.inl ⟨h1, by simp⟩
        · exact Or.inr ⟨by simp, h1⟩
  obtain ⟨E, hEeq, hEn, hEs, hEm⟩ := hE
  have hchn := chain_nodup n h3 r v hl hn2'
  have hflat : ∀ x, (x ∈ v ∨ x ∈ r.flatten) → x ∈ (v :: r).flatten := fun x hx => by simpa using hx
  have hcore : (R v ++ (chain v r ++ E)).Nodup := by
    refine List.nodup_append.2 ⟨R_nodup hv (by omega), List.nodup_append.2 ⟨hchn, hEn, ?_⟩, ?_⟩
    · rintro ⟨a, b⟩ h1 q h2 rfl
      have h1 := mem_chain _ _ _ _ h1
      rcases hEm _ _ h2 with h2 | h2
      · exact hd1 b (hflat b h1.2.1) b h2.2 rfl
      · exact hd1 a (hflat a h1.1) a h2.1 rfl
    · rintro ⟨a, b⟩ h1 q h2 rfl
      have h1 := mem_R h1
      rcases List.mem_append.1 h2 with h2 | h2
      · obtain ⟨-, hrr, hd2⟩ := List.nodup_append.1 hn2'
        rcases (mem_chain _ _ _ _ h2).2.2 with h2 | h2
        · exact hd2 a h1.1 a h2 rfl
        · exact hd2 b h1.2 b h2 rfl
      · rcases hEm _ _ h2 with h2 | h2
        · exact hd1 b (hflat b (Or.inl h1.2)) b h2.2 rfl
        · exact hd1 a (hflat a (Or.inl h1.1)) a h2.1 rfl
  have hcores : ∀ a b, (a, b) ∈ R v ++ (chain v r ++ E) → (b, a) ∈ R v ++ (chain v r ++ E) := by
    intro a b hab
    rcases List.mem_append.1 hab with h | h
    · exact List.mem_append_left _ (R_swap h)
    · rcases List.mem_append.1 h with h | h
      · exact List.mem_append_right _ (List.mem_append_left _ (chain_swap _ _ _ _ h))
      · exact List.mem_append_right _ (List.mem_append_right _ (hEs _ _ h))
  cases start with
  | none =>
    obtain ⟨fs, e, hp⟩ := revLoop_ring n stop r v z true hl hz (by
      intro _
      cases stop with
      | some p => exact Or.inr (by simp)
      | none =>
        left; rintro rfl
        simp at h2)
    rw [← hEeq] at hp
    have hfaces := revLoop_faces n h3 stop r v true fs hl hn1' e
    refine ⟨v :: fs, by simp [items, revolution, e], ?_⟩
    have hperm : ((v :: fs).flatMap sides).Perm (R v ++ (chain v r ++ E)) := by
      rw [List.flatMap_cons, R, List.append_assoc]
      exact (List.Perm.refl _).append hp
    have hfit : Fit (v :: fs) := by
      refine fit_of ?_ (hperm.nodup_iff.2 hcore)
      intro vs hvs
      rcases List.mem_cons.1 hvs with rfl | hvs
      · exact ⟨hv, by omega⟩
      · exact hfaces vs hvs
    obtain ⟨st, e', hs, -⟩ := C191_closed _ hfit (closed_of_perm hperm hcores)
    exact ⟨st, e', hs⟩
  | some p =>
    have hpn : ∀ x, x ∈ (v :: r).flatten ++ stop.toList → x ≠ p := fun x hx e => hd0 p (by simp) x hx e.symm
    obtain ⟨fs, e, hp⟩ := revLoop_ring n stop r v z false hl hz (by simp)
    rw [← hEeq] at hp
    have hfaces := revLoop_faces n h3 stop r v false fs hl hn1' e
    have hvr : v.reverse.Nodup := List.pairwise_reverse.2 (hv.imp Ne.symm)
    refine ⟨conicFaces p v.reverse ++ fs, by simp [items, revolution, revLoop, e], ?_⟩
    have hpv : p ∉ v.reverse := by
      intro h
      exact hpn p (by rw [List.mem_append]; exact Or.inl (hflat p (Or.inl (by simpa using h)))) rfl
    have hperm : ((conicFaces p v.reverse ++ fs).flatMap sides).Perm (Cn p v.reverse ++ (R v ++ (chain v r ++ E))) := by
      rw [List.flatMap_append]
      have h1 := conicFaces_perm p v.reverse
      have h2 := (sides_reverse v).map Prod.swap
      rw [swap_swap] at h2
      refine ((h1.trans (h2.append (List.Perm.refl _))).append hp).trans ?_
      rw [List.perm_iff_count]
      intro x
      simp only [R, List.count_append]
      omega
    have hall : ∀ a b, (a, b) ∈ R v ++ (chain v r ++ E) → a ≠ p ∧ b ≠ p := by
      intro a b hab
      have hin : ∀ x, x ∈ v ∨ x ∈ r.flatten → x ≠ p := fun x hx => hpn x (List.mem_append_left _ (hflat x hx))
      rcases List.mem_append.1 hab with h | h
      · exact ⟨hin a (Or.inl (mem_R h).1), hin b (Or.inl (mem_R h).2)⟩
      · rcases List.mem_append.1 h with h | h
        · have := mem_chain _ _ _ _ h
          exact ⟨hin a this.1, hin b this.2.1⟩
        · have hz' : ∀ x ∈ z, x ≠ p := fun x hx => hpn x (List.mem_append_left _ (List.mem_flatten.2 ⟨z, hzm, hx⟩))
          have hs' : ∀ x ∈ stop.toList, x ≠ p := fun x hx => hpn x (List.mem_append_right _ hx)
          rcases hEm _ _ h with h | h
          · exact ⟨hz' a h.1, hs' b h.2⟩
          · exact ⟨hs' a h.1, hz' b h.2⟩
    have hnd : (Cn p v.reverse ++ (R v ++ (chain v r ++ E))).Nodup := by
      refine List.nodup_append.2 ⟨Cn_nodup hvr hpv, hcore, ?_⟩
      rintro ⟨a, b⟩ h1 q h2 rfl
      have h2 := hall _ _ h2
      rcases mem_Cn h1 with h1 | h1
      · exact h2.2 h1.2
      · exact h2.1 h1.1
    have hfit : Fit (conicFaces p v.reverse ++ fs) := by
      refine fit_of ?_ (hperm.nodup_iff.2 hnd)
      intro vs hvs
      rcases List.mem_append.1 hvs with hvs | hvs
      · exact conicFaces_nodup hvr (by simp; omega) hpv vs hvs
      · exact hfaces vs hvs
    have hclosed : Closed (conicFaces p v.reverse ++ fs) := by
      refine closed_of_perm hperm ?_
      intro a b hab
      rcases List.mem_append.1 hab with h | h
      · exact List.mem_append_left _ (Cn_swap h)
      · exact List.mem_append_right _ (hcores _ _ h)
    obtain ⟨st, e', hs, -⟩ := C191_closed _ hfit hclosed
    exact ⟨st, e', hs⟩

/-- A spinning top. -/
example : ∃ fs, revolution (items (some 100) [[0, 1, 2], [3, 4, 5]] (some 200)) = some fs ∧
    ∃ st, makeFaces (St.empty Nat) fs = some st ∧ Solid fs st :=
  C192_revolution 3 (by decide) (some 100) [[0, 1, 2], [3, 4, 5]] (some 200) (by
    refine ⟨by simp, by simp, by decide, by simp⟩)

end Eus.Brp
