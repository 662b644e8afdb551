import Verif.Brp.Spec
set_option autoImplicit false
set_option linter.unusedSectionVars false
namespace Eus.Brp

variable {V : Type} [DecidableEq V]

theorem common_some {e1 e2 : List Nat} {i : Nat} (h : common e1 e2 = some i) : i ∈ e1 ∧ i ∈ e2 := by
  have key : ∀ (l r : List Nat), ∀ j ∈ l.foldl (fun r i => if i ∈ e2 then i :: r else r) r, j ∈ r ∨ (j ∈ l ∧ j ∈ e2) := by
    intro l
    induction l with
    | nil => intro r j hj; exact Or.inl hj
    | cons a l ih =>
      intro r j hj
      rcases ih _ j hj with h | h
      · simp only at h
        split at h
        · rename_i ha
          rcases List.mem_cons.1 h with rfl | h
          · exact Or.inr ⟨by simp, ha⟩
          · exact Or.inl h
        · exact Or.inl h
      · exact Or.inr ⟨by simp [h.1], h.2⟩
  have : i ∈ e1.foldl (fun r i => if i ∈ e2 then i :: r else r) [] := List.mem_of_head? h
  rcases key _ _ _ this with h | h
  · simp at h
  · exact h

theorem common_none {e1 e2 : List Nat} (h : common e1 e2 = none) : ∀ i ∈ e1, i ∉ e2 := by
  have key : ∀ (l r : List Nat), l.foldl (fun r i => if i ∈ e2 then i :: r else r) r = [] → r = [] ∧ ∀ i ∈ l, i ∉ e2 := by
    intro l
    induction l with
    | nil => intro r h; exact ⟨h, by simp⟩
    | cons a l ih =>
      intro r h
      obtain ⟨h1, h2⟩ := ih _ h
      simp only at h1
      split at h1
      · simp at h1
      · rename_i ha
        refine ⟨h1, ?_⟩
        intro i hi
        rcases List.mem_cons.1 hi with rfl | hi
        · exact ha
        · exact h2 i hi
  exact (key _ _ (by unfold common at h; exact List.head?_eq_none_iff.1 h)).2

theorem mem_addInc (inc : V → List Nat) (v w : V) (e i : Nat) :
    i ∈ addInc inc v e w ↔ i ∈ inc w ∨ (w = v ∧ i = e) := by
  unfold addInc
  by_cases h : w = v <;> simp [h]

/-- The store when the directed sides `P`, each with its face, have been put in. -/
structure Inv (st : St V) (P : List ((V × V) × Nat)) : Prop where
  ends : ∀ (i : Nat) (e : Edge V), st.edges[i]? = some e → e.pv ≠ e.nv
  pf : ∀ (i : Nat) (e : Edge V), st.edges[i]? = some e → ∃ k, e.pf = some k ∧ ((e.pv, e.nv), k) ∈ P
  nf : ∀ (i : Nat) (e : Edge V), st.edges[i]? = some e → ∀ k, e.nf = some k ↔ ((e.nv, e.pv), k) ∈ P
  all : ∀ a b k, ((a, b), k) ∈ P → ∃ (i : Nat) (e : Edge V), st.edges[i]? = some e ∧ e.IsSide k a b
  single : ∀ (i j : Nat) (e e' : Edge V), st.edges[i]? = some e → st.edges[j]? = some e' →
    (e.pv = e'.pv ∧ e.nv = e'.nv ∨ e.pv = e'.nv ∧ e.nv = e'.pv) → i = j
  inc : ∀ v i, i ∈ st.inc v ↔ ∃ e, st.edges[i]? = some e ∧ (e.pv = v ∨ e.nv = v)
  count : P.length = st.edges.length + st.edges.countP (fun e => e.nf.isSome)

/-- Later stores have the same edges, between the same points. -/
def Ext (st st' : St V) : Prop :=
  st'.faces = st.faces ∧
  ∀ (i : Nat) (e : Edge V), st.edges[i]? = some e → ∃ e', st'.edges[i]? = some e' ∧ e'.pv = e.pv ∧ e'.nv = e.nv

theorem Ext.refl (st : St V) : Ext st st := ⟨rfl, fun _ e h => ⟨e, h, rfl, rfl⟩⟩

theorem Ext.trans {a b c : St V} (h1 : Ext a b) (h2 : Ext b c) : Ext a c := by
  refine ⟨h2.1.trans h1.1, ?_⟩
  intro i e h
  obtain ⟨e', h', p, q⟩ := h1.2 i e h
  obtain ⟨e2, h2, p2, q2⟩ := h2.2 i e' h'
  exact ⟨e2, h2, p2.trans p, q2.trans q⟩

/-- The edge number `i` is between `a` and `b`. -/
def Joins (st : St V) (i : Nat) (a b : V) : Prop :=
  ∃ e, st.edges[i]? = some e ∧ (e.pv = a ∧ e.nv = b ∨ e.pv = b ∧ e.nv = a)

theorem Joins.ext {st st' : St V} (h : Ext st st') {i : Nat} {a b : V} (hj : Joins st i a b) : Joins st' i a b := by
  obtain ⟨e, he, hc⟩ := hj
  obtain ⟨e', he', p, q⟩ := h.2 i e he
  exact ⟨e', he', by rw [p, q]; exact hc⟩

theorem link_inv {st : St V} {P : List ((V × V) × Nat)} (h : Inv st P) (f : Nat) (a b : V) (hne : a ≠ b)
    (hP : ∀ k, ((a, b), k) ∉ P) :
    ∃ st' i, link st f a b = some (st', i) ∧ Inv st' (P ++ [((a, b), f)]) ∧ Ext st st' ∧ Joins st' i a b := by
  unfold link
  split
  · rename_i hc
    have hno := common_none hc
    have hno' : ∀ (i : Nat) (e : Edge V), st.edges[i]? = some e →
        ¬(e.pv = a ∧ e.nv = b ∨ e.pv = b ∧ e.nv = a) := by
      intro i e he hh
      refine hno i ((h.inc a i).2 ⟨e, he, ?_⟩) ((h.inc b i).2 ⟨e, he, ?_⟩)
      · rcases hh with hh | hh
        · exact Or.inl hh.1
        · exact Or.inr hh.2
      · rcases hh with hh | hh
        · exact Or.inr hh.2
        · exact Or.inl hh.1
    have hget : ∀ (i : Nat) (e : Edge V), (st.edges ++ [⟨a, b, some f, none⟩])[i]? = some e →
        st.edges[i]? = some e ∨ (i = st.edges.length ∧ e = ⟨a, b, some f, none⟩) := by
      intro i e he
      rw [List.getElem?_append] at he
      split at he
      · exact Or.inl he
      · right
        rename_i hlt
        have : i - st.edges.length = 0 := by
          have := (List.getElem?_eq_some_iff.1 he).1
          simp at this; omega
        rw [this] at he
        simp at he
        exact ⟨by omega, he.symm⟩
    have hold : ∀ (i : Nat) (e : Edge V), st.edges[i]? = some e →
        (st.edges ++ [⟨a, b, some f, none⟩])[i]? = some e := by
      intro i e he
      rw [List.getElem?_append_left (List.getElem?_eq_some_iff.1 he).1]; exact he
    have hnew : (st.edges ++ [(⟨a, b, some f, none⟩ : Edge V)])[st.edges.length]? = some ⟨a, b, some f, none⟩ := by
      simp
    have hrev : ∀ k, ((b, a), k) ∉ P := by
      intro k hk
      obtain ⟨i, e, he, hs⟩ := h.all b a k hk
      refine hno' i e he ?_
      rcases hs with hs | hs
      · exact Or.inr ⟨hs.1, hs.2.1⟩
      · exact Or.inl ⟨hs.1, hs.2.1⟩
    refine ⟨_, _, rfl, ⟨?_, ?_, ?_, ?_, ?_, ?_, ?_⟩, ⟨rfl, ?_⟩, ⟨_, hnew, Or.inl ⟨rfl, rfl⟩⟩⟩
    · intro i e he
      rcases hget i e he with he | ⟨_, rfl⟩
      · exact h.ends i e he
      · exact hne
    · intro i e he
      rcases hget i e he with he | ⟨_, rfl⟩
      · obtain ⟨k, h1, h2⟩ := h.pf i e he
        exact ⟨k, h1, List.mem_append_left _ h2⟩
      · exact ⟨f, rfl, by simp⟩
    · intro i e he k
      rcases hget i e he with he | ⟨_, rfl⟩
      · rw [h.nf i e he k, List.mem_append]
        constructor
        · exact Or.inl
        · rintro (h1 | h1)
          · exact h1
          · simp at h1
            exact absurd (Or.inr ⟨h1.1.2, h1.1.1⟩) (hno' i e he)
      · simp only [List.mem_append, reduceCtorEq, false_iff, not_or]
        refine ⟨hrev k, ?_⟩
        simp
        intro e; exact absurd e.symm hne
    · intro x y k hk
      rcases List.mem_append.1 hk with hk | hk
      · obtain ⟨i, e, he, hs⟩ := h.all x y k hk
        exact ⟨i, e, hold i e he, hs⟩
      · simp at hk
        obtain ⟨⟨rfl, rfl⟩, rfl⟩ := hk
        exact ⟨_, _, hnew, Or.inl ⟨rfl, rfl, rfl⟩⟩
    · intro i j e e' he he' hh
      rcases hget i e he with he | ⟨hi, rfl⟩
      · rcases hget j e' he' with he' | ⟨hj, rfl⟩
        · exact h.single i j e e' he he' hh
        · exact absurd hh (hno' i e he)
      · rcases hget j e' he' with he' | ⟨hj, rfl⟩
        · refine absurd ?_ (hno' j e' he')
          rcases hh with hh | hh
          · exact Or.inl ⟨hh.1.symm, hh.2.symm⟩
          · exact Or.inr ⟨hh.2.symm, hh.1.symm⟩
        · omega
    · intro v i
      have e1 : i ∈ addInc (addInc st.inc a st.edges.length) b st.edges.length v ↔
          i ∈ st.inc v ∨ (i = st.edges.length ∧ (a = v ∨ b = v)) := by
        rw [mem_addInc, mem_addInc]
        constructor
        · rintro ((h | ⟨rfl, h⟩) | ⟨rfl, h⟩)
          · exact Or.inl h
          · exact Or.inr ⟨h, Or.inl rfl⟩
          · exact Or.inr ⟨h, Or.inr rfl⟩
        · rintro (h | ⟨h, rfl | rfl⟩)
          · exact Or.inl (Or.inl h)
          · exact Or.inl (Or.inr ⟨rfl, h⟩)
          · exact Or.inr ⟨rfl, h⟩
      simp only
      rw [e1, h.inc]
      constructor
      · rintro (⟨e, he, hv⟩ | ⟨rfl, hv⟩)
        · exact ⟨e, hold i e he, hv⟩
        · exact ⟨_, hnew, hv⟩
      · rintro ⟨e, he, hv⟩
        rcases hget i e he with he | ⟨hi, rfl⟩
        · exact Or.inl ⟨e, he, hv⟩
        · exact Or.inr ⟨hi, hv⟩
    · have := h.count
      simp [List.countP_append]; omega
    · intro i e he
      exact ⟨e, hold i e he, rfl, rfl⟩
  · rename_i i hc
    obtain ⟨ha, hb⟩ := common_some hc
    obtain ⟨e, he, hea⟩ := (h.inc a i).1 ha
    obtain ⟨e', he', heb⟩ := (h.inc b i).1 hb
    have : e' = e := by rw [he] at he'; exact (Option.some.inj he').symm
    subst this
    obtain ⟨k0, hk0, hk0P⟩ := h.pf i e' he
    have hends : e'.pv = b ∧ e'.nv = a := by
      rcases hea with hea | hea
      · rcases heb with heb | heb
        · exact absurd (hea.symm.trans heb) hne
        · rw [hea, heb] at hk0P; exact absurd hk0P (hP k0)
      · rcases heb with heb | heb
        · exact ⟨heb, hea⟩
        · exact absurd (hea.symm.trans heb) hne
    have hset : setFace e' a b f = some { e' with nf := some f } := by
      unfold setFace
      rw [if_neg, if_pos ⟨hends.1.symm, hends.2.symm⟩]
      rintro ⟨h1, -⟩
      exact hne (h1.trans hends.1)
    rw [he]
    simp only [hset]
    have hi : i < st.edges.length := (List.getElem?_eq_some_iff.1 he).1
    have hget : ∀ (j : Nat) (x : Edge V), (st.edges.set i { e' with nf := some f })[j]? = some x →
        (j ≠ i ∧ st.edges[j]? = some x) ∨ (j = i ∧ x = { e' with nf := some f }) := by
      intro j x hx
      by_cases hj : j = i
      · subst hj
        rw [List.getElem?_set_self hi] at hx
        exact Or.inr ⟨rfl, (Option.some.inj hx).symm⟩
      · rw [List.getElem?_set_ne (Ne.symm hj)] at hx
        exact Or.inl ⟨hj, hx⟩
    have hsame : (st.edges.set i { e' with nf := some f })[i]? = some { e' with nf := some f } :=
      List.getElem?_set_self hi
    have hother : ∀ j, j ≠ i → (st.edges.set i { e' with nf := some f })[j]? = st.edges[j]? := by
      intro j hj
      exact List.getElem?_set_ne (Ne.symm hj)
    -- the end points are those of before
    have hold : ∀ (j : Nat) (x : Edge V), (st.edges.set i { e' with nf := some f })[j]? = some x →
        ∃ y, st.edges[j]? = some y ∧ x.pv = y.pv ∧ x.nv = y.nv ∧ x.pf = y.pf := by
      intro j x hx
      rcases hget j x hx with ⟨_, h1⟩ | ⟨rfl, rfl⟩
      · exact ⟨x, h1, rfl, rfl, rfl⟩
      · exact ⟨e', he, rfl, rfl, rfl⟩
    have hfwd : ∀ (j : Nat) (y : Edge V), st.edges[j]? = some y →
        ∃ x, (st.edges.set i { e' with nf := some f })[j]? = some x ∧ x.pv = y.pv ∧ x.nv = y.nv ∧ x.pf = y.pf := by
      intro j y hy
      by_cases hj : j = i
      · subst hj
        rw [he] at hy
        obtain rfl := Option.some.inj hy
        exact ⟨_, hsame, rfl, rfl, rfl⟩
      · exact ⟨y, by rw [hother j hj]; exact hy, rfl, rfl, rfl⟩
    refine ⟨_, _, rfl, ⟨?_, ?_, ?_, ?_, ?_, ?_, ?_⟩, ⟨rfl, ?_⟩, ⟨_, hsame, Or.inr hends⟩⟩
    · intro j x hx
      obtain ⟨y, hy, p, q, -⟩ := hold j x hx
      rw [p, q]; exact h.ends j y hy
    · intro j x hx
      obtain ⟨y, hy, p, q, r⟩ := hold j x hx
      obtain ⟨k, h1, h2⟩ := h.pf j y hy
      rw [p, q, r]
      exact ⟨k, h1, List.mem_append_left _ h2⟩
    · intro j x hx k
      rcases hget j x hx with ⟨hj, hx'⟩ | ⟨rfl, rfl⟩
      · rw [h.nf j x hx' k, List.mem_append]
        constructor
        · exact Or.inl
        · rintro (h1 | h1)
          · exact h1
          · simp at h1
            refine absurd (h.single j i x e' hx' he (Or.inl ?_)) hj
            rw [hends.1, hends.2]
            exact ⟨h1.1.2, h1.1.1⟩
      · simp only [hends.1, hends.2, List.mem_append, Option.some.injEq]
        constructor
        · rintro rfl; exact Or.inr (by simp)
        · rintro (h1 | h1)
          · exact absurd h1 (hP k)
          · simp at h1; exact h1.symm
    · intro x y k hk
      rcases List.mem_append.1 hk with hk | hk
      · obtain ⟨j, z, hz, hs⟩ := h.all x y k hk
        by_cases hj : j = i
        · subst hj
          rw [he] at hz
          obtain rfl := Option.some.inj hz
          refine ⟨_, _, hsame, ?_⟩
          rcases hs with hs | hs
          · exact Or.inl hs
          · exfalso
            rw [hends.1, hends.2] at hs
            obtain ⟨rfl, rfl, -⟩ := hs
            exact hP k hk
        · exact ⟨j, z, by simp only [hother j hj]; exact hz, hs⟩
      · simp at hk
        obtain ⟨⟨rfl, rfl⟩, rfl⟩ := hk
        exact ⟨_, _, hsame, Or.inr ⟨hends.1, hends.2, rfl⟩⟩
    · intro j j' x x' hx hx' hh
      obtain ⟨y, hy, p, q, -⟩ := hold j x hx
      obtain ⟨y', hy', p', q', -⟩ := hold j' x' hx'
      rw [p, q, p', q'] at hh
      exact h.single j j' y y' hy hy' hh
    · intro v j
      simp only
      rw [h.inc]
      constructor
      · rintro ⟨y, hy, hv⟩
        obtain ⟨x, hx, p, q, -⟩ := hfwd j y hy
        exact ⟨x, hx, by rw [p, q]; exact hv⟩
      · rintro ⟨x, hx, hv⟩
        obtain ⟨y, hy, p, q, -⟩ := hold j x hx
        exact ⟨y, hy, by rw [← p, ← q]; exact hv⟩
    · have hc := h.count
      have hnone : e'.nf = none := by
        cases hn : e'.nf with
        | none => rfl
        | some k =>
          have := (h.nf i e' he k).1 hn
          rw [hends.1, hends.2] at this
          exact absurd this (hP k)
      have hei : st.edges[i] = e' := (List.getElem?_eq_some_iff.1 he).2
      simp only
      rw [List.countP_set hi, hei, hnone]
      simp only [List.length_append, List.length_set, List.length_singleton, Option.isSome_none, Option.isSome_some, if_true]
      simp; omega
    · intro j y hy
      obtain ⟨x, hx, p, q, -⟩ := hfwd j y hy
      exact ⟨x, hx, p, q⟩

/-- The sides of a walk from `v` through the corners `r`. -/
def walk (v : V) (r : List V) : List (V × V) := (v :: r).zip r

theorem walk_cons (v w : V) (r : List V) : walk v (w :: r) = (v, w) :: walk w r := by simp [walk]

theorem links_inv (f : Nat) : ∀ (r : List V) (v : V) {st : St V} {P : List ((V × V) × Nat)}, Inv st P →
    (∀ a b, (a, b) ∈ walk v r → a ≠ b ∧ ∀ k, ((a, b), k) ∉ P) → (walk v r).Nodup →
    ∃ st' es, links st f v r = some (st', es) ∧ Inv st' (P ++ (walk v r).map (fun p => (p, f))) ∧ Ext st st' ∧
      es.length = r.length ∧ ∀ (j i : Nat) (a b : V), es[j]? = some i → (walk v r)[j]? = some (a, b) → Joins st' i a b := by
  intro r
  induction r with
  | nil =>
    intro v st P h _ _
    exact ⟨st, [], rfl, by simpa [walk] using h, Ext.refl st, rfl, by simp⟩
  | cons w r ih =>
    intro v st P h hw hn
    rw [walk_cons] at hw hn
    obtain ⟨hne, hP⟩ := hw v w (by simp)
    obtain ⟨st1, i, e1, h1, x1, j1⟩ := link_inv h f v w hne hP
    have hn' := List.nodup_cons.1 hn
    obtain ⟨st2, es, e2, h2, x2, l2, j2⟩ := ih w h1 (by
      intro a b hab
      refine ⟨(hw a b (by simp [hab])).1, ?_⟩
      intro k hk
      rcases List.mem_append.1 hk with hk | hk
      · exact (hw a b (by simp [hab])).2 k hk
      · simp at hk
        rw [hk.1.1, hk.1.2] at hab
        exact hn'.1 hab) hn'.2
    refine ⟨st2, i :: es, by simp [links, e1, e2], ?_, x1.trans x2, by simp [l2], ?_⟩
    · rw [walk_cons, List.map_cons]
      simpa using h2
    · intro j k a b hj hab
      rw [walk_cons] at hab
      cases j with
      | zero =>
        simp at hj hab
        obtain ⟨rfl, rfl⟩ := hab
        subst hj
        exact j1.ext x2
      | succ j =>
        simp at hj hab
        exact j2 j k a b hj hab

theorem sides_eq {vs : List V} {l : V} (h : vs.getLast? = some l) : sides vs = walk l vs := by
  simp [sides, h, walk]

/-- The directed sides of faces, each with the number of its face. -/
def labelled : Nat → List (List V) → List ((V × V) × Nat)
  | _, [] => []
  | n, vs :: r => (sides vs).map (fun p => (p, n)) ++ labelled (n + 1) r

theorem labelled_append : ∀ (fs : List (List V)) (n : Nat) (vs : List V),
    labelled n (fs ++ [vs]) = labelled n fs ++ (sides vs).map (fun p => (p, n + fs.length)) := by
  intro fs
  induction fs with
  | nil => intro n vs; simp [labelled]
  | cons w fs ih =>
    intro n vs
    simp only [List.cons_append, labelled, ih, List.append_assoc, List.length_cons]
    congr 4
    funext p
    congr 1
    omega

theorem mem_labelled : ∀ (fs : List (List V)) (n : Nat) (p : V × V) (k : Nat),
    (p, k) ∈ labelled n fs ↔ n ≤ k ∧ ∃ vs, fs[k - n]? = some vs ∧ p ∈ sides vs := by
  intro fs
  induction fs with
  | nil => intro n p k; simp [labelled]
  | cons w fs ih =>
    intro n p k
    simp only [labelled, List.mem_append, ih, List.mem_map, Prod.mk.injEq]
    constructor
    · rintro (⟨q, hq, rfl, rfl⟩ | ⟨h1, vs, h2, h3⟩)
      · exact ⟨Nat.le_refl _, w, by simp, hq⟩
      · refine ⟨by omega, vs, ?_, h3⟩
        have : k - n = (k - (n + 1)) + 1 := by omega
        rw [this]; simpa using h2
    · rintro ⟨h1, vs, h2, h3⟩
      by_cases hk : k = n
      · subst hk
        simp at h2
        subst h2
        exact Or.inl ⟨p, h3, rfl, rfl⟩
      · right
        refine ⟨by omega, vs, ?_, h3⟩
        have : k - n = (k - (n + 1)) + 1 := by omega
        rw [this] at h2; simpa using h2

theorem mem_flat (fs : List (List V)) (p : V × V) : p ∈ fs.flatMap sides ↔ ∃ k, (p, k) ∈ labelled 0 fs := by
  simp only [List.mem_flatMap, mem_labelled]
  constructor
  · rintro ⟨vs, h, hp⟩
    obtain ⟨k, hk⟩ := List.getElem?_of_mem h
    exact ⟨k, Nat.zero_le _, vs, by simpa using hk, hp⟩
  · rintro ⟨k, -, vs, h, hp⟩
    exact ⟨vs, List.mem_of_getElem? h, hp⟩

theorem sides_length {vs : List V} : (sides vs).length = vs.length := by
  unfold sides
  split
  · rename_i h
    simp [List.getLast?_eq_none_iff.1 h]
  · simp

/-- What is known of the faces made so far. -/
structure FInv (fs : List (List V)) (st : St V) : Prop where
  inv : Inv st (labelled 0 fs)
  len : st.faces.length = fs.length
  face : ∀ (k : Nat) (vs : List V), fs[k]? = some vs → ∃ es, st.faces[k]? = some (es, (vs.getLast? :: vs.map some)) ∧
    es.length = vs.length ∧
    ∀ (j i : Nat) (a b : V), es[j]? = some i → (sides vs)[j]? = some (a, b) → Joins st i a b

theorem joins_isSide {st : St V} {fs : List (List V)} (h : Inv st (labelled 0 fs)) {i k : Nat} {a b : V} {vs : List V}
    (hj : Joins st i a b) (hk : fs[k]? = some vs) (hs : (a, b) ∈ sides vs) :
    ∃ e, st.edges[i]? = some e ∧ e.IsSide k a b := by
  obtain ⟨e, he, hc⟩ := hj
  obtain ⟨i', e', he', hs'⟩ := h.all a b k ((mem_labelled _ _ _ _).2 ⟨Nat.zero_le _, vs, by simpa using hk, hs⟩)
  have : i = i' := by
    apply h.single i i' e e' he he'
    rcases hc with hc | hc <;> rcases hs' with hs' | hs'
    · exact Or.inl ⟨hc.1.trans hs'.1.symm, hc.2.trans hs'.2.1.symm⟩
    · exact Or.inr ⟨hc.1.trans hs'.2.1.symm, hc.2.trans hs'.1.symm⟩
    · exact Or.inr ⟨hc.1.trans hs'.2.1.symm, hc.2.trans hs'.1.symm⟩
    · exact Or.inl ⟨hc.1.trans hs'.1.symm, hc.2.trans hs'.2.1.symm⟩
  subst this
  exact ⟨e', he', hs'⟩

theorem makeFace_inv {fs : List (List V)} {st : St V} (h : FInv fs st) (vs : List V) (hne : vs ≠ [])
    (hnew : ∀ p ∈ sides vs, p ∉ fs.flatMap sides) (hnd : (sides vs).Nodup)
    (hone : ∀ a b, (a, b) ∈ sides vs → (b, a) ∉ sides vs) :
    ∃ st', makeFace st vs = some st' ∧ FInv (fs ++ [vs]) st' := by
  obtain ⟨l, hl⟩ : ∃ l, vs.getLast? = some l := ⟨_, List.getLast?_eq_some_getLast hne⟩
  unfold makeFace
  simp only [hl]
  have hsd := sides_eq hl
  rw [hsd] at hnew hnd hone
  obtain ⟨st1, es, e1, h1, x1, l1, j1⟩ := links_inv st.faces.length vs l h.inv (by
    intro a b hab
    refine ⟨?_, ?_⟩
    · rintro rfl; exact hone a a hab hab
    · intro k hk
      exact hnew _ hab ((mem_flat _ _).2 ⟨k, hk⟩)) hnd
  rw [e1]
  refine ⟨_, rfl, ?_⟩
  have h2 : Inv st1 (labelled 0 (fs ++ [vs])) := by
    rw [labelled_append, hsd, Nat.zero_add, ← h.len]; exact h1
  have hfc : st1.faces = st.faces := x1.1
  have hkk : (fs ++ [vs])[st.faces.length]? = some vs := by rw [h.len]; simp
  have hside : ∀ (j i : Nat) (a b : V), es[j]? = some i → (walk l vs)[j]? = some (a, b) →
      ∃ e, st1.edges[i]? = some e ∧ e.IsSide st.faces.length a b := by
    intro j i a b hj hab
    exact joins_isSide h2 (j1 j i a b hj hab) hkk (by rw [hsd]; exact List.mem_of_getElem? hab)
  have hnotp : ∀ (i : Nat) (e : Edge V) (a b : V), st1.edges[i]? = some e → (a, b) ∈ walk l vs → e.pv = b → e.nv = a →
      e.pf ≠ some st.faces.length := by
    intro i e a b he hab hb ha hpf
    obtain ⟨k, hk, hkP⟩ := h2.pf i e he
    rw [hpf] at hk
    obtain rfl := Option.some.inj hk
    obtain ⟨_, vs', hvs', hp⟩ := (mem_labelled _ _ _ _).1 hkP
    simp only [Nat.sub_zero, hkk, Option.some.injEq] at hvs'
    subst hvs'
    rw [hb, ha, hsd] at hp
    exact hone a b hab hp
  have hnv : ∀ (j i : Nat) (a b : V), es[j]? = some i → (walk l vs)[j]? = some (a, b) →
      (st1.edges[i]?.bind fun x => x.nvertex st.faces.length) = some b ∧
      (st1.edges[i]?.bind fun x => x.pvertex st.faces.length) = some a := by
    intro j i a b hj hab
    obtain ⟨e, he, hs⟩ := hside j i a b hj hab
    rw [he]
    simp only [Option.bind_some, Edge.nvertex, Edge.pvertex]
    rcases hs with ⟨p, q, r⟩ | ⟨p, q, r⟩
    · rw [if_pos r, if_pos r, p, q]; exact ⟨rfl, rfl⟩
    · have := hnotp i e a b he (List.mem_of_getElem? hab) p q
      rw [if_neg this, if_neg this, if_pos r, if_pos r, p, q]; exact ⟨rfl, rfl⟩
  have hwl : (walk l vs).length = vs.length := by rw [← hsd, sides_length]
  have hver : vertices st1.edges st.faces.length es = vs.getLast? :: vs.map some := by
    have hmap : (es.map fun i => st1.edges[i]?.bind fun x => x.nvertex st.faces.length) = vs.map some := by
      apply List.ext_getElem?
      intro j
      rw [List.getElem?_map, List.getElem?_map]
      by_cases hj : j < vs.length
      · obtain ⟨i, hi⟩ : ∃ i, es[j]? = some i := ⟨_, List.getElem?_eq_getElem (by omega)⟩
        have hw : (walk l vs)[j]? = some ((l :: vs)[j]'(by simp; omega), vs[j]) := by
          rw [List.getElem?_eq_getElem (by omega)]
          simp [walk]
        rw [hi, List.getElem?_eq_getElem hj]
        simp only [Option.map_some, Option.some.injEq]
        exact (hnv j i _ _ hi hw).1
      · rw [List.getElem?_eq_none (by omega), List.getElem?_eq_none (by omega)]; rfl
    cases hes : es with
    | nil =>
      rw [hes] at l1
      cases vs with
      | nil => exact absurd rfl hne
      | cons a r => simp at l1
    | cons i es' =>
      unfold vertices
      simp only
      rw [← hes, hmap]
      congr 1
      have hw : (walk l vs)[0]? = some (l, vs[0]'(by
          cases vs with
          | nil => exact absurd rfl hne
          | cons a r => simp)) := by
        cases vs with
        | nil => exact absurd rfl hne
        | cons a r => simp [walk]
      rw [hl]
      exact (hnv 0 i _ _ (by rw [hes]; rfl) hw).2
  refine ⟨?_, ?_, ?_⟩
  · exact ⟨h2.ends, h2.pf, h2.nf, h2.all, h2.single, h2.inc, h2.count⟩
  · simp [hfc, h.len]
  · intro k vs' hk
    by_cases hlt : k < fs.length
    · rw [List.getElem?_append_left hlt] at hk
      obtain ⟨es', q1, q2, q3⟩ := h.face k vs' hk
      refine ⟨es', ?_, q2, ?_⟩
      · simp only [hfc]
        rw [List.getElem?_append_left (by rw [h.len]; exact hlt)]; exact q1
      · intro j i a b hj hab
        exact (q3 j i a b hj hab).ext x1
    · have hk' : k = fs.length := by
        have := (List.getElem?_eq_some_iff.1 hk).1
        simp at this; omega
      subst hk'
      simp at hk
      subst hk
      refine ⟨es, ?_, l1, ?_⟩
      · simp only [hfc]
        rw [← h.len, List.getElem?_append_right (Nat.le_refl _)]
        simp [hver]
      · intro j i a b hj hab
        rw [hsd] at hab
        exact j1 j i a b hj hab

theorem makeFaces_inv : ∀ (gs : List (List V)) {fs : List (List V)} {st : St V}, FInv fs st → Fit (fs ++ gs) →
    ∃ st', makeFaces st gs = some st' ∧ FInv (fs ++ gs) st' := by
  intro gs
  induction gs with
  | nil => intro fs st h _; exact ⟨st, rfl, by simpa using h⟩
  | cons vs gs ih =>
    intro fs st h hf
    have hn := hf.once
    rw [List.flatMap_append, List.flatMap_cons] at hn
    obtain ⟨n1, n2, n3⟩ := List.nodup_append.1 hn
    obtain ⟨n4, n5, n6⟩ := List.nodup_append.1 n2
    obtain ⟨st1, e1, h1⟩ := makeFace_inv h vs (hf.corners vs (by simp))
      (fun p hp hp' => n3 p hp' p (by simp [hp]) rfl) n4 (hf.oneway vs (by simp))
    have hcat : fs ++ vs :: gs = (fs ++ [vs]) ++ gs := by simp
    obtain ⟨st2, e2, h2⟩ := ih h1 (by rw [← hcat]; exact hf)
    refine ⟨st2, by simp only [makeFaces, e1, e2], by rw [hcat]; exact h2⟩

theorem finv_empty : FInv [] (St.empty V) := by
  refine ⟨⟨?_, ?_, ?_, ?_, ?_, ?_, ?_⟩, rfl, ?_⟩ <;> simp [St.empty, labelled]

end Eus.Brp
