import Verif.Prc.Spec
set_option autoImplicit false
namespace Eus.Prc

theorem lowest_some {lim n : Nat} {t : Nat → Option End} (h : lowest lim t = some n) : t n = none ∧ n < lim ∧ ∀ m, m < n → t m ≠ none := by
  unfold lowest at h
  rw [List.find?_range_eq_some] at h
  obtain ⟨h1, h2, h3⟩ := h
  refine ⟨by simpa using h1, by simpa using h2, fun m hm he => ?_⟩
  have := h3 m hm
  simp [he] at this

theorem lowest_free {lim n : Nat} {t : Nat → Option End} (hn : n < lim) (h : t n = none) : ∃ m, lowest lim t = some m ∧ m ≤ n := by
  unfold lowest
  cases hf : (List.range lim).find? fun n => (t n).isNone with
  | none =>
    rw [List.find?_eq_none] at hf
    have := hf n (by simpa using hn)
    simp [h] at this
  | some m =>
    refine ⟨m, rfl, ?_⟩
    obtain ⟨_, _, h3⟩ := lowest_some (t := t) (lim := lim) (n := m) hf
    by_cases hm : m ≤ n
    · exact hm
    · exact absurd h (h3 n (by omega))

theorem set_self (t : Nat → Option End) (n : Nat) (e : Option End) : set t n e n = e := if_pos rfl
theorem set_ne (t : Nat → Option End) (n : Nat) (e : Option End) {m : Nat} (h : m ≠ n) : set t n e m = t m := if_neg h

/-- What `pipe` does. -/
structure Piped (lim : Nat) (t : Nat → Option End) (p r w : Nat) (t' : Nat → Option End) : Prop where
  rlim : r < lim
  wlim : w < lim
  rfree : t r = none
  wfree : t w = none
  ne : r ≠ w
  atR : t' r = some (.rd p)
  atW : t' w = some (.wr p)
  other : ∀ fd, fd ≠ r → fd ≠ w → t' fd = t fd

theorem pipe_some {lim p r w : Nat} {t t' : Nat → Option End} (h : pipe lim t p = some (r, w, t')) : Piped lim t p r w t' := by
  unfold pipe at h
  split at h
  · cases h
  next r' hr =>
    split at h
    · cases h
    next w' hw =>
      cases h
      obtain ⟨a1, a2, _⟩ := lowest_some hr
      obtain ⟨b1, b2, _⟩ := lowest_some hw
      have hne : r ≠ w := by
        rintro rfl
        rw [set_self] at b1; cases b1
      rw [set_ne _ _ _ (Ne.symm hne)] at b1
      exact ⟨a2, b2, a1, b1, hne, by rw [set_ne _ _ _ hne, set_self], set_self _ _ _, fun fd h1 h2 => by rw [set_ne _ _ _ h2, set_ne _ _ _ h1]⟩

/-- `dup` of an open descriptor when one is free. -/
theorem dup_eq {lim fd f : Nat} {t : Nat → Option End} {e : End} (he : t fd = some e) (hf : f < lim) (hn : t f = none) :
    ∃ n, t n = none ∧ (∀ m, m < n → t m ≠ none) ∧ dup lim t fd = set t n (some e) := by
  obtain ⟨m, h1, _⟩ := lowest_free hf hn
  obtain ⟨h2, _, h3⟩ := lowest_some h1
  exact ⟨m, h2, h3, by simp only [dup, he, h1]⟩

/-- The child's descriptors: those of the parent but the standard ones, the two ends, and two copies of them in the lowest free places. -/
theorem childTab_eq {lim p si so r1 w1 r2 w2 : Nat} {t t1 t2 : Nat → Option End} (h1 : Piped lim t p r1 w1 t1) (h2 : Piped lim t1 (p + 1) r2 w2 t2)
    (hi : ∃ e, t si = some e) (ho : ∃ e, t so = some e) :
    ∃ x y, x ≠ y ∧ (∀ t', t' = close (close (close (close t2 si) so) w1) r2 →
        (t' x = none ∧ (∀ m, m < x → t' m ≠ none)) ∧ (t' y = none ∧ ∀ m, m < y → m = x ∨ t' m ≠ none)
        ∧ childTab lim t2 si so r1 w1 r2 w2 = set (set t' x (some (.rd p))) y (some (.wr (p + 1)))) := by
  obtain ⟨ei, hi⟩ := hi
  obtain ⟨eo, ho⟩ := ho
  have n1 : r1 ≠ si := by rintro rfl; rw [h1.rfree] at hi; cases hi
  have n2 : r1 ≠ so := by rintro rfl; rw [h1.rfree] at ho; cases ho
  have n3 : r1 ≠ r2 := by rintro rfl; have := h2.rfree; rw [h1.atR] at this; cases this
  have n3' : r1 ≠ w2 := by rintro rfl; have := h2.wfree; rw [h1.atR] at this; cases this
  have n4 : w1 ≠ r2 := by rintro rfl; have := h2.rfree; rw [h1.atW] at this; cases this
  have n4' : w1 ≠ w2 := by rintro rfl; have := h2.wfree; rw [h1.atW] at this; cases this
  have q1 : t1 si = some ei := by rw [h1.other si (Ne.symm n1) (by rintro rfl; rw [h1.wfree] at hi; cases hi)]; exact hi
  have q2 : t1 so = some eo := by rw [h1.other so (Ne.symm n2) (by rintro rfl; rw [h1.wfree] at ho; cases ho)]; exact ho
  have n5 : w2 ≠ si := by rintro rfl; have := h2.wfree; rw [q1] at this; cases this
  have n6 : w2 ≠ so := by rintro rfl; have := h2.wfree; rw [q2] at this; cases this
  generalize htt : close (close (close (close t2 si) so) w1) r2 = tt
  have v1 : tt r1 = some (.rd p) := by
    rw [← htt, close, set_ne _ _ _ n3, close, set_ne _ _ _ h1.ne, close, set_ne _ _ _ n2, close, set_ne _ _ _ n1, h2.other _ n3 n3', h1.atR]
  have v2 : tt w2 = some (.wr (p + 1)) := by
    rw [← htt, close, set_ne _ _ _ (Ne.symm h2.ne), close, set_ne _ _ _ (Ne.symm n4'), close, set_ne _ _ _ n6, close, set_ne _ _ _ n5, h2.atW]
  have v3 : tt r2 = none := by rw [← htt, close, set_self]
  have v4 : tt w1 = none := by rw [← htt, close, set_ne _ _ _ n4, close, set_self]
  obtain ⟨x, a1, a2, a3⟩ := dup_eq v1 h1.wlim v4
  have hxw : w2 ≠ x := by rintro rfl; rw [v2] at a1; cases a1
  have hy : ∃ f, f < lim ∧ set tt x (some (.rd p)) f = none := by
    by_cases hx : x = w1
    · subst hx; exact ⟨r2, h2.rlim, by rw [set_ne _ _ _ (Ne.symm n4)]; exact v3⟩
    · exact ⟨w1, h1.wlim, by rw [set_ne _ _ _ (Ne.symm hx)]; exact v4⟩
  obtain ⟨f, hf1, hf2⟩ := hy
  obtain ⟨y, b1, b2, b3⟩ := dup_eq (e := .wr (p + 1)) (fd := w2) (by rw [set_ne _ _ _ hxw]; exact v2) hf1 hf2
  have hxy : x ≠ y := by rintro rfl; rw [set_self] at b1; cases b1
  refine ⟨x, y, hxy, ?_⟩
  intro t' ht'
  subst ht'
  rw [set_ne _ _ _ (Ne.symm hxy)] at b1
  refine ⟨⟨a1, a2⟩, ⟨b1, fun m hm => ?_⟩, ?_⟩
  · by_cases hmx : m = x
    · exact Or.inl hmx
    · have := b2 m hm
      rw [set_ne _ _ _ hmx] at this
      exact Or.inr this
  · rw [← b3, ← a3]
    simp only [childTab, htt]

/-! ### The invariant -/

structure Inv (s : Sys) (a : List Link) : Prop where
  kids : s.kids.length = a.length
  conns : s.conns.length = a.length
  next : s.next = 2 * a.length
  si : ∃ n, s.tab s.si = some (.file n)
  so : ∃ n, s.tab s.so = some (.file n)
  wr : ∀ fd p, s.tab fd = some (.wr p) ↔ ∃ (k : Nat) (c : Conn) (l : Link), s.conns[k]? = some c ∧ a[k]? = some l ∧ l.out = true ∧ fd = c.outfd ∧ p = 2 * k
  rd : ∀ fd p, s.tab fd = some (.rd p) ↔ ∃ (k : Nat) (c : Conn) (l : Link), s.conns[k]? = some c ∧ a[k]? = some l ∧ l.inp = true ∧ fd = c.infd ∧ p = 2 * k + 1
  alive : ∀ (j : Nat) (k : Kid) (l : Link), s.kids[j]? = some k → a[j]? = some l → k.alive = !l.gone ∧ k.stays = l.stays
  hold : ∀ (j : Nat) (x : Kid) (p : Nat), s.kids[j]? = some x → ((∃ fd, x.tab fd = some (.wr p)) ↔
    p = 2 * j + 1 ∨ ∃ (k : Nat) (l : Link), a[k]? = some l ∧ p = 2 * k ∧ j ∈ l.heirs)
  heirs : ∀ (k : Nat) (l : Link) (j : Nat), a[k]? = some l → j ∈ l.heirs → j < a.length

theorem init_inv (lim : Nat) : Inv (init lim) [] := by
  refine ⟨rfl, rfl, rfl, ⟨0, rfl⟩, ⟨0, rfl⟩, ?_, ?_, ?_, ?_, ?_⟩
  · intro fd p
    refine ⟨fun h => ?_, fun ⟨k, c, l, h, _⟩ => by simp [init] at h⟩
    simp only [init] at h
    split at h <;> simp at h
  · intro fd p
    refine ⟨fun h => ?_, fun ⟨k, c, l, h, _⟩ => by simp [init] at h⟩
    simp only [init] at h
    split at h <;> simp at h
  · intro j k l h; simp [init] at h
  · intro j k l h; simp [init] at h
  · intro k l j h; simp at h

theorem get_set {α : Type} {a : List α} {k j : Nat} {l x : α} (h : (a.set k l)[j]? = some x) : (j = k ∧ x = l ∧ k < a.length) ∨ (j ≠ k ∧ a[j]? = some x) := by
  rw [List.getElem?_set] at h
  split at h
  next e =>
    split at h
    · cases h; exact Or.inl ⟨e.symm, rfl, by assumption⟩
    · cases h
  next e => exact Or.inr ⟨Ne.symm e, h⟩

theorem get_set_ne {α : Type} {a : List α} {k j : Nat} (l : α) (h : j ≠ k) : (a.set k l)[j]? = a[j]? := by
  rw [List.getElem?_set_ne (Ne.symm h)]

theorem get_append {α : Type} {a : List α} {y x : α} {j : Nat} (h : (a ++ [y])[j]? = some x) : (j < a.length ∧ a[j]? = some x) ∨ (j = a.length ∧ x = y) := by
  by_cases hj : j < a.length
  · rw [List.getElem?_append_left hj] at h; exact Or.inl ⟨hj, h⟩
  · rw [List.getElem?_append_right (by omega)] at h
    have : j - a.length = 0 := by
      cases hd : j - a.length with
      | zero => rfl
      | succ m => rw [hd] at h; simp at h
    rw [this] at h
    simp at h
    exact Or.inr ⟨by omega, h.symm⟩

theorem get_lt {α : Type} {a : List α} {j : Nat} {x : α} (h : a[j]? = some x) : j < a.length := by
  rw [List.getElem?_eq_some_iff] at h
  exact h.1

theorem inherit_out (n : Nat) (l : Link) : (l.inherit n).out = l.out ∧ (l.inherit n).inp = l.inp ∧ (l.inherit n).gone = l.gone ∧ (l.inherit n).stays = l.stays := by
  unfold Link.inherit
  split <;> exact ⟨rfl, rfl, rfl, rfl⟩

theorem inherit_heirs (n j : Nat) (l : Link) : j ∈ (l.inherit n).heirs ↔ (j = n ∧ l.out = true) ∨ j ∈ l.heirs := by
  unfold Link.inherit
  split
  next h => simp [h]
  next h => simp [h]

theorem closeOut_inv {s : Sys} {a : List Link} (h : Inv s a) {k : Nat} {c : Conn} {l : Link} (hc : s.conns[k]? = some c) (hl : a[k]? = some l)
    (ho : l.out = true) : Inv { s with tab := close s.tab c.outfd } (a.set k { l with out := false }) := by
  have hw : s.tab c.outfd = some (.wr (2 * k)) := (h.wr _ _).2 ⟨k, c, l, hc, hl, ho, rfl, rfl⟩
  have hk := get_lt hl
  have hself : (a.set k { l with out := false })[k]? = some { l with out := false } := List.getElem?_set_self hk
  refine ⟨by simp [h.kids], by simp [h.conns], by simp [h.next], ?_, ?_, ?_, ?_, ?_, ?_, ?_⟩
  · obtain ⟨n, hn⟩ := h.si
    exact ⟨n, by simp only [close]; rw [set_ne _ _ _ (by intro e; rw [e, hw] at hn; cases hn)]; exact hn⟩
  · obtain ⟨n, hn⟩ := h.so
    exact ⟨n, by simp only [close]; rw [set_ne _ _ _ (by intro e; rw [e, hw] at hn; cases hn)]; exact hn⟩
  · intro fd p
    simp only [close]
    constructor
    · intro he
      have hf : fd ≠ c.outfd := by intro e; rw [e, set_self] at he; cases he
      rw [set_ne _ _ _ hf] at he
      obtain ⟨k', c', l', h1, h2, h3, h4, h5⟩ := (h.wr _ _).1 he
      have hne : k' ≠ k := by rintro rfl; rw [hc] at h1; cases h1; exact hf h4
      exact ⟨k', c', l', h1, by rw [get_set_ne _ hne]; exact h2, h3, h4, h5⟩
    · rintro ⟨k', c', l', h1, h2, h3, h4, h5⟩
      rcases get_set h2 with ⟨_, e, _⟩ | ⟨hne, h2⟩
      · rw [e] at h3; cases h3
      · have he := (h.wr fd p).2 ⟨k', c', l', h1, h2, h3, h4, h5⟩
        rw [set_ne _ _ _ (by intro e; rw [e, hw] at he; cases he; omega)]
        exact he
  · intro fd p
    simp only [close]
    constructor
    · intro he
      have hf : fd ≠ c.outfd := by intro e; rw [e, set_self] at he; cases he
      rw [set_ne _ _ _ hf] at he
      obtain ⟨k', c', l', h1, h2, h3, h4, h5⟩ := (h.rd _ _).1 he
      by_cases hne : k' = k
      · subst hne
        rw [hl] at h2; cases h2
        exact ⟨k', c', _, h1, hself, h3, h4, h5⟩
      · exact ⟨k', c', l', h1, by rw [get_set_ne _ hne]; exact h2, h3, h4, h5⟩
    · rintro ⟨k', c', l', h1, h2, h3, h4, h5⟩
      have he : s.tab fd = some (.rd p) := by
        rcases get_set h2 with ⟨rfl, e, _⟩ | ⟨hne, h2⟩
        · subst e; exact (h.rd fd p).2 ⟨k', c', l, h1, hl, h3, h4, h5⟩
        · exact (h.rd fd p).2 ⟨k', c', l', h1, h2, h3, h4, h5⟩
      rw [set_ne _ _ _ (by intro e; rw [e, hw] at he; cases he)]
      exact he
  · intro j x m h1 h2
    rcases get_set h2 with ⟨rfl, rfl, _⟩ | ⟨_, h2⟩
    · exact h.alive _ _ l h1 hl
    · exact h.alive _ _ _ h1 h2
  · intro j x p h1
    rw [h.hold j x p h1]
    constructor
    · rintro (e | ⟨k', l', h2, h3, h4⟩)
      · exact Or.inl e
      · by_cases hne : k' = k
        · subst hne; rw [hl] at h2; cases h2; exact Or.inr ⟨k', _, hself, h3, h4⟩
        · exact Or.inr ⟨k', l', by rw [get_set_ne _ hne]; exact h2, h3, h4⟩
    · rintro (e | ⟨k', l', h2, h3, h4⟩)
      · exact Or.inl e
      · rcases get_set h2 with ⟨rfl, rfl, _⟩ | ⟨_, h2⟩
        · exact Or.inr ⟨k', l, hl, h3, h4⟩
        · exact Or.inr ⟨k', l', h2, h3, h4⟩
  · intro k' l' j h2 h3
    rw [List.length_set]
    rcases get_set h2 with ⟨rfl, rfl, _⟩ | ⟨_, h2⟩
    · exact h.heirs k' l j hl h3
    · exact h.heirs k' l' j h2 h3

theorem closeIn_inv {s : Sys} {a : List Link} (h : Inv s a) {k : Nat} {c : Conn} {l : Link} (hc : s.conns[k]? = some c) (hl : a[k]? = some l)
    (ho : l.inp = true) : Inv { s with tab := close s.tab c.infd } (a.set k { l with inp := false }) := by
  have hw : s.tab c.infd = some (.rd (2 * k + 1)) := (h.rd _ _).2 ⟨k, c, l, hc, hl, ho, rfl, rfl⟩
  have hk := get_lt hl
  have hself : (a.set k { l with inp := false })[k]? = some { l with inp := false } := List.getElem?_set_self hk
  refine ⟨by simp [h.kids], by simp [h.conns], by simp [h.next], ?_, ?_, ?_, ?_, ?_, ?_, ?_⟩
  · obtain ⟨n, hn⟩ := h.si
    exact ⟨n, by simp only [close]; rw [set_ne _ _ _ (by intro e; rw [e, hw] at hn; cases hn)]; exact hn⟩
  · obtain ⟨n, hn⟩ := h.so
    exact ⟨n, by simp only [close]; rw [set_ne _ _ _ (by intro e; rw [e, hw] at hn; cases hn)]; exact hn⟩
  · intro fd p
    simp only [close]
    constructor
    · intro he
      have hf : fd ≠ c.infd := by intro e; rw [e, set_self] at he; cases he
      rw [set_ne _ _ _ hf] at he
      obtain ⟨k', c', l', h1, h2, h3, h4, h5⟩ := (h.wr _ _).1 he
      by_cases hne : k' = k
      · subst hne
        rw [hl] at h2; cases h2
        exact ⟨k', c', _, h1, hself, h3, h4, h5⟩
      · exact ⟨k', c', l', h1, by rw [get_set_ne _ hne]; exact h2, h3, h4, h5⟩
    · rintro ⟨k', c', l', h1, h2, h3, h4, h5⟩
      have he : s.tab fd = some (.wr p) := by
        rcases get_set h2 with ⟨rfl, e, _⟩ | ⟨hne, h2⟩
        · subst e; exact (h.wr fd p).2 ⟨k', c', l, h1, hl, h3, h4, h5⟩
        · exact (h.wr fd p).2 ⟨k', c', l', h1, h2, h3, h4, h5⟩
      rw [set_ne _ _ _ (by intro e; rw [e, hw] at he; cases he)]
      exact he
  · intro fd p
    simp only [close]
    constructor
    · intro he
      have hf : fd ≠ c.infd := by intro e; rw [e, set_self] at he; cases he
      rw [set_ne _ _ _ hf] at he
      obtain ⟨k', c', l', h1, h2, h3, h4, h5⟩ := (h.rd _ _).1 he
      have hne : k' ≠ k := by rintro rfl; rw [hc] at h1; cases h1; exact hf h4
      exact ⟨k', c', l', h1, by rw [get_set_ne _ hne]; exact h2, h3, h4, h5⟩
    · rintro ⟨k', c', l', h1, h2, h3, h4, h5⟩
      rcases get_set h2 with ⟨_, e, _⟩ | ⟨hne, h2⟩
      · rw [e] at h3; cases h3
      · have he := (h.rd fd p).2 ⟨k', c', l', h1, h2, h3, h4, h5⟩
        rw [set_ne _ _ _ (by intro e; rw [e, hw] at he; cases he; omega)]
        exact he
  · intro j x m h1 h2
    rcases get_set h2 with ⟨rfl, rfl, _⟩ | ⟨_, h2⟩
    · exact h.alive _ _ l h1 hl
    · exact h.alive _ _ _ h1 h2
  · intro j x p h1
    rw [h.hold j x p h1]
    constructor
    · rintro (e | ⟨k', l', h2, h3, h4⟩)
      · exact Or.inl e
      · by_cases hne : k' = k
        · subst hne; rw [hl] at h2; cases h2; exact Or.inr ⟨k', _, hself, h3, h4⟩
        · exact Or.inr ⟨k', l', by rw [get_set_ne _ hne]; exact h2, h3, h4⟩
    · rintro (e | ⟨k', l', h2, h3, h4⟩)
      · exact Or.inl e
      · rcases get_set h2 with ⟨rfl, rfl, _⟩ | ⟨_, h2⟩
        · exact Or.inr ⟨k', l, hl, h3, h4⟩
        · exact Or.inr ⟨k', l', h2, h3, h4⟩
  · intro k' l' j h2 h3
    rw [List.length_set]
    rcases get_set h2 with ⟨rfl, rfl, _⟩ | ⟨_, h2⟩
    · exact h.heirs k' l j hl h3
    · exact h.heirs k' l' j h2 h3

theorem ends_inv {s : Sys} {a : List Link} (h : Inv s a) {k : Nat} {x : Kid} {l : Link} (hx : s.kids[k]? = some x) (hl : a[k]? = some l) :
    Inv { s with kids := s.kids.set k x.ends } (a.set k { l with gone := l.gone || !l.stays }) := by
  have hk := get_lt hl
  have hself : (a.set k { l with gone := l.gone || !l.stays })[k]? = some { l with gone := l.gone || !l.stays } := List.getElem?_set_self hk
  have key : ∀ (k' : Nat) (l' : Link), (a.set k { l with gone := l.gone || !l.stays })[k']? = some l' →
      ∃ l'', a[k']? = some l'' ∧ l''.out = l'.out ∧ l''.inp = l'.inp ∧ l''.heirs = l'.heirs := by
    intro k' l' h2
    rcases get_set h2 with ⟨rfl, rfl, _⟩ | ⟨_, h2⟩
    · exact ⟨l, hl, rfl, rfl, rfl⟩
    · exact ⟨l', h2, rfl, rfl, rfl⟩
  have key' : ∀ (k' : Nat) (l' : Link), a[k']? = some l' →
      ∃ l'', (a.set k { l with gone := l.gone || !l.stays })[k']? = some l'' ∧ l''.out = l'.out ∧ l''.inp = l'.inp ∧ l''.heirs = l'.heirs := by
    intro k' l' h2
    by_cases hne : k' = k
    · subst hne; rw [hl] at h2; cases h2; exact ⟨_, hself, rfl, rfl, rfl⟩
    · exact ⟨l', by rw [get_set_ne _ hne]; exact h2, rfl, rfl, rfl⟩
  refine ⟨by simp [h.kids], by simp [h.conns], by simp [h.next], h.si, h.so, ?_, ?_, ?_, ?_, ?_⟩
  · intro fd p
    rw [h.wr fd p]
    constructor
    · rintro ⟨k', c', l', h1, h2, h3, h4⟩
      obtain ⟨l'', e1, e2, _⟩ := key' k' l' h2
      exact ⟨k', c', l'', h1, e1, e2.trans h3, h4⟩
    · rintro ⟨k', c', l', h1, h2, h3, h4⟩
      obtain ⟨l'', e1, e2, _⟩ := key k' l' h2
      exact ⟨k', c', l'', h1, e1, e2.trans h3, h4⟩
  · intro fd p
    rw [h.rd fd p]
    constructor
    · rintro ⟨k', c', l', h1, h2, h3, h4⟩
      obtain ⟨l'', e1, _, e2, _⟩ := key' k' l' h2
      exact ⟨k', c', l'', h1, e1, e2.trans h3, h4⟩
    · rintro ⟨k', c', l', h1, h2, h3, h4⟩
      obtain ⟨l'', e1, _, e2, _⟩ := key k' l' h2
      exact ⟨k', c', l'', h1, e1, e2.trans h3, h4⟩
  · intro j y m h1 h2
    rcases get_set h1 with ⟨rfl, rfl, _⟩ | ⟨hne, h1⟩
    · rw [hself] at h2
      cases h2
      obtain ⟨b1, b2⟩ := h.alive _ _ _ hx hl
      simp only [Kid.ends, b1, b2]
      cases l.gone <;> cases l.stays <;> simp
    · rw [get_set_ne _ hne] at h2
      exact h.alive _ _ _ h1 h2
  · intro j y p h1
    have h1' : ∃ y', s.kids[j]? = some y' ∧ y'.tab = y.tab := by
      rcases get_set h1 with ⟨rfl, rfl, _⟩ | ⟨hne, h1⟩
      · exact ⟨x, hx, rfl⟩
      · exact ⟨y, h1, rfl⟩
    obtain ⟨y', h1', e⟩ := h1'
    have := h.hold j y' p h1'
    rw [e] at this
    rw [this]
    constructor
    · rintro (e | ⟨k', l', h2, h3, h4⟩)
      · exact Or.inl e
      · obtain ⟨l'', e1, _, _, e2⟩ := key' k' l' h2
        exact Or.inr ⟨k', l'', e1, h3, by rw [e2]; exact h4⟩
    · rintro (e | ⟨k', l', h2, h3, h4⟩)
      · exact Or.inl e
      · obtain ⟨l'', e1, _, _, e2⟩ := key k' l' h2
        exact Or.inr ⟨k', l'', e1, h3, by rw [e2]; exact h4⟩
  · intro k' l' j h2 h3
    rw [List.length_set]
    obtain ⟨l'', e1, _, _, e2⟩ := key k' l' h2
    exact h.heirs k' l'' j e1 (by rw [e2]; exact h3)

theorem open_inv {s : Sys} {a : List Link} (h : Inv s a) {fd n : Nat} (hf : s.tab fd = none) : Inv { s with tab := set s.tab fd (some (.file n)) } a := by
  have other : ∀ x e, s.tab x = some e → x ≠ fd := by rintro x e he rfl; rw [hf] at he; cases he
  refine ⟨h.kids, h.conns, h.next, ?_, ?_, ?_, ?_, h.alive, h.hold, h.heirs⟩
  · obtain ⟨m, hm⟩ := h.si
    exact ⟨m, by simp only; rw [set_ne _ _ _ (other _ _ hm)]; exact hm⟩
  · obtain ⟨m, hm⟩ := h.so
    exact ⟨m, by simp only; rw [set_ne _ _ _ (other _ _ hm)]; exact hm⟩
  · intro x p
    rw [← h.wr x p]
    simp only
    by_cases e : x = fd
    · subst e; rw [set_self, hf]; simp
    · rw [set_ne _ _ _ e]
  · intro x p
    rw [← h.rd x p]
    simp only
    by_cases e : x = fd
    · subst e; rw [set_self, hf]; simp
    · rw [set_ne _ _ _ e]

/-- The places of the two pipes. -/
structure Places (s : Sys) (r1 w1 r2 w2 : Nat) (t2 : Nat → Option End) : Prop where
  atR1 : t2 r1 = some (.rd s.next)
  atW1 : t2 w1 = some (.wr s.next)
  atR2 : t2 r2 = some (.rd (s.next + 1))
  atW2 : t2 w2 = some (.wr (s.next + 1))
  free : s.tab r1 = none ∧ s.tab w1 = none ∧ s.tab r2 = none ∧ s.tab w2 = none
  other : ∀ fd, fd ≠ r1 → fd ≠ w1 → fd ≠ r2 → fd ≠ w2 → t2 fd = s.tab fd
  ne : r1 ≠ w1 ∧ r1 ≠ r2 ∧ r1 ≠ w2 ∧ w1 ≠ r2 ∧ w1 ≠ w2 ∧ r2 ≠ w2

theorem places {s : Sys} {r1 w1 r2 w2 : Nat} {t1 t2 : Nat → Option End} (h1 : Piped s.lim s.tab s.next r1 w1 t1)
    (h2 : Piped s.lim t1 (s.next + 1) r2 w2 t2) : Places s r1 w1 r2 w2 t2 := by
  have n3 : r1 ≠ r2 := by rintro rfl; have := h2.rfree; rw [h1.atR] at this; cases this
  have n3' : r1 ≠ w2 := by rintro rfl; have := h2.wfree; rw [h1.atR] at this; cases this
  have n4 : w1 ≠ r2 := by rintro rfl; have := h2.rfree; rw [h1.atW] at this; cases this
  have n4' : w1 ≠ w2 := by rintro rfl; have := h2.wfree; rw [h1.atW] at this; cases this
  refine ⟨by rw [h2.other _ n3 n3', h1.atR], by rw [h2.other _ n4 n4', h1.atW], h2.atR, h2.atW, ⟨h1.rfree, h1.wfree, ?_, ?_⟩, ?_,
    h1.ne, n3, n3', n4, n4', h2.ne⟩
  · rw [← h1.other _ (Ne.symm n3) (Ne.symm n4)]; exact h2.rfree
  · rw [← h1.other _ (Ne.symm n3') (Ne.symm n4')]; exact h2.wfree
  · intro fd a b c d
    rw [h2.other _ c d, h1.other _ a b]

theorem newTab {s : Sys} {r1 w1 r2 w2 : Nat} {t2 : Nat → Option End} (h : Places s r1 w1 r2 w2 t2) (fd : Nat) (e : End) :
    close (close t2 r1) w2 fd = some e ↔ s.tab fd = some e ∨ (fd = w1 ∧ e = .wr s.next) ∨ (fd = r2 ∧ e = .rd (s.next + 1)) := by
  obtain ⟨n1, n2, n3, n4, n5, n6⟩ := h.ne
  obtain ⟨f1, f2, f3, f4⟩ := h.free
  simp only [close]
  by_cases e1 : fd = w2
  · subst e1
    rw [set_self, f4]
    simp [Ne.symm n5, Ne.symm n6]
  · rw [set_ne _ _ _ e1]
    by_cases e2 : fd = r1
    · subst e2
      rw [set_self, f1]
      simp [n1, n2]
    · rw [set_ne _ _ _ e2]
      by_cases e3 : fd = w1
      · subst e3
        rw [h.atW1, f2]
        simp [n4, eq_comm]
      · by_cases e4 : fd = r2
        · subst e4
          rw [h.atR2, f3]
          simp [e3, eq_comm]
        · rw [h.other fd e2 e3 e4 e1]
          simp [e3, e4]

theorem kidTab {s : Sys} {r1 w1 r2 w2 : Nat} {t1 t2 : Nat → Option End} (h1 : Piped s.lim s.tab s.next r1 w1 t1)
    (h2 : Piped s.lim t1 (s.next + 1) r2 w2 t2) (hi : ∃ n, s.tab s.si = some (.file n)) (ho : ∃ n, s.tab s.so = some (.file n)) (p : Nat) :
    (∃ fd, childTab s.lim t2 s.si s.so r1 w1 r2 w2 fd = some (.wr p)) ↔ (∃ fd, s.tab fd = some (.wr p)) ∨ p = s.next + 1 := by
  have h := places h1 h2
  obtain ⟨n1, n2, n3, n4, n5, n6⟩ := h.ne
  obtain ⟨f1, f2, f3, f4⟩ := h.free
  obtain ⟨ni, hi⟩ := hi
  obtain ⟨no, ho⟩ := ho
  obtain ⟨x, y, hxy, hh⟩ := childTab_eq h1 h2 ⟨_, hi⟩ ⟨_, ho⟩
  obtain ⟨⟨hx, _⟩, ⟨hy, _⟩, he⟩ := hh _ rfl
  have ht : ∀ fd, close (close (close (close t2 s.si) s.so) w1) r2 fd = some (.wr p) ↔ s.tab fd = some (.wr p) ∨ (fd = w2 ∧ p = s.next + 1) := by
    intro fd
    simp only [close]
    by_cases e1 : fd = r2
    · subst e1; rw [set_self, f3]; simp [n6]
    · rw [set_ne _ _ _ e1]
      by_cases e2 : fd = w1
      · subst e2; rw [set_self, f2]; simp [n5]
      · rw [set_ne _ _ _ e2]
        by_cases e3 : fd = s.so
        · subst e3
          rw [set_self, ho]
          simp only [reduceCtorEq, Option.some.injEq, false_or, false_iff, not_and]
          intro e; rw [e, f4] at ho; cases ho
        · rw [set_ne _ _ _ e3]
          by_cases e4 : fd = s.si
          · subst e4
            rw [set_self, hi]
            simp only [reduceCtorEq, Option.some.injEq, false_or, false_iff, not_and]
            intro e; rw [e, f4] at hi; cases hi
          · rw [set_ne _ _ _ e4]
            by_cases e5 : fd = w2
            · subst e5; rw [h.atW2, f4]; simp [eq_comm]
            · by_cases e6 : fd = r1
              · subst e6; rw [h.atR1, f1]; simp [e5]
              · rw [h.other fd e6 e2 e1 e5]; simp [e5]
  rw [he]
  constructor
  · rintro ⟨fd, hfd⟩
    by_cases ey : fd = y
    · subst ey; rw [set_self] at hfd; cases hfd; exact Or.inr rfl
    · rw [set_ne _ _ _ ey] at hfd
      by_cases ex : fd = x
      · subst ex; rw [set_self] at hfd; cases hfd
      · rw [set_ne _ _ _ ex] at hfd
        rcases (ht fd).1 hfd with h | ⟨_, h⟩
        · exact Or.inl ⟨fd, h⟩
        · exact Or.inr h
  · rintro (⟨fd, hfd⟩ | rfl)
    · have := (ht fd).2 (Or.inl hfd)
      refine ⟨fd, ?_⟩
      rw [set_ne _ _ _ (by rintro rfl; rw [hy] at this; cases this), set_ne _ _ _ (by rintro rfl; rw [hx] at this; cases this)]
      exact this
    · exact ⟨y, set_self _ _ _⟩

theorem get_map_append {a : List Link} {n k : Nat} {y l : Link} (h : (a.map (Link.inherit n) ++ [y])[k]? = some l) :
    (∃ l0, a[k]? = some l0 ∧ l = l0.inherit n) ∨ (k = a.length ∧ l = y) := by
  rcases get_append h with ⟨_, h⟩ | ⟨h1, h2⟩
  · rw [List.getElem?_map] at h
    cases ha : a[k]? with
    | none => rw [ha] at h; cases h
    | some l0 => rw [ha] at h; cases h; exact Or.inl ⟨l0, rfl, rfl⟩
  · exact Or.inr ⟨by simpa using h1, h2⟩

theorem map_append_get {a : List Link} (n : Nat) {k : Nat} (y : Link) {l : Link} (h : a[k]? = some l) : (a.map (Link.inherit n) ++ [y])[k]? = some (l.inherit n) := by
  rw [List.getElem?_append_left (by simpa using get_lt h), List.getElem?_map, h]
  rfl

theorem map_append_last {a : List Link} (n : Nat) (y : Link) : (a.map (Link.inherit n) ++ [y])[a.length]? = some y := by
  rw [List.getElem?_append_right (by simp)]
  simp

theorem append_get {α : Type} {a : List α} {k : Nat} (y : α) {x : α} (h : a[k]? = some x) : (a ++ [y])[k]? = some x := by
  rw [List.getElem?_append_left (get_lt h), h]

theorem start_inv {s s' : Sys} {a : List Link} {how : How} {forks : Bool} (h : Inv s a) (hs : start how forks s = .ok s') :
    Inv s' (a.map (Link.inherit a.length) ++ [{ out := true, inp := true, heirs := [], gone := !forks, stays := how.stays }]) := by
  unfold start at hs
  split at hs
  · split at hs <;> cases hs
  next r1 w1 t1 hp1 =>
    split at hs
    · simp only at hs; split at hs <;> cases hs
    next r2 w2 t2 hp2 =>
      simp only at hs
      cases hs
      have h1 := pipe_some hp1
      have h2 := pipe_some hp2
      have hpl := places h1 h2
      have hnt := newTab hpl
      have hkt := kidTab h1 h2 h.si h.so
      generalize hy : ({ out := true, inp := true, heirs := [], gone := !forks, stays := how.stays } : Link) = y
      refine ⟨by simp [h.kids], by simp [h.conns], by simp [h.next]; omega, ?_, ?_, ?_, ?_, ?_, ?_, ?_⟩
      · obtain ⟨n, hn⟩ := h.si
        exact ⟨n, (hnt _ _).2 (Or.inl hn)⟩
      · obtain ⟨n, hn⟩ := h.so
        exact ⟨n, (hnt _ _).2 (Or.inl hn)⟩
      · intro fd p
        simp only
        rw [hnt, h.wr fd p]
        constructor
        · rintro (⟨k, c, l, q1, q2, q3, q4⟩ | ⟨rfl, e⟩ | ⟨_, e⟩)
          · exact ⟨k, c, l.inherit a.length, append_get _ q1, map_append_get _ _ q2, (inherit_out _ _).1.trans q3, q4⟩
          · cases e
            refine ⟨a.length, ⟨r2, fd⟩, y, ?_, map_append_last _ _, by rw [← hy], rfl, h.next⟩
            rw [← h.conns]; simp
          · cases e
        · rintro ⟨k, c, l, q1, q2, q3, q4, q5⟩
          rcases get_map_append q2 with ⟨l0, b1, rfl⟩ | ⟨rfl, rfl⟩
          · rcases get_append q1 with ⟨_, q1⟩ | ⟨e, _⟩
            · exact Or.inl ⟨k, c, l0, q1, b1, (inherit_out _ _).1.symm.trans q3, q4, q5⟩
            · have := get_lt b1
              rw [h.conns] at e; omega
          · rcases get_append q1 with ⟨e, _⟩ | ⟨_, rfl⟩
            · rw [h.conns] at e; omega
            · exact Or.inr (Or.inl ⟨q4, by rw [q5, h.next]⟩)
      · intro fd p
        simp only
        rw [hnt, h.rd fd p]
        constructor
        · rintro (⟨k, c, l, q1, q2, q3, q4⟩ | ⟨_, e⟩ | ⟨rfl, e⟩)
          · exact ⟨k, c, l.inherit a.length, append_get _ q1, map_append_get _ _ q2, (inherit_out _ _).2.1.trans q3, q4⟩
          · cases e
          · cases e
            refine ⟨a.length, ⟨fd, w1⟩, y, ?_, map_append_last _ _, by rw [← hy], rfl, by rw [h.next]⟩
            rw [← h.conns]; simp
        · rintro ⟨k, c, l, q1, q2, q3, q4, q5⟩
          rcases get_map_append q2 with ⟨l0, b1, rfl⟩ | ⟨rfl, rfl⟩
          · rcases get_append q1 with ⟨_, q1⟩ | ⟨e, _⟩
            · exact Or.inl ⟨k, c, l0, q1, b1, (inherit_out _ _).2.1.symm.trans q3, q4, q5⟩
            · have := get_lt b1
              rw [h.conns] at e; omega
          · rcases get_append q1 with ⟨e, _⟩ | ⟨_, rfl⟩
            · rw [h.conns] at e; omega
            · exact Or.inr (Or.inr ⟨q4, by rw [q5, h.next]⟩)
      · intro j x l q1 q2
        rcases get_map_append q2 with ⟨l0, b1, rfl⟩ | ⟨rfl, rfl⟩
        · rcases get_append q1 with ⟨_, q1⟩ | ⟨e, _⟩
          · obtain ⟨_, _, e1, e2⟩ := inherit_out a.length l0
            rw [e1, e2]
            exact h.alive _ _ _ q1 b1
          · have := get_lt b1
            rw [h.kids] at e; omega
        · rcases get_append q1 with ⟨e, _⟩ | ⟨_, rfl⟩
          · rw [h.kids] at e; omega
          · rw [← hy]; simp
      · intro j x p q1
        rcases get_append q1 with ⟨hj, q1⟩ | ⟨hj, rfl⟩
        · rw [h.hold j x p q1]
          rw [h.kids] at hj
          constructor
          · rintro (e | ⟨k, l, q2, q3, q4⟩)
            · exact Or.inl e
            · exact Or.inr ⟨k, l.inherit a.length, map_append_get _ _ q2, q3, (inherit_heirs _ _ _).2 (Or.inr q4)⟩
          · rintro (e | ⟨k, l, q2, q3, q4⟩)
            · exact Or.inl e
            · rcases get_map_append q2 with ⟨l0, b1, rfl⟩ | ⟨rfl, rfl⟩
              · rcases (inherit_heirs _ _ _).1 q4 with ⟨e, _⟩ | q4
                · omega
                · exact Or.inr ⟨k, l0, b1, q3, q4⟩
              · rw [← hy] at q4; cases q4
        · simp only
          rw [hkt, h.next]
          rw [h.kids] at hj
          subst hj
          constructor
          · rintro (⟨fd, e⟩ | e)
            · obtain ⟨k, c, l, _, q2, q3, _, q5⟩ := (h.wr _ _).1 e
              exact Or.inr ⟨k, l.inherit a.length, map_append_get _ _ q2, q5, (inherit_heirs _ _ _).2 (Or.inl ⟨rfl, q3⟩)⟩
            · exact Or.inl e
          · rintro (e | ⟨k, l, q2, q3, q4⟩)
            · exact Or.inr e
            · rcases get_map_append q2 with ⟨l0, b1, rfl⟩ | ⟨rfl, rfl⟩
              · have hk := get_lt b1
                rcases (inherit_heirs _ _ _).1 q4 with ⟨_, q4⟩ | q4
                · have hc : k < s.conns.length := by rw [h.conns]; exact hk
                  exact Or.inl ⟨_, (h.wr _ _).2 ⟨k, s.conns[k], l0, List.getElem?_eq_getElem hc, b1, q4, rfl, q3⟩⟩
                · have := h.heirs _ _ _ b1 q4
                  omega
              · rw [← hy] at q4; cases q4
      · intro k l j q1 q2
        simp only [List.length_append, List.length_map, List.length_singleton]
        rcases get_map_append q1 with ⟨l0, b1, rfl⟩ | ⟨rfl, rfl⟩
        · rcases (inherit_heirs _ _ _).1 q2 with ⟨e, _⟩ | q2
          · omega
          · have := h.heirs _ _ _ b1 q2
            omega
        · rw [← hy] at q2; cases q2

theorem step_inv {s s' : Sys} {a a' : List Link} {e : Ev} (h : Inv s a) (hs : step e s = some s') (ha : follow e a = some a') : Inv s' a' := by
  cases e with
  | start how forks =>
    simp only [step] at hs
    split at hs
    next s1 h1 => cases hs; simp only [follow, Option.some.injEq] at ha; subst ha; exact start_inv h h1
    next => cases hs
  | closeOut k =>
    simp only [step, Option.map_eq_some_iff] at hs
    obtain ⟨c, hc, rfl⟩ := hs
    simp only [follow, Option.bind_eq_some_iff] at ha
    obtain ⟨l, hl, ha⟩ := ha
    split at ha
    next ho => cases ha; exact closeOut_inv h hc hl ho
    next => cases ha
  | closeIn k =>
    simp only [step, Option.map_eq_some_iff] at hs
    obtain ⟨c, hc, rfl⟩ := hs
    simp only [follow, Option.bind_eq_some_iff] at ha
    obtain ⟨l, hl, ha⟩ := ha
    split at ha
    next ho => cases ha; exact closeIn_inv h hc hl ho
    next => cases ha
  | ends k =>
    simp only [step, Option.map_eq_some_iff] at hs
    obtain ⟨x, hx, rfl⟩ := hs
    simp only [follow, Option.map_eq_some_iff] at ha
    obtain ⟨l, hl, rfl⟩ := ha
    exact ends_inv h hx hl
  | open_ n =>
    simp only [step, Option.map_eq_some_iff] at hs
    obtain ⟨fd, hf, rfl⟩ := hs
    cases ha
    exact open_inv h (lowest_some hf).1
  | print t => cases hs; cases ha; exact ⟨h.kids, h.conns, h.next, h.si, h.so, h.wr, h.rd, h.alive, h.hold, h.heirs⟩
  | flush => cases hs; cases ha; exact ⟨h.kids, h.conns, h.next, h.si, h.so, h.wr, h.rd, h.alive, h.hold, h.heirs⟩

theorem run_inv (es : List Ev) : ∀ (s s' : Sys) (a a' : List Link), Inv s a → run es s = some s' → followAll es a = some a' → Inv s' a' := by
  induction es with
  | nil => intro s s' a a' h hs ha; cases hs; cases ha; exact h
  | cons e es ih =>
    intro s s' a a' h hs ha
    simp only [run] at hs
    split at hs
    next s1 h1 =>
      simp only [followAll, Option.bind_eq_some_iff] at ha
      obtain ⟨a1, h2, ha⟩ := ha
      exact ih s1 s' a1 a' (step_inv h h1 h2) hs ha
    next => cases hs

end Eus.Prc
