import Verif.Cpy.Spec
import Mathlib.Tactic.SplitIfs
import Mathlib.Data.Finset.Card
import Mathlib.Data.Finset.Range
import Mathlib.Tactic.Set
import Mathlib.Data.List.Nodup
set_option autoImplicit false
namespace Eus.Cpy

/-! ### words and slots -/

theorem slot_fields {c : Cell} (hb : c.Big) (hr : c.kind ≠ .raw) {i : Nat} : i ∈ fields c ↔ c.Slot i := by
  obtain ⟨cls, kind, size, iv, mark⟩ := c
  cases kind with
  | record =>
    simp only [Cell.Big] at hb
    simp only [fields, Cell.Slot]
    rw [if_pos (by omega)]
    simp only [List.mem_cons, List.mem_append, List.not_mem_nil, or_false, List.mem_map, List.mem_range]
    constructor
    · rintro (h | h | ⟨a, h, rfl⟩) <;> omega
    · intro h
      by_cases h0 : i = 0
      · exact .inr (.inl h0)
      · by_cases h1 : i = 1
        · exact .inl h1
        · exact .inr (.inr ⟨i - 2, by omega, by omega⟩)
  | vector =>
    simp only [Cell.Big] at hb
    simp only [fields, Cell.Slot]
    simp only [List.mem_cons, List.mem_map, List.mem_range]
    constructor
    · rintro (h | ⟨a, h, rfl⟩) <;> omega
    · intro h
      by_cases h1 : i = 1
      · exact .inl h1
      · exact .inr ⟨i - 2, by omega, by omega⟩
  | raw => exact absurd rfl hr

theorem raw_fields {c : Cell} (hr : c.kind = .raw) {i : Nat} (h : c.Content i) : i = 0 ∨ i ∈ fields c := by
  obtain ⟨cls, kind, size, iv, mark⟩ := c
  simp only at hr
  subst hr
  simp only [Cell.Content] at h
  simp only [fields, List.mem_cons, List.mem_map, List.mem_range]
  by_cases h0 : i = 0
  · exact .inl h0
  · by_cases h1 : i = 1
    · exact .inr (.inl h1)
    · exact .inr (.inr ⟨i - 2, by omega, by omega⟩)

theorem fields_ne_zero {c : Cell} (hr : c.kind ≠ .record) {i : Nat} (h : i ∈ fields c) : i ≠ 0 := by
  obtain ⟨cls, kind, size, iv, mark⟩ := c
  cases kind with
  | record => exact absurd rfl hr
  | vector =>
    simp only [fields, List.mem_cons, List.mem_map] at h
    rcases h with h | ⟨a, _, h⟩ <;> omega
  | raw =>
    simp only [fields, List.mem_cons, List.mem_map] at h
    rcases h with h | ⟨a, _, h⟩ <;> omega

theorem pointers_slot {c : Cell} {i : Nat} : i ∈ pointers c ↔ c.Slot i := by
  obtain ⟨cls, kind, size, iv, mark⟩ := c
  cases kind with
  | record => simp [pointers, Cell.Slot]
  | vector =>
    simp only [pointers, Cell.Slot, List.mem_map, List.mem_range]
    constructor
    · rintro ⟨a, h, rfl⟩; omega
    · intro h; exact ⟨i - 1, by omega, by omega⟩
  | raw => simp [pointers, Cell.Slot]

section
variable (h0 : Nat → Cell) (n : Nat)

/-- A marked original with index `k`. -/
def markedCell (c : Cell) (k : Nat) : Cell := ⟨c.cls, c.kind, c.size, Function.update c.iv 1 (.int k), true⟩

/-- The state of `copyobj`: `os` are the originals seen so far, in order. -/
structure Inv (s : St) (os : List Nat) : Prop where
  len : os.length = s.stack.length
  nd : os.Nodup
  lt : ∀ o ∈ os, o < n
  nn : n ≤ s.next
  seen : ∀ k o : Nat, os[k]? = some o → ∃ c, s.stack[k]? = some (c, (h0 o).iv 1) ∧ s.cell o = markedCell (h0 o) k ∧
    n ≤ c ∧ c < s.next ∧ (s.cell c).cls = (h0 o).cls ∧ (s.cell c).kind = (h0 o).kind ∧ (s.cell c).size = (h0 o).size ∧
    (s.cell c).mark = false ∧ ((h0 o).kind ≠ .record → (s.cell c).iv 0 = (h0 o).iv 0)
  rest : ∀ o, o < n → o ∉ os → s.cell o = h0 o
  inj : ∀ (j k c : Nat) (x y : Val), s.stack[j]? = some (c, x) → s.stack[k]? = some (c, y) → j = k

/-- `w` is the copy of `v`. -/
def Tr (os : List Nat) (s : St) (v w : Val) : Prop :=
  match v with
  | .ref o => ∃ (k c : Nat) (x : Val), os[k]? = some o ∧ s.stack[k]? = some (c, x) ∧ w = .ref c
  | v => w = v

/-- The copy number `k` is filled. -/
def Complete (os : List Nat) (s : St) (k : Nat) : Prop :=
  ∀ (o c : Nat) (x : Val), os[k]? = some o → s.stack[k]? = some (c, x) → ∀ i ∈ fields (h0 o),
    if (h0 o).kind = .raw then (s.cell c).iv i = (h0 o).iv i else Tr os s ((h0 o).iv i) ((s.cell c).iv i)

/-- `p` is in a slot of `q`. -/
def Child (q p : Nat) : Prop := ∃ i, (h0 q).Slot i ∧ (h0 q).iv i = .ref p

/-- New originals are first, or children of earlier new ones. -/
def Origin (os os' : List Nat) (P : Nat → Prop) : Prop :=
  ∀ k p : Nat, os.length ≤ k → os'[k]? = some p →
    P p ∨ ∃ j q : Nat, os.length ≤ j ∧ j < k ∧ os'[j]? = some q ∧ Child h0 q p

/-- `s'` follows `s`; copies made before are untouched (but for `ex`). -/
structure Ext (s : St) (os : List Nat) (s' : St) (os' : List Nat) (ex : Nat → Prop) : Prop where
  os : ∃ t, os' = os ++ t
  stack : ∃ t, s'.stack = s.stack ++ t
  next : s.next ≤ s'.next
  frame : ∀ c, n ≤ c → c < s.next → ¬ ex c → s'.cell c = s.cell c

theorem Tr.mono {os os' : List Nat} {s s' : St} {v w : Val} (ho : ∃ t, os' = os ++ t)
    (hs : ∃ t, s'.stack = s.stack ++ t) (h : Tr os s v w) : Tr os' s' v w := by
  obtain ⟨t, rfl⟩ := ho
  obtain ⟨u, hu⟩ := hs
  cases v with
  | ref o =>
    obtain ⟨k, c, x, h1, h2, h3⟩ := h
    refine ⟨k, c, x, ?_, ?_, h3⟩
    · rw [List.getElem?_append_left (List.getElem?_eq_some_iff.1 h1).1]; exact h1
    · rw [hu, List.getElem?_append_left (List.getElem?_eq_some_iff.1 h2).1]; exact h2
  | int => exact h
  | atom => exact h
  | null => exact h

theorem Tr.congr_stack {os : List Nat} {s s' : St} {v w : Val} (hs : s'.stack = s.stack) (h : Tr os s v w) :
    Tr os s' v w := h.mono ⟨[], by simp⟩ ⟨[], by simp [hs]⟩

/-- Outcome of a copying step. -/
def FPost (lim : Nat) (s : St) (os : List Nat) (P : Nat → Prop) (ex : Nat → Prop) {α : Type}
    (Q : List Nat → St → α → Prop) (r : Out α × St) : Prop :=
  ∃ os', Inv h0 n r.2 os' ∧ Ext n s os r.2 os' ex ∧ Origin h0 os os' P ∧
    match r.1 with
    | .ok w => Q os' r.2 w ∧ ∀ k, os.length ≤ k → Complete h0 os' r.2 k
    | .overflow => lim < n
    | .ub => False

theorem setWord_cell (s : St) (o i : Nat) (v : Val) (p : Nat) : (s.setWord o i v).cell p =
    if p = o then ⟨(s.cell o).cls, (s.cell o).kind, (s.cell o).size, Function.update (s.cell o).iv i v, (s.cell o).mark⟩
    else s.cell p := by
  simp only [St.setWord]
  split_ifs with h
  · subst h; rw [Function.update_self]
  · rw [Function.update_of_ne h]

theorem setMark_cell (s : St) (o : Nat) (b : Bool) (p : Nat) : (s.setMark o b).cell p =
    if p = o then ⟨(s.cell o).cls, (s.cell o).kind, (s.cell o).size, (s.cell o).iv, b⟩ else s.cell p := by
  simp only [St.setMark]
  split_ifs with h
  · subst h; rw [Function.update_self]
  · rw [Function.update_of_ne h]

/-- Filling a word of a copy keeps the invariant. -/
theorem Inv.setWord {s : St} {os : List Nat} (h : Inv h0 n s os) {k o c : Nat} {x : Val} (hk : os[k]? = some o)
    (hc : s.stack[k]? = some (c, x)) {i : Nat} (hi : i ∈ fields (h0 o)) (w : Val) :
    Inv h0 n (s.setWord c i w) os := by
  obtain ⟨c', e1, e2, e3, e4, e5, e6, e7, e8, e9⟩ := h.seen k o hk
  rw [hc] at e1
  simp only [Option.some.injEq, Prod.mk.injEq] at e1
  obtain ⟨rfl, _⟩ := e1
  refine ⟨h.len, h.nd, h.lt, h.nn, ?_, ?_, h.inj⟩
  · intro j p hj
    obtain ⟨d, f1, f2, f3, f4, f5, f6, f7, f8, f9⟩ := h.seen j p hj
    have hp : p < n := h.lt p (List.mem_of_getElem? hj)
    refine ⟨d, f1, ?_, f3, f4, ?_, ?_, ?_, ?_, ?_⟩
    · rw [setWord_cell, if_neg (by omega)]; exact f2
    all_goals rw [setWord_cell]
    · split_ifs with hd
      · subst hd; exact f5
      · exact f5
    · split_ifs with hd
      · subst hd; exact f6
      · exact f6
    · split_ifs with hd
      · subst hd; exact f7
      · exact f7
    · split_ifs with hd
      · subst hd; exact f8
      · exact f8
    · intro hr
      split_ifs with hd
      · subst hd
        have hjk := h.inj _ _ _ _ _ f1 hc
        subst hjk
        rw [hk] at hj; cases hj
        simp only
        rw [Function.update_of_ne (Ne.symm (fields_ne_zero hr hi))]
        exact f9 hr
      · exact f9 hr
  · intro p hp hpo
    rw [setWord_cell, if_neg (by omega)]
    exact h.rest p hp hpo

theorem copyFields_spec {lim : Nat} {f : St → Val → Out Val × St} {N : Nat} (A : Val → Prop)
    (hf : ∀ s os v, Inv h0 n s os → N ≤ os.length → A v →
      FPost h0 n lim s os (fun p => v = .ref p) (fun _ => False) (fun os s w => Tr os s v w) (f s v))
    {o c k : Nat} {x : Val} (hx : x = (h0 o).iv 1) :
    ∀ (is : List Nat) (s : St) (os : List Nat), Inv h0 n s os → N ≤ os.length → os[k]? = some o →
      s.stack[k]? = some (c, x) → (∀ i ∈ is, i ∈ fields (h0 o) ∧ A ((h0 o).iv i)) →
      FPost h0 n lim s os (fun p => ∃ i ∈ is, (h0 o).iv i = .ref p) (fun c' => c' = c)
        (fun os' s' _ => ∀ i, (i ∈ is → Tr os' s' ((h0 o).iv i) ((s'.cell c).iv i)) ∧
          (i ∉ is → (s'.cell c).iv i = (s.cell c).iv i)) (copyFields f o c x is s) := by
  intro is
  induction is with
  | nil =>
    intro s os hi hN hk hc hA
    refine ⟨os, hi, ⟨⟨[], by simp⟩, ⟨[], by simp [copyFields]⟩, le_refl _, fun _ _ _ _ => rfl⟩, ?_, ?_⟩
    · intro j p hj hjp
      have := (List.getElem?_eq_some_iff.1 hjp).1; omega
    · simp only [copyFields]
      refine ⟨fun i => ⟨fun h => by simp at h, fun _ => trivial⟩, ?_⟩
      intro j hj p d y hp
      have := (List.getElem?_eq_some_iff.1 hp).1; omega
  | cons i is ih =>
    intro s os hi hN hk hc hA
    obtain ⟨cc, e1, e2, e3, e4, e5, e6, e7, e8, e9⟩ := hi.seen k o hk
    rw [hc] at e1
    simp only [Option.some.injEq, Prod.mk.injEq] at e1
    obtain ⟨rfl, _⟩ := e1
    have hval : (if i = 1 then x else (s.cell o).iv i) = (h0 o).iv i := by
      split_ifs with h1
      · subst h1; exact hx
      · rw [e2]; simp only [markedCell]; rw [Function.update_of_ne h1]
    have hi' := hA i (by simp)
    have hfi := hf s os ((h0 o).iv i) hi hN hi'.2
    rw [copyFields, hval]
    generalize f s ((h0 o).iv i) = r at hfi
    obtain ⟨r, s1⟩ := r
    obtain ⟨os1, i1, x1, g1, q1⟩ := hfi
    simp only at i1 x1 g1 q1
    have g1' : Origin h0 os os1 (fun p => ∃ j ∈ i :: is, (h0 o).iv j = .ref p) := by
      intro j p hj hp
      rcases g1 j p hj hp with h | h
      · exact .inl ⟨i, by simp, h⟩
      · exact .inr h
    have x1' : Ext n s os s1 os1 (fun c' => c' = c) :=
      ⟨x1.os, x1.stack, x1.next, fun d h1 h2 _ => x1.frame d h1 h2 (by simp)⟩
    cases r with
    | overflow => exact ⟨os1, i1, x1', g1', q1⟩
    | ub => exact q1.elim
    | ok w =>
      simp only
      simp only at q1
      obtain ⟨t1, ht1⟩ := x1.os
      obtain ⟨u1, hu1⟩ := x1.stack
      have hk1 : os1[k]? = some o := by
        rw [ht1, List.getElem?_append_left (List.getElem?_eq_some_iff.1 hk).1]; exact hk
      have hc1 : s1.stack[k]? = some (c, x) := by
        rw [hu1, List.getElem?_append_left (List.getElem?_eq_some_iff.1 hc).1]; exact hc
      have i2 := i1.setWord h0 n hk1 hc1 hi'.1 w
      have hcell1 : s1.cell c = s.cell c := x1.frame c e3 e4 (by simp)
      have := ih (s1.setWord c i w) os1 i2 (by rw [ht1]; simp; omega) hk1 hc1
        (fun j hj => hA j (List.mem_cons_of_mem _ hj))
      generalize copyFields f o c x is (s1.setWord c i w) = r2 at this
      obtain ⟨r2, s2⟩ := r2
      obtain ⟨os2, j1, y1, k1, q2⟩ := this
      simp only at j1 y1 k1 q2
      obtain ⟨t2, ht2⟩ := y1.os
      obtain ⟨u2, hu2⟩ := y1.stack
      have hu2' : s2.stack = s1.stack ++ u2 := hu2
      refine ⟨os2, j1, ⟨⟨t1 ++ t2, by rw [ht2, ht1]; simp⟩, ⟨u1 ++ u2, by simp only; rw [hu2', hu1]; simp⟩, ?_, ?_⟩, ?_, ?_⟩
      · exact le_trans x1.next y1.next
      · intro d hd1 hd2 hd3
        simp only
        rw [y1.frame d hd1 (lt_of_lt_of_le hd2 x1.next) hd3, setWord_cell, if_neg hd3]
        exact x1.frame d hd1 hd2 (by simp)
      · intro j p hj hp
        by_cases hj1 : j < os1.length
        · rw [ht2, List.getElem?_append_left hj1] at hp
          rcases g1' j p hj hp with h | ⟨l, q, h1, h2, h3, h4⟩
          · exact .inl h
          · refine .inr ⟨l, q, h1, h2, ?_, h4⟩
            rw [ht2, List.getElem?_append_left (by omega)]; exact h3
        · rcases k1 j p (by omega) hp with ⟨l, h1, h2⟩ | ⟨l, q, h1, h2, h3, h4⟩
          · exact .inl ⟨l, List.mem_cons_of_mem _ h1, h2⟩
          · refine .inr ⟨l, q, ?_, h2, h3, h4⟩
            have : os.length ≤ os1.length := by rw [ht1]; simp
            omega
      · cases r2 with
        | overflow => exact q2
        | ub => exact q2
        | ok _ =>
          simp only at q2 ⊢
          obtain ⟨q2, q3⟩ := q2
          refine ⟨?_, ?_⟩
          · intro j
            refine ⟨fun hj => ?_, fun hj => ?_⟩
            · by_cases hjs : j ∈ is
              · exact (q2 j).1 hjs
              · have : j = i := by simpa [hjs] using hj
                subst this
                rw [(q2 j).2 hjs, setWord_cell, if_pos rfl]
                simp only [Function.update_self]
                exact q1.1.mono ⟨t2, ht2⟩ ⟨u2, hu2'⟩
            · have h1 : j ∉ is := fun h => hj (List.mem_cons_of_mem _ h)
              have h2 : j ≠ i := by rintro rfl; exact hj (by simp)
              rw [(q2 j).2 h1, setWord_cell, if_pos rfl]
              simp only
              rw [Function.update_of_ne h2, hcell1]
          · intro l hl
            by_cases hl1 : os1.length ≤ l
            · exact q3 l hl1
            · -- complete already in s1
              intro p d y hp hd j hj
              have hp' : os1[l]? = some p := by rw [ht2, List.getElem?_append_left (by omega)] at hp; exact hp
              have hd' : s1.stack[l]? = some (d, y) := by
                rw [hu2', List.getElem?_append_left (by rw [← i1.len]; omega)] at hd; exact hd
              have hq := q1.2 l hl p d y hp' hd' j hj
              obtain ⟨d', f1, f2, f3, f4, _⟩ := i1.seen l p hp'
              rw [hd'] at f1
              simp only [Option.some.injEq, Prod.mk.injEq] at f1
              obtain ⟨rfl, _⟩ := f1
              have hdc : d ≠ c := by
                rintro rfl
                have := i1.inj _ _ _ _ _ hd' hc1
                have := (List.getElem?_eq_some_iff.1 hk).1
                omega
              have hcd : s2.cell d = s1.cell d := by
                rw [y1.frame d f3 f4 hdc, setWord_cell, if_neg hdc]
              rw [hcd]
              split_ifs at hq ⊢ with hraw
              · exact hq
              · exact hq.mono ⟨t2, ht2⟩ ⟨u2, hu2'⟩

theorem copyFields_raw (o c : Nat) (hoc : o ≠ c) (x : Val) : ∀ (is : List Nat) (s : St),
    ∃ s', copyFields (fun s v => (.ok v, s)) o c x is s = (.ok (), s') ∧ s'.next = s.next ∧ s'.stack = s.stack ∧
      (∀ p, p ≠ c → s'.cell p = s.cell p) ∧ (s'.cell c).cls = (s.cell c).cls ∧ (s'.cell c).kind = (s.cell c).kind ∧
      (s'.cell c).size = (s.cell c).size ∧ (s'.cell c).mark = (s.cell c).mark ∧
      ∀ i, (s'.cell c).iv i = if i ∈ is then (if i = 1 then x else (s.cell o).iv i) else (s.cell c).iv i
  | [], s => ⟨s, rfl, rfl, rfl, fun _ _ => rfl, rfl, rfl, rfl, rfl, fun i => by simp⟩
  | i :: is, s => by
    obtain ⟨s', h1, h2, h3, h4, h5, h6, h7, h8, h9⟩ := copyFields_raw o c hoc x is
      (s.setWord c i (if i = 1 then x else (s.cell o).iv i))
    have hcc : (s.setWord c i (if i = 1 then x else (s.cell o).iv i)).cell c =
      ⟨(s.cell c).cls, (s.cell c).kind, (s.cell c).size,
        Function.update (s.cell c).iv i (if i = 1 then x else (s.cell o).iv i), (s.cell c).mark⟩ := by
      rw [setWord_cell, if_pos rfl]
    have hco : (s.setWord c i (if i = 1 then x else (s.cell o).iv i)).cell o = s.cell o := by
      rw [setWord_cell, if_neg hoc]
    rw [hcc] at h5 h6 h7 h8 h9
    rw [hco] at h9
    refine ⟨s', ?_, h2, h3, ?_, h5, h6, h7, h8, ?_⟩
    · rw [copyFields]; exact h1
    · intro p hp; rw [h4 p hp, setWord_cell, if_neg hp]
    · intro j
      rw [h9 j]
      by_cases hji : j = i
      · subst hji
        simp only [List.mem_cons, true_or, if_true]
        split_ifs <;> simp
      · simp only [List.mem_cons, hji, false_or, Function.update_of_ne hji]

theorem nodup_length {os : List Nat} (h : os.Nodup) (hl : ∀ o ∈ os, o < n) : os.length ≤ n := by
  have h1 : os.toFinset.card ≤ (Finset.range n).card := Finset.card_le_card (by
    intro o ho; simpa using hl o (by simpa using ho))
  rw [List.toFinset_card_of_nodup h, Finset.card_range] at h1
  exact h1

theorem copyobj_spec (hg : Good n h0) (lim : Nat) (R : Nat → Prop) (hR : ∀ o, R o → o < n ∧ (h0 o).Big ∧
    ∀ p, Child h0 o p → R p) : ∀ (fuel : Nat) (s : St) (os : List Nat) (v : Val), Inv h0 n s os →
    n + 1 ≤ fuel + os.length → (v ≠ .null ∧ ∀ o, v = .ref o → R o) →
    FPost h0 n lim s os (fun p => v = .ref p) (fun _ => False) (fun os s w => Tr os s v w) (copyobj lim fuel s v) := by
  intro fuel
  induction fuel with
  | zero =>
    intro s os v hi hN
    have := nodup_length n hi.nd hi.lt
    omega
  | succ fuel ih =>
    intro s os v hi hN hv
    have triv : ∀ w, Tr os s v w →
        FPost h0 n lim s os (fun p => v = .ref p) (fun _ => False) (fun os s w => Tr os s v w) (Out.ok w, s) := by
      intro w hw
      refine ⟨os, hi, ⟨⟨[], by simp⟩, ⟨[], by simp⟩, le_refl _, fun _ _ _ _ => rfl⟩, ?_, hw, ?_⟩
      · intro j p hj hp
        have := (List.getElem?_eq_some_iff.1 hp).1; omega
      · intro j hj p d y hp
        have := (List.getElem?_eq_some_iff.1 hp).1; omega
    cases v with
    | int i => exact triv _ rfl
    | atom a => exact triv _ rfl
    | null => exact absurd rfl hv.1
    | ref o =>
      have hRo := hv.2 o rfl
      obtain ⟨hon, hbig, hch⟩ := hR o hRo
      rw [copyobj]
      by_cases ho : o ∈ os
      · obtain ⟨k, hk⟩ := List.getElem?_of_mem ho
        obtain ⟨c, e1, e2, e3, _⟩ := hi.seen k o hk
        simp only [e2, markedCell, if_true, Function.update_self, e1]
        exact triv _ ⟨k, c, _, hk, e1, rfl⟩
      · have hco := hi.rest o hon ho
        have hm : (s.cell o).mark = false := by rw [hco]; exact hg.mark o hon
        have hnn := hi.nn
        simp only [hm, Bool.false_eq_true, if_false]
        by_cases hlim : s.stack.length ≥ lim
        · rw [if_pos (by exact hlim)]
          refine ⟨os, ⟨hi.len, hi.nd, hi.lt, ?_, ?_, ?_, hi.inj⟩, ⟨⟨[], by simp⟩, ⟨[], ?_⟩, ?_, ?_⟩, ?_, ?_⟩
          · show n ≤ s.next + 1; omega
          · intro k p hk
            obtain ⟨c, f1, f2, f3, f4, f5⟩ := hi.seen k p hk
            have hpn : p < n := hi.lt p (List.mem_of_getElem? hk)
            have hpo : p ≠ o := by rintro rfl; exact ho (List.mem_of_getElem? hk)
            refine ⟨c, f1, ?_, f3, ?_, ?_⟩
            · rw [setMark_cell, if_neg hpo]
              simp only
              rw [Function.update_of_ne (by omega), setMark_cell, if_neg hpo]
              exact f2
            · show c < s.next + 1; omega
            · have : ((({ s.setMark o true with
                  cell := Function.update (s.setMark o true).cell s.next (fresh ((s.setMark o true).cell o))
                  next := (s.setMark o true).next + 1 } : St).setMark o false).cell c) = s.cell c := by
                rw [setMark_cell, if_neg (by omega)]
                simp only
                rw [Function.update_of_ne (by omega), setMark_cell, if_neg (by omega)]
              simp only [this]
              exact f5
          · intro p hp hpo
            rw [← hi.rest p hp hpo, setMark_cell]
            simp only
            split_ifs with hpe
            · subst hpe
              rw [Function.update_of_ne (by omega), setMark_cell, if_pos rfl]
              simp only
              rw [← hm]
            · rw [Function.update_of_ne (by omega), setMark_cell, if_neg hpe]
          · simp [St.setMark]
          · show s.next ≤ s.next + 1; omega
          · intro c hc1 hc2 _
            simp only
            rw [setMark_cell, if_neg (by omega)]
            simp only
            rw [Function.update_of_ne (by omega), setMark_cell, if_neg (by omega)]
          · intro j p hj hp
            have := (List.getElem?_eq_some_iff.1 hp).1; omega
          · show lim < n
            have h1 : (o :: os).length ≤ n := nodup_length n (List.nodup_cons.2 ⟨ho, hi.nd⟩) (by
              intro p hp
              rcases List.mem_cons.1 hp with rfl | hp
              · exact hon
              · exact hi.lt p hp)
            rw [List.length_cons, hi.len] at h1
            omega
        · rw [if_neg (by exact hlim)]
          -- the state after the push
          set s1 : St := { s.setMark o true with
              cell := Function.update (s.setMark o true).cell s.next (fresh ((s.setMark o true).cell o))
              next := (s.setMark o true).next + 1 } with hs1
          set s2 : St := { s1.setWord o 1 (.int s1.stack.length) with
              stack := (s1.setWord o 1 (.int s1.stack.length)).stack ++ [(s.next, (s.cell o).iv 1)] } with hs2
          have hst : s2.stack = s.stack ++ [(s.next, (h0 o).iv 1)] := by
            simp only [hs2, St.setWord, hs1, St.setMark, hco]
          have hnx : s2.next = s.next + 1 := rfl
          have hother : ∀ p, p ≠ o → p ≠ s.next → s2.cell p = s.cell p := by
            intro p hp hpn
            show (s1.setWord o 1 (.int s1.stack.length)).cell p = _
            rw [setWord_cell, if_neg hp]
            simp only [hs1]
            rw [Function.update_of_ne hpn, setMark_cell, if_neg hp]
          have hself : s2.cell o = markedCell (h0 o) os.length := by
            show (s1.setWord o 1 (.int s1.stack.length)).cell o = _
            rw [setWord_cell, if_pos rfl]
            have : s1.cell o = ⟨(h0 o).cls, (h0 o).kind, (h0 o).size, (h0 o).iv, true⟩ := by
              simp only [hs1]
              rw [Function.update_of_ne (by omega), setMark_cell, if_pos rfl, hco]
            have hl : s1.stack.length = os.length := hi.len.symm
            rw [this, hl]; rfl
          have hclone : s2.cell s.next = fresh (h0 o) := by
            show (s1.setWord o 1 (.int s1.stack.length)).cell s.next = _
            rw [setWord_cell, if_neg (by omega)]
            simp only [hs1]
            rw [Function.update_self, setMark_cell, if_pos rfl, hco]
            rfl
          have hidx : ∀ (k : Nat) (p : Nat), (os ++ [o])[k]? = some p → (os[k]? = some p ∧ k < os.length) ∨
              (k = os.length ∧ p = o) := by
            intro k p hk
            by_cases hkl : k < os.length
            · rw [List.getElem?_append_left hkl] at hk; exact .inl ⟨hk, hkl⟩
            · rw [List.getElem?_append_right (by omega)] at hk
              have h1 := (List.getElem?_eq_some_iff.1 hk).1
              simp only [List.length_singleton] at h1
              have h2 : k = os.length := by omega
              subst h2
              simp at hk; exact .inr ⟨rfl, hk.symm⟩
          have hstk : ∀ (k : Nat), k < os.length → s2.stack[k]? = s.stack[k]? := by
            intro k hk
            rw [hst, List.getElem?_append_left (by rw [← hi.len]; exact hk)]
          have hstn : s2.stack[os.length]? = some (s.next, (h0 o).iv 1) := by
            rw [hst, hi.len, List.getElem?_append_right (by omega)]; simp
          have hi2 : Inv h0 n s2 (os ++ [o]) := by
            refine ⟨by rw [hst]; simp [hi.len], ?_, ?_, by rw [hnx]; omega, ?_, ?_, ?_⟩
            · rw [List.nodup_append]
              exact ⟨hi.nd, by simp, by intro a ha b hb; simp at hb; subst hb; rintro rfl; exact ho ha⟩
            · intro p hp
              rcases List.mem_append.1 hp with hp | hp
              · exact hi.lt p hp
              · simp at hp; subst hp; exact hon
            · intro k p hk
              rcases hidx k p hk with ⟨hk', hkl⟩ | ⟨hke, hpe⟩
              · obtain ⟨c, f1, f2, f3, f4, f5⟩ := hi.seen k p hk'
                have hpn : p < n := hi.lt p (List.mem_of_getElem? hk')
                have hpo : p ≠ o := by rintro rfl; exact ho (List.mem_of_getElem? hk')
                refine ⟨c, by rw [hstk k hkl]; exact f1, by rw [hother p hpo (by omega)]; exact f2, f3, by omega, ?_⟩
                rw [hother c (by omega) (by omega)]; exact f5
              · rw [hke, hpe]
                refine ⟨s.next, hstn, hself, hnn, by omega, ?_⟩
                rw [hclone]
                refine ⟨rfl, rfl, rfl, rfl, ?_⟩
                intro hr
                simp only [fresh]
                cases hkd : (h0 o).kind with
                | record => exact absurd hkd hr
                | vector => simp
                | raw => simp
            · intro p hp hpo
              simp only [List.mem_append, List.mem_singleton, not_or] at hpo
              rw [hother p hpo.2 (by omega)]
              exact hi.rest p hp hpo.1
            · have hlt : ∀ (j : Nat) (c : Nat) (x : Val), s.stack[j]? = some (c, x) → c < s.next := by
                intro j c x hj
                have hjl := (List.getElem?_eq_some_iff.1 hj).1
                rw [← hi.len] at hjl
                obtain ⟨d, f1, _, _, f4, _⟩ := hi.seen j os[j] (List.getElem?_eq_getElem hjl)
                rw [hj] at f1
                simp only [Option.some.injEq, Prod.mk.injEq] at f1
                omega
              have hcase : ∀ (j : Nat) (c : Nat) (x : Val), s2.stack[j]? = some (c, x) →
                  (s.stack[j]? = some (c, x)) ∨ (j = s.stack.length ∧ c = s.next) := by
                intro j c x hj
                rw [hst] at hj
                by_cases hjl : j < s.stack.length
                · rw [List.getElem?_append_left hjl] at hj; exact .inl hj
                · rw [List.getElem?_append_right (by omega)] at hj
                  have h1 := (List.getElem?_eq_some_iff.1 hj).1
                  simp only [List.length_singleton] at h1
                  have h2 : j = s.stack.length := by omega
                  subst h2
                  simp at hj
                  exact .inr ⟨rfl, hj.1.symm⟩
              intro j k c x y hj hk
              rcases hcase j c x hj with hj | ⟨hj, hjc⟩ <;> rcases hcase k c y hk with hk | ⟨hk, hkc⟩
              · exact hi.inj j k c x y hj hk
              · have := hlt j c x hj; omega
              · have := hlt k c y hk; omega
              · omega
          have hkind : (s2.cell o).kind = (h0 o).kind := by rw [hself]; rfl
          have hfields : fields (s2.cell o) = fields (h0 o) := by rw [hself]; rfl
          have hko : (os ++ [o])[os.length]? = some o := by simp
          rw [hkind, hfields, hco]
          -- what is left: from s2 to the end
          have fin : ∀ (os' : List Nat) (s' : St), Ext n s2 (os ++ [o]) s' os' (fun c => c = s.next) →
              Ext n s os s' os' (fun _ => False) := by
            intro os' s' hx
            obtain ⟨t, ht⟩ := hx.os
            obtain ⟨u, hu⟩ := hx.stack
            refine ⟨⟨[o] ++ t, by rw [ht]; simp⟩, ⟨[(s.next, (h0 o).iv 1)] ++ u, by rw [hu, hst]; simp⟩, ?_, ?_⟩
            · have := hx.next; omega
            · intro c hc1 hc2 _
              rw [hx.frame c hc1 (by omega) (by omega), hother c (by omega) (by omega)]
          have finO : ∀ (os' : List Nat), (∃ t, os' = os ++ [o] ++ t) →
              Origin h0 (os ++ [o]) os' (fun p => Child h0 o p) → Origin h0 os os' (fun p => Val.ref o = .ref p) := by
            rintro os' ⟨t, ht⟩ hO j p hj hp
            by_cases hjo : j = os.length
            · subst hjo
              rw [ht] at hp
              simp at hp
              exact .inl (by rw [hp])
            · rcases hO j p (by simp; omega) hp with h | ⟨l, q, h1, h2, h3, h4⟩
              · exact .inr ⟨os.length, o, le_refl _, by omega, by rw [ht]; simp, h⟩
              · simp at h1
                exact .inr ⟨l, q, by omega, h2, h3, h4⟩
          have copyNonraw : (h0 o).kind ≠ .raw → FPost h0 n lim s os (fun p => Val.ref o = .ref p) (fun _ => False)
              (fun os s w => Tr os s (.ref o) w)
              (match copyFields (copyobj lim fuel) o s.next ((h0 o).iv 1) (fields (h0 o)) s2 with
                | (.ok _, s') => (.ok (.ref s.next), s')
                | (.overflow, s') => (.overflow, s')
                | (.ub, s') => (.ub, s')) := by
            intro hr
            have hslot : ∀ i ∈ fields (h0 o), (h0 o).Slot i := fun i hi => (slot_fields hbig hr).1 hi
            have hcf := copyFields_spec h0 n (lim := lim) (f := copyobj lim fuel) (N := os.length + 1)
              (fun v => v ≠ .null ∧ ∀ p, v = .ref p → R p)
              (fun s os v h1 h2 h3 => ih s os v h1 (by omega) h3) (o := o) (c := s.next) (k := os.length) rfl
              (fields (h0 o)) s2 (os ++ [o]) hi2 (by simp) hko hstn
              (fun i hif => ⟨hif, (hg.slot o i hon (hslot i hif)).1, fun p hp => hch p ⟨i, hslot i hif, hp⟩⟩)
            generalize copyFields (copyobj lim fuel) o s.next ((h0 o).iv 1) (fields (h0 o)) s2 = q at hcf
            obtain ⟨q, s3⟩ := q
            obtain ⟨os3, i3, x3, g3, q3⟩ := hcf
            simp only at i3 x3 g3 q3
            have hos3 := x3.os
            have g3' := finO os3 hos3 (by
              intro j p hj hp
              rcases g3 j p hj hp with ⟨i, h1, h2⟩ | h
              · exact .inl ⟨i, hslot i h1, h2⟩
              · exact .inr h)
            obtain ⟨t3, ht3⟩ := hos3
            obtain ⟨u3, hu3⟩ := x3.stack
            have hko3 : os3[os.length]? = some o := by rw [ht3]; simp
            have hst3 : s3.stack[os.length]? = some (s.next, (h0 o).iv 1) := by
              rw [hu3, List.getElem?_append_left (List.getElem?_eq_some_iff.1 hstn).1]; exact hstn
            cases q with
            | overflow => exact ⟨os3, i3, fin _ _ x3, g3', q3⟩
            | ub => exact q3.elim
            | ok _ =>
              refine ⟨os3, i3, fin _ _ x3, g3', ⟨os.length, s.next, _, hko3, hst3, rfl⟩, ?_⟩
              intro j hj
              simp only at q3
              by_cases hjo : j = os.length
              · subst hjo
                intro p d y hp hd i hif
                rw [hko3] at hp; cases hp
                simp only at hd
                rw [hst3] at hd
                simp only [Option.some.injEq, Prod.mk.injEq] at hd
                obtain ⟨rfl, _⟩ := hd
                rw [if_neg hr]
                exact (q3.1 i).1 hif
              · exact q3.2 j (by simp; omega)
          cases hkd : (h0 o).kind with
          | raw =>
            simp only
            obtain ⟨s3, r1, r2, r3, r4, r5, r6, r7, r8, r9⟩ :=
              copyFields_raw o s.next (by omega) ((h0 o).iv 1) (fields (h0 o)) s2
            rw [r1]
            simp only
            have hf3 : ∀ i, i ∈ fields (h0 o) → (s3.cell s.next).iv i = (h0 o).iv i := by
              intro i hi
              rw [r9 i, if_pos hi]
              split_ifs with h1
              · rw [h1]
              · rw [hself]; simp only [markedCell]; rw [Function.update_of_ne h1]
            refine ⟨os ++ [o], ⟨by rw [r3]; exact hi2.len, hi2.nd, hi2.lt, by rw [r2]; exact hi2.nn, ?_, ?_, by rw [r3]; exact hi2.inj⟩,
              fin _ _ ⟨⟨[], by simp⟩, ⟨[], by simp [r3]⟩, by rw [r2], fun c _ _ hc => r4 c hc⟩,
              finO _ ⟨[], by simp⟩ ?_, ?_, ?_⟩
            · intro k p hk
              obtain ⟨c, f1, f2, f3, f4, f5, f6, f7, f8, f9⟩ := hi2.seen k p hk
              have hpn : p < n := hi2.lt p (List.mem_of_getElem? hk)
              simp only [r2, r3]
              refine ⟨c, f1, by rw [r4 p (by omega)]; exact f2, f3, f4, ?_⟩
              by_cases hc : c = s.next
              · subst hc
                have := hi2.inj _ _ _ _ _ f1 hstn
                subst this
                rw [hko] at hk; cases hk
                refine ⟨r5.trans f5, r6.trans f6, r7.trans f7, r8.trans f8, ?_⟩
                intro hr
                rw [r9 0, if_neg (fun h => fields_ne_zero hr h rfl)]
                exact f9 hr
              · rw [r4 c hc]; exact ⟨f5, f6, f7, f8, f9⟩
            · intro p hp hpo
              simp only
              rw [r4 p (by omega)]; exact hi2.rest p hp hpo
            · intro j p hj hp
              have := (List.getElem?_eq_some_iff.1 hp).1; omega
            · exact ⟨os.length, s.next, _, hko, by rw [r3]; exact hstn, rfl⟩
            · intro j hj p d y hp hd i hif
              have : j = os.length := by
                have := (List.getElem?_eq_some_iff.1 hp).1
                simp at this; omega
              subst this
              rw [hko] at hp; cases hp
              rw [r3, hstn] at hd
              simp only [Option.some.injEq, Prod.mk.injEq] at hd
              obtain ⟨rfl, _⟩ := hd
              rw [if_pos hkd]
              exact hf3 i hif
          | record => exact copyNonraw (by simp [hkd])
          | vector => exact copyNonraw (by simp [hkd])

/-! ### removing the marks -/

/-- The state of `copyunmark`: every original is restored or still marked. -/
structure U (os : List Nat) (e s : St) : Prop where
  new : ∀ c, n ≤ c → s.cell c = e.cell c
  stack : s.stack = e.stack
  next : s.next = e.next
  old : ∀ o, o < n → s.cell o = h0 o ∨ ∃ k : Nat, os[k]? = some o ∧ s.cell o = markedCell (h0 o) k

/-- Number of marked originals. -/
def cnt (s : St) : Nat := ((Finset.range n).filter fun o => (s.cell o).mark = true).card

/-- What a run of `copyunmark` from `s` to `s'` does to the marks. -/
structure UPost (os : List Nat) (e s s' : St) : Prop where
  u : U h0 n os e s'
  mono : ∀ o, o < n → (s'.cell o).mark = true → (s.cell o).mark = true
  closed : ∀ o p, o < n → (s.cell o).mark = true → (s'.cell o).mark = false → Child h0 o p → (s'.cell p).mark = false

theorem cnt_mono {s s' : St} (h : ∀ o, o < n → (s'.cell o).mark = true → (s.cell o).mark = true) : cnt n s' ≤ cnt n s := by
  apply Finset.card_le_card
  intro o ho
  simp only [Finset.mem_filter, Finset.mem_range] at ho ⊢
  exact ⟨ho.1, h o ho.1 ho.2⟩

theorem unmarkFields_spec (hg : Good n h0) {os : List Nat} {e : St} {f : St → Val → Option St} {N : Nat}
    (hf : ∀ s v, U h0 n os e s → cnt n s < N → v ≠ .null → (∀ o, v = .ref o → o < n) →
      ∃ s', f s v = some s' ∧ UPost h0 n os e s s' ∧ ∀ o, v = .ref o → (s'.cell o).mark = false)
    {o : Nat} (ho : o < n) : ∀ (is : List Nat) (s : St), U h0 n os e s → cnt n s < N → s.cell o = h0 o →
      (∀ i ∈ is, (h0 o).Slot i) →
      ∃ s', unmarkFields f o is s = some s' ∧ UPost h0 n os e s s' ∧
        ∀ i ∈ is, ∀ p, (h0 o).iv i = .ref p → (s'.cell p).mark = false := by
  intro is
  induction is with
  | nil =>
    intro s hu _ _ _
    exact ⟨s, rfl, ⟨hu, fun _ _ h => h, fun o p _ h1 h2 _ => by rw [h1] at h2; cases h2⟩, by simp⟩
  | cons i is ih =>
    intro s hu hN hco hA
    have hsl := hg.slot o i ho (hA i (by simp))
    obtain ⟨s1, h1, h2, h3⟩ := hf s ((h0 o).iv i) hu hN hsl.1 hsl.2
    have hm1 : (s1.cell o).mark = false := by
      cases hm : (s1.cell o).mark with
      | false => rfl
      | true =>
        have := h2.mono o ho hm
        rw [hco, hg.mark o ho] at this; cases this
    have hco1 : s1.cell o = h0 o := by
      rcases h2.u.old o ho with h | ⟨k, _, h⟩
      · exact h
      · rw [h] at hm1; cases hm1
    obtain ⟨s2, g1, g2, g3⟩ := ih s1 h2.u (lt_of_le_of_lt (cnt_mono n h2.mono) hN) hco1
      (fun j hj => hA j (List.mem_cons_of_mem _ hj))
    have stay : ∀ p, p < n → (s1.cell p).mark = false → (s2.cell p).mark = false := by
      intro p hp h
      cases hm : (s2.cell p).mark with
      | false => rfl
      | true => have := g2.mono p hp hm; rw [h] at this; cases this
    refine ⟨s2, ?_, ⟨g2.u, fun p hp h => h2.mono p hp (g2.mono p hp h), ?_⟩, ?_⟩
    · rw [unmarkFields, hco, h1]; exact g1
    · intro q p hq hq1 hq2 hc
      cases hm : (s1.cell q).mark with
      | true => exact g2.closed q p hq hm hq2 hc
      | false =>
        have hp : p < n := by
          obtain ⟨l, l1, l2⟩ := hc
          exact (hg.slot q l hq l1).2 p l2
        exact stay p hp (h2.closed q p hq hq1 hm hc)
    · intro j hj p hp
      rcases List.mem_cons.1 hj with rfl | hj
      · exact stay p (hsl.2 p hp) (h3 p hp)
      · exact g3 j hj p hp

theorem copyunmark_spec (hg : Good n h0) {os : List Nat} {e : St}
    (hstk : ∀ k o : Nat, os[k]? = some o → ∃ c, e.stack[k]? = some (c, (h0 o).iv 1)) :
    ∀ (fuel : Nat) (s : St) (v : Val), U h0 n os e s → cnt n s < fuel → v ≠ .null → (∀ o, v = .ref o → o < n) →
      ∃ s', copyunmark fuel s v = some s' ∧ UPost h0 n os e s s' ∧ ∀ o, v = .ref o → (s'.cell o).mark = false := by
  intro fuel
  induction fuel with
  | zero => intro s v _ h; omega
  | succ fuel ih =>
    intro s v hu hN hv hvn
    have triv : UPost h0 n os e s s :=
      ⟨hu, fun _ _ h => h, fun o p _ h1 h2 _ => by rw [h1] at h2; cases h2⟩
    cases v with
    | int i => exact ⟨s, rfl, triv, by simp⟩
    | atom a => exact ⟨s, rfl, triv, by simp⟩
    | null => exact absurd rfl hv
    | ref o =>
      have hon := hvn o rfl
      rw [copyunmark]
      rcases hu.old o hon with hc | ⟨k, hk, hc⟩
      · have hm : (s.cell o).mark = false := by rw [hc]; exact hg.mark o hon
        simp only [hm, Bool.false_eq_true, if_false]
        refine ⟨s, rfl, triv, ?_⟩
        intro p hp; cases hp; exact hm
      · obtain ⟨c, hcx⟩ := hstk k o hk
        have hmk : (s.cell o).mark = true := by rw [hc]; rfl
        simp only [hmk, if_true]
        rw [show (s.cell o).iv 1 = .int k by rw [hc]; simp [markedCell]]
        simp only
        rw [hu.stack, hcx]
        simp only
        set s1 := (s.setWord o 1 ((h0 o).iv 1)).setMark o false with hs1
        have hother : ∀ p, p ≠ o → s1.cell p = s.cell p := by
          intro p hp; rw [hs1, setMark_cell, if_neg hp, setWord_cell, if_neg hp]
        have hself : s1.cell o = h0 o := by
          rw [hs1, setMark_cell, if_pos rfl, setWord_cell, if_pos rfl, hc]
          simp only [markedCell, Function.update_idem, Function.update_eq_self]
          rw [← hg.mark o hon]
        have hu1 : U h0 n os e s1 := by
          refine ⟨fun c hc => ?_, hu.stack, hu.next, fun p hp => ?_⟩
          · rw [hother c (by omega)]; exact hu.new c hc
          · by_cases hpo : p = o
            · subst hpo; exact .inl hself
            · rw [hother p hpo]; exact hu.old p hp
        have hcnt : cnt n s1 < cnt n s := by
          apply Finset.card_lt_card
          refine ⟨?_, ?_⟩
          · intro p hp
            simp only [Finset.mem_filter, Finset.mem_range] at hp ⊢
            refine ⟨hp.1, ?_⟩
            by_cases hpo : p = o
            · subst hpo; exact hmk
            · rw [← hother p hpo]; exact hp.2
          · intro hsub
            have := hsub (show o ∈ _ by
              simp only [Finset.mem_filter, Finset.mem_range]; exact ⟨hon, hmk⟩)
            simp only [Finset.mem_filter] at this
            rw [hself, hg.mark o hon] at this
            exact absurd this.2 (by simp)
        obtain ⟨s2, g1, g2, g3⟩ := unmarkFields_spec h0 n hg (N := fuel) ih hon (pointers (s1.cell o)) s1 hu1
          (by omega) hself (by rw [hself]; intro i hi; exact pointers_slot.1 hi)
        have ho2 : (s2.cell o).mark = false := by
          cases hm : (s2.cell o).mark with
          | false => rfl
          | true => have := g2.mono o hon hm; rw [hself, hg.mark o hon] at this; cases this
        refine ⟨s2, g1, ⟨g2.u, ?_, ?_⟩, ?_⟩
        · intro p hp hm
          have := g2.mono p hp hm
          by_cases hpo : p = o
          · subst hpo; exact hmk
          · rwa [hother p hpo] at this
        · intro q p hq hq1 hq2 hch
          by_cases hqo : q = o
          · subst hqo
            obtain ⟨i, i1, i2⟩ := hch
            exact g3 i (by rw [hself]; exact pointers_slot.2 i1) p i2
          · exact g2.closed q p hq (by rw [hother q hqo]; exact hq1) hq2 hch
        · intro p hp; cases hp; exact ho2

/-! ### the whole -/

theorem inv_start (s : St) (hc : ∀ o, o < n → s.cell o = h0 o) (hn : s.next = n) : Inv h0 n { s with stack := [] } [] :=
  ⟨rfl, List.nodup_nil, by simp, by simp [hn], by simp, fun o ho _ => hc o ho, by simp⟩

/-- Everything about one call. -/
theorem COPYOBJ_spec (s : St) (hg : Good s.next s.cell) (lim fuel : Nat) (hfuel : s.next + 1 ≤ fuel) (v : Val)
    (hv : v ≠ .null) (hvn : ∀ o, v = .ref o → o < s.next) (hbig : ∀ o, Reach s.cell v o → (s.cell o).Big) :
    let r := COPYOBJ lim fuel s v
    (∀ o, o < s.next → r.2.cell o = s.cell o) ∧
    match r.1 with
    | .ok w => IsCopy s.next s.cell r.2.cell v w
    | .overflow => lim < s.next
    | .ub => False := by
  intro r
  have hlt : ∀ o, Reach s.cell v o → o < s.next := by
    intro o ho
    induction ho with
    | root h => exact hvn _ h
    | step _ h1 h2 ih => exact (hg.slot _ _ ih h1).2 _ h2
  have h1 := copyobj_spec s.cell s.next hg lim (fun o => Reach s.cell v o)
    (fun o ho => ⟨hlt o ho, hbig o ho, fun p ⟨i, i1, i2⟩ => .step ho i1 i2⟩) fuel _ [] v
    (inv_start s.cell s.next s (fun _ _ => rfl) rfl) (by simpa using hfuel) ⟨hv, fun o ho => .root ho⟩
  simp only [r, COPYOBJ]
  generalize copyobj lim fuel { s with stack := [] } v = q at h1
  obtain ⟨q, e⟩ := q
  obtain ⟨os, hi, hx, hO, hq⟩ := h1
  simp only at hi hx hO hq
  have hU : U s.cell s.next os e e := by
    refine ⟨fun _ _ => rfl, rfl, rfl, fun o ho => ?_⟩
    by_cases hos : o ∈ os
    · obtain ⟨k, hk⟩ := List.getElem?_of_mem hos
      obtain ⟨c, _, h2, _⟩ := hi.seen k o hk
      exact .inr ⟨k, hk, h2⟩
    · exact .inl (hi.rest o ho hos)
  have hcnt : cnt s.next e < fuel := by
    have : cnt s.next e ≤ s.next := by
      unfold cnt
      exact le_trans (Finset.card_filter_le _ _) (by simp)
    omega
  obtain ⟨s', g1, g2, g3⟩ := copyunmark_spec s.cell s.next hg
    (fun k o hk => by obtain ⟨c, h2, _⟩ := hi.seen k o hk; exact ⟨c, h2⟩) fuel e v hU hcnt hv hvn
  have hmark : ∀ (k o : Nat), os[k]? = some o → (s'.cell o).mark = false := by
    intro k
    induction k using Nat.strong_induction_on with
    | _ k ih =>
      intro o hk
      rcases hO k o (by simp) hk with h | ⟨j, p, _, h2, h3, h4⟩
      · exact g3 o h
      · have hp := ih j h2 p h3
        obtain ⟨c, _, f2, _⟩ := hi.seen j p h3
        exact g2.closed p o (hi.lt p (List.mem_of_getElem? h3)) (by rw [f2]; rfl) hp h4
  have hold : ∀ o, o < s.next → s'.cell o = s.cell o := by
    intro o ho
    rcases g2.u.old o ho with h | ⟨k, hk, h⟩
    · exact h
    · have := hmark k o hk
      rw [h] at this; cases this
  cases q with
  | ub => exact hq.elim
  | overflow => simp only [g1]; exact ⟨hold, hq⟩
  | ok w =>
    simp only [g1]
    refine ⟨hold, ?_⟩
    obtain ⟨hw, hcomp⟩ := hq
    -- all that can be reached has been copied
    have hidx : ∀ o, Reach s.cell v o → ∃ k : Nat, os[k]? = some o := by
      intro o ho
      induction ho with
      | root h =>
        subst h
        obtain ⟨k, _, _, h1, _⟩ := hw
        exact ⟨k, h1⟩
      | @step o p i hro hs hp ih =>
        obtain ⟨k, hk⟩ := ih
        obtain ⟨c, h1, _⟩ := hi.seen k o hk
        have hr : (s.cell o).kind ≠ .raw := by
          intro hr; simp only [Cell.Slot, hr] at hs
        have := hcomp k (by simp) o c _ hk h1 i ((slot_fields (hbig o hro) hr).2 hs)
        rw [if_neg hr, hp] at this
        obtain ⟨j, _, _, h1, _⟩ := this
        exact ⟨j, h1⟩
    -- the renaming
    classical
    let φ : Nat → Nat := fun o => ((e.stack[os.idxOf o]?).map Prod.fst).getD 0
    have hφ : ∀ (k o c : Nat) (x : Val), os[k]? = some o → e.stack[k]? = some (c, x) → φ o = c := by
      intro k o c x hk hc
      obtain ⟨hkl, hke⟩ := List.getElem?_eq_some_iff.1 hk
      have : os.idxOf o = k := by rw [← hke]; exact hi.nd.idxOf_getElem k hkl
      simp only [φ, this, hc, Option.map_some, Option.getD_some]
    have hTr : ∀ u w, Tr os e u w → w = u.map φ := by
      intro u w h
      cases u with
      | ref o =>
        obtain ⟨k, c, x, h1, h2, h3⟩ := h
        rw [h3]; simp only [Val.map, hφ k o c x h1 h2]
      | int => exact h
      | atom => exact h
      | null => exact h
    refine ⟨φ, hTr _ _ hw, ?_, ?_⟩
    · intro o p ho hp hop
      obtain ⟨j, hj⟩ := hidx o ho
      obtain ⟨k, hk⟩ := hidx p hp
      obtain ⟨c, c1, _⟩ := hi.seen j o hj
      obtain ⟨d, d1, _⟩ := hi.seen k p hk
      rw [hφ j o c _ hj c1, hφ k p d _ hk d1] at hop
      subst hop
      have := hi.inj _ _ _ _ _ c1 d1
      subst this
      rw [hj] at hk; cases hk; rfl
    · intro o ho
      obtain ⟨k, hk⟩ := hidx o ho
      obtain ⟨c, f1, f2, f3, f4, f5, f6, f7, f8, f9⟩ := hi.seen k o hk
      rw [hφ k o c _ hk f1, g2.u.new c f3]
      refine ⟨f3, f5, f6, f7, f8, ?_⟩
      intro i hci
      have hcm := hcomp k (by simp) o c _ hk f1 i
      refine ⟨fun hsl => ?_, fun hsl => ?_⟩
      · have hr : (s.cell o).kind ≠ .raw := by
          intro hr; simp only [Cell.Slot, hr] at hsl
        have := hcm ((slot_fields (hbig o ho) hr).2 hsl)
        rw [if_neg hr] at this
        exact hTr _ _ this
      · cases hkd : (s.cell o).kind with
        | record => simp only [Cell.Slot, Cell.Content, hkd] at hsl hci; exact absurd hci hsl
        | vector =>
          simp only [Cell.Slot, Cell.Content, hkd] at hsl hci
          have : i = 0 := by omega
          subst this
          exact f9 (by simp [hkd])
        | raw =>
          rcases raw_fields hkd hci with rfl | hif
          · exact f9 (by simp [hkd])
          · have := hcm hif
            rw [if_pos hkd] at this; exact this

end
end Eus.Cpy
