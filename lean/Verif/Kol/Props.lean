import Verif.Kol.Spec
import Mathlib.Data.List.Nodup
import Mathlib.Data.List.Rotate
set_option autoImplicit false
/-
C213: keyed-object-list.
-/
namespace Eus.Kol

theorem findKey_none (k : Option Nat) (l : List Obj) : findKey k l = none ↔ ∀ o ∈ l, o.key ≠ k := by
  unfold findKey
  rw [List.find?_eq_none]
  simp

theorem findKey_some {k : Option Nat} {l : List Obj} {o : Obj} (h : findKey k l = some o) : o ∈ l ∧ o.key = k := by
  unfold findKey at h
  exact ⟨List.mem_of_find?_eq_some h, by simpa using List.find?_some h⟩

theorem findKey_mem (k : Option Nat) (l : List Obj) (hn : (l.map Obj.key).Nodup) (o : Obj) (ho : o ∈ l) (hk : o.key = k) : findKey k l = some o := by
  cases h : findKey k l with
  | none => exact absurd hk ((findKey_none k l).1 h o ho)
  | some p =>
    obtain ⟨a, b⟩ := findKey_some h
    rw [List.inj_on_of_nodup_map hn a ho (b.trans hk.symm)]

/-- keys differ -/
def Good (s : Kol) : Prop := (s.objs.map Obj.key).Nodup

theorem get_objs (s : Kol) (k : Option Nat) : (get s k).2.objs = s.objs ∧ (get s k).2.next = s.next := by
  unfold get
  split
  · exact ⟨rfl, rfl⟩
  · split <;> exact ⟨rfl, rfl⟩

theorem nodup_append {l : List Obj} {o : Obj} (h : (l.map Obj.key).Nodup) (hk : findKey o.key l = none) : ((l ++ [o]).map Obj.key).Nodup := by
  rw [List.map_append, List.nodup_append]
  refine ⟨h, by simp, ?_⟩
  intro a ha b hb
  obtain ⟨p, hp, rfl⟩ := List.mem_map.1 ha
  simp only [List.map_cons, List.map_nil, List.mem_singleton] at hb
  subst hb
  exact (findKey_none _ _).1 hk p hp

theorem remove_objs (s : Kol) (k : Option Nat) : (remove s k).objs.Sublist s.objs ∧ (remove s k).next = s.next := by
  unfold remove
  obtain ⟨h1, h2⟩ := get_objs s k
  rcases hg : get s k with ⟨g, s1⟩
  rw [hg] at h1 h2
  simp only at h1 h2 ⊢
  refine ⟨?_, h2⟩
  cases g with
  | none => rw [h1]
  | some o => rw [h1]; exact List.filter_sublist

theorem new_old {s : Kol} {k : Option Nat} {g : Obj} (h : findKey k s.objs = some g) : step s (.new k) = s := by
  show (new s k).2 = s
  unfold new; rw [h]

theorem new_new {s : Kol} {k : Option Nat} (h : findKey k s.objs = none) :
    step s (.new k) = { s with objs := s.objs ++ [⟨s.next, k⟩], next := s.next + 1 } := by
  show (new s k).2 = _
  unfold new; rw [h]

theorem add_old {s : Kol} {o g : Obj} (h : findKey o.key s.objs = some g) : step s (.add o) = s := by
  show add s o = s
  unfold add; rw [h]

theorem add_new {s : Kol} {o : Obj} (h : findKey o.key s.objs = none) : step s (.add o) = { s with objs := s.objs ++ [o] } := by
  show add s o = _
  unfold add; rw [h]

theorem tnew_old {t : Table} {k : Option Nat} {g : Obj} (h : t.at_ k = some g) : t.step (.new k) = t := by
  show (match t.at_ k with
    | some _ => t
    | none => { t.put k (some ⟨t.next, k⟩) with next := t.next + 1 }) = t
  rw [h]

theorem tnew_new {t : Table} {k : Option Nat} (h : t.at_ k = none) : t.step (.new k) = { t.put k (some ⟨t.next, k⟩) with next := t.next + 1 } := by
  show (match t.at_ k with
    | some _ => t
    | none => { t.put k (some ⟨t.next, k⟩) with next := t.next + 1 }) = _
  rw [h]

theorem tadd_old {t : Table} {o g : Obj} (h : t.at_ o.key = some g) : t.step (.add o) = t := by
  show (match t.at_ o.key with
    | some _ => t
    | none => t.put o.key (some o)) = t
  rw [h]

theorem tadd_new {t : Table} {o : Obj} (h : t.at_ o.key = none) : t.step (.add o) = t.put o.key (some o) := by
  show (match t.at_ o.key with
    | some _ => t
    | none => t.put o.key (some o)) = _
  rw [h]

theorem step_good (s : Kol) (op : Op) (h : Good s) : Good (step s op) := by
  unfold Good at *
  cases op with
  | get k => rw [step, (get_objs s k).1]; exact h
  | new k =>
    cases hf : findKey k s.objs with
    | some g => rw [new_old hf]; exact h
    | none => rw [new_new hf]; exact nodup_append (o := ⟨s.next, k⟩) h hf
  | add o =>
    cases hf : findKey o.key s.objs with
    | some g => rw [add_old hf]; exact h
    | none => rw [add_new hf]; exact nodup_append h hf
  | remove k => exact h.sublist ((remove_objs s k).1.map _)
  | resetTry n => exact h

theorem run_good (ops : List Op) : ∀ s, Good s → Good (ops.foldl step s) := by
  induction ops with
  | nil => intro s h; exact h
  | cons o l ih => intro s h; exact ih _ (step_good s o h)

/-- C213.  After every history no two objects have the same key. -/
theorem C213_keys (ops : List Op) : (keys (ops.foldl step init)).Nodup := run_good ops init (by simp [Good, init])

/-- the list is the table -/
def Rep (s : Kol) (t : Table) : Prop := Good s ∧ s.next = t.next ∧ ∀ k, findKey k s.objs = t.at_ k

theorem findKey_append (k : Option Nat) (l : List Obj) (o : Obj) (h : findKey o.key l = none) :
    findKey k (l ++ [o]) = if k = o.key then some o else findKey k l := by
  unfold findKey at *
  rw [List.find?_append]
  by_cases hk : k = o.key
  · subst hk
    rw [h, if_pos rfl]
    simp
  · rw [if_neg hk]
    have : (o.key == k) = false := by simpa using fun e => hk e.symm
    simp [this]

theorem findKey_filter (k j : Option Nat) (l : List Obj) (hn : (l.map Obj.key).Nodup) (o : Obj) (ho : findKey k l = some o) :
    findKey j (l.filter (fun x => x != o)) = if j = k then none else findKey j l := by
  obtain ⟨hm, hk⟩ := findKey_some ho
  by_cases h : j = k
  · rw [if_pos h, findKey_none]
    intro p hp hpk
    rw [List.mem_filter] at hp
    have : p = o := List.inj_on_of_nodup_map hn hp.1 hm (by rw [hpk, h, hk])
    simp [this] at hp
  · rw [if_neg h]
    cases hf : findKey j l with
    | none =>
      rw [findKey_none] at hf ⊢
      exact fun p hp => hf p (List.mem_of_mem_filter hp)
    | some q =>
      obtain ⟨a, b⟩ := findKey_some hf
      refine findKey_mem j _ (hn.sublist (List.filter_sublist.map _)) q ?_ b
      rw [List.mem_filter]
      refine ⟨a, ?_⟩
      simp only [bne_iff_ne, ne_eq]
      intro e
      exact h (by rw [← b, e, hk])

theorem step_rep (s : Kol) (t : Table) (op : Op) (hop : Named op) (h : Rep s t) : Rep (step s op) (t.step op) := by
  obtain ⟨hg, hn, hf⟩ := h
  have hg' := step_good s op hg
  cases op with
  | get k =>
    obtain ⟨a, b⟩ := get_objs s k
    exact ⟨hg', by rw [step, b]; exact hn, fun j => by rw [step, a]; exact hf j⟩
  | new k =>
    cases hk : findKey k s.objs with
    | some g =>
      have ht := hk; rw [hf k] at ht
      rw [new_old hk, tnew_old ht]
      exact ⟨hg, hn, hf⟩
    | none =>
      have ht := hk; rw [hf k] at ht
      refine ⟨hg', ?_, ?_⟩
      · rw [new_new hk, tnew_new ht]
        simp only; rw [hn]
      · intro j
        rw [new_new hk, tnew_new ht]
        simp only [Table.put]
        rw [findKey_append j s.objs ⟨s.next, k⟩ hk, hf j, hn]
  | add o =>
    cases hk : findKey o.key s.objs with
    | some g =>
      have ht := hk; rw [hf o.key] at ht
      rw [add_old hk, tadd_old ht]
      exact ⟨hg, hn, hf⟩
    | none =>
      have ht := hk; rw [hf o.key] at ht
      refine ⟨hg', ?_, ?_⟩
      · rw [add_new hk, tadd_new ht]
        exact hn
      · intro j
        rw [add_new hk, tadd_new ht]
        simp only [Table.put]
        rw [findKey_append j s.objs o hk, hf j]
  | remove k =>
    refine ⟨hg', by rw [step, (remove_objs s k).2]; exact hn, ?_⟩
    intro j
    cases k with
    | none => exact absurd hop (by simp [Named])
    | some k =>
      show findKey j (remove s (some k)).objs = if j = some k then none else t.at_ j
      unfold remove get
      simp only
      cases hk : findKey (some k) s.objs with
      | some o => simp only; rw [findKey_filter _ j _ hg o hk, hf j]
      | none =>
        simp only
        by_cases e : j = some k
        · rw [if_pos e, e]; exact hk
        · rw [if_neg e]; exact hf j
  | resetTry n => exact ⟨hg', hn, hf⟩

theorem run_rep (ops : List Op) : ∀ s t, (∀ o ∈ ops, Named o) → Rep s t → Rep (ops.foldl step s) (ops.foldl Table.step t) := by
  induction ops with
  | nil => intro s t _ h; exact h
  | cons o l ih => intro s t ho h; exact ih _ _ (fun p hp => ho p (List.mem_cons_of_mem _ hp)) (step_rep s t o (ho o List.mem_cons_self) h)

/-- C213.  `(send l :get key)` after every history gives the object the history has put under the key and not removed: the first one. -/
theorem C213_get_partial (ops : List Op) (ho : ∀ o ∈ ops, Named o) (k : Nat) :
    (get (ops.foldl step init) (some k)).1 = (ops.foldl Table.step ⟨fun _ => none, 0⟩).at_ (some k) := by
  have := run_rep ops init ⟨fun _ => none, 0⟩ ho ⟨by simp [Good, init], rfl, fun k => rfl⟩
  exact this.2.2 (some k)

/-- the turn is within the list -/
def Turn (s : Kol) : Prop := s.try_ < s.objs.length ∨ s.try_ = 0

theorem step_turn (s : Kol) (op : Op) (hp : Plain op) (h : Turn s) : Turn (step s op) := by
  unfold Turn at *
  cases op with
  | get k =>
    show (get s k).2.try_ < (get s k).2.objs.length ∨ (get s k).2.try_ = 0
    unfold get
    split
    · exact h
    · split
      · exact h
      · simp only; split <;> omega
  | new k =>
    cases hk : findKey k s.objs with
    | some g => rw [new_old hk]; exact h
    | none => rw [new_new hk]; simp only [List.length_append, List.length_cons, List.length_nil]; omega
  | add o =>
    cases hk : findKey o.key s.objs with
    | some g => rw [add_old hk]; exact h
    | none => rw [add_new hk]; simp only [List.length_append, List.length_cons, List.length_nil]; omega
  | remove k =>
    show (remove s k).try_ < (remove s k).objs.length ∨ (remove s k).try_ = 0
    unfold remove
    rcases get s k with ⟨g, s1⟩
    cases g <;> simp only <;> split <;> omega
  | resetTry n => right; exact hp

theorem run_turn (ops : List Op) : ∀ s, (∀ o ∈ ops, Plain o) → Turn s → Turn (ops.foldl step s) := by
  induction ops with
  | nil => intro s _ h; exact h
  | cons o l ih => intro s ho h; exact ih _ (fun p hp => ho p (List.mem_cons_of_mem _ hp)) (step_turn s o (ho o List.mem_cons_self) h)

theorem rounds_spec (objs : List Obj) (hne : objs ≠ []) (nx : Nat) (n : Nat) : ∀ t, t < objs.length →
    (rounds ⟨objs, t, nx⟩ n).1 = (List.range n).map (fun i => objs[(t + i) % objs.length]?) ∧
    (rounds ⟨objs, t, nx⟩ n).2 = ⟨objs, (t + n) % objs.length, nx⟩ := by
  have hl : 0 < objs.length := List.length_pos_iff.2 hne
  induction n with
  | zero => intro t ht; exact ⟨rfl, by simp [rounds, Nat.mod_eq_of_lt ht]⟩
  | succ n ih =>
    intro t ht
    have hg : get ⟨objs, t, nx⟩ none = (objs[t]?, ⟨objs, (t + 1) % objs.length, nx⟩) := by
      unfold get
      simp only
      rw [if_neg (by omega)]
      by_cases e : t + 1 ≥ objs.length
      · have : t + 1 = objs.length := by omega
        rw [if_pos e, this, Nat.mod_self]
      · rw [if_neg e, Nat.mod_eq_of_lt (by omega)]
    rw [rounds, hg]
    obtain ⟨a, b⟩ := ih ((t + 1) % objs.length) (Nat.mod_lt _ hl)
    simp only
    constructor
    · rw [a, List.range_succ_eq_map, List.map_cons, List.map_map]
      congr 1
      · simp [Nat.mod_eq_of_lt ht]
      · apply List.map_congr_left
        intro i _
        simp only [Function.comp, Nat.mod_add_mod]
        congr 2
        omega
    · rw [b, Nat.mod_add_mod]
      congr 2
      omega

/-- C213.  After every history, as many `(send l :get)` as there are objects give every object once, in order from the one whose turn it is, and then it is its turn again. -/
theorem C213_round (ops : List Op) (ho : ∀ o ∈ ops, Plain o) (s : Kol) (hs : s = ops.foldl step init) :
    (rounds s s.objs.length).1 = (s.objs.rotate s.try_).map some ∧ (rounds s s.objs.length).2 = s := by
  have ht := run_turn ops init ho (Or.inr rfl)
  rw [← hs] at ht
  obtain ⟨objs, t, nx⟩ := s
  by_cases hne : objs = []
  · subst hne
    exact ⟨by simp [rounds], rfl⟩
  · have hl : 0 < objs.length := List.length_pos_iff.2 hne
    have htl : t < objs.length := by
      rcases ht with h | h
      · exact h
      · simp only at h; omega
    obtain ⟨a, b⟩ := rounds_spec objs hne nx objs.length t htl
    refine ⟨?_, ?_⟩
    · simp only
      rw [a]
      apply List.ext_getElem?
      intro i
      simp only [List.getElem?_map]
      by_cases hi : i < objs.length
      · rw [List.getElem?_range hi, List.getElem?_rotate hi]
        simp only [Option.map_some]
        rw [Nat.add_comm t i]
        rw [List.getElem?_eq_getElem (Nat.mod_lt _ hl)]
        rfl
      · rw [List.getElem?_eq_none (by simpa using hi), List.getElem?_eq_none (by simpa using hi)]
        rfl
    · rw [b]
      simp [Nat.mod_eq_of_lt htl]

/-- C213 fails: `(send l :remove nil)`, for an object without key, removes the object whose turn it is. -/
theorem C213_remove_nil_wrong (o : Obj) (l : List Obj) (nx : Nat) (hn : ((o :: l).map Obj.key).Nodup) :
    (remove ⟨o :: l, 0, nx⟩ none).objs = l := by
  unfold remove get
  simp only [List.length_cons]
  rw [if_neg (by omega)]
  simp only [List.getElem?_cons_zero]
  rw [List.filter_cons_of_neg (by simp), List.filter_eq_self]
  intro p hp
  simp only [bne_iff_ne, ne_eq]
  intro e
  rw [List.map_cons, List.nodup_cons] at hn
  exact hn.1 (e ▸ List.mem_map_of_mem hp)

/-- C213 fails: if an object that has had its turn is removed, the next one is passed over. -/
theorem C213_skip_wrong (a : Nat) (b c : Obj) (l : List Obj) (i nx : Nat) (hn : ((⟨i, some a⟩ :: b :: c :: l).map Obj.key).Nodup) :
    (get (remove (get ⟨⟨i, some a⟩ :: b :: c :: l, 0, nx⟩ none).2 (some a)) none).1 = some c := by
  have hf : (⟨i, some a⟩ :: b :: c :: l).filter (fun x => x != (⟨i, some a⟩ : Obj)) = b :: c :: l := by
    rw [List.filter_cons_of_neg (by simp), List.filter_eq_self]
    intro p hp
    simp only [bne_iff_ne, ne_eq]
    intro e
    rw [List.map_cons, List.nodup_cons] at hn
    exact hn.1 (e ▸ List.mem_map_of_mem hp)
  have h1 : (get ⟨⟨i, some a⟩ :: b :: c :: l, 0, nx⟩ none).2 = ⟨⟨i, some a⟩ :: b :: c :: l, 1, nx⟩ := by
    unfold get
    simp only [List.length_cons]
    rw [if_neg (by omega), if_neg (by omega)]
  rw [h1]
  have h2 : remove ⟨⟨i, some a⟩ :: b :: c :: l, 1, nx⟩ (some a) = ⟨b :: c :: l, 1, nx⟩ := by
    unfold remove get
    simp only [findKey, List.find?_cons, beq_self_eq_true, hf, List.length_cons]
    rw [if_neg (by omega)]
  rw [h2]
  unfold get
  simp only [List.length_cons]
  rw [if_neg (by omega)]
  rfl

def exOps : List Op := [.new (some 5), .add ⟨77, some 6⟩, .get none, .new (some 5), .new (some 8), .remove (some 6), .resetTry 0]
example : (∀ o ∈ exOps, Named o) ∧ (∀ o ∈ exOps, Plain o) := by simp [exOps, Named, Plain]
example : (get (exOps.foldl step init) (some 8)).1 = some ⟨1, some 8⟩ ∧ (get (exOps.foldl step init) (some 6)).1 = none := by decide
example : (rounds (exOps.foldl step init) 2).1 = [some ⟨0, some 5⟩, some ⟨1, some 8⟩] := by decide

end Eus.Kol
