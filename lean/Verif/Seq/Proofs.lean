import Verif.Seq.Model
import Verif.Seq.Spec
import Mathlib.Data.List.Basic
import Mathlib.Data.List.TakeDrop
set_option autoImplicit false
namespace Eus.Seq
variable {α : Type}

theorem dropFirst_zero (p : α → Bool) (l : List α) : dropFirst p 0 l = l := by cases l <;> rfl
theorem replaceFirst_zero (p : α → Bool) (n : α) (l : List α) : replaceFirst p n 0 l = l := by
  cases l <;> rfl
theorem upTo_zero (p : α → Bool) (l : List α) : upTo p 0 l = [] := by cases l <;> rfl

theorem dropFirst_filter (p : α → Bool) (l : List α) :
    ∀ c, l.countP p ≤ c → dropFirst p c l = l.filter (fun x => !p x) := by
  induction l with
  | nil => intro c _; cases c <;> rfl
  | cons x l ih =>
    intro c h
    cases c with
    | zero =>
      rw [dropFirst_zero]
      symm; rw [List.filter_eq_self]
      intro a ha
      have := (List.countP_eq_zero (p := p)).1 (by omega) a ha
      simpa using this
    | succ c =>
      rw [List.countP_cons] at h
      by_cases hx : p x = true
      · simp only [hx, if_true] at h
        simp only [dropFirst, hx, if_true]
        rw [ih c (by omega)]; simp [hx]
      · simp only [hx] at h
        simp only [dropFirst, hx]
        rw [if_neg (by simp), ih (c + 1) (by omega)]; simp [hx]

theorem replaceFirst_map (p : α → Bool) (n : α) (l : List α) :
    ∀ c, l.countP p ≤ c → replaceFirst p n c l = l.map (fun x => if p x then n else x) := by
  induction l with
  | nil => intro c _; cases c <;> rfl
  | cons x l ih =>
    intro c h
    cases c with
    | zero =>
      rw [replaceFirst_zero]
      have hh : ∀ a ∈ x :: l, ¬ p a = true := (List.countP_eq_zero (p := p)).1 (by omega)
      symm
      conv_rhs => rw [← List.map_id (x :: l)]
      apply List.map_congr_left
      intro a ha; simp [hh a ha]
    | succ c =>
      rw [List.countP_cons] at h
      by_cases hx : p x = true
      · simp only [hx, if_true] at h
        simp only [replaceFirst, hx, if_true, List.map_cons]
        rw [ih c (by omega)]
      · simp only [hx] at h
        simp only [replaceFirst, hx, List.map_cons]
        rw [if_neg (by simp), ih (c + 1) (by omega)]; simp

/-- `upTo` is a prefix; what follows it is untouched by `dropFirst`. -/
theorem upTo_append (p : α → Bool) (l : List α) : ∀ c,
    upTo p c l ++ l.drop (upTo p c l).length = l := by
  induction l with
  | nil => intro c; cases c <;> rfl
  | cons x l ih =>
    intro c
    cases c with
    | zero => rfl
    | succ c => by_cases hx : p x = true <;> simp [upTo, hx, ih]

theorem upTo_le (p : α → Bool) (l : List α) (c : Nat) : (upTo p c l).length ≤ l.length := by
  have := congrArg List.length (upTo_append p l c)
  simp at this; omega

theorem dropFirst_upTo (p : α → Bool) (l : List α) : ∀ c,
    dropFirst p c l = (upTo p c l).filter (fun x => !p x) ++ l.drop (upTo p c l).length := by
  induction l with
  | nil => intro c; cases c <;> rfl
  | cons x l ih =>
    intro c
    cases c with
    | zero => rfl
    | succ c => by_cases hx : p x = true <;> simp [upTo, dropFirst, hx, ih]

theorem replaceFirst_upTo (p : α → Bool) (n : α) (l : List α) : ∀ c,
    replaceFirst p n c l =
      (upTo p c l).map (fun x => if p x then n else x) ++ l.drop (upTo p c l).length := by
  induction l with
  | nil => intro c; cases c <;> rfl
  | cons x l ih =>
    intro c
    cases c with
    | zero => rfl
    | succ c => by_cases hx : p x = true <;> simp [upTo, replaceFirst, hx, ih]

theorem upTo_all (p : α → Bool) (l : List α) : ∀ c, l.countP p < c → upTo p c l = l := by
  induction l with
  | nil => intro c _; cases c <;> rfl
  | cons x l ih =>
    intro c h
    cases c with
    | zero => omega
    | succ c =>
      rw [List.countP_cons] at h
      by_cases hx : p x = true
      · simp only [hx, if_true] at h
        simp [upTo, hx, ih c (by omega)]
      · simp only [hx] at h
        simp [upTo, hx, ih (c + 1) (by omega)]

/-! ### remove -/

theorem rmLoop_spec (p : α → Bool) (seq : List α) : ∀ (n c : Nat) (stk : List α), n ≤ seq.length →
    ∃ stk' rest, rmLoop p n c seq stk = some (stk', rest) ∧
      stk'.reverse ++ rest = stk.reverse ++ dropFirst p c (seq.take n) ++ seq.drop n := by
  induction seq with
  | nil =>
    intro n c stk h
    have : n = 0 := by simpa using h
    subst this
    exact ⟨stk, [], rfl, by cases c <;> simp [dropFirst]⟩
  | cons x l ih =>
    intro n c stk h
    cases n with
    | zero => exact ⟨stk, x :: l, rfl, by cases c <;> simp [dropFirst]⟩
    | succ n =>
      cases c with
      | zero => exact ⟨stk, x :: l, rfl, by rw [dropFirst_zero]; simp⟩
      | succ c =>
        have h' : n ≤ l.length := by simpa using h
        by_cases hx : p x = true
        · obtain ⟨s', r', h1, h2⟩ := ih n c stk h'
          exact ⟨s', r', by simp [rmLoop, hx, h1], by simp [dropFirst, hx, h2]⟩
        · obtain ⟨s', r', h1, h2⟩ := ih n (c + 1) (x :: stk) h'
          exact ⟨s', r', by simp [rmLoop, hx, h1], by simp [dropFirst, hx, h2]⟩

theorem rmLoop_err (p : α → Bool) (seq : List α) : ∀ (n c : Nat) (stk : List α), seq.length < n →
    seq.countP p < c → rmLoop p n c seq stk = none := by
  induction seq with
  | nil =>
    intro n c stk h hc
    cases n with
    | zero => simp at h
    | succ n => cases c with
      | zero => simp at hc
      | succ c => rfl
  | cons x l ih =>
    intro n c stk h hc
    cases n with
    | zero => simp at h
    | succ n => cases c with
      | zero => simp at hc
      | succ c =>
        rw [List.countP_cons] at hc
        by_cases hx : p x = true
        · simp only [hx, if_true] at hc
          simp only [rmLoop, hx, if_true]
          exact ih n c stk (by simpa using h) (by omega)
        · simp only [hx] at hc
          simp only [rmLoop, hx]
          exact ih n (c + 1) _ (by simpa using h) (by simpa using hc)

theorem within_eq (f : List α → List α) (s e : Nat) (l : List α) :
    within f s e l = l.take s ++ f (seg s e l) ++ (l.drop s).drop (e - s) := rfl

theorem drop_drop' (s e : Nat) (l : List α) (h : s ≤ e) : (l.drop s).drop (e - s) = l.drop e := by
  rw [List.drop_drop]; congr 1; omega

theorem cons_of_getElem? {v : List α} {i : Nat} {x : α} (h : v[i]? = some x) :
    v.drop i = x :: v.drop (i + 1) := by
  obtain ⟨hl, rfl⟩ := List.getElem?_eq_some_iff.1 h
  exact List.drop_eq_getElem_cons hl

theorem vrmLoop_spec (p : α → Bool) (v : List α) : ∀ (n c i : Nat) (stk : List α),
    i + n ≤ v.length →
    ∃ stk', vrmLoop p v n c i stk = some stk' ∧
      stk'.reverse = stk.reverse ++ (upTo p c ((v.drop i).take n)).filter (fun x => !p x) := by
  intro n
  induction n with
  | zero => intro c i stk _; exact ⟨stk, rfl, by cases c <;> simp [upTo]⟩
  | succ n ih =>
    intro c i stk h
    cases c with
    | zero => exact ⟨stk, rfl, by rw [upTo_zero]; simp⟩
    | succ c =>
      have hi : v[i]? = some v[i] := List.getElem?_eq_getElem (by omega)
      have hd := cons_of_getElem? hi
      by_cases hx : p v[i] = true
      · obtain ⟨s', h1, h2⟩ := ih c (i + 1) stk (by omega)
        exact ⟨s', by simp [vrmLoop, hi, hx, h1], by rw [h2, hd, List.take_succ_cons]; simp [upTo, hx]⟩
      · obtain ⟨s', h1, h2⟩ := ih (c + 1) (i + 1) (v[i] :: stk) (by omega)
        exact ⟨s', by simp [vrmLoop, hi, hx, h1], by rw [h2, hd, List.take_succ_cons]; simp [upTo, hx]⟩

theorem removeVec_eq (p : α → Bool) (s e c : Nat) (v : List α) (hs : s ≤ e) (he : e ≤ v.length)
    (hm : v.length ≤ MAXSEQ) :
    removeVec p s e c v =
      some (v.take s ++ (upTo p c (seg s e v)).filter (fun x => !p x) ++ v.drop e) := by
  unfold removeVec
  rw [Nat.min_eq_left he]
  obtain ⟨s', h1, h2⟩ := vrmLoop_spec p v (e - s) c s (v.take s).reverse (by omega)
  simp only [h1, Option.map_some, h2, List.reverse_reverse]
  rw [List.take_of_length_le (l := v.drop e) (by simp; omega)]
  rfl

/-! ### delete on vectors -/

theorem vdelLoop_spec (p : α → Bool) : ∀ (n c i last : Nat) (v : List α),
    i + n ≤ v.length → last ≤ i →
    ∃ last' v', vdelLoop p n c i last v = some (last', v') ∧ v'.length = v.length ∧
      v'.take last' = v.take last ++ (upTo p c ((v.drop i).take n)).filter (fun x => !p x) := by
  intro n
  induction n with
  | zero => intro c i last v _ _; exact ⟨last, v, rfl, rfl, by cases c <;> simp [upTo]⟩
  | succ n ih =>
    intro c i last v h hl
    cases c with
    | zero => exact ⟨last, v, rfl, rfl, by rw [upTo_zero]; simp⟩
    | succ c =>
      have hi : v[i]? = some v[i] := List.getElem?_eq_getElem (by omega)
      have hd := cons_of_getElem? hi
      by_cases hx : p v[i] = true
      · obtain ⟨a, b, h1, h2, h3⟩ := ih c (i + 1) last v (by omega) (by omega)
        exact ⟨a, b, by simp [vdelLoop, hi, hx, h1], h2, by rw [h3, hd, List.take_succ_cons]; simp [upTo, hx]⟩
      · obtain ⟨a, b, h1, h2, h3⟩ := ih (c + 1) (i + 1) (last + 1)
          (if i ≠ last then v.set last v[i] else v) (by split <;> first | (rw [List.length_set]; omega) | omega) (by omega)
        refine ⟨a, b, by simpa [vdelLoop, hi, hx] using h1, by rw [h2]; split <;> simp, ?_⟩
        rw [h3, hd, List.take_succ_cons]
        have hdr : (if i ≠ last then v.set last v[i] else v).drop (i + 1) = v.drop (i + 1) := by
          split
          · rw [List.drop_set_of_lt (by omega)]
          · rfl
        have htk : (if i ≠ last then v.set last v[i] else v).take (last + 1) = v.take last ++ [v[i]] := by
          split
          · rw [List.take_add_one]
            have : last < v.length := by omega
            simp [this, List.take_set_of_le]
          · rename_i hne
            have : i = last := by omega
            subst this
            rw [List.take_add_one]; simp [hi]
        rw [hdr, htk]
        simp [upTo, hx]

theorem deleteVec_eq (p : α → Bool) (s e c : Nat) (v : List α) (hs : s ≤ e) (he : e ≤ v.length) :
    deleteVec p s e c v =
      some (v.take s ++ (upTo p c (seg s e v)).filter (fun x => !p x)) := by
  unfold deleteVec
  rw [Nat.min_eq_left he]
  obtain ⟨a, b, h1, _, h3⟩ := vdelLoop_spec p (e - s) c s s v (by omega) (by omega)
  simp only [h1, Option.map_some, h3]
  rfl

/-! ### substitute -/

theorem subLoop_spec (p : α → Bool) (new : α) (seq : List α) : ∀ (n c : Nat) (stk : List α),
    n ≤ seq.length →
    ∃ stk' rest, subLoop p new n c seq stk = some (stk', rest) ∧
      stk'.reverse ++ rest = stk.reverse ++ replaceFirst p new c (seq.take n) ++ seq.drop n := by
  induction seq with
  | nil =>
    intro n c stk h
    have : n = 0 := by simpa using h
    subst this
    exact ⟨stk, [], rfl, by cases c <;> simp [replaceFirst]⟩
  | cons x l ih =>
    intro n c stk h
    cases n with
    | zero => exact ⟨stk, x :: l, rfl, by cases c <;> simp [replaceFirst]⟩
    | succ n =>
      cases c with
      | zero => exact ⟨stk, x :: l, rfl, by rw [replaceFirst_zero]; simp⟩
      | succ c =>
        have h' : n ≤ l.length := by simpa using h
        by_cases hx : p x = true
        · obtain ⟨s', r', h1, h2⟩ := ih n c (new :: stk) h'
          exact ⟨s', r', by simp [subLoop, hx, h1], by simp [replaceFirst, hx, h2]⟩
        · obtain ⟨s', r', h1, h2⟩ := ih n (c + 1) (x :: stk) h'
          exact ⟨s', r', by simp [subLoop, hx, h1], by simp [replaceFirst, hx, h2]⟩

theorem vsubLoop_spec (p : α → Bool) (new : α) (v : List α) : ∀ (n c i : Nat) (stk : List α),
    i + n ≤ v.length →
    ∃ stk', vsubLoop p new v n c i stk = some stk' ∧
      stk'.reverse = stk.reverse ++ (upTo p c ((v.drop i).take n)).map (fun x => if p x then new else x) := by
  intro n
  induction n with
  | zero => intro c i stk _; exact ⟨stk, rfl, by cases c <;> simp [upTo]⟩
  | succ n ih =>
    intro c i stk h
    cases c with
    | zero => exact ⟨stk, rfl, by rw [upTo_zero]; simp⟩
    | succ c =>
      have hi : v[i]? = some v[i] := List.getElem?_eq_getElem (by omega)
      have hd := cons_of_getElem? hi
      by_cases hx : p v[i] = true
      · obtain ⟨s', h1, h2⟩ := ih c (i + 1) (new :: stk) (by omega)
        exact ⟨s', by simp [vsubLoop, hi, hx, h1], by rw [h2, hd, List.take_succ_cons]; simp [upTo, hx]⟩
      · obtain ⟨s', h1, h2⟩ := ih (c + 1) (i + 1) (v[i] :: stk) (by omega)
        exact ⟨s', by simp [vsubLoop, hi, hx, h1], by rw [h2, hd, List.take_succ_cons]; simp [upTo, hx]⟩

theorem substituteVec_eq (p : α → Bool) (new : α) (s e c : Nat) (v : List α) (hs : s ≤ e)
    (he : e ≤ v.length) (hm : v.length ≤ MAXSEQ) :
    substituteVec p new s e c v =
      some (v.take s ++ (upTo p c (seg s e v)).map (fun x => if p x then new else x) ++ v.drop e) := by
  unfold substituteVec
  rw [Nat.min_eq_left he]
  obtain ⟨s', h1, h2⟩ := vsubLoop_spec p new v (e - s) c s (v.take s).reverse (by omega)
  simp only [h1, Option.map_some, h2, List.reverse_reverse]
  rw [List.take_of_length_le (l := v.drop e) (by simp; omega)]
  rfl

theorem nsubLoop_spec (p : α → Bool) (new : α) (seq : List α) : ∀ (n c : Nat),
    n ≤ seq.length →
    nsubLoop p new n c seq = some (replaceFirst p new c (seq.take n) ++ seq.drop n) := by
  induction seq with
  | nil =>
    intro n c h
    have : n = 0 := by simpa using h
    subst this
    cases c <;> simp [replaceFirst, nsubLoop]
  | cons x l ih =>
    intro n c h
    cases n with
    | zero => cases c <;> simp [replaceFirst, nsubLoop]
    | succ n =>
      cases c with
      | zero => rw [replaceFirst_zero]; simp [nsubLoop]
      | succ c =>
        have h' : n ≤ l.length := by simpa using h
        by_cases hx : p x = true <;> simp [nsubLoop, replaceFirst, hx, ih n _ h']

theorem vnsubLoop_spec (p : α → Bool) (new : α) : ∀ (n c i : Nat) (v : List α),
    i + n ≤ v.length →
    vnsubLoop p new n c i v =
      some (v.take i ++ replaceFirst p new c ((v.drop i).take n) ++ v.drop (i + n)) := by
  intro n
  induction n with
  | zero => intro c i v _; cases c <;> simp [replaceFirst, vnsubLoop]
  | succ n ih =>
    intro c i v h
    cases c with
    | zero =>
      rw [replaceFirst_zero]
      simp only [vnsubLoop, List.append_assoc]
      rw [← List.drop_drop, List.take_append_drop, List.take_append_drop]
    | succ c =>
      have hi : v[i]? = some v[i] := List.getElem?_eq_getElem (by omega)
      have hd := cons_of_getElem? hi
      have h1 : i + 1 + n = i + (n + 1) := by omega
      by_cases hx : p v[i] = true
      · simp only [vnsubLoop, hi, hx, if_true]
        rw [ih c (i + 1) (v.set i new) (by simp; omega)]
        rw [List.drop_set_of_lt (by omega), List.drop_set_of_lt (by omega), hd, h1, List.take_succ_cons]
        rw [List.take_add_one]
        have : i < v.length := by omega
        simp [replaceFirst, hx, this, List.take_set_of_le]
      · simp only [vnsubLoop, hi, hx]
        rw [if_neg (by simp), ih (c + 1) (i + 1) v (by omega), hd, h1, List.take_succ_cons]
        rw [List.take_add_one, hi]
        simp only [replaceFirst, hx, Option.toList_some, List.append_assoc, List.singleton_append]
        rw [if_neg (by simp), List.cons_append]

/-! ### position, find, count -/

theorem posLoop_spec (p : α → Bool) (l : List α) : ∀ (n c i : Nat),
    ∀ k, posLoop p n (c + 1) i l = some k ↔
      ∃ j, k = i + j ∧ j < n ∧ (∃ x, l[j]? = some x ∧ p x = true) ∧ (l.take j).countP p = c := by
  induction l with
  | nil =>
    intro n c i k
    cases n <;> simp [posLoop]
  | cons x l ih =>
    intro n c i k
    cases n with
    | zero => simp [posLoop]
    | succ n =>
      by_cases hx : p x = true
      · cases c with
        | zero =>
          simp only [posLoop, hx, if_true]
          simp only [Option.some.injEq]
          constructor
          · rintro rfl; exact ⟨0, by simp, by omega, ⟨x, rfl, hx⟩, rfl⟩
          · rintro ⟨j, rfl, _, _, hc⟩
            cases j with
            | zero => rfl
            | succ j => simp [hx] at hc
        | succ c =>
          simp only [posLoop, hx, if_true, Nat.add_sub_cancel]
          rw [if_neg (by omega), ih n c (i + 1) k]
          constructor
          · rintro ⟨j, rfl, hj, hp, hc⟩
            exact ⟨j + 1, by omega, by omega, by simpa using hp, by simp [hx, hc]⟩
          · rintro ⟨j, rfl, hj, hp, hc⟩
            cases j with
            | zero => simp at hc
            | succ j =>
              refine ⟨j, by omega, by omega, by simpa using hp, ?_⟩
              simp [hx] at hc; omega
      · simp only [posLoop, hx]
        rw [if_neg (by simp), ih n c (i + 1) k]
        constructor
        · rintro ⟨j, rfl, hj, hp, hc⟩
          exact ⟨j + 1, by omega, by omega, by simpa using hp, by simp [hx, hc]⟩
        · rintro ⟨j, rfl, hj, hp, hc⟩
          cases j with
          | zero => obtain ⟨y, hy, hpy⟩ := hp; simp at hy; subst hy; exact absurd hpy hx
          | succ j =>
            exact ⟨j, by omega, by omega, by simpa using hp, by simpa [hx] using hc⟩

theorem vposLoop_eq (p : α → Bool) (v : List α) : ∀ (n c i : Nat),
    vposLoop p v n c i = posLoop p n c i (v.drop i) := by
  intro n
  induction n with
  | zero => intro c i; rfl
  | succ n ih =>
    intro c i
    simp only [vposLoop]
    cases h : v[i]? with
    | none =>
      rw [List.getElem?_eq_none_iff] at h
      rw [List.drop_eq_nil_of_le h]; rfl
    | some x =>
      rw [cons_of_getElem? h]
      simp only [posLoop, ih]

theorem findLoop_spec (p : α → Bool) (l : List α) : ∀ n, findLoop p n l = (l.take n).find? p := by
  induction l with
  | nil => intro n; cases n <;> simp [findLoop]
  | cons x l ih =>
    intro n
    cases n with
    | zero => simp [findLoop]
    | succ n => by_cases hx : p x = true <;> simp [findLoop, hx, ih]

theorem vfindLoop_eq (p : α → Bool) (v : List α) : ∀ (n i : Nat),
    vfindLoop p v n i = findLoop p n (v.drop i) := by
  intro n
  induction n with
  | zero => intro i; rfl
  | succ n ih =>
    intro i
    simp only [vfindLoop]
    cases h : v[i]? with
    | none =>
      rw [List.getElem?_eq_none_iff] at h
      rw [List.drop_eq_nil_of_le h]; rfl
    | some x =>
      rw [cons_of_getElem? h]
      simp only [findLoop, ih]

theorem countLoop_spec (p : α → Bool) (l : List α) : ∀ n i,
    countLoop p n i l = i + (l.take n).countP p := by
  induction l with
  | nil => intro n i; cases n <;> simp [countLoop]
  | cons x l ih =>
    intro n i
    cases n with
    | zero => simp [countLoop]
    | succ n => by_cases hx : p x = true <;> simp [countLoop, hx, ih]; omega

theorem vcountLoop_eq (p : α → Bool) (v : List α) : ∀ (n i k : Nat),
    vcountLoop p v n i k = countLoop p n i (v.drop k) := by
  intro n
  induction n with
  | zero => intro i k; rfl
  | succ n ih =>
    intro i k
    simp only [vcountLoop]
    cases h : v[k]? with
    | none =>
      rw [List.getElem?_eq_none_iff] at h
      rw [List.drop_eq_nil_of_le h]; rfl
    | some x =>
      rw [cons_of_getElem? h]
      simp only [countLoop, ih]

/-! ### reverse -/

theorem revLoop_spec (l : List α) : ∀ r, revLoop l r = l.reverse ++ r := by
  induction l with
  | nil => intro r; rfl
  | cons x l ih => intro r; simp [revLoop, ih]

theorem vrevLoop_spec (a : List α) (k : Nat) : ∀ (n i s : Nat) (r : List α), i + n = k →
    r.length = k → s + n ≤ a.length →
    vrevLoop a k n i s r = some (((a.drop s).take n).reverse ++ r.drop n) := by
  intro n
  induction n with
  | zero => intro i s r _ _ _; simp [vrevLoop]
  | succ n ih =>
    intro i s r h1 h2 h3
    have hi : a[s]? = some a[s] := List.getElem?_eq_getElem (by omega)
    have hk : k - i - 1 = n := by omega
    simp only [vrevLoop, hi, hk]
    rw [if_pos (by omega), ih (i + 1) (s + 1) _ (by omega) (by simp; omega) (by omega)]
    rw [cons_of_getElem? hi, List.take_succ_cons]
    have hn : n < r.length := by omega
    have : (r.set n a[s]).drop n = a[s] :: r.drop (n + 1) := by
      rw [List.drop_set]
      simp
      rw [List.drop_eq_getElem_cons hn]; rfl
    rw [this]; simp

theorem nrev_fold (l : List α) : ∀ (acc stk : List α), l.length ≤ stk.length →
    (l.foldl (fun (acc : List α × List α) _ =>
      match acc.2 with
      | [] => acc
      | y :: stk => (acc.1 ++ [y], stk)) (acc, stk)).1 = acc ++ stk.take l.length := by
  induction l with
  | nil => intro acc stk _; simp
  | cons x l ih =>
    intro acc stk h
    cases stk with
    | nil => simp at h
    | cons y stk =>
      rw [List.foldl_cons]
      exact (ih (acc ++ [y]) stk (by simpa using h)).trans (by simp)

theorem push_fold (l : List α) : ∀ r, l.foldl (fun stk x => x :: stk) r = l.reverse ++ r := by
  induction l with
  | nil => intro r; rfl
  | cons x l ih => intro r; simp [ih]

theorem swapLoop_spec (k : Nat) : ∀ (n i : Nat) (v : List α), v.length = k → i + n = k / 2 →
    ∃ v', swapLoop k n i i v = some v' ∧ v'.length = k ∧
      ∀ j, j < k → v'[j]? = if i ≤ j ∧ j < k - i then v[k - 1 - j]? else v[j]? := by
  intro n
  induction n with
  | zero =>
    intro i v hv hi
    refine ⟨v, rfl, hv, fun j hj => ?_⟩
    split
    · congr 1; omega
    · rfl
  | succ n ih =>
    intro i v hv hi
    have h1 : v[i]? = some v[i] := List.getElem?_eq_getElem (by omega)
    have h2 : v[k - i - 1]? = some v[k - i - 1] := List.getElem?_eq_getElem (by omega)
    obtain ⟨v', h3, h4, h5⟩ := ih (i + 1) ((v.set i v[k - i - 1]).set (k - i - 1) v[i])
      (by simp [hv]) (by omega)
    refine ⟨v', by simp only [swapLoop, h1, h2]; exact h3, h4, fun j hj => ?_⟩
    rw [h5 j hj]
    simp only [List.getElem?_set, List.length_set, hv]
    split_ifs <;> first | omega | (simp_all; done) | skip
    all_goals first | (have : k - 1 - j = i := by omega) | (have : k - 1 - j = k - i - 1 := by omega) | skip
    all_goals simp_all

/-! ### fill -/

theorem fillLoop_spec (item : α) (l : List α) : ∀ (i n : Nat),
    fillLoop item i n l = l.take i ++ List.replicate ((l.drop i).take n).length item ++ (l.drop i).drop n := by
  induction l with
  | nil => intro i n; simp [fillLoop]
  | cons x l ih =>
    intro i n
    cases i with
    | succ i => simp [fillLoop, ih]
    | zero =>
      cases n with
      | zero => simp [fillLoop]
      | succ n =>
        simp only [fillLoop, ih]
        simp [List.replicate_succ]

theorem vfillLoop_spec (item : α) : ∀ (n i : Nat) (v : List α), i + n ≤ v.length →
    vfillLoop item n i v = v.take i ++ List.replicate n item ++ v.drop (i + n) := by
  intro n
  induction n with
  | zero => intro i v _; simp [vfillLoop]
  | succ n ih =>
    intro i v h
    simp only [vfillLoop]
    rw [ih (i + 1) _ (by simp; omega), List.drop_set_of_lt (by omega), List.take_add_one]
    have : i < v.length := by omega
    have h1 : i + 1 + n = i + (n + 1) := by omega
    simp [this, List.take_set_of_le, List.replicate_succ, h1]

/-! ### map -/

theorem collect_spec (r : Nat) : ∀ (args : List (Arg α)) (orig : List (Arg α)),
    List.Forall₂ (fun a o => match a, o with
      | .lst l, .lst l0 => l = l0.drop r
      | .vec v, .vec v0 => v = v0
      | _, _ => False) args orig →
    (collect r args).map Prod.fst = (orig.map Arg.elems).mapM (·[r]?) ∧
    ∀ xs args', collect r args = some (xs, args') →
      List.Forall₂ (fun a o => match a, o with
        | .lst l, .lst l0 => l = l0.drop (r + 1)
        | .vec v, .vec v0 => v = v0
        | _, _ => False) args' orig := by
  intro args orig h
  induction h with
  | nil => simp [collect]
  | @cons a o as os hao _ ih =>
    cases a with
    | lst l =>
      cases o with
      | vec v => exact hao.elim
      | lst l0 =>
        simp only at hao
        subst hao
        cases hd : l0.drop r with
        | nil =>
          have : l0[r]? = none := by
            rw [List.getElem?_eq_none_iff]; simpa using hd
          simp [collect, Arg.elems, this]
        | cons x t =>
          have hx : l0[r]? = some x := by
            have := congrArg (·[0]?) hd; simpa using this
          have ht : t = l0.drop (r + 1) := by
            have := cons_of_getElem? hx; rw [hd] at this; exact (List.cons.inj this).2
          constructor
          · rw [List.map_cons, List.mapM_cons]
            simp only [Arg.elems, hx, collect, Option.map_map, Option.bind_eq_bind, Option.bind_some,
              ← ih.1]
            cases collect r as <;> simp
          · intro xs args' hc
            simp only [collect, Option.map_eq_some_iff] at hc
            obtain ⟨⟨xs', as'⟩, hc', heq⟩ := hc
            simp only [Prod.mk.injEq] at heq
            rw [← heq.2]
            exact List.Forall₂.cons ht (ih.2 _ _ hc')
    | vec v =>
      cases o with
      | lst l => exact hao.elim
      | vec v0 =>
        simp only at hao
        subst hao
        cases hx : v[r]? with
        | none => simp [collect, Arg.elems, hx]
        | some x =>
          constructor
          · rw [List.map_cons, List.mapM_cons]
            simp only [Arg.elems, hx, collect, Option.map_map, Option.bind_eq_bind, Option.bind_some,
              ← ih.1]
            cases collect r as <;> simp
          · intro xs args' hc
            simp only [collect, hx, Option.map_eq_some_iff] at hc
            obtain ⟨⟨xs', as'⟩, hc', heq⟩ := hc
            simp only [Prod.mk.injEq] at heq
            rw [← heq.2]
            exact List.Forall₂.cons rfl (ih.2 _ _ hc')

theorem mapLoop_spec {β : Type} (f : List α → β) (orig : List (Arg α)) : ∀ (n r : Nat) (args : List (Arg α)),
    List.Forall₂ (fun a o => match a, o with
      | .lst l, .lst l0 => l = l0.drop r
      | .vec v, .vec v0 => v = v0
      | _, _ => False) args orig →
    (∀ k, k ≥ r + n → (orig.map Arg.elems).mapM (·[k]?) = none) →
    (∀ k k' : Nat, k ≤ k' → (orig.map Arg.elems).mapM (·[k]?) = none →
      (orig.map Arg.elems).mapM (·[k']?) = none) →
    ∀ i, (mapLoop f n r args)[i]? = ((orig.map Arg.elems).mapM (·[r + i]?)).map f := by
  intro n
  induction n with
  | zero =>
    intro r args _ hb _ i
    rw [hb (r + i) (by omega)]; simp [mapLoop]
  | succ n ih =>
    intro r args h hb hmono i
    obtain ⟨h1, h2⟩ := collect_spec r args orig h
    cases hc : collect r args with
    | none =>
      rw [hc] at h1
      simp only [mapLoop, hc]
      rw [hmono r (r + i) (by omega) h1.symm]; simp
    | some q =>
      obtain ⟨xs, args'⟩ := q
      rw [hc] at h1
      simp only [mapLoop, hc]
      cases i with
      | zero =>
        have h1' : (orig.map Arg.elems).mapM (fun x => x[r + 0]?) = some xs := h1.symm
        rw [h1']; simp
      | succ i =>
        simp only [List.getElem?_cons_succ]
        rw [ih (r + 1) args' (h2 _ _ hc) (fun k hk => hb k (by omega)) hmono i]
        have : r + 1 + i = r + (i + 1) := by omega
        rw [this]

theorem mapM_mono (ls : List (List α)) (k k' : Nat) (h : k ≤ k') (hn : ls.mapM (·[k]?) = none) :
    ls.mapM (·[k']?) = none := by
  induction ls with
  | nil => simp at hn
  | cons l ls ih =>
    rw [List.mapM_cons] at hn ⊢
    cases hl : l[k]? with
    | none =>
      have : l[k']? = none := by
        rw [List.getElem?_eq_none_iff] at hl ⊢; omega
      simp [this]
    | some x =>
      rw [hl] at hn
      cases hm : ls.mapM (fun x => x[k]?) with
      | none => rw [ih hm]; cases l[k']? <;> simp
      | some _ => rw [hm] at hn; simp at hn

/-! ### remove-duplicates -/

theorem dupInner_spec (test : α → α → Bool) (x : α) (l : List α) :
    ∀ n, dupInner test x n l = (l.take n).any (test x) := by
  induction l with
  | nil => intro n; cases n <;> simp [dupInner]
  | cons y l ih =>
    intro n
    cases n with
    | zero => simp [dupInner]
    | succ n => by_cases h : test x y = true <;> simp [dupInner, h, ih]

theorem dupLoop_spec (test : α → α → Bool) (l : List α) : ∀ (n : Nat) (stk : List α),
    (dupLoop test n l stk).1.reverse ++ (dupLoop test n l stk).2 =
      stk.reverse ++ keepLast test (l.take n) ++ l.drop n := by
  induction l with
  | nil => intro n stk; cases n <;> simp [dupLoop, keepLast]
  | cons x l ih =>
    intro n stk
    cases n with
    | zero => simp [dupLoop, keepLast]
    | succ n =>
      simp only [dupLoop, dupInner_spec, List.take_succ_cons, keepLast, List.drop_succ_cons]
      split <;> simp [ih]

theorem vdupInner_eq (test : α → α → Bool) (x : α) (v : List α) : ∀ n i,
    vdupInner test x v n i = dupInner test x n (v.drop i) := by
  intro n
  induction n with
  | zero => intro i; rfl
  | succ n ih =>
    intro i
    simp only [vdupInner]
    cases h : v[i]? with
    | none =>
      rw [List.getElem?_eq_none_iff] at h
      rw [List.drop_eq_nil_of_le h]; rfl
    | some y => rw [cons_of_getElem? h]; simp only [dupInner, ih]

theorem vdupLoop_spec (test : α → α → Bool) (v : List α) : ∀ (n i : Nat) (stk : List α),
    (vdupLoop test v n i stk).reverse = stk.reverse ++ keepLast test ((v.drop i).take n) := by
  intro n
  induction n with
  | zero => intro i stk; simp [vdupLoop, keepLast]
  | succ n ih =>
    intro i stk
    simp only [vdupLoop]
    cases h : v[i]? with
    | none =>
      rw [List.getElem?_eq_none_iff] at h
      rw [List.drop_eq_nil_of_le h]; simp [keepLast]
    | some x =>
      rw [cons_of_getElem? h]
      simp only [vdupInner_eq, dupInner_spec, List.take_succ_cons, keepLast]
      split <;> simp [ih]

theorem keepLast_sublist (test : α → α → Bool) (l : List α) : (keepLast test l).Sublist l := by
  induction l with
  | nil => simp [keepLast]
  | cons x l ih =>
    simp only [keepLast]
    split
    · exact ih.cons _
    · exact ih.cons_cons _

theorem keepLast_pairwise (test : α → α → Bool) (l : List α) :
    (keepLast test l).Pairwise (fun x y => test x y = false) := by
  induction l with
  | nil => simp [keepLast]
  | cons x l ih =>
    simp only [keepLast]
    split
    · exact ih
    · rename_i h
      refine List.Pairwise.cons (fun y hy => ?_) ih
      have hy' := (keepLast_sublist test l).subset hy
      simp only [List.any_eq_true, not_exists, not_and] at h
      simpa using h y hy'

theorem keepLast_cover (test : α → α → Bool)
    (htrans : ∀ x y z, test x y = true → test y z = true → test x z = true)
    (l : List α) : ∀ (x : α), x ∈ l →
    x ∈ keepLast test l ∨ ∃ y ∈ keepLast test l, test x y = true := by
  induction l with
  | nil => intro x hx; simp at hx
  | cons a l ih =>
    intro x hx
    simp only [keepLast]
    rcases List.mem_cons.1 hx with rfl | hx
    · split
      · rename_i h
        obtain ⟨y, hy, hxy⟩ := List.any_eq_true.1 h
        right
        rcases ih y hy with h' | ⟨z, hz, hyz⟩
        · exact ⟨y, h', hxy⟩
        · exact ⟨z, hz, htrans _ _ _ hxy hyz⟩
      · simp
    · rcases ih x hx with h | ⟨y, hy, h⟩
      · left; split
        · exact h
        · exact List.mem_cons_of_mem _ h
      · right; refine ⟨y, ?_, h⟩; split
        · exact hy
        · exact List.mem_cons_of_mem _ hy

theorem unique_eq [BEq α] [LawfulBEq α] (l : List α) : unique l = keepLast (fun x y => x == y) l := by
  induction l with
  | nil => rfl
  | cons x l ih =>
    cases l with
    | nil => simp [unique, keepLast]
    | cons y l =>
      simp only [unique]
      rw [ih]
      rw [show keepLast (fun x y => x == y) (x :: y :: l) =
        if (y :: l).any (fun z => x == z) then keepLast (fun x y => x == y) (y :: l)
        else x :: keepLast (fun x y => x == y) (y :: l) from rfl]
      have : (y :: l).elem x = (y :: l).any (fun z => x == z) := by
        rw [List.elem_eq_contains, List.contains_eq_any_beq]
      rw [this]

end Eus.Seq
