import Verif.Eql.Spec
import Mathlib.Data.List.Forall2
import Mathlib.Tactic.Ring
set_option autoImplicit false
/-
Lemmas about `equal`, `superequal` and `sxhash`.
-/
namespace Eus.Eql

/-! ### trees -/

theorem mapM_forall2 {α β : Type} (f : α → Option β) : ∀ {as : List α} {bs : List β}, as.mapM f = some bs ↔
    List.Forall₂ (fun a b => f a = some b) as bs
  | [], bs => by
    rw [List.mapM_nil]
    constructor
    · intro h; cases h; exact .nil
    · intro h; cases h; rfl
  | a :: as, bs => by
    rw [List.mapM_cons]
    constructor
    · intro h
      cases e : f a with
      | none => rw [e] at h; cases h
      | some b =>
        rw [e] at h
        cases e' : as.mapM f with
        | none => rw [e'] at h; cases h
        | some cs =>
          rw [e'] at h
          cases h
          exact .cons e ((mapM_forall2 f).1 e')
    · intro h
      cases h with
      | cons h1 h2 =>
        rw [h1, (mapM_forall2 f).2 h2]; rfl

theorem tree_mono (E : Env) (H : Heap) : ∀ (n : Nat) (v : Val) (t : Tree), tree E H n v = some t → ∀ m, n ≤ m → tree E H m v = some t := by
  intro n
  induction n with
  | zero => intro v t h; cases h
  | succ n ih =>
    intro v t h m hm
    obtain ⟨m, rfl⟩ : ∃ k, m = k + 1 := ⟨m - 1, by omega⟩
    have key : ∀ (as : List Val) (F : List Tree → Tree), (as.mapM (tree E H n)).map F = some t → (as.mapM (tree E H m)).map F = some t := by
      intro as F hh
      cases e : as.mapM (tree E H n) with
      | none => rw [e] at hh; cases hh
      | some ts =>
        rw [e] at hh
        rw [(mapM_forall2 _).2 (((mapM_forall2 _).1 e).imp fun a b hab => ih a b hab m (by omega))]
        exact hh
    cases v with
    | int z => exact h
    | flt b => exact h
    | ptr a =>
      unfold tree at h ⊢
      dsimp only at h ⊢
      split
      · rename_i hs; rw [if_pos hs] at h; exact h
      · rename_i hs; rw [if_neg hs] at h
        cases e : (H a).elm <;> rw [e] at h <;> dsimp only at h ⊢ <;> first | exact h | exact key _ _ h

theorem isTree_unique {E : Env} {H : Heap} {v : Val} {s t : Tree} (h : IsTree E H v s) (h' : IsTree E H v t) : s = t := by
  obtain ⟨n, hn⟩ := h
  obtain ⟨m, hm⟩ := h'
  have h1 := tree_mono E H n v s hn (n + m) (by omega)
  have h2 := tree_mono E H m v t hm (n + m) (by omega)
  rw [h1] at h2
  exact Option.some.inj h2

/-- The shape of the tree of an object. -/
theorem isTree_ptr {E : Env} {H : Heap} {a : Nat} {t : Tree} (h : IsTree E H (.ptr a) t) :
    (E.issym (H a).cix = true ∧ t = .sym a) ∨
    (E.issym (H a).cix = false ∧ (
      ((H a).elm = .fixed ∧ ∃ ts, t = .obj (H a).cix ts ∧ List.Forall₂ (IsTree E H) (H a).slots ts) ∨
      ((H a).elm = .pointer ∧ ∃ ts, t = .vec (H a).cix ts ∧ List.Forall₂ (IsTree E H) (H a).slots ts) ∨
      ((H a).elm ≠ .fixed ∧ (H a).elm ≠ .pointer ∧
        t = .data (H a).cix (H a).elm ((List.range (H a).size).map (elem (H a)))))) := by
  obtain ⟨n, hn⟩ := h
  cases n with
  | zero => cases hn
  | succ n =>
    unfold tree at hn
    dsimp only at hn
    by_cases hs : E.issym (H a).cix = true
    · rw [if_pos hs] at hn; cases hn; exact Or.inl ⟨hs, rfl⟩
    · rw [if_neg hs] at hn
      refine Or.inr ⟨by simpa using hs, ?_⟩
      have key : ∀ F : List Tree → Tree, ((H a).slots.mapM (tree E H n)).map F = some t → ∃ ts, t = F ts ∧ List.Forall₂ (IsTree E H) (H a).slots ts := by
        intro F hh
        cases e : (H a).slots.mapM (tree E H n) with
        | none => rw [e] at hh; cases hh
        | some ts =>
          rw [e] at hh; cases hh
          exact ⟨ts, rfl, ((mapM_forall2 _).1 e).imp fun a b hab => ⟨n, hab⟩⟩
      cases e : (H a).elm <;> rw [e] at hn <;> dsimp only at hn
      · exact Or.inl ⟨rfl, key _ hn⟩
      · cases hn; exact Or.inr (Or.inr ⟨by decide, by decide, rfl⟩)
      · cases hn; exact Or.inr (Or.inr ⟨by decide, by decide, rfl⟩)
      · cases hn; exact Or.inr (Or.inr ⟨by decide, by decide, rfl⟩)
      · cases hn; exact Or.inr (Or.inr ⟨by decide, by decide, rfl⟩)
      · cases hn; exact Or.inr (Or.inr ⟨by decide, by decide, rfl⟩)
      · exact Or.inr (Or.inl ⟨rfl, key _ hn⟩)

/-! ### loops -/

theorem wordsEq_iff : ∀ (n : Nat) (as bs : List Word), n ≤ as.length → n ≤ bs.length →
    (wordsEq n as bs = true ↔ ∀ i < n, as.getD i 0 = bs.getD i 0)
  | 0, _, _, _, _ => by simp [wordsEq]
  | n + 1, a :: as, b :: bs, h1, h2 => by
    rw [wordsEq]
    have ih := wordsEq_iff n as bs (by simpa using h1) (by simpa using h2)
    by_cases e : a = b
    · rw [if_neg (by simpa using e), ih]
      constructor
      · intro h i hi
        cases i with
        | zero => simpa using e
        | succ i => simpa using h i (by omega)
      · intro h i hi
        simpa using h (i + 1) (by omega)
    · rw [if_pos e]
      constructor
      · intro h; cases h
      · intro h; exact absurd (by simpa using h 0 (by omega)) e
  | n + 1, [], _, h1, _ => by simp at h1
  | n + 1, _ :: _, [], _, h2 => by simp at h2

/-- Numerals of the same length are equal when their digits are. -/
theorem digits_ext (B : Nat) (hB : 0 < B) : ∀ (k a b : Nat), a < B ^ k → b < B ^ k → (∀ j < k, a / B ^ j % B = b / B ^ j % B) → a = b
  | 0, a, b, ha, hb, _ => by simp at ha hb; omega
  | k + 1, a, b, ha, hb, h => by
    have h0 : a % B = b % B := by simpa using h 0 (by omega)
    have ih : a / B = b / B := by
      refine digits_ext B hB k (a / B) (b / B) ?_ ?_ ?_
      · rw [Nat.div_lt_iff_lt_mul hB, ← pow_succ]; exact ha
      · rw [Nat.div_lt_iff_lt_mul hB, ← pow_succ]; exact hb
      · intro j hj
        have := h (j + 1) (by omega)
        rwa [pow_succ, mul_comm, ← Nat.div_div_eq_div_mul, ← Nat.div_div_eq_div_mul] at this
    calc a = B * (a / B) + a % B := (Nat.div_add_mod a B).symm
      _ = B * (b / B) + b % B := by rw [ih, h0]
      _ = b := Nat.div_add_mod b B

theorem base_pos (e : Elm) : 0 < (base e).1 ∧ 0 < (base e).2 ∧ (base e).1 ^ (base e).2 = 2 ^ 64 := by
  cases e <;> decide

theorem nwords_size (e : Elm) (n : Nat) : n ≤ (base e).2 * nwords e n ∧ ∀ i < n, i / (base e).2 < nwords e n := by
  cases e <;> simp only [base, nwords] <;> (constructor; (first | omega | (intro i hi; omega)); intro i hi; omega)

/-- Two packed vectors of the same type and size: the words are the same exactly when the elements are. -/
theorem packed_iff {X Y : Obj} (he : X.elm = Y.elm) (hs : X.size = Y.size)
    (hx : nwords X.elm X.size ≤ X.words.length) (hy : nwords Y.elm Y.size ≤ Y.words.length)
    (cx : ∀ i, X.size ≤ i → i < (base X.elm).2 * nwords X.elm X.size → elem X i = 0)
    (cy : ∀ i, Y.size ≤ i → i < (base Y.elm).2 * nwords Y.elm Y.size → elem Y i = 0) :
    wordsEq (nwords X.elm X.size) X.words Y.words = true ↔
      (List.range X.size).map (elem X) = (List.range Y.size).map (elem Y) := by
  rw [wordsEq_iff _ _ _ hx (by rw [he, hs]; exact hy)]
  obtain ⟨hB, hk, hBk⟩ := base_pos X.elm
  constructor
  · intro h
    rw [hs]
    apply List.map_congr_left
    intro i hi
    have hi := List.mem_range.1 hi
    unfold elem
    rw [← he, h (i / (base X.elm).2) ((nwords_size X.elm X.size).2 i (by omega))]
  · intro h i hi
    have hall : ∀ j, j < (base X.elm).2 * nwords X.elm X.size → elem X j = elem Y j := by
      intro j hj
      by_cases hjs : j < X.size
      · have h1 : ((List.range X.size).map (elem X))[j]? = ((List.range Y.size).map (elem Y))[j]? := by rw [h]
        rw [List.getElem?_map, List.getElem?_map, List.getElem?_range hjs, List.getElem?_range (by omega)] at h1
        simpa using h1
      · rw [cx j (by omega) hj, cy j (by omega) (by rw [← he, ← hs]; exact hj)]
    apply BitVec.eq_of_toNat_eq
    refine digits_ext (base X.elm).1 hB (base X.elm).2 _ _ (by rw [hBk]; exact BitVec.isLt _) (by rw [hBk]; exact BitVec.isLt _) ?_
    intro j hj
    have hlt : (base X.elm).2 * i + j < (base X.elm).2 * nwords X.elm X.size := by
      calc (base X.elm).2 * i + j < (base X.elm).2 * i + (base X.elm).2 := by omega
        _ = (base X.elm).2 * (i + 1) := by ring
        _ ≤ _ := Nat.mul_le_mul_left _ hi
    have := hall _ hlt
    unfold elem at this
    rw [← he, Nat.mul_add_div hk, Nat.div_eq_of_lt hj, Nat.add_zero, Nat.mul_add_mod, Nat.mod_eq_of_lt hj] at this
    exact this

theorem slotLoop_iff {f : Val → Val → Option Bool} {P : Val → Tree → Prop}
    (hf : ∀ a b s t r, P a s → P b t → f a b = some r → (r = true ↔ s = t)) :
    ∀ (n : Nat) (as bs : List Val) (ss ts : List Tree) (r : Bool), as.length = n → bs.length = n → List.Forall₂ P as ss →
      List.Forall₂ P bs ts → slotLoop f n as bs = some r → (r = true ↔ ss = ts)
  | 0, as, bs, ss, ts, r, h1, h2, hs, ht, h => by
    obtain rfl := List.length_eq_zero_iff.1 h1
    obtain rfl := List.length_eq_zero_iff.1 h2
    cases hs; cases ht; cases h; simp
  | n + 1, a :: as, b :: bs, ss, ts, r, h1, h2, hs, ht, h => by
    cases hs with
    | cons ha hs => cases ht with
      | cons hb ht =>
        rw [slotLoop] at h
        cases e : f a b with
        | none => rw [e] at h; cases h
        | some q =>
          have hq := hf _ _ _ _ _ ha hb e
          rw [e] at h
          cases q with
          | true =>
            have := slotLoop_iff hf n as bs _ _ r (by simpa using h1) (by simpa using h2) hs ht h
            rw [this, List.cons.injEq]
            simp [hq.1 rfl]
          | false =>
            cases h
            rw [List.cons.injEq]
            simp only [Bool.false_eq_true, false_iff] at hq ⊢
            exact fun hc => hq hc.1
  | n + 1, [], _, _, _, _, h1, _, _, _, _ => by simp at h1
  | n + 1, _ :: _, [], _, _, _, _, h2, _, _, _ => by simp at h2

theorem words_of {E : Env} {H : Heap} (hw : WF E H) (a : Nat) (h1 : (H a).elm ≠ .fixed) (h2 : (H a).elm ≠ .pointer) :
    nwords (H a).elm (H a).size ≤ (H a).words.length := by
  rcases hw.words a with h | h | h
  · exact h
  · exact absurd h h1
  · exact absurd h h2

theorem equal_self (E : Env) (H : Heap) (n : Nat) (x : Val) : equal E H (n + 1) x x = some true := by
  rw [equal.eq_def]; simp

theorem equal_num (E : Env) (H : Heap) (n : Nat) {x y : Val} (h : x ≠ y) (hp : ∀ a b, x = .ptr a → y = .ptr b → False) :
    equal E H (n + 1) x y = some false := by
  rw [equal.eq_def]
  dsimp only
  rw [if_neg h]
  cases x <;> cases y <;> first | rfl | exact (hp _ _ rfl rfl).elim

/-- `equal` on two different objects, as a disjunction of cases. -/
theorem equal_ptr (E : Env) (H : Heap) (n a b : Nat) (hab : a ≠ b) :
    equal E H (n + 1) (.ptr a) (.ptr b) =
      if (H a).cix = (H b).cix ∧ E.issym (H a).cix = false ∧ (H a).elm = (H b).elm then
        (if (H a).elm = .fixed then slotLoop (equal E H n) (E.objsize (H a).cix) (H a).slots (H b).slots
        else if (H a).size ≠ (H b).size then some false
        else if (H a).elm = .pointer then slotLoop (equal E H n) (H a).size (H a).slots (H b).slots
        else some (wordsEq (nwords (H a).elm (H a).size) (H a).words (H b).words))
      else some false := by
  rw [equal.eq_def]
  dsimp only
  rw [if_neg (by simpa using hab)]
  by_cases h1 : (H a).cix = (H b).cix
  · rw [if_neg (show ¬ (H a).cix ≠ (H b).cix by simpa using h1)]
    by_cases h2 : E.issym (H a).cix = true
    · rw [if_pos h2, if_neg (by simp [h2])]
    · rw [if_neg h2]
      by_cases h3 : (H a).elm = (H b).elm
      · have hc : (H a).cix = (H b).cix ∧ E.issym (H a).cix = false ∧ (H a).elm = (H b).elm := ⟨h1, by simpa using h2, h3⟩
        rw [if_neg (show ¬ (H a).elm ≠ (H b).elm by simpa using h3), if_pos hc]
        cases e : (H a).elm <;> simp
      · rw [if_pos h3, if_neg (by tauto)]
  · rw [if_pos h1, if_neg (by tauto)]

theorem equal_spec (E : Env) (H : Heap) (hw : WF E H) (hc : Clean H) : ∀ (n : Nat) (x y : Val) (s t : Tree) (r : Bool),
    IsTree E H x s → IsTree E H y t → equal E H n x y = some r → (r = true ↔ s = t) := by
  intro n
  induction n with
  | zero => intro x y s t r _ _ h; cases h
  | succ n ih =>
    intro x y s t r hs ht h
    by_cases hxy : x = y
    · subst hxy
      rw [equal_self] at h
      cases h
      simp [isTree_unique hs ht]
    · have hnum : ∀ z (u : Tree), IsTree E H (.int z) u → u = .int z := by
        rintro z u ⟨m, hm⟩; cases m <;> cases hm; rfl
      have hflt : ∀ z (u : Tree), IsTree E H (.flt z) u → u = .flt z := by
        rintro z u ⟨m, hm⟩; cases m <;> cases hm; rfl
      have hptr : ∀ a (u : Tree), IsTree E H (.ptr a) u → (∀ z, u ≠ .int z) ∧ (∀ z, u ≠ .flt z) := by
        intro a u hu
        rcases isTree_ptr hu with ⟨-, rfl⟩ | ⟨-, ⟨-, ts, rfl, -⟩ | ⟨-, ts, rfl, -⟩ | ⟨-, -, rfl⟩⟩ <;> simp
      cases x with
      | int z =>
        have e1 := hnum _ _ hs
        rw [equal_num E H n hxy (by simp)] at h
        cases y with
        | int w => cases h; have e2 := hnum _ _ ht; subst e1 e2; simpa using hxy
        | flt w => cases h; have e2 := hflt _ _ ht; subst e1 e2; simp
        | ptr w => cases h; subst e1; simpa using fun hc => (hptr _ _ ht).1 z hc.symm
      | flt z =>
        have e1 := hflt _ _ hs
        rw [equal_num E H n hxy (by simp)] at h
        cases y with
        | int w => cases h; have e2 := hnum _ _ ht; subst e1 e2; simp
        | flt w => cases h; have e2 := hflt _ _ ht; subst e1 e2; simpa using hxy
        | ptr w => cases h; subst e1; simpa using fun hc => (hptr _ _ ht).2 z hc.symm
      | ptr a =>
        cases y with
        | int w =>
          rw [equal_num E H n hxy (by simp)] at h; cases h
          have e2 := hnum _ _ ht; subst e2; simpa using (hptr _ _ hs).1 w
        | flt w =>
          rw [equal_num E H n hxy (by simp)] at h; cases h
          have e2 := hflt _ _ ht; subst e2; simpa using (hptr _ _ hs).2 w
        | ptr b =>
          have hab : a ≠ b := fun h => hxy (by rw [h])
          rw [equal_ptr E H n a b hab] at h
          by_cases hcond : (H a).cix = (H b).cix ∧ E.issym (H a).cix = false ∧ (H a).elm = (H b).elm
          · rw [if_pos hcond] at h
            obtain ⟨c1, c2, c3⟩ := hcond
            rcases isTree_ptr hs with ⟨q, -⟩ | ⟨-, hs⟩
            · rw [c2] at q; cases q
            rcases isTree_ptr ht with ⟨q, -⟩ | ⟨-, ht⟩
            · rw [← c1, c2] at q; cases q
            rcases hs with ⟨e1, ss, rfl, f1⟩ | ⟨e1, ss, rfl, f1⟩ | ⟨e1, e1', rfl⟩
            · rcases ht with ⟨e2, ts, rfl, f2⟩ | ⟨e2, -⟩ | ⟨e2, -⟩
              · rw [if_pos e1] at h
                have := slotLoop_iff (P := IsTree E H) (fun a b s t r => ih a b s t r) _ _ _ ss ts r (hw.fixed a e1) (by rw [c1]; exact hw.fixed b e2) f1 f2 h
                rw [this]; simp [c1]
              · rw [← c3, e1] at e2; cases e2
              · rw [← c3, e1] at e2; exact absurd rfl e2
            · rcases ht with ⟨e2, -⟩ | ⟨e2, ts, rfl, f2⟩ | ⟨-, e2, -⟩
              · rw [← c3, e1] at e2; cases e2
              · rw [if_neg (by rw [e1]; decide)] at h
                by_cases hsz : (H a).size = (H b).size
                · rw [if_neg (by simpa using hsz), if_pos e1] at h
                  have := slotLoop_iff (P := IsTree E H) (fun a b s t r => ih a b s t r) _ _ _ ss ts r (hw.pointer a e1) (by rw [hsz]; exact hw.pointer b e2) f1 f2 h
                  rw [this]; simp [c1]
                · rw [if_pos hsz] at h
                  cases h
                  have l1 := f1.length_eq
                  have l2 := f2.length_eq
                  rw [hw.pointer a e1] at l1
                  rw [hw.pointer b e2] at l2
                  simp only [Bool.false_eq_true, Tree.vec.injEq, false_iff, not_and]
                  rintro - rfl
                  omega
              · rw [← c3, e1] at e2; exact absurd rfl e2
            · rcases ht with ⟨e2, -⟩ | ⟨e2, -⟩ | ⟨e2, e2', rfl⟩
              · rw [← c3] at e2; exact absurd e2 e1
              · rw [← c3] at e2; exact absurd e2 e1'
              · rw [if_neg e1] at h
                by_cases hsz : (H a).size = (H b).size
                · rw [if_neg (by simpa using hsz), if_neg e1'] at h
                  cases h
                  rw [packed_iff c3 hsz (words_of hw a e1 e1') (words_of hw b e2 e2') (hc a) (hc b), Tree.data.injEq]
                  simp [c1, c3]
                · rw [if_pos hsz] at h
                  cases h
                  simp only [Bool.false_eq_true, Tree.data.injEq, false_iff, not_and]
                  intro _ _ hh
                  have := congrArg List.length hh
                  simp at this
                  omega
          · rw [if_neg hcond] at h
            cases h
            simp only [Bool.false_eq_true, false_iff]
            rintro rfl
            apply hcond
            rcases isTree_ptr hs with ⟨-, rfl⟩ | ⟨q, ⟨e1, ss, rfl, f1⟩ | ⟨e1, ss, rfl, f1⟩ | ⟨e1, e1', rfl⟩⟩
            · rcases isTree_ptr ht with ⟨-, hh⟩ | ⟨-, ⟨-, ss, hh, -⟩ | ⟨-, ss, hh, -⟩ | ⟨-, -, hh⟩⟩
              · exact absurd (by simpa using hh) hab
              all_goals cases hh
            all_goals
              rcases isTree_ptr ht with ⟨-, hh⟩ | ⟨-, ⟨e2, ss, hh, -⟩ | ⟨e2, ss, hh, -⟩ | ⟨e2, -, hh⟩⟩
              all_goals first | (cases hh; done) | skip
            · simp only [Tree.obj.injEq] at hh; exact ⟨hh.1, q, by rw [e1, e2]⟩
            · simp only [Tree.vec.injEq] at hh; exact ⟨hh.1, q, by rw [e1, e2]⟩
            · simp only [Tree.data.injEq] at hh; exact ⟨hh.1, q, hh.2.1⟩

theorem slotLoop_defined {f : Val → Val → Option Bool} : ∀ (n : Nat) (as bs : List Val), (∀ a ∈ as, ∀ b, ∃ r, f a b = some r) →
    ∃ r, slotLoop f n as bs = some r
  | 0, _, _, _ => ⟨true, rfl⟩
  | n + 1, [], _, _ => ⟨false, rfl⟩
  | n + 1, _ :: _, [], _ => ⟨false, rfl⟩
  | n + 1, a :: as, b :: bs, h => by
    rw [slotLoop]
    obtain ⟨r, e⟩ := h a (by simp) b
    rw [e]
    cases r with
    | true => exact slotLoop_defined n as bs fun x hx => h x (by simp [hx])
    | false => exact ⟨false, rfl⟩

/-- `equal` returns when one of its arguments is a finite tree. -/
theorem equal_defined (E : Env) (H : Heap) : ∀ (n : Nat) (x y : Val) (t : Tree), tree E H n x = some t → ∃ r, equal E H n x y = some r := by
  intro n
  induction n with
  | zero => intro x y t h; cases h
  | succ n ih =>
    intro x y t h
    by_cases hxy : x = y
    · exact ⟨true, by rw [hxy, equal_self]⟩
    · cases x with
      | int z => cases y <;> exact ⟨false, equal_num E H n hxy (by simp)⟩
      | flt z => cases y <;> exact ⟨false, equal_num E H n hxy (by simp)⟩
      | ptr a =>
        cases y with
        | int z => exact ⟨false, equal_num E H n hxy (by simp)⟩
        | flt z => exact ⟨false, equal_num E H n hxy (by simp)⟩
        | ptr b =>
          rw [equal_ptr E H n a b (fun h => hxy (by rw [h]))]
          by_cases hcond : (H a).cix = (H b).cix ∧ E.issym (H a).cix = false ∧ (H a).elm = (H b).elm
          · rw [if_pos hcond]
            have key : ∀ F : List Tree → Tree, ((H a).slots.mapM (tree E H n)).map F = some t → ∀ v ∈ (H a).slots, ∀ b, ∃ r, equal E H n v b = some r := by
              intro F hh v hv b
              cases e : (H a).slots.mapM (tree E H n) with
              | none => rw [e] at hh; cases hh
              | some ts =>
                obtain ⟨u, -, hu⟩ : ∃ u ∈ ts, tree E H n v = some u := by
                  have h2 := (mapM_forall2 _).1 e
                  clear e hh
                  generalize (H a).slots = l at h2 hv
                  induction h2 with
                  | nil => simp at hv
                  | cons h3 _ ih2 =>
                    rcases List.mem_cons.1 hv with rfl | hv
                    · exact ⟨_, by simp, h3⟩
                    · obtain ⟨u, hu, e⟩ := ih2 hv
                      exact ⟨u, by simp [hu], e⟩
                exact ih v b u hu
            unfold tree at h
            dsimp only at h
            rw [if_neg (by simp [hcond.2.1])] at h
            by_cases e1 : (H a).elm = .fixed
            · rw [if_pos e1]
              rw [e1] at h
              exact slotLoop_defined _ _ _ (key _ h)
            · rw [if_neg e1]
              by_cases hsz : (H a).size = (H b).size
              · rw [if_neg (by simpa using hsz)]
                by_cases e2 : (H a).elm = .pointer
                · rw [if_pos e2]
                  rw [e2] at h
                  exact slotLoop_defined _ _ _ (key _ h)
                · rw [if_neg e2]; exact ⟨_, rfl⟩
              · rw [if_pos hsz]; exact ⟨_, rfl⟩
          · rw [if_neg hcond]; exact ⟨_, rfl⟩

end Eus.Eql
