import Mathlib.Data.List.Nodup
import Mathlib.Tactic.Common
import Verif.Arg.Spec
set_option autoImplicit false
namespace Eus.Arg

/-! ### Strings -/

theorem isFlag_iff (s : Str) : flag_name_p s = true ↔ IsFlag s := by
  have ht : trim s = [] ↔ ∀ c ∈ s, c = 45 := by
    unfold trim
    induction s with
    | nil => simp
    | cons a r ih =>
      by_cases h : a = 45
      · simp [h, ih]
      · simp [h]
  unfold flag_name_p IsFlag
  simp only [Bool.and_eq_true, decide_eq_true_eq, ne_eq, ht]
  constructor
  · rintro ⟨h1, h2⟩
    refine ⟨?_, by simpa using h1⟩
    cases s with
    | nil => simp at h2
    | cons a r => simp only [List.head?_cons, Option.some.injEq] at h2; exact ⟨r, by rw [h2]⟩
  · rintro ⟨⟨r, rfl⟩, c, hc, h⟩
    exact ⟨fun hh => h (hh c hc), rfl⟩

theorem splits_split (s : Str) : Splits s (split_flag s).1 (split_flag s).2 := by
  unfold split_flag
  cases h : s.findIdx? (· = 61) with
  | none =>
    rw [List.findIdx?_eq_none_iff] at h
    refine ⟨fun hm => ?_, Or.inl ⟨rfl, rfl⟩⟩
    have := h 61 hm
    simp at this
  | some pos =>
    rw [List.findIdx?_eq_some_iff_getElem] at h
    obtain ⟨hl, h1, h2⟩ := h
    simp only [decide_eq_true_eq] at h1
    refine ⟨fun hm => ?_, Or.inr ⟨_, rfl, ?_⟩⟩
    · obtain ⟨i, hi, e⟩ := List.getElem_of_mem hm
      simp only [List.length_take] at hi
      have := h2 i (by omega)
      rw [List.getElem_take] at e
      simp [e] at this
    · rw [← h1, List.getElem_cons_drop, List.take_append_drop]

theorem splits_unique {s n n' : Str} {v v' : Option Str} (h : Splits s n v) (h' : Splits s n' v') : n = n' ∧ v = v' := by
  obtain ⟨h1, h2⟩ := h
  obtain ⟨h1', h2'⟩ := h'
  have key : ∀ (a b x y : Str), 61 ∉ a → 61 ∉ b → a ++ 61 :: x = b ++ 61 :: y → a = b ∧ x = y := by
    intro a
    induction a with
    | nil =>
      intro b x y _ hb e
      cases b with
      | nil => simpa using e
      | cons c b => simp only [List.nil_append, List.cons_append, List.cons.injEq] at e; exact absurd (by simp [← e.1]) hb
    | cons c a ih =>
      intro b x y ha hb e
      cases b with
      | nil => simp only [List.nil_append, List.cons_append, List.cons.injEq] at e; exact absurd (by simp [e.1]) ha
      | cons c' b =>
        simp only [List.cons_append, List.cons.injEq] at e
        obtain ⟨rfl, rfl⟩ := ih b x y (fun h => ha (by simp [h])) (fun h => hb (by simp [h])) e.2
        exact ⟨by rw [e.1], rfl⟩
  rcases h2 with ⟨rfl, rfl⟩ | ⟨x, rfl, rfl⟩
  · rcases h2' with ⟨rfl, rfl⟩ | ⟨y, rfl, e⟩
    · exact ⟨rfl, rfl⟩
    · exact absurd (by rw [e]; simp) h1
  · rcases h2' with ⟨rfl, e⟩ | ⟨y, rfl, e⟩
    · exact absurd (by rw [← e]; simp) h1'
    · obtain ⟨rfl, rfl⟩ := key _ _ _ _ h1 h1' e
      exact ⟨rfl, rfl⟩

/-! ### Association lists -/

theorem look_update {d e : Dest} {a b : Argument} {l : List (Dest × Argument)} (h : look d l = some b) :
    look e (update d a l) = if e = d then some a else look e l := by
  induction l with
  | nil => simp [look] at h
  | cons x r ih =>
    obtain ⟨x, y⟩ := x
    rw [look] at h
    rw [update]
    by_cases hx : x = d
    · subst hx
      rw [if_pos rfl, look, look]
      by_cases he : x = e
      · subst he; simp
      · rw [if_neg he, if_neg he, if_neg (fun h => he h.symm)]
    · rw [if_neg hx] at h
      rw [if_neg hx, look, look, ih h]
      by_cases he : x = e
      · subst he; rw [if_pos rfl, if_pos rfl, if_neg hx]
      · rw [if_neg he, if_neg he]

/-! ### One use -/

/-- `:read` only where a value is read, as it must be. -/
def ReadOk (a : Argument) : Prop := a.read = true → flagp a.action = true → isFn a.action = true

/-- The argument with another value. -/
def setv (a : Argument) (w : V) : Argument := { a with value := w }

theorem store_iff (rd : Str → Option V) (a b : Argument) (v : V) :
    store rd a v = .ok b ↔ ∃ w, readVal rd a v = some w ∧ Allowed a w ∧ b = setv a w := by
  unfold store
  cases readVal rd a v with
  | none => simp
  | some w =>
    simp only [Option.some.injEq, exists_eq_left']
    have hc : checked a w = true ↔ ∀ f ∈ a.check, f w = true := by
      unfold checked
      cases a.check <;> simp
    unfold Allowed
    rw [← hc]
    by_cases h1 : checked a w = true
    · simp only [h1, Bool.not_true, Bool.false_eq_true, if_false, true_and]
      by_cases hch : a.choices ≠ [] ∧ w ∉ a.choices
      · rw [if_pos hch]
        simp only [reduceCtorEq, false_iff, not_and]
        intro h; rcases h with h | h
        · exact absurd h hch.1
        · exact absurd h hch.2
      · rw [if_neg hch]
        simp only [Except.ok.injEq]
        rw [not_and_or, not_not, not_not] at hch
        exact ⟨fun h => ⟨hch, h.symm⟩, fun h => h.2.symm⟩
    · simp [h1]

/-- Storing a value that is not read. -/
theorem store_val_iff (rd : Str → Option V) (a b : Argument) (v : V) (h : a.read = true → isFn a.action = true) :
    store rd a v = .ok b ↔ Allowed a v ∧ b = setv a v := by
  have : readVal rd a v = some v := by
    unfold readVal
    cases hr : a.read with
    | false => simp
    | true => simp [h hr]
  rw [store_iff, this]
  simp

/-- Storing a string that may have to be read. -/
theorem store_str_iff (rd : Str → Option V) (a b : Argument) (s : Str) (h : isFn a.action = false) :
    store rd a (.str s) = .ok b ↔ ∃ v, Meaning rd a s v ∧ Allowed a v ∧ b = setv a v := by
  have : ∀ w, readVal rd a (.str s) = some w ↔ Meaning rd a s w := by
    intro w
    unfold readVal Meaning
    rw [h]
    cases a.read with
    | false => simp [eq_comm]
    | true => simp
  rw [store_iff]
  simp only [this]

theorem snoc_iff (l x r : V) : snoc l x = some r ↔ Snoc l x r := by
  constructor
  · intro h
    induction l generalizing r with
    | nil => simp only [snoc, Option.some.injEq] at h; subst h; exact .nil x
    | cons a d _ ihd =>
      rw [snoc.eq_def] at h
      simp only at h
      split at h
      · rename_i b c
        rw [Option.map_eq_some_iff] at h
        obtain ⟨y, hy, rfl⟩ := h
        exact .cons a (ihd y hy)
      · rename_i hnc
        simp only [Option.some.injEq] at h
        subst h
        by_cases hd : d = .nil
        · subst hd; exact .cons a (.nil x)
        · exact .dotted a x (fun b c e => hnc b c e) hd
    | _ => simp [snoc] at h
  · intro h
    induction h with
    | nil x => rfl
    | dotted a x h1 h2 =>
      rename_i d
      rw [snoc.eq_def]
      cases d with
      | cons b c => exact absurd rfl (h1 b c)
      | _ => rfl
    | cons a h ih =>
      rename_i d x r
      rw [snoc.eq_def]
      cases d with
      | cons b c => simp only [ih, Option.map_some]
      | nil => simp only [snoc, Option.some.injEq] at ih; subst ih; rfl
      | _ => simp [snoc] at ih

theorem act_iff (rd : Str → Option V) (a b : Argument) (flag : Str) (o : Option Str) (h : ReadOk a) :
    act rd a flag o = .ok b ↔ ∃ w, Step rd a o a.value w ∧ b = setv a w := by
  unfold act
  generalize hval : a.value = val
  cases ha : a.action with
  | fn0 f =>
    cases o with
    | some s =>
      simp only [reduceCtorEq, false_iff, not_exists, not_and]
      intro w hw
      cases hw <;> simp_all
    | none =>
      cases f with
      | none =>
        simp only [reduceCtorEq, false_iff, not_exists, not_and]
        intro w hw
        cases hw <;> simp_all
      | some v =>
        simp only
        rw [store_val_iff rd a b v (by simp [ha, isFn])]
        constructor
        · rintro ⟨h1, h2⟩; exact ⟨v, .fn0 ha h1, h2⟩
        · rintro ⟨w, hw, h2⟩
          cases hw <;> simp_all
  | fn1 f =>
    cases o with
    | none =>
      simp only [reduceCtorEq, false_iff, not_exists, not_and]
      intro w hw
      cases hw <;> simp_all
    | some s =>
      simp only
      have hm : ∀ x, (if a.read = true then rd s else some (.str s)) = some x ↔ Meaning rd a s x := by
        intro x; unfold Meaning; split <;> simp [eq_comm]
      cases hx : (if a.read = true then rd s else some (V.str s)) with
      | none =>
        simp only [reduceCtorEq, false_iff, not_exists, not_and]
        intro w hw
        cases hw with
        | fn1 h1 h2 h3 h4 => rw [← hm, hx] at h2; exact absurd h2 (by simp)
        | _ => simp_all
      | some x =>
        have hx' := (hm x).1 hx
        simp only
        cases hf : f x with
        | none =>
          simp only [reduceCtorEq, false_iff, not_exists, not_and]
          intro w hw
          cases hw with
          | fn1 h1 h2 h3 h4 =>
            rw [← hm, hx] at h2
            rw [ha] at h1
            cases h1; cases h2; rw [hf] at h3; exact absurd h3 (by simp)
          | _ => simp_all
        | some y =>
          simp only
          rw [store_val_iff rd a b y (by simp [ha, isFn])]
          constructor
          · rintro ⟨h1, h2⟩; exact ⟨y, .fn1 ha hx' hf h1, h2⟩
          · rintro ⟨w, hw, h2⟩
            cases hw with
            | fn1 h1 h2' h3 h4 =>
              rw [← hm, hx] at h2'
              rw [ha] at h1
              cases h1; cases h2'; rw [hf] at h3; cases h3
              exact ⟨h4, h2⟩
            | _ => simp_all
  | storeTrue =>
    have hr : a.read = true → isFn a.action = true := fun h' => h h' (by simp [ha, flagp])
    cases o with
    | some s =>
      simp only [Option.isSome_some, flagp, and_self, if_true, reduceCtorEq, false_iff, not_exists, not_and]
      intro w hw
      cases hw <;> simp_all
    | none =>
      simp only [Option.isSome_none, Bool.false_eq_true, false_and, if_false, flagp, not_true_eq_false, and_false]
      rw [store_val_iff rd a b _ hr]
      constructor
      · rintro ⟨h1, h2⟩; exact ⟨_, .storeTrue ha h1, h2⟩
      · rintro ⟨w, hw, h2⟩
        cases hw <;> simp_all
  | storeFalse =>
    have hr : a.read = true → isFn a.action = true := fun h' => h h' (by simp [ha, flagp])
    cases o with
    | some s =>
      simp only [Option.isSome_some, flagp, and_self, if_true, reduceCtorEq, false_iff, not_exists, not_and]
      intro w hw
      cases hw <;> simp_all
    | none =>
      simp only [Option.isSome_none, Bool.false_eq_true, false_and, if_false, flagp, not_true_eq_false, and_false]
      rw [store_val_iff rd a b _ hr]
      constructor
      · rintro ⟨h1, h2⟩; exact ⟨_, .storeFalse ha h1, h2⟩
      · rintro ⟨w, hw, h2⟩
        cases hw <;> simp_all
  | storeConst =>
    have hr : a.read = true → isFn a.action = true := fun h' => h h' (by simp [ha, flagp])
    cases o with
    | some s =>
      simp only [Option.isSome_some, flagp, and_self, if_true, reduceCtorEq, false_iff, not_exists, not_and]
      intro w hw
      cases hw <;> simp_all
    | none =>
      simp only [Option.isSome_none, Bool.false_eq_true, false_and, if_false, flagp, not_true_eq_false, and_false]
      rw [store_val_iff rd a b _ hr]
      constructor
      · rintro ⟨h1, h2⟩; exact ⟨_, .storeConst ha h1, h2⟩
      · rintro ⟨w, hw, h2⟩
        cases hw <;> simp_all
  | count =>
    have hr : a.read = true → isFn a.action = true := fun h' => h h' (by simp [ha, flagp])
    cases o with
    | some s =>
      simp only [Option.isSome_some, flagp, and_self, if_true, reduceCtorEq, false_iff, not_exists, not_and]
      intro w hw
      cases hw <;> simp_all
    | none =>
      simp only [Option.isSome_none, Bool.false_eq_true, false_and, if_false, flagp, not_true_eq_false, and_false]
      have e : ∀ v w, Step rd a none v w → ∃ x, plus1 v = some x ∧ Allowed a x ∧ w = x := by
        intro v w hw
        cases hw with
        | count h1 h2 => exact ⟨_, rfl, h2, rfl⟩
        | count1 h1 h2 => exact ⟨_, rfl, h2, rfl⟩
        | _ => simp_all
      have e' : ∀ v x, plus1 v = some x → Allowed a x → Step rd a none v x := by
        intro v x hx hal
        cases v with
        | nil => cases hx; exact .count1 ha hal
        | int n => cases hx; exact .count ha hal
        | _ => simp [plus1] at hx
      cases hp : plus1 val with
      | none =>
        simp only [reduceCtorEq, false_iff, not_exists, not_and]
        intro w hw
        obtain ⟨x, hx, _⟩ := e _ _ hw
        rw [hp] at hx; exact absurd hx (by simp)
      | some x =>
        simp only
        rw [store_val_iff rd a b _ hr]
        constructor
        · rintro ⟨h1, h2⟩; exact ⟨x, e' _ _ hp h1, h2⟩
        · rintro ⟨w, hw, h2⟩
          obtain ⟨y, hy, hal, rfl⟩ := e _ _ hw
          rw [hp] at hy; cases hy
          exact ⟨hal, h2⟩
  | store =>
    cases o with
    | none =>
      simp only [Option.isSome_none, Bool.false_eq_true, false_and, if_false, flagp, not_false_eq_true, and_self, if_true,
        reduceCtorEq, false_iff, not_exists, not_and]
      intro w hw
      cases hw <;> simp_all
    | some s =>
      simp only [Option.isSome_some, flagp, Bool.false_eq_true, and_false, if_false, not_true_eq_false, false_and]
      rw [store_str_iff rd a b s (by simp [ha, isFn])]
      constructor
      · rintro ⟨v, h1, h2, h3⟩; exact ⟨v, .store ha h1 h2, h3⟩
      · rintro ⟨w, hw, h2⟩
        cases hw with
        | store h1 h3 h4 => exact ⟨w, h3, h4, h2⟩
        | _ => simp_all
  | append =>
    cases o with
    | none =>
      simp only [Option.isSome_none, Bool.false_eq_true, false_and, if_false, flagp, not_false_eq_true, and_self, if_true,
        reduceCtorEq, false_iff, not_exists, not_and]
      intro w hw
      cases hw <;> simp_all
    | some s =>
      simp only [Option.isSome_some, flagp, Bool.false_eq_true, and_false, if_false, not_true_eq_false, false_and]
      constructor
      · intro hh
        cases hs : store rd a (.str s) with
        | error x => rw [hs] at hh; simp at hh
        | ok c =>
          rw [hs] at hh
          obtain ⟨x, h1, h2, h3⟩ := (store_str_iff rd a c s (by simp [ha, isFn])).1 hs
          subst h3
          change (match snoc val x with
            | some v => Except.ok (setv a v)
            | none => Except.error Err.lisp) = Except.ok b at hh
          cases hsn : snoc val x with
          | none => rw [hsn] at hh; simp at hh
          | some w =>
            rw [hsn] at hh
            simp only [Except.ok.injEq] at hh
            exact ⟨w, .append ha h1 h2 ((snoc_iff _ _ _).1 hsn), hh.symm⟩
      · rintro ⟨w, hw, h2⟩
        cases hw with
        | append h1 h3 h4 h5 =>
          rw [(store_str_iff rd a _ s (by simp [ha, isFn])).2 ⟨_, h3, h4, rfl⟩]
          change (match snoc val _ with
            | some v => Except.ok (setv a v)
            | none => Except.error Err.lisp) = Except.ok b
          rw [show ∀ x, (setv a x).value = x from fun _ => rfl, (snoc_iff _ _ _).2 h5, h2]
        | _ => simp_all

end Eus.Arg
