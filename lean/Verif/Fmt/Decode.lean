import Verif.Fmt.Run
set_option autoImplicit false
namespace Eus.Fmt
open Eus.Num Eus.Rd
variable {F O : Type}

/-! ### every control string is made of pieces -/

/-- The bytes of an optional comma. -/
def cm (comma : Bool) : List Nat := if comma then [44] else []

theorem joinPs_cons (p : List Nat) (ps : List (List Nat)) (h : ps ≠ []) : joinPs (p :: ps) = p ++ 44 :: joinPs ps := by
  cases ps with
  | nil => exact absurd rfl h
  | cons q ps => rfl

theorem goodPs_cons {p : List Nat} {ps : List (List Nat)} {comma : Bool} (hp : p ≠ []) (hd : ∀ c ∈ p, 48 ≤ c ∧ c ≤ 57)
    (hv : value p < 2 ^ 31) (h : GoodPs ps comma) : GoodPs (p :: ps) comma := by
  refine ⟨?_, by simp⟩
  intro q hq
  rcases List.mem_cons.1 hq with rfl | hq
  · exact ⟨hp, hd, hv⟩
  · exact h.1 q hq

theorem split_digits (l : List Nat) : ∃ p r, l = p ++ r ∧ (∀ c ∈ p, 48 ≤ c ∧ c ≤ 57) ∧
    (∀ c r', r = c :: r' → isdigit c = false) ∧ (∀ c l', l = c :: l' → isdigit c = true → p ≠ []) := by
  induction l with
  | nil => exact ⟨[], [], rfl, by simp, by simp, by simp⟩
  | cons c l ih =>
    cases hc : isdigit c with
    | false =>
      refine ⟨[], c :: l, rfl, by simp, ?_, ?_⟩
      · intro c' r' h; rw [← (List.cons.inj h).1]; exact hc
      · intro c' l' h h'; rw [← (List.cons.inj h).1, hc] at h'; exact absurd h' (by decide)
    | true =>
      obtain ⟨p, r, h1, h2, h3, _⟩ := ih
      refine ⟨c :: p, r, by rw [h1]; rfl, ?_, h3, by simp⟩
      intro x hx
      rcases List.mem_cons.1 hx with rfl | hx
      · exact (isdigit_iff _).1 hc
      · exact h2 x hx

/-- How the parameters of a directive end. -/
def PEnd (k : Nat) (l : List Nat) : Prop :=
  (∃ ps comma, GoodPs ps comma ∧ ps.length ≤ k ∧ l = joinPs ps ++ cm comma) ∨
  (∃ ps comma c rest, GoodPs ps comma ∧ ps.length ≤ k ∧ l = joinPs ps ++ cm comma ++ c :: rest ∧
    isdigit c = false ∧ (ps ≠ [] → comma = false → c ≠ 44)) ∨
  (∃ ps p rest, GoodPs ps false ∧ ps.length ≤ k ∧ p ≠ [] ∧ (∀ c ∈ p, 48 ≤ c ∧ c ≤ 57) ∧
    l = joinPs (ps ++ [p]) ++ rest ∧ (value p ≥ 2 ^ 31 ∨ ps.length = k))

theorem goodPs_nil : GoodPs [] false := ⟨by simp, by simp⟩

theorem pend : ∀ (k : Nat) (l : List Nat), PEnd k l := by
  intro k
  induction k with
  | zero =>
    intro l
    cases l with
    | nil => exact Or.inl ⟨[], false, goodPs_nil, Nat.le_refl _, rfl⟩
    | cons c l =>
      cases hc : isdigit c with
      | false => exact Or.inr (Or.inl ⟨[], false, c, l, goodPs_nil, Nat.le_refl _, rfl, hc, by simp⟩)
      | true =>
        exact Or.inr (Or.inr ⟨[], [c], l, goodPs_nil, Nat.le_refl _, by simp,
          by intro x hx; rw [List.mem_singleton.1 hx]; exact (isdigit_iff c).1 hc, rfl, Or.inr rfl⟩)
  | succ k ih =>
    intro l
    cases l with
    | nil => exact Or.inl ⟨[], false, goodPs_nil, Nat.zero_le _, rfl⟩
    | cons c l =>
      cases hc : isdigit c with
      | false => exact Or.inr (Or.inl ⟨[], false, c, l, goodPs_nil, Nat.zero_le _, rfl, hc, by simp⟩)
      | true =>
        obtain ⟨p, r, h1, h2, h3, h4⟩ := split_digits (c :: l)
        have hp := h4 c l rfl hc
        rw [h1]
        by_cases hv : value p < 2 ^ 31
        · cases r with
          | nil =>
            exact Or.inl ⟨[p], false, goodPs_cons hp h2 hv goodPs_nil, by simp, by simp [joinPs, cm]⟩
          | cons e r =>
            by_cases he : e = 44
            · subst he
              rcases ih r with ⟨ps, comma, g1, g2, g3⟩ | ⟨ps, comma, c', rest, g1, g2, g3, g4, g5⟩ |
                ⟨ps, q, rest, g1, g2, g3, g4, g5, g6⟩
              · by_cases hps : ps = []
                · subst hps
                  have : comma = false := by
                    cases comma
                    · rfl
                    · exact absurd rfl (g1.2 rfl)
                  subst this
                  refine Or.inl ⟨[p], true, ⟨(goodPs_cons hp h2 hv goodPs_nil).1, by simp⟩, by simp, ?_⟩
                  rw [g3]; simp [joinPs, cm]
                · refine Or.inl ⟨p :: ps, comma, goodPs_cons hp h2 hv g1, by simpa using g2, ?_⟩
                  rw [joinPs_cons p ps hps, g3]; simp
              · by_cases hps : ps = []
                · subst hps
                  have : comma = false := by
                    cases comma
                    · rfl
                    · exact absurd rfl (g1.2 rfl)
                  subst this
                  refine Or.inr (Or.inl ⟨[p], true, c', rest, ⟨(goodPs_cons hp h2 hv goodPs_nil).1, by simp⟩, by simp, ?_,
                    g4, by simp⟩)
                  rw [g3]; simp [joinPs, cm]
                · refine Or.inr (Or.inl ⟨p :: ps, comma, c', rest, goodPs_cons hp h2 hv g1, by simpa using g2, ?_, g4,
                    fun _ => g5 hps⟩)
                  rw [joinPs_cons p ps hps, g3]; simp
              · refine Or.inr (Or.inr ⟨p :: ps, q, rest, ?_, by simpa using g2, g3, g4, ?_, ?_⟩)
                · exact goodPs_cons hp h2 hv g1
                · rw [List.cons_append, joinPs_cons p _ (by simp), g5]; simp
                · rcases g6 with g6 | g6
                  · exact Or.inl g6
                  · right; simpa using g6
            · refine Or.inr (Or.inl ⟨[p], false, e, r, goodPs_cons hp h2 hv goodPs_nil, by simp, by simp [joinPs, cm],
                h3 e r rfl, fun _ _ => he⟩)
        · exact Or.inr (Or.inr ⟨[], p, r, goodPs_nil, Nat.zero_le _, hp, h2, rfl, Or.inl (by omega)⟩)

/-- Every control string is a sequence of pieces, possibly followed by an unfinished directive or by one that is
too long. -/
theorem decode : ∀ (n : Nat) (ctl : List Nat), ctl.length ≤ n → ∃ (is : List Item) (tail : List Nat),
    (∀ i ∈ is, i.Good) ∧ ctl = render is ++ tail ∧ (tail = [] ∨ Unfinished tail ∨ Overlong tail) := by
  intro n
  induction n with
  | zero =>
    intro ctl h
    exact ⟨[], [], by simp, by simpa [render] using h, Or.inl rfl⟩
  | succ n ih =>
    intro ctl h
    cases ctl with
    | nil => exact ⟨[], [], by simp, rfl, Or.inl rfl⟩
    | cons c ctl =>
      have hcons : ∀ (i : Item) (rest : List Nat), i.Good → c :: ctl = i.text ++ rest → rest.length ≤ n →
          ∃ (is : List Item) (tail : List Nat), (∀ i ∈ is, i.Good) ∧ c :: ctl = render is ++ tail ∧
          (tail = [] ∨ Unfinished tail ∨ Overlong tail) := by
        intro i rest hi he hr
        obtain ⟨is, tail, h1, h2, h3⟩ := ih rest hr
        refine ⟨i :: is, tail, ?_, ?_, h3⟩
        · intro j hj
          rcases List.mem_cons.1 hj with rfl | hj
          · exact hi
          · exact h1 j hj
        · rw [he, h2]; simp [render]
      by_cases hc : c = 126
      · subst hc
        rcases pend 10 ctl with ⟨ps, comma, g1, g2, g3⟩ | ⟨ps, comma, d, rest, g1, g2, g3, g4, g5⟩ |
          ⟨ps, q, rest, g1, g2, g3, g4, g5, g6⟩
        · refine ⟨[], _, by simp, rfl, Or.inr (Or.inl ⟨ps, comma, none, g1, by simpa using g2, by simp, ?_⟩)⟩
          rw [g3]; simp [prefixText, cm]
        · by_cases hd : d = 86 ∨ d = 118
          · by_cases hl : ps.length = 10
            · refine ⟨[], _, by simp, rfl, Or.inr (Or.inr (Or.inr ⟨ps, comma, d, rest, g1, hl, hd, ?_⟩))⟩
              rw [g3]; simp [prefixText, cm]
            · cases rest with
              | nil =>
                refine ⟨[], _, by simp, rfl, Or.inr (Or.inl ⟨ps, comma, some d, g1, ?_, ?_, ?_⟩)⟩
                · simp only [Option.toList_some, List.length_cons, List.length_nil]; omega
                · intro x hx; rw [Option.mem_def, Option.some.injEq] at hx; rw [← hx]; exact hd
                · rw [g3]; simp [prefixText, cm]
              | cons e rest =>
                refine hcons (.dir ps comma (some d) e) rest ⟨g1, ?_, ?_, by simp⟩ ?_ ?_
                · simp only [Option.toList_some, List.length_cons, List.length_nil]; omega
                · intro x hx; rw [Option.mem_def, Option.some.injEq] at hx; rw [← hx]; exact hd
                · rw [g3, Item.text_dir]; simp [prefixText, cm]
                · rw [g3] at h; simp only [List.length_append, List.length_cons] at h; omega
          · refine hcons (.dir ps comma none d) rest ⟨g1, by simpa using g2, by simp, ?_⟩ ?_ ?_
            · intro _
              refine ⟨fun h => hd (Or.inl h), fun h => hd (Or.inr h), ?_, g5⟩
              rw [← isdigit_iff, g4]; decide
            · rw [g3, Item.text_dir]; simp [prefixText, cm]
            · rw [g3] at h; simp only [List.length_append, List.length_cons] at h; omega
        · refine ⟨[], _, by simp, rfl, Or.inr (Or.inr (Or.inl ⟨ps, q, rest, g1, g2, g3, g4, g6, ?_⟩))⟩
          rw [g5]; rfl
      · exact hcons (.lit c) ctl hc rfl (by simpa using h)

/-! ### what the tails do -/

theorem readDigits_eos : ∀ (p : List Nat) (v c0 : Nat), (∀ x ∈ c0 :: p, 48 ≤ x ∧ x ≤ 57) →
    (c0 :: p).foldl dstep v < 2 ^ 31 → readDigits v c0 p = .eos := by
  intro p
  induction p with
  | nil =>
    intro v c0 h1 h2
    have h0 := (isdigit_iff c0).2 (h1 c0 (by simp))
    have h4 : ¬ v * 10 + (c0 - 48) > intMax := by
      simp only [List.foldl, dstep] at h2; unfold intMax; omega
    rw [readDigits, if_pos h0, if_neg h4]
  | cons c1 p ih =>
    intro v c0 h1 h2
    have h0 := (isdigit_iff c0).2 (h1 c0 (by simp))
    have h4 : ¬ v * 10 + (c0 - 48) > intMax := by
      have := le_foldl_dstep (c1 :: p) (dstep v c0)
      simp only [List.foldl_cons] at h2 this
      unfold dstep at this h2; unfold intMax; omega
    rw [readDigits, if_pos h0, if_neg h4]
    rw [List.foldl_cons] at h2
    exact ih (dstep v c0) c1 (fun x hx => h1 x (List.mem_cons_of_mem _ hx)) h2

theorem readDigits_ub : ∀ (p : List Nat) (v c0 : Nat) (rest : List Nat), (∀ x ∈ c0 :: p, 48 ≤ x ∧ x ≤ 57) →
    v < 2 ^ 31 → (c0 :: p).foldl dstep v ≥ 2 ^ 31 → readDigits v c0 (p ++ rest) = .ub := by
  intro p
  induction p with
  | nil =>
    intro v c0 rest h1 hv h2
    have h0 := (isdigit_iff c0).2 (h1 c0 (by simp))
    have h4 : v * 10 + (c0 - 48) > intMax := by
      simp only [List.foldl, dstep] at h2; unfold intMax; omega
    rw [List.nil_append]
    cases rest <;> rw [readDigits, if_pos h0, if_pos h4]
  | cons c1 p ih =>
    intro v c0 rest h1 hv h2
    have h0 := (isdigit_iff c0).2 (h1 c0 (by simp))
    rw [List.cons_append, readDigits, if_pos h0]
    by_cases h4 : v * 10 + (c0 - 48) > intMax
    · rw [if_pos h4]
    · rw [if_neg h4]
      rw [List.foldl_cons] at h2
      exact ih (dstep v c0) c1 rest (fun x hx => h1 x (List.mem_cons_of_mem _ hx))
        (by unfold intMax at h4; unfold dstep; omega) h2

/-- One parameter and its comma. -/
theorem readParams_step {d : Nat} {p : List Nat} (acc : List Nat) (n c : Nat) (rest : List Nat)
    (hp2 : ∀ x ∈ d :: p, 48 ≤ x ∧ x ≤ 57) (hp3 : value (d :: p) < 2 ^ 31) (hl : acc.length < 10) :
    readParams (n + 1) acc d (p ++ 44 :: c :: rest) = readParams n (acc ++ [value (d :: p)]) c rest := by
  have hd := (isdigit_iff d).2 (hp2 d (by simp))
  rw [readParams, if_pos hd, if_neg (by omega), readDigits_run p 0 d 44 (c :: rest) hp2 hp3 rfl, ← value_eq]
  simp only [skipComma, if_true]

theorem readParams_eos (comma : Bool) : ∀ (ps : List (List Nat)) (acc : List Nat) (n c0 : Nat) (rest0 : List Nat),
    GoodPs ps comma → acc.length + ps.length ≤ 10 → ps.length ≤ n → joinPs ps ++ cm comma = c0 :: rest0 →
    readParams n acc c0 rest0 = .eos := by
  intro ps
  induction ps with
  | nil =>
    intro acc n c0 rest0 hg hl hn h
    cases comma with
    | false => simp [joinPs, cm] at h
    | true => exact absurd rfl (hg.2 rfl)
  | cons p ps ih =>
    intro acc n c0 rest0 hg hl hn h
    obtain ⟨hp1, hp2, hp3⟩ := hg.1 p (by simp)
    obtain ⟨d, p, rfl⟩ := List.exists_cons_of_ne_nil hp1
    cases n with
    | zero => simp at hn
    | succ n =>
      simp only [List.length_cons] at hl hn
      have hd := (isdigit_iff d).2 (hp2 d (by simp))
      cases ps with
      | nil =>
        simp only [joinPs, List.cons_append, List.cons.injEq] at h
        obtain ⟨rfl, rfl⟩ := h
        rw [readParams, if_pos hd, if_neg (by omega)]
        cases comma with
        | false =>
          simp only [cm, Bool.false_eq_true, if_false, List.append_nil]
          rw [readDigits_eos p 0 d hp2 hp3]
        | true =>
          simp only [cm, if_true]
          rw [readDigits_run p 0 d 44 [] hp2 hp3 rfl]
          simp [skipComma]
      | cons q ps =>
        obtain ⟨e, q', rfl⟩ := List.exists_cons_of_ne_nil (hg.1 q (by simp)).1
        obtain ⟨r, hr⟩ : ∃ r, joinPs ((e :: q') :: ps) ++ cm comma = e :: r := by
          cases ps <;> simp [joinPs]
        rw [joinPs_cons _ _ (by simp), List.append_assoc, List.cons_append, List.cons_append, hr] at h
        simp only [List.cons.injEq] at h
        obtain ⟨rfl, rfl⟩ := h
        rw [readParams_step acc n e r hp2 hp3 (by omega)]
        exact ih _ n e r ⟨fun x hx => hg.1 x (List.mem_cons_of_mem _ hx), fun _ => by simp⟩
          (by simp only [List.length_append, List.length_cons, List.length_nil]; simp only [List.length_cons] at hl; omega)
          (by simp only [List.length_cons] at hn ⊢; omega) hr

theorem readParams_ub {q : List Nat} (rest : List Nat) (hq1 : q ≠ []) (hq2 : ∀ c ∈ q, 48 ≤ c ∧ c ≤ 57) :
    ∀ (ps : List (List Nat)) (acc : List Nat) (n c0 : Nat) (rest0 : List Nat),
    GoodPs ps false → acc.length + ps.length ≤ 10 → (value q ≥ 2 ^ 31 ∨ acc.length + ps.length = 10) → ps.length < n →
    joinPs (ps ++ [q]) ++ rest = c0 :: rest0 → readParams n acc c0 rest0 = .ub := by
  intro ps
  induction ps with
  | nil =>
    intro acc n c0 rest0 hg hl ho hn h
    obtain ⟨e, q, rfl⟩ := List.exists_cons_of_ne_nil hq1
    simp only [List.nil_append, joinPs, List.cons_append, List.cons.injEq] at h
    obtain ⟨rfl, rfl⟩ := h
    have hd := (isdigit_iff e).2 (hq2 e (by simp))
    cases n with
    | zero => simp at hn
    | succ n =>
      rw [readParams, if_pos hd]
      by_cases ha : acc.length ≥ 10
      · rw [if_pos ha]
      · rw [if_neg ha]
        rcases ho with ho | ho
        · rw [readDigits_ub q 0 e rest hq2 (by decide) ho]
        · simp at ho; omega
  | cons p ps ih =>
    intro acc n c0 rest0 hg hl ho hn h
    obtain ⟨hp1, hp2, hp3⟩ := hg.1 p (by simp)
    obtain ⟨d, p, rfl⟩ := List.exists_cons_of_ne_nil hp1
    cases n with
    | zero => simp at hn
    | succ n =>
      simp only [List.length_cons] at hl hn ho
      obtain ⟨e, r, hr⟩ : ∃ e r, joinPs (ps ++ [q]) ++ rest = e :: r := by
        obtain ⟨e, q, rfl⟩ := List.exists_cons_of_ne_nil hq1
        cases ps with
        | nil => exact ⟨e, q ++ rest, rfl⟩
        | cons x xs =>
          obtain ⟨y, x, rfl⟩ := List.exists_cons_of_ne_nil (hg.1 x (by simp)).1
          rw [List.cons_append, joinPs_cons _ _ (by simp)]
          exact ⟨y, _, rfl⟩
      rw [List.cons_append, joinPs_cons _ _ (by simp), List.append_assoc, List.cons_append, List.cons_append, hr] at h
      simp only [List.cons.injEq] at h
      obtain ⟨rfl, rfl⟩ := h
      rw [readParams_step acc n e r hp2 hp3 (by omega)]
      exact ih _ n e r ⟨fun x hx => hg.1 x (List.mem_cons_of_mem _ hx), by simp⟩
        (by simp only [List.length_append, List.length_cons, List.length_nil]; omega)
        (by simp only [List.length_append, List.length_cons, List.length_nil]; omega) (by omega) hr

theorem prefix_last_none (ps : List (List Nat)) (comma : Bool) (hg : GoodPs ps comma) :
    ∀ c ∈ 126 :: prefixText ps comma none, c = 126 ∨ c = 44 ∨ (48 ≤ c ∧ c ≤ 57) := by
  have hj : ∀ (ps : List (List Nat)), (∀ p ∈ ps, ∀ c ∈ p, 48 ≤ c ∧ c ≤ 57) → ∀ c ∈ joinPs ps, c = 44 ∨ (48 ≤ c ∧ c ≤ 57) := by
    intro ps
    induction ps using joinPs.induct with
    | case1 => intro _ c hc; simp [joinPs] at hc
    | case2 p => intro h c hc; exact Or.inr (h p (by simp) c hc)
    | case3 p q ps ih =>
      intro h c hc
      simp only [joinPs, List.mem_append, List.mem_cons] at hc
      rcases hc with hc | hc | hc
      · exact Or.inr (h p (by simp) c hc)
      · exact Or.inl hc
      · exact ih (fun p hp => h p (List.mem_cons_of_mem _ hp)) c hc
  intro c hc
  rcases List.mem_cons.1 hc with rfl | hc
  · exact Or.inl rfl
  · simp only [prefixText, Option.toList_none, List.append_nil, List.mem_append] at hc
    rcases hc with hc | hc
    · exact Or.inr (hj ps (fun p hp => (hg.1 p hp).2.1) c hc)
    · right; left
      cases comma
      · simp at hc
      · simpa using hc

theorem run_unfinished (E : Env F O) {tail : List Nat} (h : Unfinished tail) (n : Nat) (hn : tail.length ≤ n) (s : St F O) :
    (run E n tail s).obs = .error (unfinishedDoes tail s.args) := by
  obtain ⟨ps, comma, v, hg, hl, hv, rfl⟩ := h
  cases n with
  | zero => simp at hn
  | succ n =>
    rw [run, if_pos rfl]
    cases v with
    | none =>
      have hu : unfinishedDoes (126 :: prefixText ps comma none) s.args = .inr () := by
        unfold unfinishedDoes
        rw [if_neg]
        intro h
        have hlast : ∀ c, (126 :: prefixText ps comma none).getLast? = some c → c = 126 ∨ c = 44 ∨ (48 ≤ c ∧ c ≤ 57) :=
          fun c hc => prefix_last_none ps comma hg c (List.mem_of_getLast? hc)
        rcases h with h | h
        · have := hlast _ h; omega
        · have := hlast _ h; omega
      rw [hu]
      have hpf : prefixText ps comma none = joinPs ps ++ cm comma := by simp [prefixText, cm]
      rw [hpf]
      cases hh : joinPs ps ++ cm comma with
      | nil => rfl
      | cons c0 rest0 =>
        have := readParams_eos comma ps [] (rest0.length + 1) c0 rest0 hg (by simpa using hl) (by
          have h1 := joinPs_length ps (fun p hp => (hg.1 p hp).1)
          have h2 := congrArg List.length hh
          simp only [List.length_append, List.length_cons] at h2
          omega) hh
        simp only [directive, this, Res.obs]
    | some c =>
      have hc := hv c rfl
      have hu : unfinishedDoes (126 :: prefixText ps comma (some c)) s.args =
          match s.args with
          | [] => .inl .tooFew
          | a :: _ => if (ckintval a).isSome then .inr () else .inl .notInt := by
        unfold unfinishedDoes
        have : (126 :: prefixText ps comma (some c)).getLast? = some c := by
          have h : 126 :: prefixText ps comma (some c) = (126 :: (joinPs ps ++ (if comma then [44] else []))) ++ [c] := by
            simp [prefixText]
          rw [h]; exact List.getLast?_concat
        rw [if_pos (by rw [this]; rcases hc with rfl | rfl; exact Or.inl rfl; exact Or.inr rfl)]
        cases s.args <;> rfl
      rw [hu]
      have hdd : isdigit c = false := by rcases hc with rfl | rfl <;> rfl
      have hpf : prefixText ps comma (some c) = joinPs ps ++ (if comma then [44] else []) ++ c :: [] := by
        simp [prefixText]
      rw [hpf]
      simp only [Option.toList_some, List.length_cons, List.length_nil] at hl
      cases hh : joinPs ps ++ (if comma then [44] else []) ++ c :: [] with
      | nil => simp at hh
      | cons c0 rest0 =>
        have hr := readParams_all hg (by omega) [] hdd (fun _ _ => by rcases hc with rfl | rfl <;> decide) hh
        simp only [directive, hr, map_value]
        rw [if_pos (upper_V hc)]
        simp only [nextfarg]
        cases hs : s.args with
        | nil => rfl
        | cons a as =>
          dsimp only
          cases ckintval a with
          | none => rfl
          | some z =>
            dsimp only
            rw [if_neg (by simp only [List.length_map]; omega)]
            rfl

theorem run_overlong (E : Env F O) {tail : List Nat} (h : Overlong tail) (n : Nat) (hn : tail.length ≤ n) (s : St F O) :
    ∃ f, (run E n tail s).obs = .error (.inl f) ∧
      (f = .corrupt ∨ (f = .tooFew ∧ s.args = []) ∨ (f = .notInt ∧ ∃ a, s.args.head? = some a ∧ ckintval a = none)) := by
  cases n with
  | zero => rcases h with ⟨ps, p, rest, _, _, _, _, _, rfl⟩ | ⟨ps, comma, c, rest, _, _, _, rfl⟩ <;> simp at hn
  | succ n =>
    rcases h with ⟨ps, p, rest, h1, h2, h3, h4, h5, rfl⟩ | ⟨ps, comma, c, rest, hg, h2, hc, rfl⟩
    · rw [List.cons_append, run, if_pos rfl]
      cases hh : joinPs (ps ++ [p]) ++ rest with
      | nil =>
        exfalso
        have := joinPs_length (ps ++ [p]) (by
          intro q hq
          rcases List.mem_append.1 hq with hq | hq
          · exact (h1.1 q hq).1
          · rw [List.mem_singleton.1 hq]; exact h3)
        have h2 := congrArg List.length hh
        simp at this h2
        simp [h2.1] at this
      | cons c0 rest0 =>
        have := readParams_ub rest h3 h4 ps [] (rest0.length + 1) c0 rest0 h1 (by simpa using h2) (by simpa using h5) (by
          have h1 := joinPs_length (ps ++ [p]) (by
            intro q hq
            rcases List.mem_append.1 hq with hq | hq
            · exact (h1.1 q hq).1
            · rw [List.mem_singleton.1 hq]; exact h3)
          have h2 := congrArg List.length hh
          simp only [List.length_append, List.length_cons, List.length_nil] at h1 h2
          omega) hh
        refine ⟨.corrupt, ?_, Or.inl rfl⟩
        simp only [directive, this, Res.obs]
    · rw [List.cons_append, run, if_pos rfl]
      have hdd : isdigit c = false := by rcases hc with rfl | rfl <;> rfl
      have hpf : prefixText ps comma (some c) ++ rest = joinPs ps ++ (if comma then [44] else []) ++ c :: rest := by
        simp [prefixText]
      rw [hpf]
      cases hh : joinPs ps ++ (if comma then [44] else []) ++ c :: rest with
      | nil => simp at hh
      | cons c0 rest0 =>
        have hr := readParams_all hg (by omega) rest hdd (fun _ _ => by rcases hc with rfl | rfl <;> decide) hh
        simp only [directive, hr, map_value]
        rw [if_pos (upper_V hc)]
        simp only [nextfarg]
        cases hs : s.args with
        | nil => exact ⟨_, rfl, Or.inr (Or.inl ⟨rfl, rfl⟩)⟩
        | cons a as =>
          dsimp only
          cases hz : ckintval a with
          | none => exact ⟨_, rfl, Or.inr (Or.inr ⟨rfl, a, rfl, hz⟩)⟩
          | some z =>
            dsimp only
            rw [if_pos (by simp only [List.length_map]; omega)]
            exact ⟨_, rfl, Or.inl rfl⟩

end Eus.Fmt
