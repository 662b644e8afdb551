import Verif.Fmt.Decode
set_option autoImplicit false
namespace Eus.Fmt
open Eus.Num Eus.Rd
variable {F O : Type}

/-- A result after something has been written. -/
def pre (o : List Nat) (x : Except (Fail ⊕ Unit) (List Nat × List (Arg F O))) :
    Except (Fail ⊕ Unit) (List Nat × List (Arg F O)) := x.map fun p => (o ++ p.1, p.2)

theorem pre_pre (o o' : List Nat) (x : Except (Fail ⊕ Unit) (List Nat × List (Arg F O))) :
    pre o (pre o' x) = pre (o ++ o') x := by
  cases x <;> simp [pre, Except.map]

/-- The result of pieces, as that of a call. -/
def lift {α : Type} : Except Fail α → Except (Fail ⊕ Unit) α
  | .ok a => .ok a
  | .error f => .error (.inl f)

def theTrim (t : List Nat) : List Nat := (trimRev t.reverse).reverse

theorem simK_tail (E : Env F O) {is : List Item} (hg : ∀ i ∈ is, i.Good) (trim : List Nat → List Nat)
    (ht : ∀ t, Trimmed t (trim t)) (tail : List Nat) (n : Nat) (s : St F O) (hn : (render is ++ tail).length ≤ n) :
    (∃ f, doAll E s.slash trim is s.args = .error f ∧ (run E n (render is ++ tail) s).obs = .error (.inl f)) ∨
    (∃ t as m s', doAll E s.slash trim is s.args = .ok (t, as) ∧ tail.length ≤ m ∧
      run E n (render is ++ tail) s = run E m tail s' ∧ s'.out = s.out ++ t ∧ s'.slash = s.slash ∧ s'.args = as) := by
  obtain ⟨m, hm, h⟩ := run_items E trim ht is tail n s hg hn
  unfold SimK at h
  cases hd : doAll E s.slash trim is s.args with
  | error f => rw [hd] at h; exact Or.inl ⟨f, rfl, h⟩
  | ok p =>
    obtain ⟨t, as⟩ := p
    rw [hd] at h
    obtain ⟨s', h1, h2, h3, h4⟩ := h
    exact Or.inr ⟨t, as, m, s', rfl, hm, h1, h2, h3, h4⟩

theorem run_ub_overlong (E : Env F O) {tail : List Nat} (h : Overlong tail) (n m : Nat) (hn : tail.length ≤ n)
    (hm : tail.length ≤ m) (s s' : St F O) (ha : s.args = s'.args) : (run E n tail s).obs = (run E m tail s').obs := by
  obtain ⟨n, rfl⟩ : ∃ k, n = k + 1 := by
    cases n with
    | zero => rcases h with ⟨ps, p, rest, _, _, _, _, _, rfl⟩ | ⟨ps, comma, c, rest, _, _, _, rfl⟩ <;> simp at hn
    | succ n => exact ⟨n, rfl⟩
  obtain ⟨m, rfl⟩ : ∃ k, m = k + 1 := by
    cases m with
    | zero => rcases h with ⟨ps, p, rest, _, _, _, _, _, rfl⟩ | ⟨ps, comma, c, rest, _, _, _, rfl⟩ <;> simp at hm
    | succ n => exact ⟨n, rfl⟩
  rcases h with ⟨ps, p, rest, h1, h2, h3, h4, h5, rfl⟩ | ⟨ps, comma, c, rest, hg, h2, hc, rfl⟩
  · have : ∀ n (s : St F O), (run E (n + 1) (126 :: joinPs (ps ++ [p]) ++ rest) s).obs = .error (.inl .corrupt) := by
      intro n s
      rw [List.cons_append, run, if_pos rfl]
      have hlen := joinPs_length (ps ++ [p]) (by
          intro q hq
          rcases List.mem_append.1 hq with hq | hq
          · exact (h1.1 q hq).1
          · rw [List.mem_singleton.1 hq]; exact h3)
      simp only [List.length_append, List.length_cons, List.length_nil] at hlen
      cases hh : joinPs (ps ++ [p]) ++ rest with
      | nil =>
        have h2 := congrArg List.length hh
        simp only [List.length_append, List.length_nil] at h2
        omega
      | cons c0 rest0 =>
        have := readParams_ub rest h3 h4 ps [] (rest0.length + 1) c0 rest0 h1 (by simpa using h2) (by simpa using h5) (by
          have h2 := congrArg List.length hh
          simp only [List.length_append, List.length_cons] at h2
          omega) hh
        simp only [directive, this, Res.obs]
    rw [this, this]
  · simp only [List.cons_append, run, if_true]
    have hdd : isdigit c = false := by rcases hc with rfl | rfl <;> rfl
    have hpf : prefixText ps comma (some c) ++ rest = joinPs ps ++ (if comma then [44] else []) ++ c :: rest := by
      simp [prefixText]
    rw [hpf]
    cases hh : joinPs ps ++ (if comma then [44] else []) ++ c :: rest with
    | nil => simp at hh
    | cons c0 rest0 =>
      have hr := readParams_all hg (by omega) rest hdd (fun _ _ => by rcases hc with rfl | rfl <;> decide) hh
      simp only [directive, hr, map_value]
      rw [if_pos (upper_V hc), if_pos (upper_V hc)]
      simp only [nextfarg, ha]
      cases s'.args with
      | nil => rfl
      | cons a as =>
        dsimp only
        cases ckintval a with
        | none => rfl
        | some z =>
          dsimp only
          rw [if_pos (by simp only [List.length_map]; omega), if_pos (by simp only [List.length_map]; omega)]

/-- What is still to be done does not depend on what has been written. -/
theorem run_prefix (E : Env F O) (c : List Nat) (n : Nat) (s : St F O) (hn : c.length ≤ n) :
    (run E n c s).obs = pre s.out (format E s.slash c s.args).obs := by
  obtain ⟨is, tail, hg, rfl, ht⟩ := decode c.length c (Nat.le_refl _)
  have h1 := simK_tail E hg theTrim trim_ok tail n s hn
  have h2 := simK_tail E hg theTrim trim_ok tail (render is ++ tail).length ⟨[], s.slash, 0, s.args⟩ (Nat.le_refl _)
  unfold format
  rcases h1 with ⟨f, h1, g1⟩ | ⟨t, as, m, s', h1, hm, g1, g2, g3, g4⟩
  · rcases h2 with ⟨f', h2, g2⟩ | ⟨t, as, m, s', h2, _⟩
    · rw [h1] at h2
      injection h2 with h2
      subst h2
      rw [g1, g2]; rfl
    · rw [h1] at h2; exact absurd h2 (by simp)
  · rcases h2 with ⟨f', h2, _⟩ | ⟨t', as', m', s'', h2, hm', k1, k2, k3, k4⟩
    · rw [h1] at h2; exact absurd h2 (by simp)
    · rw [h1] at h2
      injection h2 with h2
      injection h2 with h2 h3
      subst h2; subst h3
      rw [g1, k1]
      rcases ht with rfl | ht | ht
      · simp only [run, Res.obs, pre, Except.map, g2, k2, g4, k4, List.nil_append]
      · rw [run_unfinished E ht m hm, run_unfinished E ht m' hm', g4, k4]; rfl
      · obtain ⟨f, hf, _⟩ := run_overlong E ht m hm s'
        rw [← run_ub_overlong E ht m m' hm hm' s' s'' (by rw [g4, k4]), hf]; rfl

/-- If a call returns, the control string is made of complete pieces. -/
theorem format_ok (E : Env F O) (slash : Bool) (c : List Nat) (args : List (Arg F O)) (t : List Nat) (left : List (Arg F O))
    (h : (format E slash c args).obs = .ok (t, left)) : ∃ is : List Item, (∀ i ∈ is, i.Good) ∧ c = render is ∧
    doAll E slash theTrim is args = .ok (t, left) := by
  obtain ⟨is, tail, hg, rfl, ht⟩ := decode c.length c (Nat.le_refl _)
  unfold format at h
  rcases simK_tail E hg theTrim trim_ok tail (render is ++ tail).length ⟨[], slash, 0, args⟩ (Nat.le_refl _) with
    ⟨f, _, g1⟩ | ⟨t', as, m, s', h1, hm, g1, g2, g3, g4⟩
  · rw [g1] at h; exact absurd h (by simp)
  · rw [g1] at h
    rcases ht with rfl | ht | ht
    · simp only [run, Res.obs, g2, g4, List.nil_append] at h
      injection h with h
      injection h with ha hb
      subst ha; subst hb
      exact ⟨is, hg, by simp, h1⟩
    · rw [run_unfinished E ht m hm] at h; exact absurd h (by simp)
    · obtain ⟨f, hf, _⟩ := run_overlong E ht m hm s'
      rw [hf] at h; exact absurd h (by simp)

theorem format_items (E : Env F O) (slash : Bool) (trim : List Nat → List Nat) (htr : ∀ t, Trimmed t (trim t))
    {is : List Item} (hg : ∀ i ∈ is, i.Good) (args : List (Arg F O)) :
    (format E slash (render is) args).obs = lift (doAll E slash trim is args) := by
  unfold format
  have h := simK_tail E hg trim htr [] (render is).length ⟨[], slash, 0, args⟩ (by simp)
  rw [List.append_nil] at h
  rcases h with ⟨f, h1, g1⟩ | ⟨t, as, m, s', h1, hm, g1, g2, g3, g4⟩
  · rw [g1]; simp only at h1; rw [h1]; rfl
  · rw [g1]; simp only at h1; rw [h1]
    simp [run, Res.obs, lift, g2, g4]

/-- The flag is as before when a call returns. -/
theorem format_slash (E : Env F O) (slash : Bool) (c : List Nat) (args : List (Arg F O)) (s : St F O)
    (h : format E slash c args = .ok s) : s.slash = slash := by
  obtain ⟨is, hg, rfl, _⟩ := format_ok E slash c args s.out s.args (by rw [h]; rfl)
  unfold format at h
  have h' := simK_tail E hg theTrim trim_ok [] (render is).length ⟨[], slash, 0, args⟩ (by simp)
  rw [List.append_nil] at h'
  rcases h' with ⟨f, h1, g1⟩ | ⟨t, as, m, s', h1, hm, g1, g2, g3, g4⟩
  · rw [h] at g1; simp [Res.obs] at g1
  · rw [g1] at h
    simp only [run, Res.ok.injEq] at h
    rw [← h]; exact g3

/-! ### arguments -/

theorem take_more {args : List (Arg F O)} {k : Arg F O → Except Fail (List Nat)} {t : List Nat} {left : List (Arg F O)}
    (h : take args k = .ok (t, left)) (more : List (Arg F O)) :
    take (args ++ more) k = .ok (t, left ++ more) ∧ args.length = left.length + 1 := by
  cases args with
  | nil => simp [take] at h
  | cons a as =>
    simp only [take, List.cons_append] at h ⊢
    cases hk : k a with
    | error f => rw [hk] at h; simp [Except.map] at h
    | ok u =>
      rw [hk] at h
      simp only [Except.map, Except.ok.injEq, Prod.mk.injEq] at h ⊢
      obtain ⟨rfl, rfl⟩ := h
      exact ⟨⟨rfl, rfl⟩, by simp⟩

theorem meaning_more (E : Env F O) (slash : Bool) (trim : List Nat → List Nat) (d : Nat) (w p : Int)
    {args : List (Arg F O)} {t : List Nat} {left : List (Arg F O)}
    (h : meaning E slash trim d w p args = .ok (t, left)) (more : List (Arg F O)) :
    meaning E slash trim d w p (args ++ more) = .ok (t, left ++ more) ∧
    args.length = left.length + (if d ∈ [65, 83, 68, 88, 79, 67, 70, 69, 71] then 1 else 0) := by
  unfold meaning at h ⊢
  split at h <;> try exact take_more h more
  all_goals
    simp only [Except.ok.injEq, Prod.mk.injEq] at h
    obtain ⟨rfl, rfl⟩ := h
    refine ⟨rfl, ?_⟩
    simp
    try (refine ⟨?_, ?_, ?_, ?_, ?_, ?_, ?_, ?_, ?_⟩ <;> assumption)

theorem does_more (E : Env F O) (slash : Bool) (trim : List Nat → List Nat) (i : Item)
    {args : List (Arg F O)} {t : List Nat} {left : List (Arg F O)}
    (h : i.does E slash trim args = .ok (t, left)) (more : List (Arg F O)) :
    i.does E slash trim (args ++ more) = .ok (t, left ++ more) ∧ args.length = left.length + i.needs := by
  cases i with
  | lit c =>
    simp only [Item.does, Except.ok.injEq, Prod.mk.injEq] at h ⊢
    obtain ⟨rfl, rfl⟩ := h
    exact ⟨⟨rfl, rfl⟩, rfl⟩
  | dir ps comma v d =>
    cases v with
    | none =>
      have := meaning_more E slash trim (to_upper d) _ _ h more
      exact ⟨this.1, by rw [this.2]; simp [Item.needs]⟩
    | some c =>
      cases args with
      | nil => simp [Item.does] at h
      | cons a as =>
        simp only [Item.does, List.cons_append] at h ⊢
        cases hz : ckintval a with
        | none => rw [hz] at h; simp at h
        | some z =>
          rw [hz] at h
          have := meaning_more E slash trim (to_upper d) _ _ h more
          exact ⟨this.1, by rw [List.length_cons, this.2]; simp [Item.needs]; omega⟩

theorem doAll_more (E : Env F O) (slash : Bool) (trim : List Nat → List Nat) : ∀ (is : List Item)
    (args : List (Arg F O)) (t : List Nat) (left : List (Arg F O)),
    doAll E slash trim is args = .ok (t, left) → ∀ more : List (Arg F O),
    doAll E slash trim is (args ++ more) = .ok (t, left ++ more) ∧ args.length = left.length + needs is := by
  intro is
  induction is with
  | nil =>
    intro args t left h more
    simp only [doAll, Except.ok.injEq, Prod.mk.injEq] at h ⊢
    obtain ⟨rfl, rfl⟩ := h
    exact ⟨⟨rfl, rfl⟩, by simp [needs]⟩
  | cons i is ih =>
    intro args t left h more
    simp only [doAll, bind, Except.bind] at h ⊢
    cases hd : i.does E slash trim args with
    | error f => rw [hd] at h; exact absurd h (by simp)
    | ok p =>
      obtain ⟨u, as⟩ := p
      rw [hd] at h
      obtain ⟨g1, g2⟩ := does_more E slash trim i hd more
      simp only at h
      cases hq : doAll E slash trim is as with
      | error f => rw [hq] at h; exact absurd h (by simp)
      | ok q =>
        obtain ⟨u', bs⟩ := q
        rw [hq] at h
        obtain ⟨k1, k2⟩ := ih as u' bs hq more
        simp only [pure, Except.pure, Except.ok.injEq, Prod.mk.injEq] at h
        obtain ⟨rfl, rfl⟩ := h
        rw [g1]
        simp only [k1]
        refine ⟨rfl, ?_⟩
        rw [g2, k2]; simp [needs]; omega

theorem meaning_less (E : Env F O) (slash : Bool) (trim : List Nat → List Nat) (d : Nat) (w p : Int)
    {args more : List (Arg F O)} {t : List Nat} {left : List (Arg F O)}
    (h : meaning E slash trim d w p (args ++ more) = .ok (t, left)) :
    (∃ l, meaning E slash trim d w p args = .ok (t, l) ∧ left = l ++ more) ∨
    (meaning E slash trim d w p args = .error .tooFew) := by
  cases args with
  | nil =>
    unfold meaning at h ⊢
    split at h <;> try exact Or.inr rfl
    all_goals
      simp only [Except.ok.injEq, Prod.mk.injEq] at h
      obtain ⟨rfl, rfl⟩ := h
      exact Or.inl ⟨[], rfl, rfl⟩
  | cons a as =>
    left
    have key : ∀ k : Arg F O → Except Fail (List Nat), take (a :: as ++ more) k = .ok (t, left) →
        ∃ l, take (a :: as) k = .ok (t, l) ∧ left = l ++ more := by
      intro k hk
      simp only [take, List.cons_append] at hk ⊢
      cases hka : k a with
      | error f => rw [hka] at hk; simp [Except.map] at hk
      | ok u =>
        rw [hka] at hk
        simp only [Except.map, Except.ok.injEq, Prod.mk.injEq] at hk ⊢
        obtain ⟨rfl, rfl⟩ := hk
        exact ⟨as, ⟨rfl, rfl⟩, rfl⟩
    unfold meaning at h ⊢
    split at h <;> try exact key _ h
    all_goals
      simp only [Except.ok.injEq, Prod.mk.injEq] at h
      obtain ⟨rfl, rfl⟩ := h
      exact ⟨a :: as, rfl, rfl⟩

theorem does_less (E : Env F O) (slash : Bool) (trim : List Nat → List Nat) (i : Item)
    {args more : List (Arg F O)} {t : List Nat} {left : List (Arg F O)}
    (h : i.does E slash trim (args ++ more) = .ok (t, left)) :
    (∃ l, i.does E slash trim args = .ok (t, l) ∧ left = l ++ more) ∨ (i.does E slash trim args = .error .tooFew) := by
  cases i with
  | lit c =>
    simp only [Item.does, Except.ok.injEq, Prod.mk.injEq] at h ⊢
    obtain ⟨rfl, rfl⟩ := h
    exact Or.inl ⟨args, ⟨rfl, rfl⟩, rfl⟩
  | dir ps comma v d =>
    cases v with
    | none => exact meaning_less E slash trim (to_upper d) _ _ h
    | some c =>
      cases args with
      | nil => exact Or.inr rfl
      | cons a as =>
        simp only [Item.does, List.cons_append] at h ⊢
        cases hz : ckintval a with
        | none => rw [hz] at h; simp at h
        | some z =>
          rw [hz] at h
          exact meaning_less E slash trim (to_upper d) _ _ h

theorem doAll_less (E : Env F O) (slash : Bool) (trim : List Nat → List Nat) : ∀ (is : List Item)
    (args more : List (Arg F O)) (t : List Nat) (left : List (Arg F O)),
    doAll E slash trim is (args ++ more) = .ok (t, left) →
    (∃ l, doAll E slash trim is args = .ok (t, l) ∧ left = l ++ more) ∨ (doAll E slash trim is args = .error .tooFew) := by
  intro is
  induction is with
  | nil =>
    intro args more t left h
    simp only [doAll, Except.ok.injEq, Prod.mk.injEq] at h ⊢
    obtain ⟨rfl, rfl⟩ := h
    exact Or.inl ⟨args, ⟨rfl, rfl⟩, rfl⟩
  | cons i is ih =>
    intro args more t left h
    simp only [doAll, bind, Except.bind] at h ⊢
    cases hd : i.does E slash trim (args ++ more) with
    | error f => rw [hd] at h; exact absurd h (by simp)
    | ok p =>
      obtain ⟨u, as⟩ := p
      rw [hd] at h
      simp only at h
      rcases does_less E slash trim i hd with ⟨l, g1, rfl⟩ | g1
      · rw [g1]
        simp only
        cases hq : doAll E slash trim is (l ++ more) with
        | error f => rw [hq] at h; exact absurd h (by simp)
        | ok q =>
          obtain ⟨u', bs⟩ := q
          rw [hq] at h
          simp only [pure, Except.pure, Except.ok.injEq, Prod.mk.injEq] at h
          obtain ⟨rfl, rfl⟩ := h
          rcases ih l more u' bs hq with ⟨l', k1, rfl⟩ | k1
          · left; rw [k1]; exact ⟨l', rfl, rfl⟩
          · right; rw [k1]
      · right; rw [g1]

/-! ### no undefined behaviour -/

theorem printnum_none (base : Nat) (down : Bool) (n : Num) (w p : Int) (h : (printnum base down n 0 0).isSome) :
    (printnum base down n w p).isSome := by
  cases n with
  | fix x =>
    simp only [printnum, printint] at h ⊢
    by_cases hb : base = 0
    · rw [if_pos hb] at h; simp at h
    · rw [if_neg hb] at h ⊢
      split at h
      · simp at h
      · rfl
  | big v =>
    simp only [printnum, printbig] at h ⊢
    split at h
    · simp at h
    · rfl

/-- Printing in octal, decimal, hexadecimal works. -/
def PrintsOk (E : Env F O) (a : Arg F O) : Prop :=
  ∀ base, base = 8 ∨ base = 10 ∨ base = 16 → (match a with
    | .int n => (printnum base E.down n 0 0).isSome
    | .ratio n d => (printnum base E.down n 0 0).isSome ∧ (printnum base E.down d 0 0).isSome
    | _ => True)

theorem inBase_safe (E : Env F O) (base : Nat) (hb : base = 8 ∨ base = 10 ∨ base = 16) (w p : Int) (a : Arg F O)
    (h : PrintsOk E a) : inBase E base w p a ≠ .error .corrupt := by
  have := h base hb
  cases a with
  | int n =>
    obtain ⟨t, ht⟩ := Option.isSome_iff_exists.1 (printnum_none base E.down n w p this)
    simp [inBase, ht]
  | flt x => simp [inBase]
  | ratio n d =>
    obtain ⟨t, ht⟩ := Option.isSome_iff_exists.1 this.1
    obtain ⟨u, hu⟩ := Option.isSome_iff_exists.1 this.2
    simp [inBase, ht, hu]
  | obj o => simp [inBase]

theorem take_safe {args : List (Arg F O)} {k : Arg F O → Except Fail (List Nat)}
    (h : ∀ a ∈ args, k a ≠ .error .corrupt) : take args k ≠ .error .corrupt := by
  cases args with
  | nil => simp [take]
  | cons a as =>
    have := h a (by simp)
    simp only [take]
    cases hk : k a with
    | ok t => simp [Except.map]
    | error f => rw [hk] at this; simpa [Except.map] using this

theorem meaning_safe (E : Env F O) (slash : Bool) (trim : List Nat → List Nat) (d : Nat) (w p : Int) (args : List (Arg F O))
    (hp : ∀ a ∈ args, PrintsOk E a)
    (hf : ∀ a ∈ args, ∀ x, asFloat E a = .ok x → ∀ b, (E.sprintf b w p x).length < 256) :
    meaning E slash trim d w p args ≠ .error .corrupt := by
  have hin : ∀ b (a : Arg F O), inField E b w a ≠ .error .corrupt := by
    intro b a
    unfold inField
    dsimp only
    split
    · simp
    · simp
  have hfl : ∀ a ∈ args, ∀ k : F → Except Fail (List Nat), (∀ x, asFloat E a = .ok x → k x ≠ .error .corrupt) →
      (asFloat E a).bind k ≠ .error .corrupt := by
    intro a _ k hk
    cases a with
    | obj o => simp [asFloat, Except.bind]
    | int n => exact hk _ rfl
    | flt n => exact hk _ rfl
    | ratio n m => exact hk _ rfl
  have hbuf : ∀ a ∈ args, ∀ x, asFloat E a = .ok x → ∀ b, buf (E.sprintf b w p x) = .ok (E.sprintf b w p x) := by
    intro a ha x hx b
    unfold buf; rw [if_pos (hf a ha x hx b)]
  unfold meaning
  split
  · exact take_safe fun a _ => hin _ a
  · exact take_safe fun a _ => hin _ a
  · exact take_safe fun a ha => inBase_safe E 10 (by simp) w p a (hp a ha)
  · exact take_safe fun a ha => inBase_safe E 16 (by simp) w p a (hp a ha)
  · exact take_safe fun a ha => inBase_safe E 8 (by simp) w p a (hp a ha)
  · refine take_safe fun a _ => ?_
    cases ckintval a <;> simp
  · refine take_safe fun a ha => hfl a ha _ fun x hx => ?_
    rw [hbuf a ha x hx]; simp
  · refine take_safe fun a ha => hfl a ha _ fun x hx => ?_
    rw [hbuf a ha x hx]; simp
  · refine take_safe fun a ha => hfl a ha _ fun x hx => ?_
    split
    · simp
    · split
      · rw [hbuf a ha x hx]; simp
      · rw [hbuf a ha x hx]; simp [Except.map]
  all_goals simp

theorem does_sub (E : Env F O) (slash : Bool) (trim : List Nat → List Nat) (i : Item) {args : List (Arg F O)}
    {t : List Nat} {left : List (Arg F O)} (h : i.does E slash trim args = .ok (t, left)) : ∀ a ∈ left, a ∈ args := by
  have htake : ∀ (args : List (Arg F O)) (k : Arg F O → Except Fail (List Nat)), take args k = .ok (t, left) →
      ∀ a ∈ left, a ∈ args := by
    intro args k hk
    cases args with
    | nil => simp [take] at hk
    | cons a as =>
      simp only [take] at hk
      cases hka : k a with
      | error f => rw [hka] at hk; simp [Except.map] at hk
      | ok u =>
        rw [hka] at hk
        simp only [Except.map, Except.ok.injEq, Prod.mk.injEq] at hk
        rw [← hk.2]
        intro x hx; exact List.mem_cons_of_mem _ hx
  have hm : ∀ (args : List (Arg F O)) (d : Nat) (w p : Int), meaning E slash trim d w p args = .ok (t, left) →
      ∀ a ∈ left, a ∈ args := by
    intro args d w p hm
    unfold meaning at hm
    split at hm <;> try exact htake _ _ hm
    all_goals
      simp only [Except.ok.injEq, Prod.mk.injEq] at hm
      rw [hm.2]; intro a ha; exact ha
  cases i with
  | lit c =>
    simp only [Item.does, Except.ok.injEq, Prod.mk.injEq] at h
    rw [h.2]; intro a ha; exact ha
  | dir ps comma v d =>
    cases v with
    | none => exact hm _ _ _ _ h
    | some c =>
      cases args with
      | nil => simp [Item.does] at h
      | cons a as =>
        simp only [Item.does] at h
        cases hz : ckintval a with
        | none => rw [hz] at h; simp at h
        | some z =>
          rw [hz] at h
          intro x hx; exact List.mem_cons_of_mem _ (hm _ _ _ _ h x hx)

end Eus.Fmt
