import Verif.Fmt.Laws
import Verif.Rd.Props
set_option autoImplicit false
/-
C127-C135: `format`.  `(format E slash ctl args).obs` is what `(format nil ctl . args)` returns and the arguments
it does not use, or why it does not return: `.inr ()` is the error "format string" of a control string that ends in
a directive.  `slash` is the state of the escape flag of the thread, `false` unless the call is made while an object is
printed by `princ` or `~A`.
-/
namespace Eus.Fmt
open Eus.Num Eus.Rd
variable {F O : Type}

deriving instance DecidableEq for Except

/-! Examples: objects are texts, `prin1` writes them between quotes; floats are integers, written with zeros. -/
def E0 : Env Int (List Nat) where
  down := true
  prinx := fun slash a => match a with
    | .obj o => ⟨if slash then o else 34 :: o ++ [34], none, false⟩
    | .int n => ⟨(printnum 10 true n 0 0).getD [], none, false⟩
    | _ => ⟨[], none, true⟩
  printflt := fun _ => [48, 46, 48]
  ofNum := fun n => n.val
  ofRatio := fun n _ => n.val
  isZero := fun x => x = 0
  extreme := fun x => 100000 < x.natAbs
  sprintf := fun _ w p x => List.replicate (w - (2 + p)).toNat 32 ++ [48 + x.natAbs % 10, 46] ++ List.replicate p.toNat 48
/-- The bytes of a string. -/
def str (s : String) : List Nat := s.toList.map Char.toNat

/-! ### C127: text -/

/-- A text as it must be written in a control string: every tilde doubled. -/
def quoted (s : List Nat) : List Nat := s.flatMap fun c => if c = 126 then [126, 126] else [c]

/-- C127: a control string writes the text it quotes, byte for byte, and uses no argument. -/
theorem C127_text (E : Env F O) (slash : Bool) (s : List Nat) (args : List (Arg F O)) :
    (format E slash (quoted s) args).obs = .ok (s, args) := by
  let item : Nat → Item := fun c => if c = 126 then .dir [] false none 126 else .lit c
  have h1 : quoted s = render (s.map item) := by
    unfold quoted render
    rw [List.flatMap_map]
    congr 1
    funext c
    simp only [item]
    by_cases hc : c = 126
    · rw [if_pos hc, if_pos hc]; rfl
    · rw [if_neg hc, if_neg hc]; rfl
  have h2 : ∀ i ∈ s.map item, i.Good := by
    intro i hi
    obtain ⟨c, _, rfl⟩ := List.mem_map.1 hi
    simp only [item]
    by_cases hc : c = 126
    · rw [if_pos hc]
      exact ⟨goodPs_nil, by simp, by simp, fun _ => ⟨by decide, by decide, by decide, by simp⟩⟩
    · rw [if_neg hc]; exact hc
  have h3 : ∀ s : List Nat, doAll E slash theTrim (s.map item) args = .ok (s, args) := by
    intro s
    induction s with
    | nil => rfl
    | cons c s ih =>
      have hd : (item c).does E slash theTrim args = .ok ([c], args) := by
        simp only [item]
        by_cases hc : c = 126
        · rw [if_pos hc, hc]; rfl
        · rw [if_neg hc]; rfl
      simp only [List.map_cons, doAll, bind, Except.bind, hd, ih]
      rfl
  rw [h1, format_items E slash theTrim trim_ok h2, h3]; rfl

example : (format E0 false (quoted (str "50% ~ab~")) []).obs = .ok (str "50% ~ab~", []) ∧
    quoted (str "a~b") = str "a~~b" := by decide

/-! ### C128: what a control string means -/

/-- C128: a control string made of complete directives does what its pieces say, one after the other. -/
theorem C128_pieces (E : Env F O) (slash : Bool) (trim : List Nat → List Nat) (htr : ∀ t, Trimmed t (trim t))
    (is : List Item) (hg : ∀ i ∈ is, i.Good) (args : List (Arg F O)) :
    (format E slash (render is) args).obs = lift (doAll E slash trim is args) :=
  format_items E slash trim htr hg args

example : ∃ trim : List Nat → List Nat, ∀ t, Trimmed t (trim t) := ⟨_, trim_ok⟩
example : render [.lit 120, .dir [[53]] false none 97, .dir [[49, 50], [51]] false none 70] = str "x~5a~12,3F" ∧
    (∀ i ∈ [Item.lit 120, .dir [[53]] false none 97, .dir [[49, 50], [51]] false none 70], i.Good) ∧
    (format E0 false (str "x~5a~12,3F|") [.obj (str "ab"), .flt 7, .flt 8]).obs =
      .ok (str "xab          7.000|", [.flt 8]) := by
  refine ⟨by decide, ?_, by decide⟩
  intro i hi
  simp only [List.mem_cons, List.not_mem_nil, or_false] at hi
  rcases hi with rfl | rfl | rfl <;> simp [Item.Good, GoodPs, value]
example : (format E0 false (str "~G ~vd ~c") [.flt 4, .int (.fix 5), .int (.fix 42), .int (.fix 65)]).obs =
    .ok (str "4.0    42 A", []) := by decide
example : (format E0 false (str "~4,3G|") [.flt 4]).obs = .ok (str "4.0|", []) := by decide

/-- C128: if the control string breaks off in a directive, `format` signals an error (after `V`, if it had the
integer). -/
theorem C128_unfinished (E : Env F O) (slash : Bool) (trim : List Nat → List Nat) (htr : ∀ t, Trimmed t (trim t))
    (is : List Item) (hg : ∀ i ∈ is, i.Good) (tail : List Nat) (ht : Unfinished tail) (args : List (Arg F O)) :
    (format E slash (render is ++ tail) args).obs = match doAll E slash trim is args with
      | .error f => .error (.inl f)
      | .ok (_, args) => .error (unfinishedDoes tail args) := by
  rcases simK_tail E hg trim htr tail (render is ++ tail).length ⟨[], slash, 0, args⟩ (Nat.le_refl _) with
    ⟨f, h1, g1⟩ | ⟨t', as, m, s', h1, hm, g1, g2, g3, g4⟩
  · simp only at h1
    rw [h1]; exact g1
  · simp only at h1
    rw [h1]
    unfold format
    rw [g1, run_unfinished E ht m hm, g4]

example : Unfinished (str "~5,") ∧ (format E0 false (str "a~5,") []).obs = .error (.inr ()) :=
  ⟨⟨[[53]], true, none, by simp [GoodPs, value], by simp, by simp, by decide⟩, by decide⟩

/-- C128: every control string is one of these, unless a directive in it has more than ten parameters or a parameter
of 2^31 or more. -/
theorem C128_every (ctl : List Nat) : ∃ (is : List Item) (tail : List Nat),
    (∀ i ∈ is, i.Good) ∧ ctl = render is ++ tail ∧ (tail = [] ∨ Unfinished tail ∨ Overlong tail) :=
  decode ctl.length ctl (Nat.le_refl _)

/-! ### C129: arguments -/

/-- C129: arguments that are not needed change nothing. -/
theorem C129_extra (E : Env F O) (slash : Bool) (ctl : List Nat) (args more : List (Arg F O)) (t : List Nat)
    (left : List (Arg F O)) (h : (format E slash ctl args).obs = .ok (t, left)) :
    (format E slash ctl (args ++ more)).obs = .ok (t, left ++ more) := by
  obtain ⟨is, hg, rfl, hd⟩ := format_ok E slash ctl args t left h
  rw [format_items E slash theTrim trim_ok hg, (doAll_more E slash theTrim is args t left hd more).1]; rfl

/-- C129: the number of arguments used is read off the control string. -/
theorem C129_count (E : Env F O) (slash : Bool) (is : List Item) (hg : ∀ i ∈ is, i.Good) (args : List (Arg F O))
    (t : List Nat) (left : List (Arg F O)) (h : (format E slash (render is) args).obs = .ok (t, left)) :
    args.length = left.length + needs is := by
  rw [format_items E slash theTrim trim_ok hg] at h
  cases hd : doAll E slash theTrim is args with
  | error f => rw [hd] at h; simp [lift] at h
  | ok p =>
    obtain ⟨t', l'⟩ := p
    rw [hd] at h
    simp only [lift, Except.ok.injEq, Prod.mk.injEq] at h
    rw [← h.2]
    exact (doAll_more E slash theTrim is args t' l' hd []).2

/-- C129: with fewer arguments than that, a call that would otherwise return signals the error of too few
arguments. -/
theorem C129_few (E : Env F O) (slash : Bool) (is : List Item) (hg : ∀ i ∈ is, i.Good) (args more : List (Arg F O))
    (t : List Nat) (left : List (Arg F O)) (h : (format E slash (render is) (args ++ more)).obs = .ok (t, left))
    (hf : args.length < needs is) : (format E slash (render is) args).obs = .error (.inl .tooFew) := by
  rw [format_items E slash theTrim trim_ok hg] at h ⊢
  cases hd : doAll E slash theTrim is (args ++ more) with
  | error f => rw [hd] at h; simp [lift] at h
  | ok p =>
    obtain ⟨t', l'⟩ := p
    rcases doAll_less E slash theTrim is args more t' l' hd with ⟨l, h1, _⟩ | h1
    · have := (doAll_more E slash theTrim is args t' l h1 []).2
      omega
    · rw [h1]; rfl

example : needs [.dir [] false (some 118) 100, .lit 32, .dir [] false none 65, .dir [] false none 37] = 3 := by decide
example : (format E0 false (str "~vd ~A~%") [.int (.fix 5), .int (.fix 42)]).obs = .error (.inl .tooFew) ∧
    (format E0 false (str "~vd ~A~%") [.int (.fix 5), .int (.fix 42), .obj (str "x"), .flt 1]).obs =
      .ok (str "   42 x\n", [.flt 1]) := by decide

/-! ### C130: one call for two -/

/-- C130: a call with two control strings one after the other writes what two calls write, the second with the
arguments the first leaves. -/
theorem C130_append (E : Env F O) (slash : Bool) (c1 c2 : List Nat) (args : List (Arg F O)) (t : List Nat)
    (left : List (Arg F O)) (h : (format E slash c1 args).obs = .ok (t, left)) :
    (format E slash (c1 ++ c2) args).obs = (format E slash c2 left).obs.map fun r => (t ++ r.1, r.2) := by
  obtain ⟨is, hg, rfl, hd⟩ := format_ok E slash c1 args t left h
  rcases simK_tail E hg theTrim trim_ok c2 (render is ++ c2).length ⟨[], slash, 0, args⟩ (Nat.le_refl _) with
    ⟨f, h1, _⟩ | ⟨t', as, m, s', h1, hm, g1, g2, g3, g4⟩
  · simp only [hd] at h1; exact absurd h1 (by simp)
  · simp only [hd, Except.ok.injEq, Prod.mk.injEq] at h1
    obtain ⟨rfl, rfl⟩ := h1
    conv => lhs; unfold format
    rw [g1, run_prefix E c2 m s' hm, g2, g3, g4]
    rfl

example : (format E0 false (str "~a, ") [.obj (str "x"), .obj (str "y")]).obs = .ok (str "x, ", [.obj (str "y")]) ∧
    (format E0 false (str "~a, ~s") [.obj (str "x"), .obj (str "y")]).obs = .ok (str "x, \"y\"", []) := by decide

/-! ### C131: fields -/

/-- C131: `~wA` and `~wS` write the text of the object and then blanks, up to `w` columns.
Missing: objects whose print method calls `format` itself (`C131_wrong`). -/
theorem C131_field_partial (E : Env F O) (slash : Bool) (w : List Nat) (hw : w ≠ []) (hw' : ∀ c ∈ w, 48 ≤ c ∧ c ≤ 57)
    (hw2 : value w < 2 ^ 31) (d : Nat) (hd : d = 65 ∨ d = 97 ∨ d = 83 ∨ d = 115) (a : Arg F O) (txt : List Nat)
    (ha : E.prinx (if d = 65 ∨ d = 97 then true else slash) a = ⟨txt, none, false⟩) :
    ∃ blanks, (format E slash (126 :: w ++ [d]) [a]).obs = .ok (txt ++ List.replicate blanks 32, []) ∧
      txt.length + blanks = max (value w) txt.length := by
  have hr : 126 :: w ++ [d] = render [.dir [w] false none d] := by
    simp [render, Item.text, prefixText, joinPs]
  have hg : ∀ i ∈ [Item.dir [w] false none d], i.Good := by
    intro i hi
    rw [List.mem_singleton.1 hi]
    refine ⟨goodPs_cons hw hw' hw2 goodPs_nil, by simp, by simp, fun _ => ?_⟩
    omega
  refine ⟨value w - txt.length, ?_, by omega⟩
  rw [hr, format_items E slash theTrim trim_ok hg]
  have key : ∀ b, E.prinx b a = ⟨txt, none, false⟩ →
      inField E b (value w) a = .ok (txt ++ List.replicate (value w - txt.length) 32) := by
    intro b hb
    unfold inField
    rw [hb]
    simp only [Bool.false_eq_true, if_false, Option.getD_none]
    congr 3
    omega
  have hk := key _ ha
  rcases hd with rfl | rfl | rfl | rfl <;> simp at hk <;>
    simp [doAll, Item.does, meaning, to_upper, islower, take, hk, bind, Except.bind, Except.map, lift, pure, Except.pure]

example : (format E0 false (str "~6s") [.obj (str "ab")]).obs = .ok (str "\"ab\"  ", []) ∧
    (format E0 false (str "~3a") [.obj (str "abcde")]).obs = .ok (str "abcde", []) := by decide

/-- The violation: an object printed as `#<foo>` by a method that calls `(format s "#<")` and then `(format s "foo>")`,
so that only the last four bytes are counted, takes ten columns in a field of eight. -/
theorem C131_wrong :
    (format (O := List Nat) { E0 with prinx := fun _ _ => ⟨str "#<foo>", some 4, false⟩ } false (str "~8a|") [.obj []]).obs =
      .ok (str "#<foo>    |", []) := by decide

/-! ### C132: `~S` and `~A` -/

/-- C132: `~S` writes what `prin1` writes and `~A` what `princ` writes, and the escape flag is as before when `format`
returns.  Missing: calls after one that did not return, see `C132_wrong`. -/
theorem C132_partial (E : Env F O) (c : List Nat) (args : List (Arg F O)) :
    (∀ s, format E false c args = .ok s → s.slash = false) ∧
    (∀ a txt n, E.prinx false a = ⟨txt, n, false⟩ → (format E false [126, 83] [a]).obs = .ok (txt, [])) ∧
    (∀ a txt n, E.prinx true a = ⟨txt, n, false⟩ → (format E false [126, 65] [a]).obs = .ok (txt, [])) := by
  refine ⟨fun s h => format_slash E false c args s h, ?_, ?_⟩
  · intro a txt n h
    simp only [format, List.length_cons, List.length_nil, run, if_true, directive, readParams, isdigit, upc, to_upper, islower,
      direct, nextfarg, Res.andThen, field, h]
    simp [Res.obs, writestr, run, p0]
  · intro a txt n h
    simp only [format, List.length_cons, List.length_nil, run, if_true, directive, readParams, isdigit, upc, to_upper, islower,
      direct, nextfarg, Res.andThen, field, h]
    simp [Res.obs, writestr, run, p0]

example : E0.prinx false (.obj (str "ab")) = ⟨str "\"ab\"", none, false⟩ := by decide

/-- The violation: a call in which the printing of an object for `~A` is left by a throw (or an error that is
handled) leaves the flag set; from then on `~S` writes strings without their quotes. -/
theorem C132_wrong : ∃ s, format E0 false (str "~a") [.ratio (.fix 1) (.fix 2)] = .exit s ∧
    (format E0 false (str "~s") [.obj (str "ab")]).obs = .ok (str "\"ab\"", []) ∧
    (format E0 s.slash (str "~s") [.obj (str "ab")]).obs = .ok (str "ab", []) :=
  ⟨⟨[], true, 0, []⟩, rfl, by decide, by decide⟩

/-! ### C133: memory -/

/-- C133: no byte is written outside the arrays of `format` if the control string has at most ten parameters, all
below 2^31, in a directive, no `V`, and the text of every floating number used, for the widths and precisions in the
control string, has fewer than 256 bytes.  Missing: the others (`C133_parameters_wrong`, `C133_float_wrong`). -/
theorem C133_safe_partial (E : Env F O) (slash : Bool) (is : List Item) (hg : ∀ i ∈ is, i.Good) (tail : List Nat)
    (ht : tail = [] ∨ Unfinished tail) (args : List (Arg F O)) (hc : ∀ a ∈ args, match a with
      | .int n => n.Canonical
      | .ratio n d => n.Canonical ∧ d.Canonical
      | _ => True)
    (W P : Int) (hP : 1 ≤ P) (hW : 0 ≤ W)
    (hi : ∀ i ∈ is, match i with
      | .lit _ => True
      | .dir ps _ v _ => v = none ∧ (∀ p ∈ ps.head?, (value p : Int) ≤ W) ∧ (∀ p ∈ ps.tail.head?, (value p : Int) ≤ P))
    (hf : ∀ a ∈ args, ∀ x, asFloat E a = .ok x → ∀ b, ∀ w p : Int, 0 ≤ w → w ≤ W → 0 ≤ p → p ≤ P →
      (E.sprintf b w p x).length < 256) :
    (format E slash (render is ++ tail) args).obs ≠ .error (.inl .corrupt) := by
  have hp : ∀ a ∈ args, PrintsOk E a := by
    intro a ha base hb
    have := hc a ha
    have key : ∀ n : Num, n.Canonical → (printnum base E.down n 0 0).isSome := by
      intro n hn
      obtain ⟨txt, h, _⟩ := C10_print base E.down (by omega) (by omega) n hn
      rw [h]; rfl
    cases a with
    | int n => exact key n this
    | ratio n d => exact ⟨key n this.1, key d this.2⟩
    | flt x => trivial
    | obj o => trivial
  have hall : ∀ (is : List Item) (args : List (Arg F O)), (∀ i ∈ is, match i with
      | .lit _ => True
      | .dir ps _ v _ => v = none ∧ (∀ p ∈ ps.head?, (value p : Int) ≤ W) ∧ (∀ p ∈ ps.tail.head?, (value p : Int) ≤ P)) →
      (∀ a ∈ args, PrintsOk E a) → (∀ a ∈ args, ∀ x, asFloat E a = .ok x → ∀ b, ∀ w p : Int, 0 ≤ w → w ≤ W → 0 ≤ p →
        p ≤ P → (E.sprintf b w p x).length < 256) → doAll E slash theTrim is args ≠ .error .corrupt := by
    intro is
    induction is with
    | nil => intro args _ _ _; simp [doAll]
    | cons i is ih =>
      intro args hi hp hf
      have hi1 := hi i (by simp)
      have hsafe : i.does E slash theTrim args ≠ .error .corrupt := by
        cases i with
        | lit c => simp [Item.does]
        | dir ps comma v d =>
          obtain ⟨rfl, h1, h2⟩ := hi1
          refine meaning_safe E slash theTrim _ _ _ args hp fun a ha x hx b => hf a ha x hx b _ _ ?_ ?_ ?_ ?_
          · cases ps <;> simp
          · cases ps with
            | nil => simpa using hW
            | cons p ps => exact h1 p rfl
          · cases ps with
            | nil => simp
            | cons p ps => cases ps <;> simp
          · cases ps with
            | nil => simpa using hP
            | cons p ps =>
              cases ps with
              | nil => simpa using hP
              | cons q ps => exact h2 q rfl
      simp only [doAll, bind, Except.bind]
      cases hd : i.does E slash theTrim args with
      | error f => rw [hd] at hsafe; exact hsafe
      | ok p =>
        obtain ⟨t, as⟩ := p
        have hsub := does_sub E slash theTrim i hd
        have := ih as (fun j hj => hi j (List.mem_cons_of_mem _ hj)) (fun a ha => hp a (hsub a ha))
          (fun a ha => hf a (hsub a ha))
        simp only
        cases hq : doAll E slash theTrim is as with
        | error f => rw [hq] at this; exact this
        | ok q => simp [pure, Except.pure]
  have hno := hall is args hi hp hf
  rcases ht with rfl | ht
  · rw [List.append_nil, format_items E slash theTrim trim_ok hg]
    cases hd : doAll E slash theTrim is args with
    | error f => rw [hd] at hno; simp only [lift]; intro h; apply hno; injection h with h; injection h with h; rw [h]
    | ok p => simp [lift]
  · rw [C128_unfinished E slash theTrim trim_ok is hg tail ht args]
    cases hd : doAll E slash theTrim is args with
    | error f =>
      rw [hd] at hno; simp only; intro h; apply hno; injection h with h; injection h with h; rw [h]
    | ok p =>
      obtain ⟨t, as⟩ := p
      simp only [unfinishedDoes]
      intro h
      injection h with h
      split at h
      · split at h
        · simp at h
        · split at h <;> simp at h
      · simp at h

example : ∀ x : Int, ∀ b, ∀ w p : Int, 0 ≤ w → w ≤ 100 → 0 ≤ p → p ≤ 20 → (E0.sprintf b w p x).length < 256 := by
  intro x b w p h1 h2 h3 h4
  simp only [E0, List.length_append, List.length_replicate, List.length_cons, List.length_nil]
  omega

/-- The violation: an eleventh parameter is written past the end of the array, whatever the directive. -/
theorem C133_parameters_wrong (E : Env F O) (slash : Bool) (rest : List Nat) (args : List (Arg F O)) :
    (format E slash (str "~0,0,0,0,0,0,0,0,0,0,0" ++ rest) args).obs = .error (.inl .corrupt) := by
  have h1 : str "~0,0,0,0,0,0,0,0,0,0,0" ++ rest = render [] ++ (126 :: joinPs (List.replicate 10 [48] ++ [[48]]) ++ rest) := by
    have : str "~0,0,0,0,0,0,0,0,0,0,0" = 126 :: joinPs (List.replicate 10 [48] ++ [[48]]) := by decide
    rw [this]; rfl
  rw [h1]
  unfold format
  simp only [render, List.flatMap_nil, List.nil_append, List.cons_append, List.length_cons, run, if_true]
  cases hh : joinPs (List.replicate 10 [48] ++ [[48]]) ++ rest with
  | nil => exact absurd hh (by simp [joinPs, List.replicate])
  | cons c0 rest0 =>
    have := readParams_ub rest (q := [48]) (by simp) (by simp) (List.replicate 10 [48]) [] (rest0.length + 1) c0 rest0
      ⟨by simp [value], by simp⟩ (by simp) (by simp) (by
        have h2 := congrArg List.length hh
        simp only [List.length_append, List.length_cons] at h2
        have h3 : (joinPs (List.replicate 10 [48] ++ [[48]])).length = 21 := by decide
        simp only [List.length_replicate]; omega) hh
    simp only [directive, this, Res.obs]

/-- Where the control string has more than ten parameters in a directive, or one of 2^31 or more, `format` never
returns normally: it writes outside the array or computes with an overflow, unless an error comes first. -/
theorem C133_overlong_wrong (E : Env F O) (slash : Bool) (is : List Item) (hg : ∀ i ∈ is, i.Good) (tail : List Nat)
    (ht : Overlong tail) (trim : List Nat → List Nat) (htr : ∀ t, Trimmed t (trim t)) (args : List (Arg F O)) (t : List Nat)
    (left : List (Arg F O)) (hd : doAll E slash trim is args = .ok (t, left)) :
    ∃ f, (format E slash (render is ++ tail) args).obs = .error (.inl f) ∧
      (f = .corrupt ∨ (f = .tooFew ∧ left = []) ∨ (f = .notInt ∧ ∃ a, left.head? = some a ∧ ckintval a = none)) := by
  rcases simK_tail E hg trim htr tail (render is ++ tail).length ⟨[], slash, 0, args⟩ (Nat.le_refl _) with
    ⟨f, h1, _⟩ | ⟨t', as, m, s', h1, hm, g1, g2, g3, g4⟩
  · simp only [hd] at h1; exact absurd h1 (by simp)
  · simp only [hd, Except.ok.injEq, Prod.mk.injEq] at h1
    obtain ⟨rfl, rfl⟩ := h1
    unfold format
    rw [g1, ← g4]
    exact run_overlong E ht m hm s'

example : Overlong (str "~2147483648d") :=
  Or.inl ⟨[], str "2147483648", str "d", goodPs_nil, by simp, by decide, by decide, Or.inl (by decide), by decide⟩

/-- The violation: `~300F` overruns the buffer of 256 bytes, for every floating number (`sprintf` writes at least as many
bytes as the width says). -/
theorem C133_float_wrong (E : Env F O) (hE : ∀ b w p x, w ≤ ((E.sprintf b w p x).length : Int)) (slash : Bool) (x : F)
    (args : List (Arg F O)) : (format E slash (str "~300F") (.flt x :: args)).obs = .error (.inl .corrupt) := by
  have hr : str "~300F" = render [.dir [[51, 48, 48]] false none 70] := by decide
  have hg : ∀ i ∈ [Item.dir [[51, 48, 48]] false none 70], i.Good := by
    intro i hi
    rw [List.mem_singleton.1 hi]
    exact ⟨⟨by simp [value], by simp⟩, by simp, by simp, fun _ => by simp⟩
  rw [hr, format_items E slash theTrim trim_ok hg]
  have := hE false 300 1 x
  have hb : buf (E.sprintf false 300 1 x) = .error .corrupt := by unfold buf; rw [if_neg (by omega)]
  simp [doAll, Item.does, meaning, to_upper, islower, value, take, asFloat, bind, Except.bind, Except.map, hb, lift]

example : ∀ b w p x, w ≤ ((E0.sprintf b w p x).length : Int) := by
  intro b w p x
  simp only [E0, List.length_append, List.length_replicate, List.length_cons, List.length_nil]
  omega

/-! ### C134: integers -/

/-- C134: `~wD`, `~wX`, `~wO` write the decimal, hexadecimal, octal numeral of an integer at the right of a field of `w`
columns, or of as many as it takes. -/
theorem C134_integer (E : Env F O) (slash : Bool) (w : List Nat) (hw : w ≠ []) (hw' : ∀ c ∈ w, 48 ≤ c ∧ c ≤ 57)
    (hw2 : value w < 2 ^ 31) (d base : Nat)
    (hd : (base = 10 ∧ (d = 68 ∨ d = 100)) ∨ (base = 16 ∧ (d = 88 ∨ d = 120)) ∨ (base = 8 ∧ (d = 79 ∨ d = 111)))
    (n : Num) (hn : n.Canonical) :
    ∃ numeral blanks, (format E slash (126 :: w ++ [d]) [.int n]).obs = .ok (List.replicate blanks 32 ++ numeral, []) ∧
      Numeral base numeral n.val ∧ Usual numeral ∧ blanks + numeral.length = max (value w) numeral.length := by
  have hb : 2 ≤ base := by omega
  have hb' : base ≤ 36 := by omega
  have hr : 126 :: w ++ [d] = render [.dir [w] false none d] := by
    simp [render, Item.text, prefixText, joinPs]
  have hg : ∀ i ∈ [Item.dir [w] false none d], i.Good := by
    intro i hi
    rw [List.mem_singleton.1 hi]
    refine ⟨goodPs_cons hw hw' hw2 goodPs_nil, by simp, by simp, fun _ => ?_⟩
    omega
  obtain ⟨txt, t1, t2, t3⟩ := C10_print base E.down hb hb' n hn
  obtain ⟨ds, f1, f2⟩ := C79_field_partial base E.down hb hb' n hn (value w) 1
  rw [t1, Option.some.injEq] at f1
  have hds : 1 ≤ ds.length := by
    cases ds with
    | cons x xs => simp
    | nil =>
      exfalso
      have dig : ∀ (cs : List Nat) (m : Nat), Digits base cs m → cs ≠ [] ∧ 45 ∉ cs := by
        rintro cs m ⟨es, e1, _, e3, _⟩
        refine ⟨?_, ?_⟩
        · rintro rfl; exact e1 (List.forall₂_nil_left_iff.1 e3)
        · intro hm
          obtain ⟨i, hi, hii⟩ := List.getElem_of_mem hm
          have := List.forall₂_iff_get.1 e3
          have h45 := this.2 i hi (by rw [← this.1]; exact hi)
          simp only [List.get_eq_getElem, hii] at h45
          rcases h45 with h | h <;> omega
      rw [f1] at t2
      by_cases hneg : n.val < 0
      · rw [if_pos hneg] at t2
        rcases t2 with ⟨m, h, _⟩ | ⟨cs, m, h, _⟩ | ⟨cs, m, h, h', _⟩
        · exact (dig _ _ h).2 (by simp)
        · simp at h
        · simp only [List.append_nil, List.cons.injEq, true_and] at h
          exact (dig _ _ h').1 h.symm
      · rw [if_neg hneg] at t2
        rcases t2 with ⟨m, h, _⟩ | ⟨cs, m, h, _⟩ | ⟨cs, m, h, _⟩
        · exact (dig _ _ h).1 rfl
        · simp at h
        · simp at h
  obtain ⟨blanks, zeros, g1, g2, g3⟩ := f2 (Or.inr (Or.inr hds))
  have hz : zeros = 0 := by omega
  subst hz
  refine ⟨txt, blanks, ?_, t2, t3, ?_⟩
  · rw [hr, format_items E slash theTrim trim_ok hg]
    have hin : inBase E base (value w) 1 (.int n) = .ok (List.replicate blanks 32 ++ txt) := by
      simp only [inBase]
      have h1 : ((1 : Nat) : Int) = 1 := rfl
      rw [h1] at g1
      rw [g1, f1]
      simp
    rcases hd with ⟨rfl, rfl | rfl⟩ | ⟨rfl, rfl | rfl⟩ | ⟨rfl, rfl | rfl⟩ <;>
      simp [doAll, Item.does, meaning, to_upper, islower, take, hin, bind, Except.bind, Except.map, lift, pure, Except.pure]
  · rw [f1]
    simp only [List.length_append]
    split at g2 <;> rename_i hs <;> simp only [hs, if_true, if_false, List.length_cons, List.length_nil] <;> omega

example : (format E0 false (str "~6x") [.int (.fix 255)]).obs = .ok (str "    ff", []) ∧
    (format E0 false (str "~2d") [.int (.fix (-1234))]).obs = .ok (str "-1234", []) := by decide

/-! ### C135: parameters -/

/-- C135: `~%` writes one newline.  Missing: with a parameter (`C135_newlines_wrong`), and directives in which the first
parameter is left out (`C135_omitted_wrong`). -/
theorem C135_newline_partial (E : Env F O) (slash : Bool) (args : List (Arg F O)) :
    (format E slash (str "~%") args).obs = .ok ([10], args) := by
  simp [str, format, run, directive, readParams, isdigit, upc, to_upper, islower, direct, Res.andThen, Res.obs, p0, writestr]

/-- The violation: `~n%` writes not `n` newlines but one more, for every `n`. -/
theorem C135_newlines_wrong (E : Env F O) (slash : Bool) (w : List Nat) (hw : w ≠ []) (hw' : ∀ c ∈ w, 48 ≤ c ∧ c ≤ 57)
    (hw2 : value w < 2 ^ 31) (args : List (Arg F O)) :
    (format E slash (126 :: w ++ [37]) args).obs = .ok (List.replicate (value w + 1) 10, args) := by
  have hr : 126 :: w ++ [37] = render [.dir [w] false none 37] := by
    simp [render, Item.text, prefixText, joinPs]
  have hg : ∀ i ∈ [Item.dir [w] false none 37], i.Good := by
    intro i hi
    rw [List.mem_singleton.1 hi]
    exact ⟨goodPs_cons hw hw' hw2 goodPs_nil, by simp, by simp, fun _ => by simp⟩
  rw [hr, format_items E slash theTrim trim_ok hg]
  have : ((value w : Int) + 1).toNat = value w + 1 := by omega
  simp [doAll, Item.does, meaning, to_upper, islower, bind, Except.bind, lift, pure, Except.pure, this]

/-- The violation: `~,2F` (lib/demo/monitor.l:263), meant for two places after the point, writes the characters `2F` and
does not use the number: it is the next directive that gets it. -/
theorem C135_omitted_wrong (E : Env F O) (slash : Bool) (args : List (Arg F O)) :
    (format E slash (str "~,2F") args).obs = .ok (str "2F", args) := by
  simp [str, format, run, directive, readParams, isdigit, upc, to_upper, islower, direct, Res.andThen, Res.obs, writestr]

end Eus.Fmt
