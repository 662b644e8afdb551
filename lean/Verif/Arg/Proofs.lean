import Verif.Arg.Lemmas
import Mathlib.Data.List.Nodup
import Mathlib.Data.List.Forall2
set_option autoImplicit false
namespace Eus.Arg

/-! ### Association lists -/

theorem look_none {α β : Type} [DecidableEq α] (k : α) (l : List (α × β)) :
    look k l = none ↔ k ∉ l.map Prod.fst := by
  induction l with
  | nil => simp [look]
  | cons x r ih =>
    obtain ⟨a, b⟩ := x
    by_cases h : a = k
    · simp [look, h]
    · simp [look, h, ih, Ne.symm h]

theorem look_some {α β : Type} [DecidableEq α] (k : α) (v : β) (l : List (α × β)) (hn : (l.map Prod.fst).Nodup) :
    look k l = some v ↔ (k, v) ∈ l := by
  induction l with
  | nil => simp [look]
  | cons x r ih =>
    obtain ⟨a, b⟩ := x
    simp only [List.map_cons, List.nodup_cons] at hn
    by_cases h : a = k
    · subst h
      simp only [look, if_true, Option.some.injEq, List.mem_cons, Prod.mk.injEq, true_and]
      constructor
      · intro hh; exact .inl hh.symm
      · rintro (hh | hh)
        · exact hh.symm
        · exact absurd (List.mem_map_of_mem (f := Prod.fst) hh) hn.1
    · simp only [look, h, if_false, ih hn.2, List.mem_cons, Prod.mk.injEq]
      constructor
      · exact .inr
      · rintro (hh | hh)
        · exact absurd hh.1.symm h
        · exact hh

theorem look_update_self (d : Dest) (a b : Argument) (l : List (Dest × Argument)) (h : look d l = some a) :
    look d (update d b l) = some b := by
  induction l with
  | nil => simp [look] at h
  | cons x r ih =>
    obtain ⟨k, v⟩ := x
    by_cases hk : k = d
    · simp [update, look, hk]
    · simp only [look, hk, if_false] at h
      simp [update, look, hk, ih h]

theorem look_update_ne (d e : Dest) (b : Argument) (l : List (Dest × Argument)) (h : e ≠ d) :
    look e (update d b l) = look e l := by
  induction l with
  | nil => simp [update]
  | cons x r ih =>
    obtain ⟨k, v⟩ := x
    by_cases hk : k = d
    · subst hk; simp [update, look, Ne.symm h]
    · simp only [update, hk, if_false, look, ih]

/-! ### Setting up -/

theorem trim_dashes (n : Nat) (r : Str) (h : ∀ q, r ≠ 45 :: q) : trim (List.replicate n 45 ++ r) = r := by
  unfold trim
  induction n with
  | zero =>
    cases r with
    | nil => rfl
    | cons a q =>
      have : a ≠ 45 := fun e => h q (by rw [e])
      simp [this]
  | succ n ih => simpa [List.replicate_succ] using ih

theorem up_45 (c : Nat) : up c = 45 ↔ c = 45 := by
  unfold up; split_ifs <;> omega

theorem keyword_iff (s : Str) (d : Dest) : Keyword s d ↔ d = make_flag_dest s := by
  have key : ∀ s : Str, ∃ n r, s = List.replicate n 45 ++ r ∧ (∀ q, r ≠ 45 :: q) := by
    intro s
    induction s with
    | nil => exact ⟨0, [], rfl, by simp⟩
    | cons a t ih =>
      by_cases h : a = 45
      · obtain ⟨n, r, h1, h2⟩ := ih
        exact ⟨n + 1, r, by rw [h, h1]; rfl, h2⟩
      · exact ⟨0, a :: t, rfl, by intro q hq; cases hq; exact h rfl⟩
  have val : ∀ n (r : Str), (∀ q, r ≠ 45 :: q) → make_flag_dest (List.replicate n 45 ++ r) = .key (r.map up) := by
    intro n r h
    unfold make_flag_dest
    have e : (List.replicate n 45 ++ r).map up = List.replicate n 45 ++ r.map up := by
      simp only [List.map_append, List.map_replicate]; rfl
    rw [e, trim_dashes]
    intro q hq
    cases r with
    | nil => simp at hq
    | cons a t =>
      simp only [List.map_cons, List.cons.injEq, up_45] at hq
      exact h t (by rw [hq.1])
  constructor
  · rintro ⟨n, r, rfl, h2, rfl⟩
    exact (val n r h2).symm
  · rintro rfl
    obtain ⟨n, r, rfl, h2⟩ := key s
    exact ⟨n, r, rfl, h2, val n r h2⟩

theorem first_iff (a : Argument) (v : V) : First a v ↔ v = initial a.action a.value := by
  unfold First initial
  cases a.action <;> simp

theorem makes_dest (c : Call) (d : Decl) (h : Makes c d) :
    d.flags = c.flags ∧ d.arg = { c.arg with value := initial c.arg.action c.arg.value } ∧ d.dest = destOf c.flags c.dest := by
  obtain ⟨h1, ⟨v, hv, h2⟩, h3⟩ := h
  refine ⟨h1, by rw [h2, (first_iff _ _).1 hv], ?_⟩
  cases hd : c.dest with
  | first =>
    rw [hd] at h3
    obtain ⟨f, r, e, hk⟩ := h3
    rw [(keyword_iff f d.dest).1 hk, e]; rfl
  | name s => rw [hd] at h3; exact (keyword_iff s d.dest).1 h3
  | gensym k => rw [hd] at h3; exact h3

theorem push_flags_iff (d : Dest) : ∀ (fs : List Str) (l l' : List (Str × Dest)),
    push_flags d fs l = .ok l' ↔
      fs.Nodup ∧ (∀ f ∈ fs, f ∉ l.map Prod.fst) ∧ l' = (fs.map fun f => (f, d)).reverse ++ l := by
  intro fs
  induction fs with
  | nil => intro l l'; simp [push_flags, eq_comm]
  | cons a r ih =>
    intro l l'
    unfold push_flags
    by_cases h : (look a l).isSome
    · simp only [h, if_true, reduceCtorEq, false_iff, not_and]
      intro _ h2
      have := (look_none a l).2 (h2 a (by simp))
      rw [this] at h; simp at h
    · have hn : a ∉ l.map Prod.fst := (look_none a l).1 (by cases hl : look a l <;> simp_all)
      simp only [h, Bool.false_eq_true, if_false, ih]
      simp only [List.map_cons, List.mem_cons, not_or, List.nodup_cons, List.reverse_cons, List.append_assoc,
        List.cons_append, List.nil_append, forall_eq_or_imp]
      constructor
      · rintro ⟨h1, h2, h3⟩
        exact ⟨⟨fun hm => (h2 a hm).1 rfl, h1⟩, ⟨hn, fun f hf => (h2 f hf).2⟩, h3⟩
      · rintro ⟨⟨h1, h1'⟩, ⟨_, h2⟩, h3⟩
        exact ⟨h1', fun f hf => ⟨fun e => h1 (e ▸ hf), h2 f hf⟩, h3⟩

/-- The parser that holds the declarations. -/
def holds (ds : List Decl) : Parser where
  flaglst := (ds.flatMap fun d => d.flags.map fun f => (f, d.dest)).reverse
  plist := (ds.map fun d => (d.dest, d.arg)).reverse

theorem flag_keys (ds : List Decl) : (ds.flatMap fun d => d.flags.map fun f => (f, d.dest)).map Prod.fst = ds.flatMap Decl.flags := by
  induction ds with
  | nil => rfl
  | cons d r ih => simp [List.flatMap_cons, ih, Function.comp_def]

theorem consistent_snoc (ds : List Decl) (d : Decl) (h : Consistent ds) :
    Consistent (ds ++ [d]) ↔ (∀ f ∈ d.flags, IsFlag f ∧ 61 ∉ f) ∧ d.flags.Nodup ∧ (∀ f ∈ d.flags, f ∉ ds.flatMap Decl.flags) ∧
      d.dest ∉ ds.map Decl.dest := by
  constructor
  · rintro ⟨h1, h2, h3⟩
    rw [List.flatMap_append, List.nodup_append] at h2
    rw [List.map_append, List.nodup_append] at h3
    refine ⟨h1 d (by simp), by simpa using h2.2.1, ?_, ?_⟩
    · intro f hf hm
      exact h2.2.2 f hm f (by simpa using hf) rfl
    · intro hm
      exact h3.2.2 _ hm d.dest (by simp) rfl
  · rintro ⟨h1, h2, h3, h4⟩
    refine ⟨?_, ?_, ?_⟩
    · intro e he
      rcases List.mem_append.1 he with he | he
      · exact h.flags e he
      · rw [List.mem_singleton.1 he]; exact h1
    · rw [List.flatMap_append, List.nodup_append]
      refine ⟨h.once, by simpa using h2, ?_⟩
      intro x hx y hy e
      exact h3 y (by simpa using hy) (e ▸ hx)
    · rw [List.map_append, List.nodup_append]
      refine ⟨h.dests, by simp, ?_⟩
      intro x hx y hy e
      simp only [List.map_cons, List.map_nil, List.mem_singleton] at hy
      exact h4 (hy ▸ e ▸ hx)

theorem add_argument_iff (ds : List Decl) (h : Consistent ds) (c : Call) (d : Decl) (hm : Makes c d) (p : Parser) :
    add_argument (holds ds) c.flags c.dest { c.arg with value := initial c.arg.action c.arg.value } = .ok p ↔ Consistent (ds ++ [d]) ∧ p = holds (ds ++ [d]) := by
  obtain ⟨e1, e2, e3⟩ := makes_dest c d hm
  rw [consistent_snoc ds d h]
  unfold add_argument
  simp only [← e1, ← e2] at e3 ⊢
  rw [← e3]
  have hb : (d.flags.any fun f => !check_flag f) = true ↔ ¬ ∀ f ∈ d.flags, IsFlag f ∧ 61 ∉ f := by
    simp only [List.any_eq_true, Bool.not_eq_true', not_forall]
    constructor
    · rintro ⟨f, hf, hc⟩
      refine ⟨f, hf, fun hh => ?_⟩
      rw [← isFlag_iff] at hh
      simp [check_flag, hh.1, hh.2] at hc
    · rintro ⟨f, hf, hc⟩
      refine ⟨f, hf, ?_⟩
      rw [← isFlag_iff] at hc
      cases hx : check_flag f with
      | false => rfl
      | true => exact absurd (by simpa [check_flag] using hx) hc
  by_cases h1 : ∀ f ∈ d.flags, IsFlag f ∧ 61 ∉ f
  · have hb' : (d.flags.any fun f => !check_flag f) = false := by
      cases hx : (d.flags.any fun f => !check_flag f) with
      | false => rfl
      | true => exact absurd h1 (hb.1 hx)
    rw [hb']
    have hk : look d.dest (holds ds).plist = none ↔ d.dest ∉ ds.map Decl.dest := by
      rw [look_none]
      simp [holds]
    by_cases h2 : d.dest ∈ ds.map Decl.dest
    · have : (look d.dest (holds ds).plist).isSome = true := by
        cases hx : look d.dest (holds ds).plist with
        | none => exact absurd h2 (hk.1 hx)
        | some _ => rfl
      simp [this, h2]
    · have hkn := hk.2 h2
      simp only [Bool.false_eq_true, if_false, hkn, Option.isSome_none]
      have hp := push_flags_iff d.dest d.flags (holds ds).flaglst
      have hkeys : (holds ds).flaglst.map Prod.fst = (ds.flatMap Decl.flags).reverse := by
        simp only [holds, List.map_reverse, flag_keys]
      rw [hkeys] at hp
      simp only [List.mem_reverse] at hp
      cases hx : push_flags d.dest d.flags (holds ds).flaglst with
      | error e =>
        simp only [reduceCtorEq, false_iff, not_and]
        rintro ⟨_, h3, h4, _⟩
        have := (hp _).2 ⟨h3, h4, rfl⟩
        rw [hx] at this; simp at this
      | ok l =>
        obtain ⟨h3, h4, h5⟩ := (hp l).1 hx
        simp only [Except.ok.injEq]
        have e : (⟨l, (d.dest, d.arg) :: (holds ds).plist⟩ : Parser) = holds (ds ++ [d]) := by
          rw [h5]; simp [holds, List.flatMap_append]
        rw [e]
        exact ⟨fun hh => ⟨⟨h1, h3, h4, h2⟩, hh.symm⟩, fun hh => hh.2.symm⟩
  · have hb' := hb.2 h1
    rw [hb']
    simp [h1]

theorem consistent_prefix (ds es : List Decl) (h : Consistent (ds ++ es)) : Consistent ds := by
  refine ⟨fun d hd => h.flags d (List.mem_append_left _ hd), ?_, ?_⟩
  · have := h.once; rw [List.flatMap_append] at this; exact (List.nodup_append.1 this).1
  · have := h.dests; rw [List.map_append] at this; exact (List.nodup_append.1 this).1

theorem build_iff : ∀ (cs : List Call) (es ds : List Decl) (p : Parser), Consistent ds → List.Forall₂ Makes cs es →
    (build (holds ds) cs = .ok p ↔ Consistent (ds ++ es) ∧ p = holds (ds ++ es)) := by
  intro cs
  induction cs with
  | nil =>
    intro es ds p h hm
    cases hm
    simp [build, h, eq_comm]
  | cons c r ih =>
    intro es ds p h hm
    cases hm with
    | @cons _ d _ es' h1 h2 =>
      unfold build
      have e : ds ++ d :: es' = (ds ++ [d]) ++ es' := by simp
      cases hx : add_argument (holds ds) c.flags c.dest { c.arg with value := initial c.arg.action c.arg.value } with
      | error x =>
        simp only [reduceCtorEq, false_iff, not_and]
        intro hc
        rw [e] at hc
        have := (add_argument_iff ds h c d h1 _).2 ⟨consistent_prefix _ _ hc, rfl⟩
        rw [hx] at this; simp at this
      | ok q =>
        obtain ⟨h3, rfl⟩ := (add_argument_iff ds h c d h1 q).1 hx
        simp only
        rw [ih es' _ p h3 h2, e]

theorem build_empty_iff (cs : List Call) (ds : List Decl) (p : Parser) (h : List.Forall₂ Makes cs ds) :
    build {} cs = .ok p ↔ Consistent ds ∧ p = holds ds := by
  have := build_iff cs ds [] p ⟨by simp, by simp, by simp⟩ h
  simp only [List.nil_append] at this
  exact this

/-! ### Parsing -/

theorem step_setv (rd : Str → Option V) (a : Argument) (x : V) (o : Option Str) (v w : V) :
    Step rd (setv a x) o v w ↔ Step rd a o v w := by
  have key : ∀ a b : Argument, b.action = a.action → b.const = a.const → b.choices = a.choices → b.check = a.check →
      b.read = a.read → Step rd a o v w → Step rd b o v w := by
    intro a b h1 h2 h3 h4 h5 h
    have hal : ∀ v, Allowed a v → Allowed b v := by intro v; unfold Allowed; rw [h3, h4]; exact id
    have hme : ∀ s v, Meaning rd a s v → Meaning rd b s v := by intro s v; unfold Meaning; rw [h5]; exact id
    cases h with
    | store k1 k2 k3 => exact .store (h1.trans k1) (hme _ _ k2) (hal _ k3)
    | append k1 k2 k3 k4 => exact .append (h1.trans k1) (hme _ _ k2) (hal _ k3) k4
    | storeTrue k1 k2 => exact .storeTrue (h1.trans k1) (hal _ k2)
    | storeFalse k1 k2 => exact .storeFalse (h1.trans k1) (hal _ k2)
    | storeConst k1 k2 => rw [← h2] at k2 ⊢; exact .storeConst (h1.trans k1) (hal _ k2)
    | count k1 k2 => exact .count (h1.trans k1) (hal _ k2)
    | count1 k1 k2 => exact .count1 (h1.trans k1) (hal _ k2)
    | fn0 k1 k2 => exact .fn0 (h1.trans k1) (hal _ k2)
    | fn1 k1 k2 k3 k4 => exact .fn1 (h1.trans k1) (hme _ _ k2) k3 (hal _ k4)
  exact ⟨key (setv a x) a rfl rfl rfl rfl rfl, key a (setv a x) rfl rfl rfl rfl rfl⟩

theorem uses_filter (d : Decl) (l : List Str) (u : List (Str × Option Str)) :
    Uses d (l.filter flag_name_p) u ↔ Uses d l u := by
  induction l generalizing u with
  | nil => simp
  | cons s r ih =>
    by_cases h : flag_name_p s = true
    · rw [List.filter_cons_of_pos h]
      have hf := (isFlag_iff s).1 h
      constructor
      · intro hu
        cases hu with
        | use h1 h2 h3 h4 => exact .use h1 h2 h3 ((ih _).1 h4)
        | other h1 h2 h3 h4 => exact .other h1 h2 h3 ((ih _).1 h4)
        | plain h1 h2 => exact absurd hf h1
      · intro hu
        cases hu with
        | use h1 h2 h3 h4 => exact .use h1 h2 h3 ((ih _).2 h4)
        | other h1 h2 h3 h4 => exact .other h1 h2 h3 ((ih _).2 h4)
        | plain h1 h2 => exact absurd hf h1
    · rw [List.filter_cons_of_neg h, ih]
      have hf : ¬ IsFlag s := fun hh => h ((isFlag_iff s).2 hh)
      constructor
      · exact .plain hf
      · intro hu
        cases hu with
        | use h1 h2 h3 h4 => exact absurd h1 hf
        | other h1 h2 h3 h4 => exact absurd h1 hf
        | plain h1 h2 => exact h2

theorem known_filter (ds : List Decl) (l : List Str) : Known ds (l.filter flag_name_p) ↔ Known ds l := by
  unfold Known
  constructor
  · intro h s hs hf
    exact h s (List.mem_filter.2 ⟨hs, (isFlag_iff s).2 hf⟩) hf
  · intro h s hs hf
    exact h s (List.mem_filter.1 hs).1 hf

theorem uses_cons_mine (d : Decl) (s n : Str) (v : Option Str) (r : List Str) (u : List (Str × Option Str))
    (hf : IsFlag s) (hs : Splits s n v) (hn : n ∈ d.flags) :
    Uses d (s :: r) u ↔ ∃ u', u = (s, v) :: u' ∧ Uses d r u' := by
  constructor
  · intro h
    cases h with
    | use h1 h2 h3 h4 =>
      obtain ⟨rfl, rfl⟩ := splits_unique hs h2
      exact ⟨_, rfl, h4⟩
    | other h1 h2 h3 h4 =>
      obtain ⟨rfl, rfl⟩ := splits_unique hs h2
      exact absurd hn h3
    | plain h1 h2 => exact absurd hf h1
  · rintro ⟨u', rfl, h⟩
    exact .use hf hs hn h

theorem uses_cons_other (d : Decl) (s n : Str) (v : Option Str) (r : List Str) (u : List (Str × Option Str))
    (hf : IsFlag s) (hs : Splits s n v) (hn : n ∉ d.flags) :
    Uses d (s :: r) u ↔ Uses d r u := by
  constructor
  · intro h
    cases h with
    | use h1 h2 h3 h4 =>
      obtain ⟨rfl, rfl⟩ := splits_unique hs h2
      exact absurd h3 hn
    | other h1 h2 h3 h4 => exact h4
    | plain h1 h2 => exact absurd hf h1
  · exact .other hf hs hn

theorem same_dest (ds : List Decl) (h : Consistent ds) (d e : Decl) (hd : d ∈ ds) (he : e ∈ ds) (hh : d.dest = e.dest) : d = e :=
  List.inj_on_of_nodup_map h.dests hd he hh

theorem same_flag (ds : List Decl) (h : Consistent ds) (d e : Decl) (hd : d ∈ ds) (he : e ∈ ds) (n : Str)
    (h1 : n ∈ d.flags) (h2 : n ∈ e.flags) : d = e := by
  have := (List.nodup_flatMap.1 h.once).2
  clear h
  induction this with
  | nil => simp at hd
  | @cons a l ha hl ih =>
    rcases List.mem_cons.1 hd with rfl | hd'
    · rcases List.mem_cons.1 he with rfl | he'
      · rfl
      · exact (ha e he' h1 h2).elim
    · rcases List.mem_cons.1 he with rfl | he'
      · exact (ha d hd' h2 h1).elim
      · exact ih hd' he'

theorem look_flag (ds : List Decl) (h : Consistent ds) (n : Str) (x : Dest) :
    look n (holds ds).flaglst = some x ↔ ∃ d ∈ ds, n ∈ d.flags ∧ d.dest = x := by
  rw [look_some]
  · simp only [holds, List.mem_reverse, List.mem_flatMap, List.mem_map, Prod.mk.injEq]
    constructor
    · rintro ⟨d, hd, f, hf, rfl, rfl⟩; exact ⟨d, hd, hf, rfl⟩
    · rintro ⟨d, hd, hf, rfl⟩; exact ⟨d, hd, n, hf, rfl, rfl⟩
  · simp only [holds, List.map_reverse, flag_keys, List.nodup_reverse]
    exact h.once

theorem look_dest (ds : List Decl) (h : Consistent ds) (d : Decl) (hd : d ∈ ds) : look d.dest (holds ds).plist = some d.arg := by
  rw [look_some]
  · simp only [holds, List.mem_reverse, List.mem_map, Prod.mk.injEq]
    exact ⟨d, hd, rfl, rfl⟩
  · simp only [holds, List.map_reverse, List.map_map, List.nodup_reverse]
    exact h.dests

/-- The loop, from any values. -/
theorem loop_iff (rd : Str → Option V) (ds : List Decl) (hc : Consistent ds) (hr : ∀ d ∈ ds, ReadOk d.arg) (val : Decl → V) :
    ∀ (l : List Str) (pl : List (Dest × Argument)) (req : List Dest) (cur : Decl → V),
      (∀ s ∈ l, IsFlag s) → (∀ d ∈ ds, look d.dest pl = some (setv d.arg (cur d))) →
      req.Nodup → (∀ x ∈ req, ∃ d ∈ ds, d.dest = x) →
      ((∃ pl', loop rd (holds ds).flaglst l pl req = .ok (pl', []) ∧ ∀ d ∈ ds, look d.dest pl' = some (setv d.arg (val d))) ↔
        Known ds l ∧ ∀ d ∈ ds, ∃ u, Uses d l u ∧ Steps rd d.arg u (cur d) (val d) ∧ (d.dest ∈ req → u ≠ [])) := by
  intro l
  induction l with
  | nil =>
    intro pl req cur _ hpl hnd hreq
    simp only [loop, Except.ok.injEq, Prod.mk.injEq]
    constructor
    · rintro ⟨pl', ⟨rfl, rfl⟩, h⟩
      refine ⟨by simp [Known], fun d hd => ⟨[], .nil, ?_, by simp⟩⟩
      have := h d hd
      rw [hpl d hd] at this
      have e : cur d = val d := by simpa [setv] using congrArg (Option.map Argument.value) this
      rw [e]; exact .nil _
    · rintro ⟨_, h⟩
      refine ⟨pl, ⟨rfl, ?_⟩, ?_⟩
      · cases req with
        | nil => rfl
        | cons x r =>
          obtain ⟨d, hd, rfl⟩ := hreq x (by simp)
          obtain ⟨u, hu, _, hne⟩ := h d hd
          cases hu
          exact absurd rfl (hne (by simp))
      · intro d hd
        obtain ⟨u, hu, hs, _⟩ := h d hd
        cases hu
        have e : cur d = val d := by
          generalize cur d = x at hs ⊢
          generalize val d = y at hs ⊢
          cases hs; rfl
        rw [hpl d hd, e]
  | cons s r ih =>
    intro pl req cur hfl hpl hnd hreq
    have hf : IsFlag s := hfl s (by simp)
    have hsp : Splits s (split_flag s).1 (split_flag s).2 := splits_split s
    simp only [loop]
    generalize (split_flag s).1 = n at hsp ⊢
    generalize (split_flag s).2 = v at hsp ⊢
    cases hlk : look n (holds ds).flaglst with
    | none =>
      simp only [reduceCtorEq, false_and, exists_false, false_iff, not_and]
      intro hk
      obtain ⟨d, hd, m, w, h1, h2⟩ := hk s (by simp) hf
      obtain ⟨rfl, rfl⟩ := splits_unique hsp h1
      have := (look_flag ds hc n d.dest).2 ⟨d, hd, h2, rfl⟩
      rw [hlk] at this; simp at this
    | some x =>
      obtain ⟨d, hd, hn, rfl⟩ := (look_flag ds hc n x).1 hlk
      simp only [hpl d hd]
      have hro : ReadOk (setv d.arg (cur d)) := hr d hd
      have hact : ∀ b, act rd (setv d.arg (cur d)) s v = .ok b ↔ ∃ w, Step rd d.arg v (cur d) w ∧ b = setv d.arg w := by
        intro b
        rw [act_iff rd _ b s v hro]
        simp only [step_setv]
        rfl
      cases ha : act rd (setv d.arg (cur d)) s v with
      | error e =>
        simp only [reduceCtorEq, false_and, exists_false, false_iff, not_and]
        intro _ hh
        obtain ⟨u, hu, hs, _⟩ := hh d hd
        obtain ⟨u', rfl, hu'⟩ := (uses_cons_mine d s n v r u hf hsp hn).1 hu
        cases hs with
        | cons h1 h2 =>
          have := (hact _).2 ⟨_, h1, rfl⟩
          rw [ha] at this; simp at this
      | ok b =>
        obtain ⟨w, hw, rfl⟩ := (hact b).1 ha
        simp only
        have hdec : ∀ e ∈ ds, e = d ∨ (e.dest ≠ d.dest ∧ n ∉ e.flags) := by
          intro e he
          by_cases hed : e.dest = d.dest
          · exact .inl (same_dest ds hc e d he hd hed)
          · exact .inr ⟨hed, fun hh => hed (by rw [same_flag ds hc e d he hd n hh hn])⟩
        rw [ih (update d.dest (setv d.arg w) pl) (req.erase d.dest) (fun e => if e.dest = d.dest then w else cur e)
          (fun t ht => hfl t (by simp [ht])) ?_ (hnd.erase _) (fun x hx => hreq x (List.mem_of_mem_erase hx))]
        · have hkn : Known ds (s :: r) ↔ Known ds r := by
            unfold Known
            constructor
            · intro h t ht; exact h t (by simp [ht])
            · intro h t ht
              rcases List.mem_cons.1 ht with rfl | ht
              · intro _; exact ⟨d, hd, n, v, hsp, hn⟩
              · exact h t ht
          rw [hkn]
          refine and_congr_right fun _ => forall_congr' fun e => forall_congr' fun he => ?_
          rcases hdec e he with rfl | ⟨h1, h2⟩
          · simp only [if_true]
            constructor
            · rintro ⟨u, hu, hs, _⟩
              exact ⟨(s, v) :: u, (uses_cons_mine e s n v r _ hf hsp hn).2 ⟨u, rfl, hu⟩, .cons hw hs, by simp⟩
            · rintro ⟨u, hu, hs, _⟩
              obtain ⟨u', rfl, hu'⟩ := (uses_cons_mine e s n v r u hf hsp hn).1 hu
              refine ⟨u', hu', ?_, fun hm => absurd hm (hnd.not_mem_erase)⟩
              cases hs with
              | @cons _ _ _ _ x _ k1 k2 =>
                have := (hact _).2 ⟨_, k1, rfl⟩
                rw [ha] at this
                simp only [Except.ok.injEq] at this
                have e : w = x := by simpa [setv] using congrArg Argument.value this
                rw [e]; exact k2
          · simp only [h1, if_false]
            have hm : e.dest ∈ req.erase d.dest ↔ e.dest ∈ req := List.mem_erase_of_ne h1
            rw [hm]
            refine exists_congr fun u => ?_
            rw [uses_cons_other e s n v r u hf hsp h2]
        · intro e he
          rcases hdec e he with rfl | ⟨h1, _⟩
          · simp only [if_true]
            exact look_update_self _ _ _ _ (hpl e he)
          · simp only [h1, if_false]
            rw [look_update_ne _ _ _ _ h1]
            exact hpl e he

/-- The loop does not change anything but the values. -/
theorem loop_values (rd : Str → Option V) (fl : List (Str × Dest)) (a : Argument) (x : Dest)
    (hro : ReadOk a) :
    ∀ (l : List Str) (pl pl' : List (Dest × Argument)) (req req' : List Dest) (v : V),
      loop rd fl l pl req = .ok (pl', req') → look x pl = some (setv a v) → ∃ w, look x pl' = some (setv a w) := by
  intro l
  induction l with
  | nil =>
    intro pl pl' req req' v h hv
    simp only [loop, Except.ok.injEq, Prod.mk.injEq] at h
    exact ⟨v, h.1 ▸ hv⟩
  | cons s r ih =>
    intro pl pl' req req' v h hv
    simp only [loop] at h
    cases h1 : look (split_flag s).1 fl with
    | none => rw [h1] at h; simp at h
    | some d =>
      rw [h1] at h
      simp only at h
      cases h2 : look d pl with
      | none => rw [h2] at h; simp at h
      | some b =>
        rw [h2] at h
        simp only at h
        cases h3 : act rd b s (split_flag s).2 with
        | error e => rw [h3] at h; simp at h
        | ok c =>
          rw [h3] at h
          simp only at h
          by_cases hx : x = d
          · subst hx
            rw [h2] at hv
            cases hv
            obtain ⟨w, _, rfl⟩ := (act_iff rd (setv a v) c s _ hro).1 h3
            exact ih _ _ _ _ w h (look_update_self _ _ _ _ h2)
          · exact ih _ _ _ _ v h (by rw [look_update_ne _ _ _ _ hx]; exact hv)

theorem parse_iff (rd : Str → Option V) (ds : List Decl) (hc : Consistent ds) (hr : ∀ d ∈ ds, ReadOk d.arg) (val : Decl → V)
    (argv : List Str) :
    (∃ p', parse_args rd (holds ds) argv = .ok p' ∧ ∀ d ∈ ds, value p' d.dest = some (val d)) ↔
      Known ds argv ∧ ∀ d ∈ ds, ∃ u, Uses d argv u ∧ Steps rd d.arg u d.arg.value (val d) ∧ (d.arg.required = true → u ≠ []) := by
  have hreqs : ∀ d ∈ ds, d.dest ∈ ((holds ds).plist.filter fun x => x.2.required).map (·.1) ↔ d.arg.required = true := by
    intro d hd
    simp only [holds, List.mem_map, List.mem_filter, List.mem_reverse]
    constructor
    · rintro ⟨x, ⟨⟨e, he, rfl⟩, h2⟩, h3⟩
      rw [← same_dest ds hc e d he hd h3]; exact h2
    · intro h
      exact ⟨(d.dest, d.arg), ⟨⟨d, hd, rfl⟩, h⟩, rfl⟩
  have hl := loop_iff rd ds hc hr val (argv.filter flag_name_p) (holds ds).plist
    (((holds ds).plist.filter fun x => x.2.required).map (·.1)) (fun d => d.arg.value)
    (fun s hs => (isFlag_iff s).1 (List.mem_filter.1 hs).2)
    (fun d hd => by rw [look_dest ds hc d hd]; rfl)
    (by
      have : ((holds ds).plist.map (·.1)).Nodup := by
        simp only [holds, List.map_reverse, List.map_map, List.nodup_reverse]
        exact hc.dests
      exact this.sublist (List.Sublist.map _ List.filter_sublist))
    (by
      intro x hx
      simp only [holds, List.mem_map, List.mem_filter, List.mem_reverse] at hx
      obtain ⟨y, ⟨⟨e, he, rfl⟩, _⟩, rfl⟩ := hx
      exact ⟨e, he, rfl⟩)
  rw [known_filter] at hl
  simp only [uses_filter] at hl
  have hrhs : (∀ d ∈ ds, ∃ u, Uses d argv u ∧ Steps rd d.arg u d.arg.value (val d) ∧
        (d.dest ∈ ((holds ds).plist.filter fun x => x.2.required).map (·.1) → u ≠ [])) ↔
      ∀ d ∈ ds, ∃ u, Uses d argv u ∧ Steps rd d.arg u d.arg.value (val d) ∧ (d.arg.required = true → u ≠ []) := by
    refine forall_congr' fun d => forall_congr' fun hd => exists_congr fun u => ?_
    rw [hreqs d hd]
  rw [hrhs] at hl
  rw [← hl]
  unfold parse_args
  constructor
  · rintro ⟨p', hp, hv⟩
    simp only at hp
    cases hlo : loop rd (holds ds).flaglst (argv.filter flag_name_p) (holds ds).plist
        (((holds ds).plist.filter fun x => x.2.required).map (·.1)) with
    | error e => rw [hlo] at hp; simp at hp
    | ok y =>
      obtain ⟨pl, req⟩ := y
      rw [hlo] at hp
      simp only at hp
      cases hg : req.getLast? with
      | some d => rw [hg] at hp; simp at hp
      | none =>
        rw [hg] at hp
        have : req = [] := List.getLast?_eq_none_iff.1 hg
        subst this
        refine ⟨pl, rfl, fun d hd => ?_⟩
        simp only [Except.ok.injEq] at hp
        obtain ⟨w, hw⟩ := loop_values rd _ d.arg d.dest (hr d hd) _ _ _ _ _ d.arg.value hlo (by rw [look_dest ds hc d hd]; rfl)
        have h := hv d hd
        rw [← hp] at h
        simp only [value, hw, Option.map_some, Option.some.injEq] at h
        rw [hw, show w = val d from h]
  · rintro ⟨pl, hlo, hv⟩
    refine ⟨{ holds ds with plist := pl }, ?_, fun d hd => ?_⟩
    · simp only [hlo, List.getLast?_nil]
    · simp only [value, hv d hd, Option.map_some]; rfl

end Eus.Arg
