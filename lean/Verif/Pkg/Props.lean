import Verif.Pkg.World
set_option autoImplicit false
set_option maxRecDepth 100000
/-!
# Properties of packages (C26, C27)

A history is a list of calls from the empty world; `ARun … = some …` says that the specification makes
a promise for each of its calls (see `Spec`).
-/
namespace Eus.Pkg

/-- The answers of a history, or `none` if some call does not end. -/
def answers (c : Cfg) (os : List Op) : Option (List Ans) := (run c .init os).map (·.2)

/-- an example: package 0 is the keyword package, nothing is exported by default -/
def cfg0 : Cfg := ⟨0, false⟩

/-- an example history: two packages, the second uses the first; two symbols with the same hash, one
of them exported; both names interned in the user -/
def hist0 : List Op :=
  [.mkPkg [], .mkPkg [], .mkPkg [1], .intern 1 [65], .intern 1 [125], .export 1 1, .intern 2 [125],
   .intern 2 [65], .intern 1 [65], .unintern 0 1, .intern 2 [125], .use 2 0]

/-- Every history gets the answers that the maps of the specification give: through every hash
collision, deletion and growth of the tables, no call runs for ever, no symbol is lost and none is
found under a wrong name. -/
theorem C26_history_refines_maps (c : Cfg) (os : List Op) (a : AW) (rs : List Ans)
    (h : ARun c .init os = some (a, rs)) : answers c os = some rs := by
  obtain ⟨w, h1, _⟩ := run_spec c os init_spec h
  rw [answers, h1]; rfl

example : (ARun cfg0 .init hist0).map (·.2) = some
    [.done, .done, .done, .sym 0, .sym 1, .done, .sym 1, .sym 2, .sym 0, .done, .sym 1, .done] := by decide
example : answers cfg0 hist0 = some
    [.done, .done, .done, .sym 0, .sym 1, .done, .sym 1, .sym 2, .sym 0, .done, .sym 1, .done] := by decide

/-- The symbol that intern gives back has the name that was asked for (and only under
`export-all-symbols` can intern end in an error). -/
theorem C26_intern_gives_name (c : Cfg) (os : List Op) (p : Nat) (n : Name) (a : AW) (rs : List Ans)
    (h : ARun c .init (os ++ [.intern p n]) = some (a, rs)) :
    ∃ w rs' r, run c .init (os ++ [.intern p n]) = some (w, rs' ++ [r]) ∧
      (∀ s, r = .sym s → w.pname s = n) ∧ (c.exportAll = false → ∃ s, r = .sym s) := by
  obtain ⟨a1, r1, r2, h1, h2, h3⟩ := ARun_append_some c os _ _ _ _ h
  obtain ⟨w1, g1, g2⟩ := run_spec c _ init_spec h1
  obtain ⟨w, g3, g4⟩ := run_spec c _ init_spec h
  rw [ARun] at h2
  cases ho : AStep c a1 (.intern p n) with
  | none => rw [ho] at h2; cases h2
  | some x =>
    rw [ho] at h2
    simp only [ARun, Option.map_some, Option.some.injEq, Prod.mk.injEq] at h2
    refine ⟨w, r1, x.2, by rw [g3, h3, h2.2], ?_, ?_⟩
    · intro s hs
      obtain ⟨xa, xr⟩ := x
      simp only at hs
      rw [hs] at ho
      have hd := (AStep_intern_now c a1 xa p n s ho).1
      rw [g4.pname]
      have : xa = a := h2.1
      rw [this] at hd
      exact (g4.denotes_name p n s hd).1
    · intro hc
      rcases AW.intern_cases ho with ⟨s, _, h5, _⟩ | ⟨_, h5 | ⟨_, h5⟩, _⟩
      · exact ⟨s, h5⟩
      · exact ⟨_, h5⟩
      · rw [hc] at h5; cases h5

example : (ARun cfg0 .init (hist0 ++ [.intern 2 [125]])).isSome = true := by decide

/-- Different names give different symbols, in whatever packages and however far apart in time. -/
theorem C26_different_names_different_symbols (c : Cfg) (os ms : List Op) (p q : Nat) (n n' : Name) (a : AW)
    (r1 r2 : List Ans) (s s' : SymId)
    (h : ARun c .init (os ++ .intern p n :: ms ++ [.intern q n']) = some (a, r1 ++ .sym s :: r2 ++ [.sym s']))
    (hlen : r1.length = os.length) (hn : n ≠ n') :
    answers c (os ++ .intern p n :: ms ++ [.intern q n']) = some (r1 ++ .sym s :: r2 ++ [.sym s']) ∧ s ≠ s' := by
  refine ⟨C26_history_refines_maps c _ _ _ h, ?_⟩
  obtain ⟨a1, q1, q2, h1, h2, h3⟩ := ARun_append_some c _ _ _ _ _ h
  obtain ⟨a0, t1, t2, k1, k2, k3⟩ := ARun_append_some c os _ _ _ _ h1
  have l1 := ARun_length c _ _ _ _ h2
  obtain ⟨e1, e2⟩ := List.append_inj' h3 (by rw [l1]; rfl)
  subst e1 e2
  have l2 := ARun_length c _ _ _ _ k1
  obtain ⟨e1, e2⟩ := List.append_inj k3 (by rw [hlen, l2])
  subst e1 e2
  rw [ARun] at k2
  cases ho : AStep c a0 (.intern p n) with
  | none => rw [ho] at k2; cases k2
  | some x =>
    rw [ho] at k2
    simp only [Option.map_eq_some_iff, Prod.mk.injEq, List.cons.injEq] at k2
    obtain ⟨y, k3, k4, k5, k6⟩ := k2
    obtain ⟨w0, g1, g2⟩ := run_spec c _ init_spec k1
    obtain ⟨xa, xr⟩ := x
    simp only at k5 k3
    subst k5
    obtain ⟨w1, _, g3⟩ := step_spec c g2 _ ho
    obtain ⟨m1, m2⟩ := g3.denotes_name p n s (AStep_intern_now c a0 xa p n s ho).1
    rw [ARun] at h2
    cases ho2 : AStep c a1 (.intern q n') with
    | none => rw [ho2] at h2; cases h2
    | some z =>
      rw [ho2] at h2
      simp only [ARun, Option.map_some, Option.some.injEq, Prod.mk.injEq, List.cons.injEq] at h2
      obtain ⟨za, zr⟩ := z
      obtain ⟨h4, h5, _⟩ := h2
      simp only at h4 h5
      subst h4 h5
      obtain ⟨wz, _, g5⟩ := run_spec c _ init_spec h
      obtain ⟨m3, _⟩ := g5.denotes_name q n' s' (AStep_intern_now c a1 za q n' s' ho2).1
      rintro rfl
      have e1 := (ARun_names c _ _ _ _ k3).2 s m2
      have e2 := (AStep_names c _ _ _ _ ho2).2 s (Nat.lt_of_lt_of_le m2 (by rw [← k4]; exact (ARun_names c _ _ _ _ k3).1))
      rw [k4] at e1
      rw [e1, m1] at e2
      rw [e2] at m3
      exact hn m3

example : (ARun cfg0 .init ([.mkPkg []] ++ .intern 0 [65] :: [.intern 0 [66]] ++ [.intern 0 [125]])).map (·.2) =
    some ([.done] ++ .sym 0 :: [.sym 1] ++ [.sym 2]) := by decide

/-- The same name gives the same symbol in a package, whatever names were interned in this or any
other package in between, and however often the tables grew.  (The keyword package exports what is
interned in it, so it is left out as a used package.) -/
theorem C26_same_name_same_symbol (c : Cfg) (hc : c.exportAll = false) (os : List Op) (ms : List (Nat × Name))
    (p : Nat) (n : Name) (a : AW) (rs : List Ans)
    (h : ARun c .init (os ++ .intern p n :: (ms.map fun m => .intern m.1 m.2) ++ [.intern p n]) = some (a, rs))
    (hk : ∀ w r, run c .init os = some (w, r) → c.keyword ∉ (w.pkg p).use) :
    ∃ r1 r2 s, answers c (os ++ .intern p n :: (ms.map fun m => .intern m.1 m.2) ++ [.intern p n]) =
      some (r1 ++ .sym s :: r2 ++ [.sym s]) ∧ r1.length = os.length := by
  rw [C26_history_refines_maps c _ _ _ h]
  obtain ⟨a1, q1, q2, h1, h2, h3⟩ := ARun_append_some c _ _ _ _ _ h
  obtain ⟨a0, t1, t2, k1, k2, k3⟩ := ARun_append_some c os _ _ _ _ h1
  rw [ARun] at k2
  cases ho : AStep c a0 (.intern p n) with
  | none => rw [ho] at k2; cases k2
  | some x =>
    rw [ho] at k2
    simp only [Option.map_eq_some_iff, Prod.mk.injEq] at k2
    obtain ⟨y, k4, k5, k6⟩ := k2
    obtain ⟨w0, g1, g2⟩ := run_spec c _ init_spec k1
    obtain ⟨xa, xr⟩ := x
    have hx : ∃ s, xr = .sym s := by
      rcases AW.intern_cases ho with ⟨s, _, h5, _⟩ | ⟨_, h5 | ⟨_, h5⟩, _⟩
      · exact ⟨s, h5⟩
      · exact ⟨_, h5⟩
      · rw [hc] at h5; cases h5
    obtain ⟨s, rfl⟩ := hx
    obtain ⟨d1, d2⟩ := AStep_intern_now c a0 xa p n s ho
    have hk' : c.keyword ∉ xa.use p := by
      rw [d2, ← g2.use]; exact hk w0 _ g1
    have d3 := ARun_interns_denotes c hc ms _ _ _ k4 p n s hk' d1
    rw [k5] at d3
    rw [ARun, AStep_intern_found c a1 p n s d3] at h2
    simp only [ARun, Option.map_some, Option.some.injEq, Prod.mk.injEq] at h2
    refine ⟨t1, y.2, s, ?_, ARun_length c _ _ _ _ k1⟩
    rw [h3, k3, ← k6, ← h2.2]

example : (ARun cfg0 .init (hist0.take 11 ++ .intern 2 [9] :: [(2, [65]), (1, [65]), (0, [9])].map (fun m => Op.intern m.1 m.2)
    ++ [.intern 2 [9]])).isSome = true := by decide
example : ∀ w r, run cfg0 .init (hist0.take 11) = some (w, r) → cfg0.keyword ∉ (w.pkg 2).use := by
  intro w r h
  have : (run cfg0 .init (hist0.take 11)).map (fun x => (x.1.pkg 2).use) = some [1] := by decide
  rw [h] at this
  simp only [Option.map_some, Option.some.injEq] at this
  rw [this]; decide

/-- Sequences of make-package and intern calls of any length, with no condition but that no package
uses the keyword package: every call ends and gives a symbol, and two interns of the same name in the
same package give the same symbol. -/
theorem C26_interns_same_name_same_symbol (c : Cfg) (hc : c.exportAll = false) (os : List Op)
    (ho : ∀ o ∈ os, (∃ p n, o = .intern p n) ∨ ∃ us, o = .mkPkg us ∧ c.keyword ∉ us)
    (ms : List (Nat × Name)) (p : Nat) (n : Name) :
    ∃ r1 r2 s, answers c (os ++ .intern p n :: (ms.map fun m => .intern m.1 m.2) ++ [.intern p n]) =
      some (r1 ++ .sym s :: r2 ++ [.sym s]) ∧ r1.length = os.length := by
  have hplain : ∀ o ∈ os, Plain c o := by
    intro o h
    rcases ho o h with ⟨p, n, rfl⟩ | ⟨us, rfl, h'⟩
    · trivial
    · exact h'
  have hinit : KW c .init := ⟨rfl, (by intro n s h; cases h), fun _ => rfl, (by intro p h; cases h)⟩
  have hall : ∀ o ∈ os ++ .intern p n :: (ms.map fun m => .intern m.1 m.2) ++ [.intern p n], Plain c o := by
    intro o h
    simp only [List.append_assoc, List.cons_append, List.mem_append, List.mem_cons, List.mem_map] at h
    rcases h with h | rfl | ⟨m, _, rfl⟩ | h
    · exact hplain o h
    · trivial
    · trivial
    · simp only [List.not_mem_nil, or_false] at h
      rw [h]; trivial
  obtain ⟨a, rs, h1, _⟩ := ARun_plain c hc _ hall .init hinit
  refine C26_same_name_same_symbol c hc os ms p n a rs h1 ?_
  intro w r hw
  obtain ⟨a0, r0, h2, h3⟩ := ARun_plain c hc os hplain .init hinit
  obtain ⟨w', g1, g2⟩ := run_spec c _ init_spec h2
  rw [hw] at g1
  cases g1
  rw [g2.use]
  exact h3.use p

example : answers cfg0 ([.mkPkg [], .mkPkg [], .mkPkg [1]] ++ .intern 2 [65] ::
    [((2 : Nat), ([125] : Name)), (1, [65]), (0, [65])].map (fun m => Op.intern m.1 m.2) ++ [.intern 2 [65]]) =
    some ([.done, .done, .done] ++ .sym 0 :: [.sym 1, .sym 2, .sym 3] ++ [.sym 0]) := by decide

/-- A symbol present in a package stays there, and its name keeps denoting it, through any calls
that promise something and do not unintern its name from that package. -/
theorem C26_present_symbol_stays (c : Cfg) (ms : List Op) : ∀ (os : List Op) (a0 a : AW) (r0 rs : List Ans)
    (w0 w : World) (p : Nat) (n : Name) (s : SymId), ARun c .init os = some (a0, r0) → run c .init os = some (w0, r0) →
    p < w0.npkg → findSymbol w0 p n = some (some s) →
    ARun c .init (os ++ ms) = some (a, rs) → run c .init (os ++ ms) = some (w, rs) →
    (∀ x, Op.unintern x p ∈ ms → w.pname x ≠ n) →
    findSymbol w p n = some (some s) ∧ intern c w p n = some (w, .sym s) := by
  intro os a0 a r0 rs w0 w p n s h0 h0' hp hs h hw hno
  obtain ⟨w0', e1, e2⟩ := run_spec c _ init_spec h0
  rw [h0'] at e1
  cases e1
  obtain ⟨w', e3, e4⟩ := run_spec c _ init_spec h
  rw [hw] at e3
  cases e3
  rw [findSymbol_spec e2, Option.some.injEq] at hs
  rw [e2.npkg] at hp
  rw [ARun_append, h0] at h
  simp only [Option.bind_some, Option.map_eq_some_iff, Prod.mk.injEq] at h
  obtain ⟨y, h1, h2, _⟩ := h
  rw [e4.pname] at hno
  clear h0 h0' hw e2
  have key : a.int p n = some s := by
    rw [← h2] at hno ⊢
    have : ∀ (ms : List Op) (a0 : AW) (y : AW × List Ans), ARun c a0 ms = some y → p < a0.npkg → a0.int p n = some s →
        (∀ x, Op.unintern x p ∈ ms → y.1.name x ≠ n) → y.1.int p n = some s := by
      intro ms
      induction ms with
      | nil =>
        intro a0 y h _ hs _
        simp only [ARun, Option.some.injEq] at h
        rw [← h]; exact hs
      | cons o os ih =>
        intro a0 y h hp hs hno
        rw [ARun] at h
        cases ho : AStep c a0 o with
        | none => rw [ho] at h; cases h
        | some x =>
          rw [ho] at h
          simp only [Option.map_eq_some_iff] at h
          obtain ⟨z, h1, h2⟩ := h
          have hz : y.1 = z.1 := by rw [← h2]
          rw [hz] at hno ⊢
          obtain ⟨g1, g2⟩ := AStep_names c o a0 x.1 x.2 ho
          obtain ⟨g3, g4⟩ := ARun_names c os x.1 z.1 z.2 h1
          obtain ⟨g5, g6⟩ := AStep_present c o a0 x.1 x.2 ho p n s hp hs (by
            rintro t rfl
            have := hno t List.mem_cons_self
            intro hh
            apply this
            simp only [AStep, AW.unintern] at ho
            split_ifs at ho with hc
            rw [g4 t (Nat.lt_of_lt_of_le hc.1 g1), g2 t hc.1]
            exact hh)
          exact ih x.1 z h1 g6 g5 (fun t ht => hno t (List.mem_cons_of_mem _ ht))
    exact this ms a0 y h1 hp hs hno
  refine ⟨by rw [findSymbol_spec e4, key], ?_⟩
  have hd : a.denotes p n = some s := by unfold AW.denotes; rw [key, Option.some_or]
  rw [intern, e4.pname]
  rcases findsymbol_spec (e4.int p) n with ⟨s', i, h1, _, _, _, h5⟩ | ⟨i, h1, hlt, hfree, h4, hpath⟩
  · rw [h1]
    rw [key] at h5
    cases h5
    rfl
  · rw [key] at h4; cases h4

example : (ARun cfg0 .init (hist0.take 7 ++ hist0.drop 7)).isSome = true ∧
    (run cfg0 .init (hist0.take 7)).map (fun x => findSymbol x.1 1 [125]) = some (some (some 1)) := by decide

/-- Symbols exported by `p`: once `q` has begun to use `p` without complaint, the name of a symbol
that `p` exports denotes that symbol in `q`. -/
theorem C27_export_then_use (c : Cfg) (os : List Op) (s : SymId) (q p : Nat) (n : Name) (a : AW) (rs : List Ans)
    (w0 : World) (r0 : List Ans) (h0 : run c .init os = some (w0, r0)) (hn : w0.pname s = n)
    (hq : q ≠ p) (hu : p ∉ (w0.pkg q).use) (r : Ans)
    (h : ARun c .init (os ++ [.export s p, .use q p, .intern q n]) = some (a, rs ++ [.done, .done, r])) :
    answers c (os ++ [.export s p, .use q p, .intern q n]) = some (rs ++ [.done, .done, .sym s]) := by
  rw [C26_history_refines_maps c _ _ _ h]
  obtain ⟨a0, t1, t2, k1, k2, k3⟩ := ARun_append_some c os _ _ _ _ h
  obtain ⟨e1, e2⟩ := List.append_inj' k3 (by rw [ARun_length c _ _ _ _ k2]; rfl)
  obtain ⟨w0', g1, g2⟩ := run_spec c _ init_spec k1
  rw [h0] at g1
  cases g1
  rw [← e2] at k2
  rw [ARun] at k2
  cases ho : AStep c a0 (.export s p) with
  | none => rw [ho] at k2; cases k2
  | some x =>
    obtain ⟨a1, r1⟩ := x
    rw [ho] at k2
    simp only [ARun, Option.map_eq_some_iff, Prod.mk.injEq, List.cons.injEq] at k2
    obtain ⟨y, k4, k5, rfl, k6⟩ := k2
    have hname : a0.name s = n := by rw [← g2.pname]; exact hn
    have hx : a1.ext p n = some s ∧ a1.use = a0.use ∧ a1.name = a0.name ∧ s < a1.nsym := by
      have hsn : a0.ext p (a0.name s) = some s → s < a0.nsym := fun h => ((g2.ext p).name _ _ h).2
      rcases AW.export_cases ho with ⟨_, h5⟩ | ⟨rfl, _, h5⟩ | ⟨rfl, _, h5, h6, _⟩
      · cases h5
      · exact ⟨by rw [← hname]; exact h5, rfl, rfl, hsn h5⟩
      · exact ⟨by simp [put, hname], rfl, rfl, h6⟩
    obtain ⟨x1, x2, x3, x4⟩ := hx
    cases hus : AStep c a1 (.use q p) with
    | none => rw [hus] at k4; cases k4
    | some z =>
      obtain ⟨a2, r2⟩ := z
      rw [hus] at k4
      simp only [Option.map_eq_some_iff] at k4
      obtain ⟨v, k7, k8⟩ := k4
      have hy : y.2 = r2 :: v.2 := by rw [← k8]
      rw [k6] at hy
      simp only [List.cons.injEq] at hy
      obtain ⟨rfl, hy⟩ := hy
      simp only [AStep, Option.some.injEq, AW.usePkg] at hus
      rw [if_neg (fun h => hq h.symm)] at hus
      by_cases hc : ∃ s < a1.nsym, a1.ext p (a1.name s) = some s ∧ ∃ s' ∈ a1.int q (a1.name s), s' ≠ s
      · rw [if_pos hc] at hus
        simp only [Prod.mk.injEq] at hus
        exact absurd hus.2 (by simp)
      rw [if_neg hc] at hus
      simp only [Prod.mk.injEq] at hus
      have hnu : p ∉ a1.use q := by rw [x2, ← g2.use]; exact hu
      have hd : a2.denotes q n = some s := by
        rw [← hus.1]
        unfold AW.denotes
        simp only [Function.update_self, if_neg hnu, List.findSome?_cons, x1]
        cases hi : a1.int q n with
        | none => rfl
        | some s' =>
          rw [Option.some_or]
          by_contra hh
          refine hc ⟨s, x4, by rw [x3, hname]; exact x1, s', by rw [x3, hname]; exact hi, ?_⟩
          rintro rfl
          exact hh rfl
      rw [AStep_intern_found c a2 q n s hd] at k7
      simp only [Option.map_some, Option.some.injEq] at k7
      have hv : v.2 = [.sym s] := by rw [← k7]
      rw [hv] at hy
      simp only [List.cons.injEq] at hy
      rw [hy.1]

example : (ARun cfg0 .init ([.mkPkg [], .mkPkg [], .mkPkg [], .intern 1 [65], .intern 2 [66]] ++
    [.export 0 1, .use 2 1, .intern 2 [65]])).map (·.2) =
      some ([.done, .done, .done, .sym 0, .sym 1] ++ [.done, .done, .sym 0]) := by decide

/-- A symbol exported after `q` began to use `p` is seen in `q` as well. -/
theorem C27_use_then_export (c : Cfg) (os : List Op) (s : SymId) (q p : Nat) (n : Name) (a : AW) (rs : List Ans)
    (w0 : World) (r0 : List Ans) (h0 : run c .init os = some (w0, r0)) (hn : w0.pname s = n)
    (hq : q ≠ p) (hu : p ∉ (w0.pkg q).use) (hnew : ∀ x, findExternal w0 p n = some x → x ≠ some s) (r : Ans)
    (h : ARun c .init (os ++ [.use q p, .export s p, .intern q n]) = some (a, rs ++ [.done, .done, r])) :
    answers c (os ++ [.use q p, .export s p, .intern q n]) = some (rs ++ [.done, .done, .sym s]) := by
  rw [C26_history_refines_maps c _ _ _ h]
  obtain ⟨a0, t1, t2, k1, k2, k3⟩ := ARun_append_some c os _ _ _ _ h
  obtain ⟨e1, e2⟩ := List.append_inj' k3 (by rw [ARun_length c _ _ _ _ k2]; rfl)
  obtain ⟨w0', g1, g2⟩ := run_spec c _ init_spec k1
  rw [h0] at g1
  cases g1
  rw [← e2] at k2
  rw [ARun] at k2
  have hname : a0.name s = n := by rw [← g2.pname]; exact hn
  have hnu : p ∉ a0.use q := by rw [← g2.use]; exact hu
  have hne : a0.ext p n ≠ some s := hnew _ (findExternal_spec g2 p n)
  cases ho : AStep c a0 (.use q p) with
  | none => rw [ho] at k2; cases k2
  | some x =>
    obtain ⟨a1, r1⟩ := x
    rw [ho] at k2
    simp only [ARun, Option.map_eq_some_iff, Prod.mk.injEq, List.cons.injEq] at k2
    obtain ⟨y, k4, k5, rfl, k6⟩ := k2
    simp only [AStep, Option.some.injEq, AW.usePkg] at ho
    rw [if_neg (fun h => hq h.symm)] at ho
    by_cases hc : ∃ s < a0.nsym, a0.ext p (a0.name s) = some s ∧ ∃ s' ∈ a0.int q (a0.name s), s' ≠ s
    · rw [if_pos hc] at ho
      simp only [Prod.mk.injEq] at ho
      exact absurd ho.2 (by simp)
    rw [if_neg hc] at ho
    simp only [Prod.mk.injEq] at ho
    have e1 : a1.use q = p :: a0.use q := by rw [← ho.1]; simp [hnu]
    have e2 : q ∈ a1.usedBy p := by
      rw [← ho.1]
      simp only [Function.update_self]
      split_ifs with hm
      · exact hm
      · exact List.mem_cons_self
    have e3 : a1.name = a0.name := by rw [← ho.1]
    have e4 : a1.ext = a0.ext := by rw [← ho.1]
    cases hex : AStep c a1 (.export s p) with
    | none => rw [hex] at k4; cases k4
    | some z =>
      obtain ⟨a2, r2⟩ := z
      rw [hex] at k4
      simp only [Option.map_eq_some_iff] at k4
      obtain ⟨v, k7, k8⟩ := k4
      have hy : y.2 = r2 :: v.2 := by rw [← k8]
      rw [k6] at hy
      simp only [List.cons.injEq] at hy
      obtain ⟨rfl, hy⟩ := hy
      have hd : a2.denotes q n = some s := by
        rcases AW.export_cases hex with ⟨_, h5⟩ | ⟨rfl, _, h5⟩ | ⟨rfl, _, h5, h6, h7⟩
        · cases h5
        · rw [e3, e4, hname] at h5
          exact absurd h5 hne
        · unfold AW.denotes
          show (a1.int q n).or ((a1.use q).findSome? fun u => put a1.ext p (a1.name s) (some s) u n) = some s
          rw [e1, List.findSome?_cons, e3, hname]
          have hp : put a1.ext p n (some s) p n = some s := by simp [put]
          rw [hp]
          cases hi : a1.int q n with
          | none => rfl
          | some s' =>
            rw [Option.some_or]
            rw [e3, hname] at h7
            rw [h7 q e2 s' hi]
      rw [AStep_intern_found c a2 q n s hd] at k7
      simp only [Option.map_some, Option.some.injEq] at k7
      have hv : v.2 = [.sym s] := by rw [← k7]
      rw [hv] at hy
      simp only [List.cons.injEq] at hy
      rw [hy.1]

example : (ARun cfg0 .init ([.mkPkg [], .mkPkg [], .mkPkg [], .intern 1 [65], .intern 2 [66]] ++
    [.use 2 1, .export 0 1, .intern 2 [65]])).map (·.2) =
      some ([.done, .done, .done, .sym 0, .sym 1] ++ [.done, .done, .sym 0]) := by decide

/-- Uninterning a symbol removes it from the package and changes no other name of any package,
neither among the present symbols nor among the exported ones, in spite of the marks it leaves in
the tables. -/
theorem C27_unintern_only_that_name (c : Cfg) (os : List Op) (s : SymId) (p : Nat) (a : AW) (rs : List Ans)
    (w0 : World) (r0 : List Ans) (h0 : run c .init os = some (w0, r0))
    (h : ARun c .init (os ++ [.unintern s p]) = some (a, rs)) :
    ∃ w, run c .init (os ++ [.unintern s p]) = some (w, rs) ∧
      findSymbol w p (w0.pname s) = some none ∧ findExternal w p (w0.pname s) = some none ∧
      (∀ q n, ¬ (q = p ∧ n = w0.pname s) → findSymbol w q n = findSymbol w0 q n ∧
        findExternal w q n = findExternal w0 q n) := by
  obtain ⟨a0, t1, t2, k1, k2, k3⟩ := ARun_append_some c os _ _ _ _ h
  obtain ⟨w0', g1, g2⟩ := run_spec c _ init_spec k1
  rw [h0] at g1
  cases g1
  obtain ⟨w, g3, g4⟩ := run_spec c _ init_spec h
  refine ⟨w, g3, ?_⟩
  rw [ARun] at k2
  cases ho : AStep c a0 (.unintern s p) with
  | none => rw [ho] at k2; cases k2
  | some x =>
    rw [ho] at k2
    simp only [ARun, Option.map_some, Option.some.injEq, Prod.mk.injEq] at k2
    simp only [AStep, AW.unintern] at ho
    split_ifs at ho with hc
    cases ho
    have ha := k2.1
    rw [findSymbol_spec g4, findExternal_spec g4, g2.pname, ← ha]
    refine ⟨by simp [put], by simp [put], ?_⟩
    intro q n hne
    rw [findSymbol_spec g4, findSymbol_spec g2, findExternal_spec g4, findExternal_spec g2, ← ha]
    simp only [put]
    rw [if_neg hne, if_neg hne]
    exact ⟨rfl, rfl⟩

example : (ARun cfg0 .init (hist0 ++ [.unintern 1 1])).isSome = true := by decide

/-- Exporting a symbol without complaint makes it the exported symbol of its name and changes no
other name of any package. -/
theorem C27_export_only_that_name (c : Cfg) (os : List Op) (s : SymId) (p : Nat) (a : AW) (rs : List Ans)
    (w0 : World) (r0 : List Ans) (h0 : run c .init os = some (w0, r0))
    (h : ARun c .init (os ++ [.export s p]) = some (a, rs ++ [.done])) :
    ∃ w, run c .init (os ++ [.export s p]) = some (w, rs ++ [.done]) ∧
      findExternal w p (w0.pname s) = some (some s) ∧
      (∀ q n, findSymbol w q n = findSymbol w0 q n) ∧
      (∀ q n, ¬ (q = p ∧ n = w0.pname s) → findExternal w q n = findExternal w0 q n) := by
  obtain ⟨a0, t1, t2, k1, k2, k3⟩ := ARun_append_some c os _ _ _ _ h
  obtain ⟨w0', g1, g2⟩ := run_spec c _ init_spec k1
  rw [h0] at g1
  cases g1
  obtain ⟨w, g3, g4⟩ := run_spec c _ init_spec h
  refine ⟨w, g3, ?_⟩
  obtain ⟨e1, e2⟩ := List.append_inj' k3 (by rw [ARun_length c _ _ _ _ k2]; rfl)
  rw [← e2, ARun] at k2
  cases ho : AStep c a0 (.export s p) with
  | none => rw [ho] at k2; cases k2
  | some x =>
    obtain ⟨a1, r1⟩ := x
    rw [ho] at k2
    simp only [ARun, Option.map_some, Option.some.injEq, Prod.mk.injEq, List.cons.injEq] at k2
    obtain ⟨rfl, rfl, _⟩ := k2
    rcases AW.export_cases ho with ⟨_, h5⟩ | ⟨rfl, _, h5⟩ | ⟨rfl, _, h5, h6, h7⟩
    · cases h5
    · refine ⟨by rw [findExternal_spec g4, g2.pname, h5], fun q n => ?_, fun q n _ => ?_⟩
      · rw [findSymbol_spec g4, findSymbol_spec g2]
      · rw [findExternal_spec g4, findExternal_spec g2]
    · refine ⟨?_, fun q n => ?_, fun q n hne => ?_⟩
      · rw [findExternal_spec g4, g2.pname]; simp [put]
      · rw [findSymbol_spec g4, findSymbol_spec g2]
      · rw [findExternal_spec g4, findExternal_spec g2]
        rw [g2.pname] at hne
        simp only [put]
        rw [if_neg hne]

example : (ARun cfg0 .init (hist0.take 5 ++ [.export 1 1])).map (·.2) =
    some ([.done, .done, .done, .sym 0, .sym 1] ++ [.done]) := by decide

/-! ### where the properties fail -/

/-- `unexport` stores the mark of a never used word: symbols that were placed after the removed one
are no longer found.  Here "}" is exported and seen by package 2, and after "A" is unexported
package 2 makes a new symbol for it. -/
theorem C27_unexport_wrong :
    ((run cfg0 .init [.mkPkg [], .mkPkg [], .mkPkg [1], .intern 1 [65], .intern 1 [125], .export 0 1, .export 1 1,
        .intern 2 [125]]).bind fun x => (unexport x.1 0 1).bind fun y => (intern cfg0 y.1 2 [125]).map fun z =>
          (x.2.getLast?, z.2)) = some (some (.sym 1), .sym 2) := by decide

/-- Uninterning a symbol of another package removes the package's own symbol of that name: symbol 1
was interned as "A" in package 1 and never uninterned, but "A" gets a new symbol there. -/
theorem C26_unintern_other_symbol_wrong :
    answers cfg0 [.mkPkg [], .mkPkg [], .intern 0 [65], .intern 1 [65], .unintern 0 1, .intern 1 [65]] =
      some [.done, .done, .sym 0, .sym 1, .done, .sym 2] := by decide

/-- Importing a symbol that is already present enters it a second time, and unintern then removes
only one of the two. -/
theorem C27_import_then_unintern_wrong :
    (run cfg0 .init [.mkPkg [], .mkPkg [], .intern 1 [65], .import 0 1, .unintern 0 1]).map
      (fun x => (x.2, findSymbol x.1 1 [65])) =
      some ([.done, .done, .sym 0, .done, .done], some (some 0)) := by decide

/-- Exporting an exported symbol again, after another symbol was uninterned, enters it a second time;
after unintern it is still exported. -/
theorem C27_export_again_wrong :
    (run cfg0 .init [.mkPkg [], .mkPkg [], .intern 1 [65], .intern 1 [125], .export 0 1, .export 1 1, .unintern 0 1,
      .export 1 1, .unintern 1 1]).map (fun x => findExternal x.1 1 [125]) = some (some (some 1)) := by decide

/-- Two used packages may export different symbols of one name, and the one used last hides the
other without an error: "A" in package 3 is symbol 1, and after use-package it is symbol 0. -/
theorem C26_use_package_wrong :
    answers cfg0 [.mkPkg [], .mkPkg [], .mkPkg [], .mkPkg [2], .intern 1 [65], .intern 2 [65], .export 0 1, .export 1 2,
      .intern 3 [65], .use 3 1, .intern 3 [65]] =
      some [.done, .done, .done, .done, .sym 0, .sym 1, .done, .done, .sym 1, .done, .sym 0] := by decide

/-- the names of the witness below -/
def nm (b : Nat) : Name := [UInt8.ofNat b]

theorem rehash_nm (b : Nat) (h : b < 60) : rehash (nm b) % 60 = (5 + b) % 60 := by
  have : (UInt8.ofNat b).toNat = b := by
    rw [UInt8.toNat_ofNat']
    exact Nat.mod_eq_of_lt (by omega)
  simp only [rehash, nm, List.foldl_cons, List.foldl_nil, List.length_cons, List.length_nil, this]
  omega

theorem shadows (k : Nat) (hk : k ≤ 60) : ∀ w : World, w.nsym = 0 → (w.pkg 1).int = .new →
    ∃ w' rs, run cfg0 w ((List.range k).map (fun b => .shadow (nm b) 1)) = some (w', rs) ∧
      w'.nsym = k ∧ (∀ b < k, w'.pname b = nm b) ∧ (w'.pkg 1).int.size = 60 ∧ (w'.pkg 1).int.count = k ∧
      ∀ i < 60, (w'.pkg 1).int.slot i = if (i + 55) % 60 < k then .sym ((i + 55) % 60) else .empty := by
  induction k with
  | zero =>
    intro w h1 h2
    refine ⟨w, [], rfl, h1, by omega, by rw [h2]; rfl, by rw [h2]; rfl, ?_⟩
    intro i _
    rw [h2, if_neg (by omega)]
    rfl
  | succ k ih =>
    intro w h1 h2
    obtain ⟨w', rs, g1, g2, g3, g4, g5, g6⟩ := ih (by omega) w h1 h2
    have hrun : ∀ (xs ys : List Op) (w : World), run cfg0 w (xs ++ ys) =
        (run cfg0 w xs).bind fun x => (run cfg0 x.1 ys).map fun y => (y.1, x.2 ++ y.2) := by
      intro xs ys
      induction xs with
      | nil =>
        intro w
        simp only [List.nil_append, run, Option.bind_some]
        cases run cfg0 w ys <;> rfl
      | cons o os ih =>
        intro w
        rw [List.cons_append, run, run]
        cases step cfg0 w o with
        | none => rfl
        | some x =>
          simp only [ih]
          cases run cfg0 x.1 os with
          | none => rfl
          | some y =>
            simp only [Option.bind_some, Option.map_some]
            cases run cfg0 y.1 ys <;> rfl
    have hhome : (w'.pkg 1).int.slot ((5 + k) % 60) = .empty := by
      rw [g6 _ (by omega), if_neg (by omega)]
    have hfind : findsymbol w'.pname (w'.pkg 1).int (nm k) = some (.absent ((5 + k) % 60)) := by
      unfold findsymbol
      rw [g4, rehash_nm k (by omega), findLoop, hhome]
      rfl
    have hstep : step cfg0 w' (.shadow (nm k) 1) = some (((w'.makesymbol (nm k)).upd 1 fun q =>
        { q with int := { (w'.pkg 1).int.set ((5 + k) % 60) k with count := k + 1 } }), .done) := by
      rw [step, shadow, hfind]
      simp only
      rw [enter]
      simp only
      rw [if_neg (c := ((w'.makesymbol (nm k)).pkg 1).int.count ≥ _) (by
        show ¬ (w'.pkg 1).int.count ≥ (w'.pkg 1).int.size
        omega)]
      have hn : (w'.makesymbol (nm k)).pname w'.nsym = nm k := by simp [World.makesymbol]
      rw [hn]
      have hs : skipLoop ((w'.makesymbol (nm k)).pkg 1).int.slot ((w'.makesymbol (nm k)).pkg 1).int.size
          ((w'.makesymbol (nm k)).pkg 1).int.size (rehash (nm k) % ((w'.makesymbol (nm k)).pkg 1).int.size) =
          some ((5 + k) % 60) := by
        show skipLoop (w'.pkg 1).int.slot (w'.pkg 1).int.size (w'.pkg 1).int.size (rehash (nm k) % (w'.pkg 1).int.size) = _
        rw [g4, rehash_nm k (by omega), skipLoop, hhome]
      rw [hs]
      simp only
      have hc : putCount ((w'.makesymbol (nm k)).pkg 1).int ((5 + k) % 60) = k + 1 := by
        show putCount (w'.pkg 1).int ((5 + k) % 60) = k + 1
        rw [putCount, hhome]
        simp only [g5]
      rw [hc, g2]
      rfl
    refine ⟨(w'.makesymbol (nm k)).upd 1 fun q =>
        { q with int := { (w'.pkg 1).int.set ((5 + k) % 60) k with count := k + 1 } }, rs ++ [.done],
      ?_, ?_, ?_, ?_, ?_, ?_⟩
    · rw [List.range_succ, List.map_append, hrun, g1]
      simp only [Option.bind_some, List.map_cons, List.map_nil, run, hstep, Option.map_some]
    · show w'.nsym + 1 = k + 1
      rw [g2]
    · intro b hb
      show Function.update w'.pname w'.nsym (nm k) b = nm b
      rw [g2]
      by_cases hbk : b = k
      · rw [hbk, Function.update_self]
      · rw [Function.update_of_ne hbk]; exact g3 b (by omega)
    · rw [upd_pkg_same]; exact g4
    · rw [upd_pkg_same]
    · intro i hi
      rw [upd_pkg_same]
      show Function.update (w'.pkg 1).int.slot ((5 + k) % 60) (.sym k) i = _
      by_cases hik : i = (5 + k) % 60
      · have e : (i + 55) % 60 = k := by omega
        rw [← hik, Function.update_self, e, if_pos (by omega)]
      · have e : (i + 55) % 60 ≠ k := by omega
        rw [Function.update_of_ne hik, g6 i hi]
        by_cases hlt : (i + 55) % 60 < k
        · rw [if_pos hlt, if_pos (by omega)]
        · rw [if_neg hlt, if_neg (by omega)]

/-- `shadow` and `import` never make the table larger: after 60 of them it is full, and the search
for any other name, here "A", runs for ever. -/
theorem C26_shadow_fills_table_wrong :
    ∃ w rs, run cfg0 .init ([.mkPkg [], .mkPkg []] ++ (List.range 60).map (fun b => .shadow [UInt8.ofNat b] 1)) =
      some (w, rs) ∧ intern cfg0 w 1 [65] = none := by
  obtain ⟨w, rs, h1, h2, h3, h4, h5, h6⟩ := shadows 60 (Nat.le_refl _)
    (makePkg (makePkg .init []) []) rfl rfl
  refine ⟨w, .done :: .done :: rs, ?_, ?_⟩
  · simp only [List.cons_append, List.nil_append, run, step]
    have h1' : run cfg0 (makePkg (makePkg .init []) []) ((List.range 60).map (fun b => .shadow [UInt8.ofNat b] 1)) =
      some (w, rs) := h1
    rw [h1']
    rfl
  · have hfull : ∀ i < 60, ∃ b : Nat, b < 60 ∧ (w.pkg 1).int.slot i = .sym b := by
      intro i hi
      refine ⟨(i + 55) % 60, by omega, ?_⟩
      rw [h6 i hi, if_pos (by omega)]
    have hnm : ∀ b : Nat, b < 60 → w.pname b ≠ [65] := by
      intro b hb
      rw [h3 b hb]
      intro he
      simp only [nm, List.cons.injEq, and_true] at he
      have := congrArg UInt8.toNat he
      rw [UInt8.toNat_ofNat', Nat.mod_eq_of_lt (by omega)] at this
      have e : (65 : UInt8).toNat = 65 := rfl
      omega
    have hloop : ∀ f i ep, i < 60 → findLoop w.pname (w.pkg 1).int.slot 60 [65] f i ep = none := by
      intro f
      induction f with
      | zero => intro i ep _; rfl
      | succ f ih =>
        intro i ep hi
        obtain ⟨b, hb, hs⟩ := hfull i hi
        rw [findLoop, hs]
        simp only
        rw [if_neg (hnm b hb)]
        apply ih
        unfold next
        split_ifs <;> omega
    rw [intern, findsymbol, h4, hloop _ _ _ (Nat.mod_lt _ (by omega))]

end Eus.Pkg
