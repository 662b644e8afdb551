import Verif.Psr.Spec
set_option autoImplicit false
namespace Eus.Psr

theorem mapcan_some {α β : Type} (f : α → Option (List β)) : ∀ (l : List α) (r : List β), mapcan f l = some r →
    (∀ a ∈ l, ∃ x, f a = some x ∧ x ⊆ r) ∧ (∀ y ∈ r, ∃ a ∈ l, ∃ x, f a = some x ∧ y ∈ x) := by
  intro l
  induction l with
  | nil =>
    intro r h
    simp only [mapcan, Option.some.injEq] at h
    subst h
    simp
  | cons a l ih =>
    intro r h
    unfold mapcan at h
    cases hx : f a with
    | none => rw [hx] at h; exact absurd h (by simp)
    | some x =>
      rw [hx] at h
      cases hy : mapcan f l with
      | none => rw [hy] at h; exact absurd h (by simp)
      | some y =>
        rw [hy] at h
        simp only [Option.some.injEq] at h
        subst h
        obtain ⟨h1, h2⟩ := ih y hy
        constructor
        · intro b hb
          rcases List.mem_cons.1 hb with e | e
          · subst e; exact ⟨x, hx, fun z hz => List.mem_append.2 (.inl hz)⟩
          · obtain ⟨z, hz, hs⟩ := h1 b e
            exact ⟨z, hz, fun q hq => List.mem_append.2 (.inr (hs hq))⟩
        · intro z hz
          rcases List.mem_append.1 hz with e | e
          · exact ⟨a, by simp, x, hx, e⟩
          · obtain ⟨b, hb, q, hq, hm⟩ := h2 z e
            exact ⟨b, by simp [hb], q, hq, hm⟩

theorem mapcan_ends {α β : Type} (f : α → Option (List β)) : ∀ (l : List α), (∀ a ∈ l, ∃ x, f a = some x) → ∃ r, mapcan f l = some r := by
  intro l
  induction l with
  | nil => intro _; exact ⟨[], rfl⟩
  | cons a l ih =>
    intro h
    obtain ⟨x, hx⟩ := h a (by simp)
    obtain ⟨y, hy⟩ := ih fun b hb => h b (by simp [hb])
    exact ⟨x ++ y, by simp [mapcan, hx, hy]⟩

theorem all_snoc {G : List Rule} {ts : List Tree} {cs u : List Nat} (h : DerivesAll G ts cs u) :
    ∀ (t : Tree) (c : Nat) (v : List Nat), Derives G t v → t.cat = some c → DerivesAll G (ts ++ [t]) (cs ++ [c]) (u ++ v) := by
  induction ts generalizing cs u with
  | nil =>
    intro t c v ht hc
    cases h
    have := DerivesAll.cons (G := G) t c v [] [] [] ht hc .nil
    simpa using this
  | cons a ts ih =>
    intro t c v ht hc
    cases h with
    | cons _ c' u' _ cs' v' h1 h2 h3 =>
      have := DerivesAll.cons (G := G) a c' u' _ _ _ h1 h2 (ih h3 t c v ht hc)
      simpa using this

/-- what `rhs` is when `needed` is still to be found -/
def Begun (G : List Rule) (lhs : Nat) (rhs : List Tree) (u needed : List Nat) : Prop :=
  (needed = [] ∧ Derives G (.node lhs rhs) u) ∨
  (∃ r ∈ G, r.lhs = lhs ∧ ∃ xs, Alt.seq (xs ++ needed) ∈ r.alts ∧ DerivesAll G rhs xs u)

theorem begun_done {G : List Rule} {lhs : Nat} {rhs : List Tree} {u : List Nat} (h : Begun G lhs rhs u []) : Derives G (.node lhs rhs) u := by
  rcases h with h | ⟨r, hr, rfl, xs, hx, hd⟩
  · exact h.2
  · rw [List.append_nil] at hx
    exact .phrase r xs rhs u hr hx hd

theorem sound (G : List Rule) : ∀ (f : Nat),
    (∀ ws r, parse G f ws = some r → ∀ p ∈ r, ∃ u, ws = u ++ p.2 ∧ u ≠ [] ∧ Derives G p.1 u) ∧
    (∀ lhs rhs rem needed r u, Begun G lhs rhs u needed → extend G f lhs rhs rem needed = some r →
      ∀ p ∈ r, ∃ v, rem = v ++ p.2 ∧ Derives G p.1 (u ++ v)) := by
  intro f
  induction f with
  | zero =>
    constructor
    · intro ws r h
      rw [parse] at h
      exact absurd h (by simp)
    · intro lhs rhs rem needed r u _ h
      rw [extend] at h
      exact absurd h (by simp)
  | succ f ih =>
    obtain ⟨ih1, ih2⟩ := ih
    constructor
    · intro ws r h p hp
      cases ws with
      | nil =>
        simp only [parse, Option.some.injEq] at h
        subst h
        exact absurd hp (by simp)
      | cons w ws =>
        rw [parse] at h
        obtain ⟨a, ha, x, hx, hm⟩ := (mapcan_some _ _ _ h).2 p hp
        simp only [lexicalRules, List.mem_filter, decide_eq_true_eq] at ha
        have hb : Begun G a.lhs [.word w] [w] [] := .inl ⟨rfl, .lex a w ha.1 (List.mem_of_head? ha.2)⟩
        obtain ⟨v, h1, h2⟩ := ih2 _ _ _ _ _ _ hb hx p hm
        exact ⟨w :: v, by rw [h1]; rfl, by simp, h2⟩
    · intro lhs rhs rem needed r u hb h p hp
      cases needed with
      | nil =>
        have hd := begun_done hb
        rw [extend] at h
        cases hc : mapcan (fun r => extend G f r.lhs [.node lhs rhs] rem (restCats r)) (startingWith G lhs) with
        | none => rw [hc] at h; exact absurd h (by simp)
        | some l =>
          rw [hc] at h
          simp only [Option.some.injEq] at h
          subst h
          rcases List.mem_cons.1 hp with e | e
          · subst e; exact ⟨[], by simp, by simpa using hd⟩
          · obtain ⟨a, ha, x, hx, hm⟩ := (mapcan_some _ _ _ hc).2 p e
            simp only [startingWith, List.mem_filter, decide_eq_true_eq] at ha
            obtain ⟨ha1, ha2⟩ := ha
            have hb' : Begun G a.lhs [.node lhs rhs] u (restCats a) := by
              refine .inr ⟨a, ha1, rfl, [lhs], ?_, ?_⟩
              · unfold firstCat at ha2
                unfold restCats
                split at ha2
                · rename_i c l hh
                  simp only [Option.some.injEq] at ha2
                  subst ha2
                  exact List.mem_of_head? hh
                · exact absurd ha2 (by simp)
              · have := DerivesAll.cons (G := G) (.node lhs rhs) lhs u [] [] [] hd rfl .nil
                simpa using this
            exact ih2 _ _ _ _ _ _ hb' hx p hm
      | cons c cs =>
        rw [extend] at h
        cases hc : parse G f rem with
        | none => rw [hc] at h; exact absurd h (by simp)
        | some ps =>
          rw [hc] at h
          simp only at h
          obtain ⟨q, hq, x, hx, hm⟩ := (mapcan_some _ _ _ h).2 p hp
          obtain ⟨u', h1, _, h2⟩ := ih1 _ _ hc q hq
          split at hx
          · rename_i hcat
            have hb' : Begun G lhs (rhs ++ [q.1]) (u ++ u') cs := by
              rcases hb with e | ⟨a, ha, e, xs, hxs, hd⟩
              · exact absurd e.1 (by simp)
              · exact .inr ⟨a, ha, e, xs ++ [c], by simpa using hxs, all_snoc hd _ _ _ h2 hcat⟩
            obtain ⟨v, h3, h4⟩ := ih2 _ _ _ _ _ _ hb' hx p hm
            exact ⟨u' ++ v, by rw [h1, h3, List.append_assoc], by rw [← List.append_assoc]; exact h4⟩
          · simp only [Option.some.injEq] at hx
            subst hx
            exact absurd hm (by simp)

/-- C223.  Whatever the parser returns is a tree of the grammar with exactly the given words, for all grammars and all words. -/
theorem C223_sound (G : List Rule) (f : Nat) (ws : List Nat) (r : List Tree) (h : parser G f ws = some r) (t : Tree) (ht : t ∈ r) :
    Derives G t ws := by
  unfold parser at h
  cases hp : parse G f ws with
  | none => rw [hp] at h; exact absurd h (by simp)
  | some ps =>
    rw [hp] at h
    simp only [Option.some.injEq] at h
    subst h
    simp only [List.mem_map, List.mem_filter, decide_eq_true_eq] at ht
    obtain ⟨p, ⟨h1, h2⟩, rfl⟩ := ht
    obtain ⟨u, h3, _, h4⟩ := ((sound G f).1 _ _ hp) p h1
    rw [h2, List.append_nil] at h3
    rw [h3]
    exact h4

/-- one alternative in each rule, and none of them empty -/
def Single (G : List Rule) : Prop := ∀ r ∈ G, ∃ a, r.alts = [a] ∧ a ≠ .seq []

theorem single_head {G : List Rule} (hG : Single G) {r : Rule} (hr : r ∈ G) {a : Alt} (ha : a ∈ r.alts) : r.alts.head? = some a ∧ a ≠ .seq [] := by
  obtain ⟨b, hb, hne⟩ := hG r hr
  rw [hb, List.mem_singleton] at ha
  subst ha
  exact ⟨by rw [hb]; rfl, hne⟩

theorem complete (G : List Rule) (hG : Single G) (t : Tree) (u : List Nat) (hd : Derives G t u) :
    ∀ (f : Nat) (rem : List Nat) (r : List Parse), parse G f (u ++ rem) = some r →
      ∃ (c : Nat) (ts : List Tree), t = .node c ts ∧ ∃ f' r', extend G f' c ts rem [] = some r' ∧ r' ⊆ r := by
  refine Derives.rec (G := G)
    (motive_1 := fun t u _ => ∀ (f : Nat) (rem : List Nat) (r : List Parse), parse G f (u ++ rem) = some r →
      ∃ (c : Nat) (ts : List Tree), t = .node c ts ∧ ∃ f' r', extend G f' c ts rem [] = some r' ∧ r' ⊆ r)
    (motive_2 := fun ts cs v _ => (∀ (f : Nat) (c : Nat) (rhs : List Tree) (rem : List Nat) (r : List Parse),
        extend G f c rhs (v ++ rem) cs = some r → ∃ f' r', extend G f' c (rhs ++ ts) rem [] = some r' ∧ r' ⊆ r) ∧
      (∀ c cs' t ts', cs = c :: cs' → ts = t :: ts' → ∃ u v', v = u ++ v' ∧ t.cat = some c ∧
        (∀ (f : Nat) (rem : List Nat) (r : List Parse), parse G f (u ++ rem) = some r →
          ∃ (c : Nat) (us : List Tree), t = .node c us ∧ ∃ f' r', extend G f' c us rem [] = some r' ∧ r' ⊆ r) ∧
        (∀ (f : Nat) (c : Nat) (rhs : List Tree) (rem : List Nat) (r : List Parse),
          extend G f c rhs (v' ++ rem) cs' = some r → ∃ f' r', extend G f' c (rhs ++ ts') rem [] = some r' ∧ r' ⊆ r)))
    ?_ ?_ ?_ ?_ hd
  · -- a word
    intro a w ha hw f rem r h
    cases f with
    | zero => rw [parse] at h; exact absurd h (by simp)
    | succ f =>
      rw [List.singleton_append, parse] at h
      obtain ⟨x, hx, hs⟩ := (mapcan_some _ _ _ h).1 a (by
        simp only [lexicalRules, List.mem_filter, decide_eq_true_eq]
        exact ⟨ha, (single_head hG ha hw).1⟩)
      exact ⟨a.lhs, [.word w], rfl, f, x, hx, hs⟩
  · -- a phrase
    intro a cats ts u ha hcats hall ih f rem r h
    obtain ⟨hh, hne⟩ := single_head hG ha hcats
    cases hall with
    | nil => exact absurd rfl hne
    | cons t1 c1 u1 ts1 cs1 v1 h1 h2 h3 =>
      obtain ⟨u', v', e, hcat, i1, i2⟩ := ih.2 c1 cs1 t1 ts1 rfl rfl
      rw [e, List.append_assoc] at h
      obtain ⟨c, us, e2, f1, r1, hx, hs⟩ := i1 f (v' ++ rem) r h
      subst e2
      simp only [Tree.cat, Option.some.injEq] at hcat
      subst hcat
      cases f1 with
      | zero => rw [extend] at hx; exact absurd hx (by simp)
      | succ f1 =>
        rw [extend] at hx
        cases hc : mapcan (fun r => extend G f1 r.lhs [.node c us] (v' ++ rem) (restCats r)) (startingWith G c) with
        | none => rw [hc] at hx; exact absurd hx (by simp)
        | some l =>
          rw [hc] at hx
          simp only [Option.some.injEq] at hx
          obtain ⟨y, hy, hys⟩ := (mapcan_some _ _ _ hc).1 a (by
            simp only [startingWith, List.mem_filter, decide_eq_true_eq, firstCat, hh]
            exact ⟨ha, trivial⟩)
          rw [show restCats a = cs1 by simp [restCats, hh]] at hy
          obtain ⟨f2, r2, h6, h7⟩ := i2 f1 a.lhs [.node c us] rem y hy
          refine ⟨a.lhs, .node c us :: ts1, rfl, f2, r2, h6, ?_⟩
          intro z hz
          apply hs
          rw [← hx]
          exact List.mem_cons_of_mem _ (hys (h7 hz))
  · -- no more trees
    constructor
    · intro f c rhs rem r h
      exact ⟨f, r, by simpa using h, fun _ hz => hz⟩
    · intro c cs' t ts' e
      exact absurd e (by simp)
  · -- a tree and more trees
    intro t c u ts cs v ht hcat hall ih1 ih2
    constructor
    · intro f d rhs rem r h
      cases f with
      | zero => rw [extend] at h; exact absurd h (by simp)
      | succ f =>
        rw [extend] at h
        cases hc : parse G f (u ++ v ++ rem) with
        | none => rw [hc] at h; exact absurd h (by simp)
        | some ps =>
          rw [hc] at h
          simp only at h
          rw [List.append_assoc] at hc
          obtain ⟨c', us, e2, f1, r1, hx, hs⟩ := ih1 f (v ++ rem) ps hc
          have hm : (t, v ++ rem) ∈ ps := by
            apply hs
            cases f1 with
            | zero => rw [extend] at hx; exact absurd hx (by simp)
            | succ f1 =>
              rw [extend] at hx
              split at hx
              · exact absurd hx (by simp)
              · simp only [Option.some.injEq] at hx
                rw [← hx, e2]
                simp
          obtain ⟨y, hy, hys⟩ := (mapcan_some _ _ _ h).1 (t, v ++ rem) hm
          simp only [hcat, if_true] at hy
          obtain ⟨f2, r2, h6, h7⟩ := ih2.1 f d (rhs ++ [t]) rem y hy
          exact ⟨f2, r2, by simpa using h6, fun z hz => hys (h7 hz)⟩
    · intro c' cs' t' ts' e1 e2
      simp only [List.cons.injEq] at e1 e2
      obtain ⟨rfl, rfl⟩ := e1
      obtain ⟨rfl, rfl⟩ := e2
      exact ⟨u, v, rfl, hcat, ih1, ih2.1⟩

/-- C223.  If the parser ends, it returns every tree of the grammar that has exactly the given words, whatever its category; for grammars with one
alternative, not empty, in every rule. -/
theorem C223_complete_partial (G : List Rule) (hG : Single G) (f : Nat) (ws : List Nat) (r : List Tree) (h : parser G f ws = some r) (t : Tree)
    (ht : Derives G t ws) : t ∈ r := by
  unfold parser at h
  cases hp : parse G f ws with
  | none => rw [hp] at h; exact absurd h (by simp)
  | some ps =>
    rw [hp] at h
    simp only [Option.some.injEq] at h
    subst h
    obtain ⟨c, ts, e, f', r', hx, hs⟩ := complete G hG t ws ht f [] ps (by rw [List.append_nil]; exact hp)
    simp only [List.mem_map, List.mem_filter, decide_eq_true_eq]
    refine ⟨(t, []), ⟨hs ?_, rfl⟩, rfl⟩
    cases f' with
    | zero => rw [extend] at hx; exact absurd hx (by simp)
    | succ f' =>
      rw [extend] at hx
      split at hx
      · exact absurd hx (by simp)
      · simp only [Option.some.injEq] at hx
        rw [← hx, e]
        simp

theorem ends (G : List Rule) (hU : ∀ r ∈ G, ∀ c, r.alts.head? ≠ some (.seq [c])) : ∀ (n : Nat),
    (∀ f ws, ws.length ≤ n → 3 * n + 1 ≤ f → ∃ r, parse G f ws = some r) ∧
    (∀ f lhs rhs rem x xs, rem.length ≤ n → 3 * n + 2 ≤ f → ∃ r, extend G f lhs rhs rem (x :: xs) = some r) ∧
    (∀ f lhs rhs rem, rem.length ≤ n → 3 * n + 3 ≤ f → ∃ r, extend G f lhs rhs rem [] = some r) := by
  have down : ∀ n, (∀ f lhs rhs rem x xs, rem.length ≤ n → 3 * n + 2 ≤ f → ∃ r, extend G f lhs rhs rem (x :: xs) = some r) →
      ∀ f lhs rhs rem, rem.length ≤ n → 3 * n + 3 ≤ f → ∃ r, extend G f lhs rhs rem [] = some r := by
    intro n h f lhs rhs rem hl hf
    obtain ⟨f, rfl⟩ : ∃ k, f = k + 1 := ⟨f - 1, by omega⟩
    have : ∃ l, mapcan (fun r => extend G f r.lhs [.node lhs rhs] rem (restCats r)) (startingWith G lhs) = some l := by
      apply mapcan_ends
      intro a ha
      simp only [startingWith, List.mem_filter, decide_eq_true_eq] at ha
      obtain ⟨ha1, ha2⟩ := ha
      unfold firstCat at ha2
      split at ha2
      · rename_i c l hh
        cases l with
        | nil => exact absurd hh (hU a ha1 c)
        | cons x xs =>
          rw [show restCats a = x :: xs by simp [restCats, hh]]
          exact h f _ _ rem x xs hl (by omega)
      · exact absurd ha2 (by simp)
    obtain ⟨l, hl'⟩ := this
    exact ⟨_, by rw [extend, hl']⟩
  have mid : ∀ n, (∀ f ws, ws.length ≤ n → 3 * n + 1 ≤ f → ∃ r, parse G f ws = some r) →
      (∀ f lhs rhs rem xs, rem.length < n → 3 * n + 1 ≤ f → ∃ r, extend G f lhs rhs rem xs = some r) →
      ∀ f lhs rhs rem x xs, rem.length ≤ n → 3 * n + 2 ≤ f → ∃ r, extend G f lhs rhs rem (x :: xs) = some r := by
    intro n h1 h2 f lhs rhs rem x xs hl hf
    obtain ⟨f, rfl⟩ : ∃ k, f = k + 1 := ⟨f - 1, by omega⟩
    obtain ⟨ps, hps⟩ := h1 f rem hl (by omega)
    rw [extend, hps]
    apply mapcan_ends
    intro p hp
    obtain ⟨u, h3, h4, _⟩ := (sound G f).1 _ _ hps p hp
    split
    · apply h2 _ _ _ _ _ _ (by omega)
      have : 0 < u.length := List.length_pos_iff.2 h4
      have := congrArg List.length h3
      rw [List.length_append] at this
      omega
    · exact ⟨[], rfl⟩
  intro n
  induction n with
  | zero =>
    have p0 : ∀ f ws, ws.length ≤ 0 → 3 * 0 + 1 ≤ f → ∃ r, parse G f ws = some r := by
      intro f ws hl hf
      obtain ⟨f, rfl⟩ : ∃ k, f = k + 1 := ⟨f - 1, by omega⟩
      have : ws = [] := List.length_eq_zero_iff.1 (by omega)
      subst this
      exact ⟨[], by rw [parse]⟩
    have m0 := mid 0 p0 (fun _ _ _ _ _ h => absurd h (by omega))
    exact ⟨p0, m0, down 0 m0⟩
  | succ n ih =>
    obtain ⟨_, i2, i3⟩ := ih
    have p1 : ∀ f ws, ws.length ≤ n + 1 → 3 * (n + 1) + 1 ≤ f → ∃ r, parse G f ws = some r := by
      intro f ws hl hf
      obtain ⟨f, rfl⟩ : ∃ k, f = k + 1 := ⟨f - 1, by omega⟩
      cases ws with
      | nil => exact ⟨[], by rw [parse]⟩
      | cons w ws =>
        rw [parse]
        apply mapcan_ends
        intro a _
        exact i3 f _ _ ws (by simpa using hl) (by omega)
    have m1 := mid (n + 1) p1 (by
      intro f lhs rhs rem xs hl hf
      cases xs with
      | nil => exact i3 f lhs rhs rem (by omega) (by omega)
      | cons x xs => exact i2 f lhs rhs rem x xs (by omega) (by omega))
    exact ⟨p1, m1, down (n + 1) m1⟩

/-- C223.  The parser ends, also for rules that begin with their own category, if no rule rewrites a category to a single category. -/
theorem C223_ends_partial (G : List Rule) (hU : ∀ r ∈ G, ∀ c, Alt.seq [c] ∉ r.alts) (ws : List Nat) :
    ∃ f r, parser G f ws = some r := by
  obtain ⟨ps, h⟩ := (ends G (fun r hr c h => hU r hr c (List.mem_of_head? h)) ws.length).1 (3 * ws.length + 1) ws (Nat.le_refl _) (Nat.le_refl _)
  exact ⟨3 * ws.length + 1, _, by rw [parser, h]⟩

/-- C223 fails.  With a rule that rewrites a category to itself the parser does not end as soon as a word of the category comes first. -/
theorem C223_unit_wrong (c w : Nat) (ws : List Nat) (G : List Rule) (h1 : ⟨c, [.word w]⟩ ∈ G) (h2 : ⟨c, [.seq [c]]⟩ ∈ G) (f : Nat) :
    parser G f (w :: ws) = none := by
  have key : ∀ f rhs rem, extend G f c rhs rem [] = none := by
    intro f
    induction f with
    | zero => intro rhs rem; rw [extend]
    | succ f ih =>
      intro rhs rem
      rw [extend]
      cases hc : mapcan (fun r => extend G f r.lhs [.node c rhs] rem (restCats r)) (startingWith G c) with
      | none => rfl
      | some l =>
        obtain ⟨x, hx, _⟩ := (mapcan_some _ _ _ hc).1 ⟨c, [.seq [c]]⟩ (by simp [startingWith, firstCat, h2])
        simp only [restCats, List.head?_cons] at hx
        rw [ih] at hx
        exact absurd hx (by simp)
  have : parse G f (w :: ws) = none := by
    cases f with
    | zero => rw [parse]
    | succ f =>
      rw [parse]
      cases hc : mapcan (fun r => extend G f r.lhs [.word w] ws []) (lexicalRules G w) with
      | none => rfl
      | some l =>
        obtain ⟨x, hx, _⟩ := (mapcan_some _ _ _ hc).1 ⟨c, [.word w]⟩ (by simp [lexicalRules, h1])
        simp only [key] at hx
        exact absurd hx (by simp)
  rw [parser, this]

/-- C223 fails.  Only the first alternative of a rule is used, as in `(Noun -> man ball)`: the word `ball` (2) has a tree, and the parser finds none. -/
theorem C223_alternatives_wrong : Derives [⟨0, [.word 1, .word 2]⟩] (.node 0 [.word 2]) [2] ∧
    ∀ f r, parser [⟨0, [.word 1, .word 2]⟩] f [2] = some r → r = [] := by
  refine ⟨.lex ⟨0, [.word 1, .word 2]⟩ 2 (by simp) (by simp), ?_⟩
  intro f r h
  cases f with
  | zero => rw [parser, parse] at h; exact absurd h (by simp)
  | succ f =>
    rw [parser, parse] at h
    simp [lexicalRules, mapcan] at h
    exact h

/-- C223 fails.  Rules with an empty right side are not used: `(A -> (B C)) (B -> b) (C -> ())`. -/
theorem C223_empty_wrong : let G : List Rule := [⟨0, [.seq [1, 2]]⟩, ⟨1, [.word 5]⟩, ⟨2, [.seq []]⟩]
    Derives G (.node 0 [.node 1 [.word 5], .node 2 []]) [5] ∧ ∃ f r, parser G f [5] = some r ∧ .node 0 [.node 1 [.word 5], .node 2 []] ∉ r := by
  refine ⟨?_, 10, [.node 1 [.word 5]], rfl, by simp⟩
  refine .phrase ⟨0, [.seq [1, 2]]⟩ [1, 2] _ _ (by simp) (by simp) ?_
  exact .cons _ 1 [5] _ _ [] (.lex ⟨1, [.word 5]⟩ 5 (by simp) (by simp)) rfl
    (.cons _ 2 [] _ _ [] (.phrase ⟨2, [.seq []]⟩ [] [] [] (by simp) (by simp) .nil) rfl .nil)

/-- sentence = 0, NP = 1, VP = 2, Art = 3, Noun = 4, Verb = 5 -/
def example3 : List Rule := [⟨0, [.seq [1, 2]]⟩, ⟨1, [.seq [3, 4]]⟩, ⟨2, [.seq [5, 1]]⟩, ⟨3, [.word 10]⟩, ⟨4, [.word 11]⟩, ⟨4, [.word 12]⟩, ⟨5, [.word 13]⟩]

example : Single example3 := by simp [Single, example3]
example : ∀ r ∈ example3, ∀ c, Alt.seq [c] ∉ r.alts := by simp [example3]
/-- the man hit the ball -/
example : parser example3 20 [10, 11, 13, 10, 12] =
    some [.node 0 [.node 1 [.node 3 [.word 10], .node 4 [.word 11]], .node 2 [.node 5 [.word 13], .node 1 [.node 3 [.word 10], .node 4 [.word 12]]]]] := by
  rfl

end Eus.Psr
