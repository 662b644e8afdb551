import Verif.Lex.Sim
set_option autoImplicit false
/-
`let*`, local functions, and the whole simulation.
-/
namespace Eus.Lex

variable {md : Mode} {P : Prog} {evS : SEnv → SEnv → Expr → SState → Res SVal SState} {evM : Expr → MState → Res MVal MState}

theorem Res.bind_assoc {α β γ S : Type} (r : Res α S) (f : α → S → Res β S) (g : β → S → Res γ S) : (r.bind f).bind g = r.bind fun a s => (f a s).bind g := by
  cases r <;> rfl

/-! ### let* -/

theorem leave_congr {m m0 : MState} (h1 : m0.stack.length = m.stack.length) (h2 : m0.bindfp = m.bindfp) (h3 : m0.fletfp = m.fletfp) (h4 : m0.sb = m.sb) (m' : MState) : leave m0 m' = leave m m' := by
  simp only [leave, h1, h2, h3, h4]

theorem leave_leave {m m1 : MState} (h1 : m.stack.length ≤ m1.stack.length) (h2 : m.sb.length ≤ m1.sb.length) (m' : MState) : leave m (leave m1 m') = leave m m' := by
  simp only [leave, List.take_take, Nat.min_eq_left h1, unbind_comp h2]

/-- What `let*` does from the environment env on, with the state m to go back to. -/
def letsRun (P : Prog) (ev : Expr → MState → Res MVal MState) (scope : Ptr) (body : List Expr) (m : MState) (bs : List (Sym × Expr)) (env : Ptr) (m0 : MState) : Res MVal MState :=
  (bindSeq P ev scope bs env m0).bind fun _ m1 => (prognFrom ev .nil body m1).bind fun v m' => .ok v (leave m m')

theorem letsRun_leave (scope : Ptr) (body : List Expr) {m m1 : MState} (h1 : m.stack.length ≤ m1.stack.length) (h2 : m.sb.length ≤ m1.sb.length) (bs : List (Sym × Expr)) (env : Ptr) (m0 : MState) :
    letsRun P evM scope body m bs env m0 = (letsRun P evM scope body m1 bs env m0).bind fun v m' => .ok v (leave m m') := by
  unfold letsRun
  rw [Res.bind_assoc]
  congr 1
  funext _ m2
  rw [Res.bind_assoc]
  congr 1
  funext v m'
  simp only [Res.bind, leave_leave h1 h2]

theorem Grow.length_le {xs : List Sym} {S S1 : SState} {M M1 : MState} (h : Grow md P xs S M S1 M1) : M.stack.length ≤ M1.stack.length := by
  obtain ⟨_, es, _, he⟩ := h.pre
  rw [he, List.length_append]; omega

theorem sim_lets (hs : Sim md P evS evM) {φ : SEnv} (body : List Expr) (scope : Ptr) (bs : List (Sym × Expr)) : ∀ (ρ : SEnv) (S : SState) (M : MState), Plain md P (names ρ) (names φ) (.lets bs body) →
    Inv md P S M → Ctx md P (wof S M) ρ φ M.bindfp M.fletfp → Clear (wof S M) ρ scope (bs.map Prod.fst) →
    RRel md P (VRel md P) S M (slets P evS φ body bs ρ S) (letsRun P evM scope body M bs M.bindfp M) := by
  induction bs with
  | nil =>
    intro ρ S M hp hi hc _
    cases hp with
    | letsNil hp =>
      have h := sim_progn hs body .nil .nil S M hp hi hc trivial
      have h2 := leave_rel (xs := []) (b := M.bindfp) (q := M.fletfp) (S1 := S) (M1 := M) hi (Entered.refl (ρ := ρ) hi hc.rel.1).grow h
      have e1 : ∀ r : Res SVal SState, RRel md P (VRel md P) S M r (prognFrom evM .nil body M) → (r.bind fun v s' => .ok v (sleave P [] S s')) = r := by
        intro r hr
        cases r with
        | ok v S' =>
          obtain ⟨_, _, _, ha, _⟩ := hr
          simp only [Res.bind, sleave, List.not_mem_nil, and_false, if_false, ← ha.live]
        | err => rfl
        | ub => rfl
        | escape => rfl
        | out => rfl
      rw [e1 _ h] at h2
      exact h2
  | cons b bs ih =>
    obtain ⟨x, e⟩ := b
    intro ρ S M hp hi hc hcl
    cases hp with
    | letsCons he hx hr =>
      have hstep : letsRun P evM scope body M ((x, e) :: bs) M.bindfp M = (evM e M).bind fun v m => (vbind P x v M.bindfp scope m).bind fun env m => letsRun P evM scope body M bs env m := by
        simp only [letsRun, bindSeq, Res.bind_assoc]
      rw [hstep]
      simp only [slets]
      refine (hs e ρ φ S M he hi hc).bind fun v S0 v' M0 ha hv => ?_
      have hc0 := ha.ctx hi hc
      have hcl0 : Clear (wof S0 M0) ρ scope (x :: bs.map Prod.fst) := by
        intro c hcm i hil hab
        refine hcl c hcm i ?_ hab
        have : S0.live[i]? = some c.2 := hil
        rwa [ha.live] at this
      obtain ⟨M1, hb, hen⟩ := vbind_ok (scope := scope) ha.inv hc0.rel.1 hv (fun c hcm i hil hab hxe => hcl0 c hcm i hil hab (by rw [hxe]; exact List.mem_cons_self))
      rw [← ha.bindfp, hb]
      simp only [Res.bind]
      obtain ⟨lim, hfr, hlim⟩ := hc0.rel.2
      have hc1 := hen.ctx ha.inv hfr (Or.inl hlim) (fun h => Or.inl (hc0.top h))
      have hlen0 : M0.stack.length = M.stack.length := by have := congrArg List.length ha.sk; simpa using this
      have hsb0 : M0.sb.length = M.sb.length := by rw [ha.sb]
      rw [letsRun_leave (m1 := M1) scope body (by have := hen.grow.length_le; omega) (by have := hen.grow.un.le; omega)]
      have hcg : (fun (v : MVal) (m' : MState) => (Res.ok v (leave M m') : Res MVal MState)) = fun v m' => .ok v (leave M0 m') := by
        funext v m'; rw [leave_congr hlen0 ha.bindfp ha.fletfp ha.sb]
      rw [hcg]
      refine leave_rel (b := M0.bindfp) (q := M0.fletfp) ha.inv hen.grow ?_
      refine ih _ _ M1 ?_ hen.grow.inv hc1 (hcl0.step ha.inv hc0.rel.1 hx hen)
      rw [hen.names]; exact hr

/-! ### Local functions -/

/-- The frames made for local functions. -/
def fnEntries (b scope : Ptr) : List (Sym × List Sym × List Expr) → Nat → Ptr → List Entry
  | [], _, _ => []
  | (f, ps, body) :: ds, k, q => .fn f ps body b scope q :: fnEntries b scope ds (k + 1) (some k)

def lastFn : List (Sym × List Sym × List Expr) → Nat → Ptr → Ptr
  | [], _, q => q
  | _ :: ds, k, _ => lastFn ds (k + 1) (some k)

theorem fnEntries_length (b scope : Ptr) (ds : List (Sym × List Sym × List Expr)) : ∀ k q, (fnEntries b scope ds k q).length = ds.length := by
  induction ds with
  | nil => intro k q; rfl
  | cons d ds ih => intro k q; simp [fnEntries, ih]

theorem fnEntries_get (b scope : Ptr) (ds : List (Sym × List Sym × List Expr)) : ∀ (j k : Nat) (q : Ptr) (E : Entry), (fnEntries b scope ds k q)[j]? = some E →
    ∃ f ps body lex, ds[j]? = some (f, ps, body) ∧ E = .fn f ps body b scope lex := by
  induction ds with
  | nil => intro j k q E h; simp [fnEntries] at h
  | cons d ds ih =>
    obtain ⟨f, ps, body⟩ := d
    intro j k q E h
    cases j with
    | zero => simp only [fnEntries, List.getElem?_cons_zero, Option.some.injEq] at h; exact ⟨f, ps, body, q, rfl, h.symm⟩
    | succ j => simp only [fnEntries, List.getElem?_cons_succ] at h; simpa using ih j _ _ E h

theorem pushFlet_eq (scope : Ptr) (ds : List (Sym × List Sym × List Expr)) : ∀ M : MState, pushFlet scope ds M =
    { M with stack := M.stack ++ fnEntries M.bindfp scope ds M.stack.length M.fletfp, fletfp := lastFn ds M.stack.length M.fletfp } := by
  induction ds with
  | nil => intro M; simp [pushFlet, fnEntries, lastFn]
  | cons d ds ih =>
    obtain ⟨f, ps, body⟩ := d
    intro M
    rw [pushFlet, ih]
    simp [pushFun, fnEntries, lastFn]

theorem pushLabels_append (ds ds' : List (Sym × List Sym × List Expr)) : ∀ M, pushLabels (ds ++ ds') M = pushLabels ds' (pushLabels ds M) := by
  induction ds with
  | nil => intro M; rfl
  | cons d ds ih => obtain ⟨f, ps, body⟩ := d; intro M; simp only [List.cons_append, pushLabels]; exact ih _

theorem pushFlet_append (scope : Ptr) (ds ds' : List (Sym × List Sym × List Expr)) : ∀ M, pushFlet scope (ds ++ ds') M = pushFlet scope ds' (pushFlet scope ds M) := by
  induction ds with
  | nil => intro M; rfl
  | cons d ds ih => obtain ⟨f, ps, body⟩ := d; intro M; simp only [List.cons_append, pushFlet]; exact ih _

/-- The two passes of `labels` make the same frames as one pass with the scope known in advance. -/
theorem relink_eq (scope : Ptr) (n : Nat) : ∀ (ds : List (Sym × List Sym × List Expr)) (M : MState), ds.length = n →
    (pushLabels ds M).bindfp = (pushFlet scope ds M).bindfp ∧ (pushLabels ds M).fletfp = (pushFlet scope ds M).fletfp ∧ (pushLabels ds M).sb = (pushFlet scope ds M).sb ∧
    (pushLabels ds M).glob = (pushFlet scope ds M).glob ∧ (pushLabels ds M).stack.length = (pushFlet scope ds M).stack.length ∧
    ∀ suf, relink scope n (pushLabels ds M).fletfp ((pushLabels ds M).stack ++ suf) = (pushFlet scope ds M).stack ++ suf := by
  induction n with
  | zero =>
    intro ds M h
    obtain rfl := List.length_eq_zero_iff.1 h
    exact ⟨rfl, rfl, rfl, rfl, rfl, fun suf => by simp [relink, pushLabels, pushFlet]⟩
  | succ n ih =>
    intro ds M h
    obtain ⟨ds', d, rfl⟩ : ∃ ds' d, ds = ds' ++ [d] := by
      cases hd : ds.getLast? with
      | none => rw [List.getLast?_eq_none_iff.1 hd] at h; cases h
      | some d =>
        have hne : ds ≠ [] := by rintro rfl; cases h
        exact ⟨ds.dropLast, ds.getLast hne, (List.dropLast_concat_getLast hne).symm⟩
    obtain ⟨f, ps, body⟩ := d
    have hlen : ds'.length = n := by simpa using h
    obtain ⟨h1, h2, h3, h4, h5, h6⟩ := ih ds' M hlen
    rw [pushLabels_append, pushFlet_append]
    simp only [pushLabels, pushFlet, pushFun]
    refine ⟨h1, by rw [h5], h3, h4, by simp [h5], fun suf => ?_⟩
    rw [relink]
    have hget : ((pushLabels ds' M).stack ++ [Entry.fn f ps body (pushLabels ds' M).bindfp (pushLabels ds' M).fletfp (pushLabels ds' M).fletfp] ++ suf)[(pushLabels ds' M).stack.length]?
        = some (Entry.fn f ps body (pushLabels ds' M).bindfp (pushLabels ds' M).fletfp (pushLabels ds' M).fletfp) := by
      simp
    simp only [hget]
    have hset : ((pushLabels ds' M).stack ++ [Entry.fn f ps body (pushLabels ds' M).bindfp (pushLabels ds' M).fletfp (pushLabels ds' M).fletfp] ++ suf).set (pushLabels ds' M).stack.length
        (Entry.fn f ps body (pushLabels ds' M).bindfp scope (pushLabels ds' M).fletfp)
        = (pushLabels ds' M).stack ++ ([Entry.fn f ps body (pushLabels ds' M).bindfp scope (pushLabels ds' M).fletfp] ++ suf) := by
      rw [List.append_assoc, List.set_append_right _ _ (Nat.le_refl _)]; simp
    rw [hset, h6, h1, h2]
    simp

theorem labels_eq (ds : List (Sym × List Sym × List Expr)) (M : MState) :
    { pushLabels ds M with stack := relink (pushLabels ds M).fletfp ds.length (pushLabels ds M).fletfp (pushLabels ds M).stack } = pushFlet (lastFn ds M.stack.length M.fletfp) ds M := by
  have hq : (pushLabels ds M).fletfp = lastFn ds M.stack.length M.fletfp := by
    have := (relink_eq none ds.length ds M rfl).2.1
    rw [this, pushFlet_eq]
  rw [hq]
  obtain ⟨h1, h2, h3, h4, _, h6⟩ := relink_eq (lastFn ds M.stack.length M.fletfp) ds.length ds M rfl
  have h7 := h6 []
  rw [List.append_nil, List.append_nil, hq] at h7
  rw [h7]
  cases hp : pushFlet (lastFn ds M.stack.length M.fletfp) ds M with
  | mk st b q sb g =>
    rw [hp] at h1 h2 h3 h4
    simp only [MState.mk.injEq] at h1 h2 h3 h4 ⊢
    exact ⟨trivial, h1, h2, h3, h4⟩

theorem sfuns_state (ρ : SEnv) (ds : List (Sym × List Sym × List Expr)) : ∀ (φ : SEnv) (S : SState), (sfuns ρ ds φ S).2.live = S.live ++ List.range' S.next ds.length ∧
    (sfuns ρ ds φ S).2.next = S.next + ds.length ∧ (sfuns ρ ds φ S).2.glob = S.glob ∧ ∀ l, l < S.next → (sfuns ρ ds φ S).2.cells l = S.cells l := by
  induction ds with
  | nil => intro φ S; simp [sfuns]
  | cons d ds ih =>
    obtain ⟨f, ps, body⟩ := d
    intro φ S
    obtain ⟨h1, h2, h3, h4⟩ := ih ((f, S.next) :: φ) (S.alloc (.var .nil))
    simp only [sfuns]
    refine ⟨?_, ?_, ?_, ?_⟩
    · rw [h1]; simp [SState.alloc, SState.put, List.range'_succ]
    · rw [h2]; simp only [SState.alloc, List.length_cons]; omega
    · rw [h3]; rfl
    · intro l hl
      rw [h4 l (by simp only [SState.alloc]; omega)]
      simp only [SState.alloc, SState.put]
      rw [if_neg (by omega)]

theorem sdefine_state (ρ φ : SEnv) (ds : List (Sym × List Sym × List Expr)) : ∀ (n : Nat) (S : SState), (sdefine ρ φ ds n S).live = S.live ∧ (sdefine ρ φ ds n S).next = S.next ∧
    (sdefine ρ φ ds n S).glob = S.glob ∧ (∀ l, l < n → (sdefine ρ φ ds n S).cells l = S.cells l) ∧
    ∀ j f ps body, ds[j]? = some (f, ps, body) → (sdefine ρ φ ds n S).cells (n + j) = .fn ps body ρ φ := by
  induction ds with
  | nil => intro n S; simp [sdefine]
  | cons d ds ih =>
    obtain ⟨f, ps, body⟩ := d
    intro n S
    obtain ⟨h1, h2, h3, h4, h5⟩ := ih (n + 1) (S.put n (.fn ps body ρ φ))
    simp only [sdefine]
    refine ⟨h1, h2, h3, fun l hl => ?_, fun j g qs b hj => ?_⟩
    · rw [h4 l (by omega)]; simp only [SState.put]; rw [if_neg (by omega)]
    · cases j with
      | zero =>
        simp only [List.getElem?_cons_zero, Option.some.injEq, Prod.mk.injEq] at hj
        show (sdefine ρ φ ds (n + 1) (S.put n (.fn ps body ρ φ))).cells n = _
        rw [h4 n (by omega)]
        simp only [SState.put, if_true, ← hj.2.1, ← hj.2.2]
      | succ j =>
        have := h5 j g qs b (by simpa using hj)
        rw [← this]; congr 1; omega

theorem sfuns_names (ρ : SEnv) (ds : List (Sym × List Sym × List Expr)) : ∀ (φ : SEnv) (S : SState), names (sfuns ρ ds φ S).1 = extF ds (names φ) := by
  induction ds with
  | nil => intro φ S; rfl
  | cons d ds ih => obtain ⟨f, ps, body⟩ := d; intro φ S; simp only [sfuns, extF]; exact ih _ _

theorem sfuns_env (ρ : SEnv) {W : World} {lim : Nat} {b scope : Ptr} (hlo : md.locals = true) (ds : List (Sym × List Sym × List Expr)) : ∀ (φ : SEnv) (S : SState) (k : Nat) (q : Ptr),
    (∀ d ∈ ds, P.fns d.1 = none) → FunRel md P W lim φ q → ltPtr q k →
    (∀ j, j < ds.length → W.L[k + j]? = some (S.next + j)) → (∀ j, j < ds.length → W.sk[k + j]? = ((fnEntries b scope ds k q).map skel)[j]?) →
    FunRel md P W lim (sfuns ρ ds φ S).1 (lastFn ds k q) ∧ names (sfuns ρ ds φ S).1 = extF ds (names φ) := by
  induction ds with
  | nil => intro φ S k q _ h _ _ _; exact ⟨h, rfl⟩
  | cons d ds ih =>
    obtain ⟨f, ps, body⟩ := d
    intro φ S k q hn h hq hL hsk
    simp only [sfuns, lastFn]
    have h0 := hL 0 (by simp)
    have h1 := hsk 0 (by simp)
    have := ih ((f, S.next) :: φ) (S.alloc (.var .nil)) (k + 1) (some k) (fun d hd => hn d (List.mem_cons_of_mem _ hd)) ?_ ?_ ?_ ?_
    · refine ⟨this.1, ?_⟩
      rw [this.2]; rfl
    · exact ⟨k, q, rfl, hlo, by simpa using h0, by simpa [fnEntries, skel] using h1, hn (f, ps, body) List.mem_cons_self, hq, h⟩
    · simp [ltPtr]
    · intro j hj
      have := hL (j + 1) (by simpa using hj)
      simp only [SState.alloc]
      rw [show k + 1 + j = k + (j + 1) by omega, this]; congr 1; omega
    · intro j hj
      have := hsk (j + 1) (by simpa using hj)
      rw [show k + 1 + j = k + (j + 1) by omega, this]
      simp [fnEntries]

/-- Local functions: the frames and the cells, with the environments (ρ, φx) and (bindfp, scope) of the functions. -/
theorem funs_ok {S : SState} {M : MState} {ρ φ φx : SEnv} {ds : List (Sym × List Sym × List Expr)} {scope : Ptr} (hlo : md.locals = true) (hi : Inv md P S M)
    (hc : Ctx md P (wof S M) ρ φ M.bindfp M.fletfp) (hn : ∀ d ∈ ds, P.fns d.1 = none ∧ okParams md P (names ρ) d.2.1)
    (hx : φx = φ ∧ scope = M.fletfp ∨ φx = (sfuns ρ ds φ S).1 ∧ scope = lastFn ds M.stack.length M.fletfp)
    (hp : ∀ d ∈ ds, ∀ e ∈ d.2.2, Plain md P (ext P d.2.1 (names ρ)) (names φx) e) :
    Grow md P [] S { M with bindfp := M.bindfp, fletfp := lastFn ds M.stack.length M.fletfp } (sdefine ρ φx ds S.next (sfuns ρ ds φ S).2) (pushFlet scope ds M) ∧
    Ctx md P (wof (sdefine ρ φx ds S.next (sfuns ρ ds φ S).2) (pushFlet scope ds M)) ρ (sfuns ρ ds φ S).1 (pushFlet scope ds M).bindfp (pushFlet scope ds M).fletfp ∧
    names (sfuns ρ ds φ S).1 = extF ds (names φ) := by
  have hlen : S.live.length = M.stack.length := by have := hi.good.len; simpa [wof] using this
  obtain ⟨a1, a2, a3, a4⟩ := sfuns_state ρ ds φ S
  obtain ⟨b1, b2, b3, b4, b5⟩ := sdefine_state ρ φx ds S.next (sfuns ρ ds φ S).2
  rw [pushFlet_eq]
  generalize hS2 : sdefine ρ φx ds S.next (sfuns ρ ds φ S).2 = S2 at b1 b2 b3 b4 b5 ⊢
  generalize hM2 : ({ M with stack := M.stack ++ fnEntries M.bindfp scope ds M.stack.length M.fletfp, fletfp := lastFn ds M.stack.length M.fletfp } : MState) = M2
  have hst : M2.stack = M.stack ++ fnEntries M.bindfp scope ds M.stack.length M.fletfp := by rw [← hM2]
  have hbf : M2.bindfp = M.bindfp := by rw [← hM2]
  have hff : M2.fletfp = lastFn ds M.stack.length M.fletfp := by rw [← hM2]
  have hsb : M2.sb = M.sb := by rw [← hM2]
  have hgl : M2.glob = M.glob := by rw [← hM2]
  have hlive : S2.live = S.live ++ List.range' S.next ds.length := b1.trans a1
  have hnext : S2.next = S.next + ds.length := b2.trans a2
  have hge : ∀ (i l : Nat), S2.live[i]? = some l → S.live.length ≤ i → S.next ≤ l := by
    intro i l h h'
    rw [hlive, List.getElem?_append_right h'] at h
    have := List.mem_range'_1.1 (List.mem_of_getElem? h)
    omega
  have hg : (wof S2 M2).Good := by
    refine ⟨?_, ?_, ?_⟩
    · show S2.live.Pairwise (· < ·)
      rw [hlive, List.pairwise_append]
      refine ⟨hi.good.inc, List.pairwise_lt_range', fun a ha b hb => ?_⟩
      have h1 : a < S.next := hi.good.lt a ha
      have := List.mem_range'_1.1 hb
      omega
    · intro l hl
      have hl' : l ∈ S2.live := hl
      show l < S2.next
      rw [hlive] at hl'
      rw [hnext]
      rcases List.mem_append.1 hl' with h | h
      · have : l < S.next := hi.good.lt l h
        omega
      · have := List.mem_range'_1.1 h
        omega
    · show S2.live.length = (M2.stack.map skel).length
      rw [hlive, hst]; simp [fnEntries_length, hlen]
  have hla : Later (wof S M) (wof S2 M2) := by
    refine ⟨by show S.next ≤ S2.next; omega, fun i l hil hlt => ?_⟩
    have hil' : S2.live[i]? = some l := hil
    have hlt' : l < S.next := hlt
    have hin : i < S.live.length := by
      rcases Nat.lt_or_ge i S.live.length with h1 | h1
      · exact h1
      · have h2 := hge i l hil h1
        omega
    rw [hlive, List.getElem?_append_left hin] at hil'
    refine ⟨hil', ?_⟩
    show (M2.stack.map skel)[i]? = (M.stack.map skel)[i]?
    rw [hst, List.map_append, List.getElem?_append_left (by rw [List.length_map]; omega)]
  obtain ⟨he, lim, hfr, hlim⟩ := hc.rel
  have hliveS : ∀ l ∈ S.live, l ∈ (wof S2 M2).L := fun l h => by show l ∈ S2.live; rw [hlive]; exact List.mem_append_left _ h
  have hle : lim ≤ M.stack.length := by
    rcases hlim with rfl | ⟨c, i, _, hi', hle⟩
    · omega
    · have : i < S.live.length := (List.getElem?_eq_some_iff.1 hi').1
      omega
  have hfr2 : FunRel md P (wof S2 M2) lim φ M.fletfp := by
    refine hfr.later hla hi.good (fun c hc => hliveS _ (hfr.mem c hc)) (fun i hi' => ?_)
    show (M2.stack.map skel)[i]? = (M.stack.map skel)[i]?
    rw [hst, List.map_append, List.getElem?_append_left (by rw [List.length_map]; omega)]
  have he2 : EnvRel (wof S2 M2) ρ M.bindfp := he.later hla hi.good fun c hc => hliveS _ (he.mem c hc)
  have hlim2 : Lim (wof S2 M2) ρ lim := by
    rcases hlim with rfl | ⟨c, i, hcl, hi', hle'⟩
    · exact Or.inl rfl
    · refine Or.inr ⟨c, i, hcl, ?_, hle'⟩
      show S2.live[i]? = some c.2
      have hi2 : S.live[i]? = some c.2 := hi'
      rw [hlive, List.getElem?_append_left (List.getElem?_eq_some_iff.1 hi2).1]; exact hi2
  have hq : ltPtr M.fletfp M.stack.length := by
    have := hfr.extra (lim' := M.stack.length) (by simp [wof])
    cases hq : M.fletfp with
    | none => trivial
    | some i => rw [hq] at this; cases this with | cons _ h2 => exact h2
  have hfun := sfuns_env (md := md) (P := P) ρ (W := wof S2 M2) (lim := lim) (b := M.bindfp) (scope := scope) hlo ds φ S M.stack.length M.fletfp (fun d hd => (hn d hd).1) hfr2 hq
    (fun j hj => by
      show S2.live[M.stack.length + j]? = some (S.next + j)
      rw [hlive, List.getElem?_append_right (by omega), show M.stack.length + j - S.live.length = j by omega, List.getElem?_range' hj]; simp)
    (fun j hj => by
      show (M2.stack.map skel)[M.stack.length + j]? = _
      rw [hst, List.map_append, List.getElem?_append_right (by simp)]; simp)
  have hctx : CtxRel md P (wof S2 M2) ρ φx M.bindfp scope := by
    rcases hx with ⟨rfl, rfl⟩ | ⟨rfl, rfl⟩
    · exact ⟨he2, lim, hfr2, hlim2⟩
    · exact ⟨he2, lim, hfun.1, hlim2⟩
  refine ⟨⟨⟨hg, ?_, ?_⟩, ⟨List.range' S.next ds.length, _, hlive, hst⟩, by omega, hge, ⟨by simp [hsb], fun g => ?_, fun _ _ => by simp [hgl]⟩⟩, ⟨?_, ?_⟩, hfun.2⟩
  · intro i l E hil hE
    have hil' := hil
    have hE' := hE
    rw [hlive] at hil'
    rw [hst] at hE'
    rcases Nat.lt_or_ge i S.live.length with h1 | h1
    · rw [List.getElem?_append_left h1] at hil'
      rw [List.getElem?_append_left (by omega)] at hE'
      have hlt : l < S.next := hi.good.get_n (W := wof S M) hil'
      rw [b4 l hlt, a4 l hlt]
      exact (hi.cells i l E hil' hE').later hla hi.good hg
    · rw [List.getElem?_append_right (by omega)] at hE'
      obtain ⟨f, ps, body, lex, hd, rfl⟩ := fnEntries_get _ _ _ _ _ _ _ hE'
      have hj := (List.getElem?_eq_some_iff.1 hd).1
      rw [List.getElem?_append_right h1, hlen, List.getElem?_range' hj] at hil'
      have hl : l = S.next + (i - M.stack.length) := by
        have := Option.some.inj hil'
        omega
      rw [hl, b5 _ _ _ _ hd]
      have hmem := List.mem_of_getElem? hd
      refine ⟨rfl, rfl, (hn _ hmem).2, hp _ hmem, fun c hc => ?_, fun c hc => ?_, fun _ _ => hctx⟩
      · exact hg.lt _ (hctx.1.mem c hc)
      · obtain ⟨_, hf, _⟩ := hctx.2; exact hg.lt _ (hf.mem c hc)
  · intro x
    rw [b3, a3, hgl]
    exact (hi.glob x).later hla hi.good hg
  · show unbind M.sb.length M2.sb g = _
    rw [hsb, unbind_self]; simp
  · rw [hbf, hff]
    exact ⟨he2, lim, hfun.1, hlim2⟩
  · intro hpar i x lex h
    have h' : (M2.stack.map skel)[i]? = some (.bind x .nil lex) := h
    rw [hbf]
    rcases Nat.lt_or_ge i M.stack.length with h1 | h1
    · rw [hst, List.map_append, List.getElem?_append_left (by rw [List.length_map]; omega)] at h'
      exact hc.top hpar i x lex h'
    · obtain ⟨v, hv⟩ := skel_bind h'
      rw [hst, List.getElem?_append_right h1] at hv
      obtain ⟨_, _, _, _, _, h3⟩ := fnEntries_get _ _ _ _ _ _ _ hv
      cases h3

/-! ### All forms -/

theorem LRel.datum {W : World} {vs : List SVal} {vs' : List MVal} (h : LRel md P W vs vs') : vs'.mapM Val.datum = vs.mapM Val.datum := by
  induction h with
  | nil => rfl
  | @cons v v' vs vs' h1 _ ih =>
    have : v'.datum = v.datum := by
      cases v <;> cases v' <;> simp only [VRel] at h1 <;> simp_all [Val.datum]
    simp only [List.mapM_cons, this, ih]

theorem vrel_ofDatum {W : World} (d : Option Int) : VRel md P W (Val.ofDatum d) (Val.ofDatum d) := by
  cases d with
  | none => trivial
  | some n => exact rfl

theorem cellOf_mem {f : Sym} {φ : SEnv} (h : f ∈ names φ) : ∃ l, cellOf f φ = some l := by
  induction φ with
  | nil => cases h
  | cons c φ ih =>
    obtain ⟨g, l⟩ := c
    rw [cellOf_cons]
    by_cases hg : g = f
    · exact ⟨l, by rw [if_pos hg]⟩
    · rw [if_neg hg]
      rcases List.mem_cons.1 h with h | h
      · exact absurd h.symm hg
      · exact ih h

theorem cellOf_name {f : Sym} {φ : SEnv} {l : Nat} (h : cellOf f φ = some l) : (f, l) ∈ φ := by
  induction φ with
  | nil => cases h
  | cons c φ ih =>
    obtain ⟨g, k⟩ := c
    rw [cellOf_cons] at h
    by_cases hg : g = f
    · rw [if_pos hg] at h; cases h; subst hg; exact List.mem_cons_self
    · rw [if_neg hg] at h; exact List.mem_cons_of_mem _ (ih h)

/-- A visible local function. -/
theorem getfunc_local {S : SState} {M : MState} {ρ φ : SEnv} (hi : Inv md P S M) (hc : Ctx md P (wof S M) ρ φ M.bindfp M.fletfp) {f : Sym} {l : Nat} (h : cellOf f φ = some l) :
    ∃ ps body ρ' φ' e fe, S.cells l = .fn ps body ρ' φ' ∧ getfunc P f M = .ok (.clo ps body e fe) M ∧ FRel md P (wof S M) ps body ρ' φ' e fe := by
  obtain ⟨lim, hfr, _⟩ := hc.rel.2
  have hr := findFun_rel (W := wof S M) (st := M.stack) rfl (f := f) hfr (n := M.stack.length + 1) (by have := hfr.inRange hi.good; simpa [wof] using this)
  rw [h] at hr
  obtain ⟨i, ps, b, e, fe, lex, hf, hil, hst⟩ := hr
  have hcell := hi.cells i l _ hil hst
  cases hcl : S.cells l with
  | var v => rw [hcl] at hcell; exact hcell.elim
  | fn ps' b' ρ' φ' =>
    rw [hcl] at hcell
    obtain ⟨rfl, rfl, hF⟩ := hcell
    exact ⟨_, _, ρ', φ', e, fe, rfl, by simp only [getfunc, hf, hst], hF⟩

theorem getfunc_global {S : SState} {M : MState} {ρ φ : SEnv} (hi : Inv md P S M) (hc : Ctx md P (wof S M) ρ φ M.bindfp M.fletfp) {f : Sym} (h : cellOf f φ = none) {ps : List Sym} {body : List Expr}
    (hfn : P.fns f = some (ps, body)) : getfunc P f M = .ok (.lambda ps body) M := by
  obtain ⟨lim, hfr, _⟩ := hc.rel.2
  have hr := findFun_rel (W := wof S M) (st := M.stack) rfl (f := f) hfr (n := M.stack.length + 1) (by have := hfr.inRange hi.good; simpa [wof] using this)
  rw [h] at hr
  have := hr (by rw [hfn]; exact fun h => by cases h)
  simp only [getfunc, this, hfn]

theorem sim_step (hP : PlainProg md P) (hs : Sim md P evS evM) : Sim md P (sevalF true P evS) (evalF P evM) := by
  intro e ρ φ S M hp hi hc
  cases hp with
  | nil => exact RRel.pure hi trivial
  | t => exact RRel.pure hi trivial
  | int n => exact RRel.pure hi rfl
  | var x => exact getval_rel hi hc x
  | setq h =>
    simp only [sevalF, evalF]
    exact (hs _ ρ φ S M h hi hc).bind fun v S' v' M' ha hr => setval_rel ha.inv (ha.ctx hi hc) _ hr
  | ite h1 h2 h3 =>
    simp only [sevalF, evalF]
    refine (hs _ ρ φ S M h1 hi hc).bind fun v S' v' M' ha hr => ?_
    cases v <;> cases v' <;> simp only [VRel] at hr
    · exact hs _ ρ φ S' M' h3 ha.inv (ha.ctx hi hc)
    all_goals exact hs _ ρ φ S' M' h2 ha.inv (ha.ctx hi hc)
  | not h =>
    simp only [sevalF, evalF]
    refine (hs _ ρ φ S M h hi hc).bind fun v S' v' M' ha hr => ?_
    cases v <;> cases v' <;> simp only [VRel] at hr <;> exact RRel.pure ha.inv trivial
  | @and _ _ es h0 h =>
    cases es with
    | nil => exact absurd rfl h0
    | cons e es => exact sim_and hs _ .t .t S M h hi hc trivial
  | or h => exact sim_or hs _ S M h hi hc
  | progn h => exact sim_progn hs _ _ _ S M h hi hc trivial
  | «while» h1 h2 =>
    simp only [sevalF, evalF]
    refine (hs _ ρ φ S M h1 hi hc).bind fun v S' v' M' ha hr => ?_
    have hbody : RRel md P (VRel md P) S' M' ((prognFrom (evS ρ φ) .nil _ S').bind fun _ s => evS ρ φ (.while _ _) s) ((prognFrom evM .nil _ M').bind fun _ m => evM (.while _ _) m) :=
      (sim_progn hs _ .nil .nil S' M' h2 ha.inv (ha.ctx hi hc) trivial).bind fun _ S2 _ M2 ha2 _ =>
        hs _ ρ φ S2 M2 (.while h1 h2) ha2.inv (ha2.ctx ha.inv (ha.ctx hi hc))
    cases v <;> cases v' <;> simp only [VRel] at hr
    · exact RRel.pure ha.inv trivial
    all_goals exact hbody
  | @letp _ _ bs es h1 h2 h3 =>
    simp only [sevalF, evalF]
    refine (sim_args hs _ S M h1 hi hc).bind fun vs S' vs' M' ha hr => ?_
    have hc' := ha.ctx hi hc
    have hb := bindAll_ok (scope := M'.bindfp) (bs.map Prod.fst) (ρ := ρ) ha.inv hc'.rel.1 hr.1 h2 (clear_of_le (hc'.rel.1.le_ptr ha.inv.good))
    rw [if_pos (by rw [hr.2]; simp)] at hb
    obtain ⟨M1, hb, hen⟩ := hb
    rw [hb]
    simp only [Res.bind]
    obtain ⟨lim, hfr, hlim⟩ := hc'.rel.2
    refine leave_rel (b := M'.bindfp) (q := M'.fletfp) ha.inv hen.grow ?_
    refine sim_progn hs _ _ _ _ _ ?_ hen.grow.inv (hen.ctx ha.inv hfr (Or.inl hlim) fun h => Or.inl (hc'.top h)) trivial
    rw [hen.names]; exact h3
  | @letsNil _ _ es h =>
    have := sim_lets hs (φ := φ) es M.bindfp [] ρ S M (.letsNil h) hi hc (by intro c _ _ _ _ h; cases h)
    exact this
  | @letsCons _ _ x e bs es h1 h2 h3 =>
    have := sim_lets hs (φ := φ) es M.bindfp ((x, e) :: bs) ρ S M (.letsCons h1 h2 h3) hi hc (clear_of_le (hc.rel.1.le_ptr hi.good))
    exact this
  | lam h1 h2 =>
    refine RRel.pure hi ⟨rfl, rfl, h1, h2, fun c hcm => hi.good.lt _ (hc.rel.1.mem c hcm), fun c hcm => ?_, fun _ _ => hc.rel⟩
    obtain ⟨_, hf, _⟩ := hc.rel.2; exact hi.good.lt _ (hf.mem c hcm)
  | @fn _ _ f h =>
    obtain ⟨l, hl⟩ := cellOf_mem h
    obtain ⟨ps, body, ρ', φ', e, fe, h1, h2, h3⟩ := getfunc_local hi hc hl
    simp only [sevalF, evalF, hl, h1, h2, Res.bind]
    exact RRel.pure hi ⟨rfl, rfl, h3⟩
  | funcall h1 h2 =>
    simp only [sevalF, evalF]
    refine (hs _ ρ φ S M h1 hi hc).bind fun g S' g' M' ha hr => ?_
    refine (sim_args hs _ S' M' h2 ha.inv (ha.ctx hi hc)).bind fun vs S2 vs' M2 ha2 hr2 => ?_
    have hr' := hr.later ha2.later ha.inv.good ha2.inv.good
    cases g <;> cases g' <;> simp only [VRel] at hr'
    · rfl
    · rfl
    · rfl
    · obtain ⟨rfl, rfl, hF⟩ := hr'
      exact sim_apply hs ha2.inv (ha2.ctx ha.inv (ha.ctx hi hc)) hr2.1 hF
  | @call _ _ f args h1 h2 =>
    cases hl : cellOf f φ with
    | some l =>
      obtain ⟨ps, body, ρ', φ', e, fe, g1, g2, g3⟩ := getfunc_local hi hc hl
      simp only [sevalF, evalF, hl, g1, g2, Res.bind]
      refine (sim_args hs _ S M h2 hi hc).bind fun vs S2 vs' M2 ha2 hr2 => ?_
      exact sim_apply hs ha2.inv (ha2.ctx hi hc) hr2.1 (g3.later ha2.later hi.good ha2.inv.good)
    | none =>
      have hfn : P.fns f ≠ none := by
        rcases h1 with h1 | h1
        · obtain ⟨l, hl'⟩ := cellOf_mem h1; rw [hl] at hl'; cases hl'
        · exact h1
      cases hd : P.fns f with
      | none => exact absurd hd hfn
      | some d =>
        obtain ⟨ps, body⟩ := d
        simp only [sevalF, evalF, hl, hd, getfunc_global hi hc hl hd, Res.bind]
        refine (sim_args hs _ S M h2 hi hc).bind fun vs S2 vs' M2 ha2 hr2 => ?_
        exact sim_global hs hP hd ha2.inv (ha2.ctx hi hc) hr2.1
  | @flet _ _ ds es h1 h2 h3 h4 =>
    simp only [sevalF, evalF]
    obtain ⟨hg, hc2, hn⟩ := funs_ok (ds := ds) (φx := φ) (scope := M.fletfp) h1 hi hc h2 (Or.inl ⟨rfl, rfl⟩) h3
    refine leave_rel hi hg ?_
    refine sim_progn hs _ _ _ _ _ ?_ hg.inv hc2 trivial
    rw [hn]; exact h4
  | @labels _ _ ds es h1 h2 h3 h4 =>
    simp only [sevalF, evalF, labels_eq]
    have hn := sfuns_names ρ ds φ S
    obtain ⟨hg, hc2, _⟩ := funs_ok (ds := ds) (φx := (sfuns ρ ds φ S).1) (scope := lastFn ds M.stack.length M.fletfp) h1 hi hc h2 (Or.inr ⟨rfl, rfl⟩) (by rw [hn]; exact h3)
    refine leave_rel hi hg ?_
    refine sim_progn hs _ _ _ _ _ ?_ hg.inv hc2 trivial
    rw [hn]; exact h4
  | prim h =>
    simp only [sevalF, evalF]
    refine (sim_args hs _ S M h hi hc).bind fun vs S' vs' M' ha hr => ?_
    rw [hr.1.datum]
    cases (vs.mapM Val.datum).bind (P.builtin _) with
    | none => rfl
    | some d => exact RRel.pure ha.inv (vrel_ofDatum d)

theorem sim_all (hP : PlainProg md P) : ∀ n, Sim md P (seval true P n) (eval P n)
  | 0 => fun _ _ _ _ _ _ _ _ => rfl
  | n + 1 => sim_step hP (sim_all hP n)

end Eus.Lex
