import Verif.Lex.Bind
set_option autoImplicit false
/-
Every form of the interpreter against the specification.
-/
namespace Eus.Lex

variable {md : Mode} {P : Prog} {evS : SEnv → SEnv → Expr → SState → Res SVal SState} {evM : Expr → MState → Res MVal MState}

theorem getval_rel {S : SState} {M : MState} {ρ φ : SEnv} (hi : Inv md P S M) (hc : Ctx md P (wof S M) ρ φ M.bindfp M.fletfp) (x : Sym) :
    RRel md P (VRel md P) S M (sevalF true P evS ρ φ (.var x) S) (getval P x M) := by
  have hglob : ∀ r', (match M.glob x with | some v => (.ok v M : Res MVal MState) | none => .err) = r' →
      RRel md P (VRel md P) S M (match S.glob x with | some v => .ok v S | none => .err) r' := by
    rintro r' rfl
    have := hi.glob x
    cases hS : S.glob x with
    | none =>
      cases hM : M.glob x with
      | none => rfl
      | some v' => rw [hS, hM] at this; exact this.elim
    | some v =>
      cases hM : M.glob x with
      | none => rw [hS, hM] at this; exact this.elim
      | some v' => rw [hS, hM] at this; exact RRel.pure hi this
  cases hx : P.special x with
  | true =>
    simp only [sevalF, hx, if_true]
    exact hglob _ (by simp only [getval, hx, if_true]; rfl)
  | false =>
    have hr := findVar_rel true (W := wof S M) (st := M.stack) rfl (x := x) hc.rel.1 (n := M.stack.length + 1) (by have := hc.rel.1.inRange hi.good; simpa [wof] using this)
    simp only [sevalF, hx, Bool.false_eq_true, if_false]
    cases hl : cellOf x ρ with
    | none =>
      rw [hl] at hr
      exact hglob _ (by simp only [getval, hx, Bool.false_eq_true, if_false, hr]; rfl)
    | some l =>
      rw [hl] at hr
      obtain ⟨i, v', lex, hf, hil, hst⟩ := hr
      have hcell := hi.cells i l _ hil hst
      have hM : getval P x M = .ok v' M := by simp only [getval, hx, Bool.false_eq_true, if_false, hf, hst]
      rw [hM]
      cases hcl : S.cells l with
      | fn => rw [hcl] at hcell; exact hcell.elim
      | var v => rw [hcl] at hcell; simp only [hcl]; exact RRel.pure (R := VRel md P) hi hcell

theorem setglob_after {S : SState} {M : MState} (hi : Inv md P S M) (x : Sym) {v : SVal} {v' : MVal} (hv : VRel md P (wof S M) v v') : After md P S M (S.setGlob x (some v)) (M.setGlob x (some v')) := by
  refine ⟨⟨hi.good, hi.cells, fun y => ?_⟩, rfl, rfl, Nat.le_refl _, rfl, rfl, rfl⟩
  show ORel md P (wof S M) (if y = x then some v else S.glob y) (if y = x then some v' else M.glob y)
  by_cases h : y = x
  · rw [if_pos h, if_pos h]; exact hv
  · rw [if_neg h, if_neg h]; exact hi.glob y

theorem put_after {S : SState} {M : MState} (hi : Inv md P S M) {i l : Nat} {x : Sym} {w : MVal} {lex : Ptr} (hil : S.live[i]? = some l) (hst : M.stack[i]? = some (.bind x w lex))
    {v : SVal} {v' : MVal} (hv : VRel md P (wof S M) v v') : After md P S M (S.put l (.var v)) { M with stack := M.stack.set i (.bind x v' lex) } := by
  have hsk : (M.stack.set i (.bind x v' lex)).map skel = M.stack.map skel := by
    apply List.ext_getElem?
    intro j
    rw [List.getElem?_map, List.getElem?_map, List.getElem?_set]
    by_cases h : i = j
    · subst h
      have hlt := (List.getElem?_eq_some_iff.1 hst).1
      rw [if_pos rfl, if_pos hlt, hst]; rfl
    · rw [if_neg h]
  have hW : wof (S.put l (.var v)) { M with stack := M.stack.set i (.bind x v' lex) } = wof S M := by
    simp only [wof, hsk]; rfl
  refine ⟨⟨hW ▸ hi.good, ?_, fun y => hW ▸ hi.glob y⟩, rfl, hsk, Nat.le_refl _, rfl, rfl, rfl⟩
  rw [hW]
  intro j k E hk hE
  have hk' : S.live[j]? = some k := hk
  have hE' : (M.stack.set i (.bind x v' lex))[j]? = some E := hE
  rw [List.getElem?_set] at hE'
  have hcell : (S.put l (.var v)).cells k = if k = l then .var v else S.cells k := rfl
  rw [hcell]
  by_cases h : i = j
  · subst h
    have hlt := (List.getElem?_eq_some_iff.1 hst).1
    rw [if_pos rfl, if_pos hlt] at hE'
    obtain rfl : Entry.bind x v' lex = E := by simpa using hE'
    rw [hil] at hk'
    obtain rfl : l = k := by simpa using hk'
    rw [if_pos rfl]; exact hv
  · rw [if_neg h] at hE'
    have hne : k ≠ l := by rintro rfl; exact h (hi.good.inj (W := wof S M) hil hk')
    rw [if_neg hne]
    exact hi.cells j k E hk' hE'

theorem setval_rel {S : SState} {M : MState} {ρ φ : SEnv} (hi : Inv md P S M) (hc : Ctx md P (wof S M) ρ φ M.bindfp M.fletfp) (x : Sym) {v : SVal} {v' : MVal}
    (hv : VRel md P (wof S M) v v') :
    RRel md P (VRel md P) S M (match (if P.special x then none else cellOf x ρ) with | some l => .ok v (S.put l (.var v)) | none => .ok v (S.setGlob x (some v))) (setval P x v' M) := by
  have hgl : RRel md P (VRel md P) S M (.ok v (S.setGlob x (some v))) (.ok v' (M.setGlob x (some v'))) := by
    have ha := setglob_after hi x hv
    exact ⟨v', _, rfl, ha, hv.later ha.later hi.good ha.inv.good⟩
  cases hx : P.special x with
  | true => simp only [if_true, setval, hx]; exact hgl
  | false =>
    have hr := findVar_rel false (W := wof S M) (st := M.stack) rfl (x := x) hc.rel.1 (n := M.stack.length + 1) (by have := hc.rel.1.inRange hi.good; simpa [wof] using this)
    simp only [Bool.false_eq_true, if_false]
    cases hl : cellOf x ρ with
    | none =>
      rw [hl] at hr
      simp only [setval, hx, Bool.false_eq_true, if_false, hr]; exact hgl
    | some l =>
      rw [hl] at hr
      obtain ⟨i, w, lex, hf, hil, hst⟩ := hr
      simp only [setval, hx, Bool.false_eq_true, if_false, hf, hst]
      have ha := put_after hi hil hst hv
      exact ⟨v', _, rfl, ha, hv.later ha.later hi.good ha.inv.good⟩

/-! ### Calls -/

theorem leave_rel {xs : List Sym} {S S1 : SState} {M M1 : MState} {b q : Ptr} {r : Res SVal SState} {r' : Res MVal MState} (hi : Inv md P S M)
    (hg : Grow md P xs S { M with bindfp := b, fletfp := q } S1 M1) (h : RRel md P (VRel md P) S1 M1 r r') :
    RRel md P (VRel md P) S M (r.bind fun v s' => .ok v (sleave P xs S s')) (r'.bind fun v m' => .ok v (leave M m')) := by
  cases r with
  | ok v S' =>
    obtain ⟨v', M', rfl, ha, hr⟩ := h
    have hl := leave_ok (M := { M with bindfp := b, fletfp := q }) ⟨hi.good, hi.cells, hi.glob⟩ hg ha
    have hi2 := hl.1.inv
    refine ⟨v', leave M M', rfl, ⟨⟨hi2.good, hi2.cells, hi2.glob⟩, hl.1.live, hl.1.sk, hl.1.next, rfl, rfl, hl.1.sb⟩, hl.2 v v' hr⟩
  | err => obtain rfl : r' = .err := h; exact rfl
  | out => obtain rfl : r' = .out := h; exact rfl
  | escape => trivial
  | ub => exact h.elim

theorem EnvRel.bindAt {W : World} {ρ : SEnv} {p : Ptr} (g : W.Good) (h : EnvRel W ρ p) : ∀ c ∈ ρ, ∀ (i : Nat), W.L[i]? = some c.2 → ∃ lex, W.sk[i]? = some (Entry.bind c.1 .nil lex) := by
  induction ρ generalizing p with
  | nil => intro c hc; cases hc
  | cons c ρ ih =>
    obtain ⟨i, lex, _, hi, hs, _, hr⟩ := h
    intro d hd j hj
    rcases List.mem_cons.1 hd with rfl | hd
    · obtain rfl := g.inj hi hj
      exact ⟨lex, hs⟩
    · exact ih hr d hd j hj

theorem EnvRel.le_ptr {W : World} {ρ : SEnv} {p : Ptr} (g : W.Good) (h : EnvRel W ρ p) : ∀ c ∈ ρ, ∀ i, W.L[i]? = some c.2 → ∃ j, p = some j ∧ i ≤ j := by
  induction ρ generalizing p with
  | nil => intro c hc; cases hc
  | cons c ρ ih =>
    obtain ⟨i, lex, rfl, hi, hs, hlt, hr⟩ := h
    intro d hd j hj
    refine ⟨i, rfl, ?_⟩
    rcases List.mem_cons.1 hd with rfl | hd
    · obtain rfl := g.inj hi hj
      exact Nat.le_refl _
    · obtain ⟨k, rfl, hk⟩ := ih hr d hd j hj
      simp only [ltPtr] at hlt; omega

theorem clear_of_le {W : World} {ρ : SEnv} {scope : Ptr} {xs : List Sym} (h : ∀ c ∈ ρ, ∀ i, W.L[i]? = some c.2 → ∃ j, scope = some j ∧ i ≤ j) : Clear W ρ scope xs := by
  intro c hc i hi ha
  obtain ⟨j, rfl, hle⟩ := h c hc i hi
  simp only [Ptr.above, decide_eq_true_eq] at ha; omega

/-- Binding variables in an environment gives a context. -/
theorem Entered.ctx {xs : List Sym} {ρ ρ1 φ : SEnv} {S S1 : SState} {M M1 : MState} {lim : Nat} (h : Entered md P xs ρ ρ1 S M S1 M1) (hi : Inv md P S M) (hf : FunRel md P (wof S M) lim φ M.fletfp)
    (hlim : Lim (wof S M) ρ lim ∨ ρ = [] ∧ lim = M.stack.length ∧ ∃ x ∈ xs, P.special x = false)
    (htop : md.params = true → TopP (wof S M) M.bindfp ∨ ∃ x ∈ xs, P.special x = false) : Ctx md P (wof S1 M1) ρ1 φ M1.bindfp M1.fletfp := by
  have hlen : S.live.length = M.stack.length := by have := hi.good.len; simpa [wof] using this
  obtain ⟨ls, es, hl, he⟩ := h.grow.pre
  obtain ⟨new, hn, hnl, hnn, _⟩ := h.new
  have hle : lim ≤ M.stack.length := by
    rcases hlim with (rfl | ⟨c, i, _, hi', hle⟩) | ⟨_, rfl, _⟩
    · omega
    · have : i < S.live.length := (List.getElem?_eq_some_iff.1 hi').1
      omega
    · omega
  refine ⟨⟨h.env, lim, ?_, ?_⟩, fun hp => ?_⟩
  · rw [h.fletfp]
    refine hf.later (h.grow.later hi) hi.good (fun c hc => ?_) (fun i hi' => ?_)
    · show c.2 ∈ S1.live
      rw [hl]; exact List.mem_append_left _ (hf.mem c hc)
    · show (M1.stack.map skel)[i]? = (M.stack.map skel)[i]?
      rw [he, List.map_append, List.getElem?_append_left (by rw [List.length_map]; omega)]
  · rcases hlim with (rfl | ⟨c, i, hc, hi', hle'⟩) | ⟨rfl, rfl, hx⟩
    · exact Or.inl rfl
    · refine Or.inr ⟨c, i, ?_, ?_, hle'⟩
      · rw [hn, List.getLast?_append, hc]; simp
      · show S1.live[i]? = some c.2
        have hi2 : S.live[i]? = some c.2 := hi'
        rw [hl, List.getElem?_append_left (List.getElem?_eq_some_iff.1 hi2).1]; exact hi2
    · rw [List.append_nil] at hn
      subst hn
      cases hg : ρ1.getLast? with
      | none => exact absurd (List.getLast?_eq_none_iff.1 hg) (hnn hx)
      | some c =>
        have := hnl c hg
        refine Or.inr ⟨c, S.live.length, hg, ?_, by omega⟩
        rw [this.1]; exact this.2
  · rcases htop hp with ht | hx
    · exact h.keepTop ht
    · exact h.newTop hx

theorem sim_call (hs : Sim md P evS evM) {S : SState} {M : MState} {ps : List Sym} {body : List Expr} {ρ φ : SEnv} {e fe : Ptr} {vs : List SVal} {vs' : List MVal} {lim : Nat}
    (hi : Inv md P S M) (hv : LRel md P (wof S M) vs vs') (he : EnvRel (wof S M) ρ e) (hf : FunRel md P (wof S M) lim φ fe)
    (hlim : Lim (wof S M) ρ lim ∨ ρ = [] ∧ lim = M.stack.length ∧ ∃ x ∈ ps, P.special x = false) (htop : md.params = true → ∃ x ∈ ps, P.special x = false)
    (hn : ps.Nodup) (hcl : Clear (wof S M) ρ M.bindfp ps) (hp : ∀ x ∈ body, Plain md P (ext P ps (names ρ)) (names φ) x) :
    RRel md P (VRel md P) S M (sapply true P evS ps body ρ φ vs S) (apply P evM ps body e fe vs' M) := by
  unfold sapply
  simp only [Bool.not_true, Bool.false_or]
  by_cases hlv : (allLive S ρ && allLive S φ) = true
  · rw [if_pos hlv]
    have hi0 : Inv md P S { M with bindfp := e, fletfp := fe } := ⟨hi.good, hi.cells, hi.glob⟩
    have hb := bindAll_ok (scope := M.bindfp) ps (M := { M with bindfp := e, fletfp := fe }) (ρ := ρ) hi0 he hv hn hcl
    by_cases hlen : ps.length = vs.length
    · rw [if_pos hlen] at hb
      rw [if_pos hlen]
      obtain ⟨M1, hb, hen⟩ := hb
      have hap : apply P evM ps body e fe vs' M = (prognFrom evM .nil body M1).bind fun v m' => .ok v (leave M m') := by
        unfold apply
        rw [show bindAll P M.bindfp ps vs' e { M with bindfp := e, fletfp := fe } = .ok M1.bindfp M1 from hb]; rfl
      rw [hap]
      refine leave_rel hi hen.grow ?_
      refine sim_progn hs body _ _ _ _ ?_ hen.grow.inv (hen.ctx hi0 hf hlim fun h => Or.inr (htop h)) trivial
      rw [hen.names]; exact hp
    · rw [if_neg hlen] at hb
      rw [if_neg hlen]
      unfold apply
      rw [show bindAll P M.bindfp ps vs' e { M with bindfp := e, fletfp := fe } = .err from hb]; rfl
  · rw [if_neg hlv]; trivial

theorem sim_apply (hs : Sim md P evS evM) {S : SState} {M : MState} {ps : List Sym} {body : List Expr} {ρ φ ρc φc : SEnv} {e fe : Ptr} {vs : List SVal} {vs' : List MVal}
    (hi : Inv md P S M) (hc : Ctx md P (wof S M) ρc φc M.bindfp M.fletfp) (hv : LRel md P (wof S M) vs vs') (hf : FRel md P (wof S M) ps body ρ φ e fe) :
    RRel md P (VRel md P) S M (sapply true P evS ps body ρ φ vs S) (apply P evM ps body e fe vs' M) := by
  by_cases hlv : (allLive S ρ && allLive S φ) = true
  · have h2 := hlv
    rw [Bool.and_eq_true] at h2
    have hlive : ∀ ρ : SEnv, allLive S ρ = true → ∀ c ∈ ρ, c.2 ∈ (wof S M).L := by
      intro ρ h c hc
      simp only [allLive, List.all_eq_true] at h
      exact List.contains_iff_mem.1 (h c hc)
    obtain ⟨he, lim, hfr, hlim⟩ := hf.ctx (hlive ρ h2.1) (hlive φ h2.2)
    have hok := hf.params
    refine sim_call hs hi hv he hfr (Or.inl hlim) (fun hp => ?_) hok.1 ?_ hf.body
    · have := hok.2; rwa [if_pos hp] at this
    · cases hp : md.params with
      | true =>
        refine clear_of_le fun c hc' i hil => ?_
        obtain ⟨lex, hs'⟩ := he.bindAt hi.good c hc' i hil
        exact hc.top hp i _ _ hs'
      | false =>
        have := hok.2
        rw [hp] at this
        intro c hc' i _ _ hm
        exact this c.1 hm (List.mem_map_of_mem hc')
  · unfold sapply; simp only [Bool.not_true, Bool.false_or]; rw [if_neg hlv]; trivial

theorem Extra.mono {W : World} {lim lim' : Nat} {q : Ptr} (h : Extra md P W lim q) (hl : W.sk.length ≤ lim') : Extra md P W lim' q := by
  induction h with
  | nil => exact .nil
  | cons h1 _ h3 h4 h5 _ ih => exact .cons h1 (Nat.lt_of_lt_of_le (List.getElem?_eq_some_iff.1 h3).1 hl) h3 h4 h5 ih

theorem FunRel.extra {W : World} {lim lim' : Nat} {φ : SEnv} {q : Ptr} (h : FunRel md P W lim φ q) (hl : W.sk.length ≤ lim') : Extra md P W lim' q := by
  induction φ generalizing q with
  | nil => exact Extra.mono h hl
  | cons c φ ih =>
    obtain ⟨i, lex, rfl, h1, _, h3, h4, h5, hr⟩ := h
    exact .cons h1 (Nat.lt_of_lt_of_le (List.getElem?_eq_some_iff.1 h3).1 hl) h3 h4 h5 (ih hr)

/-- A call of a function defined by `defun`. -/
theorem sim_global (hs : Sim md P evS evM) (hP : PlainProg md P) {S : SState} {M : MState} {f : Sym} {ps : List Sym} {body : List Expr} {ρc φc : SEnv} {vs : List SVal} {vs' : List MVal}
    (hfn : P.fns f = some (ps, body)) (hi : Inv md P S M) (hc : Ctx md P (wof S M) ρc φc M.bindfp M.fletfp) (hv : LRel md P (wof S M) vs vs') :
    RRel md P (VRel md P) S M (sapply true P evS ps body [] [] vs S) (apply P evM ps body none M.fletfp vs' M) := by
  obtain ⟨hn, hx, hb⟩ := hP f ps body hfn
  obtain ⟨lim, hfr, _⟩ := hc.rel.2
  have hpx : md.params = true → ∃ x ∈ ps, P.special x = false := fun h => hx (by rw [h]; rfl)
  cases hlo : md.locals with
  | true =>
    have hx' := hx (by rw [hlo, Bool.or_true])
    refine sim_call hs (ρ := []) (φ := []) (lim := M.stack.length) hi hv rfl ?_ (Or.inr ⟨rfl, rfl, hx'⟩) hpx hn ?_ hb
    · exact hfr.extra (by simp [wof])
    · intro c hc'; cases hc'
  | false =>
    have hq : M.fletfp = none := by
      have := hfr.extra (lim' := M.stack.length) (by simp [wof])
      cases hq : M.fletfp with
      | none => rfl
      | some i => rw [hq] at this; cases this with | cons h1 => rw [hlo] at h1; cases h1
    rw [hq]
    refine sim_call hs (ρ := []) (φ := []) (lim := 0) hi hv rfl .nil (Or.inl (Or.inl rfl)) hpx hn ?_ hb
    intro c hc'; cases hc'

end Eus.Lex
