import Verif.Lam.Comp
set_option autoImplicit false
/-! Lambda lists: C50, C51, C89. -/
namespace Eus.Lam

/-- The arguments that `&rest` and `&key` see. -/
abbrev LL.others (L : LL) (args : List Obj) : List Obj := args.drop (L.req.length + L.opt.length)

/-- Keywords and values: `:k₁ v₁ … :kₙ vₙ`. -/
def pairs : List (Nat × Obj) → List Obj
  | [] => []
  | (k, v) :: r => .kw k :: v :: pairs r

theorem pairs_len : ∀ ps : List (Nat × Obj), (pairs ps).length = 2 * ps.length
  | [] => rfl
  | (k, v) :: r => by simp [pairs, pairs_len r]; omega

theorem proper_pairs {keys : List Nat} : ∀ (n : Nat) (l : List Obj), l.length ≤ n → ∀ (allow : Bool), Proper keys allow l → ∃ ps, l = pairs ps
  | _, [], _, _, _ => ⟨[], rfl⟩
  | _, .sym _ :: _, _, _, h => h.elim
  | _, .other _ :: _, _, _, h => h.elim
  | _, [.kw _], _, _, h => h.elim
  | 0, .kw _ :: _ :: _, hl, _, _ => by simp at hl
  | n + 1, .kw a :: v :: rest, hl, allow, h => by
    obtain ⟨ps, hps⟩ := proper_pairs n rest (by simp at hl; omega) _ h.2
    exact ⟨(a, v) :: ps, by rw [hps]; rfl⟩

theorem proper_plain {keys : List Nat} (allow : Bool) : ∀ (ps : List (Nat × Obj)), (∀ q ∈ ps, q.1 ≠ 0) →
    (Proper keys allow (pairs ps) ↔ (allow = true ∨ ∀ q ∈ ps, q.1 ∈ keys))
  | [], _ => by simp [pairs, Proper]
  | (k, v) :: r, h => by
    have hk : k ≠ 0 := h (k, v) List.mem_cons_self
    have ih := proper_plain (keys := keys) allow r (fun q hq => h q (List.mem_cons_of_mem _ hq))
    rw [pairs, Proper]
    simp only [if_neg hk, ih]
    cases allow <;> simp

theorem proper_allowed {keys : List Nat} : ∀ (ps : List (Nat × Obj)), (∀ q ∈ ps, q.1 = 0 → q.2 ≠ nil) → Proper keys true (pairs ps)
  | [], _ => trivial
  | (k, v) :: r, h => by
    have hv := h (k, v) List.mem_cons_self
    have ih := proper_allowed (keys := keys) r (fun q hq => h q (List.mem_cons_of_mem _ hq))
    rw [pairs, Proper]
    have ha : (if k = 0 then decide (v ≠ nil) else true) = true := by
      by_cases hk : k = 0
      · rw [if_pos hk]; exact decide_eq_true (hv hk)
      · rw [if_neg hk]
    simp only [ha, or_true, true_and]
    exact ih

/-- First occurrence in a list of pairs. -/
theorem given_pairs (k : Nat) : ∀ ps : List (Nat × Obj), given k (pairs ps) = (ps.find? fun q => decide (q.1 = k)).map (·.2)
  | [] => rfl
  | (a, v) :: r => by
    rw [pairs, given, List.find?_cons]
    by_cases h : a = k
    · simp [h]
    · simp [h, given_pairs k r]

/-- The sample `(a &optional (b 7) &rest r &key x ((:k y) a))`; variables 10 to 14, keyword 20. -/
def sample : LL :=
  ⟨[10], [⟨11, some fun _ => .one (.other 7)⟩], some 12,
   some ([.plain ⟨13, none⟩, .named 20 14 fun e => (e 10).getD (.one nil)], false), none⟩

theorem sample_wf : Wf sample := ⟨by decide, by decide, by decide, by decide⟩
theorem sample_comp : CompOk sample :=
  ⟨.inr rfl, fun q h => by injection h with h; subst h; simp, by decide, by simp [sample, LL.auxs]⟩

/-! ### C51 -/

/-- C51: calling an interpreted function signals an error exactly when the arguments do not fit its lambda list, and otherwise binds
required parameters by position, then optional ones (to arguments or defaults), the rest list, the keyword parameters, and the
auxiliary ones.  Missing: lambda lists in which `&aux` follows required or optional parameters, when there are too many arguments
(`C51_aux_wrong`); special variables as parameters; effects of default forms. -/
theorem C51_lambda_partial {L : LL} (w : Wf L) (args : List Obj)
    (hx : L.aux = none ∨ L.rest.isSome ∨ L.key.isSome ∨ args.length ≤ L.req.length + L.opt.length) :
    funlambda L.items args = if Accepts L args then .ok (bound L args) else .err := funlambda_eq w args hx

example : Wf sample ∧ sample.aux = none ∧ Accepts sample [.other 1, .other 2, .kw 20, .other 5] ∧ ¬ Accepts sample [] :=
  ⟨sample_wf, rfl, by decide, by decide⟩

/-- C51: what the English says of lambda lists of required, optional and rest parameters: the call is accepted exactly when the count fits;
the `i`-th required parameter is the `i`-th argument; an optional parameter is its argument if there is one; the rest parameter is the list of
the arguments after these. -/
theorem C51_positions {L : LL} (w : Wf L) (hk : L.key = none) (ha : L.aux = none) (args : List Obj) :
    ((∃ e, funlambda L.items args = .ok e) ↔
      (L.req.length ≤ args.length ∧ (L.rest = none → args.length ≤ L.req.length + L.opt.length))) ∧
    (∀ e, funlambda L.items args = .ok e →
      (∀ (i x : Nat), L.req[i]? = some x → e x = (args[i]?).map BV.one) ∧
      (∀ (i : Nat) (p : Par) (a : Obj), L.opt[i]? = some p → args[L.req.length + i]? = some a → e p.var = some (.one a)) ∧
      (∀ x, L.rest = some x → e x = some (.list (args.drop (L.req.length + L.opt.length))))) := by
  rw [funlambda_eq w args (.inl ha)]
  have hA : Accepts L args ↔ (L.req.length ≤ args.length ∧ (L.rest = none → args.length ≤ L.req.length + L.opt.length)) := by
    simp only [Accepts, hk, and_true, Option.isSome_none, Bool.false_eq_true, false_or]
    cases L.rest <;> simp
  rw [← hA]
  by_cases h : Accepts L args
  · rw [if_pos h]
    refine ⟨⟨fun _ => h, fun _ => ⟨_, rfl⟩⟩, ?_⟩
    intro e he
    injection he with he
    subst he
    have hv := w.vars
    rw [LL.vars] at hv
    have hv1 := List.nodup_append.1 hv
    have hv2 := List.nodup_append.1 hv1.2.1
    have hb : bound L args = bound₁ L args := by
      simp [bound, LL.keys, hk, LL.auxs, ha, setOpt, setOthers, setGiven]
    rw [hb]
    have hne : ∀ x, x ∉ L.rest.toList → bound₁ L args x = setOpt L.opt (args.drop L.req.length) (setReq L.req args fun _ => none) x := by
      intro x hx
      unfold bound₁ setRest
      cases hr : L.rest with
      | none => rfl
      | some y => rw [hr] at hx; exact set_other (by simpa using hx)
    refine ⟨?_, ?_, ?_⟩
    · intro i x hi
      have hmem : x ∈ L.req := List.mem_of_getElem? hi
      rw [hne x (fun hx => hv1.2.2 x hmem x (List.mem_append_right _ (List.mem_append_left _ hx)) rfl),
        setOpt_oth _ _ _ _ (fun hx => hv1.2.2 x hmem x (List.mem_append_left _ hx) rfl)]
      have hlen : L.req.length ≤ args.length := h.1
      clear hv hne hb hv2
      have hn := hv1.1
      clear hv1 hmem
      -- by induction over the required parameters
      have : ∀ (xs : List Nat) (as : List Obj) (i : Nat) (e : Env), xs.Nodup → xs.length ≤ as.length → xs[i]? = some x →
          setReq xs as e x = (as[i]?).map BV.one := by
        intro xs
        induction xs with
        | nil => intro as i e _ _ hi; simp at hi
        | cons z xs ih =>
          intro as i e hn hl hi
          cases as with
          | nil => simp at hl
          | cons a as =>
            rw [List.nodup_cons] at hn
            cases i with
            | zero =>
              simp only [List.getElem?_cons_zero, Option.some.injEq] at hi
              subst hi
              rw [setReq, setReq_oth _ _ _ _ hn.1, set_same]; rfl
            | succ i =>
              rw [setReq]
              exact ih as i _ hn.2 (by simpa using hl) (by simpa using hi)
      exact this L.req args i _ hn hlen hi
    · intro i p a hi hai
      have hmem : p.var ∈ L.opt.map Par.var := List.mem_map.2 ⟨p, List.mem_of_getElem? hi, rfl⟩
      rw [hne _ (fun hx => hv2.2.2 _ hmem _ (List.mem_append_left _ hx) rfl)]
      have : ∀ (ps : List Par) (as : List Obj) (i : Nat) (e : Env), (ps.map Par.var).Nodup → ps[i]? = some p → as[i]? = some a →
          setOpt ps as e p.var = some (.one a) := by
        intro ps
        induction ps with
        | nil => intro as i e _ hi; simp at hi
        | cons z ps ih =>
          intro as i e hn hi ha
          rw [List.map_cons, List.nodup_cons] at hn
          cases as with
          | nil => simp at ha
          | cons b as =>
            cases i with
            | zero =>
              simp only [List.getElem?_cons_zero, Option.some.injEq] at hi ha
              subst hi ha
              rw [setOpt, setOpt_oth _ _ _ _ hn.1, set_same]
            | succ i =>
              rw [setOpt]
              exact ih as i _ hn.2 (by simpa using hi) (by simpa using ha)
      exact this L.opt _ i _ hv2.1 hi (by rw [List.getElem?_drop]; exact hai)
    · intro x hr
      simp only [bound₁, hr, setRest]
      exact set_same _ _ _
  · rw [if_neg h]
    exact ⟨⟨fun ⟨_, h'⟩ => (by cases h'), fun h' => absurd h' h⟩, fun _ h' => (by cases h')⟩

/-- `(a &optional (b 7) &rest r)`. -/
example : Wf { sample with key := none } := ⟨by decide, by decide, by decide, by decide⟩

/-- The missing part is wrong: `((lambda (a &aux b) …) 1 2)` is accepted. -/
theorem C51_aux_wrong : Wf ⟨[10], [], none, none, some [⟨11, none⟩]⟩ ∧
    ¬ Accepts ⟨[10], [], none, none, some [⟨11, none⟩]⟩ [.other 1, .other 2] ∧
    ∃ e, funlambda (LL.items ⟨[10], [], none, none, some [⟨11, none⟩]⟩) [.other 1, .other 2] = .ok e :=
  ⟨⟨by decide, by decide, by decide, by decide⟩, by decide, _, rfl⟩

/-! ### C50 -/

/-- C50: in an accepted call of an interpreted function with keyword parameters, the arguments after the positional ones are keywords and
values; each keyword parameter gets the value of the first occurrence of its keyword; and one whose keyword does not occur gets the value of its
default form.  (The default form is evaluated with the parameters before it and the keyword parameters that were given.) -/
theorem C50_value {L : LL} (w : Wf L) {ks : List KPar} {allow : Bool} (hk : L.key = some (ks, allow)) (args : List Obj) (e : Env)
    (h : funlambda L.items args = .ok e) :
    ∃ ps, L.others args = pairs ps ∧
      ∀ k ∈ ks, (∀ v, (ps.find? fun q => decide (q.1 = k.key)).map (·.2) = some v → e k.var = some (.one v)) ∧
        ((∀ q ∈ ps, q.1 ≠ k.key) → ∃ e₁ : Env, e k.var = some (k.default e₁) ∧ ∀ x ∈ L.vars, e₁ x = e x ∨ e₁ x = none) := by
  rw [funlambda_eq w args (.inr (.inr (.inl (by simp [hk]))))] at h
  by_cases hA : Accepts L args
  · rw [if_pos hA] at h
    injection h with h
    have hP : Proper (ks.map KPar.key) allow (L.others args) := by
      have := hA.2.2
      rw [hk] at this
      exact this
    obtain ⟨ps, hps⟩ := proper_pairs _ _ (Nat.le_refl _) _ hP
    refine ⟨ps, hps, ?_⟩
    have hks : L.keys = ks := by simp [LL.keys, hk]
    have hv := w.tail.vars
    rw [LL.tailVars, hks] at hv
    have hv3 := List.nodup_append.1 (List.nodup_append.1 hv).2.1
    intro k hkm
    have hmem : k.var ∈ ks.map KPar.var := List.mem_map.2 ⟨k, hkm, rfl⟩
    have haux : k.var ∉ L.auxs.map Par.var := fun hx => hv3.2.2 _ hmem _ hx rfl
    have he : e k.var = setOthers (L.others args) ks (setGiven (L.others args) ks (bound₁ L args)) k.var := by
      rw [← h]
      unfold bound
      rw [hks, setOpt_oth _ _ _ _ haux]
    constructor
    · intro v hv'
      rw [← given_pairs, ← hps] at hv'
      rw [he]
      have : ∀ (qs : List KPar) (e : Env), (qs.map KPar.var).Nodup → k ∈ qs → setOthers (L.others args) qs e k.var = e k.var := by
        intro qs
        induction qs with
        | nil => intro e _ hm; simp at hm
        | cons q qs ih =>
          intro e hn hm
          rw [List.map_cons, List.nodup_cons] at hn
          rcases List.mem_cons.1 hm with rfl | hm
          · simp only [setOthers, hv']
            exact setOthers_oth _ _ _ _ hn.1
          · have hne : k.var ≠ q.var := fun h' => hn.1 (h' ▸ List.mem_map.2 ⟨k, hm, rfl⟩)
            cases hg : given q.key (L.others args) with
            | some _ => simp only [setOthers, hg]; exact ih _ hn.2 hm
            | none => simp only [setOthers, hg]; rw [ih _ hn.2 hm, set_other hne]
      rw [this ks _ hv3.1 hkm, setGiven_at _ _ _ hv3.1 k hkm, hv']
      rfl
    · intro hnone
      have hg : given k.key (L.others args) = none := by
        rw [hps, given_pairs]
        have : ps.find? (fun q => decide (q.1 = k.key)) = none := by
          rw [List.find?_eq_none]
          intro q hq
          simpa using hnone q hq
        rw [this]; rfl
      have : ∀ (qs : List KPar) (e : Env), (qs.map KPar.var).Nodup → k ∈ qs →
          (∀ q ∈ qs, given q.key (L.others args) = none → e q.var = none) →
          ∃ e₁ : Env, setOthers (L.others args) qs e k.var = some (k.default e₁) ∧
            ∀ x, e₁ x = setOthers (L.others args) qs e x ∨ e₁ x = none := by
        intro qs
        induction qs with
        | nil => intro e _ hm; simp at hm
        | cons q qs ih =>
          intro e hn hm hf
          rw [List.map_cons, List.nodup_cons] at hn
          rcases List.mem_cons.1 hm with rfl | hm
          · refine ⟨e, ?_, ?_⟩
            · simp only [setOthers, hg]
              rw [setOthers_oth _ _ _ _ hn.1, set_same]
            · intro x
              -- what is bound stays bound
              have keep : ∀ (rs : List KPar) (e e' : Env), (∀ y, e y = none ∨ e' y = e y) →
                  (∀ q ∈ rs, given q.key (L.others args) = none → e q.var = none) →
                  ∀ y, e y = none ∨ setOthers (L.others args) rs e' y = e y := by
                intro rs
                induction rs with
                | nil => intro e e' h0 _; exact h0
                | cons r rs ih2 =>
                  intro e e' h0 hf y
                  cases hgr : given r.key (L.others args) with
                  | some _ =>
                    simp only [setOthers, hgr]
                    exact ih2 e e' h0 (fun q hq => hf q (List.mem_cons_of_mem _ hq)) y
                  | none =>
                    simp only [setOthers, hgr]
                    refine ih2 e _ ?_ (fun q hq => hf q (List.mem_cons_of_mem _ hq)) y
                    intro z
                    by_cases hz : z = r.var
                    · left; rw [hz]; exact hf r List.mem_cons_self hgr
                    · rw [set_other hz]; exact h0 z
              rcases keep (k :: qs) e e (fun _ => .inr rfl) hf x with h1 | h1
              · exact .inr h1
              · exact .inl h1.symm
          · cases hgq : given q.key (L.others args) with
            | some _ =>
              simp only [setOthers, hgq]
              exact ih _ hn.2 hm (fun r hr => hf r (List.mem_cons_of_mem _ hr))
            | none =>
              simp only [setOthers, hgq]
              refine ih _ hn.2 hm ?_
              intro r hr hgr
              have hne : r.var ≠ q.var := fun h' => hn.1 (h' ▸ List.mem_map.2 ⟨r, hr, rfl⟩)
              rw [set_other hne]
              exact hf r (List.mem_cons_of_mem _ hr) hgr
      have hvw := w.vars
      rw [LL.vars, hks] at hvw
      have hb1 : ∀ q ∈ ks, bound₁ L args q.var = none := by
        intro q hq
        have hm : q.var ∈ ks.map KPar.var := List.mem_map.2 ⟨q, hq, rfl⟩
        have n1 := List.nodup_append.1 hvw
        have n2 := List.nodup_append.1 n1.2.1
        have n3 := List.nodup_append.1 n2.2.1
        have hr : q.var ∉ L.rest.toList := fun hx => n3.2.2 _ hx _ (List.mem_append_left _ hm) rfl
        have ho : q.var ∉ L.opt.map Par.var :=
          fun hx => n2.2.2 _ hx _ (List.mem_append_right _ (List.mem_append_left _ hm)) rfl
        have hq' : q.var ∉ L.req :=
          fun hx => n1.2.2 _ hx _ (List.mem_append_right _ (List.mem_append_right _ (List.mem_append_left _ hm))) rfl
        have : bound₁ L args q.var = setOpt L.opt (args.drop L.req.length) (setReq L.req args fun _ => none) q.var := by
          unfold bound₁ setRest
          cases hr' : L.rest with
          | none => rfl
          | some y => rw [hr'] at hr; exact set_other (by simpa using hr)
        rw [this, setOpt_oth _ _ _ _ ho, setReq_oth _ _ _ _ hq']
      obtain ⟨e₁, h1, h2⟩ := this ks (setGiven (L.others args) ks (bound₁ L args)) hv3.1 hkm (by
        intro q hq hgq
        rw [setGiven_at _ _ _ hv3.1 q hq, hgq]
        exact hb1 q hq)
      refine ⟨e₁, he.trans h1, ?_⟩
      intro x _
      by_cases hxa : x ∈ L.auxs.map Par.var
      · right
        rcases h2 x with h3 | h3
        · rw [h3]
          have n1 := List.nodup_append.1 hvw
          have n2 := List.nodup_append.1 n1.2.1
          have n3 := List.nodup_append.1 n2.2.1
          have hk' : x ∉ ks.map KPar.var := fun hx => hv3.2.2 _ hx _ hxa rfl
          have hr : x ∉ L.rest.toList := fun hx => n3.2.2 _ hx _ (List.mem_append_right _ hxa) rfl
          have ho : x ∉ L.opt.map Par.var :=
            fun hx => n2.2.2 _ hx _ (List.mem_append_right _ (List.mem_append_right _ hxa)) rfl
          have hq' : x ∉ L.req :=
            fun hx => n1.2.2 _ hx _ (List.mem_append_right _ (List.mem_append_right _ (List.mem_append_right _ hxa))) rfl
          rw [setOthers_oth _ _ _ _ hk', setGiven_oth _ _ _ _ hk']
          have : bound₁ L args x = setOpt L.opt (args.drop L.req.length) (setReq L.req args fun _ => none) x := by
            unfold bound₁ setRest
            cases hr' : L.rest with
            | none => rfl
            | some y => rw [hr'] at hr; exact set_other (by simpa using hr)
          rw [this, setOpt_oth _ _ _ _ ho, setReq_oth _ _ _ _ hq']
        · exact h3
      · rcases h2 x with h3 | h3
        · left
          rw [h3, ← h]
          unfold bound
          rw [hks, setOpt_oth _ _ _ _ hxa]
        · exact .inr h3
  · rw [if_neg hA] at h; cases h

/-- `(f 1 2 :k 5 :k 6)`: `:k` is 5, `x` nil. -/
example : Wf sample ∧ ∃ e, funlambda sample.items [.other 1, .other 2, .kw 20, .other 5, .kw 20, .other 6] = .ok e ∧
    e 14 = some (.one (.other 5)) ∧ e 13 = some (.one nil) := ⟨sample_wf, _, rfl, by decide, by decide⟩

/-- C50: when `:allow-other-keys` is not among the arguments, a call with enough arguments is accepted exactly when the arguments after the
positional ones are keywords and values and, unless the lambda list has `&allow-other-keys`, all keywords are those of parameters.  Missing:
the meaning of `:allow-other-keys` (`C50_allow_partial`). -/
theorem C50_known_partial {L : LL} (w : Wf L) {ks : List KPar} {allow : Bool} (hk : L.key = some (ks, allow)) (args : List Obj)
    (hn : L.req.length ≤ args.length) (h0 : Obj.kw 0 ∉ L.others args) :
    (∃ e, funlambda L.items args = .ok e) ↔
      ∃ ps, L.others args = pairs ps ∧ (allow = true ∨ ∀ q ∈ ps, ∃ k ∈ ks, k.key = q.1) := by
  rw [funlambda_eq w args (.inr (.inr (.inl (by simp [hk]))))]
  have hA : Accepts L args ↔ Proper (ks.map KPar.key) allow (L.others args) := by
    constructor
    · intro h
      have := h.2.2
      rw [hk] at this
      exact this
    · intro h
      refine ⟨hn, .inr (.inl (by simp [hk])), ?_⟩
      rw [hk]; exact h
  have h1 : (∃ e, (if Accepts L args then R.ok (bound L args) else .err) = .ok e) ↔ Accepts L args := by
    by_cases h : Accepts L args
    · rw [if_pos h]; exact ⟨fun _ => h, fun _ => ⟨_, rfl⟩⟩
    · rw [if_neg h]; exact ⟨fun ⟨_, h'⟩ => (by cases h'), fun h' => absurd h' h⟩
  rw [h1, hA]
  have hp0 : ∀ ps : List (Nat × Obj), L.others args = pairs ps → ∀ q ∈ ps, q.1 ≠ 0 := by
    intro ps hps q hq hq0
    apply h0
    rw [hps]
    clear hps
    induction ps with
    | nil => simp at hq
    | cons r ps ih =>
      obtain ⟨a, v⟩ := r
      rcases List.mem_cons.1 hq with rfl | hq
      · simp only [pairs]
        dsimp only at hq0
        rw [hq0]; exact List.mem_cons_self
      · exact List.mem_cons_of_mem _ (List.mem_cons_of_mem _ (ih hq))
  have hmap : ∀ ps : List (Nat × Obj), (∀ q ∈ ps, q.1 ∈ ks.map KPar.key) ↔ ∀ q ∈ ps, ∃ k ∈ ks, k.key = q.1 := by
    intro ps; simp only [List.mem_map]
  constructor
  · intro h
    obtain ⟨ps, hps⟩ := proper_pairs _ _ (Nat.le_refl _) _ h
    refine ⟨ps, hps, ?_⟩
    rw [hps, proper_plain allow ps (hp0 ps hps)] at h
    rwa [hmap] at h
  · rintro ⟨ps, hps, h⟩
    rw [hps, proper_plain allow ps (hp0 ps hps), hmap]
    exact h

example : Obj.kw 0 ∉ sample.others [.other 1, .other 2, .kw 20, .other 5] := by decide

/-- C50: a call whose keywords and values begin with `:allow-other-keys t`, and do not take it back, is accepted whatever the other keywords. -/
theorem C50_allow_partial {L : LL} (w : Wf L) {ks : List KPar} {allow : Bool} (hk : L.key = some (ks, allow)) (args : List Obj)
    (hn : L.req.length ≤ args.length) (v : Obj) (hv : v ≠ nil) (ps : List (Nat × Obj)) (hps : L.others args = pairs ((0, v) :: ps))
    (h0 : ∀ q ∈ ps, q.1 = 0 → q.2 ≠ nil) : ∃ e, funlambda L.items args = .ok e := by
  rw [funlambda_eq w args (.inr (.inr (.inl (by simp [hk]))))]
  have hA : Accepts L args := by
    refine ⟨hn, .inr (.inl (by simp [hk])), ?_⟩
    rw [hk]
    show Proper (ks.map KPar.key) allow (L.others args)
    rw [hps, pairs, Proper]
    simp only [if_true, hv, ne_eq, not_false_eq_true, decide_true, or_true, true_and]
    exact proper_allowed ps h0
  rw [if_pos hA]
  exact ⟨_, rfl⟩

example : sample.others [.other 1, .other 2, .kw 0, .other 1, .kw 99, .other 5] = pairs [(0, .other 1), (99, .other 5)] := by decide

/-- The missing part is wrong: an unknown keyword before `:allow-other-keys t` is rejected, by interpreted and by compiled functions; and
`:allow-other-keys nil` is itself rejected as an unknown keyword, and overrides `&allow-other-keys`. -/
theorem C50_allow_wrong (junk : List Obj) :
    funlambda sample.items [.other 1, .other 2, .kw 99, .other 5, .kw 0, .other 1] = .err ∧
    compiled junk sample.items [.other 1, .other 2, .kw 99, .other 5, .kw 0, .other 1] = .err ∧
    funlambda sample.items [.other 1, .other 2, .kw 0, nil] = .err ∧
    compiled junk sample.items [.other 1, .other 2, .kw 0, nil] = .err ∧
    funlambda (LL.items { sample with key := some ([], true) }) [.other 1, .other 2, .kw 99, .other 5] ≠ .err ∧
    funlambda (LL.items { sample with key := some ([], true) }) [.other 1, .other 2, .kw 0, nil, .kw 99, .other 5] = .err :=
  ⟨rfl, rfl, rfl, rfl, nofun, rfl⟩

/-- C50 for compiled functions: the table of up to 32 keywords.  The call is an error unless the arguments are proper; the bits say which
keywords occur, and the values are those of the first occurrences. -/
theorem C50_compiled_partial (keys : List Nat) (hk : keys.Nodup) (hs : keys.length ≤ 32) (args : List Obj) (allow : Bool) (junk : List Obj) :
    (Proper keys allow args ∧ ∃ bits results, parsekeyparams keys args allow junk = some (some (bits, results)) ∧
      (∀ (i k : Nat), keys[i]? = some k → (i ∈ bits ↔ (given k args).isSome)) ∧
      (∀ (i k : Nat) (v : Obj), keys[i]? = some k → given k args = some v → results[i]? = some v)) ∨
    (¬ Proper keys allow args ∧ parsekeyparams keys args allow junk = some none) := parsekeyparams_eq keys hk hs args allow junk

example : Proper [20, 21] false [.kw 21, .other 3] ∧ ¬ Proper [20, 21] false [.kw 22, .other 3] := ⟨by decide, by decide⟩

/-- The missing part is wrong: a compiled function with more than 32 keyword parameters (the compiler accepts up to 127) shifts by 32 or more
when the 33rd is given. -/
theorem C50_many_wrong (junk : List Obj) :
    parsekeyparams ((List.range 33).map (· + 6)) [.kw 38, .other 1] false junk = none := rfl

/-! ### C89 -/

/-- C89: a call of a compiled function is accepted and binds the parameters as the lambda list says, each default form seeing the
parameters before it.  Missing: lambda lists where `&aux` follows `&key`, `&key` without parameters, and more than 32 keywords. -/
theorem C89_compiled_partial {L : LL} (w : Wf L) (c : CompOk L) (junk args : List Obj) :
    (Accepts L args ∧ ∃ e, compiled junk L.items args = .ok e ∧ ∀ x, 5 < x → e x = boundSeq L args x) ∨
    (¬ Accepts L args ∧ compiled junk L.items args = .err) := compiled_eq w c junk args

/-- A default form that does not look at keyword parameters. -/
def Outside (L : LL) (f : Env → BV) : Prop := ∀ e e' : Env, (∀ x, x ∉ L.keys.map KPar.var → e x = e' x) → f e = f e'

/-- With such default forms the two orders of binding agree. -/
theorem bound_eq {L : LL} (w : Wf L) (ho : ∀ k ∈ L.keys, Outside L k.default) (args : List Obj) : bound L args = boundSeq L args := by
  have hv3 := List.nodup_append.1 (List.nodup_append.1 w.tail.vars).2.1
  unfold bound boundSeq
  dsimp only
  congr 1
  generalize args.drop (L.req.length + L.opt.length) = as
  generalize bound₁ L args = e
  -- the value of a default form anywhere in between
  have gen : ∀ (ks : List KPar) (e e₀ : Env), (∀ k ∈ ks, k ∈ L.keys) → (ks.map KPar.var).Nodup → (∀ x, x ∉ L.keys.map KPar.var → e x = e₀ x) →
      (∀ k ∈ ks, setOthers as ks e k.var = match given k.key as with | some _ => e k.var | none => some (k.default e₀)) := by
    intro ks
    induction ks with
    | nil => intro e e₀ _ _ _ k hk; simp at hk
    | cons q ks ih =>
      intro e e₀ hs hn hag k hk
      rw [List.map_cons, List.nodup_cons] at hn
      have hs' := fun k hk => hs k (List.mem_cons_of_mem _ hk)
      cases hg : given q.key as with
      | some v =>
        simp only [setOthers, hg]
        rcases List.mem_cons.1 hk with rfl | hk
        · rw [setOthers_oth _ _ _ _ hn.1, hg]
        · exact ih e e₀ hs' hn.2 hag k hk
      | none =>
        simp only [setOthers, hg]
        have hqin : q.var ∈ L.keys.map KPar.var := List.mem_map.2 ⟨q, hs q List.mem_cons_self, rfl⟩
        have hag' : ∀ x, x ∉ L.keys.map KPar.var → set e q.var (q.default e) x = e₀ x := by
          intro x hx
          rw [set_other (fun h => hx (by rw [h]; exact hqin))]
          exact hag x hx
        rcases List.mem_cons.1 hk with rfl | hk
        · rw [setOthers_oth _ _ _ _ hn.1, hg, set_same]
          dsimp only
          rw [ho k (hs k List.mem_cons_self) e e₀ hag]
        · rw [ih _ e₀ hs' hn.2 hag' k hk]
          have hne : k.var ≠ q.var := fun h' => hn.1 (h' ▸ List.mem_map.2 ⟨k, hk, rfl⟩)
          rw [set_other hne]
  have keysOth : ∀ (ks : List KPar) (e : Env) (x : Nat), x ∉ ks.map KPar.var → setKeys as ks e x = e x := by
    intro ks
    induction ks with
    | nil => intro e x _; rfl
    | cons q ks ih =>
      intro e x hx
      simp only [List.map_cons, List.mem_cons, not_or] at hx
      cases hg : given q.key as <;> simp only [setKeys, hg] <;> rw [ih _ x hx.2, set_other hx.1]
  have genK : ∀ (ks : List KPar) (e e₀ : Env), (∀ k ∈ ks, k ∈ L.keys) → (ks.map KPar.var).Nodup → (∀ x, x ∉ L.keys.map KPar.var → e x = e₀ x) →
      (∀ k ∈ ks, setKeys as ks e k.var = match given k.key as with | some v => some (.one v) | none => some (k.default e₀)) := by
    intro ks
    induction ks with
    | nil => intro e e₀ _ _ _ k hk; simp at hk
    | cons q ks ih =>
      intro e e₀ hs hn hag k hk
      rw [List.map_cons, List.nodup_cons] at hn
      have hs' := fun k hk => hs k (List.mem_cons_of_mem _ hk)
      have hqin : q.var ∈ L.keys.map KPar.var := List.mem_map.2 ⟨q, hs q List.mem_cons_self, rfl⟩
      have hag' : ∀ v x, x ∉ L.keys.map KPar.var → set e q.var v x = e₀ x := by
        intro v x hx
        rw [set_other (fun h => hx (by rw [h]; exact hqin))]
        exact hag x hx
      cases hg : given q.key as with
      | some v =>
        simp only [setKeys, hg]
        rcases List.mem_cons.1 hk with rfl | hk
        · rw [keysOth _ _ _ hn.1, hg, set_same]
        · exact ih _ e₀ hs' hn.2 (hag' _) k hk
      | none =>
        simp only [setKeys, hg]
        rcases List.mem_cons.1 hk with rfl | hk
        · rw [keysOth _ _ _ hn.1, hg, set_same]
          dsimp only
          rw [ho k (hs k List.mem_cons_self) e e₀ hag]
        · exact ih _ e₀ hs' hn.2 (hag' _) k hk
  funext x
  by_cases hx : x ∈ L.keys.map KPar.var
  · obtain ⟨k, hk, rfl⟩ := List.mem_map.1 hx
    rw [gen L.keys _ e (fun _ h => h) hv3.1 (fun y hy => setGiven_oth _ _ _ _ hy) k hk, genK L.keys e e (fun _ h => h) hv3.1 (fun _ _ => rfl) k hk]
    cases hg : given k.key as with
    | some v => rw [setGiven_at _ _ _ hv3.1 k hk, hg]; rfl
    | none => rfl
  · rw [setOthers_oth _ _ _ _ hx, setGiven_oth _ _ _ _ hx, keysOth _ _ _ hx]

/-- C89: compiling a function does not change which calls it accepts nor what its parameters are bound to, when no default form of a keyword
parameter looks at keyword parameters. -/
theorem C89_same_partial {L : LL} (w : Wf L) (c : CompOk L) (ho : ∀ k ∈ L.keys, Outside L k.default) (junk args : List Obj)
    (hx : L.aux = none ∨ L.rest.isSome ∨ L.key.isSome ∨ args.length ≤ L.req.length + L.opt.length) :
    (∃ e e', funlambda L.items args = .ok e ∧ compiled junk L.items args = .ok e' ∧ ∀ x, 5 < x → e' x = e x) ∨
    (funlambda L.items args = .err ∧ compiled junk L.items args = .err) := by
  rw [funlambda_eq w args hx, bound_eq w ho]
  rcases compiled_eq w c junk args with ⟨h1, e, h2, h3⟩ | ⟨h1, h2⟩
  · rw [if_pos h1]
    exact .inl ⟨_, e, rfl, h2, h3⟩
  · rw [if_neg h1]
    exact .inr ⟨rfl, h2⟩

example : Wf sample ∧ CompOk sample ∧ ∀ k ∈ sample.keys, Outside sample k.default := by
  refine ⟨sample_wf, sample_comp, ?_⟩
  intro k hk e e' h
  have hk' : k = .plain ⟨13, none⟩ ∨ k = .named 20 14 fun e => (e 10).getD (.one nil) := by
    simpa [sample, LL.keys] using hk
  rcases hk' with rfl | rfl
  · rfl
  · have := h 10 (by decide)
    simp only [KPar.default, this]

/-- The missing parts are wrong.  `(&key (x y) y)`: with `:y 5` the interpreted function gives `x` the
value 5, the compiled one does not see `y`. -/
theorem C89_scope_wrong (junk : List Obj) :
    let L : LL := ⟨[], [], none, some ([.plain ⟨10, some fun e => (e 11).getD (.one nil)⟩, .plain ⟨11, none⟩], false), none⟩
    Wf L ∧ CompOk L ∧ (∃ e, funlambda L.items [.kw 11, .other 5] = .ok e ∧ e 10 = some (.one (.other 5))) ∧
    ∃ e, compiled junk L.items [.kw 11, .other 5] = .ok e ∧ e 10 = some (.one nil) :=
  ⟨⟨by decide, by decide, by decide, by decide⟩,
   ⟨.inr rfl, fun q h => by injection h with h; subst h; simp, by decide, by simp [LL.auxs]⟩, ⟨_, rfl, by decide⟩, _, rfl, by decide⟩

/-- `(&key x &aux y)`: the compiled function takes `:y` for a keyword parameter, the interpreted one rejects it. -/
theorem C89_aux_wrong (junk : List Obj) :
    let L : LL := ⟨[], [], none, some ([.plain ⟨10, none⟩], false), some [⟨11, none⟩]⟩
    Wf L ∧ funlambda L.items [.kw 11, .other 5] = .err ∧ ∃ e, compiled junk L.items [.kw 11, .other 5] = .ok e :=
  ⟨⟨by decide, by decide, by decide, by decide⟩, rfl, _, rfl⟩

/-- `(a &aux b)` with two arguments: the interpreted function accepts them, the compiled one does not.  `(&key &allow-other-keys)`: the
compiled function accepts no arguments at all. -/
theorem C89_count_wrong (junk : List Obj) :
    (∃ e, funlambda (LL.items ⟨[10], [], none, none, some [⟨11, none⟩]⟩) [.other 1, .other 2] = .ok e) ∧
    compiled junk (LL.items ⟨[10], [], none, none, some [⟨11, none⟩]⟩) [.other 1, .other 2] = .err ∧
    (∃ e, funlambda (LL.items ⟨[], [], none, some ([], true), none⟩) [.kw 10, .other 2] = .ok e) ∧
    compiled junk (LL.items ⟨[], [], none, some ([], true), none⟩) [.kw 10, .other 2] = .err :=
  ⟨⟨_, rfl⟩, rfl, ⟨_, rfl⟩, rfl⟩

end Eus.Lam
