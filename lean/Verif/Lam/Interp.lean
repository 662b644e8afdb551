import Verif.Lam.Proofs
set_option autoImplicit false
/-! Interpreted functions. -/
namespace Eus.Lam

/-- The lambda list from `&rest` on. -/
def LL.tail (L : LL) : List Item := L.restItems ++ (L.keyItems ++ L.auxItems)

/-- What is asked of the arguments from number `n` on. -/
def TailOk (L : LL) (args : List Obj) (n : Nat) : Prop :=
  (L.rest.isSome ∨ L.key.isSome ∨ args.length ≤ n) ∧
  (match L.key with
   | none => True
   | some (ks, allow) => Proper (ks.map KPar.key) allow (args.drop n))

instance (L : LL) (args : List Obj) (n : Nat) : Decidable (TailOk L args n) := by
  unfold TailOk
  have : Decidable (match L.key with
   | none => True
   | some (ks, allow) => Proper (ks.map KPar.key) allow (args.drop n)) := by
    split <;> infer_instance
  infer_instance

def tailSpec (L : LL) (args : List Obj) (n : Nat) (e : Env) : R :=
  if TailOk L args n then
    .ok (setOpt L.auxs [] (setOthers (args.drop n) L.keys (setGiven (args.drop n) L.keys (setRest L.rest (args.drop n) e))))
  else .err

def LL.tailVars (L : LL) : List Nat := L.rest.toList ++ (L.keys.map KPar.var ++ L.auxs.map Par.var)

structure TailWf (L : LL) : Prop where
  vars : L.tailVars.Nodup
  real : ∀ x ∈ L.tailVars, 5 < x
  keys : (L.keys.map KPar.key).Nodup
  few : L.keys.length < 128

theorem key_eq {L : LL} (w : TailWf L) {ks : List KPar} {allow : Bool} (hk : L.key = some (ks, allow)) (args : List Obj) (e : Env)
    (hf : Fresh (L.keys.map KPar.var ++ L.auxs.map Par.var) e) :
    bindkey (keyTail ks allow L.auxItems) args e =
      if Proper (ks.map KPar.key) allow args then .ok (setOpt L.auxs [] (setOthers args ks (setGiven args ks e))) else .err := by
  have hks : L.keys = ks := by simp [LL.keys, hk]
  have hv := (List.nodup_append.1 w.vars).2.1
  rw [hks] at hf hv
  refine bindkey_eq L ks allow args e (hks ▸ w.keys) hv ?_ (hks ▸ w.few) hf
  intro k hk'
  exact w.real _ (List.mem_append_right _ (List.mem_append_left _ (by rw [hks]; exact List.mem_map.2 ⟨k, hk', rfl⟩)))

theorem keyItems_eq {L : LL} {ks : List KPar} {allow : Bool} (hk : L.key = some (ks, allow)) :
    L.keyItems ++ L.auxItems = .sym KEY :: keyTail ks allow L.auxItems := by
  simp [LL.keyItems, hk, keyTail]

theorem aux_eq {L : LL} (w : TailWf L) (e : Env) (hf : Fresh (L.auxs.map Par.var) e) :
    bindaux (L.auxs.map Par.item) e = .ok (setOpt L.auxs [] e) :=
  bindaux_eq _ _ (List.nodup_append.1 (List.nodup_append.1 w.vars).2.1).2.1 hf

theorem rest_eq {L : LL} (w : TailWf L) {x : Nat} (hr : L.rest = some x) (args : List Obj) (n : Nat) (e : Env) (hf : Fresh L.tailVars e) :
    bindrest (.sym x :: (L.keyItems ++ L.auxItems)) args n e = tailSpec L args n e := by
  have hx : e x = none := hf x (by simp [LL.tailVars, hr])
  have hvx := w.vars
  rw [LL.tailVars, hr] at hvx
  simp only [Option.toList_some, List.singleton_append, List.nodup_cons] at hvx
  have hf' : Fresh (L.keys.map KPar.var ++ L.auxs.map Par.var) (set e x (.list (args.drop n))) :=
    Fresh.set (fun y hy => hf y (List.mem_append_right _ hy)) hvx.1
  rw [bindrest, vbind_free hx]
  cases hk : L.key with
  | some q =>
    obtain ⟨ks, allow⟩ := q
    have hks : L.keys = ks := by simp [LL.keys, hk]
    rw [keyItems_eq hk]
    simp only [if_true]
    rw [key_eq w hk _ _ hf', tailSpec]
    have : TailOk L args n ↔ Proper (ks.map KPar.key) allow (args.drop n) := by
      simp [TailOk, hk]
    simp only [this, hks, hr, setRest]
  | none =>
    have hks : L.keys = [] := by simp [LL.keys, hk]
    have : TailOk L args n := by simp [TailOk, hk, hr]
    rw [tailSpec, if_pos this, hks, hr]
    cases ha : L.aux with
    | none => simp [LL.keyItems, hk, LL.auxItems, ha, LL.auxs, setOpt, setOthers, setGiven, setRest]
    | some ps =>
      have hps : L.auxs = ps := by simp [LL.auxs, ha]
      simp only [LL.keyItems, hk, LL.auxItems, ha, List.nil_append]
      rw [if_neg (by decide), if_pos trivial, ← hps, aux_eq w]
      · rfl
      · exact fun y hy => hf' y (List.mem_append_right _ hy)

theorem Fresh.tail {L : LL} {e : Env} (hf : Fresh L.tailVars e) : Fresh (L.keys.map KPar.var ++ L.auxs.map Par.var) e :=
  fun y hy => hf y (List.mem_append_right _ hy)

theorem tail_opt {L : LL} (w : TailWf L) (args : List Obj) (n : Nat) (e : Env) (hf : Fresh L.tailVars e)
    (hx : L.aux = none ∨ L.rest.isSome ∨ L.key.isSome ∨ args.length ≤ n) :
    bindopt L.tail args n e = tailSpec L args n e := by
  cases hr : L.rest with
  | some x =>
    simp only [LL.tail, LL.restItems, hr, List.cons_append, List.nil_append]
    rw [bindopt, if_pos rfl, rest_eq w hr _ _ _ hf]
  | none =>
    cases hk : L.key with
    | some q =>
      obtain ⟨ks, allow⟩ := q
      have hks : L.keys = ks := by simp [LL.keys, hk]
      simp only [LL.tail, LL.restItems, hr, List.nil_append]
      rw [keyItems_eq hk, bindopt, if_neg (by decide), if_pos rfl, key_eq w hk _ _ hf.tail, tailSpec]
      have : TailOk L args n ↔ Proper (ks.map KPar.key) allow (args.drop n) := by
        simp [TailOk, hk]
      simp only [this, hks, hr, setRest]
    | none =>
      have hks : L.keys = [] := by simp [LL.keys, hk]
      have hT : TailOk L args n ↔ args.length ≤ n := by simp [TailOk, hk, hr]
      rw [tailSpec]
      simp only [hT, hks, hr, setOthers, setGiven, setRest]
      cases ha : L.aux with
      | none =>
        simp only [LL.tail, LL.restItems, hr, LL.keyItems, hk, LL.auxItems, ha, List.nil_append, bindopt, LL.auxs, Option.getD_none, setOpt]
        by_cases hn : args.length ≤ n
        · rw [if_neg (by omega), if_pos hn]
        · rw [if_pos (by omega), if_neg hn]
      | some ps =>
        have hps : L.auxs = ps := by simp [LL.auxs, ha]
        have hle : args.length ≤ n := by
          rcases hx with h | h | h | h
          · rw [h] at ha; cases ha
          · rw [hr] at h; cases h
          · rw [hk] at h; cases h
          · exact h
        rw [if_pos hle]
        simp only [LL.tail, LL.restItems, hr, LL.keyItems, hk, LL.auxItems, ha, List.nil_append]
        rw [bindopt, if_neg (by decide), if_neg (by decide), if_pos rfl, ← hps, aux_eq w]
        exact fun y hy => hf.tail y (List.mem_append_right _ hy)

theorem tail_req {L : LL} (w : TailWf L) (args : List Obj) (n : Nat) (e : Env) (hf : Fresh L.tailVars e)
    (hx : L.aux = none ∨ L.rest.isSome ∨ L.key.isSome ∨ args.length ≤ n) (hn : n ≤ args.length) :
    bindreq L.tail args n e = tailSpec L args n e := by
  rw [← tail_opt w args n e hf hx]
  cases hr : L.rest with
  | some x =>
    simp only [LL.tail, LL.restItems, hr, List.cons_append, List.nil_append]
    rw [bindreq, if_neg (by decide), if_pos rfl, bindopt, if_pos rfl]
  | none =>
    cases hk : L.key with
    | some q =>
      obtain ⟨ks, allow⟩ := q
      simp only [LL.tail, LL.restItems, hr, List.nil_append]
      rw [keyItems_eq hk, bindreq, bindopt, if_neg (by decide), if_neg (by decide), if_pos rfl, if_neg (by decide), if_pos rfl]
    | none =>
      cases ha : L.aux with
      | none =>
        simp only [LL.tail, LL.restItems, hr, LL.keyItems, hk, LL.auxItems, ha, List.nil_append, bindopt, bindreq]
        by_cases h : n = args.length
        · rw [if_neg (by omega), if_neg (by omega)]
        · rw [if_pos (by omega), if_pos (by omega)]
      | some ps =>
        simp only [LL.tail, LL.restItems, hr, LL.keyItems, hk, LL.auxItems, ha, List.nil_append]
        rw [bindreq, bindopt, if_neg (by decide), if_neg (by decide), if_neg (by decide), if_pos rfl, if_neg (by decide), if_neg (by decide),
          if_pos rfl]

theorem opts_eq {L : LL} (args : List Obj) : ∀ (ps : List Par) (n : Nat) (e : Env), (ps.map Par.var).Nodup → (∀ p ∈ ps, 5 < p.var) →
    Fresh (ps.map Par.var) e →
    bindopt (ps.map Par.item ++ L.tail) args n e = bindopt L.tail args (n + ps.length) (setOpt ps (args.drop n) e)
  | [], n, e, _, _, _ => by simp [setOpt]
  | p :: ps, n, e, hn, hr, hf => by
    simp only [List.map_cons, List.nodup_cons] at hn
    have h1 : e p.var = none := hf _ List.mem_cons_self
    have h5 := hr p List.mem_cons_self
    have h2 : Fresh (ps.map Par.var) e := fun y hy => hf y (List.mem_cons_of_mem _ hy)
    have hr' := fun q hq => hr q (List.mem_cons_of_mem _ hq)
    have hval : bindopt ((p :: ps).map Par.item ++ L.tail) args n e =
        bindopt (ps.map Par.item ++ L.tail) args (n + 1)
          (set e p.var (match args[n]? with | some a => .one a | none => p.default e)) := by
      cases hi : p.init with
      | none =>
        simp only [List.map_cons, Par.item, hi, List.cons_append, bindopt, Par.default]
        rw [if_neg (by show p.var ≠ 2; omega), if_neg (by show p.var ≠ 3; omega), if_neg (by show p.var ≠ 4; omega), vbind_free h1]
        cases args[n]? <;> rfl
      | some f =>
        simp only [List.map_cons, Par.item, hi, List.cons_append, bindopt, Par.default]
        rw [vbind_free h1]
        cases args[n]? <;> rfl
    rw [hval, opts_eq args ps (n + 1) _ hn.2 hr' (h2.set hn.1)]
    rw [show n + 1 + ps.length = n + (p :: ps).length by simp; omega]
    congr 1
    by_cases hlt : n < args.length
    · rw [List.getElem?_eq_getElem hlt, List.drop_eq_getElem_cons hlt]; rfl
    · rw [List.getElem?_eq_none (by omega), List.drop_eq_nil_of_le (by omega), List.drop_eq_nil_of_le (by omega)]; rfl

theorem reqs_eq (tail : List Item) (args : List Obj) : ∀ (xs : List Nat) (n : Nat) (e : Env), xs.Nodup → (∀ x ∈ xs, 5 < x) → Fresh xs e →
    bindreq (xs.map .sym ++ tail) args n e =
      if n + xs.length ≤ args.length ∨ xs = [] then bindreq tail args (n + xs.length) (setReq xs (args.drop n) e) else .err
  | [], n, e, _, _, _ => by simp [setReq]
  | x :: xs, n, e, hn, hr, hf => by
    simp only [List.nodup_cons] at hn
    have h1 : e x = none := hf _ List.mem_cons_self
    have h5 := hr x List.mem_cons_self
    have h2 : Fresh xs e := fun y hy => hf y (List.mem_cons_of_mem _ hy)
    simp only [List.map_cons, List.cons_append, bindreq]
    rw [if_neg (by show x ≠ 1; omega), if_neg (by show x ≠ 2; omega), if_neg (by show x ≠ 3; omega), if_neg (by show x ≠ 4; omega)]
    by_cases hlt : n < args.length
    · rw [List.getElem?_eq_getElem hlt]
      dsimp only
      rw [vbind_free h1, reqs_eq tail args xs (n + 1) _ hn.2 (fun q hq => hr q (List.mem_cons_of_mem _ hq)) (h2.set hn.1),
        List.drop_eq_getElem_cons hlt, setReq]
      simp only [List.length_cons, reduceCtorEq, or_false]
      by_cases h : n + 1 + xs.length ≤ args.length
      · rw [if_pos (.inl h), if_pos (by omega), show n + 1 + xs.length = n + (xs.length + 1) by omega]
      · rw [if_neg, if_neg (by omega)]
        rintro (h' | h')
        · exact h h'
        · subst h'; simp at h; omega
    · rw [List.getElem?_eq_none (by omega), if_neg]
      simp; omega

theorem setReq_oth : ∀ (xs : List Nat) (as : List Obj) (e : Env) (y : Nat), y ∉ xs → setReq xs as e y = e y
  | [], _, _, _, _ => by simp [setReq]
  | _ :: _, [], _, _, _ => by simp [setReq]
  | x :: xs, a :: as, e, y, h => by
    simp only [List.mem_cons, not_or] at h
    rw [setReq, setReq_oth xs as _ y h.2, set_other h.1]

theorem setOpt_oth : ∀ (ps : List Par) (as : List Obj) (e : Env) (y : Nat), y ∉ ps.map Par.var → setOpt ps as e y = e y
  | [], _, _, _, _ => by simp [setOpt]
  | p :: ps, [], e, y, h => by
    simp only [List.map_cons, List.mem_cons, not_or] at h
    rw [setOpt, setOpt_oth ps [] _ y h.2, set_other h.1]
  | p :: ps, a :: as, e, y, h => by
    simp only [List.map_cons, List.mem_cons, not_or] at h
    rw [setOpt, setOpt_oth ps as _ y h.2, set_other h.1]

theorem Wf.tail {L : LL} (w : Wf L) : TailWf L := by
  have h := w.vars
  rw [LL.vars] at h
  refine ⟨(List.nodup_append.1 (List.nodup_append.1 h).2.1).2.1, ?_, w.keys, w.few⟩
  intro x hx
  exact w.real x (List.mem_append_right _ (List.mem_append_right _ hx))

theorem funlambda_eq {L : LL} (w : Wf L) (args : List Obj)
    (hx : L.aux = none ∨ L.rest.isSome ∨ L.key.isSome ∨ args.length ≤ L.req.length + L.opt.length) :
    funlambda L.items args = if Accepts L args then .ok (bound L args) else .err := by
  have hv := w.vars
  rw [LL.vars] at hv
  have hv1 := List.nodup_append.1 hv
  have hv2 := List.nodup_append.1 hv1.2.1
  have hfr : ∀ xs : List Nat, Fresh xs (fun _ => none) := fun _ _ _ => rfl
  have hreal : ∀ x ∈ L.req, 5 < x := fun x hx' => w.real x (List.mem_append_left _ hx')
  have hrealo : ∀ p ∈ L.opt, 5 < p.var := fun p hp =>
    w.real _ (List.mem_append_right _ (List.mem_append_left _ (List.mem_map.2 ⟨p, hp, rfl⟩)))
  rw [funlambda, LL.items, reqs_eq _ args L.req 0 _ hv1.1 hreal (hfr _)]
  simp only [Nat.zero_add, List.drop_zero]
  have hAcc : Accepts L args ↔ L.req.length ≤ args.length ∧ TailOk L args (L.req.length + L.opt.length) := Iff.rfl
  by_cases hq : L.req.length ≤ args.length
  · rw [if_pos (.inl hq)]
    have key : bindreq (L.optItems ++ L.tail) args L.req.length (setReq L.req args fun _ => none) =
        tailSpec L args (L.req.length + L.opt.length) (setOpt L.opt (args.drop L.req.length) (setReq L.req args fun _ => none)) := by
      have hf1 : Fresh (L.opt.map Par.var) (setReq L.req args fun _ => none) := by
        intro y hy
        rw [setReq_oth _ _ _ _ (fun h => hv1.2.2 y h y (List.mem_append_left _ hy) rfl)]
      have hf2 : Fresh L.tailVars (setOpt L.opt (args.drop L.req.length) (setReq L.req args fun _ => none)) := by
        intro y hy
        rw [setOpt_oth _ _ _ _ (fun h => hv2.2.2 y h y hy rfl),
          setReq_oth _ _ _ _ (fun h => hv1.2.2 y h y (List.mem_append_right _ hy) rfl)]
      cases ho : L.opt with
      | nil =>
        rw [ho] at hf2 hx
        simp only [LL.optItems, ho, List.nil_append, List.length_nil, Nat.add_zero, setOpt] at hf2 hx ⊢
        exact tail_req w.tail args _ _ hf2 hx hq
      | cons p ps =>
        have : L.optItems ++ L.tail = .sym OPTIONAL :: (L.opt.map Par.item ++ L.tail) := by
          simp [LL.optItems, ho]
        rw [this, bindreq, if_pos rfl, opts_eq args L.opt _ _ hv2.1 hrealo hf1, tail_opt w.tail _ _ _ hf2 hx, ho]
    rw [LL.tail] at key
    rw [key, tailSpec]
    simp only [hAcc, hq, true_and]
    rfl
  · rw [if_neg, if_neg (fun h => hq (hAcc.1 h).1)]
    rintro (h | h)
    · exact hq h
    · rw [h] at hq; simp at hq

end Eus.Lam
