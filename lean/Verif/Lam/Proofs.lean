import Verif.Lam.Spec
import Mathlib.Data.List.Nodup
set_option autoImplicit false
namespace Eus.Lam

theorem set_same (e : Env) (x : Nat) (v : BV) : set e x v x = some v := by simp [set]
theorem set_other {e : Env} {x y : Nat} {v : BV} (h : y ≠ x) : set e x v y = e y := by simp [set, h]

theorem vbind_free {x : Nat} {v : BV} {e : Env} {k : Env → R} (h : e x = none) : vbind x v e k = k (set e x v) := by
  simp [vbind, h]

def Fresh (xs : List Nat) (e : Env) : Prop := ∀ x ∈ xs, e x = none

theorem Fresh.set {xs : List Nat} {e : Env} {x : Nat} {v : BV} (h : Fresh xs e) (hx : x ∉ xs) : Fresh xs (set e x v) := by
  intro y hy
  have hne : y ≠ x := fun h' => hx (h' ▸ hy)
  rw [set_other hne]; exact h y hy

/-! ### Auxiliary parameters -/

theorem bindaux_eq : ∀ (ps : List Par) (e : Env), (ps.map Par.var).Nodup → Fresh (ps.map Par.var) e →
    bindaux (ps.map Par.item) e = .ok (setOpt ps [] e)
  | [], e, _, _ => rfl
  | p :: ps, e, hn, hf => by
    simp only [List.map_cons, List.nodup_cons] at hn
    have h1 : e p.var = none := hf _ List.mem_cons_self
    have h2 : Fresh (ps.map Par.var) e := fun y hy => hf y (List.mem_cons_of_mem _ hy)
    cases hi : p.init with
    | none =>
      simp only [List.map_cons, Par.item, hi, bindaux, vbind_free h1]
      rw [bindaux_eq ps _ hn.2 (h2.set hn.1)]
      simp [setOpt, Par.default, hi]
    | some f =>
      simp only [List.map_cons, Par.item, hi, bindaux, vbind_free h1]
      rw [bindaux_eq ps _ hn.2 (h2.set hn.1)]
      simp [setOpt, Par.default, hi]

/-! ### Keywords -/

def KPar.kf (k : KPar) : KF := ⟨k.key, k.var, k.default⟩

theorem idx_lt {keys : List Nat} {a : Nat} (h : keys.findIdx (fun k => decide (k = a)) < keys.length) :
    keys[keys.findIdx (fun k => decide (k = a))]? = some a := by
  have := List.findIdx_getElem (w := h)
  rw [List.getElem?_eq_getElem h]
  simpa using this

theorem idx_mem {keys : List Nat} {a : Nat} : keys.findIdx (fun k => decide (k = a)) < keys.length ↔ a ∈ keys := by
  rw [List.findIdx_lt_length]; simp

theorem nodup_idx {keys : List Nat} (hn : keys.Nodup) {i j a : Nat} (hi : keys[i]? = some a) (hj : keys[j]? = some a) : i = j := by
  obtain ⟨h1, h2⟩ := List.getElem?_eq_some_iff.1 hi
  obtain ⟨h3, h4⟩ := List.getElem?_eq_some_iff.1 hj
  exact (hn.getElem_inj_iff).1 (h2.trans h4.symm)

/-- What the loop over keyword arguments ends with. -/
structure After (ks : List KPar) (args : List Obj) (done : List Nat) (e : Env) (done' : List Nat) (e' : Env) : Prop where
  mem : ∀ i k, ks[i]? = some k → (i ∈ done' ↔ (i ∈ done ∨ (given k.key args).isSome))
  old : ∀ i k, ks[i]? = some k → i ∈ done → e' k.var = e k.var
  new : ∀ i k, ks[i]? = some k → i ∉ done → e' k.var = ((given k.key args).map BV.one).or (e k.var)
  oth : ∀ x, x ∉ ks.map KPar.var → e' x = e x

theorem keyArgs_eq (ks : List KPar) (hk : (ks.map KPar.key).Nodup) (hv : (ks.map KPar.var).Nodup) (k : List Nat → Env → R) :
    ∀ (n : Nat) (args : List Obj), args.length ≤ n → ∀ (allow : Bool) (done : List Nat) (e : Env),
      (∀ i p, ks[i]? = some p → i ∉ done → e p.var = none) →
      (Proper (ks.map KPar.key) allow args ∧ ∃ done' e', After ks args done e done' e' ∧ keyArgs (ks.map KPar.kf) args allow done e k = k done' e') ∨
      (¬ Proper (ks.map KPar.key) allow args ∧ keyArgs (ks.map KPar.kf) args allow done e k = .err) := by
  intro n
  induction n with
  | zero =>
    intro args hl allow done e hf
    have : args = [] := List.length_eq_zero_iff.1 (by omega)
    subst this
    exact .inl ⟨trivial, done, e, ⟨by simp [given], by simp, by simp [given], by simp⟩, by simp [keyArgs]⟩
  | succ n ih =>
    intro args hl allow done e hf
    match args, hl with
    | [], _ => exact .inl ⟨trivial, done, e, ⟨by simp [given], by simp, by simp [given], by simp⟩, by simp [keyArgs]⟩
    | .sym _ :: _, _ => exact .inr ⟨id, by simp [keyArgs]⟩
    | .other _ :: _, _ => exact .inr ⟨id, by simp [keyArgs]⟩
    | [.kw _], _ => exact .inr ⟨id, by simp [keyArgs]⟩
    | .kw a :: v :: rest, hl =>
      have hl' : rest.length ≤ n := by simp at hl; omega
      have hidx : (ks.map KPar.kf).findIdx (fun f => decide (f.key = a)) = (ks.map KPar.key).findIdx (fun k => decide (k = a)) := by
        rw [List.findIdx_map, List.findIdx_map]; rfl
      rw [keyArgs]
      simp only [hidx]
      generalize hal : (if a = 0 then decide (v ≠ nil) else allow) = allow'
      have hP : Proper (ks.map KPar.key) allow (.kw a :: v :: rest) ↔
          (a ∈ ks.map KPar.key ∨ allow' = true) ∧ Proper (ks.map KPar.key) allow' rest := by
        rw [Proper, hal]
      rw [hP]
      generalize hi : (ks.map KPar.key).findIdx (fun k => decide (k = a)) = i
      have hgk : ∀ (j : Nat) (p : KPar), ks[j]? = some p → (ks.map KPar.key)[j]? = some p.key := by
        intro j p h; simp [h]
      by_cases hm : a ∈ ks.map KPar.key
      · have hlt := idx_mem.2 hm
        have hget := idx_lt hlt
        rw [hi] at hget hlt
        have hlt' : i < ks.length := by simpa using hlt
        obtain ⟨p, hp⟩ : ∃ p, ks[i]? = some p := ⟨ks[i], List.getElem?_eq_getElem hlt'⟩
        have hpa : p.key = a := by
          have := hgk i p hp; rw [hget] at this; exact (Option.some.inj this).symm
        have hkf : (ks.map KPar.kf)[i]? = some p.kf := by simp [hp]
        have hgiv : ∀ (j : Nat) (q : KPar), ks[j]? = some q → given q.key (.kw a :: v :: rest) = if j = i then some v else given q.key rest := by
          intro j q hq
          rw [given]
          by_cases hji : j = i
          · subst hji
            have : q = p := Option.some.inj (hq.symm.trans hp)
            rw [if_pos (by rw [this, hpa]), if_pos rfl]
          · rw [if_neg hji, if_neg]
            intro h
            exact hji (nodup_idx hk (hgk j q hq) (by rw [← h]; exact hget))
        simp only [hkf, hm, true_or, true_and]
        by_cases hd : i ∈ done
        · rw [if_pos hd]
          rcases ih rest hl' allow' done e hf with ⟨h1, d', e', h2, h3⟩ | ⟨h1, h2⟩
          · refine .inl ⟨h1, d', e', ⟨?_, h2.old, ?_, h2.oth⟩, h3⟩
            · intro j q hq
              rw [h2.mem j q hq, hgiv j q hq]
              by_cases hji : j = i
              · subst hji; simp [hd]
              · rw [if_neg hji]
            · intro j q hq hjd
              have hji : j ≠ i := fun h => hjd (h ▸ hd)
              rw [h2.new j q hq hjd, hgiv j q hq, if_neg hji]
          · exact .inr ⟨h1, h2⟩
        · rw [if_neg hd]
          have hfree : e p.kf.var = none := hf i p hp hd
          rw [vbind_free hfree]
          have hvi : ∀ (j : Nat) (q : KPar), ks[j]? = some q → j ≠ i → q.var ≠ p.kf.var := by
            intro j q hq hji h
            refine hji (nodup_idx hv (i := j) (j := i) (a := p.var) ?_ ?_)
            · simp only [List.getElem?_map, hq, Option.map_some, h]; rfl
            · simp [hp]
          have hf' : ∀ (j : Nat) (q : KPar), ks[j]? = some q → j ∉ i :: done → set e p.kf.var (.one v) q.var = none := by
            intro j q hq hj
            simp only [List.mem_cons, not_or] at hj
            rw [set_other (hvi j q hq hj.1)]
            exact hf j q hq hj.2
          rcases ih rest hl' allow' (i :: done) (set e p.kf.var (.one v)) hf' with ⟨h1, d', e', h2, h3⟩ | ⟨h1, h2⟩
          · refine .inl ⟨h1, d', e', ⟨?_, ?_, ?_, ?_⟩, h3⟩
            · intro j q hq
              rw [h2.mem j q hq, hgiv j q hq]
              by_cases hji : j = i
              · subst hji; simp
              · simp [hji]
            · intro j q hq hjd
              have hji : j ≠ i := fun h => hd (h ▸ hjd)
              rw [h2.old j q hq (List.mem_cons_of_mem _ hjd), set_other (hvi j q hq hji)]
            · intro j q hq hjd
              rw [hgiv j q hq]
              by_cases hji : j = i
              · subst hji
                have : q = p := Option.some.inj (hq.symm.trans hp)
                subst this
                rw [h2.old j q hq List.mem_cons_self, if_pos rfl]
                exact set_same _ _ _
              · rw [if_neg hji, h2.new j q hq (by simp [hji, hjd]), set_other (hvi j q hq hji)]
            · intro x hx
              rw [h2.oth x hx, set_other]
              intro h
              apply hx
              rw [h]
              exact List.mem_map.2 ⟨p, List.mem_of_getElem? hp, rfl⟩
          · exact .inr ⟨h1, h2⟩
      · have hnlt : ¬ i < (ks.map KPar.key).length := by
          rw [← hi]; exact fun h => hm (idx_mem.1 h)
        have hnone : (ks.map KPar.kf)[i]? = none := List.getElem?_eq_none (by simp at hnlt ⊢; exact hnlt)
        have hgiv : ∀ (j : Nat) (q : KPar), ks[j]? = some q → given q.key (.kw a :: v :: rest) = given q.key rest := by
          intro j q hq
          rw [given, if_neg]
          intro h
          apply hm
          rw [h]
          exact List.mem_map.2 ⟨q, List.mem_of_getElem? hq, rfl⟩
        simp only [hnone, hm, false_or]
        by_cases ha : allow' = true
        · rw [if_pos ha]
          simp only [ha, true_and]
          rcases ih rest hl' true done e hf with ⟨h1, d', e', h2, h3⟩ | ⟨h1, h2⟩
          · refine .inl ⟨h1, d', e', ⟨?_, h2.old, ?_, h2.oth⟩, h3⟩
            · intro j q hq; rw [h2.mem j q hq, hgiv j q hq]
            · intro j q hq hjd; rw [h2.new j q hq hjd, hgiv j q hq]
          · exact .inr ⟨h1, h2⟩
        · rw [if_neg ha]
          exact .inr ⟨fun h => ha h.1, rfl⟩

theorem setGiven_oth (args : List Obj) : ∀ (ks : List KPar) (e : Env) (x : Nat), x ∉ ks.map KPar.var → setGiven args ks e x = e x
  | [], _, _, _ => rfl
  | k :: ks, e, x, h => by
    simp only [List.map_cons, List.mem_cons, not_or] at h
    cases hg : given k.key args with
    | some v => simp only [setGiven, hg]; rw [setGiven_oth args ks _ x h.2, set_other h.1]
    | none => simp only [setGiven, hg]; exact setGiven_oth args ks _ x h.2

theorem setGiven_at (args : List Obj) : ∀ (ks : List KPar) (e : Env), (ks.map KPar.var).Nodup → ∀ k ∈ ks,
    setGiven args ks e k.var = ((given k.key args).map BV.one).or (e k.var)
  | q :: ks, e, hn, k, hk => by
    simp only [List.map_cons, List.nodup_cons] at hn
    rcases List.mem_cons.1 hk with h | h
    · subst h
      cases hg : given k.key args with
      | some v => simp only [setGiven, hg]; rw [setGiven_oth args ks _ _ hn.1, set_same]; rfl
      | none => simp only [setGiven, hg]; rw [setGiven_oth args ks _ _ hn.1]; rfl
    · have hne : k.var ≠ q.var := fun h' => hn.1 (h' ▸ List.mem_map.2 ⟨k, h, rfl⟩)
      cases hg : given q.key args with
      | some v => simp only [setGiven, hg]; rw [setGiven_at args ks _ hn.2 k h, set_other hne]
      | none => simp only [setGiven, hg]; exact setGiven_at args ks _ hn.2 k h

theorem After.eq {ks : List KPar} {args : List Obj} {e : Env} {done' : List Nat} {e' : Env} (hv : (ks.map KPar.var).Nodup)
    (h : After ks args [] e done' e') : e' = setGiven args ks e := by
  funext x
  by_cases hx : x ∈ ks.map KPar.var
  · obtain ⟨k, hk, rfl⟩ := List.mem_map.1 hx
    obtain ⟨i, hi⟩ := List.mem_iff_getElem?.1 hk
    rw [h.new i k hi (by simp), setGiven_at args ks e hv k hk]
  · rw [h.oth x hx, setGiven_oth args ks e x hx]

theorem keyDefaults_eq (args : List Obj) (done : List Nat) (k : Env → R) : ∀ (ks : List KPar) (i : Nat) (e : Env),
    (∀ j q, ks[j]? = some q → (i + j ∈ done ↔ (given q.key args).isSome)) → (ks.map KPar.var).Nodup →
    (∀ q ∈ ks, given q.key args = none → e q.var = none) →
    keyDefaults done i (ks.map KPar.kf) e k = k (setOthers args ks e)
  | [], _, e, _, _, _ => rfl
  | q :: ks, i, e, hd, hn, hf => by
    simp only [List.map_cons, List.nodup_cons] at hn
    have h0 := hd 0 q rfl
    rw [Nat.add_zero] at h0
    have hd' : ∀ j q, ks[j]? = some q → (i + 1 + j ∈ done ↔ (given q.key args).isSome) := by
      intro j q' hq
      have := hd (j + 1) q' (by simpa using hq)
      rwa [show i + 1 + j = i + (j + 1) by omega]
    rw [List.map_cons, keyDefaults, setOthers]
    cases hg : given q.key args with
    | some v =>
      rw [hg] at h0
      rw [if_pos (h0.2 rfl)]
      exact keyDefaults_eq args done k ks _ _ hd' hn.2 (fun q' hq' => hf q' (List.mem_cons_of_mem _ hq'))
    | none =>
      rw [hg] at h0
      rw [if_neg (fun h => by simpa using h0.1 h)]
      have : e q.kf.var = none := hf q List.mem_cons_self hg
      rw [vbind_free this]
      refine keyDefaults_eq args done k ks _ _ hd' hn.2 ?_
      intro q' hq' hg'
      have hne : q'.var ≠ q.kf.var := fun h => hn.1 (show q.kf.var ∈ _ from h ▸ List.mem_map.2 ⟨q', hq', rfl⟩)
      rw [set_other hne]
      exact hf q' (List.mem_cons_of_mem _ hq') hg'

/-- The lambda list from the keyword parameters on. -/
def keyTail (ks : List KPar) (allow : Bool) (aux : List Item) : List Item :=
  ks.map KPar.item ++ ((if allow then [.sym ALLOWOTHERKEYS] else []) ++ aux)

theorem keyTable_eq (allow : Bool) (L : LL) : ∀ (ks : List KPar), (∀ k ∈ ks, 5 < k.var) →
    keyTable (keyTail ks allow L.auxItems) = some (ks.map KPar.kf, allow)
  | [], _ => by
    cases allow <;> cases h : L.aux <;> simp [keyTail, keyTable, LL.auxItems, h, AUX, ALLOWOTHERKEYS]
  | k :: ks, hr => by
    have ih := keyTable_eq allow L ks (fun q hq => hr q (List.mem_cons_of_mem _ hq))
    have h5 := hr k List.mem_cons_self
    rw [keyTail] at ih ⊢
    cases k with
    | named k x f => simp [KPar.item, keyTable, ih, KPar.kf, KPar.key, KPar.var, KPar.default]
    | plain p =>
      have h5' : 5 < p.var := h5
      cases hi : p.init with
      | none =>
        simp only [List.map_cons, KPar.item, Par.item, hi, List.cons_append, keyTable]
        rw [if_neg (by show p.var ≠ 5; omega), if_neg (by show p.var ≠ 4; omega)]
        rw [ih]
        simp [KPar.kf, KPar.key, KPar.var, KPar.default]
        funext e
        simp [Par.default, hi]
      | some f =>
        simp only [List.map_cons, KPar.item, Par.item, hi, List.cons_append, keyTable, ih]
        simp [KPar.kf, KPar.key, KPar.var, KPar.default]
        funext e
        simp [Par.default, hi]

theorem afterAux_sym {x : Nat} (h : 5 < x) (r : List Item) : afterAux (.sym x :: r) = afterAux r := by
  rw [afterAux, if_neg (by show x ≠ 4; omega)]

theorem afterAux_eq (allow : Bool) (L : LL) : ∀ (ks : List KPar), (∀ k ∈ ks, 5 < k.var) →
    afterAux (keyTail ks allow L.auxItems) = L.auxs.map Par.item
  | [], _ => by
    cases allow <;> cases h : L.aux <;> simp [keyTail, afterAux, LL.auxItems, LL.auxs, h]
  | k :: ks, hr => by
    have ih := afterAux_eq allow L ks (fun q hq => hr q (List.mem_cons_of_mem _ hq))
    have h5 := hr k List.mem_cons_self
    rw [keyTail] at ih ⊢
    rw [← ih]
    cases k with
    | named k x f => rfl
    | plain p =>
      have h5' : 5 < p.var := h5
      cases hi : p.init with
      | none => simp only [List.map_cons, KPar.item, Par.item, hi, List.cons_append]; exact afterAux_sym h5' _
      | some f => simp only [List.map_cons, KPar.item, Par.item, hi, List.cons_append]; rfl

theorem setOthers_oth (args : List Obj) : ∀ (ks : List KPar) (e : Env) (x : Nat), x ∉ ks.map KPar.var → setOthers args ks e x = e x
  | [], _, _, _ => rfl
  | k :: ks, e, x, h => by
    simp only [List.map_cons, List.mem_cons, not_or] at h
    cases hg : given k.key args with
    | some v => simp only [setOthers, hg]; exact setOthers_oth args ks _ x h.2
    | none => simp only [setOthers, hg]; rw [setOthers_oth args ks _ x h.2, set_other h.1]

theorem bindkey_eq (L : LL) (ks : List KPar) (allow : Bool) (args : List Obj) (e : Env)
    (hk : (ks.map KPar.key).Nodup) (hv : (ks.map KPar.var ++ L.auxs.map Par.var).Nodup) (hr : ∀ k ∈ ks, 5 < k.var)
    (hl : ks.length < 128) (hf : Fresh (ks.map KPar.var ++ L.auxs.map Par.var) e) :
    bindkey (keyTail ks allow L.auxItems) args e =
      if Proper (ks.map KPar.key) allow args then .ok (setOpt L.auxs [] (setOthers args ks (setGiven args ks e))) else .err := by
  have hv' := List.nodup_append.1 hv
  rw [bindkey, bindkeyparams, keyTable_eq allow L ks hr]
  dsimp only
  rw [if_neg (by simp; omega)]
  have hf1 : ∀ i p, ks[i]? = some p → i ∉ ([] : List Nat) → e p.var = none := by
    intro i p hp _
    exact hf _ (List.mem_append_left _ (List.mem_map.2 ⟨p, List.mem_of_getElem? hp, rfl⟩))
  rcases keyArgs_eq ks hk hv'.1 _ args.length args (Nat.le_refl _) allow [] e hf1 with ⟨h1, d', e', h2, h3⟩ | ⟨h1, h2⟩
  · rw [if_pos h1, h3]
    have he := h2.eq hv'.1
    rw [keyDefaults_eq args d' _ ks 0 e' ?_ hv'.1 ?_, afterAux_eq allow L ks hr, he]
    · refine bindaux_eq _ _ hv'.2.1 ?_
      intro x hx
      have hx' : x ∉ ks.map KPar.var := fun h => hv'.2.2 x h x hx rfl
      rw [setOthers_oth args ks _ x hx', setGiven_oth args ks _ x hx']
      exact hf x (List.mem_append_right _ hx)
    · intro j q hq
      rw [Nat.zero_add, h2.mem j q hq]
      simp
    · intro q hq hg
      rw [he, setGiven_at args ks e hv'.1 q hq, hg]
      exact hf _ (List.mem_append_left _ (List.mem_map.2 ⟨q, hq, rfl⟩))
  · rw [if_neg h1]; exact h2

end Eus.Lam
