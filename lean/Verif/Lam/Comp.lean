import Verif.Lam.Interp
set_option autoImplicit false
/-! Compiled functions. -/
namespace Eus.Lam

/-! ### `parsekeyparams` -/

structure Parsed (keys : List Nat) (args : List Obj) (bits : List Nat) (results : List Obj) (bits' : List Nat) (results' : List Obj) : Prop where
  len : results'.length = results.length
  mem : ∀ (i k : Nat), keys[i]? = some k → (i ∈ bits' ↔ (i ∈ bits ∨ (given k args).isSome))
  old : ∀ i : Nat, i ∈ bits → results'[i]? = results[i]?
  new : ∀ (i k : Nat) (v : Obj), keys[i]? = some k → i ∉ bits → given k args = some v → results'[i]? = some v

theorem parseLoop_eq (keys : List Nat) (hk : keys.Nodup) (hs : keys.length ≤ 32) :
    ∀ (n : Nat) (args : List Obj), args.length ≤ n → ∀ (allow : Bool) (bits : List Nat) (results : List Obj), results.length = keys.length →
      (Proper keys allow args ∧ ∃ bits' results', Parsed keys args bits results bits' results' ∧
        parseLoop keys args allow bits results = some (some (bits', results'))) ∨
      (¬ Proper keys allow args ∧ parseLoop keys args allow bits results = some none) := by
  intro n
  induction n with
  | zero =>
    intro args hl allow bits results hr
    have : args = [] := List.length_eq_zero_iff.1 (by omega)
    subst this
    exact .inl ⟨trivial, bits, results, ⟨rfl, by simp [given], by simp, by simp [given]⟩, by simp [parseLoop]⟩
  | succ n ih =>
    intro args hl allow bits results hr
    match args, hl with
    | [], _ => exact .inl ⟨trivial, bits, results, ⟨rfl, by simp [given], by simp, by simp [given]⟩, by simp [parseLoop]⟩
    | .sym _ :: _, _ => exact .inr ⟨id, by simp [parseLoop]⟩
    | .other _ :: _, _ => exact .inr ⟨id, by simp [parseLoop]⟩
    | [.kw _], _ => exact .inr ⟨id, by simp [parseLoop]⟩
    | .kw a :: v :: rest, hl =>
      have hl' : rest.length ≤ n := by simp at hl; omega
      rw [parseLoop]
      generalize hal : (if a = 0 then decide (v ≠ nil) else allow) = allow'
      have hP : Proper keys allow (.kw a :: v :: rest) ↔ (a ∈ keys ∨ allow' = true) ∧ Proper keys allow' rest := by
        rw [Proper, hal]
      rw [hP]
      generalize hi : keys.findIdx (fun k => decide (k = a)) = i
      by_cases hm : a ∈ keys
      · have hlt := idx_mem.2 hm
        have hget := idx_lt hlt
        rw [hi] at hget hlt
        have hgiv : ∀ (j k : Nat), keys[j]? = some k → given k (.kw a :: v :: rest) = if j = i then some v else given k rest := by
          intro j k hq
          rw [given]
          by_cases hji : j = i
          · subst hji
            rw [if_pos (Option.some.inj (hget.symm.trans hq)), if_pos rfl]
          · rw [if_neg hji, if_neg]
            intro h
            exact hji (nodup_idx hk hq (by rw [← h]; exact hget))
        rw [if_pos hlt, if_neg (by omega)]
        simp only [hm, true_or, true_and]
        by_cases hd : i ∈ bits
        · rw [if_pos hd]
          rcases ih rest hl' allow' bits results hr with ⟨h1, b', r', h2, h3⟩ | ⟨h1, h2⟩
          · refine .inl ⟨h1, b', r', ⟨h2.len, ?_, h2.old, ?_⟩, h3⟩
            · intro j k hq
              rw [h2.mem j k hq, hgiv j k hq]
              by_cases hji : j = i
              · subst hji; simp [hd]
              · rw [if_neg hji]
            · intro j k w hq hjd hg
              have hji : j ≠ i := fun h => hjd (h ▸ hd)
              rw [hgiv j k hq, if_neg hji] at hg
              exact h2.new j k w hq hjd hg
          · exact .inr ⟨h1, h2⟩
        · rw [if_neg hd]
          rcases ih rest hl' allow' (i :: bits) (results.set i v) (by simp [hr]) with ⟨h1, b', r', h2, h3⟩ | ⟨h1, h2⟩
          · refine .inl ⟨h1, b', r', ⟨by rw [h2.len]; simp, ?_, ?_, ?_⟩, h3⟩
            · intro j k hq
              rw [h2.mem j k hq, hgiv j k hq]
              by_cases hji : j = i
              · subst hji; simp
              · simp [hji]
            · intro j hjd
              have hji : j ≠ i := fun h => hd (h ▸ hjd)
              rw [h2.old j (List.mem_cons_of_mem _ hjd), List.getElem?_set_ne (fun h => hji h.symm)]
            · intro j k w hq hjd hg
              rw [hgiv j k hq] at hg
              by_cases hji : j = i
              · subst hji
                rw [if_pos rfl] at hg
                rw [h2.old j List.mem_cons_self, List.getElem?_set_self (by omega)]
                exact hg
              · rw [if_neg hji] at hg
                exact h2.new j k w hq (by simp [hji, hjd]) hg
          · exact .inr ⟨h1, h2⟩
      · have hnlt : ¬ i < keys.length := by
          rw [← hi]; exact fun h => hm (idx_mem.1 h)
        have hgiv : ∀ (j k : Nat), keys[j]? = some k → given k (.kw a :: v :: rest) = given k rest := by
          intro j k hq
          rw [given, if_neg]
          intro h
          exact hm (h ▸ List.mem_of_getElem? hq)
        rw [if_neg hnlt]
        simp only [hm, false_or]
        by_cases ha : allow' = true
        · rw [if_pos ha]
          simp only [ha, true_and]
          rcases ih rest hl' true bits results hr with ⟨h1, b', r', h2, h3⟩ | ⟨h1, h2⟩
          · refine .inl ⟨h1, b', r', ⟨h2.len, ?_, h2.old, ?_⟩, h3⟩
            · intro j k hq; rw [h2.mem j k hq, hgiv j k hq]
            · intro j k w hq hjd hg; rw [hgiv j k hq] at hg; exact h2.new j k w hq hjd hg
          · exact .inr ⟨h1, h2⟩
        · rw [if_neg ha]
          exact .inr ⟨fun h => ha h.1, rfl⟩

theorem Proper.even {keys : List Nat} : ∀ (n : Nat) (args : List Obj), args.length ≤ n → ∀ (allow : Bool), Proper keys allow args →
    args.length % 2 = 0
  | _, [], _, _, _ => rfl
  | _, .sym _ :: _, _, _, h => h.elim
  | _, .other _ :: _, _, _, h => h.elim
  | _, [.kw _], _, _, h => h.elim
  | 0, .kw _ :: _ :: _, hl, _, _ => by simp at hl
  | n + 1, .kw a :: v :: rest, hl, allow, h => by
    have := Proper.even n rest (by simp at hl; omega) _ h.2
    simp only [List.length_cons]; omega

/-- `parsekeyparams`: the parameters given, and their values. -/
theorem parsekeyparams_eq (keys : List Nat) (hk : keys.Nodup) (hs : keys.length ≤ 32) (args : List Obj) (allow : Bool) (junk : List Obj) :
    (Proper keys allow args ∧ ∃ bits results, parsekeyparams keys args allow junk = some (some (bits, results)) ∧
      (∀ (i k : Nat), keys[i]? = some k → (i ∈ bits ↔ (given k args).isSome)) ∧
      (∀ (i k : Nat) (v : Obj), keys[i]? = some k → given k args = some v → results[i]? = some v)) ∨
    (¬ Proper keys allow args ∧ parsekeyparams keys args allow junk = some none) := by
  unfold parsekeyparams
  by_cases h0 : args.length = 0
  · rw [if_pos h0]
    have : args = [] := List.length_eq_zero_iff.1 h0
    subst this
    exact .inl ⟨trivial, [], junk, rfl, by simp [given], by simp [given]⟩
  · rw [if_neg h0]
    by_cases h1 : args.length % 2 = 1
    · rw [if_pos h1]
      refine .inr ⟨fun h => ?_, rfl⟩
      have := Proper.even args.length args (Nat.le_refl _) allow h
      omega
    · rw [if_neg h1]
      rcases parseLoop_eq keys hk hs args.length args (Nat.le_refl _) allow [] (List.replicate keys.length nil) (by simp) with
        ⟨h2, b', r', h3, h4⟩ | ⟨h2, h3⟩
      · refine .inl ⟨h2, b', r', h4, ?_, ?_⟩
        · intro i k hi; rw [h3.mem i k hi]; simp
        · intro i k v hi hg; exact h3.new i k v hi (by simp) hg
      · exact .inr ⟨h2, h3⟩

theorem compKeys_eq (args : List Obj) (bits : List Nat) (results : List Obj) (k : Env → R) : ∀ (ks : List KPar) (i : Nat) (e : Env),
    i + ks.length ≤ 32 →
    (∀ (j : Nat) (q : KPar), ks[j]? = some q → (i + j ∈ bits ↔ (given q.key args).isSome)) →
    (∀ (j : Nat) (q : KPar) (v : Obj), ks[j]? = some q → given q.key args = some v → results[i + j]? = some v) →
    compKeys bits results i (ks.map KPar.kf) e k = k (setKeys args ks e)
  | [], _, _, _, _, _ => rfl
  | q :: ks, i, e, hl, hb, hr => by
    have h0 := hb 0 q rfl
    have hr0 := hr 0 q
    rw [Nat.add_zero] at h0 hr0
    have hb' : ∀ (j : Nat) (q : KPar), ks[j]? = some q → (i + 1 + j ∈ bits ↔ (given q.key args).isSome) := by
      intro j q' hq
      have := hb (j + 1) q' (by simpa using hq)
      rwa [show i + 1 + j = i + (j + 1) by omega]
    have hr' : ∀ (j : Nat) (q : KPar) (v : Obj), ks[j]? = some q → given q.key args = some v → results[i + 1 + j]? = some v := by
      intro j q' v hq hg
      have := hr (j + 1) q' v (by simpa using hq) hg
      rwa [show i + 1 + j = i + (j + 1) by omega]
    have hl' : i + 1 + ks.length ≤ 32 := by simp at hl; omega
    rw [List.map_cons, compKeys, if_neg (by simp at hl; omega)]
    cases hg : given q.key args with
    | some v =>
      rw [hg] at h0
      rw [if_pos (h0.2 rfl), compKeys_eq args bits results k ks _ _ hl' hb' hr']
      have : results[i]? = some v := hr0 v rfl hg
      simp only [setKeys, hg, List.getD, this, Option.getD_some]; rfl
    | none =>
      rw [hg] at h0
      rw [if_neg (fun h => by simpa using h0.1 h), compKeys_eq args bits results k ks _ _ hl' hb' hr']
      simp only [setKeys, hg]; rfl

/-! ### The parts of the lambda list -/

theorem memq_app {m : Nat} : ∀ {xs : List Item} (ys : List Item), (∀ it ∈ xs, it ≠ .sym m) → memq m (xs ++ ys) = memq m ys
  | [], _, _ => rfl
  | it :: xs, ys, h => by
    have ih := memq_app ys (fun i hi => h i (List.mem_cons_of_mem _ hi))
    have h1 := h it List.mem_cons_self
    cases it with
    | sym y =>
      rw [List.cons_append, memq, if_neg (fun h' => h1 (by rw [h'])), ih]
    | ini x f => exact ih
    | key2 k x f => exact ih

theorem memq_none {m : Nat} {xs : List Item} (h : ∀ it ∈ xs, it ≠ .sym m) : memq m xs = [] := by
  have := memq_app (m := m) (xs := xs) [] h
  rw [List.append_nil] at this
  rw [this]; rfl

theorem memq_hit (m : Nat) (r : List Item) : memq m (.sym m :: r) = .sym m :: r := by simp [memq]

theorem Par.item_ne {p : Par} {m : Nat} (h : 5 < p.var) (hm : m ≤ 5) : p.item ≠ .sym m := by
  intro h'
  unfold Par.item at h'
  split at h'
  · cases h'
  · injection h' with h'; omega

theorem KPar.item_ne {p : KPar} {m : Nat} (h : 5 < p.var) (hm : m ≤ 5) : p.item ≠ .sym m := by
  intro h'
  cases p with
  | plain p => exact Par.item_ne (p := p) h hm h'
  | named k x f => cases h'

theorem Par.items_ne {ps : List Par} {m : Nat} (h : ∀ p ∈ ps, 5 < p.var) (hm : m ≤ 5) : ∀ it ∈ ps.map Par.item, it ≠ .sym m := by
  intro it hit
  obtain ⟨p, hp, rfl⟩ := List.mem_map.1 hit
  exact Par.item_ne (h p hp) hm

theorem KPar.items_ne {ps : List KPar} {m : Nat} (h : ∀ p ∈ ps, 5 < p.var) (hm : m ≤ 5) : ∀ it ∈ ps.map KPar.item, it ≠ .sym m := by
  intro it hit
  obtain ⟨p, hp, rfl⟩ := List.mem_map.1 hit
  exact KPar.item_ne (h p hp) hm

theorem syms_ne {xs : List Nat} {m : Nat} (h : ∀ x ∈ xs, 5 < x) (hm : m ≤ 5) : ∀ it ∈ xs.map Item.sym, it ≠ .sym m := by
  intro it hit
  obtain ⟨p, hp, rfl⟩ := List.mem_map.1 hit
  intro h'
  injection h' with h'
  have := h p hp
  omega

theorem optItems_ne {L : LL} {m : Nat} (h : ∀ p ∈ L.opt, 5 < p.var) (hm : m ≤ 5) (h1 : m ≠ OPTIONAL) : ∀ it ∈ L.optItems, it ≠ .sym m := by
  intro it hit
  unfold LL.optItems at hit
  split at hit
  · simp at hit
  · rcases List.mem_cons.1 hit with rfl | hit
    · intro h'; injection h' with h'; exact h1 h'.symm
    · exact Par.items_ne h hm it hit

theorem restItems_ne {L : LL} {m : Nat} (h : ∀ x ∈ L.rest.toList, 5 < x) (hm : m ≤ 5) (h1 : m ≠ REST) : ∀ it ∈ L.restItems, it ≠ .sym m := by
  intro it hit
  unfold LL.restItems at hit
  split at hit
  · simp at hit
  · next x hx =>
    have := h x (by simp [hx])
    rcases List.mem_cons.1 hit with rfl | hit
    · intro h'; injection h' with h'; exact h1 h'.symm
    · rw [List.mem_singleton] at hit
      subst hit
      intro h'; injection h' with h'; omega

theorem keyItems_ne {L : LL} {m : Nat} (h : ∀ p ∈ L.keys, 5 < p.var) (hm : m ≤ 5) (h1 : m ≠ KEY) (h2 : m ≠ ALLOWOTHERKEYS) :
    ∀ it ∈ L.keyItems, it ≠ .sym m := by
  intro it hit
  unfold LL.keyItems at hit
  split at hit
  · simp at hit
  · next ks allow hk =>
    have hks : L.keys = ks := by simp [LL.keys, hk]
    rcases List.mem_append.1 hit with hit | hit
    · rcases List.mem_cons.1 hit with rfl | hit
      · intro h'; injection h' with h'; exact h1 h'.symm
      · exact KPar.items_ne (hks ▸ h) hm it hit
    · split at hit
      · rw [List.mem_singleton] at hit
        subst hit
        intro h'; injection h' with h'; exact h2 h'.symm
      · simp at hit

theorem auxItems_ne {L : LL} {m : Nat} (h : ∀ p ∈ L.auxs, 5 < p.var) (hm : m ≤ 5) (h1 : m ≠ AUX) : ∀ it ∈ L.auxItems, it ≠ .sym m := by
  intro it hit
  unfold LL.auxItems at hit
  split at hit
  · simp at hit
  · next ps hp =>
    have hps : L.auxs = ps := by simp [LL.auxs, hp]
    rcases List.mem_cons.1 hit with rfl | hit
    · intro h'; injection h' with h'; exact h1 h'.symm
    · exact Par.items_ne (hps ▸ h) hm it hit

structure Real (L : LL) : Prop where
  req : ∀ x ∈ L.req, 5 < x
  opt : ∀ p ∈ L.opt, 5 < p.var
  rest : ∀ x ∈ L.rest.toList, 5 < x
  key : ∀ p ∈ L.keys, 5 < p.var
  aux : ∀ p ∈ L.auxs, 5 < p.var

theorem Wf.parts {L : LL} (w : Wf L) : Real L := by
  have h := w.real
  unfold LL.vars at h
  refine ⟨fun x hx => h x (by simp [hx]), fun p hp => h _ ?_, fun x hx => h x ?_, fun p hp => h _ ?_, fun p hp => h _ ?_⟩
  · exact List.mem_append_right _ (List.mem_append_left _ (List.mem_map.2 ⟨p, hp, rfl⟩))
  · exact List.mem_append_right _ (List.mem_append_right _ (List.mem_append_left _ hx))
  · exact List.mem_append_right _ (List.mem_append_right _ (List.mem_append_right _ (List.mem_append_left _ (List.mem_map.2 ⟨p, hp, rfl⟩))))
  · exact List.mem_append_right _ (List.mem_append_right _ (List.mem_append_right _ (List.mem_append_right _ (List.mem_map.2 ⟨p, hp, rfl⟩))))

theorem memq_opt {L : LL} (w : Real L) : memq OPTIONAL L.items = if L.opt = [] then [] else L.optItems ++ L.tail := by
  have ht : memq OPTIONAL L.tail = [] := by
    rw [LL.tail, memq_app _ (restItems_ne w.rest (by decide) (by decide)), memq_app _ (keyItems_ne w.key (by decide) (by decide) (by decide))]
    exact memq_none (auxItems_ne w.aux (by decide) (by decide))
  rw [LL.items, memq_app _ (syms_ne w.req (by decide))]
  cases ho : L.opt with
  | nil =>
    rw [if_pos rfl]
    simp only [LL.optItems, ho, List.nil_append]
    exact ht
  | cons p ps =>
    rw [if_neg (by simp)]
    simp only [LL.optItems, ho, List.cons_append]
    rw [memq_hit]; rfl

theorem memq_rest {L : LL} (w : Real L) : memq REST L.items = if L.rest = none then [] else L.tail := by
  rw [LL.items, memq_app _ (syms_ne w.req (by decide)), memq_app _ (optItems_ne w.opt (by decide) (by decide))]
  cases hr : L.rest with
  | none =>
    rw [if_pos rfl]
    simp only [LL.restItems, hr, List.nil_append]
    rw [memq_app _ (keyItems_ne w.key (by decide) (by decide) (by decide))]
    exact memq_none (auxItems_ne w.aux (by decide) (by decide))
  | some x =>
    rw [if_neg (by simp)]
    simp only [LL.tail, LL.restItems, hr, List.cons_append]
    rw [memq_hit]

theorem memq_key {L : LL} (w : Real L) : memq KEY L.items = if L.key = none then [] else L.keyItems ++ L.auxItems := by
  rw [LL.items, memq_app _ (syms_ne w.req (by decide)), memq_app _ (optItems_ne w.opt (by decide) (by decide)),
    memq_app _ (restItems_ne w.rest (by decide) (by decide))]
  cases hk : L.key with
  | none =>
    rw [if_pos rfl]
    simp only [LL.keyItems, hk, List.nil_append]
    exact memq_none (auxItems_ne w.aux (by decide) (by decide))
  | some q =>
    rw [if_neg (by simp)]
    simp only [LL.keyItems, hk, List.cons_append]
    rw [memq_hit]

theorem memq_aux {L : LL} (w : Real L) : memq AUX L.items = L.auxItems := by
  rw [LL.items, memq_app _ (syms_ne w.req (by decide)), memq_app _ (optItems_ne w.opt (by decide) (by decide)),
    memq_app _ (restItems_ne w.rest (by decide) (by decide)), memq_app _ (keyItems_ne w.key (by decide) (by decide) (by decide))]
  cases ha : L.aux with
  | none => simp only [LL.auxItems, ha, memq]
  | some q => simp only [LL.auxItems, ha, memq_hit]

theorem memq_allow {L : LL} (w : Real L) : (!(memq ALLOWOTHERKEYS L.items).isEmpty) = match L.key with | none => false | some q => q.2 := by
  rw [LL.items, memq_app _ (syms_ne w.req (by decide)), memq_app _ (optItems_ne w.opt (by decide) (by decide)),
    memq_app _ (restItems_ne w.rest (by decide) (by decide))]
  cases hk : L.key with
  | none =>
    simp only [LL.keyItems, hk, List.nil_append]
    rw [memq_none (auxItems_ne w.aux (by decide) (by decide))]; rfl
  | some q =>
    obtain ⟨ks, allow⟩ := q
    have hks : L.keys = ks := by simp [LL.keys, hk]
    simp only [LL.keyItems, hk]
    rw [List.append_assoc, memq_app (xs := .sym KEY :: ks.map KPar.item)]
    · cases allow with
      | true => simp only [if_true, List.cons_append, memq_hit]; rfl
      | false =>
        simp only [Bool.false_eq_true, if_false, List.nil_append]
        rw [memq_none (auxItems_ne w.aux (by decide) (by decide))]; rfl
    · intro it hit
      rcases List.mem_cons.1 hit with rfl | hit
      · intro h'; injection h' with h'; cases h'
      · exact KPar.items_ne (hks ▸ w.key) (by decide) it hit

theorem keyForm_item (k : KPar) : keyForm k.item = k.kf := by
  cases k with
  | named k x f => rfl
  | plain p =>
    cases hi : p.init with
    | none =>
      simp only [KPar.item, Par.item, hi, keyForm, KPar.kf, KPar.key, KPar.var, KPar.default]
      congr 1
      funext e; simp [Par.default, hi]
    | some f =>
      simp only [KPar.item, Par.item, hi, keyForm, KPar.kf, KPar.key, KPar.var, KPar.default]
      congr 1
      funext e; simp [Par.default, hi]

theorem cond_tail {L : LL} (w : Real L) : cond [memq REST L.items, memq KEY L.items, memq AUX L.items] = L.tail := by
  rw [memq_rest w, memq_key w, memq_aux w]
  cases hr : L.rest with
  | some x => simp [cond, LL.tail, LL.restItems, hr]
  | none =>
    cases hk : L.key with
    | some q => simp [cond, LL.tail, LL.restItems, hr, LL.keyItems, hk]
    | none =>
      cases ha : L.aux <;> simp [cond, LL.tail, LL.restItems, hr, LL.keyItems, hk, LL.auxItems, ha]

theorem cond_all {L : LL} (w : Real L) :
    cond [memq OPTIONAL L.items, memq REST L.items, memq KEY L.items, memq AUX L.items] = L.optItems ++ L.tail := by
  have h := cond_tail w
  rw [cond, h, memq_opt w]
  cases ho : L.opt with
  | nil => simp [LL.optItems, ho]
  | cons p ps => simp [LL.optItems, ho]

/-! ### Running -/

theorem compReq_eq (k : Env → R) : ∀ (xs : List Nat) (args : List Obj) (e : Env), xs.length ≤ args.length →
    compReq (xs.map .sym) args e k = k (setReq xs args e)
  | [], _, _, _ => by simp [compReq, setReq]
  | x :: xs, [], _, h => by simp at h
  | x :: xs, a :: args, e, h => by
    rw [List.map_cons, compReq, compReq_eq k xs args _ (by simpa using h), setReq]

theorem compOpt_eq (k : Env → R) : ∀ (ps : List Par) (args : List Obj) (e : Env),
    compOpt (ps.map Par.item) args e k = k (setOpt ps args e)
  | [], _, _ => by simp [compOpt, setOpt]
  | p :: ps, args, e => by
    have ih := fun as e => compOpt_eq k ps as e
    cases hi : p.init with
    | none =>
      cases args with
      | nil => simp [Par.item, hi, compOpt, ih, setOpt, Par.default]
      | cons a as => simp [Par.item, hi, compOpt, ih, setOpt]
    | some f =>
      cases args with
      | nil => simp [Par.item, hi, compOpt, ih, setOpt, Par.default]
      | cons a as => simp [Par.item, hi, compOpt, ih, setOpt]

theorem compAux_eq : ∀ (ps : List Par) (e : Env), compAux (ps.map Par.item) e = .ok (setOpt ps [] e)
  | [], _ => rfl
  | p :: ps, e => by
    have ih := fun e => compAux_eq ps e
    cases hi : p.init with
    | none => simp [Par.item, hi, compAux, ih, setOpt, Par.default]
    | some f => simp [Par.item, hi, compAux, ih, setOpt, Par.default]

theorem setOpt_congr : ∀ (ps : List Par) (e e' : Env), (∀ p ∈ ps, ∀ f, p.init = some f → Plain f) → (∀ x, 5 < x → e x = e' x) →
    ∀ x, 5 < x → setOpt ps [] e x = setOpt ps [] e' x
  | [], _, _, _, h => h
  | p :: ps, e, e', hp, h => by
    refine setOpt_congr ps _ _ (fun q hq => hp q (List.mem_cons_of_mem _ hq)) ?_
    intro x hx
    have hd : p.default e = p.default e' := by
      unfold Par.default
      cases hi : p.init with
      | none => rfl
      | some f => exact hp p List.mem_cons_self f hi e e' h
    unfold set
    rw [hd]
    split
    · rfl
    · exact h x hx

/-- What the compiler handles: no `&aux` after `&key`; some keyword after `&key`; at most 32 keywords; defaults that do not look at the
symbols of lambda lists. -/
structure CompOk (L : LL) : Prop where
  aux : L.key = none ∨ L.aux = none
  some : ∀ q, L.key = some q → q.1 ≠ []
  few : L.keys.length ≤ 32
  plain : ∀ p ∈ L.auxs, ∀ f, p.init = Option.some f → Plain f

theorem compiled_eq {L : LL} (w : Wf L) (c : CompOk L) (junk args : List Obj) :
    (Accepts L args ∧ ∃ e, compiled junk L.items args = .ok e ∧ ∀ x, 5 < x → e x = boundSeq L args x) ∨
    (¬ Accepts L args ∧ compiled junk L.items args = .err) := by
  have W := w.parts
  have hreq : L.items.take (L.items.length - (L.optItems ++ L.tail).length) = L.req.map .sym := by
    have : L.items = L.req.map .sym ++ (L.optItems ++ L.tail) := rfl
    rw [this, List.length_append, Nat.add_sub_cancel, List.take_left' rfl]
  have hopt : ((memq OPTIONAL L.items).take ((memq OPTIONAL L.items).length - L.tail.length)).tail = L.opt.map Par.item := by
    rw [memq_opt W]
    cases ho : L.opt with
    | nil => simp
    | cons p ps =>
      rw [if_neg (by simp), List.length_append, Nat.add_sub_cancel, List.take_left' rfl]
      simp [LL.optItems, ho]
  have hkf : (if (!(memq ALLOWOTHERKEYS L.items).isEmpty) = true then
      (memq KEY L.items).tail.take ((memq KEY L.items).tail.length - 1) else (memq KEY L.items).tail).map keyForm = L.keys.map KPar.kf := by
    rw [memq_allow W, memq_key W]
    cases hk : L.key with
    | none => simp [LL.keys, hk]
    | some q =>
      obtain ⟨ks, allow⟩ := q
      have ha : L.aux = none := by
        rcases c.aux with h | h
        · rw [hk] at h; cases h
        · exact h
      have h1 : L.auxItems = [] := by simp [LL.auxItems, ha]
      have h2 : (L.keyItems ++ L.auxItems).tail = ks.map KPar.item ++ if allow then [.sym ALLOWOTHERKEYS] else [] := by
        simp [h1, LL.keyItems, hk]
      rw [if_neg (c := some (ks, allow) = none) (by simp), h2]
      have h3 : (ks.map KPar.item).map keyForm = L.keys.map KPar.kf := by
        rw [List.map_map]
        have : L.keys = ks := by simp [LL.keys, hk]
        rw [this]
        exact List.map_congr_left fun k _ => keyForm_item k
      cases allow with
      | true =>
        simp only [if_true]
        rw [List.length_append, List.length_singleton, Nat.add_sub_cancel, List.take_left' rfl, h3]
      | false => simp only [Bool.false_eq_true, if_false, List.append_nil, h3]
  have hrun : ∀ e : Env, ∃ e', compAux L.auxItems e = .ok e' ∧ ∀ x, 5 < x → e' x = setOpt L.auxs [] e x := by
    intro e
    cases ha : L.aux with
    | none => exact ⟨e, by simp [LL.auxItems, ha, compAux], by simp [LL.auxs, ha, setOpt]⟩
    | some ps =>
      have hps : L.auxs = ps := by simp [LL.auxs, ha]
      refine ⟨_, by simp only [LL.auxItems, ha, compAux]; exact compAux_eq ps _, ?_⟩
      rw [hps]
      refine setOpt_congr ps _ _ (hps ▸ c.plain) ?_
      intro x hx
      exact set_other (by show x ≠ 4; omega)
  unfold compiled
  simp only [cond_all W, cond_tail W]
  simp only [hreq, hopt, hkf, List.length_map]
  simp only [memq_aux W]
  have hrest : (memq REST L.items).isEmpty = L.rest.isNone := by
    rw [memq_rest W]
    cases hr : L.rest <;> simp [LL.tail, LL.restItems, hr]
  have hkeys : (L.keys.map KPar.kf).isEmpty = L.key.isNone := by
    cases hk : L.key with
    | none => simp [LL.keys, hk]
    | some q =>
      have := c.some q hk
      obtain ⟨ks, allow⟩ := q
      cases ks with
      | nil => simp at this
      | cons k ks => simp [LL.keys, hk]
  have hklen : L.keys.length = 0 ↔ L.key = none := by
    rw [← List.length_map (f := KPar.kf), List.length_eq_zero_iff, ← List.isEmpty_iff, hkeys]; simp
  simp only [hrest, hkeys]
  have hAcc : Accepts L args ↔ L.req.length ≤ args.length ∧ TailOk L args (L.req.length + L.opt.length) := Iff.rfl
  by_cases hq : L.req.length ≤ args.length
  · -- enough arguments
    -- what comes after the optional parameters
    have hafter : ∀ e : Env,
        let r := (if L.key.isNone = true then compAux L.auxItems e
          else match parsekeyparams ((L.keys.map KPar.kf).map (·.key)) (args.drop (L.req.length + L.opt.length))
              (!(memq ALLOWOTHERKEYS L.items).isEmpty) junk with
            | none => .ub
            | some none => .err
            | some (some (bits, results)) => compKeys bits results 0 (L.keys.map KPar.kf) e fun e => compAux L.auxItems e)
        ((match L.key with
          | none => True
          | some (ks, allow) => Proper (ks.map KPar.key) allow (args.drop (L.req.length + L.opt.length))) ∧
          ∃ e', r = .ok e' ∧ ∀ x, 5 < x → e' x = setOpt L.auxs [] (setKeys (args.drop (L.req.length + L.opt.length)) L.keys e) x) ∨
        (¬ (match L.key with
          | none => True
          | some (ks, allow) => Proper (ks.map KPar.key) allow (args.drop (L.req.length + L.opt.length))) ∧ r = .err) := by
      intro e
      dsimp only
      rw [memq_allow W]
      cases hk : L.key with
      | none =>
        refine .inl ⟨trivial, ?_⟩
        have : L.keys = [] := by simp [LL.keys, hk]
        simp only [Option.isNone_none, if_true, this, setKeys]
        exact hrun e
      | some q =>
        obtain ⟨ks, allow⟩ := q
        have hks : L.keys = ks := by simp [LL.keys, hk]
        simp only [Option.isNone_some, Bool.false_eq_true, if_false, hks]
        have hmm : (ks.map KPar.kf).map (·.key) = ks.map KPar.key := by rw [List.map_map]; rfl
        rw [hmm]
        rcases parsekeyparams_eq (ks.map KPar.key) (hks ▸ w.keys) (by rw [List.length_map, ← hks]; exact c.few)
          (args.drop (L.req.length + L.opt.length)) allow junk with ⟨h1, b, r, h2, h3, h4⟩ | ⟨h1, h2⟩
        · refine .inl ⟨h1, ?_⟩
          rw [h2]
          dsimp only
          rw [compKeys_eq (args.drop (L.req.length + L.opt.length)) b r _ ks 0 e (by rw [Nat.zero_add, ← hks]; exact c.few)]
          · exact hrun _
          · intro j q hj
            rw [Nat.zero_add]
            exact h3 j q.key (by simp [hj])
          · intro j q v hj hg
            rw [Nat.zero_add]
            exact h4 j q.key v (by simp [hj]) hg
        · rw [h2]
          exact .inr ⟨h1, rfl⟩
    have hnum : (if L.opt.length + (if L.rest.isNone = true then L.keys.length else 1) = 0 then args.length ≠ L.req.length
        else args.length < L.req.length) ↔ (L.opt = [] ∧ L.rest = none ∧ L.key = none ∧ args.length ≠ L.req.length) := by
      cases hr : L.rest with
      | some x => simp; exact hq
      | none =>
        simp only [Option.isNone_none, if_true]
        by_cases ho : L.opt.length + L.keys.length = 0
        · rw [if_pos ho]
          have h1 : L.opt = [] := List.length_eq_zero_iff.1 (by omega)
          have h2 : L.key = none := hklen.1 (by omega)
          simp [h1, h2]
        · rw [if_neg ho]
          constructor
          · intro h; omega
          · rintro ⟨h1, _, h2, _⟩
            have := hklen.2 h2
            rw [h1, this] at ho; simp at ho
    by_cases hbad : L.opt = [] ∧ L.rest = none ∧ L.key = none ∧ args.length ≠ L.req.length
    · rw [if_pos (hnum.2 hbad)]
      refine .inr ⟨?_, rfl⟩
      rintro ⟨_, h, _⟩
      obtain ⟨h1, h2, h3, h4⟩ := hbad
      simp [h1, h2, h3] at h
      omega
    · rw [if_neg (fun h => hbad (hnum.1 h)), compReq_eq _ _ _ _ hq, compOpt_eq]
      cases hr : L.rest with
      | some x =>
        have hmr : memq REST L.items = .sym REST :: .sym x :: (L.keyItems ++ L.auxItems) := by
          rw [memq_rest W, if_neg (by simp [hr])]
          simp [LL.tail, LL.restItems, hr]
        rw [hmr]
        dsimp only
        have h := hafter (set (setOpt L.opt (args.drop L.req.length) (setReq L.req args fun _ => none)) x
          (.list (args.drop (L.req.length + L.opt.length))))
        have hT : Accepts L args ↔ (match L.key with
          | none => True
          | some (ks, allow) => Proper (ks.map KPar.key) allow (args.drop (L.req.length + L.opt.length))) := by
          exact ⟨fun h => h.2.2, fun h => ⟨hq, .inl (by simp [hr]), h⟩⟩
        rw [hT]
        have hb : boundSeq L args = setOpt L.auxs [] (setKeys (args.drop (L.req.length + L.opt.length)) L.keys
            (set (setOpt L.opt (args.drop L.req.length) (setReq L.req args fun _ => none)) x
          (.list (args.drop (L.req.length + L.opt.length))))) := by
          simp [boundSeq, bound₁, hr, setRest]
        rw [hb]
        exact h
      | none =>
        have hmr : memq REST L.items = [] := by rw [memq_rest W, if_pos hr]
        rw [hmr]
        dsimp only
        by_cases hmany : L.opt.length > 0 ∧ L.key.isNone = true ∧ args.length > L.req.length + L.opt.length
        · rw [if_pos hmany]
          refine .inr ⟨?_, rfl⟩
          rintro ⟨_, h, _⟩
          obtain ⟨h1, h2, h3⟩ := hmany
          have h2' : L.key = none := by simpa using h2
          simp [hr, h2'] at h
          omega
        · rw [if_neg hmany]
          have h := hafter (setOpt L.opt (args.drop L.req.length) (setReq L.req args fun _ => none))
          have hT : Accepts L args ↔ (match L.key with
            | none => True
            | some (ks, allow) => Proper (ks.map KPar.key) allow (args.drop (L.req.length + L.opt.length))) := by
            have h' : L.rest.isSome ∨ L.key.isSome ∨ args.length ≤ L.req.length + L.opt.length := by
              cases hk : L.key with
              | some q => simp
              | none =>
                right; right
                by_cases ho : L.opt = []
                · have : args.length = L.req.length := by
                    by_cases hne : args.length = L.req.length
                    · exact hne
                    · exact absurd ⟨ho, hr, hk, hne⟩ hbad
                  omega
                · have : 0 < L.opt.length := List.length_pos_iff.2 ho
                  simp only [hk, Option.isNone_none, true_and, not_and] at hmany
                  have := hmany this
                  omega
            exact ⟨fun h => h.2.2, fun h => ⟨hq, h', h⟩⟩
          rw [hT]
          have hb : boundSeq L args = setOpt L.auxs [] (setKeys (args.drop (L.req.length + L.opt.length)) L.keys
              (setOpt L.opt (args.drop L.req.length) (setReq L.req args fun _ => none))) := by
            simp [boundSeq, bound₁, hr, setRest]
          rw [hb]
          exact h
  · refine .inr ⟨fun h => hq h.1, ?_⟩
    have hlt : args.length < L.req.length := by omega
    rw [if_pos]
    generalize (L.opt.length + if L.rest.isNone = true then L.keys.length else 1) = m
    by_cases hm : m = 0
    · rw [if_pos hm]; exact Nat.ne_of_lt hlt
    · rw [if_neg hm]; exact hlt

end Eus.Lam
