import Verif.Mac.Proofs
set_option autoImplicit false
/-! psetq, do, do*, loop, case, setf -/
namespace Eus.Mac
variable {G : Ext}

/-! ### let* with fresh variables is let -/

theorem evArgs_congr {K K' : List V → St → Res → Prop} {r : Res} : ∀ (es : List Tm) (s : St),
    (∀ vs s', vs.length = es.length → (∀ y, (∀ e ∈ es, Fr y e) → s'.vars y = s.vars y) → (K vs s' r ↔ K' vs s' r)) →
    (EvArgs G es K s r ↔ EvArgs G es K' s r) := by
  intro es
  induction es generalizing K K' with
  | nil => intro s h; exact h [] s rfl (fun _ _ => rfl)
  | cons e es ih =>
    intro s h
    refine then_congr fun v s1 he => ih s1 fun vs s2 hl hk => h (v :: vs) s2 (by simp [hl]) fun y hy => ?_
    rw [hk y (fun e' h' => hy e' (List.mem_cons_of_mem _ h')), he.keep (hy e (List.mem_cons_self ..))]

theorem evArgs_frame {y : Name} {K : List V → St → Res → Prop} {r : Res} {u v : V} : ∀ (es : List Tm) (s : St),
    (∀ e ∈ es, Fr y e) → s.vars y = u →
    ((∃ rb, EvArgs G es K (s.set y v) rb ∧ r = rb.mapSt (·.set y u)) ↔
      EvArgs G es (fun vs s' r => ∃ rb, K vs (s'.set y v) rb ∧ r = rb.mapSt (·.set y u)) s r) := by
  intro es
  induction es generalizing K with
  | nil => intro s _ _; rfl
  | cons e es ih =>
    intro s hf hu
    have he := hf e (List.mem_cons_self ..)
    have hes := fun e' h' => hf e' (List.mem_cons_of_mem _ h')
    simp only [EvArgs]
    simp only [then_cases]
    constructor
    · rintro ⟨rb, ⟨w, s', h1, h2⟩ | ⟨h1, ho⟩, rfl⟩
      · obtain ⟨r', h3, h4⟩ := (ev_frame he).1 h1
        obtain ⟨s0, rfl, rfl⟩ := mapSt_val h4.symm
        exact .inl ⟨w, s0, h3, (ih s0 hes (by rw [h3.keep he, hu])).1 ⟨rb, h2, rfl⟩⟩
      · obtain ⟨r', h3, rfl⟩ := (ev_frame he).1 h1
        have : (r'.mapSt (·.set y v)).mapSt (·.set y u) = r' := by
          rw [mapSt_mapSt]
          refine mapSt_id fun s1 h => ?_
          rw [set_set, ← hu, ← ev_keeps he h3 s1 h, set_self]
        rw [this]
        exact .inr ⟨h3, mapSt_out.1 ho⟩
    · rintro (⟨w, s', h1, h2⟩ | ⟨h1, ho⟩)
      · obtain ⟨rb, h3, rfl⟩ := (ih s' hes (by rw [h1.keep he, hu])).2 h2
        exact ⟨rb, .inl ⟨w, s'.set y v, h1.set he v, h3⟩, rfl⟩
      · refine ⟨r.mapSt (·.set y v), .inr ⟨h1.set he v, mapSt_out.2 ho⟩, ?_⟩
        rw [mapSt_mapSt]
        refine (mapSt_id fun s1 h => ?_).symm
        rw [set_set, ← hu, ← ev_keeps he h1 s1 h, set_self]

theorem bindSeq_bindPar {k : St → Res → Prop} : ∀ (l : List (Name × Tm)) (s : St) (r : Res),
    (l.map (·.1)).Nodup → (∀ p ∈ l, ∀ q ∈ l, Fr p.1 q.2) → (BindSeq G l k s r ↔ BindPar G l k s r)
  | [], s, r, _, _ => by
    simp only [BindSeq, BindPar, List.map_nil, EvArgs, assign]
    have : ∀ rb : Res, (rb.mapSt fun s' => s'.restore s []) = rb := fun rb => mapSt_id fun s' _ => by simp [St.restore]
    simp only [this]
    exact ⟨fun h => ⟨r, h, rfl⟩, fun ⟨_, h, e⟩ => e ▸ h⟩
  | (x, e) :: l, s, r, hn, hf => by
    have hn' := List.nodup_cons.1 hn
    refine then_congr fun v s1 _ => ?_
    simp only [bindSeq_bindPar l _ _ hn'.2 fun p hp q hq => hf p (List.mem_cons_of_mem _ hp) q (List.mem_cons_of_mem _ hq)]
    simp only [restore_one]
    unfold BindPar
    have hfx : ∀ e' ∈ l.map (·.2), Fr x e' := by
      intro e' he'
      obtain ⟨q, hq, rfl⟩ := List.mem_map.1 he'
      exact hf (x, e) (List.mem_cons_self ..) q (List.mem_cons_of_mem _ hq)
    rw [evArgs_frame (l.map (·.2)) s1 hfx rfl]
    refine evArgs_congr _ _ fun vs s2 hl hk => ?_
    have hx2 := hk x hfx
    constructor
    · rintro ⟨rb, ⟨rc, h1, rfl⟩, rfl⟩
      refine ⟨rc, h1, ?_⟩
      rw [mapSt_mapSt]
      refine mapSt_congr fun s' => ?_
      refine St.ext' (fun z => ?_) rfl
      simp only [set_vars, restore_vars, List.map_cons, List.mem_cons]
      by_cases hz : z = x
      · simp [hz, hx2]
      · simp only [hz, if_false, false_or]
    · rintro ⟨rc, h1, rfl⟩
      refine ⟨_, ⟨rc, h1, rfl⟩, ?_⟩
      rw [mapSt_mapSt]
      refine mapSt_congr fun s' => ?_
      refine St.ext' (fun z => ?_) rfl
      simp only [set_vars, restore_vars, List.map_cons, List.mem_cons]
      by_cases hz : z = x
      · simp [hz, hx2]
      · simp only [hz, if_false, false_or]

/-! ### psetq -/

/-- The gensyms are new: distinct, and not in the variables and forms. -/
structure Fresh (gs : List Nat) (l : List (Name × Tm)) : Prop where
  length : gs.length = l.length
  nodup : gs.Nodup
  new : ∀ g ∈ gs, ∀ p ∈ l, p.1 ≠ .gen g ∧ Fr (.gen g) p.2

theorem psetqBinds_toList : ∀ (gs : List Nat) (l : List (Name × Tm)), gs.length = l.length →
    (psetqBinds gs l).toList.map (·.1) = gs.map .gen ∧ (psetqBinds gs l).toList.map (·.2) = l.map (·.2)
  | [], [], _ => ⟨rfl, rfl⟩
  | [], _ :: _, h => by simp at h
  | _ :: _, [], h => by simp at h
  | g :: gs, (x, e) :: l, h => by
    have := psetqBinds_toList gs l (by simpa using h)
    simp [psetqBinds, Binds.toList, this.1, this.2]

theorem assign_restore (s' : St) (gens : List Name) : ∀ (xs : List Name) (vs : List V) (σ : St), (∀ x ∈ xs, x ∉ gens) →
    (assign xs vs σ).restore s' gens = assign xs vs (σ.restore s' gens)
  | [], _, _, _ => rfl
  | _ :: _, [], _, _ => rfl
  | x :: xs, v :: vs, σ, h => by
    simp only [assign]
    rw [assign_restore s' gens xs vs _ fun y hy => h y (List.mem_cons_of_mem _ hy)]
    congr 1
    refine St.ext' (fun z => ?_) rfl
    have := h x (List.mem_cons_self ..)
    simp only [set_vars, restore_vars]
    by_cases hz : z = x
    · simp [hz, this]
    · simp [hz]

theorem assign_vars_not {z : Name} : ∀ (xs : List Name) (vs : List V) (s : St), z ∉ xs → (assign xs vs s).vars z = s.vars z
  | [], _, _, _ => rfl
  | _ :: _, [], _, _ => rfl
  | x :: xs, v :: vs, s, h => by
    simp only [List.mem_cons, not_or] at h
    simp only [assign]
    rw [assign_vars_not xs vs _ h.2, set_vars, if_neg h.1]

theorem assign_w : ∀ (xs : List Name) (vs : List V) (s : St), (assign xs vs s).w = s.w
  | [], _, _ => rfl
  | _ :: _, [], _ => rfl
  | x :: xs, v :: vs, s => assign_w xs vs (s.set x v)

theorem restore_assign (s : St) (xs : List Name) (vs : List V) : (assign xs vs s).restore s xs = s := by
  refine St.ext' (fun z => ?_) (assign_w xs vs s)
  rw [restore_vars]
  split
  · rfl
  · next h => exact assign_vars_not xs vs s h

theorem assign_map : ∀ (xs : List Name) (vs : List V) (s : St), xs.Nodup → vs.length = xs.length →
    xs.map (assign xs vs s).vars = vs
  | [], [], _, _, _ => rfl
  | [], _ :: _, _, _, h => by simp at h
  | _ :: _, [], _, _, h => by simp at h
  | x :: xs, v :: vs, s, hn, hl => by
    have hn' := List.nodup_cons.1 hn
    simp only [assign, List.map_cons]
    rw [assign_vars_not xs vs _ hn'.1, set_vars, if_pos rfl, assign_map xs vs _ hn'.2 (by simpa using hl)]

theorem ev_psetqSets : ∀ (gs : List Nat) (l : List (Name × Tm)) (vs : List V) (σ : St) (r : Res), gs.length = l.length →
    (∀ g ∈ gs, ∀ p ∈ l, p.1 ≠ .gen g) → gs.map (fun g => σ.vars (.gen g)) = vs →
    (Ev G (psetqSets gs l) σ r ↔ r = .val .nil (assign (l.map (·.1)) vs σ))
  | [], [], vs, σ, r, _, _, h => by
    subst h; simp only [psetqSets, Tm.nil, ev_const]; rfl
  | [], _ :: _, _, _, _, h, _, _ => by simp at h
  | _ :: _, [], _, _, _, h, _, _ => by simp at h
  | g :: gs, (x, e) :: l, vs, σ, r, hl, hf, h => by
    subst h
    simp only [psetqSets, ev_progn, ev_setq, then_var, exists_eq_left]
    simp only [Then]
    refine ev_psetqSets gs l _ (σ.set x (σ.vars (.gen g))) r (by simpa using hl)
      (fun g' hg' p hp => hf g' (List.mem_cons_of_mem _ hg') p (List.mem_cons_of_mem _ hp)) ?_
    refine List.map_congr_left fun g' hg' => ?_
    rw [set_vars, if_neg]
    exact fun h => hf g' (List.mem_cons_of_mem _ hg') (x, e) (List.mem_cons_self ..) h.symm

/-- What `psetq` does: the forms from left to right, then all variables at once. -/
def PsetqS (G : Ext) (l : List (Name × Tm)) : St → Res → Prop :=
  EvArgs G (l.map (·.2)) fun vs s r => r = .val .nil (assign (l.map (·.1)) vs s)

theorem map_gen_nodup {gs : List Nat} (h : gs.Nodup) : (gs.map Name.gen).Nodup :=
  List.Pairwise.map _ (fun a b hab h' => hab (by injection h')) h

theorem ev_psetq {gs : List Nat} {l : List (Name × Tm)} (h : Fresh gs l) {s : St} {r : Res} :
    Ev G (psetq gs l) s r ↔ PsetqS G l s r := by
  obtain ⟨h1, h2⟩ := psetqBinds_toList gs l h.length
  rw [psetq, ev_lets, bindSeq_bindPar]
  · unfold BindPar PsetqS
    rw [h1, h2]
    refine evArgs_congr _ _ fun vs s' hl _ => ?_
    have hl' : vs.length = (gs.map Name.gen).length := by simpa [h.length] using hl
    have hm := assign_map (gs.map Name.gen) vs s' (map_gen_nodup h.nodup) hl'
    simp only [ev_progn, Tm.nil, ev_const]
    have hs : ∀ r, Ev G (psetqSets gs l) (assign (gs.map .gen) vs s') r ↔
        r = .val .nil (assign (l.map (·.1)) vs (assign (gs.map .gen) vs s')) := fun r =>
      ev_psetqSets gs l vs _ r h.length (fun g hg p hp => (h.new g hg p hp).1) (by simpa [Function.comp_def] using hm)
    simp only [hs, exists_eq_left, Then, Res.mapSt]
    rw [assign_restore, restore_assign]
    intro x hx hx'
    obtain ⟨p, hp, rfl⟩ := List.mem_map.1 hx
    obtain ⟨g, hg, he⟩ := List.mem_map.1 hx'
    exact (h.new g hg p hp).1 he.symm
  · rw [h1]; exact map_gen_nodup h.nodup
  · intro p hp q hq
    have hp' : p.1 ∈ gs.map Name.gen := h1 ▸ List.mem_map.2 ⟨p, hp, rfl⟩
    have hq' : q.2 ∈ l.map (·.2) := h2 ▸ List.mem_map.2 ⟨q, hq, rfl⟩
    obtain ⟨g, hg, he⟩ := List.mem_map.1 hp'
    obtain ⟨p', hp'', he'⟩ := List.mem_map.1 hq'
    rw [← he, ← he']
    exact (h.new g hg p' hp'').2

theorem ev_setqs : ∀ (l : List (Name × Tm)) {s : St} {r : Res}, Ev G (setqs l) s r ↔ SetSeq G l s r
  | [], s, r => by simp only [setqs, Tm.nil, ev_const, SetSeq]
  | (x, e) :: l, s, r => by
    rw [setqs, ev_progn, SetSeq, then_cases, then_cases]
    simp only [ev_setq, then_cases, ev_setqs l]
    constructor
    · rintro (⟨v, s', ⟨v1, s1, h1, h2⟩ | ⟨_, ho⟩, h3⟩ | ⟨⟨v1, s1, h1, h2⟩ | ⟨h1, ho⟩, h3⟩)
      · injection h2 with h4 h5; subst h4 h5; exact .inl ⟨v, s1, h1, h3⟩
      · exact absurd ho id
      · subst h2; exact absurd h3 id
      · exact .inr ⟨h1, ho⟩
    · rintro (⟨v, s', h1, h2⟩ | ⟨h1, ho⟩)
      · exact .inl ⟨v, _, .inl ⟨v, s', h1, rfl⟩, h2⟩
      · exact .inr ⟨.inr ⟨h1, ho⟩, ho⟩

/-! ### go and tags -/

theorem bind_nogo {y : Name} {r : Res} {f : V → St → Res} (h : ∀ s', r ≠ .go y s') (hf : ∀ v s s', f v s ≠ .go y s') :
    ∀ s', r.bind f ≠ .go y s' := by
  intro s'
  cases r with
  | val v s => exact hf v s s'
  | ret => simp [Res.bind]
  | go t s => intro h'; exact h s' h'
  | exit => simp [Res.bind]
  | timeout => simp [Res.bind]

theorem mapSt_nogo {y : Name} {r : Res} {f : St → St} (h : ∀ s', r ≠ .go y s') : ∀ s', r.mapSt f ≠ .go y s' := by
  intro s'
  cases r with
  | go t s => intro h'; simp only [Res.mapSt] at h'; injection h' with h1 h2; exact h s (by rw [h1])
  | _ => simp [Res.mapSt]

theorem evBinds_nogo {y : Name} {rec : Tm → St → Res} (hr : ∀ t s s', Fr y t → rec t s ≠ .go y s') :
    ∀ (bs : Binds) (s : St) (k : List V → St → Res), FrB y bs → (∀ vs s s', k vs s ≠ .go y s') →
    ∀ s', evBinds rec bs s k ≠ .go y s'
  | .nil, s, k, _, hk => hk [] s
  | .cons x e rest, s, k, hb, hk => bind_nogo (fun s' => hr e s s' hb.2.1) fun v s =>
      evBinds_nogo hr rest s _ hb.2.2 fun vs s => hk (v :: vs) s

theorem evSeq_nogo {y : Name} {rec : Tm → St → Res} (hr : ∀ t s s', Fr y t → rec t s ≠ .go y s') {body : Tm} (hbd : Fr y body) :
    ∀ (bs : Binds) (s : St), FrB y bs → ∀ s', evSeq rec bs body s ≠ .go y s'
  | .nil, s, _ => fun s' => hr body s s' hbd
  | .cons x e rest, s, hb => bind_nogo (fun s' => hr e s s' hb.2.1) fun v s =>
      mapSt_nogo (evSeq_nogo hr hbd rest _ hb.2.2)

theorem eval_nogo (y : Name) : ∀ k t s s', Fr y t → eval G k t s ≠ .go y s' := by
  intro k
  induction k with
  | zero => intro t s s' _; simp [eval]
  | succ k ih =>
    intro t s s' ht
    rw [eval.eq_def]
    cases t with
    | const u => simp
    | var x => simp
    | setq x e => exact bind_nogo (fun s' => ih e s s' ht.2) (by simp) s'
    | call1 f e => exact bind_nogo (fun s' => ih e s s' ht) (fun v s s' => by cases f.run v s.w <;> simp) s'
    | call2 f a b =>
      exact bind_nogo (fun s' => ih a s s' ht.1) (fun u s s' => bind_nogo (fun s' => ih b s s' ht.2)
        (fun v s s' => by cases f.run u v s.w <;> simp) s') s'
    | ext f e =>
      refine bind_nogo (fun s' => ih e s s' ht) (fun v s s' => ?_) s'
      cases G f v s.w with
      | none => simp
      | some q => simp only [Option.elim]; split <;> simp
    | progn a b => exact bind_nogo (fun s' => ih a s s' ht.1) (fun v s s' => ih b s s' ht.2) s'
    | ite c a b =>
      refine bind_nogo (fun s' => ih c s s' ht.1) (fun v s s' => ?_) s'
      split
      · exact ih b s s' ht.2.2
      · exact ih a s s' ht.2.1
    | letp bs body => exact evBinds_nogo ih bs s _ ht.1 (fun vs s => mapSt_nogo fun s' => ih body _ s' ht.2) s'
    | lets bs body => exact evSeq_nogo ih ht.2 bs s ht.1 s'
    | block n body =>
      have := ih body s s' ht
      dsimp only
      cases hc : eval G k body s with
      | ret m u s1 => simp only [Res.arrive]; split <;> simp
      | go t s1 => rw [hc] at this; exact this
      | _ => simp [Res.arrive]
    | ret n e => exact bind_nogo (fun s' => ih e s s' ht) (by simp) s'
    | loop c body =>
      refine bind_nogo (fun s' => ih c s s' ht.1) (fun v s s' => ?_) s'
      split
      · simp
      · exact bind_nogo (fun s' => ih body s s' ht.2) (fun v s s' => ih _ s s' ht) s'
    | tagfrom all cur =>
      cases cur with
      | nil => simp
      | tag t rest => exact ih _ s s' ⟨ht.1, ht.2.2⟩
      | form e rest =>
        dsimp only
        cases hc : eval G k e s with
        | val u s1 => exact ih (.tagfrom all rest) s1 s' ⟨ht.1, ht.2.2⟩
        | go tag s1 =>
          simp only
          cases hf : all.find tag with
          | none =>
            have := ih e s s1 ht.2.1
            rw [hc] at this
            intro h'
            simp only [Option.elim] at h'
            injection h' with h1 h2
            exact this (by rw [h1])
          | some r => exact ih (.tagfrom all r) s1 s' ⟨ht.1, find_free ht.1 hf⟩
        | ret => simp
        | exit => simp
        | timeout => simp
    | go tag =>
      intro h'
      injection h' with h1 h2
      exact ht h1

theorem ev_nogo {y : Name} {t : Tm} (ht : Fr y t) {s s' : St} : ¬ Ev G t s (.go y s') := by
  rintro ⟨_, k, h⟩
  exact eval_nogo y k t s s' ht h

/-- Statements without tags. -/
def NoTags : Stmts → Prop
  | .nil => True
  | .tag _ _ => False
  | .form _ rest => NoTags rest

theorem find_noTags {t : Name} : ∀ {b : Stmts}, NoTags b → b.find t = none
  | .nil, _ => rfl
  | .form _ rest, h => find_noTags (b := rest) h

theorem find_append {t : Name} {tail : Stmts} (ht : NoTags tail) : ∀ b : Stmts,
    (b.append tail).find t = (b.find t).map fun r => r.append tail
  | .nil => by simp [Stmts.append, Stmts.find, find_noTags ht]
  | .form e rest => by simp only [Stmts.append, Stmts.find]; exact find_append ht rest
  | .tag t' rest => by
    simp only [Stmts.append, Stmts.find, find_append ht rest]
    cases rest.find t with
    | some r => rfl
    | none => simp only [Option.map_none]; split <;> rfl

theorem find_fresh {y : Name} : ∀ {b : Stmts}, FrS y b → b.find y = none
  | .nil, _ => rfl
  | .form e rest, h => find_fresh (b := rest) h.2
  | .tag t rest, h => by simp only [Stmts.find, find_fresh h.2, if_neg h.1]

theorem find_all {y t : Name} {tail body : Stmts} {e : Tm} (ht : NoTags tail) (hb : FrS y body) :
    (Stmts.tag y (.form e (body.append tail))).find t =
      if t = y then some (.form e (body.append tail)) else (body.find t).map fun r => r.append tail := by
  simp only [Stmts.find, find_append ht]
  by_cases h : t = y
  · subst h; simp [find_fresh hb]
  · rw [if_neg h, if_neg (Ne.symm h)]; cases body.find t <;> rfl

/-! ### do -/

/-- The end test of `do`. -/
theorem ev_test {test result : Tm} {s : St} {r : Res} : Ev G (.ite test (.return_ result) .nil) s r ↔
    (∃ s1, Ev G test s (.val .nil s1) ∧ r = .val .nil s1) ∨
    (∃ v s1 u s2, Ev G test s (.val v s1) ∧ v ≠ .nil ∧ Ev G result s1 (.val u s2) ∧ r = .ret 0 u s2) ∨
    (∃ v s1, Ev G test s (.val v s1) ∧ v ≠ .nil ∧ Ev G result s1 r ∧ r.Out) ∨ (Ev G test s r ∧ r.Out) := by
  rw [ev_ite, then_cases]
  constructor
  · rintro (⟨v, s1, h1, h2⟩ | h)
    · by_cases hv : v = .nil
      · subst hv
        simp only [if_pos, Tm.nil, ev_const] at h2
        exact .inl ⟨s1, h1, h2⟩
      · rw [if_neg hv, Tm.return_, ev_ret, then_cases] at h2
        rcases h2 with ⟨u, s2, h2, rfl⟩ | ⟨h2, ho⟩
        · exact .inr (.inl ⟨v, s1, u, s2, h1, hv, h2, rfl⟩)
        · exact .inr (.inr (.inl ⟨v, s1, h1, hv, h2, ho⟩))
    · exact .inr (.inr (.inr h))
  · rintro (⟨s1, h1, rfl⟩ | ⟨v, s1, u, s2, h1, hv, h2, rfl⟩ | ⟨v, s1, h1, hv, h2, ho⟩ | h)
    · exact .inl ⟨_, s1, h1, by simp only [if_pos, Tm.nil, ev_const]⟩
    · exact .inl ⟨v, s1, h1, by rw [if_neg hv, Tm.return_, ev_ret, then_cases]; exact .inl ⟨u, s2, h2, rfl⟩⟩
    · exact .inl ⟨v, s1, h1, by rw [if_neg hv, Tm.return_, ev_ret, then_cases]; exact .inr ⟨h2, ho⟩⟩
    · exact .inr h

theorem outOf_of {b all : Stmts} {r : Res} (h : r.OutOf all) (hf : ∀ t s, r = .go t s → all.find t = none → b.find t = none) :
    r.OutOf b := by
  cases r with
  | go t s => exact hf t s rfl h
  | val => exact absurd h id
  | timeout => exact absurd h id
  | ret => trivial
  | exit => trivial

theorem out_of_outOf {b : Stmts} {r : Res} (h : r.OutOf b) : r.Out := by
  cases r <;> first | exact absurd h id | trivial

section
variable {y : Name} {test result stepT : Tm} {body : Stmts}

/-- The statements of `do`. -/
def doTail (y : Name) (stepT : Tm) : Stmts := .form stepT (.form (.go y) .nil)
def doFrom (y : Name) (test result stepT : Tm) (body : Stmts) : Stmts :=
  .form (.ite test (.return_ result) .nil) (body.append (doTail y stepT))

theorem noTags_tail : NoTags (doTail y stepT) := trivial

theorem do_find (hb : FrS y body) (t : Name) :
    (Stmts.tag y (doFrom y test result stepT body)).find t =
      if t = y then some (doFrom y test result stepT body) else (body.find t).map fun r => r.append (doTail y stepT) :=
  find_all noTags_tail hb

theorem do_fwd (hb : FrS y body) (hte : Fr y test) (hre : Fr y result) (hst : Fr y stepT) {cur : Stmts} {s : St} {r : Res}
    (h : TagR G (.tag y (doFrom y test result stepT body)) cur s r) :
    (cur = doFrom y test result stepT body → DoR G test result body (Ev G stepT) .top s r) ∧
    (∀ rest, FrS y rest → cur = rest.append (doTail y stepT) → DoR G test result body (Ev G stepT) (.at rest) s r) ∧
    (cur = .form (.go y) .nil → DoR G test result body (Ev G stepT) .top s r) := by
  have hI : Fr y (.ite test (.return_ result) .nil) := ⟨hte, hre, trivial⟩
  induction h with
  | nil =>
    refine ⟨fun h => (by cases h), fun rest _ h => ?_, fun h => (by cases h)⟩
    cases rest <;> cases h
  | tag h ih =>
    refine ⟨fun h => (by cases h), fun rest hr h => ?_, fun h => (by cases h)⟩
    cases rest with
    | nil => cases h
    | form => cases h
    | tag t rest => cases h; exact .tag (ih.2.1 rest hr.2 rfl)
  | @form e rest s v s1 r he _ ih =>
    refine ⟨fun h => ?_, fun rest' hr h => ?_, fun h => ?_⟩
    · cases h
      rw [ev_test] at he
      rcases he with ⟨s2, h1, h2⟩ | ⟨_, _, _, _, _, _, _, h2⟩ | ⟨_, _, _, _, _, ho⟩ | ⟨_, ho⟩
      · cases h2; exact .enter h1 (ih.2.1 body hb rfl)
      · cases h2
      · exact absurd ho id
      · exact absurd ho id
    · cases rest' with
      | nil => cases h; exact .again he (ih.2.2 rfl)
      | tag => cases h
      | form e' rest' => cases h; exact .form he (ih.2.1 rest' hr.2 rfl)
    · cases h; rw [ev_go] at he; cases he
  | @go e rest s t s1 rest' r he hf _ ih =>
    rw [do_find hb] at hf
    refine ⟨fun h => ?_, fun rest'' hr h => ?_, fun h => ?_⟩
    · cases h
      have hne : t ≠ y := by rintro rfl; exact ev_nogo hI he
      rw [if_neg hne] at hf
      obtain ⟨r0, hf1, rfl⟩ := Option.map_eq_some_iff.1 hf
      have hd := ih.2.1 r0 (find_free hb hf1) rfl
      rw [ev_test] at he
      rcases he with ⟨s2, h1, h2⟩ | ⟨_, _, _, _, _, _, _, h2⟩ | ⟨v, s2, h1, hv, h2, _⟩ | ⟨h1, _⟩
      · cases h2
      · cases h2
      · exact .resultGo h1 hv h2 hf1 hd
      · exact .testGo h1 hf1 hd
    · cases rest'' with
      | nil =>
        cases h
        have hne : t ≠ y := by rintro rfl; exact ev_nogo hst he
        rw [if_neg hne] at hf
        obtain ⟨r0, hf1, rfl⟩ := Option.map_eq_some_iff.1 hf
        exact .stepGo he hf1 (ih.2.1 r0 (find_free hb hf1) rfl)
      | tag => cases h
      | form e' rest'' =>
        cases h
        have hne : t ≠ y := by rintro rfl; exact ev_nogo hr.1 he
        rw [if_neg hne] at hf
        obtain ⟨r0, hf1, rfl⟩ := Option.map_eq_some_iff.1 hf
        exact .go he hf1 (ih.2.1 r0 (find_free hb hf1) rfl)
    · cases h
      rw [ev_go] at he
      cases he
      rw [if_pos rfl] at hf
      cases hf
      exact ih.1 rfl
  | @out e rest s r he ho =>
    have key : ∀ {e : Tm} {s}, Fr y e → Ev G e s r → r.OutOf body := by
      intro e s hfe he
      refine outOf_of ho fun t s1 hr hn => ?_
      subst hr
      have hne : t ≠ y := by rintro rfl; exact ev_nogo hfe he
      rw [do_find hb, if_neg hne] at hn
      simpa using hn
    refine ⟨fun h => ?_, fun rest' hr h => ?_, fun h => ?_⟩
    · cases h
      have ho' := key hI he
      rw [ev_test] at he
      rcases he with ⟨s2, h1, h2⟩ | ⟨v, s2, u, s3, h1, hv, h2, rfl⟩ | ⟨v, s2, h1, hv, h2, _⟩ | ⟨h1, _⟩
      · subst h2; exact absurd ho id
      · exact .finish h1 hv h2
      · exact .resultOut h1 hv h2 ho'
      · exact .testOut h1 ho'
    · cases rest' with
      | nil => cases h; exact .stepOut he (key hst he)
      | tag => cases h
      | form e' rest' => cases h; exact .out he (key hr.1 he)
    · cases h
      rw [ev_go] at he
      subst he
      simp only [Res.OutOf, do_find hb, if_pos] at ho
      cases ho

/-- Where `do` is, in its statements. -/
def Pos.stmts (y : Name) (test result stepT : Tm) (body : Stmts) : Pos → Stmts
  | .top => doFrom y test result stepT body
  | .at rest => rest.append (doTail y stepT)
def Pos.Free (y : Name) : Pos → Prop
  | .top => True
  | .at rest => FrS y rest

theorem do_bwd (hb : FrS y body) (hte : Fr y test) (hre : Fr y result) (hst : Fr y stepT) {p : Pos} {s : St} {r : Res}
    (h : DoR G test result body (Ev G stepT) p s r) (hp : p.Free y) :
    TagR G (.tag y (doFrom y test result stepT body)) (p.stmts y test result stepT body) s r := by
  have hfind : ∀ {t : Name} {rest : Stmts}, t ≠ y → body.find t = some rest →
      (Stmts.tag y (doFrom y test result stepT body)).find t = some (rest.append (doTail y stepT)) := by
    intro t rest hne hf
    rw [do_find hb, if_neg hne, hf]; rfl
  have hout : ∀ {r : Res} {e : Tm} {s : St}, Fr y e → Ev G e s r → r.OutOf body →
      r.OutOf (.tag y (doFrom y test result stepT body)) := by
    intro r e s hfe he ho
    refine outOf_of ho fun t s1 hr hn => ?_
    subst hr
    have hne : t ≠ y := by rintro rfl; exact ev_nogo hfe he
    rw [do_find hb, if_neg hne, hn]; rfl
  induction h with
  | finish h1 hv h2 => exact .out (ev_test.2 (.inr (.inl ⟨_, _, _, _, h1, hv, h2, rfl⟩))) trivial
  | enter h1 _ ih => exact .form (ev_test.2 (.inl ⟨_, h1, rfl⟩)) (ih hb)
  | testGo h1 hf _ ih =>
    refine .go (ev_test.2 (.inr (.inr (.inr ⟨h1, trivial⟩)))) (hfind ?_ hf) (ih (find_free hb hf))
    rintro rfl; exact ev_nogo hte h1
  | testOut h1 ho => exact .out (ev_test.2 (.inr (.inr (.inr ⟨h1, out_of_outOf ho⟩)))) (hout hte h1 ho)
  | resultGo h1 hv h2 hf _ ih =>
    refine .go (ev_test.2 (.inr (.inr (.inl ⟨_, _, h1, hv, h2, trivial⟩)))) (hfind ?_ hf) (ih (find_free hb hf))
    rintro rfl; exact ev_nogo hre h2
  | resultOut h1 hv h2 ho => exact .out (ev_test.2 (.inr (.inr (.inl ⟨_, _, h1, hv, h2, out_of_outOf ho⟩)))) (hout hre h2 ho)
  | tag _ ih => exact .tag (ih hp.2)
  | form he _ ih => exact .form he (ih hp.2)
  | go he hf _ ih =>
    refine .go he (hfind ?_ hf) (ih (find_free hb hf))
    rintro rfl; exact ev_nogo hp.1 he
  | out he ho => exact .out he (hout hp.1 he ho)
  | again he _ ih =>
    refine .form he (.go (ev_go.2 rfl) ?_ (ih trivial))
    rw [do_find hb, if_pos rfl]; rfl
  | stepGo he hf _ ih =>
    refine .go he (hfind ?_ hf) (ih (find_free hb hf))
    rintro rfl; exact ev_nogo hst he
  | stepOut he ho => exact .out he (hout hst he ho)

theorem ev_doBody (hb : FrS y body) (hte : Fr y test) (hre : Fr y result) (hst : Fr y stepT) {s : St} {r : Res} :
    Ev G (.tagbody (.tag y (doFrom y test result stepT body))) s r ↔ DoR G test result body (Ev G stepT) .top s r := by
  rw [Tm.tagbody, ev_tag_tag, ev_tagbody]
  exact ⟨fun h => (do_fwd hb hte hre hst h).1 rfl, fun h => do_bwd hb hte hre hst h trivial⟩

end

theorem doBinds_toList : ∀ l : List DoVar, (doBinds l).toList = l.map fun v => (v.x, v.init)
  | [] => rfl
  | v :: l => by simp [doBinds, Binds.toList, doBinds_toList l]

/-- What `do` does. -/
def DoS (G : Ext) (vars : List DoVar) (test result : Tm) (body : Stmts) (s : St) (r : Res) : Prop :=
  ∃ r', BindPar G (vars.map fun v => (v.x, v.init)) (DoR G test result body (PsetqS G (doSteps vars)) .top) s r' ∧ r = r'.arrive 0
/-- What `do*` does. -/
def DoStarS (G : Ext) (vars : List DoVar) (test result : Tm) (body : Stmts) (s : St) (r : Res) : Prop :=
  ∃ r', BindSeq G (vars.map fun v => (v.x, v.init)) (DoR G test result body (SetSeq G (doSteps vars)) .top) s r' ∧ r = r'.arrive 0

theorem frB_psetq {y : Name} : ∀ (gs : List Nat) (l : List (Name × Tm)), (∀ g ∈ gs, .gen g ≠ y) → (∀ p ∈ l, Fr y p.2) → FrB y (psetqBinds gs l)
  | [], [], _, _ => trivial
  | [], _ :: _, _, _ => trivial
  | _ :: _, [], _, _ => trivial
  | g :: gs, (x, e) :: l, hg, hl => ⟨hg g (List.mem_cons_self ..), hl (x, e) (List.mem_cons_self ..),
      frB_psetq gs l (fun g' h => hg g' (List.mem_cons_of_mem _ h)) (fun p h => hl p (List.mem_cons_of_mem _ h))⟩

theorem fr_psetqSets {y : Name} : ∀ (gs : List Nat) (l : List (Name × Tm)), (∀ g ∈ gs, .gen g ≠ y) → (∀ p ∈ l, p.1 ≠ y) → Fr y (psetqSets gs l)
  | [], [], _, _ => trivial
  | [], _ :: _, _, _ => trivial
  | _ :: _, [], _, _ => trivial
  | g :: gs, (x, e) :: l, hg, hl => ⟨⟨hl (x, e) (List.mem_cons_self ..), hg g (List.mem_cons_self ..)⟩,
      fr_psetqSets gs l (fun g' h => hg g' (List.mem_cons_of_mem _ h)) (fun p h => hl p (List.mem_cons_of_mem _ h))⟩

theorem fr_psetq {y : Name} {gs : List Nat} {l : List (Name × Tm)} (hg : ∀ g ∈ gs, .gen g ≠ y) (hl : ∀ p ∈ l, p.1 ≠ y ∧ Fr y p.2) :
    Fr y (psetq gs l) :=
  ⟨frB_psetq gs l hg fun p h => (hl p h).2, fr_psetqSets gs l hg fun p h => (hl p h).1, trivial⟩

theorem fr_setqs {y : Name} : ∀ (l : List (Name × Tm)), (∀ p ∈ l, p.1 ≠ y ∧ Fr y p.2) → Fr y (setqs l)
  | [], _ => trivial
  | (x, e) :: l, h => ⟨h (x, e) (List.mem_cons_self ..), fr_setqs l fun p hp => h p (List.mem_cons_of_mem _ hp)⟩

theorem ev_do {tag : Nat} {gs : List Nat} {vars : List DoVar} {test result : Tm} {body : Stmts}
    (hf : Fresh (tag :: gs) ((.user 0, .nil) :: doSteps vars)) (hb : FrS (.gen tag) body) (hte : Fr (.gen tag) test)
    (hre : Fr (.gen tag) result) {s : St} {r : Res} :
    Ev G (do_ tag gs vars test result body) s r ↔ DoS G vars test result body s r := by
  have hn := List.nodup_cons.1 hf.nodup
  have hps : Fresh gs (doSteps vars) := ⟨by simpa using hf.length, hn.2,
    fun g hg p hp => hf.new g (List.mem_cons_of_mem _ hg) p (List.mem_cons_of_mem _ hp)⟩
  have hst : Fr (.gen tag) (psetq gs (doSteps vars)) := fr_psetq
    (fun g hg h => hn.1 (by injection h with h; exact h ▸ hg))
    (fun p hp => hf.new tag (List.mem_cons_self ..) p (List.mem_cons_of_mem _ hp))
  rw [do_, ev_block, DoS]
  have e1 : ∀ s r, Ev G (psetq gs (doSteps vars)) s r ↔ PsetqS G (doSteps vars) s r := fun s r => ev_psetq hps
  have e2 : Ev G (psetq gs (doSteps vars)) = PsetqS G (doSteps vars) := funext fun s => funext fun r => propext (e1 s r)
  have e3 : (fun s r => Ev G (.tagbody (.tag (.gen tag) (doFrom (.gen tag) test result (psetq gs (doSteps vars)) body))) s r) =
      DoR G test result body (PsetqS G (doSteps vars)) .top := by
    rw [← e2]
    exact funext fun s => funext fun r => propext (ev_doBody hb hte hre hst)
  have e4 : ∀ r', Ev G (.letp (doBinds vars) (.tagbody (.tag (.gen tag) (doFrom (.gen tag) test result (psetq gs (doSteps vars)) body)))) s r' ↔
      BindPar G (vars.map fun v => (v.x, v.init)) (DoR G test result body (PsetqS G (doSteps vars)) .top) s r' := by
    intro r'
    rw [ev_letp, e3, doBinds_toList]
  exact exists_congr fun r' => and_congr (e4 r') Iff.rfl

theorem ev_doStar {tag : Nat} {vars : List DoVar} {test result : Tm} {body : Stmts}
    (hv : ∀ p ∈ doSteps vars, p.1 ≠ .gen tag ∧ Fr (.gen tag) p.2) (hb : FrS (.gen tag) body) (hte : Fr (.gen tag) test)
    (hre : Fr (.gen tag) result) {s : St} {r : Res} :
    Ev G (doStar tag vars test result body) s r ↔ DoStarS G vars test result body s r := by
  have hst : Fr (.gen tag) (setqs (doSteps vars)) := fr_setqs _ hv
  rw [doStar, ev_block, DoStarS]
  have e2 : Ev G (setqs (doSteps vars)) = SetSeq G (doSteps vars) := funext fun s => funext fun r => propext (ev_setqs _)
  have e3 : (fun s r => Ev G (.tagbody (.tag (.gen tag) (doFrom (.gen tag) test result (setqs (doSteps vars)) body))) s r) =
      DoR G test result body (SetSeq G (doSteps vars)) .top := by
    rw [← e2]
    exact funext fun s => funext fun r => propext (ev_doBody hb hte hre hst)
  have e4 : ∀ r', Ev G (.lets (doBinds vars) (.tagbody (.tag (.gen tag) (doFrom (.gen tag) test result (setqs (doSteps vars)) body)))) s r' ↔
      BindSeq G (vars.map fun v => (v.x, v.init)) (DoR G test result body (SetSeq G (doSteps vars)) .top) s r' := by
    intro r'
    rw [ev_lets, e3, doBinds_toList]
  exact exists_congr fun r' => and_congr (e4 r') Iff.rfl

/-! ### loop -/

section
variable {y : Name} {body : Stmts}

theorem loop_find (hb : FrS y body) (t : Name) :
    (Stmts.tag y (body.append (.form (.go y) .nil))).find t =
      if t = y then some (body.append (.form (.go y) .nil)) else (body.find t).map fun r => r.append (.form (.go y) .nil) := by
  have hn : NoTags (.form (.go y) .nil) := trivial
  simp only [Stmts.find, find_append hn]
  by_cases h : t = y
  · subst h; simp [find_fresh hb]
  · rw [if_neg h, if_neg (Ne.symm h)]; cases body.find t <;> rfl

theorem loop_fwd (hb : FrS y body) {cur : Stmts} {s : St} {r : Res}
    (h : TagR G (.tag y (body.append (.form (.go y) .nil))) cur s r) :
    ∀ rest, FrS y rest → cur = rest.append (.form (.go y) .nil) → LoopR G body rest s r := by
  induction h with
  | nil => intro rest _ h; cases rest <;> cases h
  | tag h ih =>
    intro rest hr h
    cases rest with
    | nil => cases h
    | form => cases h
    | tag t rest => cases h; exact .tag (ih rest hr.2 rfl)
  | form he _ ih =>
    intro rest hr h
    cases rest with
    | nil => cases h; rw [ev_go] at he; cases he
    | tag => cases h
    | form e' rest' => cases h; exact .form he (ih rest' hr.2 rfl)
  | @go e rest s t s1 rest' r he hf _ ih =>
    intro rest'' hr h
    rw [loop_find hb] at hf
    cases rest'' with
    | nil =>
      cases h
      rw [ev_go] at he
      cases he
      rw [if_pos rfl] at hf
      cases hf
      exact .again (ih body hb rfl)
    | tag => cases h
    | form e' rest'' =>
      cases h
      have hne : t ≠ y := by rintro rfl; exact ev_nogo hr.1 he
      rw [if_neg hne] at hf
      obtain ⟨r0, hf1, rfl⟩ := Option.map_eq_some_iff.1 hf
      exact .go he hf1 (ih r0 (find_free hb hf1) rfl)
  | @out e rest s r he ho =>
    intro rest' hr h
    cases rest' with
    | nil =>
      cases h
      rw [ev_go] at he
      subst he
      simp only [Res.OutOf, loop_find hb, if_pos] at ho
      cases ho
    | tag => cases h
    | form e' rest' =>
      cases h
      refine .out he (outOf_of ho fun t s1 hr' hn => ?_)
      subst hr'
      have hne : t ≠ y := by rintro rfl; exact ev_nogo hr.1 he
      rw [loop_find hb, if_neg hne] at hn
      simpa using hn

theorem loop_bwd (hb : FrS y body) {rest : Stmts} {s : St} {r : Res} (h : LoopR G body rest s r) (hr : FrS y rest) :
    TagR G (.tag y (body.append (.form (.go y) .nil))) (rest.append (.form (.go y) .nil)) s r := by
  induction h with
  | again _ ih =>
    refine .go (ev_go.2 rfl) ?_ (ih hb)
    rw [loop_find hb, if_pos rfl]
  | tag _ ih => exact .tag (ih hr.2)
  | form he _ ih => exact .form he (ih hr.2)
  | @go e rest s t s1 rest' r he hf _ ih =>
    refine .go (t := t) (rest' := rest'.append (.form (.go y) .nil)) he ?_ (ih (find_free hb hf))
    have hne : t ≠ y := by rintro rfl; exact ev_nogo hr.1 he
    rw [loop_find hb, if_neg hne, hf]; rfl
  | @out e rest s r he ho =>
    refine .out he (outOf_of ho fun t s1 hr' hn => ?_)
    subst hr'
    have hne : t ≠ y := by rintro rfl; exact ev_nogo hr.1 he
    rw [loop_find hb, if_neg hne, hn]; rfl

end

/-- What `loop` does. -/
def LoopS (G : Ext) (body : Stmts) (s : St) (r : Res) : Prop := ∃ r', LoopR G body body s r' ∧ r = r'.arrive 0

theorem ev_loopM {tag : Nat} {body : Stmts} (hb : FrS (.gen tag) body) {s : St} {r : Res} :
    Ev G (loopM tag body) s r ↔ LoopS G body s r := by
  rw [loopM, ev_block, LoopS]
  refine exists_congr fun r' => and_congr ?_ Iff.rfl
  rw [Tm.tagbody, ev_tag_tag, ev_tagbody]
  exact ⟨fun h => loop_fwd hb h body hb rfl, fun h => loop_bwd hb h hb⟩

/-! ### case -/

theorem ev_case1 {k : Nat} {v : V} {s : St} (hv : s.vars (.gen k) = v) {r : Res} : ∀ l : List (Head × Tm),
    Ev G (case1 k l) s r ↔ Ev G (chosen l v) s r
  | [] => Iff.rfl
  | (h, b) :: l => by
    rw [case1, chosen, ev_ite]
    have ih := ev_case1 hv (r := r) l
    cases h with
    | otherwise_ => simp only [casehead, then_const, Head.matches]; simp
    | atom u =>
      simp only [casehead, ev_call2, then_var, then_const, exists_eq_left, P2.run, Option.elim, Head.matches, hv]
      simp only [Then]
      by_cases hu : v = u
      · simp [hu]
      · simp [hu, ih]
    | keys ks =>
      simp only [casehead, ev_call1, then_var, exists_eq_left, P1.run, Option.elim, Head.matches, hv]
      simp only [Then]
      by_cases hu : v ∈ ks
      · simp [hu]
      · simp [hu, ih]

theorem fr_chosen {y : Name} {v : V} : ∀ {l : List (Head × Tm)}, (∀ c ∈ l, Fr y c.2) → Fr y (chosen l v)
  | [], _ => trivial
  | (h, b) :: l, hf => by
    rw [chosen]
    split
    · exact hf (h, b) (List.mem_cons_self ..)
    · exact fr_chosen fun c hc => hf c (List.mem_cons_of_mem _ hc)

theorem ev_case {k : Nat} {key : Tm} {l : List (Head × Tm)} (hf : ∀ c ∈ l, Fr (.gen k) c.2) {s : St} {r : Res} :
    Ev G (case_ k key l) s r ↔ ∃ rk, Ev G key s rk ∧ Then rk (fun v s r => Ev G (chosen l v) s r) r := by
  rw [case_, ev_let1]
  refine then_congr fun v s1 _ => ?_
  simp only [ev_case1 (k := k) (v := v) (s := s1.set (.gen k) v) (by simp), ev_frame (fr_chosen hf), restore_one]
  have hid : ∀ r', Ev G (chosen l v) s1 r' → (r'.mapSt (·.set (.gen k) v)).mapSt (·.set (.gen k) (s1.vars (.gen k))) = r' := by
    intro r' h
    rw [mapSt_mapSt]
    refine mapSt_id fun s2 h2 => ?_
    rw [set_set, ← ev_keeps (fr_chosen hf) h s2 h2, set_self]
  constructor
  · rintro ⟨_, ⟨r', h, rfl⟩, rfl⟩
    rw [hid r' h]; exact h
  · intro h
    exact ⟨_, ⟨r, h, rfl⟩, (hid r h).symm⟩

/-! ### setf -/

theorem ev_cxr {e : Tm} {s : St} {r : Res} : ∀ l : List AD, Ev G (cxr l e) s r ↔
    ∃ re, Ev G e s re ∧ Then re (fun u s1 r => r = (walk s1.w l u).elim (.exit .nil s1) fun v => .val v s1) r
  | [] => by
    simp only [cxr, List.foldr_nil, walk, Option.elim, then_cases]
    constructor
    · intro h
      rcases r.cases_out h.1 with ⟨v, s', rfl⟩ | ho
      · exact .inl ⟨v, s', h, rfl⟩
      · exact .inr ⟨h, ho⟩
    · rintro (⟨v, s', h, rfl⟩ | ⟨h, _⟩) <;> exact h
  | x :: l => by
    have h0 : cxr (x :: l) e = .call1 x.get (cxr l e) := rfl
    rw [h0, ev_call1]
    simp only [ev_cxr l]
    constructor
    · rintro ⟨ra, ⟨re, h1, h2⟩, h3⟩
      refine ⟨re, h1, ?_⟩
      cases re with
      | val u s1 =>
        simp only [Then] at h2 ⊢
        subst h2
        simp only [walk]
        cases hw : walk s1.w l u with
        | none => rw [hw] at h3; exact h3
        | some c =>
          rw [hw] at h3
          simp only [Option.elim, Then] at h3
          rw [h3]
          cases x <;> cases c <;> rfl
      | timeout => exact absurd rfl h1.1
      | ret => simp only [Then] at h2 ⊢; subst h2; exact h3
      | go => simp only [Then] at h2 ⊢; subst h2; exact h3
      | exit => simp only [Then] at h2 ⊢; subst h2; exact h3
    · rintro ⟨re, h1, h2⟩
      cases re with
      | val u s1 =>
        simp only [Then] at h2
        refine ⟨_, ⟨_, h1, rfl⟩, ?_⟩
        subst h2
        simp only [walk]
        cases hw : walk s1.w l u with
        | none => rfl
        | some c => cases x <;> cases c <;> rfl
      | timeout => exact absurd rfl h1.1
      | ret => exact ⟨_, ⟨_, h1, rfl⟩, h2⟩
      | go => exact ⟨_, ⟨_, h1, rfl⟩, h2⟩
      | exit => exact ⟨_, ⟨_, h1, rfl⟩, h2⟩

end Eus.Mac
