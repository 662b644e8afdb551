import Verif.Mac.Spec
set_option autoImplicit false
/-! The macros against their specifications. -/
namespace Eus.Mac
variable {G : Ext}

/-! ### Handling `Then` -/

theorem Then.congr {ra : Res} {f f' : V → St → Res → Prop} {r : Res} (h : ∀ v s, ra = .val v s → (f v s r ↔ f' v s r)) :
    Then ra f r ↔ Then ra f' r := by
  cases ra with
  | val v s => exact h v s rfl
  | ret => rfl
  | go => rfl
  | exit => rfl
  | timeout => rfl

theorem then_congr {e : Tm} {s : St} {f f' : V → St → Res → Prop} {r : Res}
    (h : ∀ v s', Ev G e s (.val v s') → (f v s' r ↔ f' v s' r)) :
    (∃ ra, Ev G e s ra ∧ Then ra f r) ↔ ∃ ra, Ev G e s ra ∧ Then ra f' r := by
  constructor
  · rintro ⟨ra, he, ht⟩
    refine ⟨ra, he, (Then.congr fun v s' hv => ?_).1 ht⟩
    exact h v s' (hv ▸ he)
  · rintro ⟨ra, he, ht⟩
    refine ⟨ra, he, (Then.congr fun v s' hv => ?_).2 ht⟩
    exact h v s' (hv ▸ he)

theorem then_out {ra : Res} {f : V → St → Res → Prop} {r : Res} (h : ra.Out) : Then ra f r ↔ r = ra := by
  cases ra <;> first | exact absurd h id | rfl

theorem Res.cases_out (r : Res) (h : r ≠ .timeout) : (∃ v s, r = .val v s) ∨ r.Out := by
  cases r with
  | val v s => exact .inl ⟨v, s, rfl⟩
  | timeout => exact absurd rfl h
  | _ => exact .inr trivial

theorem then_cases {e : Tm} {s : St} {f : V → St → Res → Prop} {r : Res} :
    (∃ ra, Ev G e s ra ∧ Then ra f r) ↔ (∃ v s', Ev G e s (.val v s') ∧ f v s' r) ∨ (Ev G e s r ∧ r.Out) := by
  constructor
  · rintro ⟨ra, he, ht⟩
    rcases ra.cases_out he.1 with ⟨v, s', rfl⟩ | h
    · exact .inl ⟨v, s', he, ht⟩
    · rw [then_out h] at ht; subst ht; exact .inr ⟨he, h⟩
  · rintro (⟨v, s', he, hf⟩ | ⟨he, h⟩)
    · exact ⟨_, he, hf⟩
    · exact ⟨r, he, (then_out h).2 rfl⟩

theorem then_var {x : Name} {s : St} {f : V → St → Res → Prop} {r : Res} :
    (∃ ra, Ev G (.var x) s ra ∧ Then ra f r) ↔ f (s.vars x) s r := by
  simp only [ev_var, exists_eq_left, Then]

theorem then_const {v : V} {s : St} {f : V → St → Res → Prop} {r : Res} :
    (∃ ra, Ev G (.const v) s ra ∧ Then ra f r) ↔ f v s r := by
  simp only [ev_const, exists_eq_left, Then]

/-! ### let, while, tagbody -/

theorem assign_eq : ∀ (xs : List Name) (vs : List V) (s : St), assign xs vs s = bindAll xs vs s
  | [], _, _ => rfl
  | _ :: _, [], _ => rfl
  | x :: xs, v :: vs, s => assign_eq xs vs (s.set x v)

/-- The variables of a `let` with their forms. -/
def Binds.toList : Binds → List (Name × Tm)
  | .nil => []
  | .cons x e rest => (x, e) :: rest.toList

theorem names_eq : ∀ bs : Binds, bs.names = bs.toList.map (·.1)
  | .nil => rfl
  | .cons x e rest => by simp [Binds.names, Binds.toList, names_eq rest]

theorem ev_binds {s : St} {bs : Binds} {f : Nat → List V → St → Res} {F : List V → St → Res → Prop} {r : Res}
    (hF : ∀ vs s r, F vs s r ↔ r ≠ .timeout ∧ ∃ k0, ∀ k ≥ k0, f k vs s = r) :
    (r ≠ .timeout ∧ ∃ k0, ∀ k ≥ k0, evBinds (eval G k) bs s (f k) = r) ↔ EvArgs G (bs.toList.map (·.2)) F s r := by
  match bs with
  | .nil => exact (hF [] s r).symm
  | .cons x e rest =>
    exact ev_bind (f := fun k v s => evBinds (eval G k) rest s fun vs s => f k (v :: vs) s) fun v s r =>
      (ev_binds (fun vs s r => hF (v :: vs) s r)).symm

theorem ev_letp {bs : Binds} {body : Tm} {s : St} {r : Res} :
    Ev G (.letp bs body) s r ↔ BindPar G bs.toList (fun s r => Ev G body s r) s r := by
  rw [ev_shift]; simp only [eval]
  refine ev_binds (f := fun k vs s => (eval G k body (bindAll bs.names vs s)).mapSt fun s' => s'.restore s bs.names)
    fun vs s r => ?_
  rw [ev_mapSt, assign_eq, names_eq]

theorem ev_lets {bs : Binds} {body : Tm} : ∀ {s : St} {r : Res},
    Ev G (.lets bs body) s r ↔ BindSeq G bs.toList (fun s r => Ev G body s r) s r := by
  match bs with
  | .nil => intro s r; exact ev_lets_nil
  | .cons x e rest =>
    intro s r
    rw [ev_lets_cons]
    refine then_congr fun v s' _ => ?_
    simp only [ev_lets (bs := rest)]

theorem ev_while {c body : Tm} {s : St} {r : Res} : Ev G (.loop c body) s r ↔ WhileR G c body s r := by
  constructor
  · rintro ⟨h0, k, h⟩
    induction k using Nat.strongRecOn generalizing s r with
    | _ k ih =>
      cases k with
      | zero => exact absurd h.symm h0
      | succ k =>
        simp only [eval] at h
        cases hc : eval G k c s with
        | timeout => rw [hc] at h; exact absurd h.symm h0
        | ret n v s1 => rw [hc] at h; subst h; exact .testOut ⟨h0, k, hc⟩ trivial
        | go t s1 => rw [hc] at h; subst h; exact .testOut ⟨h0, k, hc⟩ trivial
        | exit v s1 => rw [hc] at h; subst h; exact .testOut ⟨h0, k, hc⟩ trivial
        | val v s1 =>
          rw [hc] at h
          simp only [Res.bind] at h
          by_cases hv : v = .nil
          · rw [if_pos hv] at h; subst h hv; exact .done ⟨by simp, k, hc⟩
          · rw [if_neg hv] at h
            cases hb : eval G k body s1 with
            | timeout => rw [hb] at h; exact absurd h.symm h0
            | ret n v' s1 => rw [hb] at h; subst h; exact .bodyOut ⟨by simp, k, hc⟩ hv ⟨h0, k, hb⟩ trivial
            | go t s1 => rw [hb] at h; subst h; exact .bodyOut ⟨by simp, k, hc⟩ hv ⟨h0, k, hb⟩ trivial
            | exit v' s1 => rw [hb] at h; subst h; exact .bodyOut ⟨by simp, k, hc⟩ hv ⟨h0, k, hb⟩ trivial
            | val u s2 =>
              rw [hb] at h
              exact .step ⟨by simp, k, hc⟩ hv ⟨by simp, k, hb⟩ (ih k (by omega) h0 h)
  · intro h
    induction h with
    | done h => rw [ev_loop]; exact ⟨_, h, by simp [Then]⟩
    | testOut h ho => rw [ev_loop]; exact ⟨_, h, (then_out ho).2 rfl⟩
    | step hc hv hb _ ih => rw [ev_loop]; exact ⟨_, hc, by simp only [Then, if_neg hv]; exact ⟨_, hb, ih⟩⟩
    | bodyOut hc hv hb ho => rw [ev_loop]; exact ⟨_, hc, by simp only [Then, if_neg hv]; exact ⟨_, hb, (then_out ho).2 rfl⟩⟩

theorem ev_tagbody {all cur : Stmts} {s : St} {r : Res} : Ev G (.tagfrom all cur) s r ↔ TagR G all cur s r := by
  constructor
  · rintro ⟨h0, k, h⟩
    induction k using Nat.strongRecOn generalizing s r cur with
    | _ k ih =>
      cases k with
      | zero => exact absurd h.symm h0
      | succ k =>
        cases cur with
        | nil => simp only [eval] at h; subst h; exact .nil
        | tag t rest => simp only [eval] at h; exact .tag (ih k (by omega) h0 h)
        | form e rest =>
          simp only [eval] at h
          cases hc : eval G k e s with
          | timeout => rw [hc] at h; exact absurd h.symm h0
          | ret n v s1 => rw [hc] at h; subst h; exact .out ⟨h0, k, hc⟩ trivial
          | exit v s1 => rw [hc] at h; subst h; exact .out ⟨h0, k, hc⟩ trivial
          | val v s1 => rw [hc] at h; exact .form ⟨by simp, k, hc⟩ (ih k (by omega) h0 h)
          | go t s1 =>
            rw [hc] at h
            simp only at h
            cases hf : all.find t with
            | none => rw [hf] at h; subst h; exact .out ⟨h0, k, hc⟩ hf
            | some rest' => rw [hf] at h; exact .go ⟨by simp, k, hc⟩ hf (ih k (by omega) h0 h)
  · intro h
    induction h with
    | nil => rw [ev_tag_nil]
    | tag _ ih => rw [ev_tag_tag]; exact ih
    | form he _ ih => rw [ev_tag_form]; exact ⟨_, he, ih⟩
    | go he hf _ ih => rw [ev_tag_form]; exact ⟨_, he, by simp only [AfterStmt, hf]; exact ih⟩
    | @out e rest s r he ho =>
      rw [ev_tag_form]
      refine ⟨_, he, ?_⟩
      cases r with
      | val => exact absurd ho id
      | timeout => exact absurd ho id
      | ret => rfl
      | exit => rfl
      | go t s1 => simp only [AfterStmt, show all.find t = none from ho]

/-! ### Forgetting a fresh variable -/

theorem restore_one (s o : St) (x : Name) : s.restore o [x] = s.set x (o.vars x) := by
  refine St.ext' (fun z => ?_) rfl
  simp only [restore_vars, set_vars, List.mem_singleton]
  split
  · next h => rw [h]
  · rfl

theorem restore_two (s o : St) (x y : Name) : s.restore o [x, y] = (s.set y (o.vars y)).restore o [x] := by
  refine St.ext' (fun z => ?_) rfl
  simp only [restore_vars, set_vars, List.mem_cons, List.not_mem_nil, or_false]
  by_cases h1 : z = x
  · simp [h1]
  · by_cases h2 : z = y
    · simp [h2]
    · simp [h1, h2]

theorem mapSt_val {r : Res} {f : St → St} {v : V} {s : St} (h : r.mapSt f = .val v s) : ∃ s', r = .val v s' ∧ f s' = s := by
  cases r <;> simp_all [Res.mapSt]

theorem mapSt_out {r : Res} {f : St → St} : (r.mapSt f).Out ↔ r.Out := by cases r <;> simp [Res.mapSt, Res.Out]

theorem mapSt_outOf {b : Stmts} {r : Res} {f : St → St} : (r.mapSt f).OutOf b ↔ r.OutOf b := by
  cases r <;> simp [Res.mapSt, Res.OutOf]

theorem mapSt_arrive {n : Nat} {r : Res} {f : St → St} : (r.mapSt f).arrive n = (r.arrive n).mapSt f := by
  cases r <;> simp [Res.mapSt, Res.arrive]
  split <;> rfl

theorem mapSt_id {r : Res} {f : St → St} (h : ∀ s ∈ r.st, f s = s) : r.mapSt f = r := by
  cases r <;> simp_all [Res.mapSt, Res.st]

/-- A form without `y` run in a state, and in the state with `y` set. -/
theorem Ev.set {y : Name} {t : Tm} (ht : Fr y t) {s : St} {r : Res} (v : V) (h : Ev G t s r) :
    Ev G t (s.set y v) (r.mapSt (·.set y v)) := (ev_frame ht).2 ⟨r, h, rfl⟩

theorem Ev.keep {y : Name} {t : Tm} (ht : Fr y t) {s s1 : St} {v : V} (h : Ev G t s (.val v s1)) : s1.vars y = s.vars y :=
  ev_keeps ht h s1 rfl

/-! ### prog1, pop, push -/

theorem ev_prog1 {g : Nat} {first rest : Tm} (hr : Fr (.gen g) rest) {s : St} {r : Res} :
    Ev G (prog1 g first rest) s r ↔ ∃ ra, Ev G first s ra ∧ Then ra (fun v s r =>
      ∃ rb, Ev G rest s rb ∧ Then rb (fun _ s r => r = .val v s) r) r := by
  rw [prog1, ev_let1]
  refine then_congr fun v s1 _ => ?_
  simp only [ev_progn, ev_frame hr, ev_var, restore_one]
  constructor
  · rintro ⟨rb, ⟨_, ⟨r', h1, rfl⟩, h2⟩, rfl⟩
    refine ⟨r', h1, ?_⟩
    have hk := ev_keeps hr h1
    cases r' with
    | val u s2 =>
      simp only [Then, Res.mapSt] at h2 ⊢
      subst h2
      have := hk s2 rfl
      simp only [Res.mapSt, set_vars, if_pos, set_set, ← this, set_self]
    | ret n u s2 =>
      simp only [Then, Res.mapSt] at h2 ⊢
      subst h2
      have := hk s2 rfl
      simp only [Res.mapSt, set_set, ← this, set_self]
    | go n s2 =>
      simp only [Then, Res.mapSt] at h2 ⊢
      subst h2
      have := hk s2 rfl
      simp only [Res.mapSt, set_set, ← this, set_self]
    | exit u s2 =>
      simp only [Then, Res.mapSt] at h2 ⊢
      subst h2
      have := hk s2 rfl
      simp only [Res.mapSt, set_set, ← this, set_self]
    | timeout => exact absurd rfl h1.1
  · rintro ⟨r', h1, h2⟩
    have hk := ev_keeps hr h1
    cases r' with
    | val u s2 =>
      simp only [Then] at h2
      have := hk s2 rfl
      refine ⟨_, ⟨_, ⟨_, h1, rfl⟩, rfl⟩, ?_⟩
      simp only [h2, Res.mapSt, set_vars, if_pos, set_set, ← this, set_self]
    | ret n u s2 =>
      simp only [Then] at h2
      have := hk s2 rfl
      refine ⟨_, ⟨_, ⟨_, h1, rfl⟩, rfl⟩, ?_⟩
      simp only [h2, Res.mapSt, set_set, ← this, set_self]
    | go n s2 =>
      simp only [Then] at h2
      have := hk s2 rfl
      refine ⟨_, ⟨_, ⟨_, h1, rfl⟩, rfl⟩, ?_⟩
      simp only [h2, Res.mapSt, set_set, ← this, set_self]
    | exit u s2 =>
      simp only [Then] at h2
      have := hk s2 rfl
      refine ⟨_, ⟨_, ⟨_, h1, rfl⟩, rfl⟩, ?_⟩
      simp only [h2, Res.mapSt, set_set, ← this, set_self]
    | timeout => exact absurd rfl h1.1

/-- What `pop` of a variable does. -/
def popRes (x : Name) (s : St) : Res :=
  match s.vars x with
  | .cell a => .val (s.w.car a) (s.set x (s.w.cdr a))
  | .nil => .val .nil s
  | _ => .exit .nil s

theorem ev_pop {g : Nat} {x : Name} (hx : x ≠ .gen g) {s : St} {r : Res} :
    Ev G (popVar g x) s r ↔ r = popRes x s := by
  rw [popVar, ev_prog1 (show Fr (.gen g) (.setq x (.call1 .cdr (.var x))) from ⟨hx, hx⟩)]
  simp only [ev_call1, ev_setq, then_var, exists_eq_left, popRes]
  cases hv : s.vars x with
  | nil =>
    simp only [P1.run, Option.elim, Then, hv, exists_eq_left]
    have : s.set x .nil = s := by rw [← hv, set_self]
    rw [this]
  | cell a => simp only [P1.run, Option.elim, Then, hv, exists_eq_left]
  | t => simp only [P1.run, Option.elim, Then]
  | int n => simp only [P1.run, Option.elim, Then]
  | sym n => simp only [P1.run, Option.elim, Then]

end Eus.Mac
