import Verif.Mac.Model
set_option autoImplicit false
/-! More fuel changes nothing; variables that do not occur do not matter; rules for the special forms. -/
namespace Eus.Mac

/-- `rec'` answers like `rec` whenever that answers. -/
def Le (rec rec' : Tm → St → Res) : Prop := ∀ t s, rec t s ≠ .timeout → rec' t s = rec t s

theorem bind_timeout {r : Res} {f : V → St → Res} (h : r.bind f ≠ .timeout) : r ≠ .timeout := by
  rintro rfl; exact h rfl

theorem mapSt_timeout {r : Res} {f : St → St} : r.mapSt f = .timeout ↔ r = .timeout := by
  cases r <;> simp [Res.mapSt]

theorem arrive_timeout {n : Nat} {r : Res} : r.arrive n = .timeout ↔ r = .timeout := by
  cases r <;> simp [Res.arrive]
  split <;> simp

theorem bind_le {rec rec' : Tm → St → Res} (hr : Le rec rec') (t : Tm) (s : St) (f f' : V → St → Res)
    (hf : ∀ v s, f v s ≠ .timeout → f' v s = f v s) (h : (rec t s).bind f ≠ .timeout) :
    (rec' t s).bind f' = (rec t s).bind f := by
  rw [hr t s (bind_timeout h)]
  cases hc : rec t s with
  | val v s1 => rw [hc] at h; exact hf v s1 h
  | ret => rfl
  | go => rfl
  | exit => rfl
  | timeout => rfl

theorem evBinds_le {rec rec' : Tm → St → Res} (hr : Le rec rec') : ∀ (bs : Binds) (s : St) (k k' : List V → St → Res),
    (∀ vs s, k vs s ≠ .timeout → k' vs s = k vs s) → evBinds rec bs s k ≠ .timeout →
    evBinds rec' bs s k' = evBinds rec bs s k
  | .nil, s, k, k', hk, h => hk [] s h
  | .cons x e rest, s, k, k', hk, h =>
    bind_le hr e s _ _ (fun v s h => evBinds_le hr rest s _ _ (fun vs s h => hk (v :: vs) s h) h) h

theorem evSeq_le {rec rec' : Tm → St → Res} (hr : Le rec rec') : ∀ (bs : Binds) (body : Tm) (s : St),
    evSeq rec bs body s ≠ .timeout → evSeq rec' bs body s = evSeq rec bs body s
  | .nil, body, s, h => hr body s h
  | .cons x e rest, body, s, h =>
    bind_le hr e s _ _ (fun v s h => by
      have := fun h' => h (mapSt_timeout.2 h')
      simp only [evSeq_le hr rest body _ this]) h

theorem eval_succ (G : Ext) : ∀ k, Le (eval G k) (eval G (k + 1)) := by
  intro k
  induction k with
  | zero => intro t s h; exact absurd rfl h
  | succ k ih =>
    intro t s h
    rw [eval.eq_def G (k + 1 + 1)]
    rw [eval.eq_def G (k + 1)] at h ⊢
    cases t with
    | const v => rfl
    | var x => rfl
    | setq x e => exact bind_le ih e s _ _ (fun _ _ _ => rfl) h
    | call1 f e => exact bind_le ih e s _ _ (fun _ _ _ => rfl) h
    | call2 f a b => exact bind_le ih a s _ _ (fun _ s h => bind_le ih b s _ _ (fun _ _ _ => rfl) h) h
    | ext f e => exact bind_le ih e s _ _ (fun _ _ _ => rfl) h
    | progn a b => exact bind_le ih a s _ _ (fun _ s h => ih b s h) h
    | ite c a b =>
      refine bind_le ih c s _ _ (fun v s h => ?_) h
      split
      · rename_i hv; rw [if_pos hv] at h; exact ih b s h
      · rename_i hv; rw [if_neg hv] at h; exact ih a s h
    | letp bs body =>
      refine evBinds_le ih bs s _ _ (fun vs s h => ?_) h
      rw [ih body _ (fun h' => h (mapSt_timeout.2 h'))]
    | lets bs body => exact evSeq_le ih bs body s h
    | block n body =>
      dsimp only at h ⊢
      rw [ih body s (fun h' => h (arrive_timeout.2 h'))]
    | ret n e => exact bind_le ih e s _ _ (fun _ _ _ => rfl) h
    | loop c body =>
      refine bind_le ih c s _ _ (fun v s h => ?_) h
      split
      · rfl
      · rename_i hv; rw [if_neg hv] at h
        exact bind_le ih body s _ _ (fun _ s h => ih _ s h) h
    | tagfrom all cur =>
      cases cur with
      | nil => rfl
      | tag t rest => exact ih _ s h
      | form e rest =>
        dsimp only at h ⊢
        have h0 : eval G k e s ≠ .timeout := by intro h'; rw [h'] at h; exact h rfl
        rw [ih e s h0]
        cases hc : eval G k e s with
        | val v s1 => rw [hc] at h; exact ih _ s1 h
        | go tag s1 =>
          rw [hc] at h
          dsimp only at h ⊢
          cases hf : all.find tag with
          | none => rfl
          | some r => rw [hf] at h; exact ih _ s1 h
        | ret => rfl
        | exit => rfl
        | timeout => rfl
    | go tag => rfl

theorem eval_le (G : Ext) {k k' : Nat} (h : k ≤ k') : Le (eval G k) (eval G k') := by
  induction h with
  | refl => intro t s _; rfl
  | step _ ih =>
    intro t s hs
    have := ih t s hs
    rw [eval_succ G _ t s (by rw [this]; exact hs), this]

/-- The form is left with `r`. -/
def Ev (G : Ext) (t : Tm) (s : St) (r : Res) : Prop := r ≠ .timeout ∧ ∃ k, eval G k t s = r

theorem Ev.det {G : Ext} {t : Tm} {s : St} {r r' : Res} (h : Ev G t s r) (h' : Ev G t s r') : r = r' := by
  obtain ⟨h0, k, h⟩ := h
  obtain ⟨h0', k', h'⟩ := h'
  have a := eval_le G (Nat.le_max_left k k') t s (by rw [h]; exact h0)
  have b := eval_le G (Nat.le_max_right k k') t s (by rw [h']; exact h0')
  rw [← h, ← a, b, h']

/-- What comes after a form that is left with `ra`. -/
def Then (ra : Res) (f : V → St → Res → Prop) (r : Res) : Prop :=
  match ra with
  | .val v s => f v s r
  | .timeout => False
  | o => r = o

theorem ev_bind {G : Ext} {e : Tm} {s : St} {f : Nat → V → St → Res} {r : Res} {F : V → St → Res → Prop}
    (hF : ∀ v s r, F v s r ↔ r ≠ .timeout ∧ ∃ k0, ∀ k ≥ k0, f k v s = r) :
    (r ≠ .timeout ∧ ∃ k0, ∀ k ≥ k0, (eval G k e s).bind (f k) = r) ↔ ∃ ra, Ev G e s ra ∧ Then ra F r := by
  constructor
  · rintro ⟨h0, k0, h⟩
    have hk := h k0 (Nat.le_refl _)
    have hne : eval G k0 e s ≠ .timeout := by intro h'; rw [h'] at hk; exact h0 hk.symm
    refine ⟨eval G k0 e s, ⟨hne, k0, rfl⟩, ?_⟩
    cases hc : eval G k0 e s with
    | val v s1 =>
      refine (hF v s1 r).2 ⟨h0, k0, fun k hk' => ?_⟩
      have := h k hk'
      rw [eval_le G hk' e s hne, hc] at this
      exact this
    | ret n v s1 => rw [hc] at hk; exact hk.symm
    | go t s1 => rw [hc] at hk; exact hk.symm
    | exit v s1 => rw [hc] at hk; exact hk.symm
    | timeout => exact absurd hc hne
  · rintro ⟨ra, ⟨h0, k0, h⟩, hT⟩
    cases ra with
    | val v s1 =>
      obtain ⟨h1, k1, h2⟩ := (hF v s1 r).1 hT
      refine ⟨h1, max k0 k1, fun k hk => ?_⟩
      rw [eval_le G (Nat.le_trans (Nat.le_max_left _ _) hk) e s (by rw [h]; simp), h]
      exact h2 k (Nat.le_trans (Nat.le_max_right _ _) hk)
    | ret n v s1 =>
      cases hT
      exact ⟨by simp, k0, fun k hk => by rw [eval_le G hk e s (by rw [h]; simp), h]; rfl⟩
    | go t s1 =>
      cases hT
      exact ⟨by simp, k0, fun k hk => by rw [eval_le G hk e s (by rw [h]; simp), h]; rfl⟩
    | exit v s1 =>
      cases hT
      exact ⟨by simp, k0, fun k hk => by rw [eval_le G hk e s (by rw [h]; simp), h]; rfl⟩
    | timeout => exact absurd hT id

theorem ev_iff {G : Ext} {t : Tm} {s : St} {r : Res} :
    Ev G t s r ↔ r ≠ .timeout ∧ ∃ k0, ∀ k ≥ k0, eval G k t s = r := by
  constructor
  · rintro ⟨h0, k, h⟩
    exact ⟨h0, k, fun k' hk => by rw [eval_le G hk t s (by rw [h]; exact h0), h]⟩
  · rintro ⟨h0, k, h⟩
    exact ⟨h0, k, h k (Nat.le_refl _)⟩

/-- One more unit of fuel does not matter for what happens eventually. -/
theorem ev_shift {G : Ext} {t : Tm} {s : St} {r : Res} :
    Ev G t s r ↔ r ≠ .timeout ∧ ∃ k0, ∀ k ≥ k0, eval G (k + 1) t s = r := by
  rw [ev_iff]
  constructor
  · rintro ⟨h0, k, h⟩
    exact ⟨h0, k, fun k' hk => h _ (by omega)⟩
  · rintro ⟨h0, k, h⟩
    refine ⟨h0, k + 1, fun k' hk => ?_⟩
    cases k' with
    | zero => omega
    | succ k' => exact h k' (by omega)

theorem pure_iff {r r' : Res} : (r = r' ∧ r' ≠ .timeout) ↔ r ≠ .timeout ∧ ∃ k0 : Nat, ∀ k ≥ k0, r' = r := by
  constructor
  · rintro ⟨rfl, h⟩; exact ⟨h, 0, fun _ _ => rfl⟩
  · rintro ⟨h, k, h'⟩; have := h' k (Nat.le_refl _); subst this; exact ⟨rfl, h⟩

theorem ev_const {G : Ext} {v : V} {s : St} {r : Res} : Ev G (.const v) s r ↔ r = .val v s := by
  rw [ev_shift]; simp only [eval]; rw [← pure_iff]; simp

theorem ev_var {G : Ext} {x : Name} {s : St} {r : Res} : Ev G (.var x) s r ↔ r = .val (s.vars x) s := by
  rw [ev_shift]; simp only [eval]; rw [← pure_iff]; simp

theorem ev_go {G : Ext} {t : Name} {s : St} {r : Res} : Ev G (.go t) s r ↔ r = .go t s := by
  rw [ev_shift]; simp only [eval]; rw [← pure_iff]; simp

theorem ev_setq {G : Ext} {x : Name} {e : Tm} {s : St} {r : Res} :
    Ev G (.setq x e) s r ↔ ∃ ra, Ev G e s ra ∧ Then ra (fun v s r => r = .val v (s.set x v)) r := by
  rw [ev_shift]; simp only [eval]
  refine ev_bind (f := fun _ v s => .val v (s.set x v)) fun v s r => ?_
  rw [← pure_iff]; simp

theorem ev_ret {G : Ext} {n : Nat} {e : Tm} {s : St} {r : Res} :
    Ev G (.ret n e) s r ↔ ∃ ra, Ev G e s ra ∧ Then ra (fun v s r => r = .ret n v s) r := by
  rw [ev_shift]; simp only [eval]
  refine ev_bind (f := fun _ v s => .ret n v s) fun v s r => ?_
  rw [← pure_iff]; simp

theorem ev_call1 {G : Ext} {f : P1} {e : Tm} {s : St} {r : Res} :
    Ev G (.call1 f e) s r ↔ ∃ ra, Ev G e s ra ∧ Then ra (fun v s r =>
      r = (f.run v s.w).elim (.exit .nil s) fun q => .val q.1 { s with w := q.2 }) r := by
  rw [ev_shift]; simp only [eval]
  refine ev_bind (f := fun _ v s => (f.run v s.w).elim (.exit .nil s) fun q => .val q.1 { s with w := q.2 }) fun v s r => ?_
  rw [← pure_iff]
  cases f.run v s.w <;> simp

theorem ev_call2 {G : Ext} {f : P2} {a b : Tm} {s : St} {r : Res} :
    Ev G (.call2 f a b) s r ↔ ∃ ra, Ev G a s ra ∧ Then ra (fun x s r => ∃ rb, Ev G b s rb ∧ Then rb (fun y s r =>
      r = (f.run x y s.w).elim (.exit .nil s) fun q => .val q.1 { s with w := q.2 }) r) r := by
  rw [ev_shift]; simp only [eval]
  refine ev_bind (f := fun k x s => (eval G k b s).bind fun y s => (f.run x y s.w).elim (.exit .nil s) fun q => .val q.1 { s with w := q.2 })
    fun x s r => ?_
  symm
  refine ev_bind (f := fun _ y s => (f.run x y s.w).elim (.exit .nil s) fun q => .val q.1 { s with w := q.2 }) fun v s r => ?_
  rw [← pure_iff]
  cases f.run x v s.w <;> simp

theorem ev_progn {G : Ext} {a b : Tm} {s : St} {r : Res} :
    Ev G (.progn a b) s r ↔ ∃ ra, Ev G a s ra ∧ Then ra (fun _ s r => Ev G b s r) r := by
  rw [ev_shift]; simp only [eval]
  exact ev_bind (f := fun k _ s => eval G k b s) fun v s r => ev_iff

theorem ev_ite {G : Ext} {c a b : Tm} {s : St} {r : Res} :
    Ev G (.ite c a b) s r ↔ ∃ rc, Ev G c s rc ∧ Then rc (fun v s r => if v = .nil then Ev G b s r else Ev G a s r) r := by
  rw [ev_shift]; simp only [eval]
  refine ev_bind (f := fun k v s => if v = .nil then eval G k b s else eval G k a s) fun v s r => ?_
  by_cases h : v = .nil
  · simp only [if_pos h]; exact ev_iff
  · simp only [if_neg h]; exact ev_iff

theorem ev_mapSt {G : Ext} {t : Tm} {s : St} {f : St → St} {r : Res} :
    (r ≠ .timeout ∧ ∃ k0, ∀ k ≥ k0, (eval G k t s).mapSt f = r) ↔ ∃ r', Ev G t s r' ∧ r = r'.mapSt f := by
  constructor
  · rintro ⟨h0, k0, h⟩
    have hk := h k0 (Nat.le_refl _)
    exact ⟨_, ⟨fun h' => h0 (hk ▸ mapSt_timeout.2 h'), k0, rfl⟩, hk.symm⟩
  · rintro ⟨r', h, rfl⟩
    obtain ⟨h0, k0, h⟩ := ev_iff.1 h
    exact ⟨fun h' => h0 (mapSt_timeout.1 h'), k0, fun k hk => by rw [h k hk]⟩

theorem ev_block {G : Ext} {n : Nat} {t : Tm} {s : St} {r : Res} :
    Ev G (.block n t) s r ↔ ∃ r', Ev G t s r' ∧ r = r'.arrive n := by
  rw [ev_shift]; simp only [eval]
  constructor
  · rintro ⟨h0, k0, h⟩
    have hk := h k0 (Nat.le_refl _)
    exact ⟨_, ⟨fun h' => h0 (hk ▸ arrive_timeout.2 h'), k0, rfl⟩, hk.symm⟩
  · rintro ⟨r', h, rfl⟩
    obtain ⟨h0, k0, h⟩ := ev_iff.1 h
    exact ⟨fun h' => h0 (arrive_timeout.1 h'), k0, fun k hk => by rw [h k hk]⟩

/-- `let` of one variable. -/
theorem ev_let1 {G : Ext} {x : Name} {e body : Tm} {s : St} {r : Res} :
    Ev G (.letp (.cons x e .nil) body) s r ↔ ∃ ra, Ev G e s ra ∧ Then ra (fun v s r =>
      ∃ rb, Ev G body (s.set x v) rb ∧ r = rb.mapSt fun s' => s'.restore s [x]) r := by
  rw [ev_shift]; simp only [eval, evBinds]
  exact ev_bind (f := fun k v s => (eval G k body (bindAll (Binds.cons x e .nil).names [v] s)).mapSt fun s' => s'.restore s (Binds.cons x e .nil).names)
    fun v s r => ev_mapSt.symm

/-- `let` of two variables. -/
theorem ev_let2 {G : Ext} {x y : Name} {e e' body : Tm} {s : St} {r : Res} :
    Ev G (.letp (.cons x e (.cons y e' .nil)) body) s r ↔ ∃ ra, Ev G e s ra ∧ Then ra (fun v s r =>
      ∃ rb, Ev G e' s rb ∧ Then rb (fun v' s r =>
      ∃ rb, Ev G body ((s.set x v).set y v') rb ∧ r = rb.mapSt fun s' => s'.restore s [x, y]) r) r := by
  rw [ev_shift]; simp only [eval, evBinds]
  refine ev_bind (f := fun k v s => (eval G k e' s).bind fun v' s => (eval G k body (bindAll (Binds.cons x e (.cons y e' .nil)).names [v, v'] s)).mapSt fun s' => s'.restore s (Binds.cons x e (.cons y e' .nil)).names)
    fun v s r => ?_
  symm
  exact ev_bind (f := fun k v' s => (eval G k body (bindAll (Binds.cons x e (.cons y e' .nil)).names [v, v'] s)).mapSt fun s' => s'.restore s (Binds.cons x e (.cons y e' .nil)).names)
    fun v s r => ev_mapSt.symm

theorem ev_lets_nil {G : Ext} {body : Tm} {s : St} {r : Res} : Ev G (.lets .nil body) s r ↔ Ev G body s r := by
  rw [ev_shift]; simp only [eval, evSeq]; exact ev_iff.symm

theorem ev_lets_cons {G : Ext} {x : Name} {e : Tm} {rest : Binds} {body : Tm} {s : St} {r : Res} :
    Ev G (.lets (.cons x e rest) body) s r ↔ ∃ ra, Ev G e s ra ∧ Then ra (fun v s r =>
      ∃ rb, Ev G (.lets rest body) (s.set x v) rb ∧ r = rb.mapSt fun s' => s'.restore s [x]) r := by
  rw [ev_shift]; simp only [eval, evSeq]
  refine ev_bind (f := fun k v s => (evSeq (eval G k) rest body (s.set x v)).mapSt fun s' => s'.restore s [x]) fun v s r => ?_
  have : ∀ k, evSeq (eval G k) rest body (s.set x v) = eval G (k + 1) (.lets rest body) (s.set x v) := fun k => rfl
  simp only [this]
  constructor
  · rintro ⟨r', h, rfl⟩
    obtain ⟨h0, k0, h⟩ := ev_shift.1 h
    exact ⟨fun h' => h0 (mapSt_timeout.1 h'), k0, fun k hk => by rw [h k hk]⟩
  · rintro ⟨h0, k0, h⟩
    have hk := h k0 (Nat.le_refl _)
    exact ⟨_, ⟨fun h' => h0 (hk ▸ mapSt_timeout.2 h'), k0 + 1, rfl⟩, hk.symm⟩

theorem ev_loop {G : Ext} {c body : Tm} {s : St} {r : Res} :
    Ev G (.loop c body) s r ↔ ∃ rc, Ev G c s rc ∧ Then rc (fun v s r => if v = .nil then r = .val .nil s else
      ∃ rb, Ev G body s rb ∧ Then rb (fun _ s r => Ev G (.loop c body) s r) r) r := by
  rw [ev_shift]
  simp only [eval]
  refine ev_bind (f := fun k v s => if v = .nil then .val .nil s else (eval G k body s).bind fun _ s => eval G k (.loop c body) s) fun v s r => ?_
  by_cases h : v = .nil
  · simp only [if_pos h]; rw [← pure_iff]; simp
  · simp only [if_neg h]
    symm
    exact ev_bind (f := fun k _ s => eval G k (.loop c body) s) fun v s r => ev_iff

theorem ev_tag_nil {G : Ext} {all : Stmts} {s : St} {r : Res} : Ev G (.tagfrom all .nil) s r ↔ r = .val .nil s := by
  rw [ev_shift]; simp only [eval]; rw [← pure_iff]; simp

theorem ev_tag_tag {G : Ext} {all rest : Stmts} {t : Name} {s : St} {r : Res} :
    Ev G (.tagfrom all (.tag t rest)) s r ↔ Ev G (.tagfrom all rest) s r := by
  rw [ev_shift]; simp only [eval]; exact ev_iff.symm

/-- What a tagbody does after one of its forms is left with `ra`. -/
def AfterStmt (G : Ext) (all rest : Stmts) (ra r : Res) : Prop :=
  match ra with
  | .val _ s => Ev G (.tagfrom all rest) s r
  | .go tag s => match all.find tag with
    | none => r = .go tag s
    | some rest => Ev G (.tagfrom all rest) s r
  | .timeout => False
  | o => r = o

theorem ev_tag_form {G : Ext} {all rest : Stmts} {e : Tm} {s : St} {r : Res} :
    Ev G (.tagfrom all (.form e rest)) s r ↔ ∃ ra, Ev G e s ra ∧ AfterStmt G all rest ra r := by
  rw [ev_shift]; simp only [eval]
  constructor
  · rintro ⟨h0, k0, h⟩
    have hk := h k0 (Nat.le_refl _)
    have hne : eval G k0 e s ≠ .timeout := by intro h'; rw [h'] at hk; exact h0 hk.symm
    refine ⟨eval G k0 e s, ⟨hne, k0, rfl⟩, ?_⟩
    cases hc : eval G k0 e s with
    | val v s1 =>
      rw [hc] at hk
      exact ⟨h0, k0, hk⟩
    | ret n v s1 => rw [hc] at hk; exact hk.symm
    | go t s1 =>
      rw [hc] at hk
      dsimp only at hk
      simp only [AfterStmt]
      cases hf : all.find t with
      | none => rw [hf] at hk; exact hk.symm
      | some rest' => rw [hf] at hk; exact ⟨h0, k0, hk⟩
    | exit v s1 => rw [hc] at hk; exact hk.symm
    | timeout => exact absurd hc hne
  · rintro ⟨ra, ⟨h0, k0, h⟩, hT⟩
    cases ra with
    | val v s1 =>
      obtain ⟨h1, k1, h2⟩ := ev_iff.1 hT
      refine ⟨h1, max k0 k1, fun k hk => ?_⟩
      rw [eval_le G (Nat.le_trans (Nat.le_max_left _ _) hk) e s (by rw [h]; simp), h]
      exact h2 k (Nat.le_trans (Nat.le_max_right _ _) hk)
    | ret n v s1 =>
      cases hT
      exact ⟨by simp, k0, fun k hk => by rw [eval_le G hk e s (by rw [h]; simp), h]⟩
    | go t s1 =>
      simp only [AfterStmt] at hT
      cases hf : all.find t with
      | none =>
        rw [hf] at hT
        subst hT
        exact ⟨by simp, k0, fun k hk => by rw [eval_le G hk e s (by rw [h]; simp), h]; dsimp only; rw [hf]; rfl⟩
      | some rest' =>
        rw [hf] at hT
        obtain ⟨h1, k1, h2⟩ := ev_iff.1 hT
        refine ⟨h1, max k0 k1, fun k hk => ?_⟩
        rw [eval_le G (Nat.le_trans (Nat.le_max_left _ _) hk) e s (by rw [h]; simp), h]
        dsimp only; rw [hf]
        exact h2 k (Nat.le_trans (Nat.le_max_right _ _) hk)
    | exit v s1 =>
      cases hT
      exact ⟨by simp, k0, fun k hk => by rw [eval_le G hk e s (by rw [h]; simp), h]⟩
    | timeout => exact absurd hT id

end Eus.Mac
