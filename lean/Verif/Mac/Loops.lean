import Verif.Mac.Proofs
set_option autoImplicit false
/-! dolist, dotimes -/
namespace Eus.Mac
variable {G : Ext}

theorem popRes_cell {x : Name} {s : St} {a : Nat} (h : s.vars x = .cell a) :
    popRes x s = .val (s.w.car a) (s.set x (s.w.cdr a)) := by simp only [popRes, h]

theorem popRes_atom {x : Name} {s : St} (h : s.vars x ≠ .nil) (h' : ∀ a, s.vars x ≠ .cell a) :
    popRes x s = .exit .nil s := by
  unfold popRes
  split
  · next a ha => exact absurd ha (h' a)
  · next ha => exact absurd ha h
  · rfl

/-- One round of the loop of `dolist`. -/
theorem ev_round {g g' : Nat} {x : Name} {body : Tm} (hg : g ≠ g') {s : St} {r : Res} :
    Ev G (.progn (.setq x (popVar g' (.gen g))) body) s r ↔
      Then (popRes (.gen g) s) (fun v s r => Ev G body (s.set x v) r) r := by
  rw [ev_progn]
  simp only [ev_setq, ev_pop (g := g') (x := .gen g) (by simpa using hg), exists_eq_left]
  cases popRes (.gen g) s <;> simp [Then]

theorem dolist_fwd {g g' : Nat} {x : Name} {body : Tm} (hg : g ≠ g') (hx : x ≠ .gen g) (hb : Fr (.gen g) body) (u : V)
    {s : St} {r : Res} (h : WhileR G (.var (.gen g)) (.progn (.setq x (popVar g' (.gen g))) body) s r) :
    DolistR G x body (s.vars (.gen g)) (s.set (.gen g) u) (r.mapSt (·.set (.gen g) u)) := by
  induction h with
  | done h =>
    rw [ev_var] at h
    injection h with h1 h2
    subst h2
    rw [← h1]; exact .nil
  | testOut h ho => rw [ev_var] at h; subst h; exact absurd ho id
  | @step s v s1 w s2 r hc hv hbd _ ih =>
    rw [ev_var] at hc; cases hc
    rw [ev_round hg] at hbd
    cases hL : s.vars (.gen g) with
    | nil => exact absurd hL hv
    | cell a =>
      rw [popRes_cell hL] at hbd
      simp only [Then] at hbd
      have h1 := hbd.set hb u
      have hk := hbd.keep hb
      rw [set_vars, if_neg (Ne.symm hx), set_vars, if_pos rfl] at hk
      rw [hk] at ih
      refine .next (s := s.set (.gen g) u) (v := w) ?_ ih
      rw [← set_comm _ hx, set_set] at h1
      exact h1
    | t => rw [popRes_atom (by simp [hL]) (by simp [hL])] at hbd; cases hbd
    | int n => rw [popRes_atom (by simp [hL]) (by simp [hL])] at hbd; cases hbd
    | sym n => rw [popRes_atom (by simp [hL]) (by simp [hL])] at hbd; cases hbd
  | @bodyOut s v s1 r hc hv hbd ho =>
    rw [ev_var] at hc; cases hc
    rw [ev_round hg] at hbd
    by_cases hcell : ∃ a, s.vars (.gen g) = .cell a
    · obtain ⟨a, hL⟩ := hcell
      rw [popRes_cell hL] at hbd
      simp only [Then] at hbd
      have h1 := hbd.set hb u
      rw [← set_comm _ hx, set_set] at h1
      rw [hL]
      exact .leave (s := s.set (.gen g) u) h1 (mapSt_out.2 ho)
    · rw [popRes_atom hv (fun a h => hcell ⟨a, h⟩)] at hbd
      cases hbd
      exact .atom hv (fun a h => hcell ⟨a, h⟩)

theorem dolist_bwd {g g' : Nat} {x : Name} {body : Tm} (hg : g ≠ g') (hx : x ≠ .gen g) (hb : Fr (.gen g) body)
    {L : V} {s : St} {r : Res} (h : DolistR G x body L s r) :
    ∃ r', WhileR G (.var (.gen g)) (.progn (.setq x (popVar g' (.gen g))) body) (s.set (.gen g) L) r' ∧
      r = r'.mapSt (·.set (.gen g) (s.vars (.gen g))) := by
  induction h with
  | @nil s =>
    refine ⟨.val .nil (s.set (.gen g) .nil), .done (by rw [ev_var]; simp), ?_⟩
    simp only [Res.mapSt, set_set, set_self]
  | @next a s v s1 r hbd _ ih =>
    obtain ⟨r', h1, rfl⟩ := ih
    have hk := hbd.keep hb
    rw [set_vars, if_neg (Ne.symm hx)] at hk
    refine ⟨r', .step (v := .cell a) (s1 := s.set (.gen g) (.cell a)) (u := v) (s2 := s1.set (.gen g) (s.w.cdr a))
      (by rw [ev_var]; simp) (by simp) ?_ h1, by rw [hk]⟩
    rw [ev_round hg, popRes_cell (a := a) (by simp)]
    simp only [Then, set_set, set_w]
    rw [set_comm _ hx]
    exact hbd.set hb (s.w.cdr a)
  | @leave a s r hbd ho =>
    have hk := ev_keeps hb hbd
    have h1 := hbd.set hb (s.w.cdr a)
    refine ⟨_, .bodyOut (v := .cell a) (s1 := s.set (.gen g) (.cell a)) (by rw [ev_var]; simp) (by simp)
      (r := r.mapSt (·.set (.gen g) (s.w.cdr a))) ?_ (mapSt_out.2 ho), ?_⟩
    · rw [ev_round hg, popRes_cell (a := a) (by simp)]
      simp only [Then, set_set, set_w]
      rw [set_comm _ hx]
      exact h1
    · rw [mapSt_mapSt]
      refine (mapSt_id fun s2 h2 => ?_).symm
      have := hk s2 h2
      rw [set_vars, if_neg (Ne.symm hx)] at this
      rw [set_set, ← this, set_self]
  | @atom v s hv hv' =>
    refine ⟨.exit .nil (s.set (.gen g) v), .bodyOut (v := v) (s1 := s.set (.gen g) v) (by rw [ev_var]; simp) hv ?_ trivial, ?_⟩
    · rw [ev_round hg, popRes_atom (by simpa using hv) (by simpa using hv')]
      rfl
    · simp only [Res.mapSt, set_set, set_self]

/-- What `dolist` does. -/
def DolistS (G : Ext) (x : Name) (list result body : Tm) (s : St) (r : Res) : Prop :=
  ∃ rl, Ev G list s rl ∧ Then rl (fun L s1 r => ∃ rb, DolistR G x body L (s1.set x .nil) rb ∧
    ∃ r', Then (rb.arrive 0) (fun _ s2 r2 => Ev G result s2 r2) r' ∧ r = r'.mapSt fun s' => s'.restore s1 [x]) r

/-- After a loop whose state is known up to the variable `y`, a form that does not mention `y`. -/
theorem then_frame {y : Name} {t : Tm} (ht : Fr y t) (u : V) (ra r : Res) (h : Then ra (fun _ s r => Ev G t s r) r) :
    Then (ra.mapSt (·.set y u)) (fun _ s r => Ev G t s r) (r.mapSt (·.set y u)) := by
  cases ra with
  | val v s => exact h.set ht u
  | ret n v s => cases h; rfl
  | go n s => cases h; rfl
  | exit v s => cases h; rfl
  | timeout => exact absurd h id

theorem then_frame' {y : Name} {t : Tm} (ht : Fr y t) (u : V) (ra r : Res)
    (h : Then (ra.mapSt (·.set y u)) (fun _ s r => Ev G t s r) r) :
    ∃ r', Then ra (fun _ s r => Ev G t s r) r' ∧ r = r'.mapSt (·.set y u) := by
  cases ra with
  | val v s => obtain ⟨r', h1, h2⟩ := (ev_frame ht).1 h; exact ⟨r', h1, h2⟩
  | ret n v s => cases h; exact ⟨_, rfl, rfl⟩
  | go n s => cases h; exact ⟨_, rfl, rfl⟩
  | exit v s => cases h; exact ⟨_, rfl, rfl⟩
  | timeout => exact absurd h id

theorem ev_dolist {g g' : Nat} {x : Name} {list result body : Tm} (hg : g ≠ g') (hx : x ≠ .gen g) (hb : Fr (.gen g) body)
    (hr : Fr (.gen g) result) {s : St} {r : Res} :
    Ev G (dolist g g' x list result body) s r ↔ DolistS G x list result body s r := by
  rw [dolist, ev_let2]
  simp only [Tm.nil, then_const]
  refine then_congr fun L s1 _ => ?_
  simp only [ev_progn, Tm.while_, ev_block, ev_while]
  have hset : ((s1.set x .nil).set (.gen g) L).set (.gen g) (s1.vars (.gen g)) = s1.set x .nil := by
    rw [set_set, ← set_comm _ hx, set_self]
  have hres : ∀ s' : St, (s'.set (.gen g) (s1.vars (.gen g))).restore s1 [x] = s'.restore s1 [x, .gen g] :=
    fun s' => (restore_two s' s1 x (.gen g)).symm
  constructor
  · rintro ⟨rb, ⟨_, ⟨r0, hw, rfl⟩, ht⟩, rfl⟩
    have h1 := dolist_fwd hg hx hb (s1.vars (.gen g)) hw
    rw [hset, set_vars, if_pos rfl] at h1
    refine ⟨_, h1, rb.mapSt (·.set (.gen g) (s1.vars (.gen g))), ?_, ?_⟩
    · rw [mapSt_arrive]; exact then_frame hr _ _ _ ht
    · rw [mapSt_mapSt]; exact mapSt_congr fun s' => (hres s').symm
  · rintro ⟨rb, hd, r', ht, rfl⟩
    obtain ⟨r0, h1, rfl⟩ := dolist_bwd (g' := g') hg hx hb hd
    have hu : (s1.set x .nil).vars (.gen g) = s1.vars (.gen g) := by rw [set_vars, if_neg (Ne.symm hx)]
    rw [hu, mapSt_arrive] at ht
    obtain ⟨r'', h2, rfl⟩ := then_frame' hr _ _ _ ht
    refine ⟨r'', ⟨_, ⟨_, h1, rfl⟩, h2⟩, ?_⟩
    rw [mapSt_mapSt]
    exact mapSt_congr fun s' => hres s'

/-! ### dotimes -/

theorem ev_lt {a b : Name} {s : St} {r : Res} : Ev G (.call2 .lt (.var a) (.var b)) s r ↔
    r = (P2.run .lt (s.vars a) (s.vars b) s.w).elim (.exit .nil s) fun q => .val q.1 { s with w := q.2 } := by
  rw [ev_call2]; simp only [then_var]

theorem lt_int (i m : Int) (w : World) : P2.run .lt (.int i) (.int m) w = some (if i < m then .t else .nil, w) := rfl

theorem lt_bad (a b : V) (w : World) (h : (∀ i, a ≠ .int i) ∨ (∀ i, b ≠ .int i)) : P2.run .lt a b w = none := by
  cases a <;> cases b <;> simp_all [P2.run]

theorem ev_incVar {x : Name} {s : St} {r : Res} : Ev G (.setq x (.call1 .inc (.var x))) s r ↔
    Then ((P1.run .inc (s.vars x) s.w).elim (.exit .nil s) fun q => .val q.1 { s with w := q.2 })
      (fun v s r => r = .val v (s.set x v)) r := by
  rw [ev_setq]; simp only [ev_call1, then_var, exists_eq_left]

theorem ev_inc_int {x : Name} {s : St} {j : Int} (h : s.vars x = .int j) {r : Res} :
    Ev G (.setq x (.call1 .inc (.var x))) s r ↔ r = .val (.int (j + 1)) (s.set x (.int (j + 1))) := by
  rw [ev_incVar, h]; rfl

theorem ev_inc_bad {x : Name} {s : St} (h : ∀ j, s.vars x ≠ .int j) {r : Res} :
    Ev G (.setq x (.call1 .inc (.var x))) s r ↔ r = .exit .nil s := by
  rw [ev_incVar]
  cases hv : s.vars x <;> first | rfl | exact absurd hv (h _)

theorem V.int_or (v : V) : (∃ i, v = .int i) ∨ ∀ i, v ≠ .int i := by cases v <;> simp

theorem dotimes_fwd {y x : Name} {body : Tm} (hx : x ≠ y) (hb : Fr y body) (u N : V)
    {s : St} {r : Res} (h : WhileR G (.call2 .lt (.var x) (.var y)) (.progn body (.setq x (.call1 .inc (.var x)))) s r)
    (hN : s.vars y = N) : DotimesR G x body N (s.set y u) (r.mapSt (·.set y u)) := by
  have hxs : ∀ s : St, (s.set y u).vars x = s.vars x := fun s => by rw [set_vars, if_neg hx]
  induction h with
  | @done s s1 h =>
    rw [ev_lt, hN] at h
    rcases V.int_or (s.vars x) with ⟨i, hi⟩ | hi
    · rcases V.int_or N with ⟨m, rfl⟩ | hm
      · rw [hi, lt_int] at h
        simp only [Option.elim] at h
        by_cases hlt : i < m
        · rw [if_pos hlt] at h; cases h
        · rw [if_neg hlt] at h; cases h; exact .done (by rw [hxs, hi]) rfl hlt
      · rw [lt_bad _ _ _ (.inr hm)] at h; cases h
    · rw [lt_bad _ _ _ (.inl hi)] at h; cases h
  | @testOut s r h ho =>
    rw [ev_lt, hN] at h
    rcases V.int_or (s.vars x) with ⟨i, hi⟩ | hi
    · rcases V.int_or N with ⟨m, rfl⟩ | hm
      · rw [hi, lt_int] at h; subst h; exact absurd ho id
      · rw [lt_bad _ _ _ (.inr hm)] at h; cases h; exact .bad (.inr hm)
    · rw [lt_bad _ _ _ (.inl hi)] at h; cases h; exact .bad (.inl (by simpa [hx] using hi))
  | @step s v s1 w s2 r hc hv hbd _ ih =>
    rw [ev_lt, hN] at hc
    rcases V.int_or (s.vars x) with ⟨i, hi⟩ | hi
    · rcases V.int_or N with ⟨m, rfl⟩ | hm
      · rw [hi, lt_int] at hc
        simp only [Option.elim] at hc
        cases hc
        have hlt : i < m := Decidable.byContradiction fun h' => by rw [if_neg h'] at hv; exact hv rfl
        rw [ev_progn] at hbd
        rcases then_cases.1 hbd with ⟨v1, s3, h1, h2⟩ | ⟨_, ho⟩
        · rcases V.int_or (s3.vars x) with ⟨j, hj⟩ | hj
          · rw [ev_inc_int hj] at h2
            cases h2
            have hk := h1.keep hb
            have h1' := h1.set hb u
            have := ih (by rw [set_vars, if_neg (Ne.symm hx), hk, ← hN])
            rw [← set_comm _ hx] at this
            exact .next (by rw [hxs, hi]) rfl hlt h1' (by rw [hxs, hj]) this
          · rw [ev_inc_bad hj] at h2; cases h2
        · exact absurd ho id
      · rw [lt_bad _ _ _ (.inr hm)] at hc; cases hc
    · rw [lt_bad _ _ _ (.inl hi)] at hc; cases hc
  | @bodyOut s v s1 r hc hv hbd ho =>
    rw [ev_lt, hN] at hc
    rcases V.int_or (s.vars x) with ⟨i, hi⟩ | hi
    · rcases V.int_or N with ⟨m, rfl⟩ | hm
      · rw [hi, lt_int] at hc
        simp only [Option.elim] at hc
        cases hc
        have hlt : i < m := Decidable.byContradiction fun h' => by rw [if_neg h'] at hv; exact hv rfl
        rw [ev_progn] at hbd
        rcases then_cases.1 hbd with ⟨v1, s3, h1, h2⟩ | ⟨h1, ho⟩
        · rcases V.int_or (s3.vars x) with ⟨j, hj⟩ | hj
          · rw [ev_inc_int hj] at h2; subst h2; exact absurd ho id
          · rw [ev_inc_bad hj] at h2
            subst h2
            exact .spoilt (by rw [hxs, hi]) rfl hlt (h1.set hb u) (by simpa [hx] using hj)
        · exact .leave (by rw [hxs, hi]) rfl hlt (h1.set hb u) (mapSt_out.2 ho)
      · rw [lt_bad _ _ _ (.inr hm)] at hc; cases hc
    · rw [lt_bad _ _ _ (.inl hi)] at hc; cases hc

theorem dotimes_bwd {y x : Name} {body : Tm} (hx : x ≠ y) (hb : Fr y body) {N : V} {s : St} {r : Res}
    (h : DotimesR G x body N s r) :
    ∃ r', WhileR G (.call2 .lt (.var x) (.var y)) (.progn body (.setq x (.call1 .inc (.var x)))) (s.set y N) r' ∧
      r = r'.mapSt (·.set y (s.vars y)) := by
  have hxs : ∀ (s : St) (u : V), (s.set y u).vars x = s.vars x := fun s u => by rw [set_vars, if_neg hx]
  have test : ∀ (s : St) (i m : Int), s.vars x = .int i → N = .int m → i < m →
      Ev G (.call2 .lt (.var x) (.var y)) (s.set y N) (.val .t (s.set y N)) := by
    intro s i m hi hm hlt
    rw [ev_lt, hxs, hi, set_vars, if_pos rfl, hm, lt_int, if_pos hlt]; rfl
  induction h with
  | @done s i m hi hm hlt =>
    refine ⟨.val .nil (s.set y N), .done ?_, by simp only [Res.mapSt, set_set, set_self]⟩
    rw [ev_lt, hxs, hi, set_vars, if_pos rfl, hm, lt_int, if_neg hlt]; rfl
  | @next s i m v s1 j r hi hm hlt hbd hj _ ih =>
    obtain ⟨r', h1, rfl⟩ := ih
    have hk := hbd.keep hb
    refine ⟨r', .step (test s i m hi hm hlt) (by simp) (u := .int (j + 1)) (s2 := (s1.set x (.int (j + 1))).set y N) ?_ h1, ?_⟩
    · rw [ev_progn]
      refine ⟨_, hbd.set hb N, ?_⟩
      simp only [Res.mapSt, Then]
      rw [ev_inc_int (j := j) (by rw [hxs, hj]), set_comm _ hx]
    · rw [set_vars, if_neg (Ne.symm hx), hk]
  | @leave s i m r hi hm hlt hbd ho =>
    refine ⟨r.mapSt (·.set y N), .bodyOut (test s i m hi hm hlt) (by simp) ?_ (mapSt_out.2 ho), ?_⟩
    · rw [ev_progn]
      exact ⟨_, hbd.set hb N, (then_out (mapSt_out.2 ho)).2 rfl⟩
    · rw [mapSt_mapSt]
      refine (mapSt_id fun s2 h2 => ?_).symm
      rw [set_set, ← ev_keeps hb hbd s2 h2, set_self]
  | @spoilt s i m v s1 hi hm hlt hbd hj =>
    refine ⟨.exit .nil (s1.set y N), .bodyOut (test s i m hi hm hlt) (by simp) ?_ trivial, ?_⟩
    · rw [ev_progn]
      refine ⟨_, hbd.set hb N, ?_⟩
      simp only [Res.mapSt, Then]
      rw [ev_inc_bad (by simpa [hx] using hj)]
    · simp only [Res.mapSt, set_set, ← hbd.keep hb, set_self]
  | @bad s hbad =>
    refine ⟨.exit .nil (s.set y N), .testOut ?_ trivial, by simp only [Res.mapSt, set_set, set_self]⟩
    rw [ev_lt, lt_bad _ _ _ (by simpa [hx] using hbad)]; rfl

/-- What `dotimes` does. -/
def DotimesS (G : Ext) (x : Name) (count result body : Tm) (s : St) (r : Res) : Prop :=
  ∃ rn, Ev G count s rn ∧ Then rn (fun N s1 r => ∃ rb, DotimesR G x body N (s1.set x (.int 0)) rb ∧
    ∃ r', Then (rb.arrive 0) (fun _ s2 r2 => Ev G result s2 r2) r' ∧ r = r'.mapSt fun s' => s'.restore s1 [x]) r

theorem ev_dotimes {g : Nat} {x : Name} {count result body : Tm} (hx : x ≠ .gen g) (hb : Fr (.gen g) body)
    (hr : Fr (.gen g) result) {s : St} {r : Res} :
    Ev G (dotimes g x count result body) s r ↔ DotimesS G x count result body s r := by
  rw [dotimes, ev_let2]
  simp only [then_const]
  refine then_congr fun L s1 _ => ?_
  simp only [ev_progn, Tm.while_, ev_block, ev_while]
  have hset : ((s1.set x (.int 0)).set (.gen g) L).set (.gen g) (s1.vars (.gen g)) = s1.set x (.int 0) := by
    rw [set_set, ← set_comm _ hx, set_self]
  have hres : ∀ s' : St, (s'.set (.gen g) (s1.vars (.gen g))).restore s1 [x] = s'.restore s1 [x, .gen g] :=
    fun s' => (restore_two s' s1 x (.gen g)).symm
  constructor
  · rintro ⟨rb, ⟨_, ⟨r0, hw, rfl⟩, ht⟩, rfl⟩
    have h1 := dotimes_fwd hx hb (s1.vars (.gen g)) L hw (by rw [set_vars, if_pos rfl])
    rw [hset] at h1
    refine ⟨_, h1, rb.mapSt (·.set (.gen g) (s1.vars (.gen g))), ?_, ?_⟩
    · rw [mapSt_arrive]; exact then_frame hr _ _ _ ht
    · rw [mapSt_mapSt]; exact mapSt_congr fun s' => (hres s').symm
  · rintro ⟨rb, hd, r', ht, rfl⟩
    obtain ⟨r0, h1, rfl⟩ := dotimes_bwd (y := .gen g) hx hb hd
    have hu : (s1.set x (.int 0)).vars (.gen g) = s1.vars (.gen g) := by rw [set_vars, if_neg (Ne.symm hx)]
    rw [hu, mapSt_arrive] at ht
    obtain ⟨r'', h2, rfl⟩ := then_frame' hr _ _ _ ht
    refine ⟨r'', ⟨_, ⟨_, h1, rfl⟩, h2⟩, ?_⟩
    rw [mapSt_mapSt]
    exact mapSt_congr fun s' => hres s'

/-- With a body that leaves the variable alone, the body is run with 0, 1, ..., n-1. -/
theorem dotimes_times {x : Name} {body : Tm} (hk : ∀ s v s', Ev G body s (.val v s') → s'.vars x = s.vars x) {m : Int} {r : Res} :
    ∀ (n : Nat) (i : Int) (s : St), i + n = m ∨ (n = 0 ∧ m ≤ i) →
    (DotimesR G x body (.int m) (s.set x (.int i)) r ↔ TimesR G x body i n s r) := by
  have hxs : ∀ (s : St) (u : V), (s.set x u).vars x = u := fun s u => by rw [set_vars, if_pos rfl]
  intro n
  induction n with
  | zero =>
    intro i s hi
    have hmi : ¬ i < m := by omega
    constructor
    · intro h
      cases h with
      | done => exact .done
      | next h1 h2 h3 => rw [hxs] at h1; cases h1; cases h2; exact absurd h3 hmi
      | leave h1 h2 h3 => rw [hxs] at h1; cases h1; cases h2; exact absurd h3 hmi
      | spoilt h1 h2 h3 => rw [hxs] at h1; cases h1; cases h2; exact absurd h3 hmi
      | bad h => rcases h with h | h
                 · exact absurd (hxs _ _) (h i)
                 · exact absurd rfl (h m)
    · intro h
      cases h
      exact .done (hxs _ _) rfl hmi
  | succ n ih =>
    intro i s hi
    have hmi : i < m := by omega
    constructor
    · intro h
      cases h with
      | done h1 h2 h3 => rw [hxs] at h1; cases h1; cases h2; exact absurd hmi h3
      | next h1 h2 h3 h4 h5 h6 =>
        have := hk _ _ _ h4
        rw [hxs, h5] at this
        cases this
        exact .next h4 ((ih (i + 1) _ (by omega)).1 h6)
      | leave h1 h2 h3 h4 h5 => exact .leave h4 h5
      | spoilt h1 h2 h3 h4 h5 => have := hk _ _ _ h4; rw [hxs] at this; exact absurd this (h5 i)
      | bad h => rcases h with h | h
                 · exact absurd (hxs _ _) (h i)
                 · exact absurd rfl (h m)
    · intro h
      cases h with
      | next h1 h2 => exact .next (hxs _ _) rfl hmi h1 (by rw [hk _ _ _ h1, hxs]) ((ih (i + 1) _ (by omega)).2 h2)
      | leave h1 h2 => exact .leave (hxs _ _) rfl hmi h1 h2

end Eus.Mac
