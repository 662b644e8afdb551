import Verif.Ctl.Frames
set_option autoImplicit false
/-
What the meaning of a form depends on.
-/
namespace Eus.Ctl

/-- The numbers of the exit points in force. -/
def Env.inForce (E : Env) (d : Nat) : Prop := d ∈ E.catches.map Prod.snd ∨ d ∈ E.blocks.map Prod.snd

/-- An exit goes to a point in force. -/
def ToIn (I : Nat → Prop) : Exit × St → Prop
  | (.exit d _, _) => I d
  | _ => True

theorem ToIn.andThen {I : Nat → Prop} {r : Exit × St} {f : Val → St → Exit × St} (h : ToIn I r) (k : ∀ v s, ToIn I (f v s)) : ToIn I (andThen r f) := by
  obtain ⟨e, s⟩ := r
  cases e with
  | val v => exact k v s
  | exit d v => exact h
  | fail => trivial
  | timeout => trivial

theorem ToIn.arrive {I J : Nat → Prop} {r : Exit × St} {d : Nat} (h : ToIn J r) (k : ∀ e, J e → e = d ∨ I e) : ToIn I (arrive d r) := by
  obtain ⟨e, s⟩ := r
  cases e with
  | val v => trivial
  | exit e v =>
    unfold Ctl.arrive
    dsimp only
    split
    · trivial
    · rename_i hne
      rcases k e h with rfl | h
      · exact absurd rfl hne
      · exact h
  | fail => trivial
  | timeout => trivial

theorem meanCall_in {P : Prog} {run : Tm → Env → St → Exit × St} (H : ∀ t E s, ToIn E.inForce (run t E s)) (f : Nat) (E : Env) (s : St) :
    ToIn E.inForce (meanCall P run f E s) := by
  refine ToIn.arrive (H _ _ _) ?_
  rintro e (h | h)
  · exact Or.inr (Or.inl h)
  · simp only [List.map_cons, List.map_nil, List.mem_singleton] at h; exact Or.inl h

theorem signal_in {P : Prog} {run : Tm → Env → St → Exit × St} (H : ∀ t E s, ToIn E.inForce (run t E s)) (E : Env) (s : St) :
    ToIn E.inForce (signal P run E s) := by
  unfold signal
  split
  · trivial
  · exact (meanCall_in H _ E s).andThen fun _ _ => trivial

theorem mean_in (P : Prog) (n : Nat) : ∀ t E s, ToIn E.inForce (mean P n t E s) := by
  induction n with
  | zero => intro t E s; trivial
  | succ n ih =>
    intro t E s
    cases t with
    | const v => trivial
    | var x => trivial
    | setq x e => exact (ih e E s).andThen fun _ _ => trivial
    | print e => exact (ih e E s).andThen fun _ _ => trivial
    | progn a b => exact (ih a E s).andThen fun _ s => ih b E s
    | ite e a b =>
      refine (ih e E s).andThen fun v s => ?_
      split
      · exact ih a E s
      · exact ih b E s
    | lett x e b =>
      refine (ih e E s).andThen fun v s => ?_
      have := ih b E { s with spec := upd s.spec x v }
      dsimp only
      generalize mean P n b E { s with spec := upd s.spec x v } = r at this
      obtain ⟨e, s'⟩ := r
      cases e <;> exact this
    | call f => exact meanCall_in ih f E s
    | catch_ tag b =>
      refine (ih tag E s).andThen fun v s => ToIn.arrive (ih _ _ _) ?_
      rintro e (h | h)
      · simp only [List.map_cons, List.mem_cons] at h
        rcases h with h | h
        · exact Or.inl h
        · exact Or.inr (Or.inl h)
      · exact Or.inr (Or.inr h)
    | throw_ tag e =>
      refine (ih tag E s).andThen fun tg s => (ih e E s).andThen fun v s => ?_
      split
      · rename_i q hq
        exact Or.inl (List.mem_map_of_mem (List.mem_of_find?_eq_some hq))
      · exact signal_in ih E s
    | block nm b =>
      refine ToIn.arrive (ih _ _ _) ?_
      rintro e (h | h)
      · exact Or.inr (Or.inl h)
      · simp only [List.map_cons, List.mem_cons] at h
        rcases h with h | h
        · exact Or.inl h
        · exact Or.inr (Or.inr h)
    | retfrom nm e =>
      rw [mean]
      split
      · rename_i q hq
        exact (ih e E s).andThen fun v s => Or.inr (List.mem_map_of_mem (List.mem_of_find?_eq_some hq))
      · exact signal_in ih E s
    | protect e c =>
      have he := ih e E s
      rw [mean]
      generalize mean P n e E s = r at he
      obtain ⟨x, s'⟩ := r
      cases x with
      | val v => exact (ih c E s').andThen fun _ _ => trivial
      | exit d v =>
        have hd : E.inForce d := he
        have hc := ih c (E.upto d) s'
        refine ToIn.andThen ?_ fun _ _ => hd
        generalize mean P n c (E.upto d) s' = r at hc
        obtain ⟨y, s''⟩ := r
        cases y with
        | exit d' v' =>
          rcases hc with hc | hc
          · obtain ⟨q, hq, rfl⟩ := List.mem_map.1 hc
            exact Or.inl (List.mem_map_of_mem (List.mem_filter.1 hq).1)
          · obtain ⟨q, hq, rfl⟩ := List.mem_map.1 hc
            exact Or.inr (List.mem_map_of_mem (List.mem_filter.1 hq).1)
        | val v' => trivial
        | fail => trivial
        | timeout => trivial
      | fail => trivial
      | timeout => trivial
    | loop e b =>
      refine (ih e E s).andThen fun v s => ?_
      split
      · trivial
      · exact (ih b E s).andThen fun _ s => ih _ E s
    | label u r => exact ih r E s
    | tagbody b c =>
      refine (ih _ E s).andThen fun v s => ?_
      split
      · split
        · exact ih _ E s
        · trivial
      · trivial
    | error_ => exact signal_in ih E s

/-! ### Cleanup forms do not depend on the special variables -/

/-- Environments alike for forms that return only from the blocks `bs`. -/
def EnvEq (bs : List BI) (E F : Env) : Prop :=
  E.depth = F.depth ∧ E.catches = F.catches ∧ ∀ n b, bs.find? (fun b => b.name.hits n) = some b → E.blocks.find? (fun q => q.1.hits n) = F.blocks.find? (fun q => q.1.hits n)

/-- States alike on the variables `xs`. -/
def StEq (xs : List Nat) (s t : St) : Prop := s.out = t.out ∧ ∀ x ∈ xs, s.spec x = t.spec x

/-- The outcomes are alike, and off `xs` nothing has changed. -/
def Alike (xs : List Nat) (s t : St) (r q : Exit × St) : Prop :=
  r.1 = q.1 ∧ StEq xs r.2 q.2 ∧ ∀ x, x ∉ xs → r.2.spec x = s.spec x ∧ q.2.spec x = t.spec x

theorem Alike.refl {xs : List Nat} {s t : St} (h : StEq xs s t) (e : Exit) : Alike xs s t (e, s) (e, t) := ⟨rfl, h, fun _ _ => ⟨rfl, rfl⟩⟩

theorem Alike.trans {xs : List Nat} {s t s1 t1 : St} {r q : Exit × St} (h : ∀ x, x ∉ xs → s1.spec x = s.spec x ∧ t1.spec x = t.spec x)
    (k : Alike xs s1 t1 r q) : Alike xs s t r q :=
  ⟨k.1, k.2.1, fun x hx => ⟨(k.2.2 x hx).1.trans (h x hx).1, (k.2.2 x hx).2.trans (h x hx).2⟩⟩

theorem Alike.andThen {xs : List Nat} {s t : St} {r q : Exit × St} {f g : Val → St → Exit × St} (h : Alike xs s t r q)
    (k : ∀ v s1 t1, StEq xs s1 t1 → Alike xs s1 t1 (f v s1) (g v t1)) : Alike xs s t (andThen r f) (Ctl.andThen q g) := by
  obtain ⟨e, s1⟩ := r
  obtain ⟨e', t1⟩ := q
  obtain ⟨h1, h2, h3⟩ := h
  dsimp only at h1 h2 h3
  subst h1
  cases e with
  | val v => exact (k v s1 t1 h2).trans h3
  | exit d v => exact ⟨rfl, h2, h3⟩
  | fail => exact ⟨rfl, h2, h3⟩
  | timeout => exact ⟨rfl, h2, h3⟩

theorem Alike.arrive {xs : List Nat} {s t : St} {r q : Exit × St} (h : Alike xs s t r q) (d : Nat) : Alike xs s t (arrive d r) (arrive d q) := by
  obtain ⟨e, s1⟩ := r
  obtain ⟨e', t1⟩ := q
  obtain ⟨h1, h2, h3⟩ := h
  dsimp only at h1 h2 h3
  subst h1
  cases e with
  | val v => exact ⟨rfl, h2, h3⟩
  | exit d' v =>
    unfold Ctl.arrive
    dsimp only
    split
    · exact ⟨rfl, h2, h3⟩
    · exact ⟨rfl, h2, h3⟩
  | fail => exact ⟨rfl, h2, h3⟩
  | timeout => exact ⟨rfl, h2, h3⟩

/-- A form that uses no variables leaves them alone. -/
theorem Alike.widen {xs : List Nat} {s t : St} {r q : Exit × St} (h : Alike [] s t r q) (hs : StEq xs s t) : Alike xs s t r q := by
  refine ⟨h.1, ⟨h.2.1.1, fun x hx => ?_⟩, fun x _ => h.2.2 x (by simp)⟩
  rw [(h.2.2 x (by simp)).1, (h.2.2 x (by simp)).2]; exact hs.2 x hx

/-- The statement proved by induction on the fuel. -/
def Ins (pure : Nat → Bool) (run : Tm → Env → St → Exit × St) : Prop :=
  ∀ t bs xs E F s u, Scoped bs t = true → Tame pure (some xs) t = true → EnvEq bs E F → StEq xs s u → Alike xs s u (run t E s) (run t F u)

theorem EnvEq.call (E F : Env) (h : E.depth = F.depth) (h2 : E.catches = F.catches) (f : Nat) (bs : List BI) :
    EnvEq bs { E with depth := E.depth + 1, blocks := [(.blk f, E.depth)] } { F with depth := F.depth + 1, blocks := [(.blk f, F.depth)] } := by
  refine ⟨by rw [h], h2, fun _ _ _ => ?_⟩
  rw [h]

theorem meanCall_ins {P : Prog} {pure : Nat → Bool} {run : Tm → Env → St → Exit × St} (HS : P.Scoped) (HT : P.Tame pure) (H : Ins pure run)
    (f : Nat) (hf : pure f = true) (xs : List Nat) (bs : List BI) (E F : Env) (s u : St) (hE : EnvEq bs E F) (hs : StEq xs s u) :
    Alike xs s u (meanCall P run f E s) (meanCall P run f F u) := by
  unfold meanCall
  rw [← hE.1]
  have := H (P.F f) _ [] { E with depth := E.depth + 1, blocks := [(.blk f, E.depth)] } { F with depth := F.depth + 1, blocks := [(.blk f, F.depth)] } s u (HS f)
    (HT.pures f hf) (EnvEq.call E F hE.1 hE.2.1 f _) ⟨hs.1, by simp⟩
  rw [← hE.1] at this
  exact (this.widen hs).arrive _

theorem signal_ins {P : Prog} {pure : Nat → Bool} {run : Tm → Env → St → Exit × St} (HS : P.Scoped) (HT : P.Tame pure) (H : Ins pure run)
    (xs : List Nat) (bs : List BI) (E F : Env) (s u : St) (hE : EnvEq bs E F) (hs : StEq xs s u) :
    Alike xs s u (signal P run E s) (signal P run F u) := by
  unfold signal
  split
  · exact Alike.refl hs _
  · rename_i h hh
    exact (meanCall_ins HS HT H h (HT.handler h hh) xs bs E F s u hE hs).andThen fun v s1 t1 h1 => Alike.refl h1 _

theorem StEq.upd {xs : List Nat} {s u : St} (h : StEq xs s u) (x : Nat) (v : Val) :
    StEq (x :: xs) { s with spec := upd s.spec x v } { u with spec := upd u.spec x v } := by
  refine ⟨h.1, fun y hy => ?_⟩
  dsimp only [Ctl.upd]
  split
  · rfl
  · rename_i hne
    rcases List.mem_cons.1 hy with hy | hy
    · exact absurd hy hne
    · exact h.2 y hy

theorem mean_ins {P : Prog} {pure : Nat → Bool} (HS : P.Scoped) (HT : P.Tame pure) (n : Nat) : Ins pure (mean P n) := by
  induction n with
  | zero => intro t bs xs E F s u _ _ _ hs; exact Alike.refl hs _
  | succ n ih =>
    intro t bs xs E F s u sc tm hE hs
    cases t with
    | const v => exact Alike.refl hs _
    | var x =>
      have hx : x ∈ xs := by simpa [Tame, mayUse] using tm
      rw [mean, mean, hs.2 x hx]
      exact Alike.refl hs _
    | setq x e =>
      simp only [Tame, Bool.and_eq_true, mayUse, List.contains_iff_mem] at tm
      refine (ih e bs xs E F s u sc tm.2 hE hs).andThen fun v s1 t1 h1 => ⟨rfl, ⟨h1.1, fun y hy => ?_⟩, fun y hy => ?_⟩
      · dsimp only [upd]; split
        · rfl
        · exact h1.2 y hy
      · dsimp only [upd]
        have hyx : y ≠ x := fun h => hy (h ▸ tm.1)
        rw [if_neg hyx, if_neg hyx]
        exact ⟨rfl, rfl⟩
    | print e =>
      refine (ih e bs xs E F s u sc tm hE hs).andThen fun v s1 t1 h1 => ⟨rfl, ⟨?_, h1.2⟩, fun y hy => ⟨rfl, rfl⟩⟩
      dsimp only; rw [h1.1]
    | progn a b =>
      simp only [Tame, Bool.and_eq_true] at tm
      simp only [Scoped, Bool.and_eq_true] at sc
      exact (ih a bs xs E F s u sc.1 tm.1 hE hs).andThen fun v s1 t1 h1 => ih b bs xs E F s1 t1 sc.2 tm.2 hE h1
    | ite e a b =>
      simp only [Tame, Bool.and_eq_true] at tm
      simp only [Scoped, Bool.and_eq_true] at sc
      refine (ih e bs xs E F s u sc.1.1 tm.1.1 hE hs).andThen fun v s1 t1 h1 => ?_
      split
      · exact ih a bs xs E F s1 t1 sc.1.2 tm.1.2 hE h1
      · exact ih b bs xs E F s1 t1 sc.2 tm.2 hE h1
    | lett x e b =>
      simp only [Tame, Bool.and_eq_true, Option.map_some] at tm
      simp only [Scoped, Bool.and_eq_true] at sc
      refine (ih e bs xs E F s u sc.1 tm.1 hE hs).andThen fun v s1 t1 h1 => ?_
      have := ih b bs (x :: xs) E F { s1 with spec := upd s1.spec x v } { t1 with spec := upd t1.spec x v } sc.2 tm.2 hE (h1.upd x v)
      dsimp only
      generalize mean P n b E { s1 with spec := upd s1.spec x v } = r at this
      generalize mean P n b F { t1 with spec := upd t1.spec x v } = q at this
      obtain ⟨g1, g2, g3⟩ := this
      refine ⟨g1, ⟨g2.1, fun y hy => ?_⟩, fun y hy => ?_⟩
      · dsimp only [upd]
        split
        · rename_i h; exact h1.2 x (h ▸ hy)
        · exact g2.2 y (by simp [hy])
      · dsimp only [upd]
        split
        · rename_i h; rw [h]; exact ⟨rfl, rfl⟩
        · rename_i h
          have := g3 y (by simp [h, hy])
          dsimp only [upd] at this
          rw [if_neg h, if_neg h] at this
          exact this
    | call f =>
      have hf : pure f = true := by simpa [Tame] using tm
      exact meanCall_ins HS HT ih f hf xs bs E F s u hE hs
    | catch_ tag b =>
      simp only [Tame, Bool.and_eq_true] at tm
      simp only [Scoped, Bool.and_eq_true] at sc
      refine (ih tag bs xs E F s u sc.1 tm.1 hE hs).andThen fun v s1 t1 h1 => ?_
      rw [← hE.1]
      refine Alike.arrive (ih b (bs.map fun b => { b with overCatch := true }) xs { E with depth := E.depth + 1, catches := (v, E.depth) :: E.catches }
        { F with depth := E.depth + 1, catches := (v, E.depth) :: F.catches } s1 t1 sc.2 tm.2 ⟨rfl, by dsimp only; rw [hE.2.1], ?_⟩ h1) _
      intro m c hc
      rw [List.find?_map] at hc
      obtain ⟨b0, hb0, rfl⟩ := Option.map_eq_some_iff.1 hc
      exact hE.2.2 m b0 hb0
    | throw_ tag e =>
      simp only [Tame, Bool.and_eq_true] at tm
      simp only [Scoped, Bool.and_eq_true] at sc
      refine (ih tag bs xs E F s u sc.1 tm.1 hE hs).andThen fun tg s1 t1 h1 => (ih e bs xs E F s1 t1 sc.2 tm.2 hE h1).andThen fun v s2 t2 h2 => ?_
      rw [← hE.2.1]
      split
      · exact Alike.refl h2 _
      · exact signal_ins HS HT ih xs bs E F s2 t2 hE h2
    | block nm b =>
      rw [mean, mean, ← hE.1]
      refine Alike.arrive (ih b (⟨nm, false, false⟩ :: bs) xs { E with depth := E.depth + 1, blocks := (nm, E.depth) :: E.blocks } { F with depth := E.depth + 1, blocks := (nm, E.depth) :: F.blocks } s u sc tm ⟨rfl, hE.2.1, ?_⟩ hs) _
      intro m c hc
      rw [List.find?_cons] at hc
      dsimp only
      rw [List.find?_cons, List.find?_cons]
      split at hc
      · rename_i h; simp only [h]
      · rename_i h
        simp only [h]
        exact hE.2.2 m c hc
    | retfrom nm e =>
      simp only [Scoped, Bool.and_eq_true] at sc
      obtain ⟨sc1, sc2⟩ := sc
      split at sc1
      · rename_i b hb
        rw [mean, mean, ← hE.2.2 nm b hb]
        split
        · exact (ih e bs xs E F s u sc2 tm hE hs).andThen fun v s1 t1 h1 => Alike.refl h1 _
        · exact signal_ins HS HT ih xs bs E F s u hE hs
      · cases sc1
    | protect e c =>
      simp only [Tame, Bool.and_eq_true] at tm
      simp only [Scoped, Bool.and_eq_true] at sc
      have hE2 : EnvEq (bs.map fun b => { b with overProt := true }) E F := by
        refine ⟨hE.1, hE.2.1, ?_⟩
        intro m c hc
        rw [List.find?_map] at hc
        obtain ⟨b0, hb0, rfl⟩ := Option.map_eq_some_iff.1 hc
        exact hE.2.2 m b0 hb0
      have he := ih e _ xs E F s u sc.1 tm.1 hE2 hs
      rw [mean, mean]
      generalize mean P n e E s = r at he
      generalize mean P n e F u = q at he
      obtain ⟨x, s1⟩ := r
      obtain ⟨x', t1⟩ := q
      obtain ⟨g1, g2, g3⟩ := he
      dsimp only at g1 g2 g3
      subst g1
      cases x with
      | val v =>
        refine Alike.trans g3 ?_
        exact Alike.andThen ((ih c [] [] E F s1 t1 sc.2 tm.2 ⟨hE.1, hE.2.1, fun m b hb => (by cases hb)⟩ ⟨g2.1, by simp⟩).widen g2)
          fun w s2 t2 h2 => Alike.refl h2 _
      | exit d v =>
        refine Alike.trans g3 ?_
        refine Alike.andThen ((ih c [] [] (E.upto d) (F.upto d) s1 t1 sc.2 tm.2 ⟨rfl, by unfold Env.upto; rw [hE.2.1], fun m b hb => (by cases hb)⟩ ⟨g2.1, by simp⟩).widen g2)
          fun w s2 t2 h2 => Alike.refl h2 _
      | fail => exact ⟨rfl, g2, g3⟩
      | timeout => exact ⟨rfl, g2, g3⟩
    | loop e b =>
      have tm' := tm
      have sc' := sc
      simp only [Tame, Bool.and_eq_true] at tm
      simp only [Scoped, Bool.and_eq_true] at sc
      refine (ih e bs xs E F s u sc.1 tm.1 hE hs).andThen fun v s1 t1 h1 => ?_
      split
      · exact Alike.refl h1 _
      · exact (ih b bs xs E F s1 t1 sc.2 tm.2 hE h1).andThen fun w s2 t2 h2 => ih _ bs xs E F s2 t2 sc' tm' hE h2
    | label u r => exact ih r bs xs E F s _ sc tm hE hs
    | tagbody b c =>
      simp only [Tame, Bool.and_eq_true] at tm
      simp only [Scoped, Bool.and_eq_true, decide_eq_true_eq] at sc
      refine (ih _ bs xs E F s u (by simp only [Scoped, Bool.and_true]; exact sc.2) (by simp only [Tame, Bool.and_eq_true]; exact ⟨tm.2, rfl⟩) hE hs).andThen
        fun v s1 t1 h1 => ?_
      split
      · split
        · rename_i next hk
          exact ih _ bs xs E F s1 t1 (by simp only [Scoped, Bool.and_eq_true, decide_eq_true_eq]; exact ⟨sc.1, fromTag_scoped hk sc.1.2⟩)
            (by simp only [Tame, Bool.and_eq_true]; exact ⟨tm.1, fromTag_tame hk tm.1⟩) hE h1
        · exact Alike.refl h1 _
      · exact Alike.refl h1 _
    | error_ => exact signal_ins HS HT ih xs bs E F s u hE hs

end Eus.Ctl
