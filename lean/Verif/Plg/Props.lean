import Verif.Plg.Spec
set_option autoImplicit false
/-
C215: Portable Prolog.
-/
namespace Eus.Plg

theorem assigned_mem {σ : Store} {v e : Nat} {r : Term × Nat} (h : assigned σ v e = some r) : (v, r.1, r.2) ∈ σ e := by
  unfold assigned at h
  rw [Option.map_eq_some_iff] at h
  obtain ⟨b, hb, rfl⟩ := h
  have h1 := List.mem_of_find?_eq_some hb
  have h2 := List.find?_some hb
  have : b.1 = v := by simpa using h2
  rw [← this]
  exact h1

theorem fetch_inst (σ : Store) (V : Nat → Nat → Val) (hV : Agrees V σ) : ∀ (f : Nat) (x : Term) (e : Nat) (t : Term) (e2 : Nat),
    fetch σ f x e = some (t, e2) → inst (V e) x = inst (V e2) t := by
  intro f
  induction f with
  | zero => intro x e t e2 h; exact absurd h (by simp [fetch])
  | succ f ih =>
    intro x e t e2 h
    cases x with
    | var v =>
      rw [fetch] at h
      split at h
      · injection h with h; injection h with h1 h2; subst h1; subst h2; rfl
      · rename_i t1 e1 ha
        rw [← ih t1 e1 t e2 h]
        exact hV e v t1 e1 (assigned_mem ha)
    | atom a => rw [fetch] at h; injection h with h; injection h with h1 h2; subst h1; subst h2; rfl; simp
    | cons a b => rw [fetch] at h; injection h with h; injection h with h1 h2; subst h1; subst h2; rfl; simp

theorem link_agrees (σ : Store) (tr : List Nat) (v e : Nat) (t : Term) (e2 : Nat) (V : Nat → Nat → Val) :
    Agrees V (link σ tr v e t e2).1 ↔ Agrees V σ ∧ V e v = inst (V e2) t := by
  unfold link Agrees
  simp only
  constructor
  · intro h
    refine ⟨?_, h e v t e2 (by simp)⟩
    intro d w u d2 hm
    apply h d w u d2
    split
    · rename_i hd; subst hd; exact List.mem_cons_of_mem _ hm
    · exact hm
  · intro ⟨h1, h2⟩ d w u d2 hm
    split at hm
    · rename_i hd
      rcases List.mem_cons.1 hm with hh | hh
      · injection hh with a b; injection b with b c; subst a; subst b; subst c; rw [hd]; exact h2
      · rw [hd]; exact h1 e w u d2 hh
    · exact h1 d w u d2 hm

/-- what unify does -/
structure UnifyOk (σ : Store) (tr : List Nat) (x : Term) (ex : Nat) (y : Term) (ey : Nat) (r : Bool) (σ' : Store) (tr' : List Nat) : Prop where
  back : ∀ V, Agrees V σ' → Agrees V σ
  sound : r = true → ∀ V, Agrees V σ' → inst (V ex) x = inst (V ey) y
  most : ∀ V, Agrees V σ → inst (V ex) x = inst (V ey) y → r = true ∧ Agrees V σ'
  undo : ∃ l, tr' = l ++ tr ∧ undo σ' l = σ

theorem undo_append (l m : List Nat) : ∀ σ, undo σ (l ++ m) = undo (undo σ l) m := by
  induction l with
  | nil => intro σ; rfl
  | cons e l ih => intro σ; simp only [List.cons_append, undo]; exact ih _

theorem unify_ok : ∀ (f : Nat) (σ : Store) (tr : List Nat) (x : Term) (ex : Nat) (y : Term) (ey : Nat) (r : Bool) (σ' : Store) (tr' : List Nat),
    unify f σ tr x ex y ey = some (r, σ', tr') → UnifyOk σ tr x ex y ey r σ' tr' := by
  intro f
  induction f with
  | zero => intro σ tr x ex y ey r σ' tr' h; exact absurd h (by simp [unify])
  | succ f ih =>
    intro σ tr x ex y ey r σ' tr' h
    have swap : ∀ w, x ≠ .var w → ∀ v, y = .var v → unify f σ tr (.var v) ey x ex = some (r, σ', tr') → UnifyOk σ tr x ex y ey r σ' tr' := by
      intro _ _ v hy hu
      subst hy
      have k := ih _ _ _ _ _ _ _ _ _ hu
      exact ⟨k.back, fun hr V hV => (k.sound hr V hV).symm, fun V hV hi => k.most V hV hi.symm, k.undo⟩
    cases x with
    | var v =>
      simp only [unify] at h
      split at h
      · rename_i p ha
        split at h
        · exact absurd h (by simp)
        · rename_i t e hf
          have k := ih _ _ _ _ _ _ _ _ _ h
          have hi : ∀ V, Agrees V σ → inst (V ex) (.var v) = inst (V e) t := fun V hV => fetch_inst σ V hV f _ _ _ _ hf
          exact ⟨k.back, fun hr V hV => (hi V (k.back V hV)).trans (k.sound hr V hV), fun V hV he => k.most V hV ((hi V hV).symm.trans he), k.undo⟩
      · split at h
        · exact absurd h (by simp)
        · rename_i t e hf
          injection h with h
          have hr : r = true := (congrArg Prod.fst h).symm
          have hl : link σ tr v ex t e = (σ', tr') := congrArg Prod.snd h
          have hs : σ' = (link σ tr v ex t e).1 := by rw [hl]
          have ht : tr' = (link σ tr v ex t e).2 := by rw [hl]
          have hi : ∀ V, Agrees V σ → inst (V ey) y = inst (V e) t := fun V hV => fetch_inst σ V hV f _ _ _ _ hf
          refine ⟨?_, ?_, ?_, ?_⟩
          · intro V hV; rw [hs, link_agrees] at hV; exact hV.1
          · intro _ V hV
            rw [hs, link_agrees] at hV
            rw [hi V hV.1]
            exact hV.2
          · intro V hV he
            refine ⟨hr, ?_⟩
            rw [hs, link_agrees]
            exact ⟨hV, he.trans (hi V hV)⟩
          · refine ⟨[ex], ht, ?_⟩
            rw [hs]
            funext d
            simp only [undo, link]
            split
            · rename_i hd; simp [hd]
            · rfl
    | atom a =>
      simp only [unify] at h
      cases y with
      | var w => exact swap 0 (by simp) w rfl h
      | atom b =>
        simp only [Option.some.injEq, Prod.mk.injEq] at h
        obtain ⟨h1, h2, h3⟩ := h
        subst h2; subst h3
        refine ⟨fun V h => h, ?_, ?_, ⟨[], rfl, rfl⟩⟩
        · intro hr V _
          rw [← h1] at hr
          have : a = b := by simpa using hr
          rw [this]; rfl
        · intro V hV he
          refine ⟨?_, hV⟩
          rw [← h1]
          simp only [inst, Val.atom.injEq] at he
          simp [he]
      | cons c d =>
        simp only [Option.some.injEq, Prod.mk.injEq] at h
        obtain ⟨h1, h2, h3⟩ := h
        subst h2; subst h3
        refine ⟨fun V h => h, ?_, ?_, ⟨[], rfl, rfl⟩⟩
        · intro hr; rw [← h1] at hr; exact absurd hr (by simp)
        · intro V _ he; simp [inst] at he
    | cons a b =>
      simp only [unify] at h
      cases y with
      | var w => exact swap 0 (by simp) w rfl h
      | atom c =>
        simp only [Option.some.injEq, Prod.mk.injEq] at h
        obtain ⟨h1, h2, h3⟩ := h
        subst h2; subst h3
        refine ⟨fun V h => h, ?_, ?_, ⟨[], rfl, rfl⟩⟩
        · intro hr; rw [← h1] at hr; exact absurd hr (by simp)
        · intro V _ he; simp [inst] at he
      | cons c d =>
        simp only at h
        split at h
        · exact absurd h (by simp)
        · rename_i r1 hu
          obtain ⟨σ1, tr1⟩ := r1
          simp only [Option.some.injEq, Prod.mk.injEq] at h
          obtain ⟨h1, h2, h3⟩ := h
          subst h2; subst h3
          have k := ih _ _ _ _ _ _ _ _ _ hu
          refine ⟨k.back, ?_, ?_, k.undo⟩
          · intro hr; rw [← h1] at hr; exact absurd hr (by simp)
          · intro V hV he
            simp only [inst, Val.node.injEq] at he
            exact absurd (k.most V hV he.1).1 (by simp)
        · rename_i σ1 tr1 hu
          have k1 := ih _ _ _ _ _ _ _ _ _ hu
          have k2 := ih _ _ _ _ _ _ _ _ _ h
          refine ⟨fun V hV => k1.back V (k2.back V hV), ?_, ?_, ?_⟩
          · intro hr V hV
            simp only [inst]
            rw [k1.sound rfl V (k2.back V hV), k2.sound hr V hV]
          · intro V hV he
            simp only [inst, Val.node.injEq] at he
            exact k2.most V (k1.most V hV he.1).2 he.2
          · obtain ⟨l1, a1, b1⟩ := k1.undo
            obtain ⟨l2, a2, b2⟩ := k2.undo
            refine ⟨l2 ++ l1, by rw [a2, a1, List.append_assoc], ?_⟩
            rw [undo_append, b2, b1]

/-- C215.  If two terms are unified, all values of variables that agree with the bindings make them equal, and none that did so before is excluded:
the bindings are a most general unifier. -/
theorem C215_unifier (f : Nat) (σ σ' : Store) (tr tr' : List Nat) (x y : Term) (ex ey : Nat) (h : unify f σ tr x ex y ey = some (true, σ', tr')) (V : Nat → Nat → Val) :
    Agrees V σ' ↔ Agrees V σ ∧ inst (V ex) x = inst (V ey) y := by
  have k := unify_ok _ _ _ _ _ _ _ _ _ _ h
  exact ⟨fun hV => ⟨k.back V hV, k.sound rfl V hV⟩, fun hV => (k.most V hV.1 hV.2).2⟩

/-- C215.  If they are not unified, no values make them equal. -/
theorem C215_no_unifier (f : Nat) (σ σ' : Store) (tr tr' : List Nat) (x y : Term) (ex ey : Nat) (h : unify f σ tr x ex y ey = some (false, σ', tr')) (V : Nat → Nat → Val)
    (hV : Agrees V σ) : inst (V ex) x ≠ inst (V ey) y := by
  intro he
  exact absurd ((unify_ok _ _ _ _ _ _ _ _ _ _ h).most V hV he).1 (by simp)

/-- C215.  Undoing takes back exactly the bindings, after success and after failure. -/
theorem C215_undo (f : Nat) (σ σ' : Store) (tr : List Nat) (r : Bool) (x y : Term) (ex ey : Nat) (h : unify f σ [] x ex y ey = some (r, σ', tr)) : undo σ' tr = σ := by
  obtain ⟨l, a, b⟩ := (unify_ok _ _ _ _ _ _ _ _ _ _ h).undo
  rw [List.append_nil] at a
  rw [a]; exact b

theorem clauseOf_named (σ : Store) (f old : Nat) (g : Term) (gs : List Term) (h : Named g) : clauseOf σ f old g gs = some (g, gs) := by
  obtain ⟨p, a, rfl⟩ := h
  rfl

/-- all goals of the queue hold -/
def CueHolds (prog : List Clause) (V : Nat → Nat → Val) (cue : List (List Term × Nat)) : Prop :=
  ∀ q ∈ cue, ∀ g ∈ q.1, Holds prog (inst (V q.2) g)

theorem alts_true (k : Clause → St → Option (Bool × St)) (P : St → Prop) (hk : ∀ c s s', P s → k c s = some (false, s') → P s') :
    ∀ (cs : List Clause) (s s' : St), P s → alts k cs s = some (true, s') → ∃ c ∈ cs, ∃ s1, P s1 ∧ k c s1 = some (true, s') := by
  intro cs
  induction cs with
  | nil => intro s s' _ h; exact absurd h (by simp [alts])
  | cons c cs ih =>
    intro s s' hP h
    rw [alts] at h
    split at h
    · exact absurd h (by simp)
    · rename_i s1 hc
      injection h with h
      injection h with _ h
      subst h
      exact ⟨c, List.mem_cons_self, s, hP, hc⟩
    · rename_i s1 hc
      obtain ⟨d, hd, r⟩ := ih s1 s' (hk c s s1 hP hc) h
      exact ⟨d, List.mem_cons_of_mem _ hd, r⟩

theorem alts_false (k : Clause → St → Option (Bool × St)) (P : St → Prop) (hk : ∀ c s s', P s → k c s = some (false, s') → P s') :
    ∀ (cs : List Clause) (s s' : St), P s → alts k cs s = some (false, s') → P s' ∧ ∀ c ∈ cs, ∃ s1 s2, P s1 ∧ k c s1 = some (false, s2) := by
  intro cs
  induction cs with
  | nil =>
    intro s s' hP h
    simp only [alts, Option.some.injEq, Prod.mk.injEq, true_and] at h
    subst h
    exact ⟨hP, fun c hc => absurd hc (by simp)⟩
  | cons c cs ih =>
    intro s s' hP h
    rw [alts] at h
    split at h
    · exact absurd h (by simp)
    · exact absurd h (by simp)
    · rename_i s1 hc
      obtain ⟨a, b⟩ := ih s1 s' (hk c s s1 hP hc) h
      refine ⟨a, ?_⟩
      intro d hd
      rcases List.mem_cons.1 hd with e | e
      · subst e; exact ⟨s, s1, hP, hc⟩
      · exact b d e

theorem defs_mem {prog : List Clause} {g : Term} {c : Clause} (h : c ∈ defs prog g) : c ∈ prog := by
  unfold defs at h
  split at h
  · exact (List.mem_filter.1 h).1
  · exact absurd h (by simp)

/-- failure leaves the bindings as they were and only counts up -/
theorem refutes_false (prog : List Clause) : ∀ (f : Nat) (gs : List Term) (new old : Nat) (cue : List (List Term × Nat)) (s s' : St),
    refutes prog f gs new old cue s = some (false, s') → s'.store = s.store ∧ s.next ≤ s'.next := by
  intro f
  induction f with
  | zero => intro gs new old cue s s' h; exact absurd h (by simp [refutes])
  | succ f ih =>
    intro gs new old cue s s' h
    cases gs with
    | nil =>
      cases cue with
      | nil => simp [refutes] at h
      | cons q cue1 =>
        simp only [refutes] at h
        obtain ⟨a, b⟩ := ih _ _ _ _ _ _ h
        exact ⟨a, by simp only at b; omega⟩
    | cons g0 gs0 =>
      rw [refutes] at h
      split at h
      · exact absurd h (by simp)
      · rename_i g gs1 _
        refine (alts_false _ (fun s1 => s1.store = s.store ∧ s.next ≤ s1.next) ?_ _ _ _ ⟨rfl, Nat.le_refl _⟩ h).1
        intro c s1 s2 hP hc
        split at hc
        · exact absurd hc (by simp)
        · rename_i σ tr hu
          simp only [Option.some.injEq, Prod.mk.injEq, true_and] at hc
          subst hc
          exact ⟨by simp only; rw [C215_undo _ _ _ _ _ _ _ _ _ hu]; exact hP.1, hP.2⟩
        · rename_i σ tr hu
          split at hc
          · exact absurd hc (by simp)
          · exact absurd hc (by simp)
          · rename_i s3 hr
            simp only [Option.some.injEq, Prod.mk.injEq, true_and] at hc
            subst hc
            obtain ⟨a, b⟩ := ih _ _ _ _ _ _ hr
            simp only at a b ⊢
            rw [a, C215_undo _ _ _ _ _ _ _ _ _ hu]
            exact ⟨hP.1, by omega⟩

theorem refutes_sound (prog : List Clause) (hprog : Proper prog) : ∀ (f : Nat) (gs : List Term) (new old : Nat) (cue : List (List Term × Nat)) (s s' : St),
    (∀ g ∈ gs, Named g) → (∀ q ∈ cue, ∀ g ∈ q.1, Named g) → refutes prog f gs new old cue s = some (true, s') →
    ∀ V, Agrees V s'.store → Agrees V s.store ∧ (∀ g ∈ gs, Holds prog (inst (V old) g)) ∧ CueHolds prog V cue := by
  intro f
  induction f with
  | zero => intro gs new old cue s s' _ _ h; exact absurd h (by simp [refutes])
  | succ f ih =>
    intro gs new old cue s s' hgs hcue h V hV
    cases gs with
    | nil =>
      cases cue with
      | nil =>
        simp only [refutes, Option.some.injEq, Prod.mk.injEq, true_and] at h
        subst h
        exact ⟨hV, by simp, by simp [CueHolds]⟩
      | cons q cue1 =>
        obtain ⟨ql, qe⟩ := q
        simp only [refutes] at h
        obtain ⟨a, b, c⟩ := ih _ _ _ _ _ _ (hcue (ql, qe) List.mem_cons_self) (fun q hq => hcue q (List.mem_cons_of_mem _ hq)) h V hV
        refine ⟨a, by simp, ?_⟩
        intro q hq
        rcases List.mem_cons.1 hq with e | e
        · subst e; exact b
        · exact c q e
    | cons g gs =>
      rw [refutes] at h
      rw [clauseOf_named _ _ _ _ _ (hgs g List.mem_cons_self)] at h
      simp only at h
      obtain ⟨c, hc, s1, hP, hk⟩ := alts_true _ (fun s1 => s1.store = s.store) (by
        intro c s1 s2 hP hc
        split at hc
        · exact absurd hc (by simp)
        · rename_i σ tr hu
          simp only [Option.some.injEq, Prod.mk.injEq, true_and] at hc
          subst hc
          simp only; rw [C215_undo _ _ _ _ _ _ _ _ _ hu]; exact hP
        · rename_i σ tr hu
          split at hc
          · exact absurd hc (by simp)
          · exact absurd hc (by simp)
          · rename_i s3 hr
            simp only [Option.some.injEq, Prod.mk.injEq, true_and] at hc
            subst hc
            have a := (refutes_false prog _ _ _ _ _ _ _ hr).1
            simp only at a ⊢
            rw [a, C215_undo _ _ _ _ _ _ _ _ _ hu]
            exact hP) _ _ _ rfl h
      split at hk
      · exact absurd hk (by simp)
      · exact absurd hk (by simp)
      · rename_i σ tr hu
        split at hk
        · exact absurd hk (by simp)
        · rename_i s3 hr
          simp only [Option.some.injEq, Prod.mk.injEq, true_and] at hk
          subst hk
          have hcp := defs_mem hc
          obtain ⟨a, b, d⟩ := ih _ _ _ _ _ _ (hprog c hcp).2 (by
            intro q hq
            rcases List.mem_cons.1 hq with e | e
            · subst e; exact fun x hx => hgs x (List.mem_cons_of_mem _ hx)
            · exact hcue q e) hr V hV
          have k := unify_ok _ _ _ _ _ _ _ _ _ _ hu
          have he := k.sound rfl V a
          refine ⟨by rw [← hP]; exact k.back V a, ?_, fun q hq => d q (List.mem_cons_of_mem _ hq)⟩
          intro x hx
          rcases List.mem_cons.1 hx with e | e
          · subst e
            rw [he]
            exact Holds.intro c (V new) hcp b
          · exact d (gs, old) List.mem_cons_self x e
        · exact absurd hk (by simp)

/-- C215.  If a query is proved, each of its goals follows from the program, for all values of the variables that agree with the bindings. -/
theorem C215_sound_partial (prog : List Clause) (hprog : Proper prog) (f : Nat) (gs : List Term) (hgs : ∀ g ∈ gs, Named g) (s : St)
    (h : query prog f gs = some (true, s)) (V : Nat → Nat → Val) (hV : Agrees V s.store) : ∀ g ∈ gs, Holds prog (inst (V 1) g) :=
  (refutes_sound prog hprog f gs 0 1 [] _ s hgs (by simp) h V hV).2.1

/-- all substitutions of the store are below n and not d -/
def Below (σ : Store) (n d : Nat) : Prop := ∀ e v t e2, (v, t, e2) ∈ σ e → e < n ∧ e2 < n ∧ e ≠ d ∧ e2 ≠ d

def Bound (σ : Store) (n : Nat) : Prop := ∀ e v t e2, (v, t, e2) ∈ σ e → e < n ∧ e2 < n

theorem fetch_bound (σ : Store) (n : Nat) (hb : Bound σ n) : ∀ (f : Nat) (x : Term) (e : Nat) (t : Term) (e2 : Nat), e < n → fetch σ f x e = some (t, e2) → e2 < n := by
  intro f
  induction f with
  | zero => intro x e t e2 _ h; exact absurd h (by simp [fetch])
  | succ f ih =>
    intro x e t e2 he h
    cases x with
    | var v =>
      rw [fetch] at h
      split at h
      · injection h with h; injection h with h1 h2; subst h2; exact he
      · rename_i t1 e1 ha
        exact ih t1 e1 t e2 (hb e v t1 e1 (assigned_mem ha)).2 h
    | atom a => rw [fetch] at h; injection h with h; injection h with h1 h2; subst h2; exact he; simp
    | cons a b => rw [fetch] at h; injection h with h; injection h with h1 h2; subst h2; exact he; simp

theorem unify_bound (n : Nat) : ∀ (f : Nat) (σ : Store) (tr : List Nat) (x : Term) (ex : Nat) (y : Term) (ey : Nat) (r : Bool) (σ' : Store) (tr' : List Nat),
    Bound σ n → ex < n → ey < n → unify f σ tr x ex y ey = some (r, σ', tr') → Bound σ' n := by
  intro f
  induction f with
  | zero => intro σ tr x ex y ey r σ' tr' _ _ _ h; exact absurd h (by simp [unify])
  | succ f ih =>
    intro σ tr x ex y ey r σ' tr' hb hx hy h
    cases x with
    | var v =>
      simp only [unify] at h
      split at h
      · split at h
        · exact absurd h (by simp)
        · rename_i t e hf
          exact ih _ _ _ _ _ _ _ _ _ hb (fetch_bound σ n hb _ _ _ _ _ hx hf) hy h
      · split at h
        · exact absurd h (by simp)
        · rename_i t e hf
          have he := fetch_bound σ n hb _ _ _ _ _ hy hf
          injection h with h
          have hl : link σ tr v ex t e = (σ', tr') := congrArg Prod.snd h
          have hs : σ' = (link σ tr v ex t e).1 := by rw [hl]
          rw [hs]
          intro d w u d2 hm
          simp only [link] at hm
          split at hm
          · rename_i hd
            rcases List.mem_cons.1 hm with hh | hh
            · injection hh with a b; injection b with b c; subst c; rw [hd]; exact ⟨hx, he⟩
            · rw [hd]; exact hb ex w u d2 hh
          · exact hb d w u d2 hm
    | atom a =>
      simp only [unify] at h
      cases y with
      | var w => exact ih _ _ _ _ _ _ _ _ _ hb hy hx h
      | atom b => simp only [Option.some.injEq, Prod.mk.injEq] at h; rw [← h.2.1]; exact hb
      | cons c d => simp only [Option.some.injEq, Prod.mk.injEq] at h; rw [← h.2.1]; exact hb
    | cons a b =>
      simp only [unify] at h
      cases y with
      | var w => exact ih _ _ _ _ _ _ _ _ _ hb hy hx h
      | atom c => simp only [Option.some.injEq, Prod.mk.injEq] at h; rw [← h.2.1]; exact hb
      | cons c d =>
        simp only at h
        split at h
        · exact absurd h (by simp)
        · rename_i r1 hu
          obtain ⟨σ1, tr1⟩ := r1
          simp only [Option.some.injEq, Prod.mk.injEq] at h
          rw [← h.2.1]
          exact ih _ _ _ _ _ _ _ _ _ hb hx hy hu
        · rename_i σ1 tr1 hu
          exact ih _ _ _ _ _ _ _ _ _ (ih _ _ _ _ _ _ _ _ _ hb hx hy hu) hx hy h

/-- V with the values W for substitution d -/
def upd (V : Nat → Nat → Val) (d : Nat) (W : Nat → Val) : Nat → Nat → Val := fun e => if e = d then W else V e

theorem refutes_complete (prog : List Clause) (hprog : Proper prog) : ∀ (f : Nat) (gs : List Term) (new old : Nat) (cue : List (List Term × Nat)) (s s' : St),
    (∀ g ∈ gs, Named g) → (∀ q ∈ cue, ∀ g ∈ q.1, Named g) → Below s.store s.next new → new < s.next → old < s.next → old ≠ new →
    (∀ q ∈ cue, q.2 < s.next ∧ q.2 ≠ new) → refutes prog f gs new old cue s = some (false, s') →
    ∀ V, Agrees V s.store → (∀ g ∈ gs, Holds prog (inst (V old) g)) → CueHolds prog V cue → False := by
  intro f
  induction f with
  | zero => intro gs new old cue s s' _ _ _ _ _ _ _ h; exact absurd h (by simp [refutes])
  | succ f ih =>
    intro gs new old cue s s' hgs hcue hb hn ho hon hq h V hV hg hc
    cases gs with
    | nil =>
      cases cue with
      | nil => simp [refutes] at h
      | cons q cue1 =>
        obtain ⟨ql, qe⟩ := q
        simp only [refutes] at h
        have hqe := hq (ql, qe) List.mem_cons_self
        simp only at hqe
        refine ih ql s.next qe cue1 { s with next := s.next + 1 } s' (hcue (ql, qe) List.mem_cons_self) (fun q hq => hcue q (List.mem_cons_of_mem _ hq)) ?_ ?_ ?_ ?_ ?_ h V hV
          (hc (ql, qe) List.mem_cons_self) (fun q hq => hc q (List.mem_cons_of_mem _ hq))
        · intro e v t e2 hm
          have := hb e v t e2 hm
          simp only
          omega
        · simp only; omega
        · simp only; omega
        · omega
        · intro q hq'
          have := hq q (List.mem_cons_of_mem _ hq')
          simp only
          omega
    | cons g gs =>
      rw [refutes] at h
      rw [clauseOf_named _ _ _ _ _ (hgs g List.mem_cons_self)] at h
      simp only at h
      have hfalse := alts_false _ (fun s1 => s1.store = s.store ∧ s.next ≤ s1.next) (by
        intro c s1 s2 hP hc
        split at hc
        · exact absurd hc (by simp)
        · rename_i σ tr hu
          simp only [Option.some.injEq, Prod.mk.injEq, true_and] at hc
          subst hc
          exact ⟨by simp only; rw [C215_undo _ _ _ _ _ _ _ _ _ hu]; exact hP.1, hP.2⟩
        · rename_i σ tr hu
          split at hc
          · exact absurd hc (by simp)
          · exact absurd hc (by simp)
          · rename_i s3 hr
            simp only [Option.some.injEq, Prod.mk.injEq, true_and] at hc
            subst hc
            obtain ⟨a, b⟩ := refutes_false prog _ _ _ _ _ _ _ hr
            simp only at a b ⊢
            rw [a, C215_undo _ _ _ _ _ _ _ _ _ hu]
            exact ⟨hP.1, by omega⟩) _ _ _ ⟨rfl, Nat.le_refl _⟩ h
      have hall := hfalse.2
      -- the clause by which the first goal holds
      obtain ⟨c, W, hcp, hbody, hhead⟩ : ∃ c W, c ∈ prog ∧ (∀ b ∈ c.body, Holds prog (inst W b)) ∧ inst W c.head = inst (V old) g := by
        have := hg g List.mem_cons_self
        generalize hv : inst (V old) g = v at this
        cases this with
        | intro c W h1 h2 => exact ⟨c, W, h1, h2, rfl⟩
      have hcd : c ∈ defs prog g := by
        obtain ⟨⟨p, a, hh⟩, _⟩ := hprog c hcp
        have hp : functor c.head = some p := by rw [hh]; rfl
        have hfg : functor g = some p := by
          obtain ⟨q, b, hq⟩ := hgs g List.mem_cons_self
          rw [hh, hq] at hhead
          simp only [inst, Val.node.injEq, Val.atom.injEq] at hhead
          rw [hq, hhead.1]; rfl
        unfold defs
        rw [hfg]
        simp only [List.mem_filter]
        exact ⟨hcp, by simp [hp]⟩
      obtain ⟨s1, s2, hP, hk⟩ := hall c hcd
      have hV' : Agrees (upd V new W) s.store := by
        intro e v t e2 hm
        have := hb e v t e2 hm
        unfold upd
        rw [if_neg this.2.2.1, if_neg this.2.2.2]
        exact hV e v t e2 hm
      have hun : inst (upd V new W old) g = inst (upd V new W new) c.head := by
        unfold upd
        rw [if_neg hon, if_pos rfl]
        exact hhead.symm
      rw [← hP.1] at hV'
      split at hk
      · exact absurd hk (by simp)
      · rename_i σ tr hu
        exact C215_no_unifier _ _ _ _ _ _ _ _ _ hu _ hV' hun
      · rename_i σ tr hu
        split at hk
        · exact absurd hk (by simp)
        · exact absurd hk (by simp)
        · rename_i s3 hr
          have hbd : Bound s1.store s1.next := by
            intro e v t e2 hm
            rw [hP.1] at hm
            have := hb e v t e2 hm
            omega
          have hb1 := unify_bound s1.next _ _ _ _ _ _ _ _ _ _ hbd (by omega) (by omega) hu
          refine ih c.body s1.next new ((gs, old) :: cue) { store := σ, next := s1.next + 1 } s3 (hprog c hcp).2 ?_ ?_ ?_ ?_ ?_ ?_ hr (upd V new W)
            ((C215_unifier _ _ _ _ _ _ _ _ _ hu _).2 ⟨hV', hun⟩) ?_ ?_
          · intro q hq'
            rcases List.mem_cons.1 hq' with e | e
            · subst e; exact fun x hx => hgs x (List.mem_cons_of_mem _ hx)
            · exact hcue q e
          · intro e v t e2 hm
            have := hb1 e v t e2 hm
            simp only
            omega
          · simp only; omega
          · simp only; omega
          · omega
          · intro q hq'
            rcases List.mem_cons.1 hq' with e | e
            · subst e; simp only; omega
            · have := hq q e
              simp only
              omega
          · intro b hbm
            unfold upd
            rw [if_pos rfl]
            exact hbody b hbm
          · intro q hq' x hx
            rcases List.mem_cons.1 hq' with e | e
            · subst e
              unfold upd
              rw [if_neg hon]
              exact hg x (List.mem_cons_of_mem _ hx)
            · unfold upd
              rw [if_neg (hq q e).2]
              exact hc q e x hx

/-- C215.  If a query fails, there are no values of its variables for which all its goals follow from the program. -/
theorem C215_fails_partial (prog : List Clause) (hprog : Proper prog) (f : Nat) (gs : List Term) (hgs : ∀ g ∈ gs, Named g) (s : St)
    (h : query prog f gs = some (false, s)) (W : Nat → Val) : ¬ ∀ g ∈ gs, Holds prog (inst W g) := by
  intro hg
  exact refutes_complete prog hprog f gs 0 1 [] { store := fun _ => [], next := 2 } s hgs (by simp) (by intro e v t e2 hm; simp at hm) (by simp) (by simp) (by simp) (by simp) h
    (fun _ => W) (by intro e v t e2 hm; simp at hm) hg (by simp [CueHolds])

/-- C215 fails for goals that are variables: the goals after it are forgotten; what they are makes no difference. -/
theorem C215_variable_wrong (prog : List Clause) (f : Nat) (v : Nat) (gs : List Term) (new old : Nat) (cue : List (List Term × Nat)) (s : St) :
    refutes prog f (.var v :: gs) new old cue s = refutes prog f [.var v] new old cue s := by
  cases f with
  | zero => rfl
  | succ f =>
    rw [refutes, refutes]
    rfl

/-- `+(eq *0 *0).` -/
def eqProg : List Clause := [⟨.cons (.atom 7) (.cons (.var 0) (.cons (.var 0) (.atom 0))), []⟩]

/-- C215 fails: `-(eq *5 *5).` is proved, but then *5 has no value: looking it up never ends, because a variable is bound to itself. -/
theorem C215_loop_wrong : ∃ s, query eqProg 10 [.cons (.atom 7) (.cons (.var 5) (.cons (.var 5) (.atom 0)))] = some (true, s) ∧ ∀ f, fetch s.store f (.var 5) 1 = none := by
  have h0 : ∀ (f : Nat) (σ : Store), assigned σ 0 0 = some (.var 0, 0) → fetch σ f (.var 0) 0 = none := by
    intro f
    induction f with
    | zero => intro σ _; rfl
    | succ f ih => intro σ h; rw [fetch, h]; exact ih σ h
  have hq : ((query eqProg 10 [.cons (.atom 7) (.cons (.var 5) (.cons (.var 5) (.atom 0)))]).map
      fun r => (r.1, assigned r.2.store 0 0, assigned r.2.store 5 1)) = some (true, some (.var 0, 0), some (.var 0, 0)) := by decide
  cases h : query eqProg 10 [.cons (.atom 7) (.cons (.var 5) (.cons (.var 5) (.atom 0)))] with
  | none => rw [h] at hq; simp at hq
  | some r =>
    obtain ⟨b, s⟩ := r
    rw [h] at hq
    simp only [Option.map_some, Option.some.injEq, Prod.mk.injEq] at hq
    obtain ⟨h1, h2, h3⟩ := hq
    subst h1
    refine ⟨s, rfl, ?_⟩
    intro f
    cases f with
    | zero => rfl
    | succ f => rw [fetch, h3]; exact h0 f s.store h2

def vsize : Val → Nat
  | .atom _ => 0
  | .node a b => vsize a + vsize b + 1

/-- C215 fails: a variable can be bound to a term it occurs in: `-(eq *5 (3 *5)).` is proved, although this holds for no value of *5. -/
theorem C215_occurs_wrong :
    (∃ s, query eqProg 10 [.cons (.atom 7) (.cons (.var 5) (.cons (.cons (.atom 3) (.var 5)) (.atom 0)))] = some (true, s)) ∧
    ∀ W, ¬ Holds eqProg (inst W (.cons (.atom 7) (.cons (.var 5) (.cons (.cons (.atom 3) (.var 5)) (.atom 0))))) := by
  constructor
  · have hq : ((query eqProg 10 [.cons (.atom 7) (.cons (.var 5) (.cons (.cons (.atom 3) (.var 5)) (.atom 0)))]).map (·.1)) = some true := by decide
    rw [Option.map_eq_some_iff] at hq
    obtain ⟨⟨b, s⟩, h1, h2⟩ := hq
    simp only at h2
    subst h2
    exact ⟨s, h1⟩
  · intro W h
    generalize hv : inst W (.cons (.atom 7) (.cons (.var 5) (.cons (.cons (.atom 3) (.var 5)) (.atom 0)))) = v at h
    cases h with
    | intro c W' hc _ =>
      simp only [eqProg, List.mem_cons, List.not_mem_nil, or_false] at hc
      subst hc
      simp only [inst, Val.node.injEq, true_and, and_true] at hv
      obtain ⟨h1, h2⟩ := hv
      have := congrArg vsize (h1.trans h2.symm)
      simp only [vsize] at this
      omega

/-- `+(p a). +(p b). +(q *1 *2)-(p *1)-(p *2).` -/
def exProg : List Clause :=
  [⟨.cons (.atom 1) (.cons (.atom 10) (.atom 0)), []⟩, ⟨.cons (.atom 1) (.cons (.atom 11) (.atom 0)), []⟩,
   ⟨.cons (.atom 2) (.cons (.var 1) (.cons (.var 2) (.atom 0))), [.cons (.atom 1) (.cons (.var 1) (.atom 0)), .cons (.atom 1) (.cons (.var 2) (.atom 0))]⟩]

example : Proper exProg := by
  intro c hc
  simp only [exProg, List.mem_cons, List.not_mem_nil, or_false] at hc
  rcases hc with rfl | rfl | rfl
  · exact ⟨⟨_, _, rfl⟩, by simp⟩
  · exact ⟨⟨_, _, rfl⟩, by simp⟩
  · refine ⟨⟨_, _, rfl⟩, ?_⟩
    intro b hb
    simp only [List.mem_cons, List.not_mem_nil, or_false] at hb
    rcases hb with rfl | rfl <;> exact ⟨_, _, rfl⟩
example : ((query exProg 20 [.cons (.atom 2) (.cons (.var 0) (.cons (.atom 11) (.atom 0)))]).map (·.1)) = some true := by decide
example : ((query exProg 20 [.cons (.atom 2) (.cons (.var 0) (.cons (.atom 12) (.atom 0)))]).map (·.1)) = some false := by decide
example : ((unify 9 (fun _ => []) [] (.cons (.var 1) (.atom 3)) 1 (.cons (.atom 4) (.var 1)) 0).map (·.1)) = some true := by decide

end Eus.Plg
