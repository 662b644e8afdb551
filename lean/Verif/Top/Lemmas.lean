import Verif.Top.Spec
set_option autoImplicit false
namespace Eus.Top
open Spec

/-! ### the dynamic environment of the specification -/

def names (s : SS) : List Nat := s.dyn.map Prod.fst

/-- What a computation leaves alone: the variables bound, and the values under an inner binding. -/
def Keep (s t : SS) : Prop :=
  names t = names s ∧
  ∀ k x, x ∈ (names s).take k → look t.glob x (t.dyn.drop k) = look s.glob x (s.dyn.drop k)

theorem Keep.refl (s : SS) : Keep s s := ⟨rfl, fun _ _ _ => rfl⟩
theorem Keep.trans {a b c : SS} (h : Keep a b) (g : Keep b c) : Keep a c :=
  ⟨g.1.trans h.1, fun k x hx => (g.2 k x (by rw [h.1]; exact hx)).trans (h.2 k x hx)⟩
theorem Keep.of {s t : SS} (hd : t.dyn = s.dyn) (hg : t.glob = s.glob) : Keep s t :=
  ⟨by simp [names, hd], fun k x _ => by rw [hd, hg]⟩

theorem assign_names (g : Nat → Nat) (x v : Nat) : ∀ d,
    (assign g x v d).2.map Prod.fst = d.map Prod.fst
  | [] => rfl
  | (y, w) :: d => by
    unfold assign
    by_cases h : x = y
    · simp [h]
    · simp [h, assign_names g x v d]

theorem look_other (g : Nat → Nat) (x v z : Nat) (hz : z ≠ x) : ∀ d,
    look (assign g x v d).1 z (assign g x v d).2 = look g z d
  | [] => by simp [assign, look, hz]
  | (y, w) :: d => by
    unfold assign
    by_cases h : x = y
    · subst h; simp [look, hz]
    · simp [h, look, look_other g x v z hz d]

theorem look_same (g : Nat → Nat) (x v : Nat) : ∀ d,
    look (assign g x v d).1 x (assign g x v d).2 = v
  | [] => by simp [assign, look]
  | (y, w) :: d => by
    unfold assign
    by_cases h : x = y
    · simp [h, look]
    · simp [h, look, look_same g x v d]

/-- Assigning to a variable bound among the first `k` bindings changes nothing below them. -/
theorem assign_keep (g : Nat → Nat) (x v : Nat) : ∀ (d : List (Nat × Nat)) (k z : Nat),
    z ∈ (d.map Prod.fst).take k →
    look (assign g x v d).1 z ((assign g x v d).2.drop k) = look g z (d.drop k)
  | [], k, z, h => by simp at h
  | (y, w) :: d, 0, z, h => by simp at h
  | (y, w) :: d, k + 1, z, h => by
    unfold assign
    by_cases e : x = y
    · simp [e]
    · simp only [e, if_false, List.drop_succ_cons]
      by_cases hz : z = x
      · subst hz
        have h' : z ∈ (d.map Prod.fst).take k := by
          simp only [List.map_cons, List.take_succ_cons, List.mem_cons] at h
          rcases h with h | h
          · exact absurd h e
          · exact h
        exact assign_keep g z v d k z h'
      · clear h
        have : ∀ (d : List (Nat × Nat)) (k : Nat),
            look (assign g x v d).1 z ((assign g x v d).2.drop k) = look g z (d.drop k) := by
          intro d
          induction d with
          | nil => intro k; simp [assign, look, hz]
          | cons p d ih =>
            obtain ⟨y, w⟩ := p
            intro k
            cases k with
            | zero => exact look_other g x v z hz _
            | succ k =>
              unfold assign
              by_cases h : x = y
              · simp [h]
              · simp only [h, if_false, List.drop_succ_cons]; exact ih k
        exact this d k

theorem leaveE_snd (ks : List Kind) (q : End × SS) : (leaveE ks q).2 = q.2 := by
  obtain ⟨e, s⟩ := q; cases e <;> rfl
theorem leaveB_snd (ks : List Kind) (q : End × SS) : (leaveB ks q).2 = q.2 := by
  obtain ⟨e, s⟩ := q
  cases e <;> try rfl
  simp only [leaveB]; split <;> rfl

theorem sem_keep (loop : List Kind → List (Nat × Nat) → SS → End × SS) (ks : List Kind)
    (hl : ∀ ks env s, Keep s (loop ks env s).2) : ∀ (c : Cmp) (env : List (Nat × Nat)) (s : SS),
    Keep s (sem loop ks env c s).2 := by
  intro c
  induction c with
  | ret v => intro env s; exact Keep.refl s
  | get x => intro env s; exact Keep.refl s
  | set x v =>
    intro env s
    exact ⟨by simp [sem, names, assign_names], fun k z hz => assign_keep _ _ _ _ _ _ hz⟩
  | seq a b iha ihb =>
    intro env s
    have ha := iha env s
    simp only [sem]
    cases e : sem loop ks env a s with
    | mk o t =>
      rw [e] at ha
      cases o with
      | done v => exact ha.trans (ihb env t)
      | give j => exact ha
      | quit => exact ha
      | eof => exact ha
  | bind x v c ih =>
    intro env s
    have h := ih env { s with dyn := (x, v) :: s.dyn }
    simp only [sem]
    refine ⟨?_, fun k z hz => ?_⟩
    · have := h.1
      simp only [names] at this ⊢
      rw [List.map_tail, this]; rfl
    · have := h.2 (k + 1) z (by simp only [names, List.map_cons, List.take_succ_cons]; exact List.mem_cons_of_mem _ hz)
      simp only [List.drop_succ_cons] at this
      rw [← this]
      simp [List.drop_tail]
  | llet x v c ih => intro env s; exact ih _ s
  | err => intro env s; simp only [sem, leaveE_snd]; exact hl _ env s
  | intr => intro env s; simp only [sem, leaveB_snd]; exact hl _ env s
  | reset m =>
    intro env s
    simp only [sem]
    split
    · exact Keep.refl s
    · rw [leaveE_snd]; exact hl _ env s
  | exit => intro env s; exact Keep.refl s

theorem rep_keep : ∀ (f : Nat) (ks : List Kind) (env : List (Nat × Nat)) (s : SS),
    Keep s (rep f ks env s).2
  | 0, _, _, s => Keep.refl s
  | f + 1, ks, env, s => by
    unfold rep
    dsimp only
    split
    · exact Keep.of rfl rfl
    · exact Keep.of rfl rfl
    · exact Keep.trans (Keep.of rfl rfl) (rep_keep f _ _ _)
    · exact Keep.trans (Keep.of rfl rfl) (rep_keep f _ _ _)
    · rename_i id c r _
      have h := sem_keep (rep f) ks (rep_keep f) c env
        { s with out := s.out ++ [.prompt (kind ks) ks.length], inp := r }
      cases e : sem (rep f) ks env c { s with out := s.out ++ [.prompt (kind ks) ks.length], inp := r } with
      | mk o t =>
        rw [e] at h
        have h' : Keep s t := Keep.trans (Keep.of rfl rfl) h
        cases o with
        | done v => exact (h'.trans (Keep.of rfl rfl)).trans (rep_keep f _ _ _)
        | give j => exact h'
        | quit => exact h'
        | eof => exact h'

/-! ### the model does what the specification says -/

structure Rel (s : St) (t : SS) : Prop where
  inp : s.inp = t.inp
  out : s.out = t.out
  sp : ∀ x, s.sp x = look t.glob x t.dyn

/-- A computation at a level with the kinds `ks` of levels open. -/
def RelC (ks : List Kind) (r : Out × St) (q : End × SS) : Prop :=
  Rel r.2 q.2 ∧
  match r.1, q.1 with
  | .done v, .done w => v = w
  | .thr m, .give j => m ≤ ks.length ∧ j = brks ks m
  | .exit, .quit => True
  | _, _ => False

/-- A read-eval-print loop. -/
def RelL (ks : List Kind) (r : Out × St) (q : End × SS) : Prop :=
  Rel r.2 q.2 ∧
  match r.1, q.1 with
  | .done _, .eof => True
  | .thr m, .give j => m ≤ ks.length ∧ j = brks ks m
  | .exit, .quit => True
  | _, _ => False

theorem brks_cons (k : Kind) (ks : List Kind) (m : Nat) (h : m ≤ ks.length) :
    brks (k :: ks) m = brks ks m := by
  unfold brks
  rw [List.reverse_cons, List.take_append_of_le_length (by simpa using h)]

theorem brks_full (k : Kind) (ks : List Kind) :
    brks (k :: ks) (ks.length + 1) = brks ks ks.length + if k = .B then 1 else 0 := by
  unfold brks
  rw [List.take_of_length_le (by simp), List.take_of_length_le (by simp), List.reverse_cons,
    List.filter_append, List.length_append]
  by_cases h : k = .B <;> simp [h]

theorem brks_le (ks : List Kind) (m : Nat) : brks ks m ≤ brks ks ks.length := by
  unfold brks
  refine List.Sublist.length_le (List.Sublist.filter _ ?_)
  rw [List.take_of_length_le (l := ks.reverse) (i := ks.length) (by simp)]
  exact List.take_sublist _ _

theorem err_rel (ks : List Kind) (r : Out × St) (q : End × SS) (h : RelL (.E :: ks) r q) :
    RelC ks (euserror ks.length r)
      (leaveE ks q) := by
  obtain ⟨o, s⟩ := r
  obtain ⟨e, t⟩ := q
  obtain ⟨hr, hm⟩ := h
  cases o <;> cases e <;> simp only [] at hm
  · exact ⟨hr, Nat.le_refl _, rfl⟩
  · rename_i m j
    obtain ⟨h1, h2⟩ := hm
    simp only [euserror, leaveE]
    by_cases hmn : m = ks.length + 1
    · subst hmn
      simp only [if_true]
      refine ⟨hr, Nat.le_refl _, ?_⟩
      rw [h2, brks_full]; simp
    · simp only [hmn, if_false]
      have : m ≤ ks.length := by simp at h1; omega
      exact ⟨hr, this, by rw [h2, brks_cons _ _ _ this]⟩
  · exact ⟨hr, trivial⟩

theorem intr_rel (ks : List Kind) (r : Out × St) (q : End × SS) (h : RelL (.B :: ks) r q) :
    RelC ks (sigint ks.length r)
      (leaveB ks q) := by
  obtain ⟨o, s⟩ := r
  obtain ⟨e, t⟩ := q
  obtain ⟨hr, hm⟩ := h
  cases o <;> cases e <;> simp only [] at hm
  · exact ⟨hr, rfl⟩
  · rename_i m j
    obtain ⟨h1, h2⟩ := hm
    simp only [sigint, leaveB]
    by_cases hmn : m = ks.length + 1
    · subst hmn
      have : j = brks ks ks.length + 1 := by rw [h2, brks_full]; simp
      simp only [if_true, this]
      exact ⟨hr, rfl⟩
    · simp only [hmn, if_false]
      have hm : m ≤ ks.length := by simp at h1; omega
      rw [brks_cons _ _ _ hm] at h2
      have : j ≠ brks ks ks.length + 1 := by have := brks_le ks m; omega
      simp only [this, if_false]
      exact ⟨hr, hm, h2⟩
  · exact ⟨hr, trivial⟩

theorem ev_rel (loop : Kind → Nat → List (Nat × Nat) → St → Out × St)
    (sloop : List Kind → List (Nat × Nat) → SS → End × SS) (ks : List Kind)
    (P : Line → Prop)
    (hk : ∀ ks env s, Keep s (sloop ks env s).2)
    (hP : ∀ ks env s, (∀ l ∈ s.inp, P l) → ∀ l ∈ (sloop ks env s).2.inp, P l)
    (hl : ∀ k ks env s t, Rel s t → (∀ l ∈ t.inp, P l) →
      RelL (k :: ks) (loop k (ks.length + 1) env s) (sloop (k :: ks) env t)) :
    ∀ (c : Cmp) (env : List (Nat × Nat)) (s : St) (t : SS), Rel s t → (∀ l ∈ t.inp, P l) →
      RelC ks (ev loop ks.length env c s) (sem sloop ks env c t) ∧
      ∀ l ∈ (sem sloop ks env c t).2.inp, P l := by
  intro c
  induction c with
  | ret v => intro env s t h hp; exact ⟨⟨h, rfl⟩, hp⟩
  | get x => intro env s t h hp; exact ⟨⟨h, h.sp x⟩, hp⟩
  | set x v =>
    intro env s t h hp
    refine ⟨⟨⟨h.inp, h.out, fun z => ?_⟩, rfl⟩, hp⟩
    simp only [ev, sem, upd]
    by_cases hz : z = x
    · subst hz; simp [look_same]
    · simp [hz, look_other _ _ _ _ hz, h.sp z]
  | seq a b iha ihb =>
    intro env s t h hp
    obtain ⟨ha, hpa⟩ := iha env s t h hp
    simp only [ev, sem]
    cases e1 : ev loop ks.length env a s with
    | mk o s1 =>
      cases e2 : sem sloop ks env a t with
      | mk q t1 =>
        rw [e1, e2] at ha; rw [e2] at hpa
        obtain ⟨hr, hm⟩ := ha
        cases o <;> cases q <;> simp only [] at hm
        · exact ihb env s1 t1 hr hpa
        · exact ⟨⟨hr, hm⟩, hpa⟩
        · exact ⟨⟨hr, trivial⟩, hpa⟩
  | bind x v c ih =>
    intro env s t h hp
    have h0 : Rel { s with sp := upd s.sp x v } { t with dyn := (x, v) :: t.dyn } := by
      refine ⟨h.inp, h.out, fun z => ?_⟩
      simp only [upd, look]
      by_cases hz : z = x <;> simp [hz, h.sp z]
    obtain ⟨hc, hpc⟩ := ih env _ _ h0 hp
    have hkeep := sem_keep sloop ks hk c env { t with dyn := (x, v) :: t.dyn }
    simp only [ev, sem]
    refine ⟨⟨⟨hc.1.inp, hc.1.out, fun z => ?_⟩, hc.2⟩, hpc⟩
    have hsp := hc.1.sp z
    generalize hq : sem sloop ks env c { t with dyn := (x, v) :: t.dyn } = q at *
    have hn := hkeep.1
    have hx := hkeep.2 1 x (by simp [names])
    simp only [names, List.map_cons] at hn
    cases hd : q.2.dyn with
    | nil => rw [hd] at hn; simp at hn
    | cons p d =>
      obtain ⟨y, w⟩ := p
      rw [hd] at hn hx hsp
      simp only [List.map_cons, List.cons.injEq] at hn
      obtain ⟨hy, _⟩ := hn
      simp only [List.drop_succ_cons, List.drop_zero] at hx
      simp only [upd, List.tail_cons]
      by_cases hz : z = x
      · subst hz; simp [hx, h.sp z]
      · simp only [hz, if_false, hsp]
        subst hy
        simp [look, hz]
  | llet x v c ih => intro env s t h hp; exact ih _ s t h hp
  | err =>
    intro env s t h hp
    exact ⟨err_rel ks _ _ (hl .E ks env s t h hp), by simp only [sem, leaveE_snd]; exact hP _ env t hp⟩
  | intr =>
    intro env s t h hp
    exact ⟨intr_rel ks _ _ (hl .B ks env s t h hp), by simp only [sem, leaveB_snd]; exact hP _ env t hp⟩
  | reset m =>
    intro env s t h hp
    simp only [ev, sem]
    by_cases hm : m ≤ ks.length
    · simp only [hm, if_true]
      exact ⟨⟨h, hm, rfl⟩, hp⟩
    · simp only [hm, if_false]
      exact ⟨err_rel ks _ _ (hl .E ks env s t h hp), by rw [leaveE_snd]; exact hP _ env t hp⟩
  | exit => intro env s t h hp; exact ⟨⟨h, trivial⟩, hp⟩

/-! ### inputs that stay in a class -/

theorem sem_inp (P : Line → Prop) (loop : List Kind → List (Nat × Nat) → SS → End × SS)
    (ks : List Kind)
    (hl : ∀ ks env s, (∀ l ∈ s.inp, P l) → ∀ l ∈ (loop ks env s).2.inp, P l) :
    ∀ (c : Cmp) (env : List (Nat × Nat)) (s : SS), (∀ l ∈ s.inp, P l) →
      ∀ l ∈ (sem loop ks env c s).2.inp, P l := by
  intro c
  induction c with
  | ret v => intro env s h; exact h
  | get x => intro env s h; exact h
  | set x v => intro env s h; exact h
  | seq a b iha ihb =>
    intro env s h
    have ha := iha env s h
    simp only [sem]
    cases e : sem loop ks env a s with
    | mk o t =>
      rw [e] at ha
      cases o with
      | done v => exact ihb env t ha
      | give j => exact ha
      | quit => exact ha
      | eof => exact ha
  | bind x v c ih => intro env s h; exact ih env { s with dyn := (x, v) :: s.dyn } h
  | llet x v c ih => intro env s h; exact ih _ s h
  | err => intro env s h; simp only [sem, leaveE_snd]; exact hl _ env s h
  | intr => intro env s h; simp only [sem, leaveB_snd]; exact hl _ env s h
  | reset m =>
    intro env s h
    simp only [sem]
    split
    · exact h
    · rw [leaveE_snd]; exact hl _ env s h
  | exit => intro env s h; exact h

theorem rep_inp (P : Line → Prop) : ∀ (f : Nat) (ks : List Kind) (env : List (Nat × Nat)) (s : SS),
    (∀ l ∈ s.inp, P l) → ∀ l ∈ (rep f ks env s).2.inp, P l
  | 0, _, _, s, h => h
  | f + 1, ks, env, s, h => by
    unfold rep
    dsimp only
    split
    · exact h
    · rename_i r hr; rw [hr] at h; exact fun l hl => h l (List.mem_cons_of_mem _ hl)
    · rename_i r hr; rw [hr] at h
      exact rep_inp P f _ _ _ (fun l hl => h l (List.mem_cons_of_mem _ hl))
    · rename_i id x r hr; rw [hr] at h
      exact rep_inp P f _ _ _ (fun l hl => h l (List.mem_cons_of_mem _ hl))
    · rename_i id c r hr
      rw [hr] at h
      have hs := sem_inp P (rep f) ks (rep_inp P f) c env
        { s with out := s.out ++ [.prompt (kind ks) ks.length], inp := r }
        (fun l hl => h l (List.mem_cons_of_mem _ hl))
      cases e : sem (rep f) ks env c { s with out := s.out ++ [.prompt (kind ks) ks.length], inp := r } with
      | mk o t =>
        rw [e] at hs
        cases o with
        | done v => exact rep_inp P f _ _ _ hs
        | give j => exact hs
        | quit => exact hs
        | eof => exact hs

theorem evalDynamic_eq (x : Nat) (g : Nat → Nat) : ∀ env, evalDynamic x g env = look g x env
  | [] => rfl
  | (y, v) :: env => by simp [evalDynamic, look, evalDynamic_eq x g env]

def notSym : Line → Prop
  | .sym _ _ => False
  | _ => True

theorem Rel.step {s : St} {t : SS} (h : Rel s t) (e : Ev) :
    Rel { s with out := s.out ++ [e] } { t with out := t.out ++ [e] } :=
  ⟨h.inp, by simp [h.out], h.sp⟩

theorem iter_rel (sel : Bool) : ∀ (f : Nat) (ks : List Kind) (env : List (Nat × Nat)) (s : St) (t : SS),
    Rel s t → (∀ l ∈ t.inp, sel = true → notSym l) →
    RelL ks (iter sel f (kind ks) ks.length env s) (rep f ks env t)
  | 0, ks, env, s, t, h, _ => ⟨h, trivial⟩
  | f + 1, ks, env, s, t, h, hp => by
    unfold iter rep
    dsimp only
    have h0 := h.step (.prompt (kind ks) ks.length)
    rw [h.inp]
    cases hi : t.inp with
    | nil => exact ⟨⟨rfl, h0.out, h0.sp⟩, trivial⟩
    | cons l r =>
      rw [hi] at hp
      have hpr : ∀ l ∈ r, sel = true → notSym l := fun l hl => hp l (List.mem_cons_of_mem _ hl)
      cases l with
      | eof => exact ⟨⟨rfl, h0.out, h0.sp⟩, trivial⟩
      | blank =>
        refine iter_rel sel f ks env _ _ ⟨rfl, ?_, h.sp⟩ hpr
        simp [finish, h.out]
      | sym id x =>
        have hs : sel = false := by
          cases sel with
          | false => rfl
          | true => exact absurd (hp _ (List.mem_cons_self ..) rfl) (fun h => h)
        subst hs
        refine iter_rel false f ks env _ _ ⟨rfl, ?_, h.sp⟩ hpr
        have hg : s.sp = fun x => look t.glob x t.dyn := funext h.sp
        cases ks with
        | nil => simp [finish, h.out, h.sp x]
        | cons k ks => simp [finish, h.out, evalDynamic_eq, hg]
      | form id c =>
        have h1 : Rel { s with out := s.out ++ [.prompt (kind ks) ks.length], inp := r, minus := id }
            { t with out := t.out ++ [.prompt (kind ks) ks.length], inp := r } := ⟨rfl, h0.out, h0.sp⟩
        obtain ⟨hc, hpc⟩ := ev_rel (fun k n env s => iter sel f k n env { s with cb := env }) (rep f) ks
          (fun l => sel = true → notSym l) (rep_keep f) (rep_inp _ f)
          (fun k ks env s t hst hp =>
            iter_rel sel f (k :: ks) env { s with cb := env } t ⟨hst.inp, hst.out, hst.sp⟩ hp)
          c env _ _ h1 hpr
        dsimp only
        generalize ev (fun k n env s => iter sel f k n env { s with cb := env }) ks.length env c
          { s with out := s.out ++ [.prompt (kind ks) ks.length], inp := r, minus := id } = a at hc ⊢
        generalize sem (rep f) ks env c { t with out := t.out ++ [.prompt (kind ks) ks.length], inp := r } = b at hc hpc ⊢
        obtain ⟨o, s1⟩ := a
        obtain ⟨q, t1⟩ := b
        obtain ⟨hr, hm⟩ := hc
        cases o <;> cases q <;> simp only [] at hm
        · rename_i v w
          subst hm
          refine iter_rel sel f ks env _ _ ⟨hr.inp, ?_, hr.sp⟩ hpc
          show s1.out ++ _ = t1.out ++ _
          rw [show s1.out = t1.out from hr.out]
        · exact ⟨hr, hm⟩
        · exact ⟨hr, trivial⟩

theorem eustop_rel (sel : Bool) : ∀ (f : Nat) (s : St) (t : SS), Rel s t →
    (∀ l ∈ t.inp, sel = true → notSym l) → Rel (eustop sel f s) (top f t)
  | 0, s, t, h, _ => h
  | f + 1, s, t, h, hp => by
    have hi := iter_rel sel (f + 1) [] [] { s with cb := [] } t ⟨h.inp, h.out, h.sp⟩ hp
    have hq := rep_inp (fun l => sel = true → notSym l) (f + 1) [] [] t hp
    unfold eustop top reploop
    change RelL [] (iter sel (f + 1) .T 0 [] { s with cb := [] }) _ at hi
    generalize iter sel (f + 1) .T 0 [] { s with cb := [] } = a at hi ⊢
    generalize rep (f + 1) [] [] t = b at hi hq ⊢
    obtain ⟨o, s1⟩ := a
    obtain ⟨q, t1⟩ := b
    obtain ⟨hr, hm⟩ := hi
    cases o <;> cases q <;> simp only [] at hm
    · exact hr
    · exact eustop_rel sel f _ _ hr hq
    · exact hr

end Eus.Top
