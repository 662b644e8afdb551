import Verif.Rms.Props
set_option autoImplicit false
/- C221: labels after asserting and retracting in any order -/
namespace Eus.Rms
open Spec

/-- a label with a reason that does not go in circles -/
inductive Sup (lk : Links) (s : St) : Nat → Prop
  | mk (n : Nat) (b : Bool) (k : Nat) (hl : s.lab n = some b) (hk : k ∈ s.asserted) (hm : nonMis lk s k = [(b, n)])
      (h : ∀ l ∈ lk k, l ≠ (b, n) → Sup lk s l.2) : Sup lk s n

structure Inv (lk : Links) (s : St) : Prop where
  has : ∀ c ∈ s.asserted, ∀ l ∈ lk c, c ∈ s.byNode l.2
  only : ∀ n, ∀ c ∈ s.byNode n, c ∈ s.asserted ∧ n ∈ (lk c).map Prod.snd
  reas : ∀ n, s.lab n ≠ none → Sup lk s n

theorem nonMis_congr (lk : Links) (s t : St) (k : Nat) (h : ∀ l ∈ lk k, t.lab l.2 = s.lab l.2) : nonMis lk t k = nonMis lk s k := by
  unfold nonMis
  apply List.filter_congr
  intro l hl
  rw [h l hl]

/-- the other links contradict the labels, so their nodes have labels -/
theorem other_in (lk : Links) (s : St) (k : Nat) (x l : Bool × Nat) (hm : nonMis lk s k = [x]) (hl : l ∈ lk k) (hne : l ≠ x) : s.lab l.2 = some (!l.1) := by
  apply Classical.byContradiction
  intro h
  have := (mem_nonMis lk s k l).2 ⟨hl, h⟩
  rw [hm] at this
  exact hne (List.mem_singleton.1 this)

/-- reasons stay when labels and clauses are only added -/
theorem Sup.mono {lk : Links} {s t : St} (h1 : ∀ n, s.lab n ≠ none → t.lab n = s.lab n) (h2 : ∀ c ∈ s.asserted, c ∈ t.asserted) {n : Nat} (h : Sup lk s n) : Sup lk t n := by
  induction h with
  | mk n b k hl hk hm h ih =>
    refine Sup.mk n b k (by rw [h1 n (by rw [hl]; simp), hl]) (h2 k hk) ?_ ih
    rw [← hm]
    apply nonMis_congr
    intro l hlk
    by_cases e : l = (b, n)
    · subst e; exact h1 _ (by rw [hl]; simp)
    · exact h1 _ (by rw [other_in lk s k _ l hm hlk e]; simp)

theorem Sup.sound {lk : Links} {s : St} (v : Nat → Bool) (hv : World lk s.asserted v) {n : Nat} (h : Sup lk s n) : s.lab n = some (v n) := by
  induction h with
  | mk n b k hl hk hm h ih =>
    obtain ⟨l, h1, h2⟩ := hv k hk
    by_cases e : l = (b, n)
    · subst e; rw [hl]; simp only at h2; rw [h2]
    · have a := other_in lk s k _ l hm h1 e
      rw [ih l h1 e, h2] at a
      cases q : l.1 <;> rw [q] at a <;> cases a

/-- propagation keeps the invariant -/
theorem propagate_inv (lk : Links) : ∀ (f : Nat) (s : St) (c : Nat) (t : St), Inv lk s → c ∈ s.asserted → propagate lk f s c = some t →
    Inv lk t ∧ t.asserted = s.asserted := by
  intro f
  induction f with
  | zero => intro s c t _ _ h; cases h
  | succ f ih =>
    intro s c t hi hc h
    unfold propagate at h
    match hm : nonMis lk s c with
    | [] =>
      rw [hm] at h
      cases h
      have hlab : (contradict s c).lab = s.lab := by unfold contradict; split <;> rfl
      have hass : (contradict s c).asserted = s.asserted := by unfold contradict; split <;> rfl
      have hby : (contradict s c).byNode = s.byNode := by unfold contradict; split <;> rfl
      refine ⟨⟨by rw [hass, hby]; exact hi.has, by rw [hass, hby]; exact hi.only, fun n hn => ?_⟩, hass⟩
      rw [hlab] at hn
      exact (hi.reas n hn).mono (fun _ _ => by rw [hlab]) (by rw [hass]; exact fun _ q => q)
    | [l] =>
      rw [hm] at h
      by_cases hl : s.lab l.2 ≠ none
      · simp only [if_pos hl] at h
        cases h; exact ⟨hi, rfl⟩
      · simp only [if_neg hl] at h
        have hl0 : s.lab l.2 = none := Classical.not_not.1 hl
        obtain ⟨s1, hs1⟩ : ∃ s1, s1 = setLab s l.2 (some l.1) := ⟨_, rfl⟩
        rw [← hs1] at h
        have has1 : s1.asserted = s.asserted := by rw [hs1]; rfl
        have hby1 : s1.byNode = s.byNode := by rw [hs1]; rfl
        have lab1 : s1.lab l.2 = some l.1 := by rw [hs1, setLab_lab, if_pos rfl]
        have lab1' : ∀ m, m ≠ l.2 → s1.lab m = s.lab m := by
          intro m hm'; rw [hs1, setLab_lab, if_neg hm']
        have hmono : ∀ n, s.lab n ≠ none → s1.lab n = s.lab n := fun n hn => lab1' n (fun e => hn (by rw [e]; exact hl0))
        have hlm : l ∈ lk c := ((mem_nonMis lk s c l).1 (by rw [hm]; exact List.mem_singleton.2 rfl)).1
        have hi1 : Inv lk s1 := by
          refine ⟨by rw [has1, hby1]; exact hi.has, by rw [has1, hby1]; exact hi.only, fun n hn => ?_⟩
          by_cases e : n = l.2
          · subst e
            refine Sup.mk l.2 l.1 c lab1 (by rw [has1]; exact hc) ?_ ?_
            · show nonMis lk s1 c = [l]
              rw [← hm]
              unfold nonMis
              apply List.filter_congr
              intro x hx
              by_cases ex : x = l
              · subst ex; rw [lab1, hl0]; cases x.1 <;> simp
              · have := other_in lk s c l x hm hx ex
                rw [hmono x.2 (by rw [this]; simp)]
            · intro x hx ex
              have := other_in lk s c l x hm hx ex
              exact (hi.reas x.2 (by rw [this]; simp)).mono hmono (by rw [has1]; exact fun _ q => q)
          · rw [lab1' n e] at hn
            exact (hi.reas n hn).mono hmono (by rw [has1]; exact fun _ q => q)
        have hfold : ∀ (L : List Nat) (u t : St), Inv lk u → (∀ x ∈ L, x ∈ u.asserted) →
            L.foldlM (fun t c2 => if c2 = c then some t else propagate lk f t c2) u = some t → Inv lk t ∧ t.asserted = u.asserted := by
          intro L
          induction L with
          | nil => intro u t hu _ h; cases h; exact ⟨hu, rfl⟩
          | cons a L ihL =>
            intro u t hu hL h
            rw [List.foldlM_cons] at h
            by_cases ha : a = c
            · rw [if_pos ha] at h
              exact ihL u t hu (fun x hx => hL x (List.mem_cons_of_mem _ hx)) h
            · rw [if_neg ha] at h
              cases hp : propagate lk f u a with
              | none => rw [hp] at h; cases h
              | some w =>
                rw [hp] at h
                obtain ⟨q1, q2⟩ := ih u a w hu (hL a List.mem_cons_self) hp
                obtain ⟨r1, r2⟩ := ihL w t q1 (fun x hx => by rw [q2]; exact hL x (List.mem_cons_of_mem _ hx)) h
                exact ⟨r1, r2.trans q2⟩
        obtain ⟨r1, r2⟩ := hfold (s.byNode l.2) s1 t hi1 (fun x hx => by rw [has1]; exact (hi.only _ x hx).1) h
        exact ⟨r1, r2.trans has1⟩
    | a :: b :: r =>
      rw [hm] at h
      cases h; exact ⟨hi, rfl⟩

theorem assert_inv (lk : Links) (f : Nat) (s : St) (c : Nat) (t : St) (hi : Inv lk s) (h : assert lk f s c = some t) :
    Inv lk t ∧ t.asserted = c :: s.asserted := by
  have ha : Inv lk (attach lk s c) := by
    refine ⟨fun x hx l hl => ?_, fun n x hx => ?_, fun n hn => ?_⟩
    · show x ∈ (if c ∈ s.byNode l.2 then s.byNode l.2 else if l.2 ∈ (lk c).map Prod.snd then c :: s.byNode l.2 else s.byNode l.2)
      rcases List.mem_cons.1 hx with q | q
      · subst q
        split
        · assumption
        · rw [if_pos (List.mem_map.2 ⟨l, hl, rfl⟩)]; exact List.mem_cons_self
      · have := hi.has x q l hl
        split
        · exact this
        · split
          · exact List.mem_cons_of_mem _ this
          · exact this
    · have hx' : x ∈ (if c ∈ s.byNode n then s.byNode n else if n ∈ (lk c).map Prod.snd then c :: s.byNode n else s.byNode n) := hx
      show x ∈ c :: s.asserted ∧ _
      split at hx'
      · exact ⟨List.mem_cons_of_mem _ (hi.only n x hx').1, (hi.only n x hx').2⟩
      · split at hx'
        · rename_i hn
          rcases List.mem_cons.1 hx' with q | q
          · rw [q]; exact ⟨List.mem_cons_self, hn⟩
          · exact ⟨List.mem_cons_of_mem _ (hi.only n x q).1, (hi.only n x q).2⟩
        · exact ⟨List.mem_cons_of_mem _ (hi.only n x hx').1, (hi.only n x hx').2⟩
    · have hn' : s.lab n ≠ none := hn
      exact Sup.mono (s := s) (t := attach lk s c) (fun _ _ => rfl) (fun x hx => List.mem_cons_of_mem c hx) (hi.reas n hn')
  exact propagate_inv lk f _ c t ha List.mem_cons_self h

/-- what taking labels away leaves: a reason is either untouched or its node is out -/
structure Good (lk : Links) (u t : St) : Prop where
  node : t.byNode = u.byNode
  ass : t.asserted = u.asserted
  out : ∀ y, t.lab y = u.lab y ∨ t.lab y = none
  reas : ∀ k b m, (∀ l ∈ lk k, k ∈ u.byNode l.2) → nonMis lk u k = [(b, m)] → u.lab m = some b → t.lab m = none ∨ ∀ l ∈ lk k, t.lab l.2 = u.lab l.2

theorem Good.refl (lk : Links) (s : St) : Good lk s s := ⟨rfl, rfl, fun _ => .inl rfl, fun _ _ _ _ _ _ => .inr fun _ _ => rfl⟩

theorem Good.keepOut {lk : Links} {u t : St} (h : Good lk u t) {y : Nat} (hy : u.lab y = none) : t.lab y = none := by
  rcases h.out y with q | q
  · rw [q, hy]
  · exact q

theorem Good.trans {lk : Links} {u v t : St} (h : Good lk u v) (g : Good lk v t) : Good lk u t := by
  refine ⟨g.node.trans h.node, g.ass.trans h.ass, fun y => ?_, fun k b m h1 h2 h3 => ?_⟩
  · rcases h.out y with q | q
    · rcases g.out y with r | r
      · exact .inl (r.trans q)
      · exact .inr r
    · exact .inr (g.keepOut q)
  · rcases h.reas k b m h1 h2 h3 with q | q
    · exact .inl (g.keepOut q)
    · have hm : (b, m) ∈ lk k := ((mem_nonMis lk u k _).1 (by rw [h2]; exact List.mem_singleton.2 rfl)).1
      have e := nonMis_congr lk u v k q
      have hv : v.lab m = some b := by rw [q (b, m) hm, h3]
      rcases g.reas k b m (by rw [h.node]; exact h1) (e.trans h2) hv with r | r
      · exact .inl r
      · exact .inr fun l hl => (r l hl).trans (q l hl)

theorem goOut_good (lk : Links) (d : St → Nat → Res (St × List Nat))
    (hd : ∀ s n t r, d s n = .ok (t, r) → Good lk s t ∧ t.lab n = none) : ∀ (L : List (Option Nat)) (st st' : St × List Nat),
    goOut d L st = .ok st' → Good lk st.1 st'.1 ∧ ∀ m, some m ∈ L → st'.1.lab m = none := by
  intro L
  induction L with
  | nil => intro st st' h; unfold goOut at h; cases h; exact ⟨Good.refl lk _, fun _ h => absurd h List.not_mem_nil⟩
  | cons a L ih =>
    intro st st' h
    cases a with
    | none => unfold goOut at h; cases h
    | some m =>
      unfold goOut at h
      cases hm : d st.1 m with
      | error => rw [hm] at h; cases h
      | deep => rw [hm] at h; cases h
      | ok p =>
        obtain ⟨s1, r1⟩ := p
        rw [hm] at h
        obtain ⟨g1, o1⟩ := hd _ _ _ _ hm
        obtain ⟨g2, o2⟩ := ih _ _ h
        refine ⟨g1.trans g2, fun x hx => ?_⟩
        rcases List.mem_cons.1 hx with q | q
        · cases q; exact g2.keepOut o1
        · exact o2 x q

theorem delabel_good (lk : Links) : ∀ (f : Nat) (u : St) (n : Nat) (t : St) (r : List Nat), delabel lk f u n = .ok (t, r) →
    Good lk u t ∧ t.lab n = none := by
  intro f
  induction f with
  | zero => intro u n t r h; cases h
  | succ f ih =>
    intro u n t r h
    unfold delabel at h
    split at h
    · rename_i hn
      cases h; exact ⟨Good.refl lk u, hn⟩
    · cases hg : goOut (delabel lk f) (justificands lk u n) (setLab u n none, []) with
      | error => rw [hg] at h; cases h
      | deep => rw [hg] at h; cases h
      | ok p =>
        obtain ⟨s1, r1⟩ := p
        rw [hg] at h
        cases h
        obtain ⟨g, o⟩ := goOut_good lk (delabel lk f) ih _ _ _ hg
        simp only at g o
        have hout : t.lab n = none := g.keepOut (by rw [setLab_lab, if_pos rfl])
        refine ⟨⟨g.node, g.ass, fun y => ?_, fun k b m h1 h2 h3 => ?_⟩, hout⟩
        · by_cases e : y = n
          · right; rw [e]; exact hout
          · have := g.out y
            rwa [setLab_lab, if_neg e] at this
        · by_cases e : m = n
          · left; rw [e]; exact hout
          · by_cases hk : ∃ l ∈ lk k, l.2 = n
            · left
              apply o
              obtain ⟨l, hl, el⟩ := hk
              unfold justificands
              rw [List.mem_reverse, List.mem_filter]
              have ha : activeNode lk u k = some m := by unfold activeNode; rw [h2]
              refine ⟨List.mem_map.2 ⟨k, by rw [← el]; exact h1 l hl, ha⟩, ?_⟩
              simpa using e
            · have hsame : ∀ l ∈ lk k, (setLab u n none).lab l.2 = u.lab l.2 := by
                intro l hl
                rw [setLab_lab, if_neg (fun q => hk ⟨l, hl, q⟩)]
              rcases g.reas k b m h1 ((nonMis_congr lk u _ k hsame).trans h2) (by rw [setLab_lab, if_neg e]; exact h3) with q | q
              · exact .inl q
              · exact .inr fun l hl => (q l hl).trans (hsame l hl)

/-- taking a clause away, and then labels, keeps the invariant, if the node the clause was the reason for goes out -/
theorem retract_inv (lk : Links) (f : Nat) (s : St) (c : Nat) (t : St) (hi : Inv lk s) (h : retract lk f s c = .ok t) :
    Inv lk t ∧ t.asserted = s.asserted.filter (· ≠ c) := by
  have hdm : nonMis lk (detach lk s c) c = nonMis lk s c := rfl
  have key : Good lk (detach lk s c) t ∧ ∀ b m, nonMis lk s c = [(b, m)] → t.lab m = none := by
    unfold retract at h
    simp only [hdm] at h
    match hm : nonMis lk s c with
    | [] => rw [hm] at h; cases h; exact ⟨Good.refl lk _, fun _ _ q => by cases q⟩
    | [l] =>
      rw [hm] at h
      simp only at h
      cases hd : delabel lk f (detach lk s c) l.2 with
      | error => rw [hd] at h; cases h
      | deep => rw [hd] at h; cases h
      | ok p =>
        obtain ⟨s1, r1⟩ := p
        rw [hd] at h
        cases r1 with
        | cons a r1 => cases h
        | nil =>
          cases h
          obtain ⟨g, o⟩ := delabel_good lk f _ _ _ _ hd
          exact ⟨g, fun b m q => by cases q; exact o⟩
    | a :: b :: r => rw [hm] at h; cases h; exact ⟨Good.refl lk _, fun _ _ q => by cases q⟩
  obtain ⟨g, hc⟩ := key
  have hass : t.asserted = s.asserted.filter (· ≠ c) := g.ass
  have hbyd : ∀ n x, x ∈ (detach lk s c).byNode n ↔ x ∈ s.byNode n ∧ x ≠ c := by
    intro n x
    show x ∈ (if n ∈ (lk c).map Prod.snd then (s.byNode n).filter (· ≠ c) else s.byNode n) ↔ _
    split
    · rw [List.mem_filter]; simp
    · rename_i hn
      refine ⟨fun q => ⟨q, fun e => hn ?_⟩, fun q => q.1⟩
      rw [← e]; exact (hi.only n x q).2
  have hmem : ∀ x, x ∈ t.asserted ↔ x ∈ s.asserted ∧ x ≠ c := by
    intro x; rw [hass, List.mem_filter]; simp
  refine ⟨⟨fun x hx l hl => ?_, fun n x hx => ?_, fun n hn => ?_⟩, hass⟩
  · rw [g.node, hbyd]
    exact ⟨hi.has x ((hmem x).1 hx).1 l hl, ((hmem x).1 hx).2⟩
  · rw [g.node, hbyd] at hx
    exact ⟨(hmem x).2 ⟨(hi.only n x hx.1).1, hx.2⟩, (hi.only n x hx.1).2⟩
  · have hs : Sup lk s n := by
      apply hi.reas
      intro e
      exact hn (g.keepOut e)
    induction hs with
    | mk n b k hl hk hm h ih =>
      by_cases e : k = c
      · subst e; exact absurd (hc b n hm) hn
      · rcases g.reas k b n (fun l hlk => (hbyd _ _).2 ⟨hi.has k hk l hlk, e⟩) hm hl with q | q
        · exact absurd q hn
        · have hq : ∀ l ∈ lk k, t.lab l.2 = s.lab l.2 := q
          have hnk : (b, n) ∈ lk k := ((mem_nonMis lk s k _).1 (by rw [hm]; exact List.mem_singleton.2 rfl)).1
          refine Sup.mk n b k (by rw [hq (b, n) hnk, hl]) ((hmem k).2 ⟨hk, e⟩) ((nonMis_congr lk s t k hq).trans hm) ?_
          intro l hlk hne
          apply ih l hlk hne
          rw [hq l hlk, other_in lk s k _ l hm hlk hne]
          simp

theorem history_inv (lk : Links) (f : Nat) : ∀ (ops : List Op) (s t : St), Inv lk s → history lk f s ops = .ok t →
    Inv lk t ∧ t.asserted = remain s.asserted ops := by
  intro ops
  induction ops with
  | nil => intro s t hi h; unfold history at h; cases h; exact ⟨hi, rfl⟩
  | cons o ops ih =>
    intro s t hi h
    cases o with
    | assert c =>
      unfold history at h
      cases hp : assert lk f s c with
      | none => rw [hp] at h; cases h
      | some u =>
        rw [hp] at h
        obtain ⟨q1, q2⟩ := assert_inv lk f s c u hi hp
        obtain ⟨r1, r2⟩ := ih u t q1 h
        exact ⟨r1, by rw [r2, q2]; rfl⟩
    | retract c =>
      unfold history at h
      cases hp : retract lk f s c with
      | error => rw [hp] at h; cases h
      | deep => rw [hp] at h; cases h
      | ok u =>
        rw [hp] at h
        obtain ⟨q1, q2⟩ := retract_inv lk f s c u hi hp
        obtain ⟨r1, r2⟩ := ih u t q1 h
        exact ⟨r1, by rw [r2, q2]; rfl⟩

/-- C221: however clauses are asserted and retracted, as long as no retraction fails, a node has a label only if it has that value in every world that makes
true all clauses that have not been retracted: no label outlives its reasons. -/
theorem C221_history_partial (lk : Links) (f : Nat) (ops : List Op) (t : St) (h : history lk f fresh ops = .ok t) :
    ∀ n b, t.lab n = some b → ∀ v, World lk (remain [] ops) v → v n = b := by
  intro n b hb v hv
  have h0 : Inv lk fresh := ⟨fun _ h => absurd h List.not_mem_nil, fun _ _ h => absurd h List.not_mem_nil, fun _ h => absurd rfl h⟩
  obtain ⟨hi, ha⟩ := history_inv lk f ops fresh t h0 h
  have : World lk t.asserted v := by rw [ha]; exact hv
  have := (hi.reas n (by rw [hb]; simp)).sound v this
  rw [hb] at this
  exact (Option.some.inj this).symm

example : ∃ t, history demo 5 fresh [.assert 1, .assert 2, .assert 0, .assert 3, .retract 3] = .ok t ∧ t.lab 2 = some true := ⟨_, rfl, rfl⟩
example : ∃ t, history demo 5 fresh [.assert 0, .retract 0, .assert 1, .assert 2] = .ok t ∧ t.lab 0 = none := ⟨_, rfl, rfl⟩

/-- a clause with a node that is out and a labelled node, which therefore cannot go out without an error -/
structure Stuck (lk : Links) (k n m : Nat) (b : Bool) (u : St) : Prop where
  att : k ∈ u.byNode m
  link : ∃ a, (a, n) ∈ lk k
  ne : n ≠ m
  mem : (b, m) ∈ lk k
  out : u.lab n = none
  lab : u.lab m = some b

theorem two_none {lk : Links} {k n m : Nat} {b : Bool} {u : St} (h : Stuck lk k n m b u) : none ∈ justificands lk u m := by
  obtain ⟨a, ha⟩ := h.link
  have h1 : (a, n) ∈ nonMis lk u k := (mem_nonMis lk u k _).2 ⟨ha, by rw [h.out]; simp⟩
  have h2 : (b, m) ∈ nonMis lk u k := (mem_nonMis lk u k _).2 ⟨h.mem, by rw [h.lab]; cases b <;> simp⟩
  have hn : activeNode lk u k = none := by
    unfold activeNode
    split
    · rename_i l e
      rw [e] at h1 h2
      have := (List.mem_singleton.1 h1).trans (List.mem_singleton.1 h2).symm
      exact absurd (congrArg Prod.snd this) h.ne
    · rfl
  unfold justificands
  rw [List.mem_reverse, List.mem_filter]
  exact ⟨List.mem_map.2 ⟨k, h.att, hn⟩, by simp⟩

theorem goOut_none (d : St → Nat → Res (St × List Nat)) : ∀ (L : List (Option Nat)) (st st' : St × List Nat), none ∈ L → goOut d L st ≠ .ok st' := by
  intro L
  induction L with
  | nil => intro _ _ h; exact absurd h List.not_mem_nil
  | cons a L ih =>
    intro st st' h e
    cases a with
    | none => unfold goOut at e; cases e
    | some m =>
      unfold goOut at e
      cases hm : d st.1 m with
      | error => rw [hm] at e; cases e
      | deep => rw [hm] at e; cases e
      | ok p =>
        rw [hm] at e
        rcases List.mem_cons.1 h with q | q
        · cases q
        · exact ih _ _ q e

theorem goOut_stuck (lk : Links) (k n m : Nat) (b : Bool) (d : St → Nat → Res (St × List Nat))
    (hd : ∀ s x t r, Stuck lk k n m b s → d s x = .ok (t, r) → Stuck lk k n m b t) : ∀ (L : List (Option Nat)) (st st' : St × List Nat),
    Stuck lk k n m b st.1 → goOut d L st = .ok st' → Stuck lk k n m b st'.1 := by
  intro L
  induction L with
  | nil => intro st st' hs h; unfold goOut at h; cases h; exact hs
  | cons a L ih =>
    intro st st' hs h
    cases a with
    | none => unfold goOut at h; cases h
    | some x =>
      unfold goOut at h
      cases hm : d st.1 x with
      | error => rw [hm] at h; cases h
      | deep => rw [hm] at h; cases h
      | ok p =>
        obtain ⟨s1, r1⟩ := p
        rw [hm] at h
        exact ih _ _ (hd _ _ _ _ hs hm) h

theorem delabel_stuck (lk : Links) (k n m : Nat) (b : Bool) : ∀ (f : Nat) (u : St) (x : Nat) (t : St) (r : List Nat), Stuck lk k n m b u →
    delabel lk f u x = .ok (t, r) → Stuck lk k n m b t := by
  intro f
  induction f with
  | zero => intro u x t r _ h; cases h
  | succ f ih =>
    intro u x t r hs h
    unfold delabel at h
    split at h
    · cases h; exact hs
    · cases hg : goOut (delabel lk f) (justificands lk u x) (setLab u x none, []) with
      | error => rw [hg] at h; cases h
      | deep => rw [hg] at h; cases h
      | ok p =>
        obtain ⟨s1, r1⟩ := p
        by_cases e : x = m
        · subst e
          exact absurd hg (goOut_none _ _ _ _ (two_none hs))
        · rw [hg] at h
          cases h
          refine goOut_stuck lk k n m b (delabel lk f) ih _ _ _ ?_ hg
          refine ⟨hs.att, hs.link, hs.ne, hs.mem, ?_, ?_⟩
          · show (setLab u x none).lab n = none
            rw [setLab_lab]; split
            · rfl
            · exact hs.out
          · show (setLab u x none).lab m = some b
            rw [setLab_lab, if_neg (fun q => e q.symm)]; exact hs.lab

/-- C221: a clause that has given a node n its label cannot be retracted once a label of another node m follows from that of n: at every depth allowed the
retraction fails.  When m goes out, n is already out, and the clause between them has no active node any more. -/
theorem C221_follows_wrong (lk : Links) (f : Nat) (s : St) (c n k m : Nat) (a b : Bool) (hc : nonMis lk s c = [(a, n)]) (hn : s.lab n = some a)
    (hkc : k ≠ c) (hkn : k ∈ s.byNode n) (hkm : k ∈ s.byNode m) (hne : n ≠ m) (hl : ((!a), n) ∈ lk k) (hk : nonMis lk s k = [(b, m)]) (hm : s.lab m = some b) :
    ∀ t, retract lk f s c ≠ .ok t := by
  intro t h
  have hby : ∀ x, k ∈ s.byNode x → k ∈ (detach lk s c).byNode x := by
    intro x hx
    show k ∈ (if x ∈ (lk c).map Prod.snd then (s.byNode x).filter (· ≠ c) else s.byNode x)
    split
    · rw [List.mem_filter]; exact ⟨hx, by simpa using hkc⟩
    · exact hx
  unfold retract at h
  have hdm : nonMis lk (detach lk s c) c = [(a, n)] := hc
  simp only [hdm] at h
  cases hd : delabel lk f (detach lk s c) n with
  | error => rw [hd] at h; cases h
  | deep => rw [hd] at h; cases h
  | ok p =>
    obtain ⟨t1, r1⟩ := p
    cases f with
    | zero => cases hd
    | succ f =>
      unfold delabel at hd
      have hn' : (detach lk s c).lab n = some a := hn
      rw [if_neg (by rw [hn']; simp)] at hd
      cases hg : goOut (delabel lk f) (justificands lk (detach lk s c) n) (setLab (detach lk s c) n none, []) with
      | error => rw [hg] at hd; cases hd
      | deep => rw [hg] at hd; cases hd
      | ok q =>
        have hs : Stuck lk k n m b (setLab (detach lk s c) n none) := by
          refine ⟨hby m hkm, ⟨_, hl⟩, hne, ((mem_nonMis lk s k _).1 (by rw [hk]; exact List.mem_singleton.2 rfl)).1, ?_, ?_⟩
          · rw [setLab_lab, if_pos rfl]
          · rw [setLab_lab, if_neg (fun e => hne e.symm)]; exact hm
        have h1 := goOut_stuck lk k n m b (delabel lk f) (delabel_stuck lk k n m b f) _ _ _ hs hg
        have h2 := (goOut_good lk (delabel lk f) (delabel_good lk f) _ _ _ hg).2 m (by
          unfold justificands
          rw [List.mem_reverse, List.mem_filter]
          have ha : activeNode lk (detach lk s c) k = some m := by
            have : nonMis lk (detach lk s c) k = [(b, m)] := hk
            unfold activeNode; rw [this]
          exact ⟨List.mem_map.2 ⟨k, hby n hkn, ha⟩, by simpa using fun e => hne e.symm⟩)
        rw [h1.lab] at h2
        cases h2

example : ∃ s, assertAll demo 5 fresh [0, 1] = some s ∧ nonMis demo s 0 = [(true, 0)] ∧ s.lab 0 = some true ∧ 1 ∈ s.byNode 0 ∧ 1 ∈ s.byNode 1
    ∧ nonMis demo s 1 = [(true, 1)] ∧ s.lab 1 = some true := ⟨_, rfl, by decide⟩

end Eus.Rms
