import Verif.Rms.Spec
set_option autoImplicit false
/- C221: reason maintenance -/
namespace Eus.Rms
open Spec

/-- how many of the first N nodes are out -/
def outs (N : Nat) (s : St) : Nat := (List.range N).countP (fun n => s.lab n = none)

/-- nothing to do for a clause -/
def Quiet (lk : Links) (s : St) (c : Nat) : Prop :=
  (nonMis lk s c = [] → c ∈ s.contra) ∧ ∀ l, nonMis lk s c = [l] → s.lab l.2 ≠ none

structure Wf (lk : Links) (N : Nat) (s : St) : Prop where
  has : ∀ c ∈ s.asserted, ∀ l ∈ lk c, c ∈ s.byNode l.2
  only : ∀ n, ∀ c ∈ s.byNode n, c ∈ s.asserted
  small : ∀ c ∈ s.asserted, ∀ l ∈ lk c, l.2 < N

def Sound (lk : Links) (s : St) : Prop :=
  ∀ v, World lk s.asserted v → (∀ n b, s.lab n = some b → v n = b) ∧ s.contra = []

/-- what propagation does to a state -/
structure Step (lk : Links) (s t : St) : Prop where
  mono : ∀ n, s.lab n ≠ none → t.lab n = s.lab n
  node : t.byNode = s.byNode
  ass : t.asserted = s.asserted
  con : ∀ c ∈ s.contra, c ∈ t.contra
  sound : Sound lk s → Sound lk t
  quiet : ∀ c ∈ s.asserted, Quiet lk s c → Quiet lk t c

theorem Step.refl (lk : Links) (s : St) : Step lk s s := ⟨fun _ _ => rfl, rfl, rfl, fun _ h => h, fun h => h, fun _ _ h => h⟩

theorem Step.trans {lk : Links} {a b c : St} (h : Step lk a b) (k : Step lk b c) : Step lk a c :=
  ⟨fun n hn => by rw [k.mono n (by rw [h.mono n hn]; exact hn), h.mono n hn], k.node.trans h.node, k.ass.trans h.ass,
   fun x hx => k.con x (h.con x hx), fun hs => k.sound (h.sound hs), fun x hx hq => k.quiet x (by rw [h.ass]; exact hx) (h.quiet x hx hq)⟩

theorem Step.wf {lk : Links} {N : Nat} {s t : St} (h : Step lk s t) (w : Wf lk N s) : Wf lk N t :=
  ⟨by rw [h.ass, h.node]; exact w.has, by rw [h.ass, h.node]; exact w.only, by rw [h.ass]; exact w.small⟩

theorem Step.outs {lk : Links} (N : Nat) {s t : St} (h : Step lk s t) : outs N t ≤ outs N s := by
  unfold Rms.outs
  apply List.countP_mono_left
  intro n _ hn
  have hn' : t.lab n = none := by simpa using hn
  by_cases q : s.lab n = none
  · simpa using q
  · rw [h.mono n q] at hn'; exact absurd hn' q

theorem mem_nonMis (lk : Links) (s : St) (c : Nat) (l : Bool × Nat) : l ∈ nonMis lk s c ↔ l ∈ lk c ∧ s.lab l.2 ≠ some (!l.1) := by
  unfold nonMis; rw [List.mem_filter]; simp

/-- under a sound state a world makes true only links that are not misaligned -/
theorem world_link (lk : Links) (s : St) (c : Nat) (hc : c ∈ s.asserted) (hs : Sound lk s) (v : Nat → Bool) (hv : World lk s.asserted v) :
    ∃ l ∈ nonMis lk s c, v l.2 = l.1 := by
  obtain ⟨l, hl, e⟩ := hv c hc
  refine ⟨l, (mem_nonMis lk s c l).2 ⟨hl, fun q => ?_⟩, e⟩
  have := (hs v hv).1 _ _ q
  rw [this] at e
  cases h : l.1 <;> rw [h] at e <;> cases e

theorem setLab_lab (s : St) (n m : Nat) (b : Option Bool) : (setLab s n b).lab m = if m = n then b else s.lab m := rfl

theorem outs_setLab (N : Nat) (s : St) (n : Nat) (b : Bool) (hn : n < N) (ho : s.lab n = none) : outs N (setLab s n (some b)) < outs N s := by
  unfold outs
  have key : ∀ L : List Nat, L.countP (fun m => (setLab s n (some b)).lab m = none) + (if n ∈ L then 1 else 0) ≤ L.countP (fun m => s.lab m = none) := by
    intro L
    induction L with
    | nil => simp
    | cons a L ih =>
      rw [List.countP_cons, List.countP_cons]
      by_cases ha : a = n
      · subst ha
        have e1 : ((setLab s a (some b)).lab a = none) = False := by simp [setLab]
        have e2 : (s.lab a = none) = True := by simp [ho]
        simp only [e1, e2, List.mem_cons, true_or, if_true, decide_false, decide_true]
        have : L.countP (fun m => (setLab s a (some b)).lab m = none) ≤ L.countP (fun m => s.lab m = none) := by
          split at ih <;> omega
        simp
        simpa using this
      · have e1 : (setLab s n (some b)).lab a = s.lab a := by rw [setLab_lab, if_neg ha]
        have e2 : (n ∈ a :: L) = (n ∈ L) := by
          simp only [List.mem_cons, eq_iff_iff]
          exact ⟨fun h => h.resolve_left (fun e => ha e.symm), Or.inr⟩
        simp only [e1, e2]
        omega
  have := key (List.range N)
  rw [if_pos (List.mem_range.2 hn)] at this
  omega

/-- the whole of propagation -/
theorem propagate_spec (lk : Links) (N : Nat) : ∀ (f : Nat) (s : St) (c : Nat), Wf lk N s → c ∈ s.asserted → outs N s < f →
    ∃ t, propagate lk f s c = some t ∧ Step lk s t ∧ Quiet lk t c := by
  intro f
  induction f with
  | zero => intro s c _ _ h; omega
  | succ f ih =>
    intro s c w hc ho
    unfold propagate
    match hm : nonMis lk s c with
    | [] =>
      refine ⟨_, rfl, ?_, ?_⟩
      · have hsame : ∀ x, nonMis lk (contradict s c) x = nonMis lk s x := by
          intro x; unfold contradict nonMis; split <;> rfl
        have hcon : ∀ x ∈ s.contra, x ∈ (contradict s c).contra := by
          intro x hx; unfold contradict; split
          · exact hx
          · exact List.mem_cons_of_mem _ hx
        have hlab : (contradict s c).lab = s.lab := by unfold contradict; split <;> rfl
        have hass : (contradict s c).asserted = s.asserted := by unfold contradict; split <;> rfl
        refine ⟨fun _ _ => by rw [hlab], by unfold contradict; split <;> rfl, hass, hcon, ?_, ?_⟩
        · intro hs v hv
          rw [hass] at hv
          obtain ⟨l, hl, _⟩ := world_link lk s c hc hs v hv
          rw [hm] at hl; cases hl
        · intro x _ hq
          refine ⟨fun h => hcon x (hq.1 (by rw [← hsame]; exact h)), fun l h => ?_⟩
          rw [hlab]; exact hq.2 l (by rw [← hsame]; exact h)
      · have hsame : nonMis lk (contradict s c) c = nonMis lk s c := by
          unfold contradict nonMis; split <;> rfl
        refine ⟨fun _ => ?_, fun l h => ?_⟩
        · unfold contradict; split
          · assumption
          · exact List.mem_cons_self
        · rw [hsame, hm] at h; cases h
    | [l] =>
      by_cases hl : s.lab l.2 ≠ none
      · show ∃ t, (if s.lab l.2 ≠ none then some s else _) = some t ∧ _
        rw [if_pos hl]
        refine ⟨s, rfl, Step.refl lk s, fun h => ?_, fun l' h => ?_⟩
        · rw [hm] at h; cases h
        · rw [hm] at h; cases h; exact hl
      · show ∃ t, (if s.lab l.2 ≠ none then some s else _) = some t ∧ _
        rw [if_neg hl]
        have hl0 : s.lab l.2 = none := Classical.not_not.1 hl
        have hlm : l ∈ lk c := ((mem_nonMis lk s c l).1 (by rw [hm]; exact List.mem_singleton.2 rfl)).1
        obtain ⟨s1, hs1⟩ : ∃ s1, s1 = setLab s l.2 (some l.1) := ⟨_, rfl⟩
        have w1 : Wf lk N s1 := by rw [hs1]; exact ⟨w.has, w.only, w.small⟩
        have o1 : outs N s1 < f := by
          have := outs_setLab N s l.2 l.1 (w.small c hc l hlm) hl0
          rw [hs1]; omega
        have lab1 : s1.lab l.2 = some l.1 := by rw [hs1, setLab_lab, if_pos rfl]
        have hfold : ∀ (L : List Nat) (t : St), Wf lk N t → outs N t < f → (∀ x ∈ L, x ∈ t.asserted) →
            ∃ u, L.foldlM (fun t c2 => if c2 = c then some t else propagate lk f t c2) t = some u ∧ Step lk t u ∧ ∀ x ∈ L, x ≠ c → Quiet lk u x := by
          intro L
          induction L with
          | nil => intro t _ _ _; exact ⟨t, rfl, Step.refl lk t, fun x hx => absurd hx List.not_mem_nil⟩
          | cons a L ihL =>
            intro t wt ot hL
            rw [List.foldlM_cons]
            by_cases ha : a = c
            · rw [if_pos ha]
              obtain ⟨u, e1, e2, e3⟩ := ihL t wt ot (fun x hx => hL x (List.mem_cons_of_mem _ hx))
              refine ⟨u, e1, e2, fun x hx hne => ?_⟩
              rcases List.mem_cons.1 hx with q | q
              · exact absurd (q.trans ha) hne
              · exact e3 x q hne
            · rw [if_neg ha]
              obtain ⟨t1, d1, d2, d3⟩ := ih t a wt (hL a List.mem_cons_self) ot
              have ot1 : outs N t1 < f := by have := d2.outs N; omega
              obtain ⟨u, e1, e2, e3⟩ := ihL t1 (d2.wf wt) ot1 (fun x hx => by rw [d2.ass]; exact hL x (List.mem_cons_of_mem _ hx))
              refine ⟨u, by rw [d1]; exact e1, d2.trans e2, fun x hx hne => ?_⟩
              rcases List.mem_cons.1 hx with q | q
              · rw [q]; exact e2.quiet a (by rw [d2.ass]; exact hL a List.mem_cons_self) d3
              · exact e3 x q hne
        have hby : s1.byNode = s.byNode := by rw [hs1]; rfl
        have has1 : s1.asserted = s.asserted := by rw [hs1]; rfl
        have hco1 : s1.contra = s.contra := by rw [hs1]; rfl
        obtain ⟨u, e1, e2, e3⟩ := hfold (s.byNode l.2) s1 w1 o1 (fun x hx => by rw [has1]; exact w.only l.2 x hx)
        have hqc : Quiet lk s1 c := by
          have hin : l ∈ nonMis lk s1 c := (mem_nonMis lk s1 c l).2 ⟨hlm, by rw [lab1]; cases l.1 <;> simp⟩
          refine ⟨fun h => ?_, fun l' h => ?_⟩
          · rw [h] at hin; cases hin
          · rw [h] at hin
            rw [← List.mem_singleton.1 hin, lab1]; simp
        have hquc : Quiet lk u c := e2.quiet c (by rw [has1]; exact hc) hqc
        refine ⟨u, by rw [← hs1]; exact e1, ?_, hquc⟩
        have lab1' : ∀ m, m ≠ l.2 → s1.lab m = s.lab m := by
          intro m hm'; rw [hs1, setLab_lab, if_neg hm']
        refine ⟨fun n hn => ?_, e2.node.trans hby, e2.ass.trans has1, fun x hx => e2.con x (by rw [hco1]; exact hx), fun hs => e2.sound ?_, fun x hx hq => ?_⟩
        · have hne : n ≠ l.2 := fun e => hn (by rw [e]; exact hl0)
          have q := lab1' n hne
          rw [e2.mono n (by rw [q]; exact hn), q]
        · intro v hv
          rw [has1] at hv
          obtain ⟨l', h1, h2⟩ := world_link lk s c hc hs v hv
          rw [hm] at h1
          have : l' = l := List.mem_singleton.1 h1
          subst this
          refine ⟨fun n b hb => ?_, by rw [hco1]; exact (hs v hv).2⟩
          by_cases hn : n = l'.2
          · rw [hn, lab1] at hb
            rw [hn, h2]; exact Option.some.inj hb
          · rw [lab1' n hn] at hb
            exact (hs v hv).1 n b hb
        · by_cases hxc : x = c
          · rw [hxc]; exact hquc
          · by_cases hment : ∃ l' ∈ lk x, l'.2 = l.2
            · obtain ⟨l', h1, h2⟩ := hment
              exact e3 x (by rw [← h2]; exact w.has x hx l' h1) hxc
            · have hsame : nonMis lk s1 x = nonMis lk s x := by
                unfold nonMis
                apply List.filter_congr
                intro l' hl'
                have : l'.2 ≠ l.2 := fun e => hment ⟨l', hl', e⟩
                rw [lab1' l'.2 this]
              apply e2.quiet x (by rw [has1]; exact hx)
              refine ⟨fun h => by rw [hco1]; exact hq.1 (by rw [← hsame]; exact h), fun l' h => ?_⟩
              rw [hsame] at h
              have hm' := ((mem_nonMis lk s x l').1 (by rw [h]; exact List.mem_singleton.2 rfl)).1
              rw [lab1' l'.2 (fun e => hment ⟨l', hm', e⟩)]
              exact hq.2 l' h
    | a :: b :: r =>
      refine ⟨s, rfl, Step.refl lk s, fun h => ?_, fun l' h => ?_⟩
      · rw [hm] at h; cases h
      · rw [hm] at h; cases h

theorem countP_le_range (N : Nat) (s : St) : outs N s ≤ N := by
  unfold outs
  have := List.countP_le_length (p := fun n => decide (s.lab n = none)) (l := List.range N)
  rw [List.length_range] at this
  exact this

theorem assert_spec (lk : Links) (N : Nat) (s : St) (c : Nat) (w : Wf lk N s) (hs : Sound lk s) (hq : ∀ x ∈ s.asserted, Quiet lk s x) (hc : ∀ l ∈ lk c, l.2 < N) :
    ∃ t, assert lk (N + 1) s c = some t ∧ t.asserted = c :: s.asserted ∧ Wf lk N t ∧ Sound lk t ∧ ∀ x ∈ t.asserted, Quiet lk t x := by
  have wa : Wf lk N (attach lk s c) := by
    refine ⟨fun x hx l hl => ?_, fun n x hx => ?_, fun x hx l hl => ?_⟩
    · show x ∈ (if c ∈ s.byNode l.2 then s.byNode l.2 else if l.2 ∈ (lk c).map Prod.snd then c :: s.byNode l.2 else s.byNode l.2)
      rcases List.mem_cons.1 hx with q | q
      · subst q
        split
        · assumption
        · rw [if_pos (List.mem_map.2 ⟨l, hl, rfl⟩)]; exact List.mem_cons_self
      · have := w.has x q l hl
        split
        · exact this
        · split
          · exact List.mem_cons_of_mem _ this
          · exact this
    · have hx' : x ∈ (if c ∈ s.byNode n then s.byNode n else if n ∈ (lk c).map Prod.snd then c :: s.byNode n else s.byNode n) := hx
      show x ∈ c :: s.asserted
      split at hx'
      · exact List.mem_cons_of_mem _ (w.only n x hx')
      · split at hx'
        · rcases List.mem_cons.1 hx' with q | q
          · rw [q]; exact List.mem_cons_self
          · exact List.mem_cons_of_mem _ (w.only n x q)
        · exact List.mem_cons_of_mem _ (w.only n x hx')
    · rcases List.mem_cons.1 hx with q | q
      · subst q; exact hc l hl
      · exact w.small x q l hl
  obtain ⟨t, e1, e2, e3⟩ := propagate_spec lk N (N + 1) (attach lk s c) c wa List.mem_cons_self (by have := countP_le_range N (attach lk s c); omega)
  refine ⟨t, e1, e2.ass, e2.wf wa, e2.sound (fun v hv => ?_), fun x hx => ?_⟩
  · exact hs v (fun y hy => hv y (List.mem_cons_of_mem _ hy))
  · rw [e2.ass] at hx
    rcases List.mem_cons.1 hx with q | q
    · rw [q]; exact e3
    · exact e2.quiet x hx (hq x q)

theorem assertAll_spec (lk : Links) (N : Nat) (cs : List Nat) : ∀ (s : St), Wf lk N s → Sound lk s → (∀ x ∈ s.asserted, Quiet lk s x) → (∀ c ∈ cs, ∀ l ∈ lk c, l.2 < N) →
    ∃ t, assertAll lk (N + 1) s cs = some t ∧ (∀ x, x ∈ t.asserted ↔ x ∈ cs ∨ x ∈ s.asserted) ∧ Sound lk t ∧ ∀ x ∈ t.asserted, Quiet lk t x := by
  induction cs with
  | nil => intro s _ hs hq _; exact ⟨s, rfl, fun x => by simp, hs, hq⟩
  | cons c cs ih =>
    intro s w hs hq hc
    obtain ⟨t, e1, e2, e3, e4, e5⟩ := assert_spec lk N s c w hs hq (hc c List.mem_cons_self)
    obtain ⟨u, d1, d2, d3, d4⟩ := ih t e3 e4 e5 (fun x hx => hc x (List.mem_cons_of_mem _ hx))
    refine ⟨u, ?_, fun x => ?_, d3, d4⟩
    · show (c :: cs).foldlM (assert lk (N + 1)) s = _
      rw [List.foldlM_cons, e1]; exact d1
    · rw [d2, e2]; simp only [List.mem_cons]
      constructor
      · rintro (h | h | h)
        · exact Or.inl (Or.inr h)
        · exact Or.inl (Or.inl h)
        · exact Or.inr h
      · rintro ((h | h) | h)
        · exact Or.inr (Or.inl h)
        · exact Or.inl h
        · exact Or.inr (Or.inr h)

theorem fresh_ok (lk : Links) (N : Nat) : Wf lk N fresh ∧ Sound lk fresh ∧ ∀ x ∈ fresh.asserted, Quiet lk fresh x :=
  ⟨⟨fun _ h => absurd h List.not_mem_nil, fun _ _ h => absurd h List.not_mem_nil, fun _ h => absurd h List.not_mem_nil⟩,
   fun _ _ => ⟨fun n b h => absurd h (by simp [fresh]), rfl⟩, fun _ h => absurd h List.not_mem_nil⟩

/-- C221: asserting clauses about N nodes always ends, with calls nested no deeper than N + 1; a node
gets a label only if it has that value in every world that makes all the clauses true; and a
contradiction is noted only if there is no such world. -/
theorem C221_sound (lk : Links) (N : Nat) (cs : List Nat) (hN : ∀ c ∈ cs, ∀ l ∈ lk c, l.2 < N) :
    ∃ t, assertAll lk (N + 1) fresh cs = some t
      ∧ (∀ n b, t.lab n = some b → ∀ v, World lk cs v → v n = b)
      ∧ (t.contra ≠ [] → ∀ v, ¬ World lk cs v) := by
  obtain ⟨w, hs, hq⟩ := fresh_ok lk N
  obtain ⟨t, e1, e2, e3, _⟩ := assertAll_spec lk N cs fresh w hs hq hN
  have hw : ∀ v, World lk cs v → World lk t.asserted v := by
    intro v hv c hc
    rcases (e2 c).1 hc with h | h
    · exact hv c h
    · exact absurd h List.not_mem_nil
  exact ⟨t, e1, fun n b hb v hv => (e3 v (hw v hv)).1 n b hb, fun hne v hv => hne (e3 v (hw v hv)).2⟩

/-- C221: nothing is left to do: a clause all whose links but one contradict the labels has given its
node the label of that link, or is noted as a contradiction; and so is every clause all whose links
contradict the labels. -/
theorem C221_closed (lk : Links) (N : Nat) (cs : List Nat) (hN : ∀ c ∈ cs, ∀ l ∈ lk c, l.2 < N) (t : St) (ht : assertAll lk (N + 1) fresh cs = some t) :
    ∀ c ∈ cs, ((∀ l ∈ lk c, False_ t.lab l) → c ∈ t.contra)
      ∧ ∀ pre l post, lk c = pre ++ l :: post → (∀ x ∈ pre ++ post, False_ t.lab x) → t.lab l.2 = some l.1 ∨ (False_ t.lab l ∧ c ∈ t.contra) := by
  obtain ⟨w, hs, hq⟩ := fresh_ok lk N
  obtain ⟨t', e1, e2, _, e4⟩ := assertAll_spec lk N cs fresh w hs hq hN
  rw [ht] at e1
  have : t' = t := (Option.some.inj e1).symm
  subst this
  intro c hc
  have q := e4 c ((e2 c).2 (Or.inl hc))
  have hall : (∀ l ∈ lk c, False_ t'.lab l) → c ∈ t'.contra := by
    intro h
    apply q.1
    unfold nonMis
    rw [List.filter_eq_nil_iff]
    intro l hl
    have : t'.lab l.2 = some (!l.1) := h l hl
    simp [this]
  refine ⟨hall, fun pre l post hsp hx => ?_⟩
  by_cases hf : False_ t'.lab l
  · right
    refine ⟨hf, hall (fun y hy => ?_)⟩
    rw [hsp] at hy
    rcases List.mem_append.1 hy with h | h
    · exact hx y (List.mem_append_left _ h)
    · rcases List.mem_cons.1 h with h | h
      · rw [h]; exact hf
      · exact hx y (List.mem_append_right _ h)
  · left
    have hnil : ∀ L : List (Bool × Nat), (∀ x ∈ L, False_ t'.lab x) → L.filter (fun l => t'.lab l.2 ≠ some (!l.1)) = [] := by
      intro L hL
      rw [List.filter_eq_nil_iff]
      intro x hxL
      have : t'.lab x.2 = some (!x.1) := hL x hxL
      simp [this]
    have hone : nonMis lk t' c = [l] := by
      unfold nonMis
      rw [hsp, List.filter_append, hnil pre (fun x h => hx x (List.mem_append_left _ h)), List.nil_append, List.filter_cons, if_pos (by have hf' : t'.lab l.2 ≠ some (!l.1) := hf; simpa using hf'), hnil post (fun x h => hx x (List.mem_append_right _ h))]
    have hne := q.2 l hone
    have hf' : t'.lab l.2 ≠ some (!l.1) := hf
    cases hv : t'.lab l.2 with
    | none => exact absurd hv hne
    | some b =>
      rw [hv] at hf'
      congr 1
      cases b <;> cases hl1 : l.1 <;> rw [hl1] at hf' <;> simp at hf' ⊢

/-- clauses: a; not a or b; not b or c -/
def demo : Links := fun c => ([[(true, 0)], [(false, 0), (true, 1)], [(false, 1), (true, 2)], [(false, 2), (false, 0)], [(true, 0), (true, 3)]] : List (List (Bool × Nat))).getD c []

example : (∀ c ∈ [1, 2, 0], ∀ l ∈ demo c, l.2 < 4) ∧ (assertAll demo 5 fresh [1, 2, 0]).map (fun t => (t.lab 0, t.lab 2, t.contra)) = some (some true, some true, [])
    ∧ (assertAll demo 5 fresh [1, 2, 0, 3]).map (fun t => t.contra) = some [3] := by decide +kernel

/-- C221: retracting the only clause of a node puts the node out, and changes no other label. -/
theorem C221_retract_partial (lk : Links) (f : Nat) (s : St) (c : Nat) (l : Bool × Nat) (h1 : lk c = [l]) (h2 : s.lab l.2 = some l.1) (h3 : ∀ x ∈ s.byNode l.2, x = c) :
    ∃ t, retract lk (f + 1) s c = .ok t ∧ t.lab l.2 = none ∧ (∀ n, n ≠ l.2 → t.lab n = s.lab n) ∧ ∀ n, c ∉ t.byNode l.2 ∧ (n ≠ l.2 → t.byNode n = s.byNode n) := by
  have hb : (detach lk s c).byNode l.2 = [] := by
    show (if l.2 ∈ (lk c).map Prod.snd then (s.byNode l.2).filter (· ≠ c) else s.byNode l.2) = []
    rw [if_pos (by rw [h1]; simp), List.filter_eq_nil_iff]
    intro x hx
    simp [h3 x hx]
  have hn : nonMis lk (detach lk s c) c = [l] := by
    unfold nonMis
    rw [h1]
    have : (detach lk s c).lab l.2 = some l.1 := h2
    rw [List.filter_cons, if_pos (by rw [this]; cases l.1 <;> simp)]; rfl
  have hd : delabel lk (f + 1) (detach lk s c) l.2 = .ok (setLab (detach lk s c) l.2 none, []) := by
    unfold delabel
    rw [if_neg (by rw [show (detach lk s c).lab l.2 = some l.1 from h2]; simp)]
    have j1 : justificands lk (detach lk s c) l.2 = [] := by unfold justificands; rw [hb]; rfl
    have j2 : justifications lk (setLab (detach lk s c) l.2 none) l.2 = [] := by
      unfold justifications
      rw [show (setLab (detach lk s c) l.2 none).byNode l.2 = [] from hb]; rfl
    rw [j1]
    show Res.ok (setLab (detach lk s c) l.2 none, [] ++ justifications lk (setLab (detach lk s c) l.2 none) l.2) = _
    rw [j2]; rfl
  refine ⟨setLab (detach lk s c) l.2 none, ?_, ?_, fun n hne => ?_, fun n => ⟨?_, fun hne => ?_⟩⟩
  · unfold retract
    simp only [hn, hd]
  · rw [setLab_lab, if_pos rfl]
  · rw [setLab_lab, if_neg hne]; rfl
  · show c ∉ (detach lk s c).byNode l.2
    rw [hb]; exact List.not_mem_nil
  · show (if n ∈ (lk c).map Prod.snd then (s.byNode n).filter (· ≠ c) else s.byNode n) = _
    rw [if_neg (by rw [h1]; simpa using hne)]

example : demo 0 = [(true, 0)] ∧ ∃ s, assertAll demo 5 fresh [0] = some s ∧ s.lab 0 = some true ∧ ∀ x ∈ s.byNode 0, x = 0 :=
  ⟨rfl, _, rfl, by decide, by decide⟩

/-- C221: retracting a premise fails with an error when its node is also in a clause with another node
that is still open. -/
theorem C221_open_wrong (f : Nat) : ∃ s, assertAll demo 5 fresh [0, 4] = some s ∧ retract demo (f + 1) s 0 = .error :=
  ⟨_, rfl, rfl⟩

/-- two premises for the same node -/
def twice : Links := fun _ => [(true, 0)]

/-- C221: and when the node has another reason: the function asked for then does not exist. -/
theorem C221_reason_wrong (f : Nat) : ∃ s, assertAll twice 2 fresh [0, 1] = some s ∧ retract twice (f + 1) s 0 = .error :=
  ⟨_, rfl, rfl⟩

/-- C221: a contradiction stays noted after its clause has been retracted. -/
theorem C221_contradiction_wrong (lk : Links) (f : Nat) (s : St) (c : Nat) (h : nonMis lk s c = []) (hc : c ∈ s.contra) :
    ∃ t, retract lk f s c = .ok t ∧ c ∈ t.contra ∧ c ∉ t.asserted := by
  refine ⟨detach lk s c, ?_, hc, ?_⟩
  · unfold retract
    have : nonMis lk (detach lk s c) c = [] := h
    simp only [this]
  · show c ∉ s.asserted.filter (· ≠ c)
    rw [List.mem_filter]; simp

example : ∃ s, assertAll demo 5 fresh [1, 2, 0, 3] = some s ∧ nonMis demo s 3 = [] ∧ 3 ∈ s.contra :=
  ⟨_, rfl, by decide, by decide⟩

end Eus.Rms
