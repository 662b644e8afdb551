import Verif.Mem.Split
set_option autoImplicit false
/-
Allocation preserves the invariant and never runs into undefined behaviour.
-/
namespace Eus.Mem

/-- Not undefined behaviour; and if normal, `P`. -/
def Res.Safe {α : Type} (P : α → Prop) : Res α → Prop
  | .ok a => P a
  | .err => True
  | .fuel => True
  | .ub => False

theorem Res.Safe.bind {α β : Type} {P : α → Prop} {Q : β → Prop} {r : Res α} {f : α → Res β}
    (h : r.Safe P) (hf : ∀ a, r = .ok a → P a → (f a).Safe Q) : (r.bind f).Safe Q := by
  cases r with
  | ok a => exact hf a rfl h
  | err => trivial
  | fuel => trivial
  | ub => exact h

theorem Res.Safe.imp {α : Type} {P Q : α → Prop} {r : Res α} (h : r.Safe P) (hf : ∀ a, P a → Q a) : r.Safe Q := by
  cases r with
  | ok a => exact hf a h
  | err => trivial
  | fuel => trivial
  | ub => exact h

theorem Res.Safe.of {α : Type} {P : α → Prop} {r : Res α} {a : α} (h : r.Safe P) (e : r = .ok a) : P a := by
  rw [e] at h; exact h

/-! ### collection -/

theorem markLoop_safe : ∀ (n : Nat) (H : Heap) (st : List Cell), (markLoop n H st).Safe fun _ => True := by
  intro n
  induction n with
  | zero => intro H st; trivial
  | succ n ih =>
    intro H st
    cases st with
    | nil => trivial
    | cons p st =>
      rw [markLoop]
      by_cases hm : (H.hdr p).mark = true
      · rw [if_pos hm]; exact ih _ _
      · rw [if_neg hm]; exact ih _ _

theorem markRoots_safe (n : Nat) : ∀ (rs : List Cell) (H : Heap), (markRoots n rs H).Safe fun _ => True := by
  intro rs
  induction rs with
  | nil => intro H; trivial
  | cons r rs ih => intro H; exact (markLoop_safe n H [r]).bind fun a _ _ => ih a

theorem markThreads_safe (n : Nat) : ∀ (ts : List Nat) (H : Heap), (markThreads n ts H).Safe fun _ => True := by
  intro ts
  induction ts with
  | nil => intro H; trivial
  | cons t ts ih =>
    intro H
    exact (markRoots_safe n _ _).bind fun a _ _ => (markRoots_safe n _ _).bind fun b _ _ => ih b

theorem markall_safe (n : Nat) (H : Heap) : (markall n H).Safe fun _ => True :=
  (markRoots_safe n _ _).bind fun _ _ _ => (markThreads_safe n _ _).bind fun _ _ _ => markRoots_safe n _ _

theorem gc_safe (env : Env) (n : Nat) (H : Heap) (h : St H) : (gc env n H).Safe fun H' => St H' ∧ Keep H H' := by
  obtain ⟨hg, lv, i⟩ := h
  have := markall_safe n H
  cases hm : markall n H with
  | ok H1 =>
    obtain ⟨H', lv', e, g, i', k, _⟩ := gc_spec env n H hg lv i H1 hm
    rw [e]
    exact ⟨⟨g, lv', i'⟩, k⟩
  | err => unfold gc; rw [hm]; trivial
  | fuel => unfold gc; rw [hm]; trivial
  | ub => rw [hm] at this; exact this.elim

/-! ### the loops of the root allocator -/

/-- A cell is available at the index. -/
def Avail (H : Heap) (j : Nat) : Prop := H.free j ≠ []

theorem growLoop_safe (env : Env) (k : Nat) (check : Bool) (hk : k ≤ 38) : ∀ (n : Nat) (H : Heap) (j : Option Nat),
    St H → (∀ j', j = some j' → 16 ≤ j' ∧ Avail H j') →
    (growLoop env k check n H j).Safe fun r => St r.1 ∧ Keep H r.1 ∧ ∀ j', r.2 = some j' → 16 ≤ j' ∧ Avail r.1 j' := by
  intro n
  induction n with
  | zero => intro H j _ _; trivial
  | succ n ih =>
    intro H j hS hj
    rw [growLoop]
    by_cases hl : env.low H.freeheap H.totalheap = true
    · rw [if_pos hl]
      obtain ⟨H', r, e, hS', hK, hr, hn⟩ := newchunk_spec env k H hS hk
      rw [e]
      simp only [Res.bind]
      cases r with
      | none =>
        simp only
        have := hn rfl
        subst this
        cases check with
        | true => trivial
        | false => exact ih H' j hS' hj
      | some j' =>
        refine (ih H' (some j') hS' ?_).imp fun a ha => ⟨ha.1, hK.trans ha.2.1, ha.2.2⟩
        rintro j'' ⟨⟩
        have := hr j' rfl
        exact ⟨this.2.1, this.2.2.2⟩
    · rw [if_neg hl]
      exact ⟨hS, .refl H, hj⟩

theorem splitDown_safe (req : Nat) (hr : 1 ≤ req) : ∀ (n k : Nat) (H : Heap), St H → req ≤ k → Avail H k →
    (splitDown req n k H).Safe fun H' => St H' ∧ Keep H H' ∧ Avail H' req := by
  intro n
  induction n with
  | zero => intro k H _ _ _; trivial
  | succ n ih =>
    intro k H hS hk ha
    rw [splitDown]
    by_cases h : req < k
    · rw [if_pos h]
      obtain ⟨H', e, hS', hK, h1, h2⟩ := splitheap_spec k H hS (by omega) ha
      rw [e]
      simp only [Res.bind]
      by_cases h3 : k - 1 > req
      · rw [if_pos h3]
        exact (ih (k - 2) H' hS' (by omega) (h2 (by omega))).imp fun a x => ⟨x.1, hK.trans x.2.1, x.2.2⟩
      · rw [if_neg h3]
        exact (ih (k - 1) H' hS' (by omega) h1).imp fun a x => ⟨x.1, hK.trans x.2.1, x.2.2⟩
    · rw [if_neg h]
      have : req = k := by omega
      subst this
      exact ⟨hS, .refl H, ha⟩

theorem findFrom_spec (H : Heap) : ∀ (n k : Nat), k ≤ findFrom H n k ∧ findFrom H n k ≤ k + n ∧
    (findFrom H n k < k + n → Avail H (findFrom H n k)) := by
  intro n
  induction n with
  | zero => intro k; simp [findFrom]
  | succ n ih =>
    intro k
    rw [findFrom]
    by_cases h : H.free k = []
    · rw [if_pos h]
      obtain ⟨h1, h2, h3⟩ := ih (k + 1)
      exact ⟨by omega, by omega, fun hh => h3 (by omega)⟩
    · rw [if_neg h]
      exact ⟨Nat.le_refl _, by omega, fun _ => h⟩

theorem find_spec (H : Heap) (k : Nat) : k ≤ find H k ∧ (find H k < MAXBUDDY → Avail H (find H k)) := by
  obtain ⟨h1, h2, h3⟩ := findFrom_spec H (MAXBUDDY - k) k
  have : MAXBUDDY = 40 := rfl
  refine ⟨h1, fun h => h3 ?_⟩
  have h' : findFrom H (MAXBUDDY - k) k < MAXBUDDY := h
  omega

theorem bigFind_safe (env : Env) (n req : Nat) (H : Heap) (hS : St H) (hr' : req ≤ 38) :
    (bigFind env n req H).Safe fun r => St r.1 ∧ Keep H r.1 ∧ req ≤ r.2 ∧ Avail r.1 r.2 := by
  unfold bigFind
  simp only
  have hf := find_spec H req
  by_cases h : find H req ≥ MAXBUDDY
  · rw [if_pos h]
    have step : (if (buddysize req : Int) < H.totalheap / 8 then
        (gc env n H).bind fun H1 =>
        (growLoop env req false n H1 none).bind fun r => .ok (r.1, find r.1 req)
      else Res.ok (H, find H req)).Safe fun r : Heap × Nat => St r.1 ∧ Keep H r.1 ∧ req ≤ r.2 ∧
        (r.2 < MAXBUDDY → Avail r.1 r.2) := by
      by_cases h2 : (buddysize req : Int) < H.totalheap / 8
      · rw [if_pos h2]
        refine (gc_safe env n H hS).bind fun H1 _ h1 => ?_
        refine (growLoop_safe env req false hr' n H1 none h1.1 (by simp)).bind fun r _ hr2 => ?_
        have := find_spec r.1 req
        exact ⟨hr2.1, h1.2.trans hr2.2.1, this.1, this.2⟩
      · rw [if_neg h2]
        exact ⟨hS, .refl H, hf.1, hf.2⟩
    refine step.bind fun r _ hr2 => ?_
    by_cases h3 : r.2 ≥ MAXBUDDY
    · rw [if_pos h3]
      obtain ⟨H', r', e, hS', hK, hr3, _⟩ := newchunk_spec env req r.1 hr2.1 hr'
      rw [e]
      simp only [Res.bind]
      cases r' with
      | none => trivial
      | some k' =>
        have := hr3 k' rfl
        exact ⟨hS', hr2.2.1.trans hK, this.1, this.2.2.2⟩
    · rw [if_neg h3]
      exact ⟨hr2.1, hr2.2.1, hr2.2.2.1, hr2.2.2.2 (by omega)⟩
  · rw [if_neg h]
    exact ⟨hS, .refl H, hf.1, hf.2 (by omega)⟩

theorem needLoop_safe (env : Env) (i : Nat) (k : Int) (collected : Bool) (hi : 1 ≤ i) (hi' : i ≤ 5) :
    ∀ (n : Nat) (H : Heap), St H → (needLoop env i k collected n H).Safe fun r =>
      St r.1 ∧ Keep H r.1 ∧ (r.2 = false → k ≤ r.1.count i) ∧ (collected = true → r.2 = false) := by
  intro n
  induction n with
  | zero => intro H _; trivial
  | succ n ih =>
    intro H hS
    rw [needLoop]
    by_cases h : H.count i < k
    · rw [if_pos h]
      simp only
      have hf := find_spec H (i + 1)
      have split : ∀ (j : Nat) (H0 : Heap), St H0 → Keep H H0 → 2 ≤ j → Avail H0 j →
          ((splitheap j H0).bind (needLoop env i k collected n)).Safe fun r =>
            St r.1 ∧ Keep H r.1 ∧ (r.2 = false → k ≤ r.1.count i) ∧ (collected = true → r.2 = false) := by
        intro j H0 hS0 hK0 hj ha
        obtain ⟨H', e, hS', hK, _⟩ := splitheap_spec j H0 hS0 hj ha
        rw [e]
        exact (ih H' hS').imp fun r hr => ⟨hr.1, (hK0.trans hK).trans hr.2.1, hr.2.2⟩
      by_cases hj : find H (i + 1) ≥ MAXBUDDY
      · rw [if_pos hj]
        cases collected with
        | false =>
          refine (gc_safe env n H hS).bind fun H1 _ h1 => ?_
          exact ⟨h1.1, h1.2, by simp, by simp⟩
        | true =>
          show Res.Safe _ (Res.bind _ _)
          refine (growLoop_safe env DEFAULTCHUNKINDEX true (by decide) n H none hS (by simp)).bind fun r _ hr => ?_
          cases hr2 : r.2 with
          | some j' =>
            have := hr.2.2 j' hr2
            exact split j' r.1 hr.1 hr.2.1 (by omega) this.2
          | none =>
            obtain ⟨H', r', e, hS', hK, hr3, _⟩ := newchunk_spec env DEFAULTCHUNKINDEX r.1 hr.1 (by decide)
            simp only
            rw [e]
            cases r' with
            | none => trivial
            | some j' =>
              have := hr3 j' rfl
              exact (split j' H' hS' (hr.2.1.trans hK) (by omega) this.2.2.2).imp
                fun a h => ⟨h.1, h.2.1, h.2.2.1, fun _ => h.2.2.2 rfl⟩
      · rw [if_neg hj]
        exact split _ H hS (.refl H) (by omega) (hf.2 (by omega))
    · rw [if_neg h]
      exact ⟨hS, .refl H, fun _ => by simpa using h, fun _ => rfl⟩

/-! ### local lists -/

/-- Like `Keep`, but the local lists may change. -/
structure KeepO (H H' : Heap) : Prop where
  obj : H'.obj = H.obj
  sys : H'.sys = H.sys
  stk : H'.stk = H.stk
  spec : H'.spec = H.spec
  last : H'.last = H.last
  cls : H'.cls = H.cls
  used : H'.used.Sublist H.used
  bix : ∀ x ∈ usedL H', (H'.hdr x).bix = (H.hdr x).bix
  hook : ∀ x, ReachFrom H.obj (rootsL H) x → (H'.hdr x).nodispose = (H.hdr x).nodispose

theorem Keep.o {H H' : Heap} (k : Keep H H') : KeepO H H' :=
  ⟨k.obj, k.sys, k.stk, k.spec, k.last, k.cls, k.used, k.bix, k.hook⟩

theorem KeepO.roots {H H' : Heap} (k : KeepO H H') : rootsL H' = rootsL H := by
  unfold rootsL
  rw [k.sys, k.cls]
  have : threadRoots H' = threadRoots H := by
    funext t; unfold threadRoots; rw [k.stk, k.spec, k.last]
  rw [this]

theorem KeepO.refl (H : Heap) : KeepO H H := (Keep.refl H).o

theorem KeepO.trans {H H1 H2 : Heap} (a : KeepO H H1) (b : KeepO H1 H2) : KeepO H H2 where
  obj := b.obj.trans a.obj
  sys := b.sys.trans a.sys
  stk := b.stk.trans a.stk
  spec := b.spec.trans a.spec
  last := b.last.trans a.last
  cls := b.cls.trans a.cls
  used := b.used.trans a.used
  bix := fun x hx => (b.bix x hx).trans (a.bix x ((b.used.map Prod.fst).subset hx))
  hook := fun x hx => (b.hook x (by rw [a.obj, a.roots]; exact hx)).trans (a.hook x hx)

theorem tbL_upd {H H' : Heap} {t i : Nat} {v : List Cell} (ht : t < MAXTHREAD) (hi : 1 ≤ i) (hi' : i ≤ 5)
    (h : H'.tb = upd H.tb t (upd (H.tb t) i v)) : (tbL H' ++ H.tb t i).Perm (v ++ tbL H) := by
  set w := [1, 2, 3, 4, 5].flatMap (upd (H.tb t) i v) with hw
  have e : locals H' = upd (locals H) t w := by
    funext t'
    unfold locals
    rw [h]
    by_cases ht' : t' = t
    · subst ht'; simp [upd, hw]
    · simp [upd, ht']
  have p1 : ([1, 2, 3, 4, 5].flatMap (upd (H.tb t) i v) ++ H.tb t i).Perm (v ++ [1, 2, 3, 4, 5].flatMap (H.tb t)) :=
    flatMap_upd _ (H.tb t) i v (by decide) (by simp; omega)
  have p2 := flatMap_upd (List.range MAXTHREAD) (locals H) t w List.nodup_range (by simpa using ht)
  have e2 : tbL H' = (List.range MAXTHREAD).flatMap (upd (locals H) t w) := by unfold tbL; rw [e]
  rw [e2]
  rw [List.perm_iff_count] at p1 p2 ⊢
  intro x
  have c1 := p1 x
  have c2 := p2 x
  rw [← hw] at c1
  simp only [List.count_append] at c1 c2 ⊢
  have e3 : [1, 2, 3, 4, 5].flatMap (H.tb t) = locals H t := rfl
  have e4 : (List.range MAXTHREAD).flatMap (locals H) = tbL H := rfl
  rw [e3] at c1
  rw [e4] at c2
  omega

theorem sum_const {L : List Cell} {f : Cell → Nat} {m : Nat} (h : ∀ x ∈ L, f x = m) : (L.map f).sum = m * L.length := by
  induction L with
  | nil => simp
  | cons x L ih =>
    simp only [List.map_cons, List.sum_cons, List.length_cons]
    rw [ih fun y hy => h y (by simp [hy]), h x (by simp), Nat.mul_succ]
    omega

theorem transfer_safe (env : Env) (t i : Nat) (k : Int) (H : Heap) (hS : St H) (ht : t < MAXTHREAD) (hi : 1 ≤ i)
    (hi' : i ≤ 5) (hk : k = env.fill i - H.tcount t i) (hc : k ≤ H.count i) :
    (transfer env t i k H).Safe fun H' => St H' ∧ KeepO H H' ∧ env.fill i ≤ H'.tcount t i ∧
      ∀ j, H.tcount t j ≤ H'.tcount t j := by
  obtain ⟨hg, lv, iv⟩ := hS
  unfold transfer
  by_cases h : k > 0
  swap
  · rw [if_neg h]
    exact ⟨⟨hg, lv, iv⟩, .refl H, by omega, fun j => by omega⟩
  rw [if_pos h]
  have hcl := iv.count i (by omega)
  rw [if_neg (by omega)]
  set m := k.toNat with hm
  have hmk : (m : Int) = k := by omega
  set v := (H.free i).take m ++ H.tb t i with hv
  have htk : ((H.free i).take m).length = m := by rw [List.length_take]; omega
  set H' : Heap := { H with
      tb := upd H.tb t (upd (H.tb t) i v)
      tcount := upd H.tcount t (upd (H.tcount t) i (env.fill i))
      free := upd H.free i ((H.free i).drop m)
      count := upd H.count i (H.count i - k)
      freeheap := H.freeheap - buddysize i * k } with hH'
  have pT := tbL_upd (H := H) (H' := H') ht hi hi' rfl
  have hcT : ∀ x, (tbL H').count x = ((H.free i).take m).count x + (tbL H).count x := by
    intro x
    have := pT.count_eq x
    rw [hv] at this
    simp only [List.count_append] at this
    omega
  have hcF : ∀ x, (freeL H').count x + ((H.free i).take m).count x = (freeL H).count x := by
    intro x
    have h1 := free_count H.free i ((H.free i).drop m) (by simp [MAXBUDDY]; omega) x
    have h2 : (H.free i).count x = ((H.free i).take m).count x + ((H.free i).drop m).count x := by
      rw [← List.count_append, List.take_append_drop]
    have e1 : freeL H' = (List.range MAXBUDDY).flatMap (upd H.free i ((H.free i).drop m)) := rfl
    have e2 : (List.range MAXBUDDY).flatMap H.free = freeL H := rfl
    rw [e2] at h1
    rw [e1]
    omega
  have htb : ∀ t' j x, x ∈ H'.tb t' j → x ∈ H.tb t' j ∨ (t' = t ∧ j = i ∧ x ∈ H.free i) := by
    intro t' j x hx
    have hx : x ∈ upd H.tb t (upd (H.tb t) i v) t' j := hx
    by_cases ht' : t' = t
    · subst ht'
      by_cases hj : j = i
      · subst hj
        rw [show upd H.tb t' (upd (H.tb t') j v) t' j = v by simp [upd], hv] at hx
        rcases List.mem_append.1 hx with hx | hx
        · exact Or.inr ⟨rfl, rfl, List.mem_of_mem_take hx⟩
        · exact Or.inl hx
      · rw [show upd H.tb t' (upd (H.tb t') i v) t' j = H.tb t' j by simp [upd, hj]] at hx
        exact Or.inl hx
    · rw [show upd H.tb t (upd (H.tb t) i v) t' j = H.tb t' j by simp [upd, ht']] at hx
      exact Or.inl hx
  have hfr : ∀ j x, x ∈ H'.free j → x ∈ H.free j := by
    intro j x hx
    have hx : x ∈ upd H.free i ((H.free i).drop m) j := hx
    by_cases hj : j = i
    · subst hj
      rw [show upd H.free j ((H.free j).drop m) j = (H.free j).drop m by simp [upd]] at hx
      exact List.mem_of_mem_drop hx
    · rwa [show upd H.free i ((H.free i).drop m) j = H.free j by simp [upd, hj]] at hx
  refine ⟨⟨hg, lv, ?_⟩, ⟨rfl, rfl, rfl, rfl, rfl, rfl, .refl _, fun _ _ => rfl, fun _ _ => rfl⟩, ?_, ?_⟩
  · constructor
    · exact iv.num
    · exact iv.nodup
    · exact iv.ix
    · exact iv.tiled
    · intro x
      have h1 := iv.occ x
      have h2 := hcT x
      have h3 := hcF x
      have h4 : usedL H' = usedL H := rfl
      rw [h4]
      omega
    · intro x hx
      show x ∈ cellsOf H.chunks lv
      rcases hx with hx | hx | hx
      · obtain ⟨j, hj, hx⟩ := mem_freeL.1 hx
        exact iv.cell x (Or.inl (mem_freeL.2 ⟨j, hj, hfr j x hx⟩))
      · obtain ⟨t', ht', j, hj, hj', hx⟩ := mem_tbL.1 hx
        rcases htb t' j x hx with h | h
        · exact iv.cell x (Or.inr (Or.inl (mem_tbL.2 ⟨t', ht', j, hj, hj', h⟩)))
        · exact (iv.free_mem h.2.2).2.1
      · exact iv.cell x (Or.inr (Or.inr hx))
    · intro j x hx; exact iv.freeix j x (hfr j x hx)
    · intro j hj
      have hji : j ≠ i := by omega
      show upd H.free i _ j = []
      rw [show upd H.free i ((H.free i).drop m) j = H.free j by simp [upd, hji]]
      exact iv.freeout j hj
    · intro t' j x hx
      rcases htb t' j x hx with h | h
      · exact iv.tbix t' j x h
      · rw [h.2.1]; exact iv.freeix i x h.2.2
    · intro t' j hn
      apply List.eq_nil_iff_forall_not_mem.2
      intro x hx
      rcases htb t' j x hx with h | h
      · rw [iv.tbout t' j hn] at h; cases h
      · exact hn ⟨h.1 ▸ ht, by omega, by omega⟩
    · have h1 := iv.acc
      have h2 := (pT.map fun x => buddysize (H.hdr x).bix).sum_nat
      rw [hv] at h2
      simp only [List.map_append, List.sum_append] at h2
      have h3 : (((H.free i).take m).map fun x => buddysize (H.hdr x).bix).sum = buddysize i * m := by
        rw [sum_const (m := buddysize i) fun x hx => by rw [iv.freeix i x (List.mem_of_mem_take hx)], htk]
      show H.freeheap - buddysize i * k + (((tbL H').map fun x => buddysize (H.hdr x).bix).sum : Nat) +
        (((usedL H).map fun x => buddysize (H.hdr x).bix).sum : Nat) = H.totalheap
      rw [← hmk]
      rw [h3] at h2
      have h4 : (buddysize i : Int) * (m : Int) = ((buddysize i * m : Nat) : Int) := by push_cast; rfl
      rw [h4]
      omega
    · exact iv.tot
    · intro j hj
      show upd H.count i (H.count i - k) j = ((upd H.free i ((H.free i).drop m) j).length : Int)
      by_cases hji : j = i
      · subst hji
        simp only [upd, if_true, List.length_drop]
        omega
      · simp only [upd, hji, if_false]; exact iv.count j hj
    · intro t' j
      show upd H.tcount t (upd (H.tcount t) i (env.fill i)) t' j = ((upd H.tb t (upd (H.tb t) i v) t' j).length : Int)
      by_cases ht' : t' = t
      · subst ht'
        by_cases hj : j = i
        · subst hj
          simp only [upd, if_true]
          rw [hv, List.length_append, htk]
          have := iv.tcount t' j
          push_cast
          omega
        · simp only [upd, hj, if_true, if_false]; exact iv.tcount t' j
      · simp only [upd, ht', if_false]; exact iv.tcount t' j
    · exact iv.mark
    · exact iv.nod
    · exact iv.fits
  · show env.fill i ≤ upd H.tcount t (upd (H.tcount t) i (env.fill i)) t i
    simp [upd]
  · intro j
    show H.tcount t j ≤ upd H.tcount t (upd (H.tcount t) i (env.fill i)) t j
    by_cases hj : j = i
    · subst hj; simp only [upd, if_true]; omega
    · simp [upd, hj]

theorem smallFrom_safe (env : Env) (t : Nat) (collected : Bool) (n : Nat) (ht : t < MAXTHREAD) :
    ∀ (is : List Nat) (H : Heap), (∀ i ∈ is, 1 ≤ i ∧ i ≤ 5) → St H →
    (smallFrom env t collected n is H).Safe fun r => St r.1 ∧ KeepO H r.1 ∧ (collected = true → r.2 = false) ∧
      (r.2 = false → ∀ i ∈ is, env.fill i ≤ r.1.tcount t i) ∧ ∀ j, H.tcount t j ≤ r.1.tcount t j := by
  intro is
  induction is with
  | nil => intro H _ hS; exact ⟨hS, .refl H, fun _ => rfl, by simp, fun j => Int.le_refl _⟩
  | cons i is ih =>
    intro H hi hS
    rw [smallFrom]
    have hi1 := hi i (by simp)
    refine (needLoop_safe env i (env.fill i - H.tcount t i) collected hi1.1 hi1.2 n H hS).bind fun r _ hr => ?_
    by_cases hr2 : r.2 = true
    · rw [if_pos hr2]
      refine ⟨hr.1, hr.2.1.o, hr.2.2.2, by simp [hr2], fun j => by rw [hr.2.1.tcount]; exact Int.le_refl _⟩
    · rw [if_neg hr2]
      have hr2 : r.2 = false := by simpa using hr2
      refine (transfer_safe env t i _ r.1 hr.1 ht hi1.1 hi1.2 (by rw [hr.2.1.tcount]) (hr.2.2.1 hr2)).bind
        fun H1 _ h1 => ?_
      refine (ih H1 (fun x hx => hi x (by simp [hx])) h1.1).imp fun a ha => ?_
      refine ⟨ha.1, (hr.2.1.o.trans h1.2.1).trans ha.2.1, ha.2.2.1, fun hf x hx => ?_, fun j => ?_⟩
      · rcases List.mem_cons.1 hx with rfl | hx
        · have h2 := h1.2.2.1
          have h3 := ha.2.2.2.2 x
          omega
        · exact ha.2.2.2.1 hf x hx
      · have h2 := h1.2.2.2 j
        have h3 := ha.2.2.2.2 j
        rw [hr.2.1.tcount] at h2
        omega

theorem root_alloc_small_safe (env : Env) (t n : Nat) (H : Heap) (ht : t < MAXTHREAD) (hS : St H) :
    (root_alloc_small env t n H).Safe fun H' => St H' ∧ KeepO H H' ∧
      ∀ i, 1 ≤ i → i ≤ 5 → env.fill i ≤ H'.tcount t i := by
  unfold root_alloc_small
  have hb : ∀ i ∈ [1, 2, 3, 4, 5], 1 ≤ i ∧ i ≤ 5 := by decide
  have hm : ∀ i, 1 ≤ i → i ≤ 5 → i ∈ [1, 2, 3, 4, 5] := by intro i h1 h2; simp; omega
  refine (smallFrom_safe env t false n ht _ H hb hS).bind fun r _ hr => ?_
  by_cases hr2 : r.2 = true
  · rw [if_pos hr2]
    refine (smallFrom_safe env t true n ht _ r.1 hb hr.1).bind fun r' _ hr' => ?_
    exact ⟨hr'.1, hr.2.1.trans hr'.2.1, fun i h1 h2 => hr'.2.2.2.1 (hr'.2.2.1 rfl) i (hm i h1 h2)⟩
  · rw [if_neg hr2]
    exact ⟨hr.1, hr.2.1, fun i h1 h2 => hr.2.2.2.1 (by simpa using hr2) i (hm i h1 h2)⟩

/-! ### gc_alloc -/

theorem reqIndex_spec (ss : Nat) (h : ss ≤ buddysize 38) : ∀ (n req : Nat), req + n = 40 → req ≤ 38 →
    req ≤ reqIndex ss n req ∧ reqIndex ss n req ≤ 38 ∧ ss ≤ buddysize (reqIndex ss n req) := by
  intro n
  induction n with
  | zero => intro req h1 h2; omega
  | succ n ih =>
    intro req h1 h2
    rw [reqIndex]
    by_cases hs : buddysize req < ss
    · rw [if_pos hs]
      have hne : req ≠ 38 := by rintro rfl; omega
      have := ih (req + 1) (by omega) (by omega)
      exact ⟨by omega, this.2⟩
    · rw [if_neg hs]
      exact ⟨Nat.le_refl _, h2, by omega⟩

/-- What an allocation of `s` words by thread `t` did; `b` is the cell handed out. -/
structure Alloc (H H' : Heap) (t s : Nat) (kind : Kind) (b : Cell) : Prop where
  used : ∃ U, H'.used = (b, s) :: U ∧ U.Sublist H.used ∧ ∀ x, ReachFrom H.obj (rootsL H) x → x ∈ U.map Prod.fst
  obj : ∃ m, s ≤ m ∧ H'.obj = upd H.obj b ⟨kind, List.replicate m none⟩
  sys : H'.sys = H.sys
  stk : H'.stk = H.stk
  spec : H'.spec = H.spec
  cls : H'.cls = H.cls
  last : H'.last = upd H.last t (some b)
  hook : ∀ x, ReachFrom H.obj (rootsL H) x → (H'.hdr x).nodispose = (H.hdr x).nodispose
  bix : ∀ x ∈ usedL H', x ≠ b → (H'.hdr x).bix = (H.hdr x).bix

theorem children_nil (kind : Kind) (m : Nat) : children ⟨kind, List.replicate m none⟩ = [] := by
  have h : ∀ l : List (Option Cell), (∀ x ∈ l, x = none) → l.filterMap id = [] := by
    intro l hl
    induction l with
    | nil => rfl
    | cons a l ih =>
      have := hl a (by simp)
      subst this
      simpa using ih fun x hx => hl x (by simp [hx])
  cases kind with
  | fixed => exact h _ fun x hx => (List.mem_replicate.1 hx).2
  | vector => exact h _ fun x hx => (List.mem_replicate.1 (List.mem_of_mem_tail hx)).2
  | other => rfl
  | closure => rfl

theorem mem_roots {H : Heap} {x : Cell} : x ∈ rootsL H ↔ x ∈ H.sys ∨
    (∃ t < MAXTHREAD, x ∈ H.stk t ∨ x ∈ H.spec t ∨ H.last t = some x) ∨ x ∈ H.cls := by
  simp only [rootsL, List.mem_append, List.mem_flatMap, List.mem_range, threadRoots, Option.mem_toList]
  constructor
  · rintro ((h | h) | h)
    · exact Or.inl h
    · exact Or.inr (Or.inl h)
    · exact Or.inr (Or.inr h)
  · rintro (h | h | h)
    · exact Or.inl (Or.inl h)
    · exact Or.inl (Or.inr h)
    · exact Or.inr h

/-- Reachable after handing out `b`: `b` or what was reachable. -/
theorem reach_alloc {H H' : Heap} {t m : Nat} {kind : Kind} {b : Cell} (ho : H'.obj = upd H.obj b ⟨kind, List.replicate m none⟩)
    (h1 : H'.sys = H.sys) (h2 : H'.stk = H.stk) (h3 : H'.spec = H.spec) (h4 : H'.cls = H.cls)
    (h5 : H'.last = upd H.last t (some b)) {x : Cell} (hx : ReachFrom H'.obj (rootsL H') x) :
    x = b ∨ ReachFrom H.obj (rootsL H) x := by
  induction hx with
  | root x hx =>
    rw [mem_roots, h1, h2, h3, h4, h5] at hx
    rcases hx with h | ⟨t', ht', h⟩ | h
    · exact Or.inr (.root x (mem_roots.2 (Or.inl h)))
    · rcases h with h | h | h
      · exact Or.inr (.root x (mem_roots.2 (Or.inr (Or.inl ⟨t', ht', Or.inl h⟩))))
      · exact Or.inr (.root x (mem_roots.2 (Or.inr (Or.inl ⟨t', ht', Or.inr (Or.inl h)⟩))))
      · by_cases htt : t' = t
        · subst htt
          simp [upd] at h
          exact Or.inl h.symm
        · simp only [upd, htt, if_false] at h
          exact Or.inr (.root x (mem_roots.2 (Or.inr (Or.inl ⟨t', ht', Or.inr (Or.inr h)⟩))))
    · exact Or.inr (.root x (mem_roots.2 (Or.inr (Or.inr h))))
  | step x y _ hy ih =>
    rw [ho] at hy
    by_cases hb : x = b
    · subst hb
      rw [show upd H.obj x (⟨kind, List.replicate m none⟩ : Obj) x = ⟨kind, List.replicate m none⟩ by simp [upd],
        children_nil] at hy
      cases hy
    · rw [show upd H.obj b (⟨kind, List.replicate m none⟩ : Obj) x = H.obj x by simp [upd, hb]] at hy
      exact Or.inr (.step x y (ih.resolve_left hb) hy)

/-- Handing out the cell `b`, taken from a free list or a local list. -/
theorem handout {H H' : Heap} {t s m : Nat} {kind : Kind} {b : Cell} (hS : St H)
    (ho : H'.obj = upd H.obj b ⟨kind, List.replicate m none⟩) (h1 : H'.sys = H.sys) (h2 : H'.stk = H.stk)
    (h3 : H'.spec = H.spec) (h4 : H'.cls = H.cls) (h5 : H'.last = upd H.last t (some b))
    (hu : H'.used = (b, s) :: H.used) (hh : H'.hdr = upd H.hdr b { H.hdr b with nodispose := false })
    (hc : H'.chunks = H.chunks) (hT : H'.totalheap = H.totalheap)
    (hb : b ∈ freeL H ∨ b ∈ tbL H)
    (hoc : ∀ x, (freeL H').count x + (tbL H').count x + [b].count x = (freeL H).count x + (tbL H).count x)
    (hfr : ∀ k, (H'.free k).Sublist (H.free k)) (htb : ∀ t j, (H'.tb t j).Sublist (H.tb t j))
    (hac : H'.freeheap + ((tbL H').map fun x => buddysize (H.hdr x).bix).sum + buddysize (H.hdr b).bix =
      H.freeheap + ((tbL H).map fun x => buddysize (H.hdr x).bix).sum)
    (hct : ∀ k, k < 16 → H'.count k = (H'.free k).length) (htc : ∀ t j, H'.tcount t j = (H'.tb t j).length)
    (hft : s + 1 ≤ buddysize (H.hdr b).bix) : St H' := by
  obtain ⟨hg, lv, i⟩ := hS
  have hbix : ∀ x, (H'.hdr x).bix = (H.hdr x).bix ∧ (H'.hdr x).b = (H.hdr x).b ∧ (H'.hdr x).m = (H.hdr x).m ∧
      (H'.hdr x).mark = (H.hdr x).mark := by
    intro x
    rw [hh]
    by_cases hx : x = b
    · subst hx; simp [upd]
    · simp [upd, hx]
  have huL : usedL H' = b :: usedL H := by unfold usedL; rw [hu]; rfl
  have hbx : (fun x => buddysize (H'.hdr x).bix) = fun x => buddysize (H.hdr x).bix := by
    funext x; rw [(hbix x).1]
  refine ⟨?_, lv, ?_⟩
  · intro x hx
    rw [huL]
    rcases reach_alloc ho h1 h2 h3 h4 h5 hx with h | h
    · simp [h]
    · simp [hg x h]
  · constructor
    · rw [hc]; exact i.num
    · rw [hc]; exact i.nodup
    · rw [hc]; exact i.ix
    · rw [hc]
      intro ck hck
      refine (i.tiled ck hck).frame fun x _ => ?_
      have := hbix (ck.1, x)
      exact ⟨this.1, this.2.1, this.2.2.1⟩
    · intro x
      have e1 := hoc x
      have e2 := i.occ x
      rw [huL]
      have e3 : (b :: usedL H).count x = [b].count x + (usedL H).count x := by
        rw [← List.singleton_append, List.count_append]
      omega
    · intro x hx
      rw [hc]
      rcases hx with hx | hx | hx
      · obtain ⟨k, hk, hx⟩ := mem_freeL.1 hx
        exact i.cell x (Or.inl (mem_freeL.2 ⟨k, hk, (hfr k).subset hx⟩))
      · obtain ⟨t', ht', j, hj, hj', hx⟩ := mem_tbL.1 hx
        exact i.cell x (Or.inr (Or.inl (mem_tbL.2 ⟨t', ht', j, hj, hj', (htb t' j).subset hx⟩)))
      · rw [huL] at hx
        rcases List.mem_cons.1 hx with rfl | hx
        · rcases hb with hb | hb
          · exact i.cell x (Or.inl hb)
          · exact i.cell x (Or.inr (Or.inl hb))
        · exact i.cell x (Or.inr (Or.inr hx))
    · intro k x hx; rw [(hbix x).1]; exact i.freeix k x ((hfr k).subset hx)
    · intro k hk
      have := hfr k
      rw [i.freeout k hk] at this
      exact List.sublist_nil.1 this
    · intro t' j x hx; rw [(hbix x).1]; exact i.tbix t' j x ((htb t' j).subset hx)
    · intro t' j hn
      have := htb t' j
      rw [i.tbout t' j hn] at this
      exact List.sublist_nil.1 this
    · rw [huL, hbx, hT]
      have := i.acc
      simp only [List.map_cons, List.sum_cons]
      push_cast
      omega
    · rw [hT, hc]; exact i.tot
    · exact hct
    · exact htc
    · intro x; rw [(hbix x).2.2.2]; exact i.mark x
    · intro x hx
      rw [huL]
      rw [hh] at hx
      by_cases hxb : x = b
      · simp [hxb]
      · simp only [upd, hxb, if_false] at hx
        simp [i.nod x hx]
    · intro u hu'
      rw [hu] at hu'
      rw [(hbix u.1).1]
      rcases List.mem_cons.1 hu' with rfl | hu'
      · exact hft
      · exact i.fits u hu'

theorem gc_alloc_safe (env : Env) (n t s : Nat) (kind : Kind) (H : Heap) (hS : St H) (ht : t < MAXTHREAD)
    (hs : s + 1 ≤ buddysize 38) (hf : ∀ i, 1 ≤ i → i ≤ 5 → 1 ≤ env.fill i) :
    (gc_alloc env n t s kind H).Safe fun r => St r.1 ∧ Alloc H r.1 t s kind r.2 := by
  have hreq := reqIndex_spec (max 3 (s + 1)) (by
    have := (size_pos 38).1; omega) (MAXBUDDY - 1) 1 (by decide) (by decide)
  unfold gc_alloc
  simp only
  set req := reqIndex (max 3 (s + 1)) (MAXBUDDY - 1) 1 with hreqd
  have hfit : s + 1 ≤ buddysize req := by omega
  -- the final state, from a state where the cell is on a list
  have fin : ∀ (H1 H2 : Heap) (b : Cell), St H1 → KeepO H H1 → b ∈ freeL H1 ∨ b ∈ tbL H1 → (H1.hdr b).bix = req →
      H2.obj = H1.obj → H2.sys = H1.sys → H2.stk = H1.stk → H2.spec = H1.spec → H2.cls = H1.cls →
      H2.last = upd H1.last t (some b) → H2.used = H1.used → H2.hdr = H1.hdr → H2.chunks = H1.chunks →
      H2.totalheap = H1.totalheap →
      (∀ x, (freeL H2).count x + (tbL H2).count x + [b].count x = (freeL H1).count x + (tbL H1).count x) →
      (∀ k, (H2.free k).Sublist (H1.free k)) → (∀ t j, (H2.tb t j).Sublist (H1.tb t j)) →
      (H2.freeheap + ((tbL H2).map fun x => buddysize (H1.hdr x).bix).sum + buddysize (H1.hdr b).bix =
        H1.freeheap + ((tbL H1).map fun x => buddysize (H1.hdr x).bix).sum) →
      (∀ k, k < 16 → H2.count k = (H2.free k).length) → (∀ t j, H2.tcount t j = (H2.tb t j).length) →
      St { H2 with
        hdr := upd H2.hdr b { H2.hdr b with nodispose := false }
        obj := upd H2.obj b ⟨kind, List.replicate (buddysize req - 1) none⟩
        used := (b, s) :: H2.used } ∧
      Alloc H { H2 with
        hdr := upd H2.hdr b { H2.hdr b with nodispose := false }
        obj := upd H2.obj b ⟨kind, List.replicate (buddysize req - 1) none⟩
        used := (b, s) :: H2.used } t s kind b := by
    intro H1 H2 b hS1 hK hb hbix e1 e2 e3 e4 e5 e6 e7 e8 e9 e10 c1 c2 c3 c4 c5 c6
    have hr1 : ∀ x, ReachFrom H.obj (rootsL H) x → x ∈ usedL H1 := by
      intro x hx
      exact hS1.1 x (by rw [hK.obj, hK.roots]; exact hx)
    have hbu : b ∉ usedL H1 := by
      obtain ⟨_, lv, i⟩ := hS1
      intro hh
      have o1 := i.occ b
      have o2 := count_pos.2 hh
      rcases hb with hb | hb <;> have := count_pos.2 hb <;> omega
    refine ⟨?_, ?_⟩
    · refine handout (H := H1) (m := buddysize req - 1) (t := t) (b := b) (s := s) (kind := kind) hS1 ?_ e2 e3 e4 e5 e6 ?_ ?_ e9 e10 hb c1 c2 c3 c4 c5 c6
        (by rw [hbix]; exact hfit)
      · show upd H2.obj b _ = _; rw [e1]
      · show (b, s) :: H2.used = _; rw [e7]
      · show upd H2.hdr b _ = _; rw [e8]
    · constructor
      · exact ⟨H2.used, rfl, by rw [e7]; exact hK.used, fun x hx => by rw [e7]; exact hr1 x hx⟩
      · exact ⟨buddysize req - 1, by omega, by show upd H2.obj b _ = _; rw [e1, hK.obj]⟩
      · exact e2.trans hK.sys
      · exact e3.trans hK.stk
      · exact e4.trans hK.spec
      · exact e5.trans hK.cls
      · show H2.last = _; rw [e6, hK.last]
      · intro x hx
        have hxb : x ≠ b := by rintro rfl; exact hbu (hr1 x hx)
        show (upd H2.hdr b _ x).nodispose = _
        rw [show ∀ v, upd H2.hdr b v x = H2.hdr x by intro v; simp [upd, hxb], e8]
        exact hK.hook x hx
      · intro x hx hxb
        have hx1 : x ∈ usedL H1 := by
          have : x ∈ b :: H2.used.map Prod.fst := hx
          rw [e7] at this
          exact (List.mem_cons.1 this).resolve_left hxb
        show (upd H2.hdr b _ x).bix = _
        rw [show ∀ v, upd H2.hdr b v x = H2.hdr x by intro v; simp [upd, hxb], e8]
        exact hK.bix x hx1
  by_cases hbig : req ≥ MAXTHRBUDDY
  · rw [if_pos hbig]
    unfold root_alloc_big
    have hbig' : 6 ≤ req := hbig
    have hroot : ((bigFind env n req H).bind fun r =>
        (splitDown req (MAXBUDDY + 1) r.2 r.1).bind fun H2 =>
        match H2.free req with
        | [] => Res.ub
        | b :: b2 =>
          .ok ({ H2 with
            last := upd H2.last t (some b)
            free := upd H2.free req b2
            count := upd H2.count req (H2.count req - 1)
            freeheap := H2.freeheap - buddysize req }, b)).Safe fun r => ∃ (H1 : Heap) (b2 : List Cell),
          St H1 ∧ KeepO H H1 ∧ H1.free req = r.2 :: b2 ∧
          r.1 = { H1 with
            last := upd H1.last t (some r.2)
            free := upd H1.free req b2
            count := upd H1.count req (H1.count req - 1)
            freeheap := H1.freeheap - buddysize req } := by
      refine (bigFind_safe env n req H hS (by omega)).bind fun r _ hr => ?_
      refine (splitDown_safe req (by omega) (MAXBUDDY + 1) r.2 r.1 hr.1 hr.2.2.1 hr.2.2.2).bind fun H2 _ h2 => ?_
      cases hfr : H2.free req with
      | nil => exact absurd hfr h2.2.2
      | cons b b2 => exact ⟨H2, b2, h2.1, (hr.2.1.trans h2.2.1).o, hfr, rfl⟩
    refine hroot.bind fun r _ hr => ?_
    obtain ⟨H1, b2, hS1, hK, hfr, he⟩ := hr
    rw [he]
    obtain ⟨hg1, lv, i⟩ := id hS1
    have hbf : r.2 ∈ H1.free req := by rw [hfr]; simp
    refine fin H1 _ r.2 hS1 hK (Or.inl (i.free_mem hbf).1) (i.freeix req r.2 hbf) rfl rfl rfl rfl rfl rfl rfl rfl rfl rfl
      ?_ ?_ (fun _ _ => .refl _) ?_ ?_ i.tcount
    · intro x
      have h1 := free_count H1.free req b2 (by simp [MAXBUDDY]; omega) x
      show ((List.range MAXBUDDY).flatMap (upd H1.free req b2)).count x + (tbL H1).count x + [r.2].count x =
        ((List.range MAXBUDDY).flatMap H1.free).count x + (tbL H1).count x
      rw [hfr, ← List.singleton_append, List.count_append] at h1
      omega
    · intro k
      show (upd H1.free req b2 k).Sublist _
      by_cases hk : k = req
      · rw [hk, hfr, show upd H1.free req b2 req = b2 by simp [upd]]
        exact List.sublist_cons_self _ _
      · rw [show upd H1.free req b2 k = H1.free k by simp [upd, hk]]
    · rw [i.freeix req r.2 hbf]
      show H1.freeheap - (buddysize req : Int) + (((tbL H1).map fun x => buddysize (H1.hdr x).bix).sum : Nat) + buddysize req = _
      omega
    · intro k hk
      show upd H1.count req (H1.count req - 1) k = ((upd H1.free req b2 k).length : Int)
      by_cases hkr : k = req
      · subst hkr
        have := i.count req hk
        rw [hfr] at this
        simp only [upd, if_true]
        simp only [List.length_cons] at this
        push_cast at this
        omega
      · simp only [upd, hkr, if_false]; exact i.count k hk
  · rw [if_neg hbig]
    have hsm : req ≤ 5 := by
      have : ¬ (6 ≤ req) := hbig
      omega
    have h1 : (if H.tcount t req = 0 then root_alloc_small env t n H else .ok H).Safe fun H1 =>
        St H1 ∧ KeepO H H1 ∧ 1 ≤ H1.tcount t req := by
      by_cases h0 : H.tcount t req = 0
      · rw [if_pos h0]
        refine (root_alloc_small_safe env t n H ht hS).imp fun a ha => ⟨ha.1, ha.2.1, ?_⟩
        have h2 := ha.2.2 req (by omega) hsm
        have h3 := hf req (by omega) hsm
        omega
      · rw [if_neg h0]
        refine ⟨hS, .refl H, ?_⟩
        obtain ⟨_, lv, i⟩ := hS
        have := i.tcount t req
        omega
    have hroot : ((if H.tcount t req = 0 then root_alloc_small env t n H else .ok H).bind fun H1 =>
        match H1.tb t req with
        | [] => Res.ub
        | b :: rest =>
          .ok ({ H1 with
            last := upd H1.last t (some b)
            tb := upd H1.tb t (upd (H1.tb t) req rest)
            tcount := upd H1.tcount t (upd (H1.tcount t) req (H1.tcount t req - 1)) }, b)).Safe fun r =>
          ∃ (H1 : Heap) (rest : List Cell), St H1 ∧ KeepO H H1 ∧ H1.tb t req = r.2 :: rest ∧
          r.1 = { H1 with
            last := upd H1.last t (some r.2)
            tb := upd H1.tb t (upd (H1.tb t) req rest)
            tcount := upd H1.tcount t (upd (H1.tcount t) req (H1.tcount t req - 1)) } := by
      refine h1.bind fun H1 _ hh => ?_
      cases htb : H1.tb t req with
      | nil =>
        obtain ⟨⟨_, lv, i⟩, _, h3⟩ := hh
        have := i.tcount t req
        rw [htb] at this
        simp at this
        omega
      | cons b rest => exact ⟨H1, rest, hh.1, hh.2.1, htb, rfl⟩
    refine hroot.bind fun r _ hr => ?_
    obtain ⟨H1, rest, hS1, hK, htb, he⟩ := hr
    rw [he]
    obtain ⟨hg1, lv, i⟩ := id hS1
    have hbt : r.2 ∈ H1.tb t req := by rw [htb]; simp
    have pT := tbL_upd (H := H1) (H' := { H1 with
            last := upd H1.last t (some r.2)
            tb := upd H1.tb t (upd (H1.tb t) req rest)
            tcount := upd H1.tcount t (upd (H1.tcount t) req (H1.tcount t req - 1)) }) (v := rest) ht (by omega) hsm rfl
    refine fin H1 _ r.2 hS1 hK (Or.inr (i.tb_mem hbt)) (i.tbix t req r.2 hbt) rfl rfl rfl rfl rfl rfl rfl rfl rfl rfl
      ?_ (fun _ => .refl _) ?_ ?_ i.count ?_
    · intro x
      have h1 := pT.count_eq x
      rw [htb, ← List.singleton_append] at h1
      simp only [List.count_append] at h1
      show (freeL H1).count x + _ + [r.2].count x = _
      omega
    · intro t' j
      show (upd H1.tb t (upd (H1.tb t) req rest) t' j).Sublist _
      by_cases ht' : t' = t
      · subst ht'
        by_cases hj : j = req
        · rw [hj, htb, show upd H1.tb t' (upd (H1.tb t') req rest) t' req = rest by simp [upd]]
          exact List.sublist_cons_self _ _
        · rw [show upd H1.tb t' (upd (H1.tb t') req rest) t' j = H1.tb t' j by simp [upd, hj]]
      · rw [show upd H1.tb t (upd (H1.tb t) req rest) t' j = H1.tb t' j by simp [upd, ht']]
    · have h2 := (pT.map fun x => buddysize (H1.hdr x).bix).sum_nat
      rw [htb] at h2
      simp only [List.map_append, List.sum_append, List.map_cons, List.sum_cons] at h2
      show H1.freeheap + _ + _ = _
      omega
    · intro t' j
      show upd H1.tcount t (upd (H1.tcount t) req (H1.tcount t req - 1)) t' j =
        ((upd H1.tb t (upd (H1.tb t) req rest) t' j).length : Int)
      have h0 := i.tcount t req
      rw [htb] at h0
      simp only [List.length_cons] at h0
      push_cast at h0
      by_cases ht' : t' = t
      · subst ht'
        by_cases hj : j = req
        · subst hj; simp only [upd, if_true]; omega
        · simp only [upd, hj, if_true, if_false]; exact i.tcount t' j
      · simp only [upd, ht', if_false]; exact i.tcount t' j

end Eus.Mem
