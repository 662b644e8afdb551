import Verif.Cls.Spec
import Mathlib.Tactic.SplitIfs
import Mathlib.Tactic.Set
import Mathlib.Order.Basic
import Mathlib.Logic.Function.Basic
set_option autoImplicit false
namespace Eus.Cls

theorem Desc.trans {sup : Nat → Option Nat} {a b c : Nat} (h : Desc sup a b) (h' : Desc sup b c) : Desc sup a c := by
  induction h with
  | refl => exact h'
  | step e _ ih => exact .step e (ih h')

theorem Desc.le {sup : Nat → Option Nat} (hs : ∀ a b, sup a = some b → b < a) {a b : Nat} (h : Desc sup a b) : b ≤ a := by
  induction h with
  | refl => exact Nat.le_refl _
  | step e _ ih => have := hs _ _ e; omega

theorem Desc.total {sup : Nat → Option Nat} {x a b : Nat} (h : Desc sup x a) (h' : Desc sup x b) :
    Desc sup a b ∨ Desc sup b a := by
  induction h with
  | refl => exact .inl h'
  | step e _ ih =>
    cases h' with
    | refl => right; exact .step e ‹_›
    | step e' h'' =>
      rw [e] at e'; cases e'
      exact ih h''

theorem desc_none {sup : Nat → Option Nat} {a b : Nat} (h : sup a = none) : Desc sup a b ↔ b = a := by
  constructor
  · intro hd
    cases hd with
    | refl => rfl
    | step e _ => rw [h] at e; cases e
  · rintro rfl; exact .refl _

theorem desc_some {sup : Nat → Option Nat} {a b c : Nat} (h : sup a = some c) : Desc sup a b ↔ b = a ∨ Desc sup c b := by
  constructor
  · intro hd
    cases hd with
    | refl => exact .inl rfl
    | step e hd => rw [h] at e; cases e; exact .inr hd
  · rintro (rfl | hd)
    · exact .refl _
    · exact .step h hd

theorem Desc.congr {sup sup' : Nat → Option Nat} {n : Nat} (hs : ∀ a b, sup a = some b → b < a)
    (e : ∀ a, a < n → sup' a = sup a) {a b : Nat} (ha : a < n) (h : Desc sup a b) : Desc sup' a b := by
  induction h with
  | refl => exact .refl _
  | step h1 _ ih => exact .step (by rw [e _ ha]; exact h1) (ih (by have := hs _ _ h1; omega))

/-- The table and the numbers of the classes agree. -/
structure Lnk (s : St) : Prop where
  sup : ∀ a b, s.super a = some b → a < s.nextcix ∧ b < a
  cls : ∀ a, a < s.nextcix → (s.tab (s.cix a)).cls = a

theorem Lnk.inj {s : St} (h : Lnk s) {a b : Nat} (ha : a < s.nextcix) (hb : b < s.nextcix) (e : s.cix a = s.cix b) :
    a = b := by rw [← h.cls a ha, ← h.cls b hb, e]

/-- Highest number below class `a`. -/
def sub (s : St) (a : Nat) : Nat := (s.tab (s.cix a)).subcix

/-- `s'` differs from `s` in the class table at most. -/
def SameButTab (s s' : St) : Prop :=
  s'.nextcix = s.nextcix ∧ s'.super = s.super ∧ s'.cix = s.cix ∧ s'.objs = s.objs ∧ s'.builtin = s.builtin ∧
    s'.bcp = s.bcp

open scoped Classical in
theorem bumpcix_spec (v : Nat) : ∀ (fuel : Nat) (s : St) (a : Nat), Lnk s → a < s.nextcix → a < fuel →
    (∀ x y, Desc s.super a x → s.super x = some y → v ≤ sub s x → v ≤ sub s y) →
    SameButTab s (bumpcix fuel s (s.cix a) v) ∧ Lnk (bumpcix fuel s (s.cix a) v) ∧
    ∀ b, b < s.nextcix → sub (bumpcix fuel s (s.cix a) v) b = if Desc s.super a b ∧ sub s b < v then v else sub s b := by
  intro fuel
  induction fuel with
  | zero => intro s a _ _ h; omega
  | succ fuel ih =>
    intro s a hl ha hf hm
    rw [bumpcix]
    by_cases hlt : (s.tab (s.cix a)).subcix < v
    · rw [if_pos hlt]
      simp only [Function.update_self]
      rw [hl.cls a ha]
      set s1 : St := { s with tab := Function.update s.tab (s.cix a) ⟨a, v⟩ } with hs1
      have hl1 : Lnk s1 := by
        refine ⟨hl.sup, fun b hb => ?_⟩
        by_cases e : s.cix b = s.cix a
        · have : b = a := hl.inj hb ha e
          subst this
          simp [s1]
        · simp only [s1, Function.update_of_ne e]; exact hl.cls b hb
      have hsub : ∀ b, b < s.nextcix → sub s1 b = if b = a then v else sub s b := by
        intro b hb
        simp only [sub, s1]
        split_ifs with e
        · subst e; simp
        · rw [Function.update_of_ne (fun h => e (hl.inj hb ha h))]
      cases hsa : s.super a with
      | none =>
        simp only
        refine ⟨⟨rfl, rfl, rfl, rfl, rfl, rfl⟩, hl1, fun b hb => ?_⟩
        rw [hsub b hb]
        by_cases e : b = a
        · subst e
          rw [if_pos rfl, if_pos ⟨.refl _, hlt⟩]
        · rw [if_neg e, if_neg (fun h => e ((desc_none hsa).1 h.1))]
      | some c =>
        simp only
        have hc := hl.sup a c hsa
        have key := ih s1 c hl1 (by show c < s.nextcix; omega) (by omega) (by
          intro x y hx hxy hv
          have hxc := hx.le (fun a b h => (hl.sup a b h).2)
          have hxy' := hl.sup x y hxy
          rw [hsub x (by omega), if_neg (by omega)] at hv
          rw [hsub y (by omega), if_neg (by omega)]
          exact hm x y (.step hsa hx) hxy hv)
        obtain ⟨k1, k2, k3⟩ := key
        refine ⟨k1, k2, fun b hb => ?_⟩
        rw [show s.cix c = s1.cix c from rfl]
        rw [k3 b hb, hsub b hb]
        by_cases e : b = a
        · subst e
          have h1 : ¬ (Desc s1.super c b ∧ (if b = b then v else sub s b) < v) := by simp
          rw [if_neg h1, if_pos rfl, if_pos ⟨.refl _, hlt⟩]
        · rw [if_neg e]
          have : Desc s.super a b ↔ Desc s1.super c b := by
            rw [desc_some hsa]; exact ⟨fun h => h.resolve_left e, .inr⟩
          rw [this]
    · rw [if_neg hlt]
      refine ⟨⟨rfl, rfl, rfl, rfl, rfl, rfl⟩, hl, fun b hb => ?_⟩
      rw [if_neg]
      rintro ⟨hd, hb'⟩
      have : v ≤ sub s b := by
        have h0 : v ≤ sub s a := by unfold sub; omega
        clear hb' hlt
        have gen : ∀ x b, Desc s.super x b → Desc s.super a x → v ≤ sub s x → v ≤ sub s b := by
          intro x b h
          induction h with
          | refl => intro _ h; exact h
          | @step x y z e _ ih2 =>
            intro hax hv
            exact ih2 (hax.trans (.step e (.refl _))) (hm x y hax e hv)
        exact gen a b hd (.refl _) h0
      omega

/-- The class numbers are an interval numbering of the class tree. -/
structure Inv (s : St) : Prop where
  lnk : Lnk s
  lt : ∀ a, a < s.nextcix → s.cix a < s.nextcix
  onto : ∀ j, j < s.nextcix → (s.tab j).cls < s.nextcix ∧ s.cix (s.tab j).cls = j
  self : ∀ a, a < s.nextcix → s.cix a ≤ sub s a ∧ sub s a < s.nextcix
  desc : ∀ a b, a < s.nextcix → b < s.nextcix → (Desc s.super a b ↔ s.cix b ≤ s.cix a ∧ s.cix a ≤ sub s b)

theorem Inv.mono {s : St} (h : Inv s) {a b : Nat} (ha : a < s.nextcix) (hb : b < s.nextcix) (hd : Desc s.super a b) :
    sub s a ≤ sub s b := by
  have h1 := h.self a ha
  obtain ⟨h2, h3⟩ := h.onto (sub s a) h1.2
  have : Desc s.super (s.tab (sub s a)).cls a := (h.desc _ _ h2 ha).2 (by rw [h3]; omega)
  have := (h.desc _ _ h2 hb).1 (this.trans hd)
  rw [h3] at this; omega

/-- The state inside the loop: numbers from `k` on are shifted. -/
structure Mid (s0 : St) (k : Nat) (s : St) : Prop where
  same : s.nextcix = s0.nextcix ∧ s.super = s0.super ∧ s.objs = s0.objs ∧ s.builtin = s0.builtin ∧ s.bcp = s0.bcp
  lnk : Lnk s
  cix : ∀ a, a < s0.nextcix → s.cix a = if s0.cix a ≥ k then s0.cix a + 1 else s0.cix a
  sub : ∀ a, a < s0.nextcix → sub s a = if sub s0 a ≥ k then sub s0 a + 1 else sub s0 a

theorem mid_step {s0 : St} (h0 : Inv s0) {i : Nat} (hi : i < s0.nextcix) {s : St} (hm : Mid s0 (i + 1) s) :
    let s1 := bumpcix (s.nextcix + 1) s i (i + 1)
    let e := s1.tab i
    Mid s0 i { s1 with tab := Function.update s1.tab (i + 1) e,
                       cix := Function.update s1.cix e.cls (s1.cix e.cls + 1) } := by
  classical
  intro s1 e
  obtain ⟨hn, hsup, hobj, hbi, hbc⟩ := hm.same
  obtain ⟨ha, hca⟩ := h0.onto i hi
  generalize haa : (s0.tab i).cls = a at *
  have hcs : s.cix a = i := by rw [hm.cix a ha, hca, if_neg (by omega)]
  have hb := bumpcix_spec (i + 1) (s.nextcix + 1) s a hm.lnk (by omega) (by omega) (by
    intro x y hx hxy hv
    rw [hsup] at hx hxy
    have hx' := hx.le (fun a b h => (h0.lnk.sup a b h).2)
    have hxy' := h0.lnk.sup x y hxy
    rw [hm.sub x (by omega)] at hv
    rw [hm.sub y (by omega)]
    have := h0.mono (a := x) (b := y) (by omega) (by omega) (.step hxy (.refl _))
    split_ifs at hv ⊢ <;> omega)
  rw [hcs] at hb
  obtain ⟨⟨k1, k2, k3, k4, k5, k6⟩, hl1, hsub⟩ := hb
  change s1.nextcix = _ at k1
  change s1.super = _ at k2
  change s1.cix = _ at k3
  change Lnk s1 at hl1
  have he : e.cls = a := by
    have := hl1.cls a (by omega)
    rw [k3, hcs] at this; exact this
  have hsub1 : ∀ b, b < s0.nextcix → sub s1 b = if sub s0 b ≥ i then sub s0 b + 1 else sub s0 b := by
    intro b hb
    have := hsub b (by omega)
    change sub s1 b = _ at this
    rw [this, hm.sub b hb, hsup]
    by_cases h1 : sub s0 b ≥ i + 1
    · rw [if_pos h1, if_neg (by omega), if_pos (by omega)]
    · rw [if_neg h1]
      by_cases h2 : sub s0 b = i
      · have hself := h0.self b hb
        have : Desc s0.super a b := (h0.desc a b ha hb).2 (by omega)
        rw [if_pos ⟨this, by omega⟩, if_pos (by omega)]; omega
      · rw [if_neg (fun h => ?_), if_neg (by omega)]
        have := ((h0.desc a b ha hb).1 h.1).2
        omega
  have hcix1 : ∀ b, b < s0.nextcix → s1.cix b = if s0.cix b ≥ i + 1 then s0.cix b + 1 else s0.cix b := by
    intro b hb; rw [k3]; exact hm.cix b hb
  have hne : ∀ b, b < s0.nextcix → b ≠ a → s1.cix b ≠ i ∧ s1.cix b ≠ i + 1 := by
    intro b hb hba
    have : s0.cix b ≠ i := fun h => hba (h0.lnk.inj hb ha (h.trans hca.symm))
    rw [hcix1 b hb]; split_ifs <;> omega
  refine ⟨⟨by simp only; omega, by simp only; rw [k2, hsup], by simp only; exact k4.trans hobj, by simp only; exact k5.trans hbi, by simp only; exact k6.trans hbc⟩, ⟨?_, ?_⟩, ?_, ?_⟩
  · intro x y hxy
    simp only at hxy ⊢
    rw [k1]; rw [k2] at hxy; exact hm.lnk.sup x y hxy
  · intro b hb
    simp only at hb ⊢
    rw [he]
    by_cases hba : b = a
    · subst hba
      rw [Function.update_self]
      rw [k3, hcs, Function.update_self]
      exact he
    · rw [Function.update_of_ne hba, Function.update_of_ne (hne b (by omega) hba).2]
      exact hl1.cls b hb
  · intro b hb
    simp only
    rw [he]
    by_cases hba : b = a
    · subst hba
      rw [Function.update_self, k3, hcs, hca, if_pos (Nat.le_refl i : i ≥ i)]
    · rw [Function.update_of_ne hba, hcix1 b hb]
      have : s0.cix b ≠ i := fun h => hba (h0.lnk.inj hb ha (h.trans hca.symm))
      split_ifs <;> omega
  · intro b hb
    rw [← hsub1 b hb]
    simp only [sub]
    rw [he]
    by_cases hba : b = a
    · subst hba
      rw [Function.update_self, k3, hcs, Function.update_self]
    · rw [Function.update_of_ne hba, Function.update_of_ne (hne b hb hba).2]

theorem shiftLoop_mid {s0 : St} (h0 : Inv s0) (p : Nat) : ∀ (c : Nat) (s : St), p + c ≤ s0.nextcix → Mid s0 (p + c) s →
    Mid s0 p (shiftLoop p c s) := by
  intro c
  induction c with
  | zero => intro s _ h; exact h
  | succ c ih =>
    intro s hc hm
    rw [shiftLoop]
    exact ih _ (by omega) (mid_step h0 (by omega) hm)

theorem mid_init {s : St} (h : Inv s) : Mid s s.nextcix s := by
  refine ⟨⟨rfl, rfl, rfl, rfl, rfl⟩, h.lnk, fun a ha => ?_, fun a ha => ?_⟩
  · rw [if_neg (by have := h.lt a ha; omega)]
  · rw [if_neg (by have := (h.self a ha).2; omega)]

/-- Objects and cached ranges agree with the class numbers. -/
structure Obj (s : St) (insts : List Nat) : Prop where
  objs : s.objs = insts.map s.cix
  known : ∀ c ∈ insts, c < s.nextcix
  bcp : ∀ c ∈ s.builtin, c < s.nextcix ∧ s.bcp c = (s.cix c, sub s c)

theorem enterclass_none_inv {s s' : St} (h : Inv s) (insts : List Nat) (ho : Obj s insts)
    (he : enterclass s none = some s') :
    Inv s' ∧ Obj s' insts ∧ s'.nextcix = s.nextcix + 1 ∧ s'.super = Function.update s.super s.nextcix none ∧
      s'.builtin = s.builtin := by
  unfold enterclass at he
  split_ifs at he with hmax
  cases he
  have hcix : ∀ a, a < s.nextcix → Function.update s.cix s.nextcix s.nextcix a = s.cix a :=
    fun a ha => Function.update_of_ne (by omega) ..
  have htab : ∀ j, j < s.nextcix → Function.update s.tab s.nextcix ⟨s.nextcix, s.nextcix⟩ j = s.tab j :=
    fun a ha => Function.update_of_ne (by omega) ..
  have hnone : s.super s.nextcix = none := by
    cases hq : s.super s.nextcix with
    | none => rfl
    | some q => have := (h.lnk.sup _ _ hq).1; omega
  have hsupeq : Function.update s.super s.nextcix none = s.super := by
    funext x
    by_cases hx : x = s.nextcix
    · subst hx; rw [Function.update_self, hnone]
    · rw [Function.update_of_ne hx]
  refine ⟨⟨⟨?_, ?_⟩, ?_, ?_, ?_, ?_⟩, ⟨?_, ?_, ?_⟩, rfl, rfl, rfl⟩
  · intro a b hab
    simp only [hsupeq] at hab ⊢
    have := h.lnk.sup a b hab; omega
  · intro a ha
    simp only at ha ⊢
    by_cases e : a = s.nextcix
    · subst e; simp
    · rw [hcix a (by omega), htab _ (h.lt a (by omega))]; exact h.lnk.cls a (by omega)
  · intro a ha
    simp only at ha ⊢
    by_cases e : a = s.nextcix
    · subst e; simp
    · rw [hcix a (by omega)]; have := h.lt a (by omega); omega
  · intro j hj
    simp only at hj ⊢
    by_cases e : j = s.nextcix
    · subst e; simp
    · rw [htab j (by omega)]
      have := h.onto j (by omega)
      rw [hcix _ this.1]; omega
  · intro a ha
    simp only [sub] at ha ⊢
    by_cases e : a = s.nextcix
    · subst e; simp
    · rw [hcix a (by omega), htab _ (h.lt a (by omega))]
      have := h.self a (by omega); unfold sub at this; omega
  · intro a b ha hb
    simp only [sub, hsupeq] at ha hb ⊢
    by_cases ea : a = s.nextcix
    · subst ea
      rw [desc_none hnone, Function.update_self]
      by_cases eb : b = s.nextcix
      · subst eb; simp
      · rw [hcix b (by omega), htab _ (h.lt b (by omega))]
        have := h.self b (by omega); unfold sub at this
        omega
    · by_cases eb : b = s.nextcix
      · subst eb
        rw [hcix a (by omega), Function.update_self]
        have := h.lt a (by omega)
        constructor
        · intro hd
          have := hd.le (fun a b h' => (h.lnk.sup a b h').2); omega
        · intro h'; omega
      · rw [hcix a (by omega), hcix b (by omega), htab _ (h.lt b (by omega))]
        exact h.desc a b (by omega) (by omega)
  · simp only
    rw [ho.objs]
    apply List.map_congr_left
    intro c hc
    exact (hcix c (ho.known c hc)).symm
  · intro c hc; have := ho.known c hc; simp only; omega
  · intro c hc
    obtain ⟨h1, h2⟩ := ho.bcp c hc
    refine ⟨by simp only; omega, ?_⟩
    simp only [sub]
    rw [hcix c h1, htab _ (h.lt c h1)]; exact h2

theorem enterclass_some_inv {s s' : St} (h : Inv s) (insts : List Nat) (ho : Obj s insts) (sup : Nat)
    (hsup : sup < s.nextcix) (he : enterclass s (some sup) = some s') :
    Inv s' ∧ Obj s' insts ∧ s'.nextcix = s.nextcix + 1 ∧ s'.super = Function.update s.super s.nextcix (some sup) ∧
      s'.builtin = s.builtin := by
  classical
  unfold enterclass at he
  split_ifs at he with hmax
  simp only [Option.some.injEq] at he
  have hss := h.self sup hsup
  change _ at he
  have hpe : (s.tab (s.cix sup)).subcix + 1 = sub s sup + 1 := rfl
  rw [hpe] at he
  generalize hp : sub s sup + 1 = p at he
  have hm := shiftLoop_mid h p (s.nextcix - p) s (by omega)
    (by rw [show p + (s.nextcix - p) = s.nextcix by omega]; exact mid_init h)
  generalize shiftLoop p (s.nextcix - p) s = s1 at he hm
  obtain ⟨hn, hsp, hobj, hbi, hbc⟩ := hm.same
  have hcsup : s1.cix sup = s.cix sup := by rw [hm.cix sup hsup, if_neg (by omega)]
  have hb := bumpcix_spec p (s1.nextcix + 1) s1 sup hm.lnk (by omega) (by omega) (by
    intro x y hx hxy hv
    rw [hsp] at hx hxy
    have hx' := hx.le (fun a b h' => (h.lnk.sup a b h').2)
    have hxy' := h.lnk.sup x y hxy
    rw [hm.sub x (by omega)] at hv
    rw [hm.sub y (by omega)]
    have := h.mono (a := x) (b := y) (by omega) (by omega) (.step hxy (.refl _))
    split_ifs at hv ⊢ <;> omega)
  rw [hcsup] at hb
  generalize bumpcix (s1.nextcix + 1) s1 (s.cix sup) p = s2 at he hb
  obtain ⟨⟨k1, k2, k3, k4, k5, k6⟩, hl2, hsub2⟩ := hb
  -- numbers and ranges before the entry of the new class
  have hcix2 : ∀ a, a < s.nextcix → s2.cix a = if s.cix a ≥ p then s.cix a + 1 else s.cix a := by
    intro a ha; rw [k3]; exact hm.cix a ha
  have hsub2' : ∀ b, b < s.nextcix → sub s2 b =
      if Desc s.super sup b ∧ sub s b < p then p else if sub s b ≥ p then sub s b + 1 else sub s b := by
    intro b hb
    rw [hsub2 b (by omega), hm.sub b hb, hsp]
    by_cases h1 : sub s b ≥ p
    · rw [if_pos h1, if_neg (by omega), if_neg (by omega)]
    · rw [if_neg h1]
  have hnp : ∀ a, a < s.nextcix → s2.cix a ≠ p := by
    intro a ha; rw [hcix2 a ha]; split_ifs <;> omega
  have hobjs : (if p < s2.nextcix then { s2 with objs := recixobj p s2.objs } else s2) =
      { s2 with objs := insts.map s2.cix } := by
    have e2 : s2.objs = insts.map s.cix := by rw [k4, hobj, ho.objs]
    split_ifs with hlt
    · congr 1
      rw [e2, recixobj, List.map_map]
      apply List.map_congr_left
      intro c hc
      rw [hcix2 c (ho.known c hc)]; rfl
    · have : insts.map s2.cix = s2.objs := by
        rw [e2]
        apply List.map_congr_left
        intro c hc
        have := h.lt c (ho.known c hc)
        rw [hcix2 c (ho.known c hc), if_neg (by omega)]
      rw [this]
  rw [hobjs] at he
  simp only [resetcix] at he
  cases he
  have hn2 : s2.nextcix = s.nextcix := by omega
  have hs2 : s2.super = s.super := by rw [k2, hsp]
  -- the final functions
  have fcix : ∀ a, a < s.nextcix → Function.update s2.cix s.nextcix p a = s2.cix a :=
    fun a ha => Function.update_of_ne (by omega) ..
  have fcixn : Function.update s2.cix s.nextcix p s.nextcix = p := Function.update_self ..
  have ftab : ∀ a, a < s.nextcix → Function.update s2.tab p ⟨s.nextcix, p⟩ (s2.cix a) = s2.tab (s2.cix a) :=
    fun a ha => Function.update_of_ne (hnp a ha) ..
  have ftabp : Function.update s2.tab p ⟨s.nextcix, p⟩ p = ⟨s.nextcix, p⟩ := Function.update_self ..
  have fsup : ∀ a, a < s.nextcix → Function.update s.super s.nextcix (some sup) a = s.super a :=
    fun a ha => Function.update_of_ne (by omega) ..
  have fsupn : Function.update s.super s.nextcix (some sup) s.nextcix = some sup := Function.update_self ..
  have hsuplt : ∀ a b, s.super a = some b → b < a := fun a b h' => (h.lnk.sup a b h').2
  have hsuplt' : ∀ a b, Function.update s.super s.nextcix (some sup) a = some b → b < a := by
    intro a b hab
    by_cases e : a = s.nextcix
    · subst e; rw [fsupn] at hab; cases hab; exact hsup
    · rw [Function.update_of_ne e] at hab; exact hsuplt a b hab
  have hdesc : ∀ a b, a < s.nextcix → (Desc (Function.update s.super s.nextcix (some sup)) a b ↔ Desc s.super a b) := by
    intro a b ha
    exact ⟨fun hd => hd.congr (n := s.nextcix) hsuplt' (fun x hx => (fsup x hx).symm) ha,
      fun hd => hd.congr (n := s.nextcix) hsuplt fsup ha⟩
  -- ancestors of the superclass
  have hanc : ∀ b, b < s.nextcix → Desc s.super sup b → p - 1 ≤ sub s b ∧ s.cix b < p := by
    intro b hb hd
    have h1 := h.mono hsup hb hd
    have h2 := (h.desc sup b hsup hb).1 hd
    omega
  refine ⟨⟨⟨?_, ?_⟩, ?_, ?_, ?_, ?_⟩, ⟨?_, ?_, ?_⟩, ?_, ?_, ?_⟩
  · intro a b hab
    simp only [hs2] at hab ⊢
    refine ⟨?_, hsuplt' a b hab⟩
    by_cases e : a = s.nextcix
    · omega
    · rw [Function.update_of_ne e] at hab; have := h.lnk.sup a b hab; omega
  · intro a ha
    simp only at ha ⊢
    by_cases e : a = s.nextcix
    · subst e; rw [fcixn, ftabp]
    · rw [fcix a (by omega), ftab a (by omega)]; exact hl2.cls a (by omega)
  · intro a ha
    simp only at ha ⊢
    by_cases e : a = s.nextcix
    · subst e; rw [fcixn]; omega
    · rw [fcix a (by omega), hcix2 a (by omega)]
      have := h.lt a (by omega)
      split_ifs <;> omega
  · intro j hj
    simp only at hj ⊢
    by_cases e : j = p
    · subst e; rw [ftabp]; simp only; exact ⟨by omega, fcixn⟩
    · -- the class with this number
      have : ∃ a, a < s.nextcix ∧ s2.cix a = j := by
        by_cases hjp : j < p
        · obtain ⟨h1, h2⟩ := h.onto j (by omega)
          exact ⟨_, h1, by rw [hcix2 _ h1, h2, if_neg (by omega)]⟩
        · obtain ⟨h1, h2⟩ := h.onto (j - 1) (by omega)
          exact ⟨_, h1, by rw [hcix2 _ h1, h2, if_pos (by omega)]; omega⟩
      obtain ⟨a, ha, rfl⟩ := this
      rw [ftab a ha, hl2.cls a (by omega), fcix a ha]
      exact ⟨by omega, rfl⟩
  · intro a ha
    simp only [sub] at ha ⊢
    by_cases e : a = s.nextcix
    · subst e; rw [fcixn, ftabp]; simp only; omega
    · have h1 := h.self a (by omega)
      rw [fcix a (by omega), ftab a (by omega)]
      change s2.cix a ≤ sub s2 a ∧ sub s2 a < _
      rw [hsub2' a (by omega), hcix2 a (by omega)]
      by_cases hd : Desc s.super sup a ∧ sub s a < p
      · have := hanc a (by omega) hd.1
        rw [if_pos hd, if_neg (by omega)]; omega
      · rw [if_neg hd]; split_ifs <;> omega
  · intro a b ha hb
    simp only [sub, hs2] at ha hb ⊢
    by_cases ea : a = s.nextcix
    · subst ea
      rw [desc_some fsupn, fcixn]
      by_cases eb : b = s.nextcix
      · subst eb
        rw [fcixn, ftabp]; simp
      · have hb' : b < s.nextcix := by omega
        rw [fcix b hb', ftab b hb', hdesc sup b hsup]
        change _ ↔ s2.cix b ≤ p ∧ p ≤ sub s2 b
        rw [hsub2' b hb', hcix2 b hb']
        have hbs := h.self b hb'
        constructor
        · rintro (hbn | hd)
          · exact absurd hbn eb
          · have h1 := hanc b hb' hd
            rw [if_neg (by omega)]
            refine ⟨by omega, ?_⟩
            by_cases h2 : sub s b < p
            · rw [if_pos ⟨hd, h2⟩]; exact Nat.le_refl p
            · rw [if_neg (fun hh => h2 hh.2), if_pos (by omega)]; omega
        · rintro ⟨h1, h2⟩
          right
          by_cases hd : Desc s.super sup b ∧ sub s b < p
          · exact hd.1
          · rw [if_neg hd] at h2
            have hge : sub s b ≥ p := by split_ifs at h2 with h3 <;> omega
            have hlt : s.cix b < p := by split_ifs at h1 <;> omega
            -- the class numbered p-1 is below both
            obtain ⟨hq, hqc⟩ := h.onto (p - 1) (by omega)
            have d1 : Desc s.super (s.tab (p - 1)).cls sup := (h.desc _ _ hq hsup).2 (by rw [hqc]; omega)
            have d2 : Desc s.super (s.tab (p - 1)).cls b := (h.desc _ _ hq hb').2 (by rw [hqc]; omega)
            rcases d1.total d2 with hd' | hd'
            · exact hd'
            · exfalso
              have := h.mono hb' hsup hd'
              omega
    · have ha' : a < s.nextcix := by omega
      rw [hdesc a b ha', fcix a ha']
      by_cases eb : b = s.nextcix
      · subst eb
        rw [fcixn, ftabp]
        simp only
        have := hnp a ha'
        constructor
        · intro hd
          have := hd.le hsuplt; omega
        · intro h'; omega
      · have hb' : b < s.nextcix := by omega
        rw [fcix b hb', ftab b hb']
        change _ ↔ s2.cix b ≤ s2.cix a ∧ s2.cix a ≤ sub s2 b
        rw [h.desc a b ha' hb', hsub2' b hb', hcix2 b hb', hcix2 a ha']
        have hbs := h.self b hb'
        by_cases hd : Desc s.super sup b ∧ sub s b < p
        · have := hanc b hb' hd.1
          rw [if_pos hd]
          split_ifs <;> omega
        · rw [if_neg hd]
          split_ifs <;> omega
  · simp only
    apply List.map_congr_left
    intro c hc
    exact (fcix c (ho.known c hc)).symm
  · intro c hc; have := ho.known c hc; simp only; omega
  · intro c hc
    simp only at hc ⊢
    have hcb : c ∈ s.builtin := by rw [← hbi, ← k5]; exact hc
    obtain ⟨h1, h2⟩ := ho.bcp c hcb
    refine ⟨by omega, ?_⟩
    simp only [sub]
    rw [fcix c h1, ftab c h1, if_pos hc]
  · simp only; omega
  · simp only; rw [hs2]
  · simp only; rw [k5, hbi]

theorem inv_init : Inv St.init :=
  ⟨⟨by intro a b h; simp [St.init] at h, by intro a h; simp [St.init] at h⟩, by intro a h; simp [St.init] at h,
    by intro a h; simp [St.init] at h, by intro a h; simp [St.init] at h, by intro a b h; simp [St.init] at h⟩

/-- The state and the history agree. -/
structure Agree (s : St) (H : Hist) : Prop where
  inv : Inv s
  obj : Obj s H.insts
  n : s.nextcix = H.supers.length
  sup : ∀ c, s.super c = H.superOf c
  bi : s.builtin = H.builtins

theorem agree_init : Agree St.init ⟨[], [], []⟩ :=
  ⟨inv_init, ⟨rfl, by simp, by simp [St.init]⟩, rfl, by intro c; simp [St.init, Hist.superOf], rfl⟩

theorem enterclass_agree {s s' : St} {H : Hist} (h : Agree s H) (super : Option Nat)
    (hs : (super.all fun c => decide (c < s.nextcix)) = true) (he : enterclass s super = some s') :
    Agree s' { H with supers := H.supers ++ [super] } ∧ H.supers.length < MAXCLASS := by
  have hmax : s.nextcix < MAXCLASS := by
    unfold enterclass at he; split_ifs at he with hm; omega
  have key : Inv s' ∧ Obj s' H.insts ∧ s'.nextcix = s.nextcix + 1 ∧
      s'.super = Function.update s.super s.nextcix super ∧ s'.builtin = s.builtin := by
    cases super with
    | none => exact enterclass_none_inv h.inv _ h.obj he
    | some sup => exact enterclass_some_inv h.inv _ h.obj sup (by simpa using hs) he
  obtain ⟨k1, k2, k3, k4, k5⟩ := key
  refine ⟨⟨k1, k2, by simp [k3, h.n], fun c => ?_, k5.trans h.bi⟩, by rw [← h.n]; exact hmax⟩
  rw [k4]
  simp only [Hist.superOf]
  by_cases e : c = s.nextcix
  · subst e
    rw [Function.update_self, h.n]
    simp
  · rw [Function.update_of_ne e, h.sup c]
    simp only [Hist.superOf]
    by_cases hc : c < H.supers.length
    · rw [List.getElem?_append_left hc]
    · rw [List.getElem?_eq_none (by omega), List.getElem?_eq_none (by simp; have := h.n; omega)]

theorem agree_step {s : St} {H : Hist} (h : Agree s H) (op : Op) : Agree (step s op) (hstep H op) := by
  cases op with
  | instantiate c =>
    simp only [step, hstep]
    rw [h.n]
    split_ifs with hc
    · refine ⟨⟨⟨h.inv.lnk.sup, h.inv.lnk.cls⟩, h.inv.lt, h.inv.onto, h.inv.self, h.inv.desc⟩, ⟨?_, ?_, h.obj.bcp⟩, h.n, h.sup, h.bi⟩
      · simp [makeobject, h.obj.objs]
      · intro d hd
        simp only [List.mem_append, List.mem_singleton] at hd
        rcases hd with hd | rfl
        · exact h.obj.known d hd
        · show d < s.nextcix; rw [h.n]; exact hc
    · exact h
  | defclass b super =>
    simp only [step, hstep]
    rw [← h.n]
    by_cases hs : (super.all fun c => decide (c < s.nextcix)) = true
    · rw [if_pos hs]
      cases he : enterclass s super with
      | none =>
        have hmax : ¬ s.nextcix < MAXCLASS := by
          intro hlt
          unfold enterclass at he
          rw [if_neg (by omega)] at he
          cases he
        rw [if_neg (c := _ ∧ s.nextcix < MAXCLASS) (fun hh => hmax hh.2)]
        have hb : basicclass s super = none := by simp [basicclass, he]
        cases b
        · simpa using h
        · simpa [hb] using h
      | some s' =>
        obtain ⟨ha, hlt⟩ := enterclass_agree h super hs he
        rw [if_pos (c := _ ∧ s.nextcix < MAXCLASS) ⟨hs, by rw [h.n]; exact hlt⟩]
        cases b
        · simpa using ha
        · simp only [basicclass, he, Option.map_some, if_true, Option.getD_some]
          have hn' : s'.nextcix = s.nextcix + 1 := by rw [ha.n, h.n]; simp
          refine ⟨⟨⟨ha.inv.lnk.sup, ha.inv.lnk.cls⟩, ha.inv.lt, ha.inv.onto, ha.inv.self, ha.inv.desc⟩,
            ⟨ha.obj.objs, ha.obj.known, ?_⟩, ha.n, ha.sup, by simp [ha.bi, h.n]⟩
          intro c hc
          simp only [List.mem_cons] at hc
          simp only [sub]
          rcases hc with rfl | hc
          · exact ⟨by omega, by rw [Function.update_self]⟩
          · obtain ⟨h1, h2⟩ := ha.obj.bcp c hc
            refine ⟨h1, ?_⟩
            rw [ha.bi] at hc
            simp only [← h.bi] at hc
            have := (h.obj.bcp c hc).1
            rw [Function.update_of_ne (by omega)]
            exact h2
    · rw [if_neg hs, if_neg (fun hh => hs hh.1)]
      exact h

theorem agree_run (ops : List Op) : Agree (ops.foldl step St.init) (ops.foldl hstep ⟨[], [], []⟩) := by
  have gen : ∀ (ops : List Op) (s : St) (H : Hist), Agree s H → Agree (ops.foldl step s) (ops.foldl hstep H) := by
    intro ops
    induction ops with
    | nil => intro s H h; exact h
    | cons op ops ih => intro s H h; exact ih _ _ (agree_step h op)
  exact gen ops _ _ agree_init

end Eus.Cls
