import Verif.Ctl.Spec
import Mathlib.Tactic
set_option autoImplicit false
/-
Every form, however it is left, leaves the chains of frames as it found them.
-/
namespace Eus.Ctl

/-! ### chains -/

theorem dropWhile_dropWhile {α : Type} (p q : α → Bool) (h : ∀ a, q a = true → p a = true) (l : List α) :
    (l.dropWhile q).dropWhile p = l.dropWhile p := by
  induction l with
  | nil => rfl
  | cons a l ih =>
    rw [List.dropWhile_cons]
    split
    · rename_i hq
      rw [ih, List.dropWhile_cons, if_pos (h a hq)]
    · rfl

theorem dropWhile_eq_self {α : Type} (p : α → Bool) (l : List α) (h : ∀ a ∈ l, p a = false) : l.dropWhile p = l := by
  cases l with
  | nil => rfl
  | cons a l => rw [List.dropWhile_cons, h a (by simp)]; rfl

/-- All positions of the block chains leave room for the frame below `lim`. -/
def BlkOk : Nat → Blk → Prop
  | _, .null => True
  | lim, .frame pos _ dyn lex => pos + 5 ≤ lim ∧ BlkOk pos dyn ∧ BlkOk pos lex

theorem BlkOk.mono {b : Blk} : ∀ {l m : Nat}, l ≤ m → BlkOk l b → BlkOk m b := by
  intro l m h
  cases b with
  | null => exact id
  | frame pos n d x => rintro ⟨a, b, c⟩; exact ⟨by omega, b, c⟩

/-- Positions of the blocks visible. -/
def lexPos : Blk → List Nat
  | .null => []
  | .frame pos _ _ lex => pos :: lexPos lex

theorem lexPos_lt {b : Blk} : ∀ {l : Nat}, BlkOk l b → ∀ p ∈ lexPos b, p + 5 ≤ l := by
  induction b with
  | null => intro l _ p hp; cases hp
  | frame pos n d x _ ih =>
    rintro l ⟨h1, h2, h3⟩ p hp
    rcases List.mem_cons.1 hp with rfl | hp
    · exact h1
    · have := ih h3 p hp; omega

theorem dropBlk_dropBlk {p q : Nat} (h : q ≤ p) (b : Blk) : dropBlk q (dropBlk p b) = dropBlk q b := by
  induction b with
  | null => rfl
  | frame pos n d x ih _ =>
    rw [dropBlk]
    split
    · rw [ih]; conv_rhs => rw [dropBlk, if_pos (by omega)]
    · rfl

theorem dropBlk_self {p : Nat} {b : Blk} : BlkOk p b → dropBlk p b = b := by
  cases b with
  | null => exact fun _ => rfl
  | frame pos n d x => rintro ⟨h, -, -⟩; rw [dropBlk, if_neg (by omega)]

theorem dropBlk_ok {p l : Nat} {b : Blk} : BlkOk l b → BlkOk l (dropBlk p b) := by
  induction b generalizing l with
  | null => exact id
  | frame pos n d x ih _ =>
    rintro ⟨h1, h2, h3⟩
    rw [dropBlk]; split
    · exact BlkOk.mono (by omega) (ih h2)
    · exact ⟨h1, h2, h3⟩

/-- Of different tags each is found once. -/
theorem after_eq (t : Int) (b : Tm) (h : (tagsOf b).Nodup) : after t b = fromTag t b := by
  have none_of : ∀ b : Tm, t ∉ tagsOf b → after t b = none := by
    intro b
    induction b with
    | label u r ih =>
      intro hn
      simp only [tagsOf, List.mem_cons, not_or] at hn
      simp only [after, ih hn.2]
      rw [if_neg (Ne.symm hn.1)]
    | progn a r _ ih => intro hn; exact ih hn
    | _ => intro _; rfl
  induction b with
  | label u r ih =>
    simp only [tagsOf, List.nodup_cons] at h
    simp only [after, fromTag]
    by_cases hu : u = t
    · subst hu
      rw [none_of r h.1]
      simp
    · rw [ih h.2, if_neg hu]
      cases fromTag t r <;> simp [hu]
  | progn a r _ ih => exact ih h
  | _ => rfl

theorem fromTag_scoped {bs : List BI} {t : Int} {b k : Tm} (h : fromTag t b = some k) (hs : Scoped bs b = true) : Scoped bs k = true := by
  induction b with
  | label u r ih =>
    simp only [fromTag] at h
    split at h
    · cases h; exact hs
    · exact ih h hs
  | progn a r _ ih =>
    simp only [Scoped, Bool.and_eq_true] at hs
    exact ih h hs.2
  | _ => cases h

theorem fromTag_sets {x : Nat} {t : Int} {b k : Tm} (h : fromTag t b = some k) (hs : sets x b = false) : sets x k = false := by
  induction b with
  | label u r ih =>
    simp only [fromTag] at h
    split at h
    · cases h; exact hs
    · exact ih h hs
  | progn a r _ ih =>
    simp only [sets, Bool.or_eq_false_iff] at hs
    exact ih h hs.2
  | _ => cases h

theorem fromTag_tame {pure : Nat → Bool} {m : Option (List Nat)} {t : Int} {b k : Tm} (h : fromTag t b = some k) (hs : Tame pure m b = true) :
    Tame pure m k = true := by
  induction b with
  | label u r ih =>
    simp only [fromTag] at h
    split at h
    · cases h; exact hs
    · exact ih h hs
  | progn a r _ ih =>
    simp only [Tame, Bool.and_eq_true] at hs
    exact ih h hs.2
  | _ => cases h

theorem fromTag_marked {t : Int} {b k : Tm} (h : fromTag t b = some k) (hs : Marked b = true) : Marked k = true := by
  induction b with
  | label u r ih =>
    simp only [fromTag] at h
    split at h
    · cases h; exact hs
    · exact ih h hs
  | progn a r _ ih =>
    simp only [Marked, Bool.and_eq_true] at hs
    exact ih h hs.2
  | _ => cases h

theorem findBlk_mem {n : Key} {p : Nat} {b B : Blk} (h : findBlk n b = some (p, B)) : p ∈ lexPos b ∧ ∃ nm d x, B = .frame p nm d x := by
  induction b with
  | null => cases h
  | frame pos m d x _ ih =>
    rw [findBlk] at h
    split at h
    · simp only [Option.some.injEq, Prod.mk.injEq] at h
      obtain ⟨rfl, rfl⟩ := h
      exact ⟨by simp [lexPos], _, _, _, rfl⟩
    · obtain ⟨h1, h2⟩ := ih h
      exact ⟨by simp [lexPos, h1], h2⟩

/-- The chain of special bindings after unbinding. -/
theorem unbind_fst (p : Nat) (l : List SBind) (s : Nat → Val) : (unbindspecial p l s).1 = l.dropWhile (fun f => decide (p ≤ f.pos)) := by
  induction l generalizing s with
  | nil => rfl
  | cons f l ih =>
    rw [unbindspecial, List.dropWhile_cons]
    by_cases h : p ≤ f.pos
    · rw [if_pos h, ih]; simp [h]
    · rw [if_neg h]; simp [h]

theorem unbind_none (p : Nat) (l : List SBind) (s : Nat → Val) (h : ∀ f ∈ l, f.pos < p) : unbindspecial p l s = (l, s) := by
  cases l with
  | nil => rfl
  | cons f l => rw [unbindspecial, if_neg (by have := h f (by simp); omega)]

/-- What unbinding does to a variable depends on that variable only. -/
theorem unbind_congr (p : Nat) (l : List SBind) (s t : Nat → Val) (x : Nat) (h : s x = t x) : (unbindspecial p l s).2 x = (unbindspecial p l t).2 x := by
  induction l generalizing s t with
  | nil => exact h
  | cons f l ih =>
    rw [unbindspecial, unbindspecial]
    split
    · apply ih
      unfold upd; split <;> [rfl; exact h]
    · exact h

theorem unbind_unbind (p q : Nat) (h : q ≤ p) (l : List SBind) (s : Nat → Val) :
    unbindspecial q (unbindspecial p l s).1 (unbindspecial p l s).2 = unbindspecial q l s := by
  induction l generalizing s with
  | nil => rfl
  | cons f l ih =>
    rw [unbindspecial]
    by_cases hp : p ≤ f.pos
    · rw [if_pos hp, ih]; conv_rhs => rw [unbindspecial, if_pos (by omega)]
    · rw [if_neg hp]

/-! ### the invariant -/

/-- The frames lie below the stack pointer, inner frames above outer ones; the cleanup forms are scoped and do not
assign to the variables of `X`. -/
structure WF (X : Nat → Prop) (c : Ctx) : Prop where
  sb : ∀ f ∈ c.sbindfp, f.pos + 3 ≤ c.vsp
  sbs : c.sbindfp.Pairwise (fun f g => g.pos + 3 ≤ f.pos)
  ct : ∀ f ∈ c.catchfp, f.pos + 6 ≤ c.vsp
  cts : c.catchfp.Pairwise (fun f g => g.pos < f.pos)
  pr : ∀ f ∈ c.protfp, f.pos + 2 ≤ c.vsp
  prs : c.protfp.Pairwise (fun f g => g.pos < f.pos)
  bk : BlkOk c.vsp c.blkfp
  cl : ∀ f ∈ c.protfp, Scoped [] f.cleaner = true ∧ ∀ x, X x → sets x f.cleaner = false

/-- The blocks a form may return from are there. -/
def Sees (bs : List BI) (c : Ctx) : Prop :=
  ∀ n b, bs.find? (fun b => b.name.hits n) = some b → ∃ p B, findBlk n c.blkfp = some (p, B) ∧ dropBlk p c.blkfp = B ∧
    (b.overCatch = false → ∀ f ∈ c.catchfp, f.pos < p) ∧ (b.overProt = false → ∀ f ∈ c.protfp, f.pos < p)

/-- The same chains. -/
structure Same (c c' : Ctx) : Prop where
  vsp : c'.vsp = c.vsp
  sb : c'.sbindfp = c.sbindfp
  ct : c'.catchfp = c.catchfp
  bk : c'.blkfp = c.blkfp
  pr : c'.protfp = c.protfp

/-- The chains cut back to `p`. -/
structure Left (p : Nat) (c c' : Ctx) : Prop where
  sb : c'.sbindfp = c.sbindfp.dropWhile (fun f => decide (p ≤ f.pos))
  ct : c'.catchfp = c.catchfp.dropWhile (fun f => decide (f.pos > p))
  bk : c'.blkfp = dropBlk p c.blkfp
  pr : c'.protfp = c.protfp.dropWhile (fun f => decide (p ≤ f.pos))

/-- Variables of `X` have the values they had, or would have once the bindings down to `p` are undone. -/
def Keeps (X : Nat → Prop) (c c' : Ctx) : Prop := ∀ x, X x → c'.spec x = c.spec x
def KeepsTo (X : Nat → Prop) (p : Nat) (c c' : Ctx) : Prop := ∀ x, X x → c'.spec x = (unbindspecial p c.sbindfp c.spec).2 x

/-- A `catch` in force is at `p`. -/
def CT (c : Ctx) (p : Nat) : Prop := ∃ f ∈ c.catchfp, f.pos = p

/-- A good outcome. -/
def Good (X : Nat → Prop) (T : Nat → Prop) (c : Ctx) : Res → Prop
  | .val _ c' => Same c c' ∧ Keeps X c c'
  | .jump p _ c' => T p ∧ Left p c c' ∧ KeepsTo X p c c'
  | .fail _ => True
  | .ub => False
  | .timeout => True

/-- Targets of exits. -/
def Tgt (c : Ctx) (p : Nat) : Prop := CT c p ∨ p ∈ lexPos c.blkfp

theorem Same.refl (c : Ctx) : Same c c := ⟨rfl, rfl, rfl, rfl, rfl⟩
theorem Same.trans {a b c : Ctx} (h : Same a b) (k : Same b c) : Same a c :=
  ⟨k.1.trans h.1, k.2.trans h.2, k.3.trans h.3, k.4.trans h.4, k.5.trans h.5⟩

theorem WF.same {X : Nat → Prop} {c c' : Ctx} (w : WF X c) (h : Same c c') : WF X c' := by
  obtain ⟨h1, h2, h3, h4, h5⟩ := h
  obtain ⟨a, b, c, d, e, f, g, k⟩ := w
  exact ⟨by rwa [h1, h2], by rwa [h2], by rwa [h1, h3], by rwa [h3], by rwa [h1, h5], by rwa [h5], by rwa [h1, h4], by rwa [h5]⟩

theorem Sees.same {bs : List BI} {c c' : Ctx} (w : Sees bs c) (h : Same c c') : Sees bs c' := by
  intro n b hb
  rw [h.bk, h.ct, h.pr]; exact w n b hb

/-- Same frames, the stack pointer moved up. -/
theorem WF.up {X : Nat → Prop} {c : Ctx} (w : WF X c) (v : Nat) (h : c.vsp ≤ v) : WF X { c with vsp := v } := by
  obtain ⟨a, b, e, d, f, g, k, l⟩ := w
  exact ⟨fun x hx => (a x hx).trans h, b, fun x hx => (e x hx).trans h, d, fun x hx => (f x hx).trans h, g, k.mono h, l⟩

theorem WF.spec {X : Nat → Prop} {c : Ctx} (w : WF X c) (s : Nat → Val) (o : List Val) : WF X { c with spec := s, out := o } := by
  obtain ⟨a, b, e, d, f, g, k, l⟩ := w
  exact ⟨a, b, e, d, f, g, k, l⟩

theorem Left.same {p : Nat} {c d c' : Ctx} (h : Same c d) (k : Left p d c') : Left p c c' := by
  obtain ⟨a, b, e, f⟩ := k
  exact ⟨by rw [a, h.sb], by rw [b, h.ct], by rw [e, h.bk], by rw [f, h.pr]⟩

theorem KeepsTo.same {X : Nat → Prop} {p : Nat} {c d c' : Ctx} (h : Same c d) (hk : Keeps X c d) (k : KeepsTo X p d c') : KeepsTo X p c c' := by
  intro x hx
  rw [k x hx, h.sb]
  exact unbind_congr p _ _ _ x (hk x hx)

theorem Tgt.same {p : Nat} {c d : Ctx} (h : Same c d) (k : Tgt d p) : Tgt c p := by
  unfold Tgt CT at *; rw [h.ct, h.bk] at k; exact k

/-- Going on after a value. -/
theorem Good.bind {X T : Nat → Prop} {c : Ctx} {r : Res} {f : Val → Ctx → Res} (h : Good X T c r)
    (k : ∀ v c', Same c c' → Keeps X c c' → Good X T c (f v c')) : Good X T c (r.bind f) := by
  cases r with
  | val v c' => exact k v c' h.1 h.2
  | jump p v c' => exact h
  | fail c' => exact h
  | ub => exact h
  | timeout => exact h

/-- Going over to a context with the same chains. -/
theorem Good.same {X : Nat → Prop} {c d : Ctx} {r : Res} (h : Same c d) (hk : Keeps X c d) (k : Good X (Tgt d) d r) : Good X (Tgt c) c r := by
  cases r with
  | val v c' => exact ⟨h.trans k.1, fun x hx => (k.2 x hx).trans (hk x hx)⟩
  | jump p v c' => exact ⟨k.1.same h, k.2.1.same h, k.2.2.same h hk⟩
  | fail c' => trivial
  | ub => exact k
  | timeout => trivial

/-- What is assumed of the evaluator at less fuel. -/
def RecGood (X : Nat → Prop) (rec : Tm → Ctx → Res) : Prop :=
  ∀ t bs c, Scoped bs t = true → (∀ x, X x → sets x t = false) → Sees bs c → WF X c → Good X (Tgt c) c (rec t c)

theorem sorted_lt {c : Ctx} {X : Nat → Prop} (w : WF X c) : ∀ f ∈ c.sbindfp, ∀ l, (match c.sbindfp with | [] => 0 | f :: _ => f.pos + 3) = l → f.pos < l := by
  intro f hf l hl
  have := w.sbs
  cases h : c.sbindfp with
  | nil => rw [h] at hf; cases hf
  | cons g gs =>
    rw [h] at hf hl this
    dsimp only at hl
    rcases List.mem_cons.1 hf with rfl | hf
    · omega
    · have := (List.pairwise_cons.1 this).1 f hf; omega

/-- The end of a call, when the frames of the callee are gone. -/
theorem funEnd_good {X : Nat → Prop} {c c' : Ctx} {v : Val} {T : Nat → Prop} (w : WF X c) (h1 : c'.sbindfp = c.sbindfp) (h2 : c'.catchfp = c.catchfp)
    (h3 : c'.protfp = c.protfp) (hk : Keeps X c c') : Good X T c (funEnd c v c') := by
  unfold funEnd
  simp only []
  rw [unbind_none _ c'.sbindfp _ (by rw [h1]; exact fun f hf => sorted_lt w f hf _ rfl)]
  exact ⟨⟨rfl, h1, h2, rfl, h3⟩, hk⟩

theorem callFn_good {X : Nat → Prop} {rec : Tm → Ctx → Res} (H : RecGood X rec) (name : Name) (body : Tm) (bs : List BI) (c : Ctx) (w : WF X c)
    (hs : Scoped bs body = true) (hx : ∀ x, X x → sets x body = false) (hb : bs = [] ∨ bs = [⟨name, false, false⟩]) :
    Good X (CT c) c (callFn rec name body c) := by
  unfold callFn
  simp only []
  set c1 : Ctx := { c with blkfp := .frame (c.vsp + 2) name c.blkfp .null, vsp := c.vsp + 2 + 5 } with hc1
  have w1 : WF X c1 := by
    have w' := w.up (c.vsp + 2 + 5) (by omega)
    exact ⟨w'.sb, w'.sbs, w'.ct, w'.cts, w'.pr, w'.prs, ⟨by simp [hc1], w.bk.mono (by omega), trivial⟩, w'.cl⟩
  have s1 : Sees bs c1 := by
    rcases hb with rfl | rfl
    · intro n b hn; cases hn
    · intro n b hn
      simp only [List.find?_cons, List.find?_nil] at hn
      split at hn
      · rename_i hnm
        refine ⟨c.vsp + 2, c1.blkfp, by simp [hc1, findBlk, hnm], by simp [hc1, dropBlk], fun _ f hf => ?_, fun _ f hf => ?_⟩
        · have := w.ct f hf; omega
        · have := w.pr f hf; omega
      · cases hn
  have g := H body bs c1 hs hx s1 w1
  generalize rec body c1 = r at g
  cases r with
  | val v c' => exact funEnd_good w g.1.sb g.1.ct g.1.pr g.2
  | jump p v c' =>
    obtain ⟨g1, g2, g3⟩ := g
    dsimp only
    by_cases hp : p = c.vsp + 2
    · rw [if_pos hp]
      subst hp
      have e1 : c'.sbindfp = c.sbindfp := g2.sb.trans (dropWhile_eq_self _ _ fun f hf => by have := w.sb f hf; simp; omega)
      refine funEnd_good w e1 ?_ ?_ ?_
      · exact g2.ct.trans (dropWhile_eq_self _ _ fun f hf => by have := w.ct f hf; simp; omega)
      · exact g2.pr.trans (dropWhile_eq_self _ _ fun f hf => by have := w.pr f hf; simp; omega)
      · intro x hx
        rw [g3 x hx, unbind_none _ _ _ (fun f hf => by have := w.sb f hf; omega)]
    · rw [if_neg hp]
      have hct : CT c p := by
        rcases g1 with g1 | g1
        · exact g1
        · simp only [hc1, lexPos, List.mem_singleton] at g1; exact absurd g1 hp
      refine ⟨hct, ⟨g2.sb, g2.ct, ?_, g2.pr⟩, g3⟩
      obtain ⟨f, hf, rfl⟩ := hct
      rw [g2.bk, hc1, dropBlk, if_pos (by have := w.ct f hf; omega)]
  | fail c' => trivial
  | ub => exact g
  | timeout => trivial

/-- The outcome of unwinding. -/
def GoodU (X : Nat → Prop) (p : Nat) (c : Ctx) : Res → Prop
  | .val _ c' => Left p c c' ∧ KeepsTo X p c c'
  | .jump q _ c' => q ≤ p ∧ CT c q ∧ Left q c c' ∧ KeepsTo X q c c'
  | .fail _ => True
  | .ub => False
  | .timeout => True

theorem dropFrames_left {X : Nat → Prop} {p : Nat} {c : Ctx} (h : ∀ f ∈ c.protfp, f.pos < p) : Left p c (dropFrames p c) ∧ KeepsTo X p c (dropFrames p c) := by
  refine ⟨⟨unbind_fst _ _ _, rfl, rfl, ?_⟩, fun x _ => rfl⟩
  exact (dropWhile_eq_self _ _ fun f hf => by have := h f hf; simp; omega).symm

theorem unwind_good {X : Nat → Prop} {rec : Tm → Ctx → Res} (H : RecGood X rec) (k : Nat) (p : Nat) : ∀ (c : Ctx), WF X c →
    ((∀ f ∈ c.catchfp, f.pos ≤ p) ∨ ∀ f ∈ c.protfp, f.pos < p) → GoodU X p c (unwind rec k p c) := by
  induction k with
  | zero => intro c _ _; trivial
  | succ k ih =>
    intro c w hc
    rw [unwind]
    cases hp : c.protfp with
    | nil => exact dropFrames_left (by rw [hp]; simp)
    | cons f fs =>
      dsimp only
      have wp := w.prs; rw [hp] at wp
      by_cases hf : f.pos ≥ p
      · rw [if_pos hf]
        have hcat : ∀ f ∈ c.catchfp, f.pos ≤ p := by
          rcases hc with hc | hc
          · exact hc
          · exfalso; have := hc f (by rw [hp]; simp); omega
        have w0 : WF X { c with protfp := fs } := by
          refine ⟨w.sb, w.sbs, w.ct, w.cts, fun g hg => w.pr g (by rw [hp]; simp [show g ∈ fs from hg]), (List.pairwise_cons.1 wp).2, w.bk,
            fun g hg => w.cl g (by rw [hp]; simp [show g ∈ fs from hg])⟩
        obtain ⟨hs, hx⟩ := w.cl f (by rw [hp]; simp)
        have g := callFn_good H 0 f.cleaner [] _ w0 hs hx (Or.inl rfl)
        generalize callFn rec 0 f.cleaner { c with protfp := fs } = r at g
        have hl : ∀ {q : Nat} {c' : Ctx}, q ≤ p → Left q { c with protfp := fs } c' → Left q c c' := by
          intro q c' hq hl
          refine ⟨hl.sb, hl.ct, hl.bk, ?_⟩
          rw [hl.pr, hp, List.dropWhile_cons, if_pos (by simp; omega)]
        cases r with
        | val v c' =>
          have g2 := ih c' (w0.same g.1) (Or.inl (by rw [g.1.ct]; exact hcat))
          dsimp only [Res.bind]
          generalize unwind rec k p c' = r at g2
          cases r with
          | val v c'' => exact ⟨hl (le_refl _) (g2.1.same g.1), KeepsTo.same (c := { c with protfp := fs }) g.1 g.2 g2.2⟩
          | jump q v c'' =>
            refine ⟨g2.1, ?_, hl g2.1 (g2.2.2.1.same g.1), KeepsTo.same (c := { c with protfp := fs }) g.1 g.2 g2.2.2.2⟩
            have := g2.2.1; unfold CT at *; rw [g.1.ct] at this; exact this
          | fail c'' => trivial
          | ub => exact g2
          | timeout => trivial
        | jump q v c' =>
          obtain ⟨⟨f, h1, h2⟩, g2, g3⟩ := g
          have hq : q ≤ p := by rw [← h2]; exact hcat f h1
          exact ⟨hq, ⟨f, h1, h2⟩, hl hq g2, g3⟩
        | fail c' => trivial
        | ub => exact g
        | timeout => trivial
      · rw [if_neg hf]
        apply dropFrames_left
        intro g hg
        rw [hp] at hg
        rcases List.mem_cons.1 hg with rfl | hg
        · omega
        · have := (List.pairwise_cons.1 wp).1 g hg; omega

theorem CT_of_catch {X T : Nat → Prop} {c : Ctx} {r : Res} (h : Good X (CT c) c r) (hT : ∀ p, CT c p → T p) : Good X T c r := by
  cases r with
  | val v c' => exact h
  | jump p v c' => exact ⟨hT p h.1, h.2⟩
  | fail c' => trivial
  | ub => exact h
  | timeout => trivial

theorem error_good {X : Nat → Prop} {P : Prog} {rec : Tm → Ctx → Res} (HP : P.Scoped) (hX : ∀ x, X x → ∀ f, sets x (P.F f) = false)
    (H : RecGood X rec) (c : Ctx) (w : WF X c) : Good X (Tgt c) c (error P rec c) := by
  unfold error
  split
  · trivial
  · rename_i h _
    have g := callFn_good H (.blk h) (P.F h) _ { c with vsp := c.vsp + 3 } (w.up _ (by omega)) (HP h) (fun x hx => hX x hx h) (Or.inr rfl)
    generalize callFn rec (.blk h) (P.F h) { c with vsp := c.vsp + 3 } = r at g
    cases r with
    | val v c' => trivial
    | jump p v c' => exact ⟨Or.inl g.1, ⟨g.2.1.sb, g.2.1.ct, g.2.1.bk, g.2.1.pr⟩, g.2.2⟩
    | fail c' => trivial
    | ub => exact g
    | timeout => trivial

/-- The frame `throw` finds is the first one not above its own position. -/
theorem catch_drop {l : List Catch} (h : l.Pairwise (fun f g => g.pos < f.pos)) (tag : Val) {f : Catch} {fs : List Catch}
    (e : l.dropWhile (fun f => decide (f.label ≠ tag)) = f :: fs) : l.dropWhile (fun g => decide (g.pos > f.pos)) = f :: fs ∧
      f ∈ l ∧ (∀ g ∈ f :: fs, g.pos ≤ f.pos) ∧ f.label = tag := by
  induction l with
  | nil => cases e
  | cons a l ih =>
    rw [List.pairwise_cons] at h
    rw [List.dropWhile_cons] at e
    split at e
    · obtain ⟨i1, i2, i3, i4⟩ := ih h.2 e
      refine ⟨?_, by simp [i2], i3, i4⟩
      rw [List.dropWhile_cons, if_pos (by have := h.1 f i2; simpa using this)]
      exact i1
    · rename_i hl
      obtain ⟨rfl, rfl⟩ := List.cons.inj e
      refine ⟨by rw [List.dropWhile_cons, if_neg (by simp)], by simp, ?_, by simpa using hl⟩
      intro g hg
      rcases List.mem_cons.1 hg with rfl | hg
      · exact le_refl _
      · exact le_of_lt (h.1 g hg)

theorem throw_good {X : Nat → Prop} {P : Prog} {rec : Tm → Ctx → Res} (HP : P.Scoped) (hX : ∀ x, X x → ∀ f, sets x (P.F f) = false)
    (H : RecGood X rec) (k : Nat) (tag v : Val) (c : Ctx) (w : WF X c) : Good X (Tgt c) c (throw P rec k tag v c) := by
  unfold throw
  cases hd : c.catchfp.dropWhile (fun f => decide (f.label ≠ tag)) with
  | nil => exact error_good HP hX H c w
  | cons f fs =>
    dsimp only
    obtain ⟨e1, e2, e3, e4⟩ := catch_drop w.cts tag hd
    have sub : ∀ g ∈ f :: fs, g ∈ c.catchfp := fun g hg => (List.dropWhile_sublist _).subset (hd ▸ hg)
    have w2 : WF X { c with catchfp := f :: fs } :=
      ⟨w.sb, w.sbs, fun g hg => w.ct g (sub g hg), (hd ▸ w.cts.sublist (List.dropWhile_sublist _)), w.pr, w.prs, w.bk, w.cl⟩
    have g := unwind_good H k f.pos { c with catchfp := f :: fs } w2 (Or.inl e3)
    generalize unwind rec k f.pos { c with catchfp := f :: fs } = r at g
    cases r with
    | val u c' =>
      have ec : c'.catchfp = f :: fs := g.1.ct.trans (by dsimp only; rw [List.dropWhile_cons, if_neg (by simp)])
      dsimp only [Res.bind]
      rw [ec]
      exact ⟨Or.inl ⟨f, e2, rfl⟩, ⟨g.1.sb, ec.trans e1.symm, g.1.bk, g.1.pr⟩, g.2⟩
    | jump q u c' =>
      obtain ⟨g1, ⟨a, ha, haq⟩, g3, g4⟩ := g
      refine ⟨Or.inl ⟨a, sub a ha, haq⟩, ⟨g3.sb, ?_, g3.bk, g3.pr⟩, g4⟩
      rw [g3.ct, ← e1]
      exact dropWhile_dropWhile _ _ (fun x hx => by simp only [decide_eq_true_eq] at hx ⊢; omega) _
    | fail c' => trivial
    | ub => exact g
    | timeout => trivial

/-- The end of a form: only the stack pointer is moved back. -/
theorem Good.pop {X : Nat → Prop} {c : Ctx} {r : Res} (v : Nat) (h : Good X (Tgt c) { c with vsp := v } r) :
    Good X (Tgt c) c (r.bind fun v c' => .val v { c' with vsp := c.vsp }) := by
  cases r with
  | val u c' => exact ⟨⟨rfl, h.1.sb, h.1.ct, h.1.bk, h.1.pr⟩, h.2⟩
  | jump p u c' => exact ⟨h.1, ⟨h.2.1.sb, h.2.1.ct, h.2.1.bk, h.2.1.pr⟩, h.2.2⟩
  | fail c' => trivial
  | ub => exact h
  | timeout => trivial

theorem Tgt.lt {X : Nat → Prop} {c : Ctx} (w : WF X c) {p : Nat} (h : Tgt c p) : p + 5 ≤ c.vsp := by
  rcases h with ⟨f, hf, rfl⟩ | h
  · have := w.ct f hf; omega
  · exact lexPos_lt w.bk p h

theorem Sees.up {bs : List BI} {c : Ctx} (h : Sees bs c) (v : Nat) : Sees bs { c with vsp := v } := h

theorem catchEnd_good {X T : Nat → Prop} {c c' : Ctx} {v tag : Val} (h : c'.catchfp = ⟨c.vsp, tag⟩ :: c.catchfp) (h1 : c'.sbindfp = c.sbindfp)
    (h2 : c'.blkfp = c.blkfp) (h3 : c'.protfp = c.protfp) (hk : Keeps X c c') : Good X T c (catchEnd v c') := by
  unfold catchEnd
  rw [h]
  exact ⟨⟨rfl, h1, rfl, h2, h3⟩, hk⟩

theorem form_good {X : Nat → Prop} {P : Prog} {rec : Tm → Ctx → Res} (HP : P.Scoped) (hX : ∀ x, X x → ∀ f, sets x (P.F f) = false)
    (H : RecGood X rec) (k : Nat) (t : Tm) (bs : List BI) (c : Ctx) (hs : Scoped bs t = true) (hx : ∀ x, X x → sets x t = false)
    (s : Sees bs c) (w : WF X c) : Good X (Tgt c) c (form P rec k t c) := by
  cases t with
  | const v => exact ⟨Same.refl c, fun _ _ => rfl⟩
  | var x => exact ⟨Same.refl c, fun _ _ => rfl⟩
  | setq x e =>
    refine (H e bs c hs (fun y hy => (by have := hx y hy; simp only [sets, Bool.or_eq_false_iff] at this; exact this.2)) s w).bind ?_
    intro v c' h1 h2
    refine ⟨⟨h1.vsp, h1.sb, h1.ct, h1.bk, h1.pr⟩, ?_⟩
    intro y hy
    have := hx y hy
    simp only [sets, Bool.or_eq_false_iff, beq_eq_false_iff_ne] at this
    dsimp only [upd]
    rw [if_neg (Ne.symm this.1)]
    exact h2 y hy
  | print e =>
    refine (H e bs c hs hx s w).bind ?_
    intro v c' h1 h2
    exact ⟨⟨h1.vsp, h1.sb, h1.ct, h1.bk, h1.pr⟩, h2⟩
  | progn a b =>
    simp only [Scoped, Bool.and_eq_true] at hs
    simp only [sets, Bool.or_eq_false_iff] at hx
    refine (H a bs c hs.1 (fun y hy => (hx y hy).1) s w).bind ?_
    intro v c' h1 h2
    exact (H b bs c' hs.2 (fun y hy => (hx y hy).2) (s.same h1) (w.same h1)).same h1 h2
  | ite e a b =>
    simp only [Scoped, Bool.and_eq_true] at hs
    simp only [sets, Bool.or_eq_false_iff] at hx
    refine (H e bs c hs.1.1 (fun y hy => (hx y hy).1.1) s w).bind ?_
    intro v c' h1 h2
    split
    · exact (H a bs c' hs.1.2 (fun y hy => (hx y hy).1.2) (s.same h1) (w.same h1)).same h1 h2
    · exact (H b bs c' hs.2 (fun y hy => (hx y hy).2) (s.same h1) (w.same h1)).same h1 h2
  | lett x e body =>
    simp only [Scoped, Bool.and_eq_true] at hs
    simp only [sets, Bool.or_eq_false_iff] at hx
    refine (H e bs c hs.1 (fun y hy => (hx y hy).1) s w).bind ?_
    intro v c1 h1 h2
    dsimp only
    have w1 := w.same h1
    set c2 : Ctx := { c1 with vsp := c1.vsp + 4, sbindfp := ⟨c1.vsp + 1, x, c1.spec x⟩ :: c1.sbindfp, spec := upd c1.spec x v } with hc2
    have w2 : WF X c2 := by
      have w' := w1.up (c1.vsp + 4) (by omega)
      refine ⟨?_, ?_, w'.ct, w'.cts, w'.pr, w'.prs, w'.bk, w'.cl⟩
      · intro f hf
        rcases List.mem_cons.1 hf with rfl | hf
        · show c1.vsp + 1 + 3 ≤ c1.vsp + 4; omega
        · exact w'.sb f hf
      · refine List.pairwise_cons.2 ⟨fun g hg => ?_, w1.sbs⟩
        have := w1.sb g hg
        dsimp only; omega
    have g := H body bs c2 hs.2 (fun y hy => (hx y hy).2) (show Sees bs c1 from s.same h1) w2
    have old : upd (upd c1.spec x v) x (c1.spec x) = c1.spec := by
      funext y; unfold upd; split <;> [(rename_i h; rw [h]); rfl]
    generalize rec body c2 = r at g
    cases r with
    | val u c' =>
      dsimp only [Res.bind]
      have e1 : c'.sbindfp = ⟨c1.vsp + 1, x, c1.spec x⟩ :: c.sbindfp := by rw [g.1.sb, hc2]; dsimp only; rw [h1.sb]
      have hlt : ∀ f ∈ c.sbindfp, f.pos < c.vsp := fun f hf => by have := w.sb f hf; omega
      have e2 : unbindspecial c.vsp c'.sbindfp c'.spec = (c.sbindfp, upd c'.spec x (c1.spec x)) := by
        rw [e1, unbindspecial, if_pos (by dsimp only; rw [h1.vsp]; omega), unbind_none _ _ _ hlt]
      rw [e2]
      refine ⟨⟨rfl, rfl, g.1.ct.trans h1.ct, g.1.bk.trans h1.bk, g.1.pr.trans h1.pr⟩, ?_⟩
      intro y hy
      dsimp only [upd]
      split
      · rename_i h; rw [h, h2 x (h ▸ hy)]
      · rename_i h
        have := g.2 y hy
        rw [this, hc2]; dsimp only [upd]; rw [if_neg h]; exact h2 y hy
    | jump p u c' =>
      obtain ⟨g1, g2, g3⟩ := g
      have g1' : Tgt c p := Tgt.same (d := c1) h1 g1
      have hp := g1'.lt w
      refine ⟨g1', ⟨?_, by rw [g2.ct, hc2]; dsimp only; rw [h1.ct], by rw [g2.bk, hc2]; dsimp only; rw [h1.bk], by rw [g2.pr, hc2]; dsimp only; rw [h1.pr]⟩, ?_⟩
      · rw [g2.sb, hc2]; dsimp only
        rw [List.dropWhile_cons, if_pos (by simp [h1.vsp]; omega), h1.sb]
      · intro y hy
        rw [g3 y hy, hc2]; dsimp only
        rw [unbindspecial, if_pos (by dsimp only; rw [h1.vsp]; omega), h1.sb]
        dsimp only
        rw [old]
        exact unbind_congr _ _ _ _ _ (h2 y hy)
    | fail c' => trivial
    | ub => exact g
    | timeout => trivial
  | call f => exact CT_of_catch (callFn_good H (.blk f) (P.F f) _ c w (HP f) (fun x hx => hX x hx f) (Or.inr rfl)) fun p h => Or.inl h
  | catch_ tag body =>
    simp only [Scoped, Bool.and_eq_true] at hs
    simp only [sets, Bool.or_eq_false_iff] at hx
    refine (H tag bs c hs.1 (fun y hy => (hx y hy).1) s w).bind ?_
    intro tg c1 h1 h2
    have w1 := w.same h1
    set c2 : Ctx := { c1 with vsp := c1.vsp + 6, catchfp := ⟨c1.vsp, tg⟩ :: c1.catchfp } with hc2
    have w2 : WF X c2 := by
      have w' := w1.up (c1.vsp + 6) (by omega)
      refine ⟨w'.sb, w'.sbs, ?_, ?_, w'.pr, w'.prs, w'.bk, w'.cl⟩
      · intro f hf
        rcases List.mem_cons.1 hf with rfl | hf
        · show c1.vsp + 6 ≤ c1.vsp + 6; omega
        · exact w'.ct f hf
      · refine List.pairwise_cons.2 ⟨fun g hg => ?_, w1.cts⟩
        have := w1.ct g hg
        dsimp only; omega
    have s2 : Sees (bs.map fun b => { b with overCatch := true }) c2 := by
      intro n b hb
      rw [List.find?_map] at hb
      obtain ⟨b0, hb0, rfl⟩ := Option.map_eq_some_iff.1 hb
      obtain ⟨p, B, f1, f2, f3, f4⟩ := (s.same h1) n b0 hb0
      exact ⟨p, B, f1, f2, fun h => (by cases h), f4⟩
    have g := H body _ c2 hs.2 (fun y hy => (hx y hy).2) s2 w2
    apply Good.same h1 h2
    generalize rec body c2 = r at g
    cases r with
    | val u c' => exact catchEnd_good g.1.ct g.1.sb g.1.bk g.1.pr g.2
    | jump p u c' =>
      obtain ⟨g1, g2, g3⟩ := g
      dsimp only
      by_cases hp : p = c1.vsp
      · rw [if_pos hp]
        subst hp
        refine catchEnd_good (tag := tg) ?_ ?_ ?_ ?_ ?_
        · rw [g2.ct, hc2]; dsimp only; rw [List.dropWhile_cons, if_neg (by simp)]
        · exact g2.sb.trans (dropWhile_eq_self _ _ fun f hf => by have := w1.sb f hf; simp; omega)
        · exact g2.bk.trans (dropBlk_self w1.bk)
        · exact g2.pr.trans (dropWhile_eq_self _ _ fun f hf => by have := w1.pr f hf; simp; omega)
        · intro y hy
          rw [g3 y hy, unbind_none _ _ _ (fun f hf => by have := w1.sb f hf; omega)]
      · rw [if_neg hp]
        have g1' : Tgt c1 p := by
          rcases g1 with ⟨f, hf, rfl⟩ | g1
          · rcases List.mem_cons.1 hf with rfl | hf
            · exact absurd rfl hp
            · exact Or.inl ⟨f, hf, rfl⟩
          · exact Or.inr g1
        have := g1'.lt w1
        refine ⟨g1', ⟨g2.sb, ?_, g2.bk, g2.pr⟩, g3⟩
        rw [g2.ct, hc2]; dsimp only; rw [List.dropWhile_cons, if_pos (by simp; omega)]
    | fail c' => trivial
    | ub => exact g
    | timeout => trivial
  | throw_ tag e =>
    simp only [Scoped, Bool.and_eq_true] at hs
    simp only [sets, Bool.or_eq_false_iff] at hx
    refine (H tag bs c hs.1 (fun y hy => (hx y hy).1) s w).bind ?_
    intro tg c1 h1 h2
    refine Good.bind ((H e bs c1 hs.2 (fun y hy => (hx y hy).2) (s.same h1) (w.same h1)).same h1 h2) ?_
    intro v c2 h3 h4
    exact (throw_good HP hX H k tg v c2 (w.same h3)).same h3 h4
  | block name body =>
    set c2 : Ctx := { c with vsp := c.vsp + 5, blkfp := .frame c.vsp name c.blkfp c.blkfp } with hc2
    have w2 : WF X c2 := by
      have w' := w.up (c.vsp + 5) (by omega)
      exact ⟨w'.sb, w'.sbs, w'.ct, w'.cts, w'.pr, w'.prs, ⟨by simp [hc2], w.bk, w.bk⟩, w'.cl⟩
    have s2 : Sees (⟨name, false, false⟩ :: bs) c2 := by
      intro n b hb
      rw [List.find?_cons] at hb
      split at hb
      · rename_i hn
        cases hb
        refine ⟨c.vsp, c2.blkfp, by simp [hc2, findBlk, hn], by simp [hc2, dropBlk], fun _ f hf => ?_, fun _ f hf => ?_⟩
        · have := w.ct f hf; omega
        · have := w.pr f hf; omega
      · rename_i hn
        obtain ⟨p, B, f1, f2, f3, f4⟩ := s n b hb
        refine ⟨p, B, ?_, ?_, f3, f4⟩
        · rw [hc2, findBlk, if_neg (by rw [hn]; simp)]; exact f1
        · rw [hc2, dropBlk, if_pos (by have := lexPos_lt w.bk p (findBlk_mem f1).1; omega)]; exact f2
    have g := H body _ c2 hs hx s2 w2
    rw [form]
    generalize rec body c2 = r at g
    cases r with
    | val u c' => exact ⟨⟨rfl, g.1.sb, g.1.ct, rfl, g.1.pr⟩, g.2⟩
    | jump p u c' =>
      obtain ⟨g1, g2, g3⟩ := g
      dsimp only
      by_cases hp : p = c.vsp
      · rw [if_pos hp]
        subst hp
        refine ⟨⟨rfl, ?_, ?_, rfl, ?_⟩, ?_⟩
        · exact g2.sb.trans (dropWhile_eq_self _ _ fun f hf => by have := w.sb f hf; simp; omega)
        · exact g2.ct.trans (dropWhile_eq_self _ _ fun f hf => by have := w.ct f hf; simp; omega)
        · exact g2.pr.trans (dropWhile_eq_self _ _ fun f hf => by have := w.pr f hf; simp; omega)
        · intro y hy
          dsimp only
          rw [g3 y hy, unbind_none _ _ _ (fun f hf => by have := w.sb f hf; omega)]
      · rw [if_neg hp]
        have g1' : Tgt c p := by
          rcases g1 with g1 | g1
          · exact Or.inl g1
          · rcases List.mem_cons.1 g1 with g1 | g1
            · exact absurd g1 hp
            · exact Or.inr g1
        have := g1'.lt w
        refine ⟨g1', ⟨g2.sb, g2.ct, ?_, g2.pr⟩, g3⟩
        rw [g2.bk, hc2, dropBlk, if_pos (by omega)]
    | fail c' => trivial
    | ub => exact g
    | timeout => trivial
  | retfrom name e =>
    simp only [Scoped, Bool.and_eq_true] at hs
    obtain ⟨hs1, hs2⟩ := hs
    split at hs1
    · rename_i b hb
      obtain ⟨p, B, f1, f2, f3, f4⟩ := s name b hb
      rw [form, f1]
      refine (H e bs c hs2 hx s w).bind ?_
      intro v c1 h1 h2
      have w1 := w.same h1
      obtain ⟨m1, nm, d, x, m2⟩ := findBlk_mem f1
      have hp := lexPos_lt w.bk p m1
      set c2 : Ctx := { c1 with blkfp := B } with hc2
      have w2 : WF X c2 := ⟨w1.sb, w1.sbs, w1.ct, w1.cts, w1.pr, w1.prs, by rw [hc2, ← f2]; dsimp only; rw [h1.vsp]; exact dropBlk_ok w.bk, w1.cl⟩
      have hor : (∀ f ∈ c2.catchfp, f.pos ≤ p) ∨ ∀ f ∈ c2.protfp, f.pos < p := by
        simp only [Bool.not_eq_true', Bool.and_eq_false_iff] at hs1
        rcases hs1 with h | h
        · exact Or.inl fun f hf => le_of_lt (f3 h f (h1.ct ▸ hf))
        · exact Or.inr fun f hf => f4 h f (h1.pr ▸ hf)
      have g := unwind_good H k p c2 w2 hor
      have hl : ∀ {q : Nat} {c' : Ctx}, q ≤ p → Left q c2 c' → Left q c1 c' := by
        intro q c' hq h
        refine ⟨h.sb, h.ct, ?_, h.pr⟩
        rw [h.bk, hc2]; dsimp only; rw [← f2, h1.bk, dropBlk_dropBlk hq]
      generalize unwind rec k p c2 = r at g
      cases r with
      | val u c' =>
        have eb : c'.blkfp = .frame p nm d x := by
          rw [g.1.bk, hc2]; dsimp only; rw [m2, dropBlk, if_neg (by omega)]
        dsimp only [Res.bind]
        rw [eb]
        exact ⟨Or.inr m1, (hl (le_refl _) g.1).same h1, KeepsTo.same h1 h2 g.2⟩
      | jump q u c' =>
        obtain ⟨g1, g2, g3, g4⟩ := g
        refine ⟨Or.inl ?_, (hl g1 g3).same h1, KeepsTo.same h1 h2 g4⟩
        obtain ⟨f, hf, hq⟩ := g2
        exact ⟨f, h1.ct ▸ hf, hq⟩
      | fail c' => trivial
      | ub => exact g
      | timeout => trivial
    · cases hs1
  | protect e cl =>
    simp only [Scoped, Bool.and_eq_true] at hs
    simp only [sets, Bool.or_eq_false_iff] at hx
    set c2 : Ctx := { c with vsp := c.vsp + 2, protfp := ⟨c.vsp, cl⟩ :: c.protfp } with hc2
    have w2 : WF X c2 := by
      have w' := w.up (c.vsp + 2) (by omega)
      refine ⟨w'.sb, w'.sbs, w'.ct, w'.cts, ?_, ?_, w'.bk, ?_⟩
      · intro f hf
        rcases List.mem_cons.1 hf with rfl | hf
        · show c.vsp + 2 ≤ c.vsp + 2; omega
        · exact w'.pr f hf
      · refine List.pairwise_cons.2 ⟨fun g hg => ?_, w.prs⟩
        have := w.pr g hg
        dsimp only; omega
      · intro f hf
        rcases List.mem_cons.1 hf with rfl | hf
        · exact ⟨hs.2, fun y hy => (hx y hy).2⟩
        · exact w.cl f hf
    have s2 : Sees (bs.map fun b => { b with overProt := true }) c2 := by
      intro n b hb
      rw [List.find?_map] at hb
      obtain ⟨b0, hb0, rfl⟩ := Option.map_eq_some_iff.1 hb
      obtain ⟨p, B, f1, f2, f3, f4⟩ := s n b0 hb0
      exact ⟨p, B, f1, f2, f3, fun h => (by cases h)⟩
    have g := H e _ c2 hs.1 (fun y hy => (hx y hy).1) s2 w2
    rw [form]
    generalize rec e c2 = r at g
    cases r with
    | val u c' =>
      dsimp only [Res.bind]
      have h1 : Same c { c' with vsp := c.vsp, protfp := c.protfp } := ⟨rfl, g.1.sb, g.1.ct, g.1.bk, rfl⟩
      refine Good.bind (Good.same h1 g.2 (H cl [] _ hs.2 (fun y hy => (hx y hy).2) (fun n b hb => by cases hb) (w.same h1))) ?_
      intro v c3 h3 h4
      exact ⟨h3, h4⟩
    | jump p u c' =>
      obtain ⟨g1, g2, g3⟩ := g
      have g1' : Tgt c p := g1
      have := g1'.lt w
      refine ⟨g1', ⟨g2.sb, g2.ct, g2.bk, ?_⟩, g3⟩
      rw [g2.pr, hc2]; dsimp only; rw [List.dropWhile_cons, if_pos (by simp; omega)]
    | fail c' => trivial
    | ub => exact g
    | timeout => trivial
  | loop e body =>
    have hs' := hs
    have hx' := hx
    simp only [Scoped, Bool.and_eq_true] at hs
    simp only [sets, Bool.or_eq_false_iff] at hx
    refine (H e bs c hs.1 (fun y hy => (hx y hy).1) s w).bind ?_
    intro v c1 h1 h2
    split
    · exact ⟨h1, h2⟩
    · refine Good.bind ((H body bs c1 hs.2 (fun y hy => (hx y hy).2) (s.same h1) (w.same h1)).same h1 h2) ?_
      intro u c2 h3 h4
      exact (H _ bs c2 hs' hx' (s.same h3) (w.same h3)).same h3 h4
  | label u r => exact H r bs c hs hx s w
  | tagbody body cur =>
    simp only [Scoped, Bool.and_eq_true, decide_eq_true_eq] at hs
    simp only [sets, Bool.or_eq_false_iff] at hx
    refine (H _ bs c (by simp only [Scoped, Bool.and_true]; exact hs.2) (fun y hy => by simp only [sets, Bool.or_false]; exact (hx y hy).2) s w).bind ?_
    intro v c1 h1 h2
    split
    · rename_i t
      rw [after_eq t body hs.1.1]
      cases ht : fromTag t body with
      | none => exact ⟨h1, h2⟩
      | some next =>
        exact (H (.tagbody body next) bs c1 (by simp only [Scoped, Bool.and_eq_true, decide_eq_true_eq]; exact ⟨hs.1, fromTag_scoped ht hs.1.2⟩)
          (fun y hy => by simp only [sets, Bool.or_eq_false_iff]; exact ⟨(hx y hy).1, fromTag_sets ht (hx y hy).1⟩) (s.same h1) (w.same h1)).same h1 h2
    · exact ⟨h1, h2⟩
  | error_ => exact error_good HP hX H c w

/-- Every evaluation is good. -/
theorem eval_good {X : Nat → Prop} {P : Prog} (HP : P.Scoped) (hX : ∀ x, X x → ∀ f, sets x (P.F f) = false) (n : Nat) : RecGood X (eval P n) := by
  induction n with
  | zero => intro t bs c _ _ _ _; trivial
  | succ n ih =>
    intro t bs c hs hx s w
    have key : Good X (Tgt c) c ((form P (eval P n) n t { c with vsp := c.vsp + 2 }).bind fun v c' => .val v { c' with vsp := c.vsp }) :=
      Good.pop _ (form_good HP hX ih n t bs _ hs hx (s.up _) (w.up _ (by omega)))
    cases t with
    | const v => exact ⟨Same.refl c, fun _ _ => rfl⟩
    | var x => exact ⟨Same.refl c, fun _ _ => rfl⟩
    | call f => exact CT_of_catch (callFn_good ih (.blk f) (P.F f) _ c w (HP f) (fun x hx => hX x hx f) (Or.inr rfl)) fun p h => Or.inl h
    | loop e body => exact form_good HP hX ih n _ bs c hs hx s w
    | tagbody body cur => exact form_good HP hX ih n _ bs c hs hx s w
    | _ => exact key

end Eus.Ctl
