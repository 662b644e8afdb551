import Verif.Cex.Proofs
set_option autoImplicit false
/-
The forms one by one.
-/
namespace Eus.Cex
open Eus.Ctl

theorem drop_lt {α : Type} (pos : α → Nat) (p : Nat) (l : List α) (h : l.Pairwise (fun f g => pos g < pos f)) :
    ∀ f ∈ l.dropWhile (fun f => decide (p ≤ pos f)), f ∈ l ∧ pos f < p := by
  induction l with
  | nil => intro f hf; simp at hf
  | cons a l ih =>
    rw [List.pairwise_cons] at h
    rw [List.dropWhile_cons]
    intro f hf
    split at hf
    · exact ⟨List.mem_cons_of_mem _ (ih h.2 f hf).1, (ih h.2 f hf).2⟩
    · rename_i hn
      have hn' : pos a < p := by simpa using hn
      rcases List.mem_cons.1 hf with rfl | hf
      · exact ⟨by simp, hn'⟩
      · have := h.1 f hf; exact ⟨by simp [hf], by omega⟩

theorem drop_le {α : Type} (pos : α → Nat) (p : Nat) (l : List α) (h : l.Pairwise (fun f g => pos g < pos f)) :
    ∀ f ∈ l.dropWhile (fun f => decide (pos f > p)), f ∈ l ∧ pos f ≤ p := by
  induction l with
  | nil => intro f hf; simp at hf
  | cons a l ih =>
    rw [List.pairwise_cons] at h
    rw [List.dropWhile_cons]
    intro f hf
    split at hf
    · exact ⟨List.mem_cons_of_mem _ (ih h.2 f hf).1, (ih h.2 f hf).2⟩
    · rename_i hn
      have hn' : pos a ≤ p := by simpa using hn
      rcases List.mem_cons.1 hf with rfl | hf
      · exact ⟨by simp, hn'⟩
      · have := h.1 f hf; exact ⟨by simp [hf], by omega⟩

/-- Nothing to unwind. -/
theorem unw_none {P : Prog} {p : Nat} {c : Ctx} (h1 : ∀ f ∈ c.sbindfp, f.pos < p) (h2 : ∀ f ∈ c.catchfp, f.pos < p) (h3 : ∀ f ∈ c.protfp, f.pos < p) (w : Val) :
    Unw P p c (.val w c) := by
  refine ⟨?_, ?_, ?_, .done h3, by rw [unbind_none _ _ _ h1]⟩
  · rw [dropWhile_eq_self _ _ (fun f hf => by have := h1 f hf; simpa using this)]
  · rw [dropWhile_eq_self _ _ (fun f hf => by have := h2 f hf; simpa using (by omega : f.pos ≤ p))]
  · rw [dropWhile_eq_self _ _ (fun f hf => by have := h3 f hf; simpa using this)]

theorem near_lt {S : Site} {k p : Nat} (h : Near S p) (hn : (match S.uw with | [] => false | u :: _ => decide (u ≥ k)) = false) : p < S.base + k := by
  rcases h with h | ⟨u, us, e, h⟩
  · omega
  · rw [e] at hn
    simp at hn
    omega

theorem leave_ok {P : Prog} {quiet : Nat → Bool} {rec : Tm → Site → Ctx → Res} (HP : FitProg P quiet) (H : RecOk P quiet rec) (n : Nat) (key : Key) {bs : List B} {S : Site}
    {E : Env} {π : Nat → Nat} {c : Ctx} (i : Inv quiet bs S E π c) (v : Val) (hv : v ≠ .flt 0) {ix l k d : Nat} {nm : Name} (h1 : S.blocks[ix]? = some (nm, l, k))
    (h2 : E.blocks[ix]? = some (nm, d)) (h3 : ∀ f ∈ c.catchfp, f.pos ≠ S.base + k) (h4 : Below c (S.base + k)) :
    Out P (fun _ => (.exit d v, ⟨c.spec, c.out⟩)) S.base S.blocks E.catches E.blocks π c (leave rec n key S l k v c) := by
  have u : Unw P (S.base + k) c (if (match S.uw with | [] => false | u :: _ => decide (u ≥ k)) = true then unwind (runCleaner rec) S.top n (S.base + k) c else .val nil c) := by
    rcases Bool.eq_false_or_eq_true (match S.uw with | [] => false | u :: _ => decide (u ≥ k)) with hn | hn
    · rw [hn]; exact unwind_ok HP H S.top (S.base + k) n c (i.far S.top (le_refl _))
    · rw [hn]
      exact unw_none (fun f hf => near_lt (i.lay.nsb f hf) hn) (fun f hf => near_lt (i.lay.nca f hf) hn) (fun f hf => near_lt (i.lay.npr f hf) hn) _
  unfold leave
  dsimp only
  generalize (if (match S.uw with | [] => false | u :: _ => decide (u ≥ k)) = true then unwind (runCleaner rec) S.top n (S.base + k) c else .val nil c) = r at u ⊢
  cases r with
  | val w c1 =>
    obtain ⟨u1, u2, u3, u4, u5⟩ := u
    have o : Out P (fun _ => (.exit d v, ⟨c.spec, c.out⟩)) S.base S.blocks E.catches E.blocks π c (.goto l v c1) :=
      ⟨ix, nm, k, d, h1, h2, h3, u1, u2, u3, hv, ⟨c.spec, c.out⟩, ⟨0, fun _ _ => rfl⟩, i.spec, u4, u5⟩
    show Out P _ _ _ _ _ π c (match key with | .blk _ => put (S.base + k) c1 (.goto l v c1) | .tag _ => .goto l v c1)
    cases key with
    | tag _ => exact o
    | blk _ =>
      dsimp only
      rw [put, if_pos]
      · exact o
      · simp only [Bool.and_eq_true, List.all_eq_true, decide_eq_true_eq]
        rw [u1, u2, u3]
        refine ⟨⟨fun f hf => ?_, fun f hf => ?_⟩, fun f hf => ?_⟩
        · have := drop_lt SBind.pos _ _ i.lay.ssb f hf; exact h4.sb f this.1 this.2
        · have := drop_le Catch.pos _ _ i.lay.sca f hf
          have ne := h3 f this.1
          exact h4.ca f this.1 (by omega)
        · have := drop_lt Prot.pos _ _ i.lay.spr f hf; exact h4.pr f this.1 this.2
  | timeout => trivial
  | goto _ _ _ => exact u.elim
  | jump _ _ _ => exact u.elim
  | fail _ => exact u.elim
  | nocode => exact u.elim
  | ub => exact u.elim

/-! ### frames pushed -/

theorem Inv.operand {quiet : Nat → Bool} {bs : List B} {S : Site} {E : Env} {π : Nat → Nat} {c : Ctx} (i : Inv quiet bs S E π c) :
    Inv quiet (bs.map fun b => { b with gap := true }) { S with off := S.off + 1 } E π c := by
  have l := i.lay
  have e : Site.top { S with off := S.off + 1 } = S.top + 1 := by simp only [Site.top]; omega
  refine ⟨⟨fun f hf => by have := l.sb f hf; omega, fun f hf => by have := l.ca f hf; omega, fun f hf => by have := l.pr f hf; omega, l.ssb, l.sca, l.spr, l.nsb, l.nca, l.npr⟩,
    i.cat, i.dep, ?_, i.cln, i.spec⟩
  exact Blks.gap (by omega) i.blk _ (fun b => ⟨rfl, rfl, id⟩) (le_refl _) (fun _ _ => rfl) (fun _ _ h => h) (fun f hf => Or.inl hf)

theorem near_of {S : Site} {p u o : Nat} (h : p + 1 ≤ S.top) (hu : S.off ≤ u) : Near { S with off := o, uw := u :: S.uw } p := by
  refine Or.inr ⟨u, S.uw, rfl, ?_⟩
  simp only [Site.top] at h ⊢
  omega

theorem Inv.bound {quiet : Nat → Bool} {bs : List B} {S : Site} {E : Env} {π : Nat → Nat} {c : Ctx} (i : Inv quiet bs S E π c) (x : Nat) (v : Val) (hv : v ≠ .flt 0) :
    Inv quiet (bs.map fun b => { b with gap := true }) { S with off := S.off + 4, uw := (S.off + 1) :: S.uw } E π
      { c with sbindfp := ⟨S.top + 1, x, c.spec x⟩ :: c.sbindfp, spec := upd c.spec x v } := by
  have l := i.lay
  have e : Site.top { S with off := S.off + 4, uw := (S.off + 1) :: S.uw } = S.top + 4 := by simp only [Site.top]; omega
  refine ⟨⟨fun f hf => ?_, fun f hf => ?_, fun f hf => ?_, ?_, l.sca, l.spr, fun f hf => ?_, fun f hf => ?_, fun f hf => ?_⟩, i.cat, i.dep, ?_, i.cln, i.spec.upd x hv⟩
  · rcases List.mem_cons.1 hf with rfl | hf
    · rw [e]
    · have := l.sb f hf; omega
  · have := l.ca f hf; omega
  · have := l.pr f hf; omega
  · rw [List.pairwise_cons]
    exact ⟨fun g hg => by have := l.sb g hg; show g.pos < S.top + 1; omega, l.ssb⟩
  · rcases List.mem_cons.1 hf with rfl | hf
    · refine Or.inr ⟨S.off + 1, S.uw, rfl, ?_⟩
      simp only [Site.top]; omega
    · have := l.sb f hf; exact near_of (by omega) (by omega)
  · have := l.ca f hf; exact near_of (by omega) (by omega)
  · have := l.pr f hf; exact near_of (by omega) (by omega)
  · refine Blks.gap (by omega) i.blk _ (fun b => ⟨rfl, rfl, id⟩) (le_refl _) (fun _ _ => rfl) (fun k hk h => ⟨fun f hf hp => ?_, h.ca, h.pr⟩) (fun f hf => Or.inl hf)
    rcases List.mem_cons.1 hf with rfl | hf
    · simp only [Site.top] at hp; omega
    · exact h.sb f hf hp

theorem Inv.protect {quiet : Nat → Bool} {bs : List B} {S : Site} {E : Env} {π : Nat → Nat} {c : Ctx} (i : Inv quiet bs S E π c) (cl : Tm) (h1 : Fit quiet [] cl = true)
    (h2 : Calm quiet [] cl = true) :
    Inv quiet (bs.map fun b => { b with gap := true }) { S with off := S.off + 2, uw := S.off :: S.uw } E π { c with protfp := ⟨S.top, cl⟩ :: c.protfp } := by
  have l := i.lay
  have e : Site.top { S with off := S.off + 2, uw := S.off :: S.uw } = S.top + 2 := by simp only [Site.top]; omega
  refine ⟨⟨fun f hf => ?_, fun f hf => ?_, fun f hf => ?_, l.ssb, l.sca, ?_, fun f hf => ?_, fun f hf => ?_, fun f hf => ?_⟩, i.cat, i.dep, ?_, fun f hf => ?_, i.spec⟩
  · have := l.sb f hf; omega
  · have := l.ca f hf; omega
  · rcases List.mem_cons.1 hf with rfl | hf
    · rw [e]
    · have := l.pr f hf; omega
  · rw [List.pairwise_cons]
    exact ⟨fun g hg => by have := l.pr g hg; show g.pos < S.top; omega, l.spr⟩
  · have := l.sb f hf; exact near_of (by omega) (by omega)
  · have := l.ca f hf; exact near_of (by omega) (by omega)
  · rcases List.mem_cons.1 hf with rfl | hf
    · refine Or.inr ⟨S.off, S.uw, rfl, ?_⟩
      simp only [Site.top]; omega
    · have := l.pr f hf; exact near_of (by omega) (by omega)
  · refine Blks.gap (by omega) i.blk _ (fun b => ⟨rfl, rfl, id⟩) (le_refl _) (fun _ _ => rfl) (fun k hk h => ⟨h.sb, h.ca, fun f hf hp => ?_⟩) (fun f hf => Or.inl hf)
    rcases List.mem_cons.1 hf with rfl | hf
    · simp only [Site.top] at hp; omega
    · exact h.pr f hf hp
  · rcases List.mem_cons.1 hf with rfl | hf
    · exact ⟨h1, h2⟩
    · exact i.cln f hf

theorem Inv.catch {quiet : Nat → Bool} {bs : List B} {S : Site} {E : Env} {π : Nat → Nat} {c : Ctx} (i : Inv quiet bs S E π c) (tag : Val) :
    Inv quiet (bs.map fun b => ⟨b.name, true, b.flush || !b.gap⟩) { S with off := S.off + 6, uw := S.off :: S.uw }
      { E with depth := E.depth + 1, catches := (tag, E.depth) :: E.catches } (ext π E.depth S.top) { c with catchfp := ⟨S.top, tag⟩ :: c.catchfp } := by
  have l := i.lay
  have e : Site.top { S with off := S.off + 6, uw := S.off :: S.uw } = S.top + 6 := by simp only [Site.top]; omega
  refine ⟨⟨fun f hf => ?_, fun f hf => ?_, fun f hf => ?_, l.ssb, ?_, l.spr, fun f hf => ?_, fun f hf => ?_, fun f hf => ?_⟩, ?_, fun q hq => ?_, ?_, i.cln, i.spec⟩
  · have := l.sb f hf; omega
  · rcases List.mem_cons.1 hf with rfl | hf
    · rw [e]
    · have := l.ca f hf; omega
  · have := l.pr f hf; omega
  · rw [List.pairwise_cons]
    exact ⟨fun g hg => by have := l.ca g hg; show g.pos < S.top; omega, l.sca⟩
  · have := l.sb f hf; exact near_of (by omega) (by omega)
  · rcases List.mem_cons.1 hf with rfl | hf
    · refine Or.inr ⟨S.off, S.uw, rfl, ?_⟩
      simp only [Site.top]; omega
    · have := l.ca f hf; exact near_of (by omega) (by omega)
  · have := l.pr f hf; exact near_of (by omega) (by omega)
  · rw [List.map_cons, cat_ext i.dep, i.cat]
    simp [ext]
  · rcases List.mem_cons.1 hq with rfl | hq
    · dsimp only; omega
    · have := i.dep q hq; dsimp only; omega
  · refine Blks.gap (by omega) i.blk _ (fun b => ⟨rfl, rfl, fun h => ?_⟩) (by dsimp only; omega) (fun d hd => ?_) (fun k hk h => ⟨h.sb, fun f hf hp => ?_, h.pr⟩) (fun f hf => ?_)
    · dsimp only at h; simp only [Bool.or_eq_false_iff] at h; exact h.1
    · unfold ext; rw [if_neg (by omega)]
    · rcases List.mem_cons.1 hf with rfl | hf
      · simp only [Site.top] at hp; omega
      · exact h.ca f hf hp
    · rcases List.mem_cons.1 hf with rfl | hf
      · exact Or.inr ⟨rfl, fun b hb => by simpa using (by simpa using hb : b.flush = false ∧ b.gap = true).2⟩
      · exact Or.inl hf

theorem Inv.block {quiet : Nat → Bool} {bs : List B} {S : Site} {E : Env} {π : Nat → Nat} {c : Ctx} (i : Inv quiet bs S E π c) (name : Name) :
    Inv quiet (⟨name, false, false⟩ :: bs) { S with blocks := (name, S.blocks.length, S.off) :: S.blocks }
      { E with depth := E.depth + 1, blocks := (name, E.depth) :: E.blocks } (ext π E.depth S.top) c := by
  have l := i.lay
  refine ⟨⟨l.sb, l.ca, l.pr, l.ssb, l.sca, l.spr, l.nsb, l.nca, l.npr⟩, by rw [cat_ext i.dep]; exact i.cat, fun q hq => by have := i.dep q hq; dsimp only; omega, ?_, i.cln, i.spec⟩
  exact Blks.block name i.blk l.below (fun f hf => by have := l.ca f hf; simp only [Site.top] at this; show f.pos ≠ S.base + S.off; omega)

/-! ### landings -/

theorem block_ok {P : Prog} {quiet : Nat → Bool} {bs : List B} {S : Site} {E : Env} {π : Nat → Nat} {c : Ctx} (i : Inv quiet bs S E π c) (name : Name) {M : Nat → Exit × St} {r : Res}
    (o : Out P M S.base ((name, S.blocks.length, S.off) :: S.blocks) E.catches ((name, E.depth) :: E.blocks) (ext π E.depth S.top) c r) :
    Out P (fun m => arrive E.depth (M m)) S.base S.blocks E.catches E.blocks π c
      (match (generalizing := false) r with
      | .val v c' => put S.top c' (.val v c')
      | .goto l v c' => if l = S.blocks.length then .val v c' else .goto l v c'
      | r => r) := by
  have l := i.lay
  cases r with
  | val v c' =>
    dsimp only
    rw [put_lay (l.same o.2.2.1)]
    exact ⟨o.1, o.2.1, o.2.2.1, o.2.2.2.map fun m e => by rw [e]; rfl⟩
  | goto lb v c' =>
    obtain ⟨i', nm, k, d, h1, h2, h3, a1, a2, a3, a4, s, h5, h6, h7, h8⟩ := o
    dsimp only
    cases i' with
    | zero =>
      simp at h1 h2
      obtain ⟨rfl, rfl, rfl⟩ := h1
      obtain ⟨-, rfl⟩ := h2
      rw [if_pos rfl]
      have e1 : ∀ f ∈ c.sbindfp, f.pos < S.base + S.off := fun f hf => by have := l.sb f hf; simp only [Site.top] at this; omega
      have e2 : ∀ f ∈ c.catchfp, f.pos < S.base + S.off := fun f hf => by have := l.ca f hf; simp only [Site.top] at this; omega
      have e3 : ∀ f ∈ c.protfp, f.pos < S.base + S.off := fun f hf => by have := l.pr f hf; simp only [Site.top] at this; omega
      rw [dropWhile_eq_self _ _ (fun f hf => by have := e1 f hf; simpa using this)] at a1
      rw [dropWhile_eq_self _ _ (fun f hf => by have := e2 f hf; simpa using (by omega : f.pos ≤ S.base + S.off))] at a2
      rw [dropWhile_eq_self _ _ (fun f hf => by have := e3 f hf; simpa using this)] at a3
      rw [unbind_none _ _ _ e1] at h8
      have h9 := h7.eq e3
      dsimp only at h8
      refine ⟨a4, by rw [h8]; exact h6, ⟨a1, a2, a3⟩, h5.map fun m e => ?_⟩
      rw [e, h8, h9]; simp [arrive]
    | succ j =>
      simp at h1 h2
      have hl := (i.blk.label j _ _ _ h1).1
      have hd := i.blk.dep j _ _ h2
      rw [if_neg (by omega)]
      refine ⟨j, nm, k, d, h1, h2, h3, a1, a2, a3, a4, s, h5.map fun m e => ?_, h6, h7, h8⟩
      rw [e]; unfold arrive; dsimp only; rw [if_neg (by omega)]
  | jump p v c' =>
    obtain ⟨t, d, h1, h2, a1, a2, a3, a4, s, h5, h6⟩ := o
    have := i.dep _ h1
    dsimp only at this
    refine ⟨t, d, h1, by rw [← h2]; unfold ext; rw [if_neg (by omega)], a1, a2, a3, a4, s, h5.map fun m e => ?_, h6⟩
    rw [e]; unfold arrive; dsimp only; rw [if_neg (by omega)]
  | fail c' => obtain ⟨s, h1, h2⟩ := o; exact ⟨s, h1.map fun m e => by rw [e]; rfl, h2⟩
  | nocode => exact o
  | ub => exact o
  | timeout => trivial

theorem catch_ok {P : Prog} {quiet : Nat → Bool} {bs : List B} {S : Site} {E : Env} {π : Nat → Nat} {c : Ctx} (i : Inv quiet bs S E π c) (tag : Val) {M : Nat → Exit × St} {r : Res}
    (o : Out P M S.base S.blocks ((tag, E.depth) :: E.catches) E.blocks (ext π E.depth S.top) { c with catchfp := ⟨S.top, tag⟩ :: c.catchfp } r) :
    Out P (fun m => arrive E.depth (M m)) S.base S.blocks E.catches E.blocks π c
      (match (generalizing := false) r with
      | .val v c' => exitcatch v c'
      | .jump p v c' => if p = S.top then exitcatch v c' else .jump p v c'
      | r => r) := by
  have l := i.lay
  cases r with
  | val v c' =>
    obtain ⟨o1, o2, o3, o4⟩ := o
    have ca := o3.ca
    dsimp only at ca
    have e : exitcatch v c' = .val v { c' with catchfp := c.catchfp } := by
      unfold exitcatch received; rw [ca]; dsimp only; rw [if_neg o1]
    dsimp only
    rw [e]
    exact ⟨o1, o2, ⟨o3.sb, rfl, o3.pr⟩, o4.map fun m e => by rw [e]; rfl⟩
  | goto lb v c' =>
    obtain ⟨i', nm, k, d, h1, h2, h3, a1, a2, a3, a4, s, h5, h6⟩ := o
    have hk := (i.blk.label i' _ _ _ h1).2
    have hd := i.blk.dep i' _ _ h2
    dsimp only at h3 a2
    have ne := h3 ⟨S.top, tag⟩ (by simp)
    dsimp only at ne
    rw [List.dropWhile_cons, if_pos (by simp only [Site.top] at ne ⊢; simpa using (by omega : k < S.off))] at a2
    refine ⟨i', nm, k, d, h1, h2, fun f hf => h3 f (by simp [hf]), a1, a2, a3, a4, s, h5.map fun m e => ?_, h6⟩
    rw [e]; unfold arrive; dsimp only; rw [if_neg (by omega)]
  | jump p v c' =>
    obtain ⟨t, d, h1, h2, a1, a2, a3, a4, s, h5, h6, h7, h8⟩ := o
    dsimp only at a1 a2 a3 h7 h8 ⊢
    rcases List.mem_cons.1 h1 with h1 | h1
    · obtain ⟨rfl, rfl⟩ := Prod.mk.inj h1
      have hp : p = S.top := by rw [← h2]; simp [ext]
      subst hp
      rw [if_pos rfl]
      have e1 : ∀ f ∈ c.sbindfp, f.pos < S.top := fun f hf => by have := l.sb f hf; omega
      have e3 : ∀ f ∈ c.protfp, f.pos < S.top := fun f hf => by have := l.pr f hf; omega
      rw [dropWhile_eq_self _ _ (fun f hf => by have := e1 f hf; simpa using this)] at a1
      rw [List.dropWhile_cons, if_neg (by simp)] at a2
      rw [dropWhile_eq_self _ _ (fun f hf => by have := e3 f hf; simpa using this)] at a3
      rw [unbind_none _ _ _ e1] at h8
      have h9 := h7.eq e3
      dsimp only at h8
      have e : exitcatch v c' = .val v { c' with catchfp := c.catchfp } := by
        unfold exitcatch received; rw [a2]; dsimp only; rw [if_neg a4]
      rw [e]
      refine ⟨a4, by dsimp only; rw [h8]; exact h6, ⟨a1, rfl, a3⟩, h5.map fun m e => ?_⟩
      rw [e]; dsimp only; rw [h8, h9]; simp [arrive]
    · have hd := i.dep _ h1
      dsimp only at hd
      have h2' : π d = p := by rw [← h2]; unfold ext; rw [if_neg (by omega)]
      have hm : (⟨π d, t⟩ : Catch) ∈ c.catchfp := by rw [i.cat, List.mem_map]; exact ⟨(t, d), h1, rfl⟩
      have := l.ca _ hm
      dsimp only at this
      rw [if_neg (by omega)]
      rw [List.dropWhile_cons, if_pos (by simpa using (by omega : p < S.top))] at a2
      refine ⟨t, d, h1, h2', a1, a2, a3, a4, s, h5.map fun m e => ?_, h6, h7, h8⟩
      rw [e]; unfold arrive; dsimp only; rw [if_neg (by omega)]
  | fail c' => obtain ⟨s, h1, h2⟩ := o; exact ⟨s, h1.map fun m e => by rw [e]; rfl, h2⟩
  | nocode => exact o
  | ub => exact o
  | timeout => trivial

/-- Where an exit goes is not above the top of the stack. -/
theorem lett_ok {P : Prog} {quiet : Nat → Bool} {bs : List B} {S : Site} {E : Env} {π : Nat → Nat} {c : Ctx} (i : Inv quiet bs S E π c) (x : Nat) (w : Val) {M : Nat → Exit × St}
    {r : Res} (o : Out P M S.base S.blocks E.catches E.blocks π { c with sbindfp := ⟨S.top + 1, x, c.spec x⟩ :: c.sbindfp, spec := upd c.spec x w } r) :
    Out P (fun m => ((M m).1, { (M m).2 with spec := upd (M m).2.spec x (c.spec x) })) S.base S.blocks E.catches E.blocks π c (r.bind unbindx) := by
  have key : ∀ p d v c', p ≤ S.top → Leave P M p d v { c with sbindfp := ⟨S.top + 1, x, c.spec x⟩ :: c.sbindfp, spec := upd c.spec x w } c' →
      Leave P (fun m => ((M m).1, { (M m).2 with spec := upd (M m).2.spec x (c.spec x) })) p d v c c' := by
    intro p d v c' hp h
    obtain ⟨a1, a2, a3, a4, s, h5, h6, h7, h8⟩ := h
    dsimp only at a1 a2 a3 h7 h8
    rw [List.dropWhile_cons, if_pos (by simpa using (by omega : p ≤ S.top + 1))] at a1
    rw [unbindspecial, if_pos (by dsimp only; omega)] at h8
    exact ⟨a1, a2, a3, a4, ⟨upd s.spec x (c.spec x), s.out⟩, h5.map fun m e => by rw [e], h6.upd x (i.spec x), h7, h8⟩
  cases r with
  | val v c' =>
    obtain ⟨o1, o2, o3, o4⟩ := o
    have sb := o3.sb
    dsimp only at sb
    have e : Res.bind (.val v c') unbindx = .val v { c' with sbindfp := c.sbindfp, spec := upd c'.spec x (c.spec x) } := by
      show unbindx v c' = _
      unfold unbindx; rw [sb]
    rw [e]
    exact ⟨o1, o2.upd x (i.spec x), ⟨rfl, o3.ca, o3.pr⟩, o4.map fun m e => by rw [e]⟩
  | goto lb v c' =>
    obtain ⟨i', nm, k, d, h1, h2, h3, h4⟩ := o
    have hk := (i.blk.label i' _ _ _ h1).2
    exact ⟨i', nm, k, d, h1, h2, h3, key _ _ _ _ (by simp only [Site.top]; omega) h4⟩
  | jump p v c' =>
    obtain ⟨t, d, h1, h2, h3⟩ := o
    have hm : (⟨π d, t⟩ : Catch) ∈ c.catchfp := by rw [i.cat, List.mem_map]; exact ⟨(t, d), h1, rfl⟩
    have := i.lay.ca _ hm
    dsimp only at this
    exact ⟨t, d, h1, h2, key _ _ _ _ (by omega) h3⟩
  | fail c' => obtain ⟨s, h1, h2⟩ := o; exact ⟨⟨upd s.spec x (c.spec x), s.out⟩, h1.map fun m e => by rw [e], h2⟩
  | nocode => exact o
  | ub => exact o
  | timeout => trivial

theorem protect_ok {P : Prog} {quiet : Nat → Bool} {rec : Tm → Site → Ctx → Res} (HP : FitProg P quiet) (H : RecOk P quiet rec) {bs : List B} {S : Site}
    {E : Env} {π : Nat → Nat} {c : Ctx} (i : Inv quiet bs S E π c) (cl : Tm) (hf : Fit quiet [] cl = true) (hc : Calm quiet [] cl = true) {M : Nat → Exit × St} {r : Res}
    (o : Out P M S.base S.blocks E.catches E.blocks π { c with protfp := ⟨S.top, cl⟩ :: c.protfp } r) :
    Out P (fun m => cleanup E (mean P m cl) (M m)) S.base S.blocks E.catches E.blocks π c
      (r.bind fun v c1 => (runCleaner rec cl (S.top + 2) c1).bind fun _ c2 => (match c2.protfp with | [] => .ub | _ :: fs => .val v { c2 with protfp := fs })) := by
  have key : ∀ p d v c', p ≤ S.top → Leave P M p d v { c with protfp := ⟨S.top, cl⟩ :: c.protfp } c' →
      Leave P (fun m => cleanup E (mean P m cl) (M m)) p d v c c' := by
    intro p d v c' hp h
    obtain ⟨a1, a2, a3, a4, s, h5, h6, h7, h8⟩ := h
    dsimp only at a1 a2 a3 h7 h8
    rw [List.dropWhile_cons, if_pos (by simpa using hp)] at a3
    · obtain ⟨w, o1, g2, g3⟩ := h7.cons_inv (by dsimp only; omega)
      dsimp only at g2
      refine ⟨a1, a2, a3, a4, ⟨s.spec, o1⟩, ?_, h6, g3, h8⟩
      obtain ⟨N, hN⟩ := h5
      obtain ⟨K, hK⟩ := g2 (E.upto d) s.spec
      refine ⟨max N K, fun m hm => ?_⟩
      have := hK m (by omega)
      dsimp only at this ⊢
      rw [hN m (by omega)]
      unfold cleanup
      dsimp only
      rw [this]; rfl
  cases r with
  | val v c1 =>
    obtain ⟨o1, o2, o3, o4⟩ := o
    have j : Inv quiet [] ⟨S.top + 2, 0, [], []⟩ { E with blocks := [] } π c1 := by
      have := (i.protect cl hf hc).same o3 o2
      exact this.far (S.top + 2) (by simp only [Site.top]; omega)
    have q := H.apply hf j
    show Out P _ _ _ _ _ π c ((runCleaner rec cl (S.top + 2) c1).bind fun _ c2 => (match c2.protfp with | [] => .ub | _ :: fs => .val v { c2 with protfp := fs }))
    unfold runCleaner
    generalize rec cl ⟨S.top + 2, 0, [], []⟩ c1 = r at q ⊢
    cases r with
    | val w c2 =>
      obtain ⟨q1, q2, q3, q4⟩ := q
      obtain ⟨w', _, q5, q6⟩ := calm_any HP.quiet hc q4 (by simp)
      dsimp only at q5 q6
      have pr := q3.pr
      rw [o3.pr] at pr
      dsimp only at pr
      have e : (Res.bind (.val w c2) fun _ c2 => (match c2.protfp with | [] => Res.ub | _ :: fs => .val v { c2 with protfp := fs })) = .val v { c2 with protfp := c.protfp } := by
        show (match c2.protfp with | [] => Res.ub | _ :: fs => .val v { c2 with protfp := fs }) = _
        rw [pr]
      rw [e]
      refine ⟨o1, q2, ⟨q3.sb.trans o3.sb, q3.ca.trans o3.ca, rfl⟩, ?_⟩
      obtain ⟨N, hN⟩ := o4
      obtain ⟨K, hK⟩ := q6 E c1.spec
      refine ⟨max N K, fun m hm => ?_⟩
      have := hK m (by omega)
      dsimp only at this ⊢
      rw [hN m (by omega)]
      unfold cleanup
      dsimp only
      rw [this, q5]; rfl
    | goto l v c' =>
      obtain ⟨_, _, _, _, _, _, _, _, _, _, _, s, h5, _⟩ := q
      obtain ⟨w, q1, _⟩ := calm_any HP.quiet hc h5 (by simp)
      cases q1
    | jump p v c' =>
      obtain ⟨_, _, _, _, _, _, _, _, s, h5, _⟩ := q
      obtain ⟨w, q1, _⟩ := calm_any HP.quiet hc h5 (by simp)
      cases q1
    | fail c' =>
      obtain ⟨s, h5, _⟩ := q
      obtain ⟨w, q1, _⟩ := calm_any HP.quiet hc h5 (by simp)
      cases q1
    | nocode => exact q.elim
    | ub => exact q.elim
    | timeout => trivial
  | goto lb v c' =>
    obtain ⟨i', nm, k, d, h1, h2, h3, h4⟩ := o
    have hk := (i.blk.label i' _ _ _ h1).2
    exact ⟨i', nm, k, d, h1, h2, h3, key _ _ _ _ (by simp only [Site.top]; omega) h4⟩
  | jump p v c' =>
    obtain ⟨t, d, h1, h2, h3⟩ := o
    have hm : (⟨π d, t⟩ : Catch) ∈ c.catchfp := by rw [i.cat, List.mem_map]; exact ⟨(t, d), h1, rfl⟩
    have := i.lay.ca _ hm
    dsimp only at this
    exact ⟨t, d, h1, h2, key _ _ _ _ (by omega) h3⟩
  | fail c' => obtain ⟨s, h1, h2⟩ := o; exact ⟨s, h1.map fun m e => by rw [e]; rfl, h2⟩
  | nocode => exact o
  | ub => exact o
  | timeout => trivial

theorem fromTag_fit {quiet : Nat → Bool} {bs : List B} {t : Int} {b k : Tm} (h : fromTag t b = some k) (hs : Fit quiet bs b = true) : Fit quiet bs k = true := by
  induction b with
  | label u r ih =>
    simp only [fromTag] at h
    split at h
    · cases h; exact hs
    · exact ih h hs
  | progn a r _ ih =>
    simp only [Fit, Bool.and_eq_true] at hs
    exact ih h hs.2
  | _ => cases h

theorem form_ok {P : Prog} {quiet : Nat → Bool} {rec : Tm → Site → Ctx → Res} (HP : FitProg P quiet) (H : RecOk P quiet rec) (n : Nat) : RecOk P quiet (form P rec n) := by
  intro t bs S E π c ft i
  cases t with
  | const v => exact ⟨by simpa [Fit] using ft, i.spec, ⟨rfl, rfl, rfl⟩, 1, fun m hm => by obtain ⟨m, rfl⟩ : ∃ k, m = k + 1 := ⟨m - 1, by omega⟩; rfl⟩
  | var x => exact ⟨i.spec x, i.spec, ⟨rfl, rfl, rfl⟩, 1, fun m hm => by obtain ⟨m, rfl⟩ : ∃ k, m = k + 1 := ⟨m - 1, by omega⟩; rfl⟩
  | setq x e =>
    refine Out.succ (fun m => rfl) ((H.apply (t := e) ft i).bind (f := fun _ v s => (.val v, { s with spec := upd s.spec x v })) fun v c1 hv hs hc => ?_)
    exact ⟨hv, hs.upd x hv, ⟨rfl, rfl, rfl⟩, 0, fun _ _ => rfl⟩
  | print e =>
    refine Out.succ (fun m => rfl) ((H.apply (t := e) ft i).bind (f := fun _ v s => (.val v, { s with out := v :: s.out })) fun v c1 hv hs hc => ?_)
    rw [put_lay (i.lay.same hc)]
    exact ⟨hv, hs, ⟨rfl, rfl, rfl⟩, 0, fun _ _ => rfl⟩
  | progn a b =>
    simp only [Fit, Bool.and_eq_true] at ft
    exact Out.succ (fun m => rfl) ((H.apply ft.1 i).bind (f := fun m _ s => mean P m b E s) fun v c1 hv hs hc => H.apply ft.2 (i.same hc hs))
  | ite e a b =>
    simp only [Fit, Bool.and_eq_true] at ft
    refine Out.succ (fun m => rfl) ((H.apply ft.1.1 i).bind (f := fun m v s => if v ≠ nil then mean P m a E s else mean P m b E s) fun v c1 hv hs hc => ?_)
    split
    · exact H.apply ft.1.2 (i.same hc hs)
    · exact H.apply ft.2 (i.same hc hs)
  | lett x e b =>
    simp only [Fit, Bool.and_eq_true] at ft
    refine Out.succ (fun m => rfl) ((H.apply ft.1 i).bind (f := fun m v s => ((mean P m b E { s with spec := upd s.spec x v }).1,
      { (mean P m b E { s with spec := upd s.spec x v }).2 with spec := upd (mean P m b E { s with spec := upd s.spec x v }).2.spec x (s.spec x) })) fun v c1 hv hs hc => ?_)
    have i1 := i.same hc hs
    rw [put_lay i1.lay]
    exact lett_ok i1 x v (H.apply ft.2 (i1.bound x v hv))
  | call f => exact Out.succ (fun m => rfl) (callFn_ok HP H f i S.top (le_refl _) S.blocks S.base)
  | catch_ tag b =>
    simp only [Fit, Bool.and_eq_true] at ft
    refine Out.succ (fun m => rfl) ((H.apply ft.1 i).bind (f := fun m tag s => arrive E.depth (mean P m b { E with depth := E.depth + 1, catches := (tag, E.depth) :: E.catches } s))
      fun v c1 hv hs hc => ?_)
    have i1 := i.same hc hs
    rw [put_lay i1.lay]
    exact catch_ok i1 v (H.apply ft.2 (i1.catch v))
  | throw_ tag e =>
    simp only [Fit, Bool.and_eq_true] at ft
    refine Out.succ (fun m => rfl) ((H.apply ft.1 i).bind (f := fun m tag s => andThen (mean P m e E s) fun v s =>
      match E.catches.find? (fun q => q.1 = tag) with
      | some q => (.exit q.2 v, s)
      | none => signal P (mean P m) E s) fun tg c1 hv hs hc => ?_)
    have i1 := i.same hc hs
    rw [put_lay i1.lay]
    refine (H.apply ft.2 i1.operand).bind (f := fun m v s => match E.catches.find? (fun q => q.1 = tg) with
      | some q => (.exit q.2 v, s)
      | none => signal P (mean P m) E s) fun v c2 hv2 hs2 hc2 => ?_
    exact throw_ok HP H n (i1.same hc2 hs2) tg v hv2
  | block name b => exact Out.succ (fun m => rfl) (block_ok i name (H.apply (t := b) ft (i.block name)))
  | retfrom key e =>
    simp only [Fit, Bool.and_eq_true] at ft
    obtain ⟨f1, f2⟩ := ft
    cases hb : bs.find? (fun b => b.name.hits key) with
    | none => rw [hb] at f1; cases f1
    | some b =>
      rw [hb] at f1
      obtain ⟨ix, l, k, d, a1, a2, a3, a4, a5, a6, a7⟩ := i.blk.find key hb (by simpa using f1)
      unfold form
      dsimp only
      rw [a1]
      dsimp only
      have hm : ∀ m, mean P (m + 1) (.retfrom key e) E ⟨c.spec, c.out⟩ = andThen (mean P m e E ⟨c.spec, c.out⟩) (fun v s => (.exit d v, s)) := by
        intro m
        rw [mean, a3]
      refine Out.succ hm ((H.apply f2 i).bind (f := fun _ v s => (.exit d v, s)) fun v c1 hv hs hc => ?_)
      exact leave_ok HP H n key (i.same hc hs) v hv a2 a4 (by rw [hc.ca]; exact a6) (a7.same hc)
  | protect e cl =>
    simp only [Fit, Bool.and_eq_true] at ft
    unfold form
    dsimp only
    rw [put_lay i.lay]
    exact Out.succ (fun m => rfl) (protect_ok HP H i cl ft.1.2 ft.2 (H.apply ft.1.1 (i.protect cl ft.1.2 ft.2)))
  | loop e b =>
    have ft' := ft
    simp only [Fit, Bool.and_eq_true] at ft
    refine Out.succ (fun m => rfl) ((H.apply ft.1 i).bind (f := fun m v s => if v = nil then (.val nil, s) else andThen (mean P m b E s) fun _ s => mean P m (.loop e b) E s)
      fun v c1 hv hs hc => ?_)
    split
    · exact ⟨by simp [nil], hs, ⟨rfl, rfl, rfl⟩, 0, fun _ _ => rfl⟩
    · exact (H.apply ft.2 (i.same hc hs)).bind (f := fun m _ s => mean P m (.loop e b) E s) fun w c2 hv2 hs2 hc2 => H.apply ft' ((i.same hc hs).same hc2 hs2)
  | label _ r => exact Out.succ (fun m => rfl) (H.apply (t := r) ft i)
  | tagbody b cur =>
    simp only [Fit, Bool.and_eq_true, decide_eq_true_eq] at ft
    have fb : Fit quiet bs (.block (.tags (tagsOf b)) (.progn cur (.const nil))) = true := by
      simp only [Fit, Bool.and_eq_true]; exact ⟨ft.2, by decide⟩
    refine Out.succ (fun m => rfl) ((H.apply fb i).bind (f := fun m v s => match v with
        | .int t => (match fromTag t b with
          | some next => mean P m (.tagbody b next) E s
          | none => (.val nil, s))
        | _ => (.val nil, s)) fun v c1 hv hs hc => ?_)
    have dn : ∀ (M : Nat → Exit × St), (∀ m, M m = (.val nil, ⟨c1.spec, c1.out⟩)) → Out P M S.base S.blocks E.catches E.blocks π c1 (.val nil c1) :=
      fun M hM => ⟨by simp [nil], hs, ⟨rfl, rfl, rfl⟩, 0, fun m _ => hM m⟩
    cases v with
    | int t =>
      dsimp only
      rw [after_eq t b ft.1.1]
      cases hk : fromTag t b with
      | none => exact dn _ fun _ => rfl
      | some next =>
        refine H.apply ?_ (i.same hc hs)
        simp only [Fit, Bool.and_eq_true, decide_eq_true_eq]
        exact ⟨ft.1, fromTag_fit hk ft.1.2⟩
    | sym _ => exact dn _ fun _ => rfl
    | flt _ => exact dn _ fun _ => rfl
  | error_ => exact Out.succ (fun m => rfl) (error_ok HP H i S.blocks S.base)

theorem cev_ok {P : Prog} {quiet : Nat → Bool} (HP : FitProg P quiet) (n : Nat) : RecOk P quiet (cev P n) := by
  induction n with
  | zero => intro t bs S E π c _ _; trivial
  | succ n ih => exact form_ok HP ih n

theorem inv_start (quiet : Nat → Bool) (π : Nat → Nat) (spec : Nat → Val) (h : Clean spec) : Inv quiet [] ⟨0, 0, [], []⟩ Env.top π ⟨spec, [], [], [], []⟩ := by
  refine ⟨⟨?_, ?_, ?_, .nil, .nil, .nil, ?_, ?_, ?_⟩, rfl, ?_, .nil, ?_, h⟩ <;> simp [Env.top]

end Eus.Cex
