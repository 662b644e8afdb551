import Verif.Cex.Calm
set_option autoImplicit false
/-
Compiled code does what the forms mean.
-/
namespace Eus.Cex
open Eus.Ctl

/-- The cleanup forms of the frames from `p` on run, innermost first. -/
inductive Run (P : Prog) (p : Nat) : List Prot → List Val → List Val → Prop
  | done {l : List Prot} {o : List Val} : (∀ f ∈ l, f.pos < p) → Run P p l o o
  | step {f : Prot} {l : List Prot} {o o1 o2 : List Val} {w : Val} : p ≤ f.pos →
    (∀ E sp, EvM (fun m => mean P m f.cleaner E ⟨sp, o⟩) (.val w, ⟨sp, o1⟩)) → Run P p l o1 o2 → Run P p (f :: l) o o2

theorem Run.eq {P : Prog} {p : Nat} {l : List Prot} {o o' : List Val} (h : Run P p l o o') (hl : ∀ f ∈ l, f.pos < p) : o' = o := by
  cases h with
  | done _ => rfl
  | step h1 _ _ => exact absurd (hl _ List.mem_cons_self) (by omega)

theorem Run.cons_inv {P : Prog} {p : Nat} {f : Prot} {l : List Prot} {o o' : List Val} (h : Run P p (f :: l) o o') (hp : p ≤ f.pos) :
    ∃ w o1, (∀ E sp, EvM (fun m => mean P m f.cleaner E ⟨sp, o⟩) (.val w, ⟨sp, o1⟩)) ∧ Run P p l o1 o' := by
  cases h with
  | done h => exact absurd (h f List.mem_cons_self) (by omega)
  | step h1 h2 h3 => exact ⟨_, _, h2, h3⟩

/-- A place of the stack no frame lies across. -/
structure Below (c : Ctx) (q : Nat) : Prop where
  sb : ∀ f ∈ c.sbindfp, f.pos < q → f.pos + 3 ≤ q
  ca : ∀ f ∈ c.catchfp, f.pos < q → f.pos + 6 ≤ q
  pr : ∀ f ∈ c.protfp, f.pos < q → f.pos + 2 ≤ q

/-- The blocks, as the specification, the compiler and the meaning know them. -/
inductive Blks (base off : Nat) (π : Nat → Nat) (dep : Nat) (c : Ctx) : List B → List (Name × Nat × Nat) → List (Name × Nat) → Prop
  | nil : Blks base off π dep c [] [] []
  | cons {b : B} {k d : Nat} {bs : List B} {sb : List (Name × Nat × Nat)} {eb : List (Name × Nat)} :
    k ≤ off → (b.gap = true → k < off) → (b.flush = false → ∀ f ∈ c.catchfp, f.pos ≠ base + k) → Below c (base + k) →
    d < dep → π d = base + k → Blks base off π dep c bs sb eb → Blks base off π dep c (b :: bs) ((b.name, sb.length, k) :: sb) ((b.name, d) :: eb)

/-- A frame of this function is not after the last of `unwind-frames`. -/
def Near (S : Site) (p : Nat) : Prop := p < S.base ∨ ∃ u us, S.uw = u :: us ∧ p ≤ S.base + u

/-- The frames on the stack. -/
structure Lay (S : Site) (c : Ctx) : Prop where
  sb : ∀ f ∈ c.sbindfp, f.pos + 3 ≤ S.top
  ca : ∀ f ∈ c.catchfp, f.pos + 6 ≤ S.top
  pr : ∀ f ∈ c.protfp, f.pos + 2 ≤ S.top
  ssb : c.sbindfp.Pairwise (fun f g => g.pos < f.pos)
  sca : c.catchfp.Pairwise (fun f g => g.pos < f.pos)
  spr : c.protfp.Pairwise (fun f g => g.pos < f.pos)
  nsb : ∀ f ∈ c.sbindfp, Near S f.pos
  nca : ∀ f ∈ c.catchfp, Near S f.pos
  npr : ∀ f ∈ c.protfp, Near S f.pos

structure Inv (quiet : Nat → Bool) (bs : List B) (S : Site) (E : Env) (π : Nat → Nat) (c : Ctx) : Prop where
  lay : Lay S c
  cat : c.catchfp = E.catches.map (fun q => (⟨π q.2, q.1⟩ : Catch))
  dep : ∀ q ∈ E.catches, q.2 < E.depth
  blk : Blks S.base S.off π E.depth c bs S.blocks E.blocks
  cln : ∀ f ∈ c.protfp, Fit quiet [] f.cleaner = true ∧ Calm quiet [] f.cleaner = true
  spec : Clean c.spec

/-- The same frames. -/
structure Same (c c' : Ctx) : Prop where
  sb : c'.sbindfp = c.sbindfp
  ca : c'.catchfp = c.catchfp
  pr : c'.protfp = c.protfp

theorem Below.same {c c' : Ctx} {q : Nat} (h : Below c q) (s : Same c c') : Below c' q := by
  obtain ⟨h1, h2, h3⟩ := h
  exact ⟨by rw [s.sb]; exact h1, by rw [s.ca]; exact h2, by rw [s.pr]; exact h3⟩

theorem Blks.same {base off dep : Nat} {π : Nat → Nat} {c c' : Ctx} {bs : List B} {sb : List (Name × Nat × Nat)} {eb : List (Name × Nat)}
    (h : Blks base off π dep c bs sb eb) (s : Same c c') : Blks base off π dep c' bs sb eb := by
  induction h with
  | nil => exact .nil
  | cons h1 h2 h4 h5 h6 h7 _ ih => exact .cons h1 h2 (by rw [s.ca]; exact h4) (h5.same s) h6 h7 ih

theorem Lay.same {S : Site} {c c' : Ctx} (h : Lay S c) (s : Same c c') : Lay S c' := by
  obtain ⟨h1, h2, h3, h4, h5, h6, h7, h8, h9⟩ := h
  exact ⟨by rw [s.sb]; exact h1, by rw [s.ca]; exact h2, by rw [s.pr]; exact h3, by rw [s.sb]; exact h4, by rw [s.ca]; exact h5, by rw [s.pr]; exact h6,
    by rw [s.sb]; exact h7, by rw [s.ca]; exact h8, by rw [s.pr]; exact h9⟩

theorem Inv.same {quiet : Nat → Bool} {bs : List B} {S : Site} {E : Env} {π : Nat → Nat} {c c' : Ctx} (i : Inv quiet bs S E π c) (s : Same c c')
    (h : Clean c'.spec) : Inv quiet bs S E π c' :=
  ⟨i.lay.same s, by rw [s.ca]; exact i.cat, i.dep, i.blk.same s, by rw [s.pr]; exact i.cln, h⟩

theorem Lay.below {S : Site} {c : Ctx} (h : Lay S c) : Below c S.top :=
  ⟨fun f hf _ => h.sb f hf, fun f hf _ => h.ca f hf, fun f hf _ => h.pr f hf⟩

/-- A place further up, in another function. -/
theorem Lay.far {S : Site} {c : Ctx} (h : Lay S c) (b : Nat) (hb : S.top ≤ b) (bl : List (Name × Nat × Nat)) : Lay ⟨b, 0, bl, []⟩ c := by
  refine ⟨fun f hf => ?_, fun f hf => ?_, fun f hf => ?_, h.ssb, h.sca, h.spr, fun f hf => Or.inl ?_, fun f hf => Or.inl ?_, fun f hf => Or.inl ?_⟩ <;>
    simp only [Site.top] at *
  · have := h.sb f hf; unfold Site.top at this; omega
  · have := h.ca f hf; unfold Site.top at this; omega
  · have := h.pr f hf; unfold Site.top at this; omega
  · have := h.sb f hf; unfold Site.top at this; omega
  · have := h.ca f hf; unfold Site.top at this; omega
  · have := h.pr f hf; unfold Site.top at this; omega

theorem Inv.far {quiet : Nat → Bool} {bs : List B} {S : Site} {E : Env} {π : Nat → Nat} {c : Ctx} (i : Inv quiet bs S E π c) (b : Nat) (hb : S.top ≤ b) :
    Inv quiet [] ⟨b, 0, [], []⟩ { E with blocks := [] } π c :=
  ⟨i.lay.far b hb [], i.cat, i.dep, .nil, i.cln, i.spec⟩

theorem put_lay {S : Site} {c : Ctx} (h : Lay S c) (r : Res) : put S.top c r = r := by
  unfold put
  rw [if_pos]
  simp only [Bool.and_eq_true, List.all_eq_true, decide_eq_true_eq]
  exact ⟨⟨h.sb, h.ca⟩, h.pr⟩

/-- How control gets from a form to a place `p` outside. -/
structure Leave (P : Prog) (M : Nat → Exit × St) (p d : Nat) (v : Val) (c c' : Ctx) : Prop where
  sb : c'.sbindfp = c.sbindfp.dropWhile (fun f => decide (p ≤ f.pos))
  ca : c'.catchfp = c.catchfp.dropWhile (fun f => decide (f.pos > p))
  pr : c'.protfp = c.protfp.dropWhile (fun f => decide (p ≤ f.pos))
  nz : v ≠ .flt 0
  st : ∃ s, EvM M (.exit d v, s) ∧ Clean s.spec ∧ Run P p c.protfp s.out c'.out ∧ c'.spec = (unbindspecial p c.sbindfp s.spec).2

/-- The outcome of compiled code, and the meaning. -/
def Out (P : Prog) (M : Nat → Exit × St) (base : Nat) (bl : List (Name × Nat × Nat)) (cs : List (Val × Nat)) (eb : List (Name × Nat)) (π : Nat → Nat) (c : Ctx) : Res → Prop
  | .val v c' => v ≠ .flt 0 ∧ Clean c'.spec ∧ Same c c' ∧ EvM M (.val v, ⟨c'.spec, c'.out⟩)
  | .goto l v c' => ∃ (i : Nat) (nm : Name) (k d : Nat), bl[i]? = some (nm, l, k) ∧ eb[i]? = some (nm, d) ∧ (∀ f ∈ c.catchfp, f.pos ≠ base + k) ∧ Leave P M (base + k) d v c c'
  | .jump p v c' => ∃ tag d, (tag, d) ∈ cs ∧ π d = p ∧ Leave P M p d v c c'
  | .fail c' => ∃ s, EvM M (.fail, s) ∧ s.out = c'.out
  | .nocode => False
  | .ub => False
  | .timeout => True

section
variable {P : Prog} {M M' : Nat → Exit × St} {base : Nat} {bl : List (Name × Nat × Nat)} {cs : List (Val × Nat)} {eb : List (Name × Nat)}
  {π : Nat → Nat} {c c1 : Ctx} {r : Res}

theorem Leave.map {p d : Nat} {v : Val} {c' : Ctx} (h : Leave P M p d v c c') (k : ∀ x, EvM M x → EvM M' x) : Leave P M' p d v c c' := by
  obtain ⟨h1, h2, h3, h4, s, h5, h6⟩ := h
  exact ⟨h1, h2, h3, h4, s, k _ h5, h6⟩

theorem Leave.same {p d : Nat} {v : Val} {c' : Ctx} (h : Leave P M p d v c1 c') (s : Same c c1) : Leave P M p d v c c' := by
  obtain ⟨h1, h2, h3, h4, h5⟩ := h
  rw [s.sb, s.pr] at h5
  exact ⟨by rw [h1, s.sb], by rw [h2, s.ca], by rw [h3, s.pr], h4, h5⟩

theorem Out.map (h : Out P M base bl cs eb π c r) (k : ∀ x, EvM M x → EvM M' x) : Out P M' base bl cs eb π c r := by
  cases r with
  | val v c' => exact ⟨h.1, h.2.1, h.2.2.1, k _ h.2.2.2⟩
  | goto l v c' => obtain ⟨i, nm, kk, d, h1, h2, h3, h4⟩ := h; exact ⟨i, nm, kk, d, h1, h2, h3, h4.map k⟩
  | jump p v c' => obtain ⟨t, d, h1, h2, h3⟩ := h; exact ⟨t, d, h1, h2, h3.map k⟩
  | fail c' => obtain ⟨s, h1, h2⟩ := h; exact ⟨s, k _ h1, h2⟩
  | nocode => exact h
  | ub => exact h
  | timeout => trivial

theorem Out.succ (k : ∀ m, M' (m + 1) = M m) (h : Out P M base bl cs eb π c r) : Out P M' base bl cs eb π c r := h.map fun _ hx => hx.succ k

theorem Out.same (h : Out P M base bl cs eb π c1 r) (s : Same c c1) : Out P M base bl cs eb π c r := by
  cases r with
  | val v c' => exact ⟨h.1, h.2.1, ⟨h.2.2.1.sb.trans s.sb, h.2.2.1.ca.trans s.ca, h.2.2.1.pr.trans s.pr⟩, h.2.2.2⟩
  | goto l v c' => obtain ⟨i, nm, kk, d, h1, h2, h3, h4⟩ := h; exact ⟨i, nm, kk, d, h1, h2, by rw [← s.ca]; exact h3, h4.same s⟩
  | jump p v c' => obtain ⟨t, d, h1, h2, h3⟩ := h; exact ⟨t, d, h1, h2, h3.same s⟩
  | fail c' => exact h
  | nocode => exact h
  | ub => exact h
  | timeout => trivial

/-- Sequencing. -/
theorem Out.bind {f : Nat → Val → St → Exit × St} {g : Val → Ctx → Res} (h : Out P M base bl cs eb π c r)
    (k : ∀ v c1, v ≠ .flt 0 → Clean c1.spec → Same c c1 → Out P (fun m => f m v ⟨c1.spec, c1.out⟩) base bl cs eb π c1 (g v c1)) :
    Out P (fun m => andThen (M m) (f m)) base bl cs eb π c (r.bind g) := by
  cases r with
  | val v c' => exact ((k v c' h.1 h.2.1 h.2.2.1).map fun x hx => h.2.2.2.andThen hx).same h.2.2.1
  | goto l v c' =>
    obtain ⟨i, nm, kk, d, h1, h2, h3, h4⟩ := h
    obtain ⟨a1, a2, a3, a4, s, h5, h6⟩ := h4
    exact ⟨i, nm, kk, d, h1, h2, h3, a1, a2, a3, a4, s, h5.map fun m e => by rw [e]; rfl, h6⟩
  | jump p v c' =>
    obtain ⟨t, d, h1, h2, h3⟩ := h
    obtain ⟨a1, a2, a3, a4, s, h5, h6⟩ := h3
    exact ⟨t, d, h1, h2, a1, a2, a3, a4, s, h5.map fun m e => by rw [e]; rfl, h6⟩
  | fail c' => obtain ⟨s, h1, h2⟩ := h; exact ⟨s, h1.map fun m e => by rw [e]; rfl, h2⟩
  | nocode => exact h
  | ub => exact h
  | timeout => trivial
end

def RecOk (P : Prog) (quiet : Nat → Bool) (rec : Tm → Site → Ctx → Res) : Prop :=
  ∀ t bs S E π c, Fit quiet bs t = true → Inv quiet bs S E π c →
    Out P (fun m => mean P m t E ⟨c.spec, c.out⟩) S.base S.blocks E.catches E.blocks π c (rec t S c)

theorem RecOk.apply {P : Prog} {quiet : Nat → Bool} {rec : Tm → Site → Ctx → Res} (H : RecOk P quiet rec) {t : Tm} {bs : List B} {S : Site} {E : Env} {π : Nat → Nat} {c : Ctx}
    (ht : Fit quiet bs t = true) (i : Inv quiet bs S E π c) : Out P (fun m => mean P m t E ⟨c.spec, c.out⟩) S.base S.blocks E.catches E.blocks π c (rec t S c) :=
  H t bs S E π c ht i

/-- An exit point added. -/
theorem cat_ext {cs : List (Val × Nat)} {π : Nat → Nat} {d b : Nat} (h : ∀ q ∈ cs, q.2 < d) :
    cs.map (fun q => (⟨ext π d b q.2, q.1⟩ : Catch)) = cs.map (fun q => (⟨π q.2, q.1⟩ : Catch)) := by
  apply List.map_congr_left
  intro q hq
  have := h q hq
  unfold ext
  rw [if_neg (by omega)]

theorem Blks.label {base off dep : Nat} {π : Nat → Nat} {c : Ctx} {bs : List B} {sb : List (Name × Nat × Nat)} {eb : List (Name × Nat)}
    (h : Blks base off π dep c bs sb eb) : ∀ (i : Nat) nm l k, sb[i]? = some (nm, l, k) → l < sb.length ∧ k ≤ off := by
  induction h with
  | nil => intro i nm l k e; simp at e
  | cons h1 _ _ _ _ _ _ ih =>
    intro i nm l k e
    cases i with
    | zero => simp at e; obtain ⟨_, rfl, rfl⟩ := e; exact ⟨by simp, h1⟩
    | succ i => have := ih i nm l k (by simpa using e); exact ⟨by simp; omega, this.2⟩

theorem Blks.dep {base off dep : Nat} {π : Nat → Nat} {c : Ctx} {bs : List B} {sb : List (Name × Nat × Nat)} {eb : List (Name × Nat)}
    (h : Blks base off π dep c bs sb eb) : ∀ (i : Nat) nm d, eb[i]? = some (nm, d) → d < dep := by
  induction h with
  | nil => intro i nm d e; simp at e
  | cons _ _ _ _ h6 _ _ ih =>
    intro i nm d e
    cases i with
    | zero => simp at e; obtain ⟨_, rfl⟩ := e; exact h6
    | succ i => exact ih i nm d (by simpa using e)

theorem Blks.find {base off dep : Nat} {π : Nat → Nat} {c : Ctx} {bs : List B} {sb : List (Name × Nat × Nat)} {eb : List (Name × Nat)}
    (h : Blks base off π dep c bs sb eb) (key : Key) {b : B} (hb : bs.find? (fun b => b.name.hits key) = some b) (hf : b.flush = false) :
    ∃ (i : Nat) (l k d : Nat), sb.find? (fun q => q.1.hits key) = some (b.name, l, k) ∧ sb[i]? = some (b.name, l, k) ∧ eb.find? (fun q => q.1.hits key) = some (b.name, d) ∧
      eb[i]? = some (b.name, d) ∧ k ≤ off ∧ (∀ f ∈ c.catchfp, f.pos ≠ base + k) ∧ Below c (base + k) := by
  induction h with
  | nil => cases hb
  | @cons b' k d bs sb eb h1 h2 h4 h5 h6 h7 _ ih =>
    rw [List.find?_cons] at hb
    cases hh : b'.name.hits key with
    | true =>
      rw [hh] at hb
      cases hb
      exact ⟨0, sb.length, k, d, by simp [hh], rfl, by simp [hh], rfl, h1, h4 hf, h5⟩
    | false =>
      rw [hh] at hb
      obtain ⟨i, l, k', d', a1, a2, a3, a4, a5⟩ := ih hb
      exact ⟨i + 1, l, k', d', by simp [hh, a1], by simpa using a2, by simp [hh, a3], by simpa using a4, a5⟩

/-- More words in use, with more frames above the old ones. -/
theorem Blks.gap {base off dep dep' j : Nat} {π π' : Nat → Nat} {c c' : Ctx} {bs : List B} {sb : List (Name × Nat × Nat)} {eb : List (Name × Nat)} (hj : 0 < j)
    (h : Blks base off π dep c bs sb eb) (g : B → B) (hg : ∀ b, (g b).name = b.name ∧ (g b).gap = true ∧ ((g b).flush = false → b.flush = false))
    (hd : dep ≤ dep') (hπ : ∀ d < dep, π' d = π d) (hB : ∀ k ≤ off, Below c (base + k) → Below c' (base + k))
    (hc : ∀ f ∈ c'.catchfp, f ∈ c.catchfp ∨ (f.pos = base + off ∧ ∀ b, (g b).flush = false → b.gap = true)) :
    Blks base (off + j) π' dep' c' (bs.map g) sb eb := by
  induction h with
  | nil => exact .nil
  | @cons b k d bs sb eb h1 h2 h4 h5 h6 h7 _ ih =>
    have e := hg b
    have := Blks.cons (base := base) (off := off + j) (π := π') (dep := dep') (c := c') (b := g b) (k := k) (d := d) (by omega) (fun _ => by omega)
      (fun hf f hm => by
        rcases hc f hm with h | ⟨h, h'⟩
        · exact h4 (e.2.2 hf) f h
        · have := h2 (h' b hf); omega)
      (hB k h1 h5) (by omega) (by rw [hπ d h6, h7]) ih
    rw [e.1] at this
    exact this

theorem Blks.block {base off dep : Nat} {π : Nat → Nat} {c : Ctx} {bs : List B} {sb : List (Name × Nat × Nat)} {eb : List (Name × Nat)} (name : Name)
    (h : Blks base off π dep c bs sb eb) (hB : Below c (base + off)) (hc : ∀ f ∈ c.catchfp, f.pos ≠ base + off) :
    Blks base off (ext π dep (base + off)) (dep + 1) c (⟨name, false, false⟩ :: bs) ((name, sb.length, off) :: sb) ((name, dep) :: eb) := by
  refine .cons (b := ⟨name, false, false⟩) (le_refl _) (fun h => by cases h) (fun _ => hc) hB (by omega) (by simp [ext]) ?_
  clear hc hB
  induction h with
  | nil => exact .nil
  | cons h1 h2 h4 h5 h6 h7 _ ih => exact .cons h1 h2 h4 h5 (by omega) (by unfold ext; rw [if_neg (by omega)]; exact h7) ih

/-! ### calls -/

theorem callFn_ok {P : Prog} {quiet : Nat → Bool} {rec : Tm → Site → Ctx → Res} (HP : FitProg P quiet) (H : RecOk P quiet rec) (f : Nat) {bs : List B} {S : Site}
    {E : Env} {π : Nat → Nat} {c : Ctx} (i : Inv quiet bs S E π c) (b : Nat) (hb : S.top ≤ b) (bl : List (Name × Nat × Nat)) (base : Nat) :
    Out P (fun m => meanCall P (mean P m) f E ⟨c.spec, c.out⟩) base bl E.catches E.blocks π c (callFn P rec f b c) := by
  have j : Inv quiet [⟨.blk f, false, false⟩] ⟨b, 0, [(.blk f, 0, 0)], []⟩ { E with depth := E.depth + 1, blocks := [(.blk f, E.depth)] } (ext π E.depth b) c := by
    have l := i.lay.far b hb [(.blk f, 0, 0)]
    refine ⟨l, by rw [cat_ext i.dep]; exact i.cat, fun q hq => by have := i.dep q hq; dsimp only; omega, ?_, i.cln, i.spec⟩
    have := Blks.block (base := b) (off := 0) (π := π) (dep := E.depth) (c := c) (.blk f) .nil l.below (fun f hf => by have := l.ca f hf; simp only [Site.top] at this; omega)
    exact this
  have o := H.apply (HP.all f) j
  unfold callFn
  generalize rec (P.F f) ⟨b, 0, [(.blk f, 0, 0)], []⟩ c = r at o
  cases r with
  | val v c' => exact ⟨o.1, o.2.1, o.2.2.1, o.2.2.2.map fun m e => by unfold meanCall; rw [e]; rfl⟩
  | goto l v c' =>
    obtain ⟨i', nm, k, d, h1, h2, h3, a1, a2, a3, a4, s, h5, h6, h7, h8⟩ := o
    have hi : i' = 0 := by
      rcases i' with _ | _
      · rfl
      · simp at h1
    subst hi
    simp at h1 h2
    obtain ⟨_, rfl, rfl⟩ := h1
    obtain ⟨_, rfl⟩ := h2
    have l := i.lay
    have e1 : ∀ f ∈ c.sbindfp, f.pos < b + 0 := fun f hf => by have := l.sb f hf; omega
    have e2 : ∀ f ∈ c.catchfp, f.pos < b + 0 := fun f hf => by have := l.ca f hf; omega
    have e3 : ∀ f ∈ c.protfp, f.pos < b + 0 := fun f hf => by have := l.pr f hf; omega
    rw [dropWhile_eq_self _ _ (fun f hf => by have := e1 f hf; simpa using this)] at a1
    rw [dropWhile_eq_self _ _ (fun f hf => by have := e2 f hf; simpa using (by omega : f.pos ≤ b + 0))] at a2
    rw [dropWhile_eq_self _ _ (fun f hf => by have := e3 f hf; simpa using this)] at a3
    rw [unbind_none _ _ _ e1] at h8
    have h9 := h7.eq e3
    dsimp only at h8
    dsimp only
    rw [if_pos rfl]
    refine ⟨a4, by rw [h8]; exact h6, ⟨a1, a2, a3⟩, h5.map fun m e => ?_⟩
    unfold meanCall; rw [e, h8, h9]; simp [arrive]
  | jump p v c' =>
    obtain ⟨t, d, h1, h2, a1, a2, a3, a4, s, h5, h6⟩ := o
    have := i.dep _ h1
    dsimp only at this
    refine ⟨t, d, h1, by rw [← h2]; unfold ext; rw [if_neg (by omega)], a1, a2, a3, a4, s, h5.map fun m e => ?_, h6⟩
    unfold meanCall; rw [e]; unfold arrive; dsimp only; rw [if_neg (by omega)]
  | fail c' => obtain ⟨s, h1, h2⟩ := o; exact ⟨s, h1.map fun m e => by unfold meanCall; rw [e]; rfl, h2⟩
  | nocode => exact o
  | ub => exact o
  | timeout => trivial

theorem error_ok {P : Prog} {quiet : Nat → Bool} {rec : Tm → Site → Ctx → Res} (HP : FitProg P quiet) (H : RecOk P quiet rec) {bs : List B} {S : Site}
    {E : Env} {π : Nat → Nat} {c : Ctx} (i : Inv quiet bs S E π c) (bl : List (Name × Nat × Nat)) (base : Nat) :
    Out P (fun m => signal P (mean P m) E ⟨c.spec, c.out⟩) base bl E.catches E.blocks π c (error P rec S.top c) := by
  unfold error signal
  cases P.handler with
  | none => exact ⟨⟨c.spec, c.out⟩, ⟨0, fun _ _ => rfl⟩, rfl⟩
  | some h => exact (callFn_ok HP H h i (S.top + 5) (by omega) bl base).bind fun v c1 _ _ _ => ⟨⟨c1.spec, c1.out⟩, ⟨0, fun _ _ => rfl⟩, rfl⟩

/-! ### unwinding -/

/-- The outcome of `unwind`. -/
def Unw (P : Prog) (p : Nat) (c : Ctx) : Res → Prop
  | .val _ c' => c'.sbindfp = c.sbindfp.dropWhile (fun f => decide (p ≤ f.pos)) ∧ c'.catchfp = c.catchfp.dropWhile (fun f => decide (f.pos > p)) ∧
    c'.protfp = c.protfp.dropWhile (fun f => decide (p ≤ f.pos)) ∧ Run P p c.protfp c.out c'.out ∧ c'.spec = (unbindspecial p c.sbindfp c.spec).2
  | .timeout => True
  | _ => False

theorem dropFrames_unw {P : Prog} {p : Nat} {c : Ctx} (h : ∀ f ∈ c.protfp, f.pos < p) : Unw P p c (.val nil (dropFrames p c)) := by
  refine ⟨unbind_fst _ _ _, rfl, ?_, .done h, rfl⟩
  rw [dropWhile_eq_self _ _ (fun f hf => by have := h f hf; simpa using this)]
  rfl

theorem unwind_ok {P : Prog} {quiet : Nat → Bool} {rec : Tm → Site → Ctx → Res} (HP : FitProg P quiet) (H : RecOk P quiet rec) (vsp p : Nat) {E : Env} {π : Nat → Nat} (k : Nat) :
    ∀ c, Inv quiet [] ⟨vsp, 0, [], []⟩ E π c → Unw P p c (unwind (runCleaner rec) vsp k p c) := by
  induction k with
  | zero => intro c _; trivial
  | succ k ih =>
    intro c i
    cases hp : c.protfp with
    | nil => rw [unwind, hp]; exact dropFrames_unw (by rw [hp]; simp)
    | cons f fs =>
      rw [unwind, hp]
      dsimp only
      have srt := i.lay.spr
      rw [hp, List.pairwise_cons] at srt
      split
      · rename_i hf
        obtain ⟨ft, cm⟩ := i.cln f (by rw [hp]; simp)
        have j : Inv quiet [] ⟨vsp + 2, 0, [], []⟩ E π { c with protfp := fs } := by
          have l := i.lay.far (vsp + 2) (by simp [Site.top]) []
          have eb : E.blocks = [] := by
            have := i.blk
            generalize E.blocks = eb at this
            cases this; rfl
          refine ⟨⟨l.sb, l.ca, fun g hg => l.pr g (by rw [hp]; simp [hg]), l.ssb, l.sca, srt.2, l.nsb, l.nca, fun g hg => l.npr g (by rw [hp]; simp [hg])⟩,
            i.cat, i.dep, by rw [eb]; exact .nil, fun g hg => i.cln g (by rw [hp]; simp [hg]), i.spec⟩
        have o := H.apply ft j
        unfold runCleaner
        generalize rec f.cleaner ⟨vsp + 2, 0, [], []⟩ { c with protfp := fs } = r at o
        cases r with
        | val v c1 =>
          obtain ⟨o1, o2, o3, o4⟩ := o
          obtain ⟨w, _, q2, q3⟩ := calm_any HP.quiet cm o4 (by simp)
          dsimp only at q2 q3
          have i1 : Inv quiet [] ⟨vsp, 0, [], []⟩ E π c1 := by
            have l := i.lay
            have i0 : Inv quiet [] ⟨vsp, 0, [], []⟩ E π { c with protfp := fs } :=
              ⟨⟨l.sb, l.ca, fun g hg => l.pr g (by rw [hp]; simp [hg]), l.ssb, l.sca, srt.2, l.nsb, l.nca, fun g hg => l.npr g (by rw [hp]; simp [hg])⟩,
                i.cat, i.dep, by
                  have := i.blk
                  generalize E.blocks = eb at this ⊢
                  cases this; exact .nil, fun g hg => i.cln g (by rw [hp]; simp [hg]), i.spec⟩
            exact i0.same o3 o2
          have u := ih c1 i1
          show Unw P p c (unwind (runCleaner rec) vsp k p c1)
          generalize unwind (runCleaner rec) vsp k p c1 = r2 at u
          obtain ⟨s1, s2, s3⟩ := o3
          dsimp only at s1 s2 s3
          cases r2 with
          | val v2 c2 =>
            obtain ⟨u1, u2, u3, u4, u5⟩ := u
            rw [s1] at u1; rw [s2] at u2; rw [s3] at u3 u4; rw [s1, q2] at u5
            refine ⟨u1, u2, ?_, ?_, u5⟩
            · rw [u3, hp, List.dropWhile_cons, if_pos (by simpa using hf)]
            · rw [hp]; exact .step hf q3 u4
          | timeout => trivial
          | goto _ _ _ => exact u
          | jump _ _ _ => exact u
          | fail _ => exact u
          | nocode => exact u
          | ub => exact u
        | goto l v c' =>
          obtain ⟨_, _, _, _, _, _, _, _, _, _, _, s, h5, _⟩ := o
          obtain ⟨w, q1, _⟩ := calm_any HP.quiet cm h5 (by simp)
          cases q1
        | jump p v c' =>
          obtain ⟨_, _, _, _, _, _, _, _, s, h5, _⟩ := o
          obtain ⟨w, q1, _⟩ := calm_any HP.quiet cm h5 (by simp)
          cases q1
        | fail c' =>
          obtain ⟨s, h5, _⟩ := o
          obtain ⟨w, q1, _⟩ := calm_any HP.quiet cm h5 (by simp)
          cases q1
        | nocode => exact o
        | ub => exact o
        | timeout => trivial
      · rename_i hf
        refine dropFrames_unw fun g hg => ?_
        rw [hp] at hg
        rcases List.mem_cons.1 hg with rfl | hg
        · omega
        · have := srt.1 g hg; omega

theorem Inv.suffix {quiet : Nat → Bool} {S : Site} {E : Env} {π : Nat → Nat} {c : Ctx} (i : Inv quiet [] S E π c) (l : List Catch) (cs : List (Val × Nat))
    (hl : l <:+ c.catchfp) (hcs : cs <:+ E.catches) (he : l = cs.map (fun q => (⟨π q.2, q.1⟩ : Catch))) :
    Inv quiet [] S { E with catches := cs } π { c with catchfp := l } := by
  have y := i.lay
  refine ⟨⟨y.sb, fun f hf => y.ca f (hl.subset hf), y.pr, y.ssb, y.sca.sublist hl.sublist, y.spr, y.nsb, fun f hf => y.nca f (hl.subset hf), y.npr⟩,
    he, fun q hq => i.dep q (hcs.subset hq), ?_, i.cln, i.spec⟩
  have := i.blk
  dsimp only
  generalize E.blocks = eb at this ⊢
  generalize S.blocks = sb at this ⊢
  cases this; exact .nil

theorem drop_suffix (cs : List (Val × Nat)) (π : Nat → Nat) (tag : Val) :
    ∃ es, es <:+ cs ∧ (cs.map (fun q => (⟨π q.2, q.1⟩ : Catch))).dropWhile (fun f => decide (f.label ≠ tag)) = es.map (fun q => (⟨π q.2, q.1⟩ : Catch)) := by
  induction cs with
  | nil => exact ⟨[], List.suffix_refl _, rfl⟩
  | cons a cs ih =>
    rw [List.map_cons, List.dropWhile_cons]
    split
    · obtain ⟨es, h1, h2⟩ := ih
      exact ⟨es, h1.trans (List.suffix_cons _ _), h2⟩
    · exact ⟨a :: cs, List.suffix_refl _, rfl⟩

theorem throw_ok {P : Prog} {quiet : Nat → Bool} {rec : Tm → Site → Ctx → Res} (HP : FitProg P quiet) (H : RecOk P quiet rec) (k : Nat) {bs : List B} {S : Site}
    {E : Env} {π : Nat → Nat} {c : Ctx} (i : Inv quiet bs S E π c) (tag v : Val) (hv : v ≠ .flt 0) :
    Out P (fun m => match E.catches.find? (fun q => q.1 = tag) with
      | some q => (.exit q.2 v, ⟨c.spec, c.out⟩)
      | none => signal P (mean P m) E ⟨c.spec, c.out⟩) S.base S.blocks E.catches E.blocks π c (throw P rec k S.top tag v c) := by
  have fd := find_drop E.catches π tag
  obtain ⟨es, hes, ed⟩ := drop_suffix E.catches π tag
  rw [← i.cat] at fd ed
  unfold throw
  rcases fd with ⟨f1, f2⟩ | ⟨q, fs, f1, f2, f3⟩
  · rw [f1, f2]
    exact error_ok HP H i _ _
  · rw [f1, f3]
    dsimp only
    obtain ⟨d1, d2, d3, d4⟩ := catch_drop i.lay.sca tag f3
    have j := (i.far S.top (le_refl _)).suffix (⟨π q.2, q.1⟩ :: fs) es (by rw [← f3]; exact List.dropWhile_suffix _) hes (by rw [← f3]; exact ed)
    have u := unwind_ok HP H S.top (π q.2) k _ j
    generalize unwind (runCleaner rec) S.top k (π q.2) { c with catchfp := ⟨π q.2, q.1⟩ :: fs } = r at u ⊢
    cases r with
    | val w c1 =>
      obtain ⟨u1, u2, u3, u4, u5⟩ := u
      dsimp only at u1 u2 u3 u4 u5
      rw [List.dropWhile_cons, if_neg (by simp)] at u2
      show Out P _ _ _ _ _ π c (match c1.catchfp with | [] => .ub | g :: _ => .jump g.pos v c1)
      rw [u2]
      refine ⟨q.1, q.2, f2, rfl, u1, by rw [u2]; exact d1.symm, u3, hv, ⟨c.spec, c.out⟩, ⟨0, fun _ _ => rfl⟩, i.spec, u4, u5⟩
    | timeout => trivial
    | goto _ _ _ => exact u.elim
    | jump _ _ _ => exact u.elim
    | fail _ => exact u.elim
    | nocode => exact u.elim
    | ub => exact u.elim

end Eus.Cex
