import Verif.Lex.Model
import Verif.Lex.Spec
set_option autoImplicit false
/-
The interpreter follows the specification: relations between cells and frames, and what keeps them.
-/
namespace Eus.Lex

/-- A frame without what may be changed in it. -/
def skel : Entry → Entry
  | .bind x _ lex => .bind x .nil lex
  | .fn f _ _ _ _ lex => .fn f [] [] none none lex

/-- The next cell, the live cells, the frames. -/
structure World where
  n : Nat
  L : List Nat
  sk : List Entry

def wof (S : SState) (M : MState) : World := ⟨S.next, S.live, M.stack.map skel⟩

structure World.Good (W : World) : Prop where
  inc : W.L.Pairwise (· < ·)
  lt : ∀ l ∈ W.L, l < W.n
  len : W.L.length = W.sk.length

/-- From W to W' only cells not yet allocated in W come to life, and frames of the others stay. -/
structure Later (W W' : World) : Prop where
  n : W.n ≤ W'.n
  at_ : ∀ (i l : Nat), W'.L[i]? = some l → l < W.n → W.L[i]? = some l ∧ W'.sk[i]? = W.sk[i]?

def ltPtr : Ptr → Nat → Prop
  | none, _ => True
  | some j, i => j < i

def EnvRel (W : World) : SEnv → Ptr → Prop
  | [], p => p = none
  | (x, l) :: ρ, p => ∃ i lex, p = some i ∧ W.L[i]? = some l ∧ W.sk[i]? = some (.bind x .nil lex) ∧ ltPtr lex i ∧ EnvRel W ρ lex

/-- Frames of local functions of callers. -/
inductive Extra (md : Mode) (P : Prog) (W : World) (lim : Nat) : Ptr → Prop
  | nil : Extra md P W lim none
  | cons {i f lex} : md.locals = true → i < lim → W.sk[i]? = some (.fn f [] [] none none lex) → P.fns f = none → ltPtr lex i → Extra md P W lim lex → Extra md P W lim (some i)

def FunRel (md : Mode) (P : Prog) (W : World) (lim : Nat) : SEnv → Ptr → Prop
  | [], q => Extra md P W lim q
  | (f, l) :: φ, q => ∃ i lex, q = some i ∧ md.locals = true ∧ W.L[i]? = some l ∧ W.sk[i]? = some (.fn f [] [] none none lex) ∧ P.fns f = none ∧ ltPtr lex i ∧ FunRel md P W lim φ lex

/-- Where frames of callers' functions are: below the oldest frame of the environment. -/
def Lim (W : World) (ρ : SEnv) (lim : Nat) : Prop := lim = 0 ∨ ∃ c i, ρ.getLast? = some c ∧ W.L[i]? = some c.2 ∧ lim ≤ i

def CtxRel (md : Mode) (P : Prog) (W : World) (ρ φ : SEnv) (p q : Ptr) : Prop := EnvRel W ρ p ∧ ∃ lim, FunRel md P W lim φ q ∧ Lim W ρ lim

def names (ρ : SEnv) : List Sym := ρ.map Prod.fst

structure FRel (md : Mode) (P : Prog) (W : World) (ps : List Sym) (b : List Expr) (ρ φ : SEnv) (e fe : Ptr) : Prop where
  params : okParams md P (names ρ) ps
  body : ∀ x ∈ b, Plain md P (ext P ps (names ρ)) (names φ) x
  ltE : ∀ c ∈ ρ, c.2 < W.n
  ltF : ∀ c ∈ φ, c.2 < W.n
  ctx : (∀ c ∈ ρ, c.2 ∈ W.L) → (∀ c ∈ φ, c.2 ∈ W.L) → CtxRel md P W ρ φ e fe

def VRel (md : Mode) (P : Prog) (W : World) : SVal → MVal → Prop
  | .nil, .nil => True
  | .t, .t => True
  | .int a, .int b => b = a
  | .clo ps b ρ φ, .clo ps' b' e fe => ps' = ps ∧ b' = b ∧ FRel md P W ps b ρ φ e fe
  | _, _ => False

def CellRel (md : Mode) (P : Prog) (W : World) : Cell → Entry → Prop
  | .var v, .bind _ v' _ => VRel md P W v v'
  | .fn ps b ρ φ, .fn _ ps' b' e fe _ => ps' = ps ∧ b' = b ∧ FRel md P W ps b ρ φ e fe
  | _, _ => False

def ORel (md : Mode) (P : Prog) (W : World) : Option SVal → Option MVal → Prop
  | none, none => True
  | some v, some v' => VRel md P W v v'
  | _, _ => False

structure Inv (md : Mode) (P : Prog) (S : SState) (M : MState) : Prop where
  good : (wof S M).Good
  cells : ∀ (i l : Nat) (E : Entry), S.live[i]? = some l → M.stack[i]? = some E → CellRel md P (wof S M) (S.cells l) E
  glob : ∀ x, ORel md P (wof S M) (S.glob x) (M.glob x)

structure Ctx (md : Mode) (P : Prog) (W : World) (ρ φ : SEnv) (p q : Ptr) : Prop where
  rel : CtxRel md P W ρ φ p q
  top : md.params = true → ∀ (i : Nat) (x : Sym) (lex : Ptr), W.sk[i]? = some (.bind x .nil lex) → ∃ j, p = some j ∧ i ≤ j

/-! ### Worlds -/

theorem World.Good.get_lt {W : World} (h : W.Good) {i j a b : Nat} (hi : W.L[i]? = some a) (hj : W.L[j]? = some b) (hij : i < j) : a < b := by
  obtain ⟨h1, h1'⟩ := List.getElem?_eq_some_iff.1 hi
  obtain ⟨h2, h2'⟩ := List.getElem?_eq_some_iff.1 hj
  have := (List.pairwise_iff_getElem.1 h.inc) i j h1 h2 hij
  omega

theorem World.Good.inj {W : World} (h : W.Good) {i j a : Nat} (hi : W.L[i]? = some a) (hj : W.L[j]? = some a) : i = j := by
  rcases Nat.lt_trichotomy i j with h1 | h1 | h1
  · have := h.get_lt hi hj h1; omega
  · exact h1
  · have := h.get_lt hj hi h1; omega

theorem World.Good.get_n {W : World} (h : W.Good) {i a : Nat} (hi : W.L[i]? = some a) : a < W.n := h.lt a (List.mem_of_getElem? hi)

theorem Later.refl (W : World) : Later W W := ⟨Nat.le_refl _, fun _ _ h _ => ⟨h, rfl⟩⟩

theorem Later.trans {W W1 W2 : World} (h : Later W W1) (h' : Later W1 W2) : Later W W2 := by
  refine ⟨Nat.le_trans h.n h'.n, fun i l hi hl => ?_⟩
  have h1 := h'.at_ i l hi (Nat.lt_of_lt_of_le hl h.n)
  have h2 := h.at_ i l h1.1 hl
  exact ⟨h2.1, h1.2.trans h2.2⟩

/-- A live cell of before stays where it was. -/
theorem Later.keep {W W' : World} (h : Later W W') (g : W.Good) {i l : Nat} (hi : W.L[i]? = some l) (hm : l ∈ W'.L) : W'.L[i]? = some l ∧ W'.sk[i]? = W.sk[i]? := by
  obtain ⟨j, hj⟩ := List.mem_iff_getElem?.1 hm
  have h1 := h.at_ j l hj (g.get_n hi)
  obtain rfl := g.inj hi h1.1
  exact ⟨hj, h1.2⟩

theorem Later.mem {W W' : World} (h : Later W W') {l : Nat} (hl : l < W.n) (hm : l ∈ W'.L) : l ∈ W.L := by
  obtain ⟨j, hj⟩ := List.mem_iff_getElem?.1 hm
  exact List.mem_of_getElem? (h.at_ j l hj hl).1

theorem EnvRel.mem {W : World} {ρ : SEnv} {p : Ptr} (h : EnvRel W ρ p) : ∀ c ∈ ρ, c.2 ∈ W.L := by
  induction ρ generalizing p with
  | nil => intro c hc; cases hc
  | cons c ρ ih =>
    obtain ⟨i, lex, _, hi, _, _, hr⟩ := h
    intro d hd
    rcases List.mem_cons.1 hd with rfl | hd
    · exact List.mem_of_getElem? hi
    · exact ih hr d hd

theorem FunRel.mem {md : Mode} {P : Prog} {W : World} {lim : Nat} {φ : SEnv} {q : Ptr} (h : FunRel md P W lim φ q) : ∀ c ∈ φ, c.2 ∈ W.L := by
  induction φ generalizing q with
  | nil => intro c hc; cases hc
  | cons c φ ih =>
    obtain ⟨i, lex, _, _, hi, _, _, _, hr⟩ := h
    intro d hd
    rcases List.mem_cons.1 hd with rfl | hd
    · exact List.mem_of_getElem? hi
    · exact ih hr d hd

theorem EnvRel.later {W W' : World} {ρ : SEnv} {p : Ptr} (h : EnvRel W ρ p) (hl : Later W W') (g : W.Good) (hm : ∀ c ∈ ρ, c.2 ∈ W'.L) : EnvRel W' ρ p := by
  induction ρ generalizing p with
  | nil => exact h
  | cons c ρ ih =>
    obtain ⟨i, lex, hp, hi, hs, hlt, hr⟩ := h
    have := hl.keep g hi (hm c List.mem_cons_self)
    exact ⟨i, lex, hp, this.1, this.2.trans hs, hlt, ih hr (fun d hd => hm d (List.mem_cons_of_mem _ hd))⟩

theorem Extra.later {md : Mode} {P : Prog} {W W' : World} {lim : Nat} {q : Ptr} (h : Extra md P W lim q) (hk : ∀ i, i < lim → W'.sk[i]? = W.sk[i]?) : Extra md P W' lim q := by
  induction h with
  | nil => exact .nil
  | cons h1 h2 h3 h4 h5 _ ih => exact .cons h1 h2 ((hk _ h2).trans h3) h4 h5 ih

theorem FunRel.later {md : Mode} {P : Prog} {W W' : World} {lim : Nat} {φ : SEnv} {q : Ptr} (h : FunRel md P W lim φ q) (hl : Later W W') (g : W.Good)
    (hm : ∀ c ∈ φ, c.2 ∈ W'.L) (hk : ∀ i, i < lim → W'.sk[i]? = W.sk[i]?) : FunRel md P W' lim φ q := by
  induction φ generalizing q with
  | nil => exact Extra.later h hk
  | cons c ρ ih =>
    obtain ⟨i, lex, hp, hlo, hi, hs, hf, hlt, hr⟩ := h
    have := hl.keep g hi (hm c List.mem_cons_self)
    exact ⟨i, lex, hp, hlo, this.1, this.2.trans hs, hf, hlt, ih hr (fun d hd => hm d (List.mem_cons_of_mem _ hd))⟩

theorem CtxRel.later {md : Mode} {P : Prog} {W W' : World} {ρ φ : SEnv} {p q : Ptr} (h : CtxRel md P W ρ φ p q) (hl : Later W W') (g : W.Good) (g' : W'.Good)
    (hm : ∀ c ∈ ρ, c.2 ∈ W'.L) (hm' : ∀ c ∈ φ, c.2 ∈ W'.L) : CtxRel md P W' ρ φ p q := by
  obtain ⟨he, lim, hf, hlim⟩ := h
  refine ⟨he.later hl g hm, lim, ?_, ?_⟩
  · refine hf.later hl g hm' ?_
    rcases hlim with rfl | ⟨c, k, hc, hk, hle⟩
    · intro i hi; omega
    · intro i hi
      have hmem := hm c (List.mem_of_getLast? hc)
      have hk' := hl.keep g hk hmem
      have hlt : k < W'.L.length := (List.getElem?_eq_some_iff.1 hk'.1).1
      obtain ⟨b, hb⟩ : ∃ b, W'.L[i]? = some b := ⟨_, List.getElem?_eq_getElem (by omega)⟩
      have hb' := g'.get_lt hb hk'.1 (by omega)
      have := g.get_n hk
      exact (hl.at_ i b hb (by omega)).2
  · rcases hlim with rfl | ⟨c, k, hc, hk, hle⟩
    · exact Or.inl rfl
    · exact Or.inr ⟨c, k, hc, (hl.keep g hk (hm c (List.mem_of_getLast? hc))).1, hle⟩

theorem FRel.later {md : Mode} {P : Prog} {W W' : World} {ps : List Sym} {b : List Expr} {ρ φ : SEnv} {e fe : Ptr} (h : FRel md P W ps b ρ φ e fe) (hl : Later W W') (g : W.Good)
    (g' : W'.Good) : FRel md P W' ps b ρ φ e fe := by
  refine ⟨h.params, h.body, fun c hc => Nat.lt_of_lt_of_le (h.ltE c hc) hl.n, fun c hc => Nat.lt_of_lt_of_le (h.ltF c hc) hl.n, fun h1 h2 => ?_⟩
  exact (h.ctx (fun c hc => hl.mem (h.ltE c hc) (h1 c hc)) (fun c hc => hl.mem (h.ltF c hc) (h2 c hc))).later hl g g' h1 h2

theorem VRel.later {md : Mode} {P : Prog} {W W' : World} {v : SVal} {v' : MVal} (h : VRel md P W v v') (hl : Later W W') (g : W.Good) (g' : W'.Good) : VRel md P W' v v' := by
  cases v <;> cases v' <;> simp only [VRel] at h ⊢
  · exact h
  · exact ⟨h.1, h.2.1, h.2.2.later hl g g'⟩

theorem ORel.later {md : Mode} {P : Prog} {W W' : World} {v : Option SVal} {v' : Option MVal} (h : ORel md P W v v') (hl : Later W W') (g : W.Good) (g' : W'.Good) : ORel md P W' v v' := by
  cases v <;> cases v' <;> simp only [ORel] at h ⊢
  exact h.later hl g g'

theorem CellRel.later {md : Mode} {P : Prog} {W W' : World} {c : Cell} {E : Entry} (h : CellRel md P W c E) (hl : Later W W') (g : W.Good) (g' : W'.Good) : CellRel md P W' c E := by
  cases c <;> cases E <;> simp only [CellRel] at h ⊢
  · exact h.later hl g g'
  · exact ⟨h.1, h.2.1, h.2.2.later hl g g'⟩

/-! ### What an evaluation may change -/

structure After (md : Mode) (P : Prog) (S : SState) (M : MState) (S' : SState) (M' : MState) : Prop where
  inv : Inv md P S' M'
  live : S'.live = S.live
  sk : M'.stack.map skel = M.stack.map skel
  next : S.next ≤ S'.next
  bindfp : M'.bindfp = M.bindfp
  fletfp : M'.fletfp = M.fletfp
  sb : M'.sb = M.sb

theorem After.refl {md : Mode} {P : Prog} {S : SState} {M : MState} (h : Inv md P S M) : After md P S M S M := ⟨h, rfl, rfl, Nat.le_refl _, rfl, rfl, rfl⟩

theorem After.trans {md : Mode} {P : Prog} {S S1 S2 : SState} {M M1 M2 : MState} (h : After md P S M S1 M1) (h' : After md P S1 M1 S2 M2) : After md P S M S2 M2 :=
  ⟨h'.inv, h'.live.trans h.live, h'.sk.trans h.sk, Nat.le_trans h.next h'.next, h'.bindfp.trans h.bindfp, h'.fletfp.trans h.fletfp, h'.sb.trans h.sb⟩

theorem After.later {md : Mode} {P : Prog} {S S1 : SState} {M M1 : MState} (h : After md P S M S1 M1) : Later (wof S M) (wof S1 M1) := by
  refine ⟨h.next, fun i l hi _ => ⟨?_, ?_⟩⟩
  · simpa only [wof, h.live] using hi
  · simp only [wof, h.sk]

theorem After.ctx {md : Mode} {P : Prog} {S S1 : SState} {M M1 : MState} {ρ φ : SEnv} (h : After md P S M S1 M1) (hi : Inv md P S M) (hc : Ctx md P (wof S M) ρ φ M.bindfp M.fletfp) :
    Ctx md P (wof S1 M1) ρ φ M1.bindfp M1.fletfp := by
  rw [h.bindfp, h.fletfp]
  have hL : (wof S1 M1).L = (wof S M).L := h.live
  have hsk : (wof S1 M1).sk = (wof S M).sk := h.sk
  obtain ⟨lim, hf, _⟩ := hc.rel.2
  refine ⟨hc.rel.later h.later hi.good h.inv.good ?_ ?_, ?_⟩
  · rw [hL]; exact hc.rel.1.mem
  · rw [hL]; exact hf.mem
  · rw [hsk]; exact hc.top

/-- Results correspond. -/
def RRel {α β : Type} (md : Mode) (P : Prog) (R : World → α → β → Prop) (S : SState) (M : MState) : Res α SState → Res β MState → Prop
  | .ok v S', r => ∃ v' M', r = .ok v' M' ∧ After md P S M S' M' ∧ R (wof S' M') v v'
  | .err, r => r = .err
  | .out, r => r = .out
  | .escape, _ => True
  | .ub, _ => False

theorem RRel.bind {α β γ δ : Type} {md : Mode} {P : Prog} {R : World → α → β → Prop} {R2 : World → γ → δ → Prop} {S : SState} {M : MState} {r : Res α SState} {r' : Res β MState}
    {f : α → SState → Res γ SState} {f' : β → MState → Res δ MState} (h : RRel md P R S M r r')
    (hf : ∀ v S' v' M', After md P S M S' M' → R (wof S' M') v v' → RRel md P R2 S' M' (f v S') (f' v' M')) : RRel md P R2 S M (r.bind f) (r'.bind f') := by
  cases r with
  | ok v S' =>
    obtain ⟨v', M', rfl, ha, hr⟩ := h
    have := hf v S' v' M' ha hr
    simp only [Res.bind]
    revert this
    cases f v S' with
    | ok w S2 =>
      rintro ⟨w', M2, he, ha2, hr2⟩
      exact ⟨w', M2, he, ha.trans ha2, hr2⟩
    | err => exact id
    | out => exact id
    | escape => exact id
    | ub => exact id
  | err => obtain rfl : r' = .err := h; exact rfl
  | out => obtain rfl : r' = .out := h; exact rfl
  | escape => trivial
  | ub => exact h.elim

/-- The induction hypothesis: forms one step down. -/
def Sim (md : Mode) (P : Prog) (evS : SEnv → SEnv → Expr → SState → Res SVal SState) (evM : Expr → MState → Res MVal MState) : Prop :=
  ∀ e ρ φ S M, Plain md P (names ρ) (names φ) e → Inv md P S M → Ctx md P (wof S M) ρ φ M.bindfp M.fletfp → RRel md P (VRel md P) S M (evS ρ φ e S) (evM e M)

theorem RRel.pure {α β : Type} {md : Mode} {P : Prog} {R : World → α → β → Prop} {S : SState} {M : MState} {v : α} {v' : β} (h : Inv md P S M) (hr : R (wof S M) v v') :
    RRel md P R S M (.ok v S) (.ok v' M) := ⟨v', M, rfl, After.refl h, hr⟩

inductive LRel (md : Mode) (P : Prog) (W : World) : List SVal → List MVal → Prop
  | nil : LRel md P W [] []
  | cons {v v' vs vs'} : VRel md P W v v' → LRel md P W vs vs' → LRel md P W (v :: vs) (v' :: vs')

section
variable {md : Mode} {P : Prog} {evS : SEnv → SEnv → Expr → SState → Res SVal SState} {evM : Expr → MState → Res MVal MState}

theorem sim_progn (hs : Sim md P evS evM) {ρ φ : SEnv} (es : List Expr) : ∀ (v : SVal) (v' : MVal) (S : SState) (M : MState), (∀ e ∈ es, Plain md P (names ρ) (names φ) e) → Inv md P S M →
    Ctx md P (wof S M) ρ φ M.bindfp M.fletfp → VRel md P (wof S M) v v' → RRel md P (VRel md P) S M (prognFrom (evS ρ φ) v es S) (prognFrom evM v' es M) := by
  induction es with
  | nil => intro v v' S M _ hi _ hv; exact RRel.pure hi hv
  | cons e es ih =>
    intro v v' S M hp hi hc _
    simp only [prognFrom]
    refine (hs e ρ φ S M (hp e List.mem_cons_self) hi hc).bind fun w S' w' M' ha hr => ?_
    exact ih w w' S' M' (fun e he => hp e (List.mem_cons_of_mem _ he)) ha.inv (ha.ctx hi hc) hr

theorem sim_and (hs : Sim md P evS evM) {ρ φ : SEnv} (es : List Expr) : ∀ (v : SVal) (v' : MVal) (S : SState) (M : MState), (∀ e ∈ es, Plain md P (names ρ) (names φ) e) → Inv md P S M →
    Ctx md P (wof S M) ρ φ M.bindfp M.fletfp → VRel md P (wof S M) v v' → RRel md P (VRel md P) S M (andFrom (evS ρ φ) v es S) (andFrom evM v' es M) := by
  induction es with
  | nil => intro v v' S M _ hi _ hv; exact RRel.pure hi hv
  | cons e es ih =>
    intro v v' S M hp hi hc _
    simp only [andFrom]
    refine (hs e ρ φ S M (hp e List.mem_cons_self) hi hc).bind fun w S' w' M' ha hr => ?_
    have := ih w w' S' M' (fun e he => hp e (List.mem_cons_of_mem _ he)) ha.inv (ha.ctx hi hc) hr
    cases w <;> cases w' <;> simp only [VRel] at hr
    · exact RRel.pure ha.inv trivial
    all_goals exact this

theorem sim_or (hs : Sim md P evS evM) {ρ φ : SEnv} (es : List Expr) : ∀ (S : SState) (M : MState), (∀ e ∈ es, Plain md P (names ρ) (names φ) e) → Inv md P S M →
    Ctx md P (wof S M) ρ φ M.bindfp M.fletfp → RRel md P (VRel md P) S M (orFrom (evS ρ φ) es S) (orFrom evM es M) := by
  induction es with
  | nil => intro S M _ hi _; exact RRel.pure hi trivial
  | cons e es ih =>
    intro S M hp hi hc
    simp only [orFrom]
    refine (hs e ρ φ S M (hp e List.mem_cons_self) hi hc).bind fun w S' w' M' ha hr => ?_
    have hr' := hr
    cases w <;> cases w' <;> simp only [VRel] at hr
    · exact ih S' M' (fun e he => hp e (List.mem_cons_of_mem _ he)) ha.inv (ha.ctx hi hc)
    all_goals exact RRel.pure ha.inv hr'

theorem LRel.later {W W' : World} {vs : List SVal} {vs' : List MVal} (h : LRel md P W vs vs') (hl : Later W W') (g : W.Good) (g' : W'.Good) : LRel md P W' vs vs' := by
  induction h with
  | nil => exact .nil
  | cons h _ ih => exact .cons (h.later hl g g') ih

theorem sim_args (hs : Sim md P evS evM) {ρ φ : SEnv} (es : List Expr) : ∀ (S : SState) (M : MState), (∀ e ∈ es, Plain md P (names ρ) (names φ) e) → Inv md P S M →
    Ctx md P (wof S M) ρ φ M.bindfp M.fletfp → RRel md P (fun W vs vs' => LRel md P W vs vs' ∧ vs.length = es.length) S M (evalArgs (evS ρ φ) es S) (evalArgs evM es M) := by
  induction es with
  | nil => intro S M _ hi _; exact RRel.pure (R := fun W vs vs' => LRel md P W vs vs' ∧ vs.length = _) hi ⟨.nil, rfl⟩
  | cons e es ih =>
    intro S M hp hi hc
    simp only [evalArgs]
    refine (hs e ρ φ S M (hp e List.mem_cons_self) hi hc).bind fun w S' w' M' ha hr => ?_
    refine (ih S' M' (fun e he => hp e (List.mem_cons_of_mem _ he)) ha.inv (ha.ctx hi hc)).bind fun ws S2 ws' M2 ha2 hr2 => ?_
    exact RRel.pure (R := fun W vs vs' => LRel md P W vs vs' ∧ vs.length = _) ha2.inv ⟨.cons (hr.later ha2.later ha.inv.good ha2.inv.good) hr2.1, by simp [hr2.2]⟩

end

end Eus.Lex
