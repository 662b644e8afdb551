import Verif.Cmp.Rel
set_option autoImplicit false
/-
Running compiled forms, against the specification: lists of forms and conditions.
-/
namespace Eus.Cmp
open Eus.Lex
open Comp (search assq clear)

variable (P : Prog) (glo : Sym → Bool) (k0 : Nat) (m : Mach)

/-- Before running what is compiled from c on. -/
structure At (sc fs : List Sym) (act : Act) (ρ φ : SEnv) (Z : List Slot) (S : SState) (T : CState) (c : Comp) : Prop where
  pre : Pre P glo sc c
  wf : ∀ l, Instr.label l ∈ c.code → l < c.lab
  ctx : Ctx P glo Z (look c) c.flets c.cl (base act) sc fs ρ φ
  rel : Rel P glo k0 m Z S T
  below : Below Z (act.loc + ht c)

/-- c leads to F. -/
structure Fut (F : Code) (c : Comp) : Prop where
  px : c.code <+: F
  tasks : ∀ t ∈ c.tasks, TS P.special k0 m.clos t

/-- What a form's code does; g: the form may be a reference to an unbound variable that has not been read yet. -/
def Out (H : Nat) (p0 : Config) (F : Code) (act : Act) (rest : List Frame) (Z : List Slot) (S : SState) (T : CState) (c' : Comp) (g : Prop) (r : Res SVal SState) : Prop :=
  match r with
  | .ok v S' => ∃ w' T' v', Reach m p0 (conf F act rest c'.code.length w' T') ∧ Top m act w' T' c' v' ∧ VRel P glo k0 m S'.next Z v v' ∧ Rel P glo k0 m Z S' T' ∧ Chg Z H S T S' T'
  | .err => Reach m p0 .err ∨ (g ∧ ∃ w' T', Reach m p0 (conf F act rest c'.code.length w' T') ∧ TopErr m act w' T' c')
  | _ => True

/-- The same, and the value has been stored at a. -/
def OutM (H : Nat) (p0 : Config) (F : Code) (act : Act) (rest : List Frame) (Z : List Slot) (S : SState) (T : CState) (p a : Nat) (r : Res SVal SState) : Prop :=
  match r with
  | .ok v S' => ∃ w' T' v', Reach m p0 (conf F act rest p w' T') ∧ T'.mem a = .val v' ∧ VRel P glo k0 m S'.next Z v v' ∧ Rel P glo k0 m Z S' T' ∧ Chg Z H S T S' T'
  | .err => Reach m p0 .err
  | _ => True

def snil : SVal → Bool
  | .nil => true
  | _ => false

/-- What a condition's code does: it jumps to q unless e is NIL, or not NIL. -/
def EOut (H : Nat) (p0 : Config) (F : Code) (act : Act) (rest : List Frame) (Z : List Slot) (S : SState) (T : CState) (b : Bool) (p q : Nat) (r : Res SVal SState) : Prop :=
  match r with
  | .ok v S' => ∃ w' T', Reach m p0 (conf F act rest (if snil v = b then p else q) w' T') ∧ Rel P glo k0 m Z S' T' ∧ Chg Z H S T S' T'
  | .err => Reach m p0 .err
  | _ => True

def SimE (n : Nat) : Prop :=
  ∀ k e c c' sc fs F act rest w T S ρ φ Z, (comp P.special k).1 e c = some c' → c.push = none → CPlain P glo sc fs e → (Flat e ∨ Agree c sc) → At P glo k0 m sc fs act ρ φ Z S T c → Fut P k0 m F c' →
    Out P glo k0 m (act.loc + c.pc) (conf F act rest c.code.length w T) F act rest Z S T c' (GlobalRef sc e) (seval true P n ρ φ e S)

def SimV (n : Nat) : Prop :=
  ∀ k b l q e c c' sc fs F act rest w T S ρ φ Z, (comp P.special k).2 b l e c = some c' → c.push = none → CPlain P glo sc fs e → (Flat e ∨ Agree c sc) → At P glo k0 m sc fs act ρ φ Z S T c → Fut P k0 m F c' →
    labelAt l F = some q → EOut P glo k0 m (act.loc + c.pc) (conf F act rest c.code.length w T) F act rest Z S T b c'.code.length q (seval true P n ρ φ e S)

variable {P glo k0 m}

theorem Ext.prefix {L : Nat} {c c' : Comp} (h : Ext L c c') : c.code <+: c'.code := by
  obtain ⟨n, e, _⟩ := h.code; rw [e]; exact List.prefix_append _ _

theorem Fut.ext {F : Code} {c c' : Comp} {L : Nat} (h : Fut P k0 m F c') (he : Ext L c c') : Fut P k0 m F c :=
  ⟨he.prefix.trans h.px, fun t ht => h.tasks t (by obtain ⟨ts, e, _⟩ := he.tasks; rw [e]; exact List.mem_append_left _ ht)⟩

theorem Fut.op {F : Code} {c c' : Comp} {ls : List Nat} (h : Fut P k0 m F c') (he : Op ls c c') : Fut P k0 m F c :=
  ⟨he.prefix.trans h.px, fun t ht => h.tasks t (by rw [he.tasks]; exact ht)⟩

theorem Fut.clear {F : Code} {c : Comp} (h : Fut P k0 m F c.clear) : Fut P k0 m F c := h.op (op_clear [] c)

theorem wf_ext {L : Nat} {c c' : Comp} (he : Ext L c c') (h : ∀ l, Instr.label l ∈ c.code → l < c.lab) : ∀ l, Instr.label l ∈ c'.code → l < c'.lab := by
  intro l hl
  obtain ⟨n, e, hn⟩ := he.code
  rw [e] at hl
  rcases List.mem_append.mp hl with hl | hl
  · exact Nat.lt_of_lt_of_le (h l hl) he.lab
  · exact (hn l hl).2

theorem Ctx.look {Z : List Slot} {L L' : Sym → Option Ident} {fl : List Flet} {cl : Nat} {B : Nat → Option (Nat × Nat)} {sc fs : List Sym} {ρ φ : SEnv} (h : Ctx P glo Z L fl cl B sc fs ρ φ)
    (hl : ∀ x ∈ sc, L' x = L x) : Ctx P glo Z L' fl cl B sc fs ρ φ :=
  ⟨fun x hx => by rw [hl x hx]; exact h.var x hx, h.fn, h.glob, h.free, h.lv, h.lf⟩

theorem Ctx.sub {Z : List Slot} {L : Sym → Option Ident} {fl : List Flet} {cl : Nat} {B : Nat → Option (Nat × Nat)} {sc sc' fs fs' : List Sym} {ρ φ : SEnv} (h : Ctx P glo Z L fl cl B sc fs ρ φ)
    (hs : ∀ x ∈ sc', x ∈ sc) (hf : ∀ f ∈ fs', f ∈ fs) : Ctx P glo Z L fl cl B sc' fs' ρ φ :=
  ⟨fun x hx => h.var x (hs x hx), fun f hf' => h.fn f (hf f hf'), h.glob, h.free, h.lv, h.lf⟩

/-- After compiling and running something. -/
theorem At.next {sc fs : List Sym} {act : Act} {ρ φ : SEnv} {Z : List Slot} {S S1 : SState} {T T1 : CState} {c c1 : Comp} {L n : Nat} (h : At P glo k0 m sc fs act ρ φ Z S T c)
    (hp : Post P glo sc L n c c1) (hr : Rel P glo k0 m Z S1 T1) : At P glo k0 m sc fs act ρ φ Z S1 T1 c1 :=
  ⟨hp.keep.pre h.pre, wf_ext hp.ext h.wf, by rw [hp.keep.flets, hp.keep.cl]; exact h.ctx.look (fun x hx => hp.keep.look h.pre hx), hr, h.below.mono (by rw [hp.ht]; omega)⟩

theorem At.op {sc fs : List Sym} {act : Act} {ρ φ : SEnv} {Z : List Slot} {S S1 : SState} {T T1 : CState} {c c1 : Comp} (h : At P glo k0 m sc fs act ρ φ Z S T c)
    (ho : Op [] c c1) (hh : ht c ≤ ht c1) (hr : Rel P glo k0 m Z S1 T1) : At P glo k0 m sc fs act ρ φ Z S1 T1 c1 :=
  h.next (L := c.lab) (n := ht c1 - ht c) (ho.post h.pre.tab (by omega)) hr

theorem Out.pre {H H1 : Nat} {p0 p1 : Config} {F : Code} {act : Act} {rest : List Frame} {Z : List Slot} {S S1 : SState} {T T1 : CState} {c' : Comp} {g g' : Prop} {r : Res SVal SState}
    (hr : Reach m p0 p1) (hc : Chg Z H S T S1 T1) (hH : H ≤ H1) (hg : g → g') (h : Out P glo k0 m H1 p1 F act rest Z S1 T1 c' g r) : Out P glo k0 m H p0 F act rest Z S T c' g' r := by
  unfold Out at h ⊢
  cases r with
  | ok v S' => obtain ⟨w', T', v', h1, h2, h3, h4, h5⟩ := h; exact ⟨w', T', v', hr.trans h1, h2, h3, h4, hc.trans h5 hH⟩
  | err =>
    rcases h with h | ⟨hgg, w', T', h1, h2⟩
    · exact .inl (hr.trans h)
    · exact .inr ⟨hg hgg, w', T', hr.trans h1, h2⟩
  | _ => trivial

theorem OutM.pre {H H1 : Nat} {p0 p1 : Config} {F : Code} {act : Act} {rest : List Frame} {Z : List Slot} {S S1 : SState} {T T1 : CState} {p a : Nat} {r : Res SVal SState}
    (hr : Reach m p0 p1) (hc : Chg Z H S T S1 T1) (hH : H ≤ H1) (h : OutM P glo k0 m H1 p1 F act rest Z S1 T1 p a r) : OutM P glo k0 m H p0 F act rest Z S T p a r := by
  unfold OutM at h ⊢
  cases r with
  | ok v S' => obtain ⟨w', T', v', h1, h2, h3, h4, h5⟩ := h; exact ⟨w', T', v', hr.trans h1, h2, h3, h4, hc.trans h5 hH⟩
  | err => exact hr.trans h
  | _ => trivial

theorem EOut.pre {H H1 : Nat} {p0 p1 : Config} {F : Code} {act : Act} {rest : List Frame} {Z : List Slot} {S S1 : SState} {T T1 : CState} {p q : Nat} {b : Bool} {r : Res SVal SState}
    (hr : Reach m p0 p1) (hc : Chg Z H S T S1 T1) (hH : H ≤ H1) (h : EOut P glo k0 m H1 p1 F act rest Z S1 T1 b p q r) : EOut P glo k0 m H p0 F act rest Z S T b p q r := by
  unfold EOut at h ⊢
  cases r with
  | ok v S' => obtain ⟨w', T', h1, h4, h5⟩ := h; exact ⟨w', T', hr.trans h1, h4, hc.trans h5 hH⟩
  | err => exact hr.trans h
  | _ => trivial

/-- The value is stored on the stack. -/
theorem Out.clear {H : Nat} {p0 : Config} {F : Code} {act : Act} {rest : List Frame} {Z : List Slot} {S : SState} {T : CState} {c' : Comp} {g : Prop} {r : Res SVal SState}
    (h : Out P glo k0 m H p0 F act rest Z S T c' g r) (hF : c'.clear.code <+: F) (hb : Below Z H) (hH : H ≤ act.loc + (ht c' - 1)) :
    OutM P glo k0 m H p0 F act rest Z S T c'.clear.code.length (act.loc + (ht c' - 1)) r := by
  unfold Out at h
  unfold OutM
  cases r with
  | ok v S' =>
    obtain ⟨w', T', v', h1, h2, h3, h4, h5⟩ := h
    obtain ⟨T2, r2, p2⟩ := run_clear (rest := rest) hF h2
    exact ⟨w', T2, v', h1.trans r2, p2.at_, h3, p2.rel hb hH h4, h5.trans (p2.chg hH) (Nat.le_refl _)⟩
  | err =>
    rcases h with h | ⟨_, w', T', h1, h2⟩
    · exact h
    · exact h1.trans (run_clear_err hF h2)
  | _ => trivial

/-! ### Arguments -/

/-- Values on the stack. -/
def Stk (P : Prog) (glo : Sym → Bool) (k0 : Nat) (m : Mach) (n : Nat) (Z : List Slot) (T : CState) : Nat → List SVal → Prop
  | _, [] => True
  | a, v :: vs => (∃ v', T.mem a = .val v' ∧ VRel P glo k0 m n Z v v') ∧ Stk P glo k0 m n Z T (a + 1) vs

theorem Stk.mono {n n' : Nat} {Z Z' : List Slot} {T T' : CState} (hv : ∀ v v', VRel P glo k0 m n Z v v' → VRel P glo k0 m n' Z' v v') : ∀ {vs : List SVal} {a : Nat},
    (∀ b, a ≤ b → b < a + vs.length → T'.mem b = T.mem b) → Stk P glo k0 m n Z T a vs → Stk P glo k0 m n' Z' T' a vs
  | [], _, _, _ => trivial
  | v :: vs, a, hm, ⟨⟨v', h1, h2⟩, h3⟩ => ⟨⟨v', by rw [hm a (Nat.le_refl _) (by simp)]; exact h1, hv _ _ h2⟩, h3.mono hv (fun b h h' => hm b (by omega) (by simp at h' ⊢; omega))⟩

def OutA (P : Prog) (glo : Sym → Bool) (k0 : Nat) (m : Mach) (H : Nat) (p0 : Config) (F : Code) (act : Act) (rest : List Frame) (Z : List Slot) (S : SState) (T : CState) (p a len : Nat) (r : Res (List SVal) SState) : Prop :=
  match r with
  | .ok vs S' => ∃ w' T', Reach m p0 (conf F act rest p w' T') ∧ Stk P glo k0 m S'.next Z T' a vs ∧ vs.length = len ∧ Rel P glo k0 m Z S' T' ∧ Chg Z H S T S' T'
  | .err => Reach m p0 .err
  | _ => True

section
variable {n k : Nat} (hs : SimE P glo k0 m n) {F : Code} {act : Act} {rest : List Frame} {ρ φ : SEnv} {Z : List Slot} {sc fs : List Sym}
include hs

theorem sim_args : ∀ (es : List Expr) {c c' : Comp} {S : SState} {T : CState} {w : CVal}, compArgs (comp P.special k).1 es c = some c' → c.push = none → (∀ e ∈ es, CPlain P glo sc fs e) → ((∀ e ∈ es, Flat e) ∨ Agree c sc) →
    At P glo k0 m sc fs act ρ φ Z S T c → Fut P k0 m F c'.clear →
    OutA P glo k0 m (act.loc + c.pc) (conf F act rest c.code.length w T) F act rest Z S T c'.clear.code.length (act.loc + c.pc) es.length (evalArgs (seval true P n ρ φ) es S)
  | [], c, c', S, T, w, h, hp, hq, hf, ha, hfu => by
    cases h
    rw [clear_self hp]
    exact ⟨w, T, Reach.refl _ _, trivial, rfl, ha.rel, Chg.refl _ _ _ _⟩
  | e :: es, c, c', S, T, w, h, hp, hq, hf, ha, hfu => by
    simp only [compArgs, Option.bind_eq_some_iff] at h
    obtain ⟨c1, h1, h2⟩ := h
    have st := (st_both (P := P) (glo := glo) k).1
    have p1 := st e c c1 sc fs h1 (hq e (by simp)) ha.pre (or_list hf).1
    have p2 := st_args st es h2 (fun a h => hq a (by simp [h])) (p1.keep.pre ha.pre) (or_keep ha.pre p1.keep (or_list hf).2)
    have hh : ht c1 = c.pc + 1 := by rw [p1.ht, ht_none hp]
    -- the rest, from where the value has been stored
    have h2' : ∃ c2, compArgs (comp P.special k).1 es c1.clear = some c2 ∧ c2.clear = c'.clear := by
      cases es with
      | nil => cases h2; exact ⟨_, rfl, by simp⟩
      | cons e2 es => exact ⟨c', by rw [clear_args (clear_both P.special k).1]; exact h2, rfl⟩
    obtain ⟨c2, h2', e2⟩ := h2'
    have pc1 : Post P glo sc c.lab 1 c c1.clear := p1.op0 ha.pre (op_clear [] c1) (by rw [ht_clear, p1.ht])
    have p3 := st_args st es h2' (fun a h => hq a (by simp [h])) (pc1.keep.pre ha.pre) (or_keep ha.pre pc1.keep (or_list hf).2)
    have fu1 : Fut P k0 m F c1.clear := by rw [← e2] at hfu; exact hfu.clear.ext p3.ext
    have o1 := hs k e c c1 sc fs F act rest w T S ρ φ Z h1 hp (hq e (by simp)) (or_list hf).1 ha fu1.clear
    have hb : Below Z (act.loc + c.pc) := by have := ha.below; rwa [ht_none hp] at this
    have o2 := o1.clear fu1.px hb (by omega)
    simp only [evalArgs]
    cases hr : seval true P n ρ φ e S with
    | ok v S1 =>
      rw [hr] at o2
      obtain ⟨w1, T1, v1, r1, m1, q1, rel1, ch1⟩ := o2
      have ha1 : At P glo k0 m sc fs act ρ φ Z S1 T1 c1.clear := ha.next pc1 rel1
      have o3 := sim_args es (w := w1) h2' (clear_push c1) (fun a h => hq a (by simp [h])) (or_keep ha.pre pc1.keep (or_list hf).2) ha1 (by rw [e2]; exact hfu)
      rw [e2] at o3
      have hpc : c1.clear.pc = c.pc + 1 := by rw [clear_pc, hh]
      rw [hpc] at o3
      unfold OutA at o3 ⊢
      simp only [Res.bind]
      cases hr2 : evalArgs (seval true P n ρ φ) es S1 with
      | ok vs S2 =>
        rw [hr2] at o3
        obtain ⟨w2, T2, r2, s2, l2, rel2, ch2⟩ := o3
        refine ⟨w2, T2, r1.trans r2, ⟨⟨v1, ?_, q1.chg ch2 rel1⟩, ?_⟩, by simp [l2], rel2, ch1.trans ch2 (by omega)⟩
        · rw [ch2.mem _ (by omega) (fun s hs => by have := hb s hs; omega)]
          rw [hh] at m1
          simpa using m1
        · simpa [Nat.add_assoc] using s2
      | err => rw [hr2] at o3; exact r1.trans o3
      | _ => trivial
    | err => rw [hr] at o2; exact o2
    | _ => trivial

/-- Forms one after the other. -/
theorem sim_progn : ∀ (es : List Expr) {c c' : Comp} {S : SState} {T : CState} {w : CVal} (v0 : SVal), compProgn (comp P.special k).1 es c = some c' → c.push = none → (∀ e ∈ es, CPlain P glo sc fs e) → used sc es →
    ((∀ e ∈ es, Flat e) ∨ Agree c sc) → At P glo k0 m sc fs act ρ φ Z S T c → Fut P k0 m F c' → (es = [] → v0 = .nil) →
    Out P glo k0 m (act.loc + c.pc) (conf F act rest c.code.length w T) F act rest Z S T c' (∃ es' e, es = es' ++ [e] ∧ GlobalRef sc e) (prognFrom (seval true P n ρ φ) v0 es S)
  | [], c, c', S, T, w, v0, h, hp, hq, hu, hf, ha, hfu, hv => by
    cases h
    rw [hv rfl]
    have e : (c.pushx .nil).code = c.code := by show c.clear.code = _; rw [clear_self hp]
    exact ⟨w, T, .nil, by rw [e]; exact Reach.refl _ _, rfl, .nil, ha.rel, Chg.refl _ _ _ _⟩
  | [e], c, c', S, T, w, v0, h, hp, hq, hu, hf, ha, hfu, hv => by
    have o := hs k e c c' sc fs F act rest w T S ρ φ Z h hp (hq e (by simp)) (or_list hf).1 ha hfu
    simp only [prognFrom]
    cases hr : seval true P n ρ φ e S with
    | ok v S' => rw [hr] at o; exact o
    | err =>
      rw [hr] at o
      rcases o with o | ⟨g, o⟩
      · exact .inl o
      · exact .inr ⟨⟨[], e, rfl, g⟩, o⟩
    | _ => trivial
  | e :: e' :: es, c, c', S, T, w, v0, h, hp, hq, hu, hf, ha, hfu, hv => by
    simp only [compProgn, Option.bind_eq_some_iff] at h
    obtain ⟨c1, h1, h2⟩ := h
    have st := (st_both (P := P) (glo := glo) k).1
    have p1 := st e c c1 sc fs h1 (hq e (by simp)) ha.pre (or_list hf).1
    have pd : Post P glo sc c.lab 0 c (c1.discard 1) := p1.op0 ha.pre (op_discard [] 1 c1) (by rw [ht_discard _ _ (.inr (Nat.le_refl _)), p1.ht]; omega)
    have p2 := st_progn st (e' :: es) h2 (fun a h => hq a (List.mem_cons_of_mem _ h)) (pd.keep.pre ha.pre) (or_keep ha.pre pd.keep (or_list hf).2)
    have fu1 : Fut P k0 m F (c1.discard 1) := hfu.ext p2.ext
    have o1 := hs k e c c1 sc fs F act rest w T S ρ φ Z h1 hp (hq e (by simp)) (or_list hf).1 ha (fu1.op (op_discard [] 1 c1))
    have ecode : (c1.discard 1).code = c1.code := by unfold Comp.discard; split <;> rfl
    have epc : (c1.discard 1).pc = c.pc := by rw [discard_pc 1 c1 (.inr (Nat.le_refl _)), p1.ht, ht_none hp]; omega
    simp only [prognFrom]
    cases hr : seval true P n ρ φ e S with
    | ok v S1 =>
      rw [hr] at o1
      obtain ⟨w1, T1, v1, r1, t1, q1, rel1, ch1⟩ := o1
      have ha1 : At P glo k0 m sc fs act ρ φ Z S1 T1 (c1.discard 1) := ha.next pd rel1
      have o2 := sim_progn (e' :: es) (w := w1) v h2 (discard_push 1 c1) (fun a h => hq a (List.mem_cons_of_mem _ h)) (fun a h => hu a (List.mem_cons_of_mem _ h)) (or_keep ha.pre pd.keep (or_list hf).2) ha1 hfu (by simp)
      rw [ecode, epc] at o2
      refine o2.pre r1 ch1 (Nat.le_refl _) ?_
      rintro ⟨es', a, he, hg⟩
      exact ⟨e :: es', a, by rw [he]; rfl, hg⟩
    | err =>
      rw [hr] at o1
      rcases o1 with o | ⟨g, _⟩
      · exact .inl o
      · exact absurd g (hu e (by simp))
    | _ => trivial

end

/-! ### `and`, `or` -/

theorem run_dupe_err {F : Code} {act : Act} {rest : List Frame} {c : Comp} {w : CVal} {T : CState} (hF : c.dupe.code <+: F) (ht : TopErr m act w T c) : Reach m (conf F act rest c.code.length w T) .err := by
  unfold Comp.dupe at hF
  split at hF
  · exact run_clear_err (show c.clear.code <+: F from hF) ht
  · exact run_clear_err ((op_pushx [] _ c.clear).prefix.trans hF) ht

def OutJ (P : Prog) (glo : Sym → Bool) (k0 : Nat) (m : Mach) (H : Nat) (p0 : Config) (F : Code) (act : Act) (rest : List Frame) (Z : List Slot) (S : SState) (T : CState) (c' : Comp) (q a : Nat) (r : Res SVal SState) : Prop :=
  match r with
  | .ok v S' => ∃ w' T' v', ((Reach m p0 (conf F act rest c'.code.length w' T') ∧ Top m act w' T' c' v') ∨ (Reach m p0 (conf F act rest q w' T') ∧ T'.mem a = .val v')) ∧
      VRel P glo k0 m S'.next Z v v' ∧ Rel P glo k0 m Z S' T' ∧ Chg Z H S T S' T'
  | .err => Reach m p0 .err ∨ ∃ w' T', Reach m p0 (conf F act rest c'.code.length w' T') ∧ TopErr m act w' T' c'
  | _ => True

theorem OutJ.pre {H H1 : Nat} {p0 p1 : Config} {F : Code} {act : Act} {rest : List Frame} {Z : List Slot} {S S1 : SState} {T T1 : CState} {c' : Comp} {q a : Nat} {r : Res SVal SState}
    (hr : Reach m p0 p1) (hc : Chg Z H S T S1 T1) (hH : H ≤ H1) (h : OutJ P glo k0 m H1 p1 F act rest Z S1 T1 c' q a r) : OutJ P glo k0 m H p0 F act rest Z S T c' q a r := by
  unfold OutJ at h ⊢
  cases r with
  | ok v S' =>
    obtain ⟨w', T', v', h1, h3, h4, h5⟩ := h
    refine ⟨w', T', v', ?_, h3, h4, hc.trans h5 hH⟩
    rcases h1 with ⟨h1, h2⟩ | ⟨h1, h2⟩
    · exact .inl ⟨hr.trans h1, h2⟩
    · exact .inr ⟨hr.trans h1, h2⟩
  | err =>
    rcases h with h | ⟨w', T', h1, h2⟩
    · exact .inl (hr.trans h)
    · exact .inr ⟨w', T', hr.trans h1, h2⟩
  | _ => trivial

theorem OutJ.ofOut {H : Nat} {p0 : Config} {F : Code} {act : Act} {rest : List Frame} {Z : List Slot} {S : SState} {T : CState} {c' : Comp} {q a : Nat} {g : Prop} {r : Res SVal SState}
    (h : Out P glo k0 m H p0 F act rest Z S T c' g r) : OutJ P glo k0 m H p0 F act rest Z S T c' q a r := by
  unfold OutJ; unfold Out at h
  cases r with
  | ok v S' => obtain ⟨w', T', v', h1, h2, h3, h4, h5⟩ := h; exact ⟨w', T', v', .inl ⟨h1, h2⟩, h3, h4, h5⟩
  | err =>
    rcases h with h | ⟨_, h⟩
    · exact .inl h
    · exact .inr h
  | _ => trivial

/-- The label at the end. -/
theorem OutJ.label {H l : Nat} {p0 : Config} {F : Code} {act : Act} {rest : List Frame} {Z : List Slot} {S : SState} {T : CState} {c' : Comp} {g : Prop} {r : Res SVal SState}
    (h : OutJ P glo k0 m H p0 F act rest Z S T c' c'.clear.code.length (act.loc + (ht c' - 1)) r) (hF : (c'.label l).code <+: F) (hb : Below Z H) (hH : H ≤ act.loc + (ht c' - 1)) :
    Out P glo k0 m H p0 F act rest Z S T (c'.label l) g r := by
  unfold OutJ at h; unfold Out
  have tl : ∀ {w T v}, T.mem (act.loc + (ht c' - 1)) = .val v → Top m act w T (c'.label l) v := by
    intro w T v h
    unfold Top Comp.popx
    rw [label_push]
    simp only [evalX, base, label_pc, readW, h]
  cases r with
  | ok v S' =>
    obtain ⟨w', T', v', h1, h3, h4, h5⟩ := h
    rcases h1 with ⟨h1, h2⟩ | ⟨h1, h2⟩
    · obtain ⟨T2, r2, p2⟩ := run_label (rest := rest) hF h2
      exact ⟨w', T2, v', h1.trans r2, tl p2.at_, h3, p2.rel hb hH h4, h5.trans (p2.chg hH) (Nat.le_refl _)⟩
    · exact ⟨w', T', v', h1.trans (run_emit_label (c := c'.clear) hF), tl h2, h3, h4, h5⟩
  | err =>
    rcases h with h | ⟨w', T', h1, h2⟩
    · exact .inl h
    · exact .inl (h1.trans (run_label_err hF h2))
  | _ => trivial

section
variable {n k : Nat} (hs : SimE P glo k0 m n) {F : Code} {act : Act} {rest : List Frame} {ρ φ : SEnv} {Z : List Slot} {sc fs : List Sym}
include hs

theorem sim_and (l q : Nat) (hl : labelAt l F = some q) : ∀ (es : List Expr) {c c' : Comp} {S : SState} {T : CState} {w : CVal} (v0 : SVal), es ≠ [] → compAnd (comp P.special k).1 l es c = some c' → c.push = none →
    (∀ e ∈ es, CPlain P glo sc fs e) → ((∀ e ∈ es, Flat e) ∨ Agree c sc) → At P glo k0 m sc fs act ρ φ Z S T c → Fut P k0 m F c' →
    OutJ P glo k0 m (act.loc + c.pc) (conf F act rest c.code.length w T) F act rest Z S T c' q (act.loc + c.pc) (andFrom (seval true P n ρ φ) v0 es S)
  | [], c, c', S, T, w, v0, hne, _, _, _, _, _, _ => absurd rfl hne
  | [e], c, c', S, T, w, v0, _, h, hp, hq, hf, ha, hfu => by
    have o := hs k e c c' sc fs F act rest w T S ρ φ Z h hp (hq e (by simp)) (or_list hf).1 ha hfu
    have : andFrom (seval true P n ρ φ) v0 [e] S = seval true P n ρ φ e S := by
      simp only [andFrom]
      cases seval true P n ρ φ e S with
      | ok v S' => cases v <;> rfl
      | _ => rfl
    rw [this]
    exact OutJ.ofOut o
  | e :: e' :: es, c, c', S, T, w, v0, _, h, hp, hq, hf, ha, hfu => by
    simp only [compAnd, Option.bind_eq_some_iff] at h
    obtain ⟨c1, h1, h2⟩ := h
    have st := (st_both (P := P) (glo := glo) k).1
    have p1 := st e c c1 sc fs h1 (hq e (by simp)) ha.pre (or_list hf).1
    have op := ((op_dupe [] c1).trans (op_ifNil [] l _)).trans (op_discard [] 1 _)
    have pd : Post P glo sc c.lab 0 c ((c1.dupe.ifNil l).discard 1) := p1.op0 ha.pre op (by rw [ht_discard _ _ (.inr (Nat.le_refl _)), ht_ifNil, ht_dupe, p1.ht]; omega)
    have p2 := st_and st l (e' :: es) h2 (fun a h => hq a (List.mem_cons_of_mem _ h)) (pd.keep.pre ha.pre) (or_keep ha.pre pd.keep (or_list hf).2)
    have fu1 := hfu.ext p2.ext
    have fu2 := fu1.op (op_discard [] 1 (c1.dupe.ifNil l))
    have fu3 := fu2.op (op_ifNil [] l _)
    have o1 := hs k e c c1 sc fs F act rest w T S ρ φ Z h1 hp (hq e (by simp)) (or_list hf).1 ha (fu1.op op)
    have ecode : ((c1.dupe.ifNil l).discard 1).code = (c1.dupe.ifNil l).code := by unfold Comp.discard; split <;> rfl
    have hh : ht c1 = c.pc + 1 := by rw [p1.ht, ht_none hp]
    have epc : ((c1.dupe.ifNil l).discard 1).pc = c.pc := by rw [discard_pc 1 _ (.inr (Nat.le_refl _)), ht_ifNil, ht_dupe, hh]; omega
    have hb : Below Z (act.loc + c.pc) := by have := ha.below; rwa [ht_none hp] at this
    simp only [andFrom]
    cases hr : seval true P n ρ φ e S with
    | ok v S1 =>
      rw [hr] at o1
      obtain ⟨w1, T1, v1, r1, t1, q1, rel1, ch1⟩ := o1
      obtain ⟨T2, r2, p2', t2⟩ := run_dupe (rest := rest) fu3.px t1
      have r3 := run_ifNil (rest := rest) fu2.px hl t2
      have rel2 := p2'.rel hb (by omega) rel1
      have ch2 := ch1.trans (p2'.chg (Z := Z) (S := S1) (H := act.loc + c.pc) (by omega)) (Nat.le_refl _)
      have hni := q1.isNil
      have ca : (act.loc + (ht c1 - 1)) = act.loc + c.pc := by omega
      have go : v ≠ .nil → OutJ P glo k0 m (act.loc + c.pc) (conf F act rest c.code.length w T) F act rest Z S T c' q (act.loc + c.pc) (andFrom (seval true P n ρ φ) v (e' :: es) S1) := by
        intro hne
        have : v1.isNil = false := by
          cases h : v1.isNil with
          | false => rfl
          | true => exact absurd (hni.mp h) hne
        rw [this] at r3
        simp only [Bool.false_eq_true, if_false] at r3
        have o2 := sim_and l q hl (e' :: es) (w := w1) v (by simp) h2 (discard_push 1 _) (fun a h => hq a (List.mem_cons_of_mem _ h)) (or_keep ha.pre pd.keep (or_list hf).2) (ha.next pd rel2) hfu
        rw [ecode, epc] at o2
        exact o2.pre ((r1.trans r2).trans r3) ch2 (Nat.le_refl _)
      cases v with
      | nil =>
        have : v1.isNil = true := hni.mpr rfl
        rw [this] at r3
        exact ⟨w1, T2, v1, .inr ⟨(r1.trans r2).trans r3, by rw [← ca]; exact p2'.at_⟩, q1, rel2, ch2⟩
      | t => exact go (by simp)
      | int i => exact go (by simp)
      | clo ps b ρ φ => exact go (by simp)
    | err =>
      rw [hr] at o1
      rcases o1 with o | ⟨_, w', T', g1, g2⟩
      · exact .inl o
      · exact .inl (g1.trans (run_dupe_err fu3.px g2))
    | _ => trivial

theorem sim_or (l q : Nat) (hl : labelAt l F = some q) : ∀ (es : List Expr) {c c' : Comp} {S : SState} {T : CState} {w : CVal}, compOr (comp P.special k).1 l es c = some c' → c.push = none →
    (∀ e ∈ es, CPlain P glo sc fs e) → ((∀ e ∈ es, Flat e) ∨ Agree c sc) → At P glo k0 m sc fs act ρ φ Z S T c → Fut P k0 m F c' →
    OutJ P glo k0 m (act.loc + c.pc) (conf F act rest c.code.length w T) F act rest Z S T c' q (act.loc + c.pc) (orFrom (seval true P n ρ φ) es S)
  | [], c, c', S, T, w, h, hp, hq, hf, ha, hfu => by
    cases h
    have e : (c.pushx .nil).code = c.code := by show c.clear.code = _; rw [clear_self hp]
    exact ⟨w, T, .nil, .inl ⟨by rw [e]; exact Reach.refl _ _, rfl⟩, .nil, ha.rel, Chg.refl _ _ _ _⟩
  | [e], c, c', S, T, w, h, hp, hq, hf, ha, hfu => by
    have o := hs k e c c' sc fs F act rest w T S ρ φ Z h hp (hq e (by simp)) (or_list hf).1 ha hfu
    have : orFrom (seval true P n ρ φ) [e] S = seval true P n ρ φ e S := by
      simp only [orFrom]
      cases seval true P n ρ φ e S with
      | ok v S' => cases v <;> rfl
      | _ => rfl
    rw [this]
    exact OutJ.ofOut o
  | e :: e' :: es, c, c', S, T, w, h, hp, hq, hf, ha, hfu => by
    simp only [compOr, Option.bind_eq_some_iff] at h
    obtain ⟨c1, h1, h2⟩ := h
    have st := (st_both (P := P) (glo := glo) k).1
    have p1 := st e c c1 sc fs h1 (hq e (by simp)) ha.pre (or_list hf).1
    have op := ((op_dupe [] c1).trans (op_ifT [] l _)).trans (op_discard [] 1 _)
    have pd : Post P glo sc c.lab 0 c ((c1.dupe.ifT l).discard 1) := p1.op0 ha.pre op (by rw [ht_discard _ _ (.inr (Nat.le_refl _)), ht_ifT, ht_dupe, p1.ht]; omega)
    have p2 := st_or st l (e' :: es) h2 (fun a h => hq a (List.mem_cons_of_mem _ h)) (pd.keep.pre ha.pre) (or_keep ha.pre pd.keep (or_list hf).2)
    have fu1 := hfu.ext p2.ext
    have fu2 := fu1.op (op_discard [] 1 (c1.dupe.ifT l))
    have fu3 := fu2.op (op_ifT [] l _)
    have o1 := hs k e c c1 sc fs F act rest w T S ρ φ Z h1 hp (hq e (by simp)) (or_list hf).1 ha (fu1.op op)
    have ecode : ((c1.dupe.ifT l).discard 1).code = (c1.dupe.ifT l).code := by unfold Comp.discard; split <;> rfl
    have hh : ht c1 = c.pc + 1 := by rw [p1.ht, ht_none hp]
    have epc : ((c1.dupe.ifT l).discard 1).pc = c.pc := by rw [discard_pc 1 _ (.inr (Nat.le_refl _)), ht_ifT, ht_dupe, hh]; omega
    have hb : Below Z (act.loc + c.pc) := by have := ha.below; rwa [ht_none hp] at this
    simp only [orFrom]
    cases hr : seval true P n ρ φ e S with
    | ok v S1 =>
      rw [hr] at o1
      obtain ⟨w1, T1, v1, r1, t1, q1, rel1, ch1⟩ := o1
      obtain ⟨T2, r2, p2', t2⟩ := run_dupe (rest := rest) fu3.px t1
      have r3 := run_ifT (rest := rest) fu2.px hl t2
      have rel2 := p2'.rel hb (by omega) rel1
      have ch2 := ch1.trans (p2'.chg (Z := Z) (S := S1) (H := act.loc + c.pc) (by omega)) (Nat.le_refl _)
      have hni := q1.isNil
      have ca : (act.loc + (ht c1 - 1)) = act.loc + c.pc := by omega
      have go : v ≠ .nil → OutJ P glo k0 m (act.loc + c.pc) (conf F act rest c.code.length w T) F act rest Z S T c' q (act.loc + c.pc) (.ok v S1) := by
        intro hne
        have : v1.isNil = false := by
          cases h : v1.isNil with
          | false => rfl
          | true => exact absurd (hni.mp h) hne
        rw [this] at r3
        simp only [Bool.false_eq_true, if_false] at r3
        exact ⟨w1, T2, v1, .inr ⟨(r1.trans r2).trans r3, by rw [← ca]; exact p2'.at_⟩, q1, rel2, ch2⟩
      cases v with
      | nil =>
        have : v1.isNil = true := hni.mpr rfl
        rw [this] at r3
        have o2 := sim_or l q hl (e' :: es) (w := w1) h2 (discard_push 1 _) (fun a h => hq a (List.mem_cons_of_mem _ h)) (or_keep ha.pre pd.keep (or_list hf).2) (ha.next pd rel2) hfu
        rw [ecode, epc] at o2
        exact o2.pre ((r1.trans r2).trans r3) ch2 (Nat.le_refl _)
      | t => exact go (by simp)
      | int i => exact go (by simp)
      | clo ps b ρ φ => exact go (by simp)
    | err =>
      rw [hr] at o1
      rcases o1 with o | ⟨_, w', T', g1, g2⟩
      · exact .inl o
      · exact .inl (g1.trans (run_dupe_err fu3.px g2))
    | _ => trivial

end

/-! ### Conditions -/

section
variable {n k : Nat} (hv : SimV P glo k0 m n) {F : Code} {act : Act} {rest : List Frame} {ρ φ : SEnv} {Z : List Slot} {sc fs : List Sym}
include hv

theorem sim_evAnd (l q : Nat) (hl : labelAt l F = some q) : ∀ (es : List Expr) {c c' : Comp} {S : SState} {T : CState} {w : CVal} (v0 : SVal), evconAll (comp P.special k).2 false l es c = some c' → c.push = none →
    (∀ e ∈ es, CPlain P glo sc fs e) → ((∀ e ∈ es, Flat e) ∨ Agree c sc) → At P glo k0 m sc fs act ρ φ Z S T c → Fut P k0 m F c' → snil v0 = false →
    EOut P glo k0 m (act.loc + c.pc) (conf F act rest c.code.length w T) F act rest Z S T false c'.code.length q (andFrom (seval true P n ρ φ) v0 es S)
  | [], c, c', S, T, w, v0, h, hp, hq, hf, ha, hfu, hv0 => by
    cases h
    exact ⟨w, T, by rw [if_pos hv0]; exact Reach.refl _ _, ha.rel, Chg.refl _ _ _ _⟩
  | e :: es, c, c', S, T, w, v0, h, hp, hq, hf, ha, hfu, hv0 => by
    simp only [evconAll, Option.bind_eq_some_iff] at h
    obtain ⟨c1, h1, h2⟩ := h
    have st := (st_both (P := P) (glo := glo) k).2
    obtain ⟨p1, e1⟩ := st false l e c c1 sc fs h1 (hq e (by simp)) ha.pre (or_list hf).1
    obtain ⟨p2, _⟩ := st_evAll st false l es h2 (fun a h => hq a (by simp [h])) (p1.keep.pre ha.pre) (or_keep ha.pre p1.keep (or_list hf).2)
    have o1 := hv k false l q e c c1 sc fs F act rest w T S ρ φ Z h1 hp (hq e (by simp)) (or_list hf).1 ha (hfu.ext p2.ext) hl
    have epc : c1.pc = c.pc := by have := p1.ht; rw [ht_none hp, ht_none e1] at this; exact this
    simp only [andFrom]
    cases hr : seval true P n ρ φ e S with
    | ok v S1 =>
      rw [hr] at o1
      obtain ⟨w1, T1, r1, rel1, ch1⟩ := o1
      have go : snil v = false → EOut P glo k0 m (act.loc + c.pc) (conf F act rest c.code.length w T) F act rest Z S T false c'.code.length q (andFrom (seval true P n ρ φ) v es S1) := by
        intro hne
        rw [if_pos hne] at r1
        have o2 := sim_evAnd l q hl es (w := w1) v h2 e1 (fun a h => hq a (by simp [h])) (or_keep ha.pre p1.keep (or_list hf).2) (ha.next p1 rel1) hfu hne
        rw [epc] at o2
        exact o2.pre r1 ch1 (Nat.le_refl _)
      cases v with
      | nil => exact ⟨w1, T1, r1, rel1, ch1⟩
      | t => exact go rfl
      | int i => exact go rfl
      | clo ps b ρ φ => exact go rfl
    | err => rw [hr] at o1; exact o1
    | _ => trivial

theorem sim_evOr (l q : Nat) (hl : labelAt l F = some q) : ∀ (es : List Expr) {c c' : Comp} {S : SState} {T : CState} {w : CVal}, evconAll (comp P.special k).2 true l es c = some c' → c.push = none →
    (∀ e ∈ es, CPlain P glo sc fs e) → ((∀ e ∈ es, Flat e) ∨ Agree c sc) → At P glo k0 m sc fs act ρ φ Z S T c → Fut P k0 m F c' →
    EOut P glo k0 m (act.loc + c.pc) (conf F act rest c.code.length w T) F act rest Z S T true c'.code.length q (orFrom (seval true P n ρ φ) es S)
  | [], c, c', S, T, w, h, hp, hq, hf, ha, hfu => by
    cases h
    exact ⟨w, T, by simp only [snil, if_true]; exact Reach.refl _ _, ha.rel, Chg.refl _ _ _ _⟩
  | e :: es, c, c', S, T, w, h, hp, hq, hf, ha, hfu => by
    simp only [evconAll, Option.bind_eq_some_iff] at h
    obtain ⟨c1, h1, h2⟩ := h
    have st := (st_both (P := P) (glo := glo) k).2
    obtain ⟨p1, e1⟩ := st true l e c c1 sc fs h1 (hq e (by simp)) ha.pre (or_list hf).1
    obtain ⟨p2, _⟩ := st_evAll st true l es h2 (fun a h => hq a (by simp [h])) (p1.keep.pre ha.pre) (or_keep ha.pre p1.keep (or_list hf).2)
    have o1 := hv k true l q e c c1 sc fs F act rest w T S ρ φ Z h1 hp (hq e (by simp)) (or_list hf).1 ha (hfu.ext p2.ext) hl
    have epc : c1.pc = c.pc := by have := p1.ht; rw [ht_none hp, ht_none e1] at this; exact this
    simp only [orFrom]
    cases hr : seval true P n ρ φ e S with
    | ok v S1 =>
      rw [hr] at o1
      obtain ⟨w1, T1, r1, rel1, ch1⟩ := o1
      cases v with
      | nil =>
        have o2 := sim_evOr l q hl es (w := w1) h2 e1 (fun a h => hq a (by simp [h])) (or_keep ha.pre p1.keep (or_list hf).2) (ha.next p1 rel1) hfu
        rw [epc] at o2
        exact o2.pre r1 ch1 (Nat.le_refl _)
      | t => exact ⟨w1, T1, r1, rel1, ch1⟩
      | int i => exact ⟨w1, T1, r1, rel1, ch1⟩
      | clo ps b ρ φ => exact ⟨w1, T1, r1, rel1, ch1⟩
    | err => rw [hr] at o1; exact o1
    | _ => trivial

end

end Eus.Cmp
