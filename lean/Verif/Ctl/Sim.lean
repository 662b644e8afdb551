import Verif.Ctl.Insens
set_option autoImplicit false
/-
The machine does what the reference semantics says, for the programs of `Prog.Scoped` and `Prog.Tame`.
-/
namespace Eus.Ctl

/-- The value at all large amounts of fuel. -/
def EvM (M : Nat → Exit × St) (r : Exit × St) : Prop := ∃ N, ∀ m, N ≤ m → M m = r

theorem EvM.succ {M M' : Nat → Exit × St} {r : Exit × St} (h : ∀ m, M' (m + 1) = M m) (k : EvM M r) : EvM M' r := by
  obtain ⟨N, hN⟩ := k
  refine ⟨N + 1, fun m hm => ?_⟩
  obtain ⟨j, rfl⟩ : ∃ j, m = j + 1 := ⟨m - 1, by omega⟩
  rw [h, hN j (by omega)]

theorem EvM.map {M M' : Nat → Exit × St} {r r' : Exit × St} (k : EvM M r) (h : ∀ m, M m = r → M' m = r') : EvM M' r' := by
  obtain ⟨N, hN⟩ := k
  exact ⟨N, fun m hm => h m (hN m hm)⟩

theorem EvM.andThen {M : Nat → Exit × St} {f : Nat → Val → St → Exit × St} {v : Val} {s : St} {r : Exit × St} (h : EvM M (.val v, s))
    (k : EvM (fun m => f m v s) r) : EvM (fun m => andThen (M m) (f m)) r := by
  obtain ⟨N, hN⟩ := h
  obtain ⟨K, hK⟩ := k
  refine ⟨max N K, fun m hm => ?_⟩
  have := hK m (by omega)
  dsimp only at this ⊢
  rw [hN m (by omega)]; exact this

/-- An exit to `d` on its way out: the cleanup forms of the frames `l` above the target run, innermost first. -/
inductive Pass (P : Prog) (π : Nat → Nat) (cs : List (Val × Nat)) : List Prot → Nat → Val → List Val → Option (Nat × Val) → List Val → Prop
  | done {l : List Prot} {d : Nat} {v : Val} {o : List Val} : (∀ f ∈ l, f.pos < π d) → Pass P π cs l d v o (some (d, v)) o
  | step {f : Prot} {l : List Prot} {d : Nat} {v w : Val} {o o1 o2 : List Val} {r : Option (Nat × Val)} : f.pos ≥ π d →
    (∀ sp, EvM (fun m => mean P m f.cleaner ⟨d + 2, cs.filter (fun q => q.2 ≤ d), []⟩ ⟨sp, o⟩) (.val w, ⟨sp, o1⟩)) →
    Pass P π cs l d v o1 r o2 → Pass P π cs (f :: l) d v o r o2
  | exit {f : Prot} {l : List Prot} {d d1 : Nat} {v v1 : Val} {o o1 o2 : List Val} {r : Option (Nat × Val)} : f.pos ≥ π d →
    (∀ sp, EvM (fun m => mean P m f.cleaner ⟨d + 2, cs.filter (fun q => q.2 ≤ d), []⟩ ⟨sp, o⟩) (.exit d1 v1, ⟨sp, o1⟩)) → d1 ≤ d →
    Pass P π cs l d1 v1 o1 r o2 → Pass P π cs (f :: l) d v o r o2
  | fail {f : Prot} {l : List Prot} {d : Nat} {v : Val} {o o1 : List Val} : f.pos ≥ π d →
    (∀ sp, EvM (fun m => mean P m f.cleaner ⟨d + 2, cs.filter (fun q => q.2 ≤ d), []⟩ ⟨sp, o⟩) (.fail, ⟨sp, o1⟩)) →
    Pass P π cs (f :: l) d v o none o1

theorem Pass.le {P : Prog} {π : Nat → Nat} {cs : List (Val × Nat)} {l : List Prot} {d d' : Nat} {v v' : Val} {o o' : List Val}
    (h : Pass P π cs l d v o (some (d', v')) o') : d' ≤ d := by
  generalize hr : some (d', v') = r at h
  induction h with
  | done h => cases hr; exact le_refl _
  | step _ _ _ ih => exact ih hr
  | exit _ _ h1 _ ih => exact (ih hr).trans h1
  | fail _ _ => cases hr

theorem Pass.eq_done {P : Prog} {π : Nat → Nat} {cs : List (Val × Nat)} {l : List Prot} {d : Nat} {v : Val} {o o' : List Val} {r : Option (Nat × Val)}
    (h : Pass P π cs l d v o r o') (hl : ∀ f ∈ l, f.pos < π d) : r = some (d, v) ∧ o' = o := by
  cases h with
  | done h => exact ⟨rfl, rfl⟩
  | step h _ _ => exact absurd (hl _ List.mem_cons_self) (by omega)
  | exit h _ _ _ => exact absurd (hl _ List.mem_cons_self) (by omega)
  | fail h _ => exact absurd (hl _ List.mem_cons_self) (by omega)

theorem Pass.cons_inv {P : Prog} {π : Nat → Nat} {cs : List (Val × Nat)} {f : Prot} {l : List Prot} {d : Nat} {v : Val} {o o' : List Val}
    {r : Option (Nat × Val)} (h : Pass P π cs (f :: l) d v o r o') (hf : f.pos ≥ π d) :
    (∃ w o1, (∀ sp, EvM (fun m => mean P m f.cleaner ⟨d + 2, cs.filter (fun q => q.2 ≤ d), []⟩ ⟨sp, o⟩) (.val w, ⟨sp, o1⟩)) ∧ Pass P π cs l d v o1 r o') ∨
    (∃ d1 v1 o1, (∀ sp, EvM (fun m => mean P m f.cleaner ⟨d + 2, cs.filter (fun q => q.2 ≤ d), []⟩ ⟨sp, o⟩) (.exit d1 v1, ⟨sp, o1⟩)) ∧ d1 ≤ d ∧
      Pass P π cs l d1 v1 o1 r o') ∨
    (r = none ∧ ∀ sp, EvM (fun m => mean P m f.cleaner ⟨d + 2, cs.filter (fun q => q.2 ≤ d), []⟩ ⟨sp, o⟩) (.fail, ⟨sp, o'⟩)) := by
  cases h with
  | done h => exact absurd (h _ List.mem_cons_self) (by omega)
  | step _ h1 h2 => exact Or.inl ⟨_, _, h1, h2⟩
  | exit _ h1 h2 h3 => exact Or.inr (Or.inl ⟨_, _, _, h1, h2, h3⟩)
  | fail _ h1 => exact Or.inr (Or.inr ⟨rfl, h1⟩)

theorem Pass.congr {P : Prog} {π ρ : Nat → Nat} {cs es : List (Val × Nat)} {l : List Prot} {d : Nat} {v : Val} {o o' : List Val} {r : Option (Nat × Val)}
    (h : Pass P π cs l d v o r o') (h1 : ∀ i, i ≤ d → π i = ρ i) (h2 : ∀ i, i ≤ d → cs.filter (fun q => q.2 ≤ i) = es.filter (fun q => q.2 ≤ i)) :
    Pass P ρ es l d v o r o' := by
  induction h with
  | done h => exact .done (by rw [← h1 _ (le_refl _)]; exact h)
  | step ha hb _ ih => exact .step (by rw [← h1 _ (le_refl _)]; exact ha) (by rw [← h2 _ (le_refl _)]; exact hb) (ih h1 h2)
  | exit ha hb hc _ ih =>
    exact .exit (by rw [← h1 _ (le_refl _)]; exact ha) (by rw [← h2 _ (le_refl _)]; exact hb) hc
      (ih (fun i hi => h1 i (by omega)) fun i hi => h2 i (by omega))
  | fail ha hb => exact .fail (by rw [← h1 _ (le_refl _)]; exact ha) (by rw [← h2 _ (le_refl _)]; exact hb)

/-- The outcome of the machine agrees with that of the reference semantics.  On a longjmp the machine has run the cleanup forms of
the frames `pr` already, and undone the bindings `sb`. -/
def SimR (P : Prog) (M : Nat → Exit × St) (cs : List (Val × Nat)) (dep : Nat) (π : Nat → Nat) (pr : List Prot) (sb : List SBind) : Res → Prop
  | .val v c' => v ≠ .flt 0 ∧ Clean c'.spec ∧ EvM M (.val v, ⟨c'.spec, c'.out⟩)
  | .jump p v c' => ∃ d u s d', EvM M (.exit d u, s) ∧ d < dep ∧ Clean s.spec ∧ Pass P π cs pr d u s.out (some (d', v)) c'.out ∧ π d' = p ∧ v ≠ .flt 0 ∧
    c'.spec = (unbindspecial p sb s.spec).2
  | .fail c' => (∃ s, EvM M (.fail, s) ∧ s.out = c'.out) ∨ ∃ d u s, EvM M (.exit d u, s) ∧ d < dep ∧ Pass P π cs pr d u s.out none c'.out
  | .ub => True
  | .timeout => True

section
variable {P : Prog} {M M' : Nat → Exit × St} {cs : List (Val × Nat)} {dep : Nat} {π : Nat → Nat} {pr : List Prot} {sb : List SBind} {r : Res}

theorem SimR.map (h : SimR P M cs dep π pr sb r) (k : ∀ x, EvM M x → EvM M' x) : SimR P M' cs dep π pr sb r := by
  cases r with
  | val v c' => exact ⟨h.1, h.2.1, k _ h.2.2⟩
  | jump p v c' => obtain ⟨d, u, s, d', h1, h2⟩ := h; exact ⟨d, u, s, d', k _ h1, h2⟩
  | fail c' =>
    rcases h with ⟨s, h1, h2⟩ | ⟨d, u, s, h1, h2⟩
    · exact Or.inl ⟨s, k _ h1, h2⟩
    · exact Or.inr ⟨d, u, s, k _ h1, h2⟩
  | ub => trivial
  | timeout => trivial

theorem SimR.succ (k : ∀ m, M' (m + 1) = M m) (h : SimR P M cs dep π pr sb r) : SimR P M' cs dep π pr sb r := h.map fun _ hx => hx.succ k

theorem SimR.bind {f : Nat → Val → St → Exit × St} {g : Val → Ctx → Res} (h : SimR P M cs dep π pr sb r)
    (k : ∀ v c', r = .val v c' → v ≠ .flt 0 → Clean c'.spec → SimR P (fun m => f m v ⟨c'.spec, c'.out⟩) cs dep π pr sb (g v c')) :
    SimR P (fun m => andThen (M m) (f m)) cs dep π pr sb (r.bind g) := by
  cases r with
  | val v c' => exact (k v c' rfl h.1 h.2.1).map fun x hx => h.2.2.andThen hx
  | jump p v c' => obtain ⟨d, u, s, d', h1, h2⟩ := h; exact ⟨d, u, s, d', h1.map fun m hm => by rw [hm]; rfl, h2⟩
  | fail c' =>
    rcases h with ⟨s, h1, h2⟩ | ⟨d, u, s, h1, h2⟩
    · exact Or.inl ⟨s, h1.map fun m hm => by rw [hm]; rfl, h2⟩
    · exact Or.inr ⟨d, u, s, h1.map fun m hm => by rw [hm]; rfl, h2⟩
  | ub => trivial
  | timeout => trivial

theorem SimR.pop (v : Nat) (h : SimR P M cs dep π pr sb r) : SimR P M cs dep π pr sb (r.bind fun u c' => .val u { c' with vsp := v }) := by
  cases r <;> exact h

/-- The frame of an exit point: the value delivered there. -/
def landing (b : Nat) (fin : Val → Ctx → Res) : Res → Res
  | .val v c' => fin v c'
  | .jump p v c' => if p = b then fin (received v) c' else .jump p v c'
  | r => r

theorem SimR.landing {cs1 : List (Val × Nat)} {π1 : Nat → Nat} {b : Nat} {fin : Val → Ctx → Res} (h : SimR P M cs1 (dep + 1) π1 pr sb r)
    (hb : π1 dep = b) (hπ : ∀ i, i < dep → π1 i = π i) (hlt : ∀ i, i < dep → π i < b) (hpr : ∀ f ∈ pr, f.pos < b) (hsb : ∀ f ∈ sb, f.pos < b)
    (hcs : ∀ i, i < dep → cs1.filter (fun q => q.2 ≤ i) = cs.filter (fun q => q.2 ≤ i))
    (hfin : ∀ w v c', (r = .val v c' ∨ r = .jump b v c') → ∃ c'', fin w c' = .val w c'' ∧ c''.spec = c'.spec ∧ c''.out = c'.out) :
    SimR P (fun m => arrive dep (M m)) cs dep π pr sb (landing b fin r) := by
  cases r with
  | val v c' =>
    obtain ⟨c'', e1, e2, e3⟩ := hfin v v c' (Or.inl rfl)
    rw [Ctl.landing, e1]
    exact ⟨h.1, e2 ▸ h.2.1, by rw [e2, e3]; exact h.2.2.map fun m hm => by rw [hm]; rfl⟩
  | jump p v c' =>
    obtain ⟨d, u, s, d', h1, h2, h3, h4, h5, h6, h7⟩ := h
    rw [Ctl.landing]
    by_cases hd : d = dep
    · subst hd
      obtain ⟨e1, e2⟩ := h4.eq_done (by rw [hb]; exact hpr)
      simp only [Option.some.injEq, Prod.mk.injEq] at e1
      obtain ⟨rfl, rfl⟩ := e1
      have hp : p = b := by rw [← h5, hb]
      subst hp
      rw [if_pos rfl]
      obtain ⟨c'', e3, e4, e5⟩ := hfin (received v) v c' (Or.inr rfl)
      have hv : received v = v := if_neg h6
      rw [e3, hv]
      rw [unbind_none _ _ _ hsb] at h7
      refine ⟨h6, by rw [e4, h7]; exact h3, ?_⟩
      rw [e4, e5, h7, e2]
      exact h1.map fun m hm => by rw [hm]; exact if_pos rfl
    · have hd' : d < dep := by omega
      have hle := h4.le
      have hp : p ≠ b := by
        have := hlt d' (by omega)
        rw [← hπ d' (by omega), h5] at this; omega
      rw [if_neg hp]
      exact ⟨d, u, s, d', h1.map fun m hm => by rw [hm]; exact if_neg hd, hd', h3,
        h4.congr (fun i hi => hπ i (by omega)) (fun i hi => hcs i (by omega)), by rw [← hπ d' (by omega)]; exact h5, h6, h7⟩
  | fail c' =>
    rcases h with ⟨s, h1, h2⟩ | ⟨d, u, s, h1, h2, h3⟩
    · exact Or.inl ⟨s, h1.map fun m hm => by rw [hm]; rfl, h2⟩
    · by_cases hd : d = dep
      · subst hd
        have := (h3.eq_done (by rw [hb]; exact hpr)).1
        cases this
      · exact Or.inr ⟨d, u, s, h1.map fun m hm => by rw [hm]; exact if_neg hd, by omega,
          h3.congr (fun i hi => hπ i (by omega)) (fun i hi => hcs i (by omega))⟩
  | ub => trivial
  | timeout => trivial
end

/-- No variables are singled out. -/
def noX : Nat → Prop := fun _ => False

/-- Exit points are numbered as the frames lie on the stack. -/
structure Rel (bs : List BI) (E : Env) (π : Nat → Nat) (c : Ctx) : Prop where
  ct : c.catchfp = E.catches.map (fun q => (⟨π q.2, q.1⟩ : Catch))
  cd : ∀ q ∈ E.catches, q.2 < E.depth
  mono : ∀ i j, i < j → j < E.depth → π i < π j
  lim : ∀ i, i < E.depth → π i < c.vsp
  bk : ∀ n b, bs.find? (fun b => b.name.hits n) = some b → ∃ nm k B, E.blocks.find? (fun q => q.1.hits n) = some (nm, k) ∧ k < E.depth ∧
    findBlk n c.blkfp = some (π k, B)

structure Inv (pure : Nat → Bool) (bs : List BI) (E : Env) (π : Nat → Nat) (c : Ctx) : Prop where
  wf : WF noX c
  sees : Sees bs c
  rel : Rel bs E π c
  clean : Clean c.spec
  tame : ∀ f ∈ c.protfp, Tame pure (some []) f.cleaner = true

theorem Rel.same {bs : List BI} {E : Env} {π : Nat → Nat} {c c' : Ctx} (r : Rel bs E π c) (h : Same c c') : Rel bs E π c' := by
  obtain ⟨a, b, d, e, f⟩ := r
  exact ⟨by rw [h.ct]; exact a, b, d, by rw [h.vsp]; exact e, by rw [h.bk]; exact f⟩

theorem Inv.same {pure : Nat → Bool} {bs : List BI} {E : Env} {π : Nat → Nat} {c c' : Ctx} (i : Inv pure bs E π c) (h : Same c c') (hc : Clean c'.spec) :
    Inv pure bs E π c' :=
  ⟨i.wf.same h, i.sees.same h, i.rel.same h, hc, by rw [h.pr]; exact i.tame⟩

theorem Inv.up {pure : Nat → Bool} {bs : List BI} {E : Env} {π : Nat → Nat} {c : Ctx} (i : Inv pure bs E π c) (v : Nat) (h : c.vsp ≤ v) :
    Inv pure bs E π { c with vsp := v } :=
  ⟨i.wf.up v h, i.sees.up v, ⟨i.rel.ct, i.rel.cd, i.rel.mono, fun k hk => (i.rel.lim k hk).trans_le h, i.rel.bk⟩, i.clean, i.tame⟩

/-- What is assumed of the evaluator at less fuel. -/
def RecSim (P : Prog) (pure : Nat → Bool) (rec : Tm → Ctx → Res) : Prop :=
  ∀ t bs m E π c, Scoped bs t = true → Tame pure m t = true → Inv pure bs E π c →
    SimR P (fun k => mean P k t E ⟨c.spec, c.out⟩) E.catches E.depth π c.protfp c.sbindfp (rec t c)

theorem Clean.upd {s : Nat → Val} (h : Clean s) (x : Nat) {v : Val} (hv : v ≠ .flt 0) : Clean (upd s x v) := by
  intro y; unfold Ctl.upd; split
  · exact hv
  · exact h y

/-- The position map with one more exit point. -/
def ext (π : Nat → Nat) (d b : Nat) : Nat → Nat := fun i => if i = d then b else π i

theorem ext_mono {π : Nat → Nat} {d b : Nat} (h : ∀ i j, i < j → j < d → π i < π j) (hb : ∀ i, i < d → π i < b) :
    ∀ i j, i < j → j < d + 1 → ext π d b i < ext π d b j := by
  intro i j hij hj
  unfold ext
  rw [if_neg (by omega)]
  split
  · exact hb i (by omega)
  · exact h i j hij (by omega)

theorem filter_cons_gt (tag : Val) (d : Nat) (cs : List (Val × Nat)) (i : Nat) (h : i < d) :
    ((tag, d) :: cs).filter (fun q => q.2 ≤ i) = cs.filter (fun q => q.2 ≤ i) := by
  rw [List.filter_cons_of_neg]; simp; omega

theorem funEnd_val {c c' : Ctx} (w : WF noX c) (v : Val) (h1 : c'.sbindfp = c.sbindfp) :
    ∃ c'', funEnd c v c' = .val v c'' ∧ c''.spec = c'.spec ∧ c''.out = c'.out := by
  unfold funEnd
  simp only []
  rw [unbind_none _ c'.sbindfp _ (by rw [h1]; exact fun f hf => sorted_lt w f hf _ rfl)]
  exact ⟨_, rfl, rfl, rfl⟩

theorem callFn_sim {P : Prog} {pure : Nat → Bool} {rec : Tm → Ctx → Res} (HG : RecGood noX rec) (H : RecSim P pure rec) (name : Name) (body : Tm)
    (bs1 : List BI) (m : Option (List Nat)) (bs : List BI) (E : Env) (π : Nat → Nat) (c : Ctx) (hs : Scoped bs1 body = true) (ht : Tame pure m body = true)
    (hb : bs1 = [] ∨ bs1 = [⟨name, false, false⟩]) (i : Inv pure bs E π c) :
    SimR P (fun k => arrive E.depth (mean P k body { E with depth := E.depth + 1, blocks := [(name, E.depth)] } ⟨c.spec, c.out⟩)) E.catches E.depth π c.protfp
      c.sbindfp (callFn rec name body c) := by
  have w := i.wf
  set c1 : Ctx := { c with blkfp := .frame (c.vsp + 2) name c.blkfp .null, vsp := c.vsp + 2 + 5 } with hc1
  have hl : callFn rec name body c = landing (c.vsp + 2) (funEnd c) (rec body c1) := by
    unfold callFn
    simp only []
    rw [← hc1]
    generalize rec body c1 = r
    cases r <;> rfl
  have w1 : WF noX c1 := by
    have w' := w.up (c.vsp + 2 + 5) (by omega)
    exact ⟨w'.sb, w'.sbs, w'.ct, w'.cts, w'.pr, w'.prs, ⟨by simp [hc1], w.bk.mono (by omega), trivial⟩, w'.cl⟩
  have s1 : Sees bs1 c1 := by
    rcases hb with rfl | rfl
    · intro n b hn; cases hn
    · intro n b hn
      simp only [List.find?_cons, List.find?_nil] at hn
      split at hn
      · rename_i hnm
        refine ⟨c.vsp + 2, c1.blkfp, by simp [hc1, findBlk, hnm], by simp [hc1, dropBlk], fun _ f hf => ?_, fun _ f hf => ?_⟩
        · have := w.ct f hf; omega
        · have := w.pr f hf; omega
      · cases hn
  have r1 : Rel bs1 { E with depth := E.depth + 1, blocks := [(name, E.depth)] } (ext π E.depth (c.vsp + 2)) c1 := by
    refine ⟨?_, fun q hq => by have := i.rel.cd q hq; dsimp only; omega, ext_mono i.rel.mono (fun j hj => by have := i.rel.lim j hj; omega), ?_, ?_⟩
    · show c.catchfp = _
      rw [i.rel.ct]
      refine List.map_congr_left fun q hq => ?_
      have := i.rel.cd q hq
      unfold ext; rw [if_neg (by omega)]
    · intro j hj
      show _ < c.vsp + 2 + 5
      unfold ext
      split
      · omega
      · have := i.rel.lim j (by dsimp only at hj; omega); omega
    · rcases hb with rfl | rfl
      · intro n b hn; cases hn
      · intro n b hn
        simp only [List.find?_cons, List.find?_nil] at hn
        split at hn
        · rename_i hnm
          exact ⟨name, E.depth, c1.blkfp, by simp [hnm], by dsimp only; omega, by simp [hc1, findBlk, ext, hnm]⟩
        · cases hn
  have g := H body bs1 m _ _ c1 hs ht ⟨w1, s1, r1, i.clean, i.tame⟩
  have gg := HG body bs1 c1 hs (fun x hx => hx.elim) s1 w1
  rw [hl]
  refine SimR.landing g (by unfold ext; rw [if_pos rfl]) (fun j hj => by unfold ext; rw [if_neg (by omega)]) (fun j hj => by have := i.rel.lim j hj; omega)
    (fun f hf => by have := w.pr f hf; omega) (fun f hf => by have := w.sb f hf; omega) (fun j hj => rfl) ?_
  rintro x v c' (e | e)
  · rw [e] at gg
    exact funEnd_val w x gg.1.sb
  · rw [e] at gg
    exact funEnd_val w x (gg.2.1.sb.trans (dropWhile_eq_self _ _ fun f hf => by have := w.sb f hf; simp; omega))

/-- A cleanup form run during an exit to `d`. -/
theorem clean_run {P : Prog} {pure : Nat → Bool} (HS : P.Scoped) (HT : P.Tame pure) {cl : Tm} (hs : Scoped [] cl = true) (ht : Tame pure (some []) cl = true)
    {cs : List (Val × Nat)} {d : Nat} {bl : List (Name × Nat)} (hcs : ∀ q ∈ cs, q.2 ≤ d) {sp0 : Nat → Val} {o : List Val} {x : Exit} {s1 : St}
    (h : EvM (fun k => arrive (d + 1) (mean P k cl ⟨d + 2, cs, bl⟩ ⟨sp0, o⟩)) (x, s1)) :
    (∀ sp, EvM (fun k => mean P k cl ⟨d + 2, cs, []⟩ ⟨sp, o⟩) (x, ⟨sp, s1.out⟩)) ∧ s1.spec = sp0 ∧ ∀ e u, x = .exit e u → e ≤ d := by
  have key : ∀ k sp, ∃ e o1, mean P k cl ⟨d + 2, cs, []⟩ ⟨sp, o⟩ = (e, ⟨sp, o1⟩) ∧ mean P k cl ⟨d + 2, cs, bl⟩ ⟨sp0, o⟩ = (e, ⟨sp0, o1⟩) ∧
      ∀ e' u, e = .exit e' u → e' ≤ d := by
    intro k sp
    have g := mean_ins HS HT k cl [] [] ⟨d + 2, cs, []⟩ ⟨d + 2, cs, bl⟩ ⟨sp, o⟩ ⟨sp0, o⟩ hs ht ⟨rfl, rfl, fun n b hb => by cases hb⟩ ⟨rfl, by simp⟩
    have g2 := mean_in P k cl ⟨d + 2, cs, []⟩ ⟨sp, o⟩
    generalize mean P k cl ⟨d + 2, cs, []⟩ ⟨sp, o⟩ = r at g g2
    generalize mean P k cl ⟨d + 2, cs, bl⟩ ⟨sp0, o⟩ = q at g
    obtain ⟨e, ⟨a, b⟩⟩ := r
    obtain ⟨e', ⟨a', b'⟩⟩ := q
    obtain ⟨g3, g4, g5⟩ := g
    dsimp only at g3 g4 g5
    have h1 : a = sp := funext fun x => (g5 x (by simp)).1
    have h2 : a' = sp0 := funext fun x => (g5 x (by simp)).2
    have h3 : b = b' := g4.1
    subst h1 h2 h3 g3
    refine ⟨e, b, rfl, rfl, ?_⟩
    rintro e' u rfl
    rcases g2 with g2 | g2
    · obtain ⟨q, hq, rfl⟩ := List.mem_map.1 g2
      exact hcs q hq
    · simp at g2
  obtain ⟨N, hN⟩ := h
  have all : ∀ k, N ≤ k → ∀ sp, mean P k cl ⟨d + 2, cs, []⟩ ⟨sp, o⟩ = (x, ⟨sp, s1.out⟩) ∧ s1.spec = sp0 ∧ ∀ e u, x = .exit e u → e ≤ d := by
    intro k hk sp
    obtain ⟨e, o1, k1, k2, k3⟩ := key k sp
    have := hN k hk
    dsimp only at this
    rw [k2] at this
    have ha : arrive (d + 1) (e, (⟨sp0, o1⟩ : St)) = (e, ⟨sp0, o1⟩) := by
      unfold arrive
      cases e with
      | exit e' u => have := k3 e' u rfl; dsimp only; rw [if_neg (by omega)]
      | _ => rfl
    rw [ha] at this
    simp only [Prod.mk.injEq] at this
    obtain ⟨rfl, rfl⟩ := this
    exact ⟨k1, rfl, k3⟩
  exact ⟨fun sp => ⟨N, fun k hk => (all k hk sp).1⟩, (all N (le_refl _) sp0).2⟩

/-- The outcome of unwinding. -/
def SimU (P : Prog) (π : Nat → Nat) (cs : List (Val × Nat)) (d : Nat) (v : Val) (c : Ctx) : Res → Prop
  | .val _ c' => Pass P π cs c.protfp d v c.out (some (d, v)) c'.out ∧ c'.spec = (unbindspecial (π d) c.sbindfp c.spec).2
  | .jump q u c' => ∃ d', Pass P π cs c.protfp d v c.out (some (d', u)) c'.out ∧ π d' = q ∧ u ≠ .flt 0 ∧ c'.spec = (unbindspecial q c.sbindfp c.spec).2
  | .fail c' => Pass P π cs c.protfp d v c.out none c'.out
  | .ub => True
  | .timeout => True

theorem filter_filter_le (cs : List (Val × Nat)) {i d : Nat} (h : i ≤ d) :
    (cs.filter (fun q => q.2 ≤ d)).filter (fun q => q.2 ≤ i) = cs.filter (fun q => q.2 ≤ i) := by
  rw [List.filter_filter]
  apply List.filter_congr
  intro q _
  simp only [decide_eq_decide, Bool.decide_and, ← Bool.decide_and]
  by_cases hq : q.2 ≤ i
  · simp [hq, hq.trans h]
  · simp [hq]

theorem unwind_sim {P : Prog} {pure : Nat → Bool} {rec : Tm → Ctx → Res} (HS : P.Scoped) (HT : P.Tame pure) (HG : RecGood noX rec) (H : RecSim P pure rec)
    (k : Nat) (π : Nat → Nat) (cs : List (Val × Nat)) (d : Nat) (v : Val) : ∀ (c : Ctx), WF noX c → Clean c.spec →
    (∀ f ∈ c.protfp, Tame pure (some []) f.cleaner = true) → (∀ i j, i < j → j ≤ d → π i < π j) → (∀ i, i ≤ d → π i < c.vsp) →
    (c.catchfp = (cs.filter (fun q => q.2 ≤ d)).map (fun q => (⟨π q.2, q.1⟩ : Catch)) ∨ ∀ f ∈ c.protfp, f.pos < π d) →
    SimU P π cs d v c (unwind rec k (π d) c) := by
  induction k with
  | zero => intros; trivial
  | succ k ih =>
    intro c w hcl htm hmono hlim hc
    rw [unwind]
    cases hp : c.protfp with
    | nil => exact ⟨.done (by rw [hp]; simp), rfl⟩
    | cons f fs =>
      dsimp only
      have wp := w.prs; rw [hp] at wp
      by_cases hf : f.pos ≥ π d
      · rw [if_pos hf]
        have hcat : c.catchfp = (cs.filter (fun q => q.2 ≤ d)).map (fun q => (⟨π q.2, q.1⟩ : Catch)) := by
          rcases hc with hc | hc
          · exact hc
          · exfalso; have := hc f (by rw [hp]; simp); omega
        have w0 : WF noX { c with protfp := fs } := by
          refine ⟨w.sb, w.sbs, w.ct, w.cts, fun g hg => w.pr g (by rw [hp]; simp [show g ∈ fs from hg]), (List.pairwise_cons.1 wp).2, w.bk,
            fun g hg => w.cl g (by rw [hp]; simp [show g ∈ fs from hg])⟩
        have htm0 : ∀ g ∈ fs, Tame pure (some []) g.cleaner = true := fun g hg => htm g (by rw [hp]; simp [hg])
        obtain ⟨hs, hx⟩ := w.cl f (by rw [hp]; simp)
        have ht := htm f (by rw [hp]; simp)
        have hle : ∀ q ∈ cs.filter (fun q => q.2 ≤ d), q.2 ≤ d := fun q hq => by simpa using (List.mem_filter.1 hq).2
        have inv : Inv pure [] ⟨d + 1, cs.filter (fun q => q.2 ≤ d), []⟩ π { c with protfp := fs } := by
          refine ⟨w0, fun n b hb => (by cases hb), ⟨hcat, fun q hq => Nat.lt_succ_of_le (hle q hq), fun i j h1 h2 => hmono i j h1 (Nat.le_of_lt_succ h2),
            fun j hj => hlim j (Nat.le_of_lt_succ hj), fun n b hb => by cases hb⟩, hcl, htm0⟩
        have g := callFn_sim HG H 0 f.cleaner [] (some []) [] ⟨d + 1, cs.filter (fun q => q.2 ≤ d), []⟩ π { c with protfp := fs } hs ht (Or.inl rfl) inv
        have gg := callFn_good HG 0 f.cleaner [] _ w0 hs hx (Or.inl rfl)
        have hcg : ∀ {d1 : Nat}, d1 ≤ d → ∀ i, i ≤ d1 → (cs.filter (fun q => q.2 ≤ d)).filter (fun q => q.2 ≤ i) = cs.filter (fun q => q.2 ≤ i) :=
          fun h1 i hi => filter_filter_le cs (hi.trans h1)
        generalize callFn rec 0 f.cleaner { c with protfp := fs } = r at g gg
        cases r with
        | val w' c' =>
          obtain ⟨-, g2, g3⟩ := g
          obtain ⟨q1, q2, -⟩ := clean_run HS HT hs ht hle g3
          have g4 := ih c' (w0.same gg.1) g2 (by rw [gg.1.pr]; exact htm0) hmono (by rw [gg.1.vsp]; exact hlim) (Or.inl (by rw [gg.1.ct]; exact hcat))
          dsimp only [Res.bind]
          generalize unwind rec k (π d) c' = r at g4
          have e1 : c'.protfp = fs := gg.1.pr
          have e2 : c'.sbindfp = c.sbindfp := gg.1.sb
          have e3 : c'.spec = c.spec := q2
          cases r with
          | val u c'' =>
            obtain ⟨a1, a2⟩ := g4
            rw [e1] at a1; rw [e2, e3] at a2
            exact ⟨by rw [hp]; exact .step hf q1 a1, a2⟩
          | jump q u c'' =>
            obtain ⟨d', a1, a2, a3, a4⟩ := g4
            rw [e1] at a1; rw [e2, e3] at a4
            exact ⟨d', by rw [hp]; exact .step hf q1 a1, a2, a3, a4⟩
          | fail c'' =>
            have a1 : Pass P π cs c'.protfp d v c'.out none c''.out := g4
            rw [e1] at a1
            show Pass P π cs c.protfp d v c.out none c''.out
            rw [hp]; exact .step hf q1 a1
          | ub => trivial
          | timeout => trivial
        | jump q u c' =>
          obtain ⟨d1, u1, s1, d2, g1, g2, g3, g4, g5, g6, g7⟩ := g
          obtain ⟨q1, q2, q3⟩ := clean_run HS HT hs ht hle g1
          have hd1 := q3 d1 u1 rfl
          rw [show s1.spec = c.spec from q2] at g7
          refine ⟨d2, ?_, g5, g6, g7⟩
          rw [hp]
          exact .exit hf q1 hd1 (g4.congr (fun _ _ => rfl) (hcg hd1))
        | fail c' =>
          show Pass P π cs c.protfp d v c.out none c'.out
          rw [hp]
          rcases g with ⟨s1, g1, g2⟩ | ⟨d1, u1, s1, g1, g2, g3⟩
          · obtain ⟨q1, q2, -⟩ := clean_run HS HT hs ht hle g1
            rw [← g2]
            exact .fail hf q1
          · obtain ⟨q1, q2, q3⟩ := clean_run HS HT hs ht hle g1
            have hd1 := q3 d1 u1 rfl
            exact .exit hf q1 hd1 (g3.congr (fun _ _ => rfl) (hcg hd1))
        | ub => trivial
        | timeout => trivial
      · rw [if_neg hf]
        refine ⟨.done ?_, rfl⟩
        intro g hg
        rw [hp] at hg
        rcases List.mem_cons.1 hg with rfl | hg
        · omega
        · have := (List.pairwise_cons.1 wp).1 g hg; omega

/-- The catch frames not above the exit point `d`. -/
theorem filter_drop {cs : List (Val × Nat)} {π : Nat → Nat} {d : Nat} (h : (cs.map (fun q => (⟨π q.2, q.1⟩ : Catch))).Pairwise (fun f g => g.pos < f.pos))
    (hi : ∀ q ∈ cs, (π d < π q.2 ↔ d < q.2)) :
    (cs.map (fun q => (⟨π q.2, q.1⟩ : Catch))).dropWhile (fun f => decide (f.pos > π d)) =
      (cs.filter (fun q => q.2 ≤ d)).map (fun q => (⟨π q.2, q.1⟩ : Catch)) := by
  induction cs with
  | nil => rfl
  | cons q cs ih =>
    rw [List.map_cons, List.pairwise_cons] at h
    rw [List.map_cons, List.dropWhile_cons]
    by_cases hq : d < q.2
    · rw [if_pos (by simpa using (hi q (by simp)).2 hq), ih h.2 (fun q hq => hi q (by simp [hq])), List.filter_cons_of_neg (by simpa using hq)]
    · have hq' : ¬ π d < π q.2 := fun h => hq ((hi q (by simp)).1 h)
      rw [if_neg (by simpa using hq'), List.filter_eq_self.2, List.map_cons]
      intro r hr
      rcases List.mem_cons.1 hr with rfl | hr
      · simpa using hq
      · have h1 := h.1 ⟨π r.2, r.1⟩ (List.mem_map_of_mem (f := fun q => (⟨π q.2, q.1⟩ : Catch)) hr)
        dsimp only at h1
        have := (hi r (by simp [hr]))
        simp only [decide_eq_true_eq]
        by_contra hc
        have := this.2 (by omega)
        omega

theorem Rel.iff {bs : List BI} {E : Env} {π : Nat → Nat} {c : Ctx} (r : Rel bs E π c) {i j : Nat} (hi : i < E.depth) (hj : j < E.depth) : π i < π j ↔ i < j := by
  constructor
  · intro h
    rcases Nat.lt_trichotomy i j with h1 | h1 | h1
    · exact h1
    · subst h1; omega
    · have := r.mono j i h1 hi; omega
  · exact fun h => r.mono i j h hj

theorem find_drop (cs : List (Val × Nat)) (π : Nat → Nat) (tag : Val) :
    (cs.find? (fun q => q.1 = tag) = none ∧ (cs.map (fun q => (⟨π q.2, q.1⟩ : Catch))).dropWhile (fun f => decide (f.label ≠ tag)) = []) ∨
    ∃ q fs, cs.find? (fun q => q.1 = tag) = some q ∧ q ∈ cs ∧
      (cs.map (fun q => (⟨π q.2, q.1⟩ : Catch))).dropWhile (fun f => decide (f.label ≠ tag)) = ⟨π q.2, q.1⟩ :: fs := by
  induction cs with
  | nil => exact Or.inl ⟨rfl, rfl⟩
  | cons a cs ih =>
    rw [List.map_cons, List.dropWhile_cons, List.find?_cons]
    by_cases h : a.1 = tag
    · right
      refine ⟨a, cs.map (fun q => (⟨π q.2, q.1⟩ : Catch)), by simp [h], by simp, ?_⟩
      rw [if_neg (by simpa using h)]
    · rw [if_pos (by simpa using h)]
      simp only [h, decide_false]
      rcases ih with ih | ⟨q, fs, h1, h2, h3⟩
      · exact Or.inl ih
      · exact Or.inr ⟨q, fs, h1, by simp [h2], h3⟩

theorem error_sim {P : Prog} {pure : Nat → Bool} {rec : Tm → Ctx → Res} (HS : P.Scoped) (HT : P.Tame pure) (HG : RecGood noX rec) (H : RecSim P pure rec)
    (bs : List BI) (E : Env) (π : Nat → Nat) (c : Ctx) (i : Inv pure bs E π c) :
    SimR P (fun k => signal P (mean P k) E ⟨c.spec, c.out⟩) E.catches E.depth π c.protfp c.sbindfp (error P rec c) := by
  unfold error signal
  cases hh : P.handler with
  | none => exact Or.inl ⟨⟨c.spec, c.out⟩, ⟨0, fun _ _ => rfl⟩, rfl⟩
  | some h =>
    exact SimR.bind (f := fun _ _ s => (.fail, s)) (callFn_sim HG H (.blk h) (P.F h) _ none bs E π { c with vsp := c.vsp + 3 } (HS h) (HT.all h) (Or.inr rfl) (i.up _ (by omega)))
      fun v c' _ _ _ => Or.inl ⟨⟨c'.spec, c'.out⟩, ⟨0, fun _ _ => rfl⟩, rfl⟩

theorem throw_sim {P : Prog} {pure : Nat → Bool} {rec : Tm → Ctx → Res} (HS : P.Scoped) (HT : P.Tame pure) (HG : RecGood noX rec) (H : RecSim P pure rec)
    (k : Nat) (tag v : Val) (hv : v ≠ .flt 0) (bs : List BI) (E : Env) (π : Nat → Nat) (c : Ctx) (i : Inv pure bs E π c) :
    SimR P (fun k => match E.catches.find? (fun q => q.1 = tag) with
      | some q => (.exit q.2 v, ⟨c.spec, c.out⟩)
      | none => signal P (mean P k) E ⟨c.spec, c.out⟩) E.catches E.depth π c.protfp c.sbindfp (throw P rec k tag v c) := by
  unfold throw
  have w := i.wf
  rcases find_drop E.catches π tag with ⟨h1, h2⟩ | ⟨q, fs, h1, hq, h2⟩
  · rw [i.rel.ct, h2, h1]
    exact error_sim HS HT HG H bs E π c i
  · have hcts := w.cts
    rw [i.rel.ct] at hcts
    obtain ⟨e1, e2, e3, e4⟩ := catch_drop hcts tag h2
    have hqd := i.rel.cd q hq
    have hfd := filter_drop (d := q.2) hcts (fun r hr => i.rel.iff hqd (i.rel.cd r hr))
    rw [e1] at hfd
    rw [i.rel.ct, h2, h1]
    dsimp only
    have sub : ∀ g ∈ (⟨π q.2, q.1⟩ : Catch) :: fs, g ∈ c.catchfp := fun g hg => by
      rw [i.rel.ct]; exact (List.dropWhile_sublist _).subset (h2 ▸ hg)
    have w2 : WF noX { c with catchfp := ⟨π q.2, q.1⟩ :: fs } :=
      ⟨w.sb, w.sbs, fun g hg => w.ct g (sub g hg), (h2 ▸ hcts.sublist (List.dropWhile_sublist _)), w.pr, w.prs, w.bk, w.cl⟩
    have g := unwind_sim HS HT HG H k π E.catches q.2 v { c with catchfp := ⟨π q.2, q.1⟩ :: fs } w2 i.clean i.tame
      (fun a b h3 h4 => i.rel.mono a b h3 (by omega)) (fun a h3 => i.rel.lim a (by omega)) (Or.inl hfd)
    have gg := unwind_good HG k (π q.2) { c with catchfp := ⟨π q.2, q.1⟩ :: fs } w2 (Or.inl e3)
    have hM : EvM (fun _ => ((.exit q.2 v, ⟨c.spec, c.out⟩) : Exit × St)) (.exit q.2 v, ⟨c.spec, c.out⟩) := ⟨0, fun _ _ => rfl⟩
    generalize unwind rec k (π q.2) { c with catchfp := ⟨π q.2, q.1⟩ :: fs } = r at g gg
    cases r with
    | val u c' =>
      have ec : c'.catchfp = ⟨π q.2, q.1⟩ :: fs := gg.1.ct.trans (by dsimp only; rw [List.dropWhile_cons, if_neg (by simp)])
      dsimp only [Res.bind]
      rw [ec]
      exact ⟨q.2, v, ⟨c.spec, c.out⟩, q.2, hM, hqd, i.clean, g.1, rfl, hv, g.2⟩
    | jump p u c' =>
      obtain ⟨d', g1, g2, g3, g4⟩ := g
      exact ⟨q.2, v, ⟨c.spec, c.out⟩, d', hM, hqd, i.clean, g1, g2, g3, g4⟩
    | fail c' => exact Or.inr ⟨q.2, v, ⟨c.spec, c.out⟩, hM, hqd, g⟩
    | ub => trivial
    | timeout => trivial


theorem form_sim {P : Prog} {pure : Nat → Bool} {rec : Tm → Ctx → Res} (HS : P.Scoped) (HT : P.Tame pure) (HG : RecGood noX rec) (H : RecSim P pure rec)
    (k : Nat) (t : Tm) (bs : List BI) (m : Option (List Nat)) (E : Env) (π : Nat → Nat) (c : Ctx) (hs : Scoped bs t = true) (ht : Tame pure m t = true)
    (i : Inv pure bs E π c) :
    SimR P (fun k => mean P k t E ⟨c.spec, c.out⟩) E.catches E.depth π c.protfp c.sbindfp (form P rec k t c) := by
  have good : ∀ {t bs c v c'}, Scoped bs t = true → Inv pure bs E π c → rec t c = .val v c' → Same c c' := by
    intro t bs c v c' h1 h2 h3
    have := HG t bs c h1 (fun x hx => hx.elim) h2.sees h2.wf
    rw [h3] at this
    exact this.1
  have w := i.wf
  cases t with
  | const v =>
    have hv : v ≠ .flt 0 := by simpa [Tame] using ht
    exact ⟨hv, i.clean, ⟨1, fun m hm => by obtain ⟨j, rfl⟩ : ∃ j, m = j + 1 := ⟨m - 1, by omega⟩; rfl⟩⟩
  | var x => exact ⟨i.clean x, i.clean, ⟨1, fun m hm => by obtain ⟨j, rfl⟩ : ∃ j, m = j + 1 := ⟨m - 1, by omega⟩; rfl⟩⟩
  | setq x e =>
    simp only [Tame, Bool.and_eq_true] at ht
    refine SimR.succ (fun _ => rfl) (SimR.bind (f := fun _ v s => (.val v, { s with spec := upd s.spec x v })) (H e bs m E π c hs ht.2 i) ?_)
    intro v c' _ hv hc
    exact ⟨hv, hc.upd x hv, ⟨0, fun _ _ => rfl⟩⟩
  | print e =>
    refine SimR.succ (fun _ => rfl) (SimR.bind (f := fun _ v s => (.val v, { s with out := v :: s.out })) (H e bs m E π c hs ht i) ?_)
    intro v c' _ hv hc
    exact ⟨hv, hc, ⟨0, fun _ _ => rfl⟩⟩
  | progn a b =>
    simp only [Tame, Bool.and_eq_true] at ht
    simp only [Scoped, Bool.and_eq_true] at hs
    refine SimR.succ (fun _ => rfl) (SimR.bind (f := fun k _ s => mean P k b E s) (H a bs m E π c hs.1 ht.1 i) ?_)
    intro v c' h1 hv hc
    have h2 := good hs.1 i h1
    have := H b bs m E π c' hs.2 ht.2 (i.same h2 hc)
    rwa [h2.pr, h2.sb] at this
  | ite e a b =>
    simp only [Tame, Bool.and_eq_true] at ht
    simp only [Scoped, Bool.and_eq_true] at hs
    refine SimR.succ (fun _ => rfl) (SimR.bind (f := fun k v s => if v ≠ nil then mean P k a E s else mean P k b E s) (H e bs m E π c hs.1.1 ht.1.1 i) ?_)
    intro v c' h1 hv hc
    have h2 := good hs.1.1 i h1
    have ha := H a bs m E π c' hs.1.2 ht.1.2 (i.same h2 hc)
    have hb := H b bs m E π c' hs.2 ht.2 (i.same h2 hc)
    rw [h2.pr, h2.sb] at ha hb
    split
    · exact ha
    · exact hb
  | lett x e body =>
    simp only [Tame, Bool.and_eq_true] at ht
    simp only [Scoped, Bool.and_eq_true] at hs
    refine SimR.succ (fun _ => rfl) (SimR.bind (f := fun k v s => let r := mean P k body E { s with spec := upd s.spec x v }
      (r.1, { r.2 with spec := upd r.2.spec x (s.spec x) })) (H e bs m E π c hs.1 ht.1 i) ?_)
    intro v c1 hr hv hc
    have h1 := good hs.1 i hr
    have i1 := i.same h1 hc
    have w1 := i1.wf
    dsimp only
    set c2 : Ctx := { c1 with vsp := c1.vsp + 4, sbindfp := ⟨c1.vsp + 1, x, c1.spec x⟩ :: c1.sbindfp, spec := upd c1.spec x v } with hc2
    have w2 : WF noX c2 := by
      have w' := w1.up (c1.vsp + 4) (by omega)
      refine ⟨?_, ?_, w'.ct, w'.cts, w'.pr, w'.prs, w'.bk, w'.cl⟩
      · intro f hf
        rcases List.mem_cons.1 hf with rfl | hf
        · show c1.vsp + 1 + 3 ≤ c1.vsp + 4; omega
        · exact w'.sb f hf
      · refine List.pairwise_cons.2 ⟨fun g hg => ?_, w1.sbs⟩
        have := w1.sb g hg
        dsimp only; omega
    have i2 : Inv pure bs E π c2 := by
      have i' := i1.up (c1.vsp + 4) (by omega)
      exact ⟨w2, i1.sees, ⟨i'.rel.ct, i'.rel.cd, i'.rel.mono, i'.rel.lim, i'.rel.bk⟩, hc.upd x hv, i1.tame⟩
    have g := H body bs _ E π c2 hs.2 ht.2 i2
    have gg := HG body bs c2 hs.2 (fun x hx => hx.elim) i2.sees w2
    have hlt : ∀ f ∈ c.sbindfp, f.pos < c.vsp := fun f hf => by have := w.sb f hf; omega
    generalize rec body c2 = r at g gg
    cases r with
    | val u c' =>
      dsimp only [Res.bind]
      have e1 : c'.sbindfp = ⟨c1.vsp + 1, x, c1.spec x⟩ :: c.sbindfp := by rw [gg.1.sb, hc2]; dsimp only; rw [h1.sb]
      have e2 : unbindspecial c.vsp c'.sbindfp c'.spec = (c.sbindfp, upd c'.spec x (c1.spec x)) := by
        rw [e1, unbindspecial, if_pos (by dsimp only; rw [h1.vsp]; omega), unbind_none _ _ _ hlt]
      rw [e2]
      exact ⟨g.1, g.2.1.upd x (hc x), g.2.2.map fun m hm => by rw [hm]⟩
    | jump p u c' =>
      have hp := Tgt.lt w1 (show Tgt c1 p from gg.1)
      obtain ⟨d, y, s, d', g1, g2, g3, g4, g5, g6, g7⟩ := g
      refine ⟨d, y, { s with spec := upd s.spec x (c1.spec x) }, d', g1.map fun m hm => by rw [hm], g2, g3.upd x (hc x), ?_, g5, g6, ?_⟩
      · rw [← h1.pr]; exact g4
      · rw [g7, hc2]; dsimp only
        rw [unbindspecial, if_pos (by dsimp only; omega), h1.sb]
    | fail c' =>
      rcases g with ⟨s, g1, g2⟩ | ⟨d, y, s, g1, g2, g3⟩
      · exact Or.inl ⟨{ s with spec := upd s.spec x (c1.spec x) }, g1.map fun m hm => by rw [hm], g2⟩
      · refine Or.inr ⟨d, y, { s with spec := upd s.spec x (c1.spec x) }, g1.map fun m hm => by rw [hm], g2, ?_⟩
        rw [← h1.pr]; exact g3
    | ub => trivial
    | timeout => trivial
  | call f =>
    exact SimR.succ (fun _ => rfl) (callFn_sim HG H (.blk f) (P.F f) _ none bs E π c (HS f) (HT.all f) (Or.inr rfl) i)
  | catch_ tag body =>
    simp only [Tame, Bool.and_eq_true] at ht
    simp only [Scoped, Bool.and_eq_true] at hs
    refine SimR.succ (fun _ => rfl) (SimR.bind (f := fun k tag s =>
      arrive E.depth (mean P k body { E with depth := E.depth + 1, catches := (tag, E.depth) :: E.catches } s)) (H tag bs m E π c hs.1 ht.1 i) ?_)
    intro tg c1 hr hv hc
    have h1 := good hs.1 i hr
    have i1 := i.same h1 hc
    have w1 := i1.wf
    set c2 : Ctx := { c1 with vsp := c1.vsp + 6, catchfp := ⟨c1.vsp, tg⟩ :: c1.catchfp } with hc2
    have w2 : WF noX c2 := by
      have w' := w1.up (c1.vsp + 6) (by omega)
      refine ⟨w'.sb, w'.sbs, ?_, ?_, w'.pr, w'.prs, w'.bk, w'.cl⟩
      · intro f hf
        rcases List.mem_cons.1 hf with rfl | hf
        · show c1.vsp + 6 ≤ c1.vsp + 6; omega
        · exact w'.ct f hf
      · refine List.pairwise_cons.2 ⟨fun g hg => ?_, w1.cts⟩
        have := w1.ct g hg
        dsimp only; omega
    have s2 : Sees (bs.map fun b => { b with overCatch := true }) c2 := by
      intro n b hb
      rw [List.find?_map] at hb
      obtain ⟨b0, hb0, rfl⟩ := Option.map_eq_some_iff.1 hb
      obtain ⟨p, B, f1, f2, f3, f4⟩ := i1.sees n b0 hb0
      exact ⟨p, B, f1, f2, fun h => (by cases h), f4⟩
    have r2 : Rel (bs.map fun b => { b with overCatch := true }) { E with depth := E.depth + 1, catches := (tg, E.depth) :: E.catches }
        (ext π E.depth c1.vsp) c2 := by
      refine ⟨?_, ?_, ext_mono i1.rel.mono i1.rel.lim, ?_, ?_⟩
      · show (⟨c1.vsp, tg⟩ : Catch) :: c1.catchfp = _
        rw [i1.rel.ct, List.map_cons]
        congr 1
        · simp [ext]
        · refine List.map_congr_left fun q hq => ?_
          have := i1.rel.cd q hq
          unfold ext; rw [if_neg (by omega)]
      · intro q hq
        rcases List.mem_cons.1 hq with rfl | hq
        · dsimp only; omega
        · have := i1.rel.cd q hq; dsimp only; omega
      · intro j hj
        show _ < c1.vsp + 6
        unfold ext
        split
        · omega
        · have := i1.rel.lim j (by dsimp only at hj; omega); omega
      · intro n b hb
        rw [List.find?_map] at hb
        obtain ⟨b0, hb0, rfl⟩ := Option.map_eq_some_iff.1 hb
        obtain ⟨nm, k, B, f1, f2, f3⟩ := i1.rel.bk n b0 hb0
        exact ⟨nm, k, B, f1, by dsimp only; omega, by unfold ext; rw [if_neg (by omega)]; exact f3⟩
    have g := H body _ m _ _ c2 hs.2 ht.2 ⟨w2, s2, r2, hc, i1.tame⟩
    have gg := HG body _ c2 hs.2 (fun x hx => hx.elim) s2 w2
    have hl : (match rec body c2 with
        | .val v c' => catchEnd v c'
        | .jump p v c' => if p = c1.vsp then catchEnd (received v) c' else .jump p v c'
        | r => r) = landing c1.vsp catchEnd (rec body c2) := by
      generalize rec body c2 = r
      cases r <;> rfl
    rw [← h1.pr, ← h1.sb]
    refine Eq.mpr (congrArg _ hl) (SimR.landing g (by unfold ext; rw [if_pos rfl]) (fun j hj => by unfold ext; rw [if_neg (by omega)]) (fun j hj => i1.rel.lim j hj)
      (fun f hf => by have := w1.pr f hf; omega) (fun f hf => by have := w1.sb f hf; omega) (fun j hj => filter_cons_gt tg E.depth E.catches j hj) ?_)
    rintro x v c' (e | e)
    · rw [e] at gg
      unfold catchEnd
      rw [gg.1.ct]
      exact ⟨_, rfl, rfl, rfl⟩
    · rw [e] at gg
      unfold catchEnd
      rw [gg.2.1.ct, hc2]; dsimp only
      rw [List.dropWhile_cons, if_neg (by simp)]
      exact ⟨_, rfl, rfl, rfl⟩
  | throw_ tag e =>
    simp only [Tame, Bool.and_eq_true] at ht
    simp only [Scoped, Bool.and_eq_true] at hs
    refine SimR.succ (fun _ => rfl) (SimR.bind (f := fun k tag s => andThen (mean P k e E s) fun v s =>
      match E.catches.find? (fun q => q.1 = tag) with
      | some q => (.exit q.2 v, s)
      | none => signal P (mean P k) E s) (H tag bs m E π c hs.1 ht.1 i) ?_)
    intro tg c1 hr _ hc
    have h1 := good hs.1 i hr
    have i1 := i.same h1 hc
    rw [← h1.pr, ← h1.sb]
    refine SimR.bind (f := fun k v s => match E.catches.find? (fun q => q.1 = tg) with
      | some q => (.exit q.2 v, s)
      | none => signal P (mean P k) E s) (H e bs m E π c1 hs.2 ht.2 i1) ?_
    intro v c2 hr2 hv hc2
    have h2 := good hs.2 i1 hr2
    rw [← h2.pr, ← h2.sb]
    exact throw_sim HS HT HG H k tg v hv bs E π c2 (i1.same h2 hc2)
  | block name body =>
    set c2 : Ctx := { c with vsp := c.vsp + 5, blkfp := .frame c.vsp name c.blkfp c.blkfp } with hc2
    have w2 : WF noX c2 := by
      have w' := w.up (c.vsp + 5) (by omega)
      exact ⟨w'.sb, w'.sbs, w'.ct, w'.cts, w'.pr, w'.prs, ⟨by simp [hc2], w.bk, w.bk⟩, w'.cl⟩
    have s2 : Sees (⟨name, false, false⟩ :: bs) c2 := by
      intro n b hb
      rw [List.find?_cons] at hb
      split at hb
      · rename_i hn
        cases hb
        refine ⟨c.vsp, c2.blkfp, by simp [hc2, findBlk, hn], by simp [hc2, dropBlk], fun _ f hf => ?_, fun _ f hf => ?_⟩
        · have := w.ct f hf; omega
        · have := w.pr f hf; omega
      · rename_i hn
        obtain ⟨p, B, f1, f2, f3, f4⟩ := i.sees n b hb
        refine ⟨p, B, ?_, ?_, f3, f4⟩
        · rw [hc2, findBlk, if_neg (by rw [hn]; simp)]; exact f1
        · rw [hc2, dropBlk, if_pos (by have := lexPos_lt w.bk p (findBlk_mem f1).1; omega)]; exact f2
    have r2 : Rel (⟨name, false, false⟩ :: bs) { E with depth := E.depth + 1, blocks := (name, E.depth) :: E.blocks } (ext π E.depth c.vsp) c2 := by
      refine ⟨?_, fun q hq => by have := i.rel.cd q hq; dsimp only; omega, ext_mono i.rel.mono i.rel.lim, ?_, ?_⟩
      · show c.catchfp = _
        rw [i.rel.ct]
        refine List.map_congr_left fun q hq => ?_
        have := i.rel.cd q hq
        unfold ext; rw [if_neg (by omega)]
      · intro j hj
        show _ < c.vsp + 5
        unfold ext
        split
        · omega
        · have := i.rel.lim j (by dsimp only at hj; omega); omega
      · intro n b hb
        rw [List.find?_cons] at hb
        split at hb
        · rename_i hn
          exact ⟨name, E.depth, c2.blkfp, by simp [hn], by dsimp only; omega, by simp [hc2, findBlk, ext, hn]⟩
        · rename_i hn
          obtain ⟨nm, k, B, f1, f2, f3⟩ := i.rel.bk n b hb
          refine ⟨nm, k, B, by simp [hn, f1], by dsimp only; omega, ?_⟩
          rw [hc2]; dsimp only
          rw [findBlk, if_neg (by rw [hn]; simp)]
          unfold ext; rw [if_neg (by omega)]; exact f3
    have g := H body _ m _ _ c2 hs ht ⟨w2, s2, r2, i.clean, i.tame⟩
    have hl : form P rec k (.block name body) c = landing c.vsp (fun v c' => .val v { c' with blkfp := c.blkfp, vsp := c.vsp }) (rec body c2) := by
      rw [form, ← hc2]
      generalize rec body c2 = r
      cases r <;> rfl
    rw [hl]
    refine SimR.succ (fun _ => rfl) (SimR.landing g (by unfold ext; rw [if_pos rfl]) (fun j hj => by unfold ext; rw [if_neg (by omega)]) (fun j hj => i.rel.lim j hj)
      (fun f hf => by have := w.pr f hf; omega) (fun f hf => by have := w.sb f hf; omega) (fun j hj => rfl) ?_)
    intro x v c' _
    exact ⟨_, rfl, rfl, rfl⟩
  | retfrom name e =>
    simp only [Scoped, Bool.and_eq_true] at hs
    obtain ⟨hs1, hs2⟩ := hs
    split at hs1
    · rename_i b hb
      obtain ⟨p, B, f1, f2, f3, f4⟩ := i.sees name b hb
      obtain ⟨nn, d, B', q1, q2, q3⟩ := i.rel.bk name b hb
      rw [f1] at q3
      simp only [Option.some.injEq, Prod.mk.injEq] at q3
      obtain ⟨rfl, rfl⟩ := q3
      rw [form, f1]
      refine SimR.succ (M := fun k => andThen (mean P k e E ⟨c.spec, c.out⟩) fun v s => (.exit d v, s)) (fun k => by rw [mean, q1]) ?_
      refine SimR.bind (f := fun _ v s => (.exit d v, s)) (H e bs m E π c hs2 ht i) ?_
      intro v c1 hr hv hc
      have h1 := good hs2 i hr
      have i1 := i.same h1 hc
      have w1 := i1.wf
      obtain ⟨m1, nm, dd, x, m2⟩ := findBlk_mem f1
      have hp := lexPos_lt w.bk _ m1
      set c2 : Ctx := { c1 with blkfp := B } with hc2
      have w2 : WF noX c2 := ⟨w1.sb, w1.sbs, w1.ct, w1.cts, w1.pr, w1.prs, by rw [hc2, ← f2]; dsimp only; rw [h1.vsp]; exact dropBlk_ok w.bk, w1.cl⟩
      have hor : (∀ f ∈ c2.catchfp, f.pos < π d) ∨ ∀ f ∈ c2.protfp, f.pos < π d := by
        simp only [Bool.not_eq_true', Bool.and_eq_false_iff] at hs1
        rcases hs1 with h | h
        · exact Or.inl fun f hf => f3 h f (h1.ct ▸ hf)
        · exact Or.inr fun f hf => f4 h f (h1.pr ▸ hf)
      have hor2 : c2.catchfp = (E.catches.filter (fun q => q.2 ≤ d)).map (fun q => (⟨π q.2, q.1⟩ : Catch)) ∨ ∀ f ∈ c2.protfp, f.pos < π d := by
        rcases hor with h | h
        · left
          show c1.catchfp = _
          rw [i1.rel.ct, List.filter_eq_self.2]
          intro q hq
          have hlt := h ⟨π q.2, q.1⟩ (by show _ ∈ c1.catchfp; rw [i1.rel.ct]; exact List.mem_map_of_mem (f := fun q => (⟨π q.2, q.1⟩ : Catch)) hq)
          dsimp only at hlt
          have := (i1.rel.iff (i1.rel.cd q hq) q2).1 hlt
          simp only [decide_eq_true_eq]; omega
        · exact Or.inr h
      have gg := unwind_good HG k (π d) c2 w2 (hor.imp (fun h f hf => le_of_lt (h f hf)) id)
      have g := unwind_sim HS HT HG H k π E.catches d v c2 w2 hc i1.tame (fun a b h3 h4 => i1.rel.mono a b h3 (by omega)) (fun a h3 => i1.rel.lim a (by omega)) hor2
      have hM : EvM (fun _ => ((.exit d v, ⟨c1.spec, c1.out⟩) : Exit × St)) (.exit d v, ⟨c1.spec, c1.out⟩) := ⟨0, fun _ _ => rfl⟩
      rw [← h1.pr, ← h1.sb]
      generalize unwind rec k (π d) c2 = r at g gg
      cases r with
      | val u c' =>
        have eb : c'.blkfp = .frame (π d) nm dd x := by
          rw [gg.1.bk, hc2]; dsimp only; rw [m2, dropBlk, if_neg (by omega)]
        dsimp only [Res.bind]
        rw [eb]
        exact ⟨d, v, ⟨c1.spec, c1.out⟩, d, hM, q2, hc, g.1, rfl, hv, g.2⟩
      | jump p u c' =>
        obtain ⟨d', g1, g2, g3, g4⟩ := g
        exact ⟨d, v, ⟨c1.spec, c1.out⟩, d', hM, q2, hc, g1, g2, g3, g4⟩
      | fail c' => exact Or.inr ⟨d, v, ⟨c1.spec, c1.out⟩, hM, q2, g⟩
      | ub => trivial
      | timeout => trivial
    · cases hs1
  | protect e cl =>
    simp only [Tame, Bool.and_eq_true] at ht
    simp only [Scoped, Bool.and_eq_true] at hs
    set c2 : Ctx := { c with vsp := c.vsp + 2, protfp := ⟨c.vsp, cl⟩ :: c.protfp } with hc2
    have w2 : WF noX c2 := by
      have w' := w.up (c.vsp + 2) (by omega)
      refine ⟨w'.sb, w'.sbs, w'.ct, w'.cts, ?_, ?_, w'.bk, ?_⟩
      · intro f hf
        rcases List.mem_cons.1 hf with rfl | hf
        · show c.vsp + 2 ≤ c.vsp + 2; omega
        · exact w'.pr f hf
      · refine List.pairwise_cons.2 ⟨fun g hg => ?_, w.prs⟩
        have := w.pr g hg
        dsimp only; omega
      · intro f hf
        rcases List.mem_cons.1 hf with rfl | hf
        · exact ⟨hs.2, fun y hy => hy.elim⟩
        · exact w.cl f hf
    have s2 : Sees (bs.map fun b => { b with overProt := true }) c2 := by
      intro n b hb
      rw [List.find?_map] at hb
      obtain ⟨b0, hb0, rfl⟩ := Option.map_eq_some_iff.1 hb
      obtain ⟨p, B, f1, f2, f3, f4⟩ := i.sees n b0 hb0
      exact ⟨p, B, f1, f2, f3, fun h => (by cases h)⟩
    have r2 : Rel (bs.map fun b => { b with overProt := true }) E π c2 := by
      have i' := i.up (c.vsp + 2) (by omega)
      refine ⟨i'.rel.ct, i'.rel.cd, i'.rel.mono, i'.rel.lim, ?_⟩
      intro n b hb
      rw [List.find?_map] at hb
      obtain ⟨b0, hb0, rfl⟩ := Option.map_eq_some_iff.1 hb
      exact i.rel.bk n b0 hb0
    have t2 : ∀ f ∈ c2.protfp, Tame pure (some []) f.cleaner = true := by
      intro f hf
      rcases List.mem_cons.1 hf with rfl | hf
      · exact ht.2
      · exact i.tame f hf
    have g := H e _ m E π c2 hs.1 ht.1 ⟨w2, s2, r2, i.clean, t2⟩
    have gg := HG e _ c2 hs.1 (fun y hy => hy.elim) s2 w2
    rw [form]
    refine SimR.succ (M := fun k => cleanup E (mean P k cl) (mean P k e E ⟨c.spec, c.out⟩)) (fun _ => rfl) ?_
    -- the cleanup form run during an exit
    have run : ∀ (d : Nat) (y : Val) (s : St) (x : Exit) (o1 : List Val), EvM (fun k => mean P k e E ⟨c2.spec, c2.out⟩) (.exit d y, s) →
        (∀ sp, EvM (fun k => mean P k cl ⟨d + 2, E.catches.filter (fun q => q.2 ≤ d), []⟩ ⟨sp, s.out⟩) (x, ⟨sp, o1⟩)) →
        EvM (fun k => cleanup E (mean P k cl) (mean P k e E ⟨c.spec, c.out⟩)) (andThen (x, (⟨s.spec, o1⟩ : St)) fun _ s' => (.exit d y, s')) := by
      intro d y s x o1 h1 h2
      obtain ⟨N, hN⟩ := h1
      obtain ⟨K, hK⟩ := h2 s.spec
      refine ⟨max N K, fun k hk => ?_⟩
      have e1 := hN k (by omega)
      have e2 := hK k (by omega)
      dsimp only at e1 e2 ⊢
      rw [show mean P k e E ⟨c.spec, c.out⟩ = (.exit d y, s) from e1]
      unfold cleanup
      dsimp only
      have := mean_ins HS HT k cl [] [] ⟨d + 2, E.catches.filter (fun q => q.2 ≤ d), []⟩ (E.upto d) ⟨s.spec, s.out⟩ s hs.2 ht.2
        ⟨rfl, rfl, fun n b hb => by cases hb⟩ ⟨rfl, by simp⟩
      rw [e2] at this
      generalize mean P k cl (E.upto d) s = r at this ⊢
      obtain ⟨x', ⟨a, b⟩⟩ := r
      obtain ⟨z1, z2, z3⟩ := this
      dsimp only at z1 z2 z3
      have z4 : a = s.spec := funext fun x => (z3 x (by simp)).2
      have z5 : o1 = b := z2.1
      subst z1 z4 z5
      rfl
    have top : ∀ d, d < E.depth → c.vsp ≥ π d := fun d hd => le_of_lt (i.rel.lim d hd)
    generalize rec e c2 = r at g gg
    cases r with
    | val u c' =>
      dsimp only [Res.bind]
      have h1 : Same c { c' with vsp := c.vsp, protfp := c.protfp } := ⟨rfl, gg.1.sb, gg.1.ct, gg.1.bk, rfl⟩
      have i1 := i.same h1 g.2.1
      have i1' : Inv pure [] E π { c' with vsp := c.vsp, protfp := c.protfp } :=
        ⟨i1.wf, fun n b hb => (by cases hb), ⟨i1.rel.ct, i1.rel.cd, i1.rel.mono, i1.rel.lim, fun n b hb => (by cases hb)⟩, i1.clean, i1.tame⟩
      have g2 := H cl [] (some []) E π _ hs.2 ht.2 i1'
      have h2 := SimR.bind (f := fun _ _ s => (.val u, s)) (g := fun _ c2 => .val u c2) g2 fun v c3 _ hv hc => ⟨g.1, hc, ⟨0, fun _ _ => rfl⟩⟩
      have h3 : c'.sbindfp = c.sbindfp := gg.1.sb
      rw [← h3]
      refine SimR.map h2 fun x hx => ?_
      obtain ⟨N, hN⟩ := g.2.2
      obtain ⟨K, hK⟩ := hx
      refine ⟨max N K, fun k hk => ?_⟩
      have e1 := hN k (by omega)
      have e2 := hK k (by omega)
      dsimp only at e1 e2 ⊢
      rw [show mean P k e E ⟨c.spec, c.out⟩ = (.val u, ⟨c'.spec, c'.out⟩) from e1, ← e2]
      rfl
    | jump p u c' =>
      obtain ⟨d, y, s, d', g1, g2, g3, g4, g5, g6, g7⟩ := g
      have htop := top d g2
      rcases Pass.cons_inv g4 htop with ⟨w, o1, hb, hc⟩ | ⟨d1, v1, o1, hb, hd, hc⟩ | ⟨hb, -⟩
      · exact ⟨d, y, ⟨s.spec, o1⟩, d', run d y s _ _ g1 hb, g2, g3, hc, g5, g6, g7⟩
      · exact ⟨d1, v1, ⟨s.spec, o1⟩, d', run d y s _ _ g1 hb, by omega, g3, hc, g5, g6, g7⟩
      · cases hb
    | fail c' =>
      rcases g with ⟨s, g1, g2⟩ | ⟨d, y, s, g1, g2, g3⟩
      · refine Or.inl ⟨s, EvM.map g1 (fun m hm => ?_), g2⟩
        rw [show mean P m e E ⟨c.spec, c.out⟩ = (.fail, s) from hm]
        rfl
      · have htop := top d g2
        rcases Pass.cons_inv g3 htop with ⟨w, o1, hb, hc⟩ | ⟨d1, v1, o1, hb, hd, hc⟩ | ⟨-, hb⟩
        · exact Or.inr ⟨d, y, ⟨s.spec, o1⟩, run d y s _ _ g1 hb, g2, hc⟩
        · exact Or.inr ⟨d1, v1, ⟨s.spec, o1⟩, run d y s _ _ g1 hb, by omega, hc⟩
        · exact Or.inl ⟨⟨s.spec, c'.out⟩, run d y s _ _ g1 hb, rfl⟩
    | ub => trivial
    | timeout => trivial
  | loop e body =>
    have hs' := hs
    have ht' := ht
    simp only [Tame, Bool.and_eq_true] at ht
    simp only [Scoped, Bool.and_eq_true] at hs
    refine SimR.succ (fun _ => rfl) (SimR.bind (f := fun k v s =>
      if v = nil then (.val nil, s) else andThen (mean P k body E s) fun _ s => mean P k (.loop e body) E s) (H e bs m E π c hs.1 ht.1 i) ?_)
    intro v c1 hr hv hc
    have h1 := good hs.1 i hr
    have i1 := i.same h1 hc
    split
    · exact ⟨by simp [nil], hc, ⟨0, fun _ _ => rfl⟩⟩
    · rw [← h1.pr, ← h1.sb]
      refine SimR.bind (f := fun k _ s => mean P k (.loop e body) E s) (H body bs m E π c1 hs.2 ht.2 i1) ?_
      intro w c2 hr2 _ hc2
      have h2 := good hs.2 i1 hr2
      rw [← h2.pr, ← h2.sb]
      exact H (.loop e body) bs m E π c2 hs' ht' (i1.same h2 hc2)
  | label u r => exact SimR.succ (fun _ => rfl) (H r bs m E π c hs ht i)
  | tagbody body cur =>
    simp only [Tame, Bool.and_eq_true] at ht
    simp only [Scoped, Bool.and_eq_true, decide_eq_true_eq] at hs
    have sc : Scoped bs (.block (.tags (tagsOf body)) (.progn cur (.const nil))) = true := by simp only [Scoped, Bool.and_true]; exact hs.2
    refine SimR.succ (fun _ => rfl) (SimR.bind (f := fun k v s =>
      match v with
      | .int t => (match fromTag t body with
        | some next => mean P k (.tagbody body next) E s
        | none => (.val nil, s))
      | _ => (.val nil, s)) (H _ bs m E π c sc (by simp only [Tame, Bool.and_eq_true]; exact ⟨ht.2, rfl⟩) i) ?_)
    intro v c1 hr hv hc
    have h1 := good sc i hr
    have i1 := i.same h1 hc
    have hnil : SimR P (fun _ => ((.val nil, ⟨c1.spec, c1.out⟩) : Exit × St)) E.catches E.depth π c.protfp c.sbindfp (.val nil c1) :=
      ⟨by simp [nil], hc, ⟨0, fun _ _ => rfl⟩⟩
    cases v with
    | int t =>
      dsimp only
      rw [after_eq t body hs.1.1]
      cases hk : fromTag t body with
      | none => exact hnil
      | some next =>
        dsimp only
        rw [← h1.pr, ← h1.sb]
        exact H (.tagbody body next) bs m E π c1
          (by simp only [Scoped, Bool.and_eq_true, decide_eq_true_eq]; exact ⟨hs.1, fromTag_scoped hk hs.1.2⟩)
          (by simp only [Tame, Bool.and_eq_true]; exact ⟨ht.1, fromTag_tame hk ht.1⟩) i1
    | flt b => exact hnil
    | sym k => exact hnil
  | error_ => exact SimR.succ (fun _ => rfl) (error_sim HS HT HG H bs E π c i)

theorem eval_sim {P : Prog} {pure : Nat → Bool} (HS : P.Scoped) (HT : P.Tame pure) (n : Nat) : RecSim P pure (eval P n) := by
  induction n with
  | zero => intro t bs m E π c _ _ _; trivial
  | succ n ih =>
    intro t bs m E π c hs ht i
    have HG := eval_good HS (X := noX) (fun x hx => hx.elim) n
    have key := (form_sim HS HT HG ih n t bs m E π { c with vsp := c.vsp + 2 } hs ht (i.up _ (by omega))).pop c.vsp
    have key2 := form_sim HS HT HG ih n t bs m E π c hs ht i
    cases t with
    | const v => exact key2
    | var x => exact key2
    | call f => exact key2
    | loop e b => exact key2
    | tagbody b c => exact key2
    | _ => exact key

/-- At the start. -/
theorem inv_start (pure : Nat → Bool) (spec : Nat → Val) (h : Clean spec) (π : Nat → Nat) : Inv pure [] Env.top π (start spec) := by
  refine ⟨⟨by simp [start], by simp [start], by simp [start], by simp [start], by simp [start], by simp [start], trivial, by simp [start]⟩,
    fun n b hb => (by cases hb), ⟨rfl, fun q hq => (by cases hq), fun i j _ hj => (by cases hj), fun i hi => (by cases hi), fun n b hb => (by cases hb)⟩, h, by simp [start]⟩

end Eus.Ctl
