import Verif.Cls.Spec
import Mathlib.Tactic.SplitIfs
set_option autoImplicit false
namespace Eus.Cls

/-- The methods of the model as a map. -/
def D.meths (d : D) : Meths := fun c s => findIn s (d.methods c)

theorem findIn_put (s m t : Nat) : ∀ l, findIn t (putMethod s m l) = if t = s then some m else findIn t l
  | [] => by simp only [putMethod, findIn]; split_ifs <;> first | rfl | omega
  | (u, k) :: l => by
    simp only [putMethod]
    by_cases h : u = s
    · subst h
      simp only [if_true, findIn]
      by_cases h2 : t = u
      · rw [if_pos h2.symm, if_pos h2]
      · rw [if_neg (Ne.symm h2), if_neg h2, if_neg (Ne.symm h2)]
    · simp only [if_neg h, findIn, findIn_put s m t l]
      by_cases h2 : u = t
      · subst h2; rw [if_pos rfl, if_neg h, if_pos rfl]
      · rw [if_neg h2, if_neg h2]

theorem findIn_del (s t : Nat) : ∀ l : List (Nat × Nat),
    findIn t (l.filter fun p => p.1 ≠ s) = if t = s then none else findIn t l
  | [] => by simp [findIn]
  | (u, k) :: l => by
    have ih := findIn_del s t l
    by_cases h : u = s
    · subst h
      rw [List.filter_cons_of_neg (by simp), ih]
      simp only [findIn]
      by_cases h2 : t = u
      · rw [if_pos h2, if_pos h2]
      · rw [if_neg h2, if_neg h2, if_neg (Ne.symm h2)]
    · rw [List.filter_cons_of_pos (by simpa using h)]
      simp only [findIn, ih]
      by_cases h2 : u = t
      · subst h2; rw [if_pos rfl, if_neg h, if_pos rfl]
      · rw [if_neg h2, if_neg h2]

theorem Nearest.fun {super : Nat → Option Nat} {M : Meths} {sel c o m o' m' : Nat} (h : Nearest super M sel c o m)
    (h' : Nearest super M sel c o' m') : o = o' ∧ m = m' := by
  induction h with
  | here e =>
    cases h' with
    | here e' => rw [e] at e'; cases e'; exact ⟨rfl, rfl⟩
    | up e' _ _ => rw [e] at e'; cases e'
  | up e s _ ih =>
    cases h' with
    | here e' => rw [e] at e'; cases e'
    | up _ s' h' => rw [s] at s'; cases s'; exact ih h'

theorem search_some {super : Nat → Option Nat} {methods : Nat → List (Nat × Nat)} {sel : Nat} : ∀ (fuel : Nat) (c o m : Nat),
    search super methods sel fuel (some c) = some (o, m) → Nearest super (fun c s => findIn s (methods c)) sel c o m
  | 0, _, _, _, h => by simp [search] at h
  | fuel + 1, c, o, m, h => by
    simp only [search] at h
    cases hf : findIn sel (methods c) with
    | some k =>
      rw [hf] at h; simp only [Option.some.injEq, Prod.mk.injEq] at h
      obtain ⟨rfl, rfl⟩ := h
      exact .here hf
    | none =>
      rw [hf] at h
      simp only at h
      cases hs : super c with
      | none => rw [hs] at h; cases fuel <;> simp [search] at h
      | some b => rw [hs] at h; exact .up hf hs (search_some fuel b o m h)

theorem search_none {super : Nat → Option Nat} (hsup : ∀ a b, super a = some b → b < a)
    {methods : Nat → List (Nat × Nat)} {sel : Nat} : ∀ (fuel : Nat) (c : Nat), c < fuel →
    search super methods sel fuel (some c) = none → ∀ o m, ¬ Nearest super (fun c s => findIn s (methods c)) sel c o m
  | 0, _, hc, _ => by omega
  | fuel + 1, c, hc, h => by
    intro o m hn
    simp only [search] at h
    cases hf : findIn sel (methods c) with
    | some k => rw [hf] at h; simp at h
    | none =>
      rw [hf] at h
      simp only at h
      cases hn with
      | here e => simp only [hf] at e; cases e
      | up _ hs hn =>
        rw [hs] at h
        exact search_none hsup fuel _ (by have := hsup _ _ hs; omega) h o m hn

/-- The cache of context `ctx` holds right answers. -/
def CacheOK (d : D) (ctx : Nat) : Prop :=
  ∀ i s, (d.cache ctx i).sel = some s → Nearest d.super d.meths s (d.cache ctx i).cls (d.cache ctx i).owner (d.cache ctx i).meth

/-- What a lookup returns. -/
def Found (d : D) (sel cls : Nat) (r : Option (Nat × Nat)) : Prop :=
  match r with
  | some (o, m) => Nearest d.super d.meths sel cls o m
  | none => ∀ o m, ¬ Nearest d.super d.meths sel cls o m

theorem findmethod_ok {h : Nat → Nat → Nat} {depth : Nat} {d : D} (hsup : ∀ a b, d.super a = some b → b < a)
    {ctx sel cls : Nat} (hc : CacheOK d ctx) (hd : cls < depth) :
    Found d sel cls (findmethod h depth d ctx sel cls).2 := by
  unfold findmethod
  by_cases hh : d.trycache = true ∧ (d.cache ctx (h sel cls)).sel = some sel ∧ (d.cache ctx (h sel cls)).cls = cls
  · simp only [if_pos hh, Found]
    have := hc _ _ hh.2.1
    rw [hh.2.2] at this; exact this
  · simp only [if_neg hh]
    cases hs : search d.super d.methods sel depth (some cls) with
    | some r =>
      obtain ⟨o, m⟩ := r
      exact search_some _ _ _ _ hs
    | none => exact search_none hsup _ _ hd hs

theorem findmethod_same (h : Nat → Nat → Nat) (depth : Nat) (d : D) (ctx sel cls : Nat) :
    (findmethod h depth d ctx sel cls).1.super = d.super ∧ (findmethod h depth d ctx sel cls).1.methods = d.methods ∧
      (findmethod h depth d ctx sel cls).1.trycache = d.trycache := by
  unfold findmethod
  simp only
  split_ifs with h1 h2
  · exact ⟨rfl, rfl, rfl⟩
  · cases search d.super d.methods sel depth (some cls) <;> exact ⟨rfl, rfl, rfl⟩
  · cases search d.super d.methods sel depth (some cls) <;> exact ⟨rfl, rfl, rfl⟩

theorem findmethod_meths (h : Nat → Nat → Nat) (depth : Nat) (d : D) (ctx sel cls : Nat) :
    (findmethod h depth d ctx sel cls).1.meths = d.meths := by
  unfold D.meths; rw [(findmethod_same h depth d ctx sel cls).2.1]

theorem findmethod_cacheOK {h : Nat → Nat → Nat} {depth : Nat} {d : D} {ctx ctx' sel cls : Nat} (hc : CacheOK d ctx) :
    CacheOK (findmethod h depth d ctx' sel cls).1 ctx := by
  intro i s hs
  rw [(findmethod_same h depth d ctx' sel cls).1, findmethod_meths]
  revert hs
  unfold findmethod
  simp only
  split_ifs with h1 h2
  · exact hc i s
  · cases hse : search d.super d.methods sel depth (some cls) with
    | none => exact hc i s
    | some r =>
      obtain ⟨o, m⟩ := r
      simp only
      by_cases e : ctx = ctx'
      · subst e
        rw [Function.update_self]
        by_cases ei : i = h sel cls
        · subst ei
          rw [Function.update_self]
          intro hs
          cases hs
          exact search_some _ _ _ _ hse
        · rw [Function.update_of_ne ei]; exact hc i s
      · rw [Function.update_of_ne e]; exact hc i s
  · cases hse : search d.super d.methods sel depth (some cls) with
    | none => exact hc i s
    | some r => exact hc i s

theorem Nearest.congr {super : Nat → Option Nat} {M M' : Meths} {sel : Nat} (e : ∀ c, M' c sel = M c sel)
    {c o m : Nat} (h : Nearest super M sel c o m) : Nearest super M' sel c o m := by
  induction h with
  | here h => exact .here ((e _).trans h)
  | up h s _ ih => exact .up ((e _).trans h) s ih

theorem add_meths (d : D) (cls sel m : Nat) : (addmethod d cls sel m).meths = mstep d.meths (.add cls sel m) := by
  funext c s
  simp only [D.meths, addmethod, mstep]
  by_cases hc : c = cls
  · subst hc
    rw [Function.update_self, Function.update_self, findIn_put]
    split_ifs with hs
    · subst hs; rw [Function.update_self]
    · rw [Function.update_of_ne hs]; rfl
  · rw [Function.update_of_ne hc, Function.update_of_ne hc]; rfl

theorem delete_meths (d : D) (ctx cls sel : Nat) :
    (deleteMethod d ctx cls sel).meths = mstep d.meths (.delete ctx cls sel) := by
  funext c s
  simp only [D.meths, deleteMethod, methodCache, mstep]
  by_cases hc : c = cls
  · subst hc
    rw [Function.update_self, Function.update_self, findIn_del]
    split_ifs with hs
    · subst hs; rw [Function.update_self]
    · rw [Function.update_of_ne hs]; rfl
  · rw [Function.update_of_ne hc, Function.update_of_ne hc]; rfl

theorem dstep_super (h : Nat → Nat → Nat) (depth : Nat) (d : D) (op : DOp) : (dstep h depth d op).super = d.super := by
  cases op with
  | find ctx sel cls => exact (findmethod_same h depth d ctx sel cls).1
  | add => rfl
  | cacheOn => rfl
  | delete => rfl

theorem dstep_meths (h : Nat → Nat → Nat) (depth : Nat) (d : D) (op : DOp) :
    (dstep h depth d op).meths = mstep d.meths op := by
  cases op with
  | find ctx sel cls => exact findmethod_meths h depth d ctx sel cls
  | add cls sel m => exact add_meths d cls sel m
  | cacheOn => rfl
  | delete ctx cls sel => exact delete_meths d ctx cls sel

theorem dstep_cacheOK {h : Nat → Nat → Nat} {depth : Nat} {d : D} {ctx : Nat} (hc : CacheOK d ctx) (op : DOp)
    (hop : ∀ c k s, op = .delete c k s → c = ctx) : CacheOK (dstep h depth d op) ctx := by
  cases op with
  | find ctx' sel cls => exact findmethod_cacheOK hc
  | add cls sel m =>
    intro i s hs
    simp only [dstep, add_meths] at hs ⊢
    simp only [addmethod, purge] at hs ⊢
    split_ifs at hs ⊢ with h1
    have hne : s ≠ sel := fun e => h1 (by rw [hs, e])
    refine (hc i s hs).congr (fun c => ?_)
    simp only [mstep]
    by_cases e : c = cls
    · subst e; rw [Function.update_self, Function.update_of_ne hne]
    · rw [Function.update_of_ne e]
  | cacheOn c on =>
    intro i s hs
    simp only [dstep, methodCache] at hs ⊢
    by_cases e : ctx = c
    · subst e; rw [Function.update_self] at hs; cases hs
    · rw [Function.update_of_ne e] at hs ⊢; exact hc i s hs
  | delete c k s' =>
    have := hop c k s' rfl
    subst this
    intro i s hs
    simp only [dstep, deleteMethod, methodCache, Function.update_self] at hs
    cases hs

theorem run_ok (h : Nat → Nat → Nat) (depth : Nat) (ctx : Nat) : ∀ (ops : List DOp) (d : D), CacheOK d ctx →
    (∀ c k s, DOp.delete c k s ∈ ops → c = ctx) →
    CacheOK (ops.foldl (dstep h depth) d) ctx ∧ (ops.foldl (dstep h depth) d).super = d.super ∧
      (ops.foldl (dstep h depth) d).meths = ops.foldl mstep d.meths := by
  intro ops
  induction ops with
  | nil => intro d hc _; exact ⟨hc, rfl, rfl⟩
  | cons op ops ih =>
    intro d hc hop
    have h1 := ih (dstep h depth d op) (dstep_cacheOK hc op (fun c k s e => hop c k s (by simp [e])))
      (fun c k s hm => hop c k s (List.mem_cons_of_mem _ hm))
    rw [dstep_super, dstep_meths] at h1
    exact h1

theorem init_ok (super : Nat → Option Nat) (methods : Nat → List (Nat × Nat)) (ctx : Nat) :
    CacheOK (D.init super methods) ctx := by
  intro i s hs; cases hs

theorem findforward_ok {h : Nat → Nat → Nat} {depth sel ctx : Nat} {super : Nat → Option Nat} {M : Meths}
    (hsup : ∀ a b, super a = some b → b < a) :
    ∀ (slots : List (Option (List Nat) × Option (Nat × Nat))) (d : D), d.super = super → d.meths = M → CacheOK d ctx →
    (∀ f o c, (f, some (o, c)) ∈ slots → c < depth) →
    Forward super M sel slots (findforward h depth sel ctx slots d).2 ∧
      (findforward h depth sel ctx slots d).1.super = super ∧ (findforward h depth sel ctx slots d).1.meths = M ∧
      CacheOK (findforward h depth sel ctx slots d).1 ctx := by
  intro slots
  induction slots with
  | nil => intro d h1 h2 hc _; exact ⟨.nil, h1, h2, hc⟩
  | cons p slots ih =>
    intro d h1 h2 hc hd
    obtain ⟨fl, v⟩ := p
    unfold findforward
    by_cases hf : fl.all (fun l => l.contains sel) = true
    · rw [if_pos hf]
      have hf' : ∀ l, fl = some l → sel ∈ l := by
        rintro l rfl; simpa using hf
      cases v with
      | none => exact ⟨.number hf', h1, h2, hc⟩
      | some oc =>
        obtain ⟨obj, cls⟩ := oc
        have hk := findmethod_ok (h := h) (depth := depth) (sel := sel) (by rw [h1]; exact hsup) hc
          (hd fl obj cls (by simp))
        have hs := findmethod_same h depth d ctx sel cls
        have hm := findmethod_meths h depth d ctx sel cls
        have hc' := findmethod_cacheOK (h := h) (depth := depth) (ctx' := ctx) (sel := sel) (cls := cls) hc
        simp only
        generalize findmethod h depth d ctx sel cls = q at *
        obtain ⟨d', r⟩ := q
        simp only at hk hs hm hc'
        cases r with
        | some om =>
          obtain ⟨o, m⟩ := om
          simp only [Found, h1, h2] at hk
          exact ⟨.hit hf' hk, hs.1.trans h1, hm.trans h2, hc'⟩
        | none =>
          simp only [Found, h1, h2] at hk
          have := ih d' (hs.1.trans h1) (hm.trans h2) hc' (fun f o c hm => hd f o c (List.mem_cons_of_mem _ hm))
          exact ⟨.miss hf' hk this.1, this.2⟩
    · rw [if_neg hf]
      have := ih d h1 h2 hc (fun f o c hm => hd f o c (List.mem_cons_of_mem _ hm))
      refine ⟨?_, this.2⟩
      cases fl with
      | none => simp at hf
      | some l => exact .skip (by simpa using hf) this.1

theorem Forward.fun {super : Nat → Option Nat} {M : Meths} {sel : Nat}
    {slots : List (Option (List Nat) × Option (Nat × Nat))} {r r' : Sent} (h : Forward super M sel slots r)
    (h' : Forward super M sel slots r') : r = r' := by
  induction h with
  | nil => cases h'; rfl
  | skip hl _ ih =>
    cases h' with
    | skip _ h' => exact ih h'
    | number hf => exact absurd (hf _ rfl) hl
    | hit hf => exact absurd (hf _ rfl) hl
    | miss hf => exact absurd (hf _ rfl) hl
  | number hf =>
    cases h' with
    | skip hl _ => exact absurd (hf _ rfl) hl
    | number => rfl
  | hit hf hn =>
    cases h' with
    | skip hl _ => exact absurd (hf _ rfl) hl
    | hit _ hn' => obtain ⟨e1, e2⟩ := hn.fun hn'; rw [e1, e2]
    | miss _ hno _ => exact absurd hn (hno _ _)
  | miss hf hno _ ih =>
    cases h' with
    | skip hl _ => exact absurd (hf _ rfl) hl
    | hit _ hn' => exact absurd hn' (hno _ _)
    | miss _ _ h' => exact ih h'

theorem SEND_ok {h : Nat → Nat → Nat} {depth nosel : Nat} {d : D} (hsup : ∀ a b, d.super a = some b → b < a)
    {ctx obj cls sel : Nat} {slots : List (Option (List Nat) × Option (Nat × Nat))} (hc : CacheOK d ctx)
    (hd : cls < depth) (hds : ∀ f o c, (f, some (o, c)) ∈ slots → c < depth) :
    Answer d.super d.meths nosel obj cls sel slots (SEND h depth nosel d ctx obj cls sel slots).2 := by
  have hk := findmethod_ok (h := h) (depth := depth) (sel := sel) hsup hc hd
  have hs := findmethod_same h depth d ctx sel cls
  have hm := findmethod_meths h depth d ctx sel cls
  have hc' := findmethod_cacheOK (h := h) (depth := depth) (ctx' := ctx) (sel := sel) (cls := cls) hc
  unfold SEND
  generalize findmethod h depth d ctx sel cls = q at *
  obtain ⟨d', r⟩ := q
  simp only at hk hs hm hc'
  cases r with
  | some om => exact .own hk
  | none =>
    simp only [Found] at hk
    simp only
    have hf := findforward_ok (h := h) (depth := depth) (sel := sel) (ctx := ctx) hsup slots d' hs.1 hm hc' hds
    generalize findforward h depth sel ctx slots d' = q at *
    obtain ⟨d2, r⟩ := q
    obtain ⟨f1, f2, f3, f4⟩ := hf
    simp only at f1 f2 f3 f4
    have hk2 := findmethod_ok (h := h) (depth := depth) (sel := nosel) (cls := cls) (by rw [f2]; exact hsup) f4 hd
    cases r with
    | noMethodError =>
      simp only
      generalize findmethod h depth d2 ctx nosel cls = q at *
      obtain ⟨d3, r⟩ := q
      simp only at hk2
      cases r with
      | some om => simp only [Found, f2, f3] at hk2; exact .alt hk f1 hk2
      | none => simp only [Found, f2, f3] at hk2; exact .error hk f1 hk2
    | run => exact .fwd hk f1 (by simp)
    | nomethod => exact .fwd hk f1 (by simp)
    | noObjectError => exact .fwd hk f1 (by simp)
    | ub => exact .fwd hk f1 (by simp)

end Eus.Cls
