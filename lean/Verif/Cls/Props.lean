import Verif.Cls.Proofs
import Verif.Cls.Dispatch
set_option autoImplicit false
set_option maxRecDepth 4000
/-! Properties C28 and C29. -/
namespace Eus.Cls

/-! ### C28 -/

/-- The state after a sequence of operations (class definitions and instantiations). -/
abbrev runOps (ops : List Op) : St := ops.foldl step St.init
/-- The history after the same sequence. -/
abbrev histOps (ops : List Op) : Hist := ops.foldl hstep ⟨[], [], []⟩

/-- C28 (new classes; redefinitions are in `C28_redefine_wrong`): after any sequence of definitions of new classes,
`(subclassp a b)` holds exactly when `b` is `a` or one of its superclasses. -/
theorem C28_subclassp_partial (ops : List Op) (a b : Nat) (ha : a < (histOps ops).supers.length)
    (hb : b < (histOps ops).supers.length) :
    SUBCLASSP (runOps ops) a b = true ↔ Desc (histOps ops).superOf a b := by
  have h := agree_run ops
  have hd := h.inv.desc a b (by rw [h.n]; exact ha) (by rw [h.n]; exact hb)
  rw [show (ops.foldl step St.init).super = (histOps ops).superOf from funext h.sup] at hd
  rw [hd]
  simp [SUBCLASSP, sub]

/-- C28: every instance keeps its class through all later renumberings, and `(derivedp obj b)` holds exactly when `b`
is its class or one of the superclasses. -/
theorem C28_derivedp_partial (ops : List Op) (o k b : Nat) (ho : (histOps ops).insts[o]? = some k)
    (hb : b < (histOps ops).supers.length) :
    classof (runOps ops) o = some k ∧
      (DERIVEDP (runOps ops) o b = true ↔ Desc (histOps ops).superOf k b) := by
  have h := agree_run ops
  have hk : k < (runOps ops).nextcix := h.obj.known k (List.mem_of_getElem? ho)
  have hobj : (runOps ops).objs[o]? = some ((runOps ops).cix k) := by
    rw [h.obj.objs, List.getElem?_map, ho]; rfl
  refine ⟨by simp only [classof, hobj, Option.map_some]; rw [h.inv.lnk.cls k hk], ?_⟩
  rw [← C28_subclassp_partial ops k b (by rw [← h.n]; exact hk) hb]
  simp [DERIVEDP, hobj, SUBCLASSP]

/-- C28: the type predicates of the built-in classes, which use cached ranges, agree. -/
theorem C28_builtin_predicate_partial (ops : List Op) (o k b : Nat) (ho : (histOps ops).insts[o]? = some k)
    (hb : b ∈ (histOps ops).builtins) :
    pis (runOps ops) o b = true ↔ Desc (histOps ops).superOf k b := by
  have h := agree_run ops
  obtain ⟨h1, h2⟩ := h.obj.bcp b (by rw [h.bi]; exact hb)
  rw [← (C28_derivedp_partial ops o k b ho (by rw [← h.n]; exact h1)).2]
  have hobj : (runOps ops).objs[o]? = some ((runOps ops).cix k) := by
    rw [h.obj.objs, List.getElem?_map, ho]; rfl
  simp only [pis, DERIVEDP, hobj, decide_eq_true_eq]
  change (runOps ops).bcp b = _ at h2
  rw [h2]; rfl

/-- object, a built-in subclass, two user classes below object, then one below the built-in: everything after it is
renumbered. -/
def sampleOps : List Op :=
  [.defclass true none, .defclass true (some 0), .defclass false (some 0), .instantiate 2, .defclass false (some 2),
    .instantiate 3, .defclass false (some 1), .instantiate 4]

example : (histOps sampleOps).supers = [none, some 0, some 0, some 2, some 1] ∧ (histOps sampleOps).insts = [2, 3, 4]
    ∧ (histOps sampleOps).builtins = [1, 0] := by decide
example : (runOps sampleOps).objs = [3, 4, 2] := by decide
example : SUBCLASSP (runOps sampleOps) 4 1 = true ∧ SUBCLASSP (runOps sampleOps) 3 1 = false ∧
    SUBCLASSP (runOps sampleOps) 3 2 = true := by decide

/-- C28 refuted for redefinition: defining a class again with another superclass does not renumber it, and
`subclassp` still answers by the old superclass. -/
theorem C28_redefine_wrong : ∃ (ops : List Op) (c p : Nat),
    let s := redefine (runOps ops) c (some p)
    s.super c = some p ∧ SUBCLASSP s c p = false :=
  ⟨[.defclass true none, .defclass false (some 0), .defclass false (some 0)], 2, 1, by decide⟩

/-! ### C29 -/

/-- The method map given to the classes at first. -/
def initMeths (methods : Nat → List (Nat × Nat)) : Meths := fun c s => findIn s (methods c)

/-- The state of dispatch after a history. -/
abbrev runD (h : Nat → Nat → Nat) (depth : Nat) (super : Nat → Option Nat) (methods : Nat → List (Nat × Nat))
    (ops : List DOp) : D := ops.foldl (dstep h depth) (D.init super methods)

/-- C29 (for a thread other than which none has used `delete-method`; see the `_wrong` theorems for the rest): after
any history of lookups by any threads, `defmethod`, `method-cache` and `delete-method`, and whatever hash collisions
there are, a lookup finds the method of the nearest class of the superclass chain that has one now, or nothing if
there is none. -/
theorem C29_lookup_partial (h : Nat → Nat → Nat) (depth : Nat) (super : Nat → Option Nat)
    (hsup : ∀ a b, super a = some b → b < a) (methods : Nat → List (Nat × Nat)) (ops : List DOp) (ctx sel cls : Nat)
    (hcls : cls < depth) (hdel : ∀ c k s, DOp.delete c k s ∈ ops → c = ctx) :
    match (findmethod h depth (runD h depth super methods ops) ctx sel cls).2 with
    | some (o, m) => Nearest super (ops.foldl mstep (initMeths methods)) sel cls o m
    | none => ∀ o m, ¬ Nearest super (ops.foldl mstep (initMeths methods)) sel cls o m := by
  obtain ⟨h1, h2, h3⟩ := run_ok h depth ctx ops (D.init super methods) (init_ok super methods ctx) hdel
  have := findmethod_ok (h := h) (depth := depth) (sel := sel) (by rw [h2]; exact hsup) h1 hcls
  simp only [Found, h2, h3] at this
  exact this

/-- C29: what a message does after any such history: the receiver's own nearest method; else the first component that
the class forwards the selector to and that has a method; else the receiver's method for :nomethod; else an error. -/
theorem C29_send_partial (h : Nat → Nat → Nat) (depth nomethodSel : Nat) (super : Nat → Option Nat)
    (hsup : ∀ a b, super a = some b → b < a) (methods : Nat → List (Nat × Nat)) (ops : List DOp)
    (ctx obj cls sel : Nat) (slots : List (Option (List Nat) × Option (Nat × Nat)))
    (hcls : cls < depth) (hslots : ∀ f o c, (f, some (o, c)) ∈ slots → c < depth)
    (hdel : ∀ c k s, DOp.delete c k s ∈ ops → c = ctx) :
    Answer super (ops.foldl mstep (initMeths methods)) nomethodSel obj cls sel slots
      (SEND h depth nomethodSel (runD h depth super methods ops) ctx obj cls sel slots).2 := by
  obtain ⟨h1, h2, h3⟩ := run_ok h depth ctx ops (D.init super methods) (init_ok super methods ctx) hdel
  have := SEND_ok (h := h) (depth := depth) (nosel := nomethodSel) (obj := obj) (sel := sel) (slots := slots)
    (by rw [h2]; exact hsup) h1 hcls hslots
  rw [h2, h3] at this
  exact this

/-- The answer is unique, so `C29_lookup_partial` determines the result of a lookup. -/
theorem C29_nearest_unique (super : Nat → Option Nat) (M : Meths) (sel c o m o' m' : Nat)
    (h1 : Nearest super M sel c o m) (h2 : Nearest super M sel c o' m') : o = o' ∧ m = m' := h1.fun h2

/-- Class 1 below class 0; all pairs collide in the cache. -/
example : ((findmethod (fun _ _ => 0) 2
      (runD (fun _ _ => 0) 2 (fun c => if c = 1 then some 0 else none) (fun _ => [])
        [.add 0 7 100, .find 0 7 1, .find 0 8 1, .find 1 7 1, .add 1 7 101]) 1 7 1).2 = some (1, 101)) ∧
    ((findmethod (fun _ _ => 0) 2
      (runD (fun _ _ => 0) 2 (fun c => if c = 1 then some 0 else none) (fun _ => [])
        [.add 0 7 100, .find 0 7 1, .add 1 7 101, .find 0 7 1, .delete 0 1 7]) 0 7 1).2 = some (0, 100)) := by decide

/-- A message that is forwarded to the second slot. -/
example : (SEND (fun a b => a + b) 3 9 (runD (fun a b => a + b) 3 (fun _ => none) (fun _ => []) [.add 2 7 100]) 0 50 0 7
    [(some [8], some (51, 1)), (none, some (52, 2))]).2 = .run 52 2 100 := by decide

/-- C29 refuted for two threads: `delete-method` clears the cache of the calling thread only; the other thread still
runs the deleted method. -/
theorem C29_delete_other_thread_wrong :
    (findmethod (fun a b => a + b) 1
      (runD (fun a b => a + b) 1 (fun _ => none) (fun _ => []) [.add 0 7 100, .find 1 7 0, .delete 0 0 7]) 1 7 0).2
      = some (0, 100) ∧
    ∀ o m, ¬ Nearest (fun _ => none) (([.add 0 7 100, .find 1 7 0, .delete 0 0 7] : List DOp).foldl mstep
      (initMeths fun _ => [])) 7 0 o m := by
  refine ⟨by decide, ?_⟩
  intro o m hn
  cases hn with
  | here h => simp [mstep] at h
  | up _ h _ => cases h

/-- C29 refuted for redefined classes: when a class gets another superclass, methods inherited from the old one and
found before stay in the cache. -/
theorem C29_redefine_wrong :
    let d := runD (fun a b => a + b) 3 (fun c => if c = 2 then some 0 else none) (fun _ => [])
      [.add 0 7 100, .add 1 7 101, .find 0 7 2]
    let d := { d with super := fun c => if c = 2 then some 1 else none }
    (findmethod (fun a b => a + b) 3 d 0 7 2).2 = some (0, 100) ∧
      Nearest d.super d.meths 7 2 1 101 := by
  refine ⟨by decide, ?_⟩
  exact .up (by decide) rfl (.here (by decide))

/-- C29 refuted for a concurrent `defmethod`: there is no lock, so a thread that has found the old method before the
definition can store it into its cache after the cache was purged, and runs the old method from then on. -/
theorem C29_race_wrong :
    let d := runD (fun a b => a + b) 1 (fun _ => none) (fun _ => []) [.add 0 7 100]
    ∃ r, findLookup (fun a b => a + b) 1 d 1 7 0 = some r ∧
      let d' := findStore (fun a b => a + b) (addmethod d 0 7 101) 1 7 0 r
      (findmethod (fun a b => a + b) 1 d' 1 7 0).2 = some (0, 100) ∧ Nearest d'.super d'.meths 7 0 0 101 :=
  ⟨(0, 100), by decide, by decide, .here (by decide)⟩

/-- C29 refuted for `send-if-found`: when the message is forwarded to a component, the owner class is written through a
null pointer. -/
theorem C29_send_if_found_wrong :
    (SEND_IF_FOUND (fun a b => a + b) 3 (runD (fun a b => a + b) 3 (fun _ => none) (fun _ => []) [.add 2 7 100]) 0 50 0 7
      [(none, some (52, 2))]).2 = some .ub := by decide

/-- C29: `send-if-found` does what `send` does when the receiver's class has a method, and returns its default when
neither the receiver nor any component has one. -/
theorem C29_send_if_found_partial (h : Nat → Nat → Nat) (depth : Nat) (super : Nat → Option Nat)
    (hsup : ∀ a b, super a = some b → b < a) (methods : Nat → List (Nat × Nat)) (ops : List DOp)
    (ctx obj cls sel : Nat) (slots : List (Option (List Nat) × Option (Nat × Nat)))
    (hcls : cls < depth) (hslots : ∀ f o c, (f, some (o, c)) ∈ slots → c < depth)
    (hdel : ∀ c k s, DOp.delete c k s ∈ ops → c = ctx) :
    let M := ops.foldl mstep (initMeths methods)
    let r := (SEND_IF_FOUND h depth (runD h depth super methods ops) ctx obj cls sel slots).2
    (∀ o m, Nearest super M sel cls o m → r = some (.run obj o m)) ∧
    ((∀ o m, ¬ Nearest super M sel cls o m) → Forward super M sel slots .noMethodError → r = none) := by
  intro M r
  obtain ⟨h1, h2, h3⟩ := run_ok h depth ctx ops (D.init super methods) (init_ok super methods ctx) hdel
  have hk := findmethod_ok (h := h) (depth := depth) (sel := sel) (by rw [h2]; exact hsup) h1 hcls
  have hs := findmethod_same h depth (runD h depth super methods ops) ctx sel cls
  have hm := findmethod_meths h depth (runD h depth super methods ops) ctx sel cls
  have hc' := findmethod_cacheOK (h := h) (depth := depth) (ctx' := ctx) (sel := sel) (cls := cls) h1
  simp only [Found, h2, h3] at hk
  rw [h2] at hs
  rw [h3] at hm
  simp only [r]
  unfold SEND_IF_FOUND
  simp only [runD] at *
  generalize findmethod h depth (ops.foldl (dstep h depth) (D.init super methods)) ctx sel cls = q at *
  obtain ⟨d', w⟩ := q
  simp only at hk hs hm hc'
  constructor
  · intro o m hn
    cases w with
    | some om => obtain ⟨e1, e2⟩ := hn.fun hk; subst e1; subst e2; rfl
    | none => exact absurd hn (hk o m)
  · intro hno hu
    cases w with
    | some om => exact absurd hk (hno _ _)
    | none =>
      simp only
      have hf := findforward_ok (h := h) (depth := depth) (sel := sel) (ctx := ctx) hsup slots d' hs.1 hm hc' hslots
      have := hf.1.fun hu
      generalize findforward h depth sel ctx slots d' = q at *
      obtain ⟨d2, r2⟩ := q
      simp only at this
      subst this; rfl

end Eus.Cls
