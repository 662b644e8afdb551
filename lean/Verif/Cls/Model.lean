import Mathlib.Logic.Function.Basic
set_option autoImplicit false
/-
Classes: numbering (lisp/c/makes.c, lisp/c/leo.c) and message dispatch with the method cache (lisp/c/leo.c).

Classes, selectors, methods and contexts are natural numbers (their identities; classes in the order of their
creation).
-/
namespace Eus.Cls

/-! ### class numbers -/

/-- eus.h:571-574 `struct class_desc`: class and highest number of a subclass. -/
structure Entry where
  cls : Nat
  subcix : Nat

/-- The class table `classtab[0..nextcix)`, the slots `super` and `cix` of the class objects, the number in the
header of every object, and the cached ranges of the built-in classes (makes.c:336-341). -/
structure St where
  nextcix : Nat
  tab : Nat → Entry
  super : Nat → Option Nat
  cix : Nat → Nat
  objs : List Nat
  builtin : List Nat
  bcp : Nat → Nat × Nat

/-- eus.h:146. -/
def MAXCLASS : Nat := 4096

/-- makes.c:304-310 `bumpcix`; the first argument bounds the recursion (the depth of the class tree). -/
def bumpcix : Nat → St → Nat → Nat → St
  | 0, s, _, _ => s
  | fuel + 1, s, m, n =>
    if (s.tab m).subcix < n then
      let s := { s with tab := Function.update s.tab m ⟨(s.tab m).cls, n⟩ }
      match s.super (s.tab m).cls with
      | some sup => bumpcix fuel s (s.cix sup) n
      | none => s
    else s

/-- makes.c:353-358, the loop of `enterclass`: `i` runs from `newcix + c - 1` down to `newcix`. -/
def shiftLoop (newcix : Nat) : Nat → St → St
  | 0, s => s
  | c + 1, s =>
    let i := newcix + c
    let s := bumpcix (s.nextcix + 1) s i (i + 1)
    let e := s.tab i
    shiftLoop newcix c { s with tab := Function.update s.tab (i + 1) e,
                                cix := Function.update s.cix e.cls (s.cix e.cls + 1) }

/-- makes.c:312-334 `recixobj`: the numbers in the headers of all objects. -/
def recixobj (newcix : Nat) (objs : List Nat) : List Nat := objs.map fun c => if c ≥ newcix then c + 1 else c

/-- makes.c:336-341 `resetcix`, for all built-in classes (363-364). -/
def resetcix (s : St) : St :=
  { s with bcp := fun c => if c ∈ s.builtin then (s.cix c, (s.tab (s.cix c)).subcix) else s.bcp c }

/-- makes.c:343-374 `enterclass` of a new class (number `nextcix` in order of creation) with the given
superclass; `none`: E_CLASSOVER. -/
def enterclass (s : St) (super : Option Nat) : Option St :=
  if s.nextcix ≥ MAXCLASS then none
  else
    let cls := s.nextcix
    let (s, newcix) :=
      match super with
      | some sup =>
        let supercix := s.cix sup
        let newcix := (s.tab supercix).subcix + 1
        let s := shiftLoop newcix (s.nextcix - newcix) s
        let s := bumpcix (s.nextcix + 1) s supercix newcix
        let s := if newcix < s.nextcix then { s with objs := recixobj newcix s.objs } else s
        (resetcix s, newcix)
      | none => (s, s.nextcix)
    some { s with cix := Function.update s.cix cls newcix,
                  tab := Function.update s.tab newcix ⟨cls, newcix⟩,
                  super := Function.update s.super cls super,
                  nextcix := s.nextcix + 1 }

/-- eus.c:405-460 `basicclass`: a built-in class, whose range is cached. -/
def basicclass (s : St) (super : Option Nat) : Option St :=
  let cls := s.nextcix
  (enterclass s super).map fun s =>
    { s with builtin := cls :: s.builtin,
             bcp := Function.update s.bcp cls (s.cix cls, (s.tab (s.cix cls)).subcix) }

/-- makes.c:406-413 `makeobject`: an instance of class `c`. -/
def makeobject (s : St) (c : Nat) : St := { s with objs := s.objs ++ [s.cix c] }

/-- common.l:776-790 `make-class` of a class that exists: the superclass is changed, the number is not. -/
def redefine (s : St) (c : Nat) (super : Option Nat) : St := { s with super := Function.update s.super c super }

/-- leo.c:40-50 `SUBCLASSP`. -/
def SUBCLASSP (s : St) (k c : Nat) : Bool :=
  decide (s.cix k ≥ s.cix c ∧ s.cix k ≤ (s.tab (s.cix c)).subcix)

/-- leo.c:64-68 `DERIVEDP` of the object number `o`. -/
def DERIVEDP (s : St) (o c : Nat) : Bool :=
  match s.objs[o]? with
  | some k => decide (k ≥ s.cix c ∧ k ≤ (s.tab (s.cix c)).subcix)
  | none => false

/-- eus.h:731 `classof`. -/
def classof (s : St) (o : Nat) : Option Nat := (s.objs[o]?).map fun k => (s.tab k).cls

/-- eus.h:851-880: the type predicates of built-in classes use the cached ranges. -/
def pis (s : St) (o c : Nat) : Bool :=
  match s.objs[o]? with
  | some k => decide ((s.bcp c).1 ≤ k ∧ k ≤ (s.bcp c).2)
  | none => false

/-- The state before any class is made (eus.c:700). -/
def St.init : St := ⟨0, fun _ => ⟨0, 0⟩, fun _ => none, fun _ => 0, [], [], fun _ => (0, 0)⟩

/-- Class definition, built-in (eus.c:405) or not (makes.c:376), and making an instance (makes.c:406). -/
inductive Op where
  | defclass (builtin : Bool) (super : Option Nat)
  | instantiate (c : Nat)

/-- One operation (makes.c:343, 406); an unknown class is an error, which leaves the state as it is. -/
def step (s : St) : Op → St
  | .defclass b super =>
    if (super.all fun c => decide (c < s.nextcix)) then
      ((if b then basicclass s super else enterclass s super).getD s)
    else s
  | .instantiate c => if c < s.nextcix then makeobject s c else s

/-! ### message dispatch -/

/-- eus.h:522-524 `struct methdef`; selector `none` is NULL or NIL. -/
structure MethDef where
  sel : Option Nat
  cls : Nat
  owner : Nat
  meth : Nat
deriving DecidableEq

/-- Classes with superclass and methods (a list of selector and method), and the cache of every context. -/
structure D where
  super : Nat → Option Nat
  methods : Nat → List (Nat × Nat)
  cache : Nat → Nat → MethDef
  trycache : Bool

/-- leo.c:219-229: look in one class. -/
def findIn (sel : Nat) : List (Nat × Nat) → Option Nat
  | [] => none
  | (s, m) :: l => if s = sel then some m else findIn sel l

/-- leo.c:217-231: the search loop of `findmethod`: owner class and method.  The first argument bounds the depth. -/
def search (super : Nat → Option Nat) (methods : Nat → List (Nat × Nat)) (sel : Nat) :
    Nat → Option Nat → Option (Nat × Nat)
  | 0, _ => none
  | _, none => none
  | fuel + 1, some c =>
    match findIn sel (methods c) with
    | some m => some (c, m)
    | none => search super methods sel fuel (super c)

/-- leo.c:203-232 `findmethod` of selector `sel` (not NIL) by context `ctx`; `h` is the hash function (line 211),
`depth` a bound on the number of classes.  Result: owner and method. -/
def findmethod (h : Nat → Nat → Nat) (depth : Nat) (d : D) (ctx sel cls : Nat) : D × Option (Nat × Nat) :=
  let mt := d.cache ctx (h sel cls)
  if d.trycache ∧ mt.sel = some sel ∧ mt.cls = cls then (d, some (mt.owner, mt.meth))
  else
    match search d.super d.methods sel depth (some cls) with
    | some (o, m) =>
      (if d.trycache then
        { d with cache := Function.update d.cache ctx (Function.update (d.cache ctx) (h sel cls) ⟨some sel, cls, o, m⟩) }
       else d, some (o, m))
    | none => (d, none)

/-- leo.c:210-229 without the stores into the cache: what a thread that runs `findmethod` finds before it stores. -/
def findLookup (h : Nat → Nat → Nat) (depth : Nat) (d : D) (ctx sel cls : Nat) : Option (Nat × Nat) :=
  (findmethod h depth d ctx sel cls).2

/-- leo.c:223-226: the stores into the cache, which other threads may delay (there is no lock). -/
def findStore (h : Nat → Nat → Nat) (d : D) (ctx sel cls : Nat) (r : Nat × Nat) : D :=
  { d with cache := Function.update d.cache ctx (Function.update (d.cache ctx) (h sel cls) ⟨some sel, cls, r.1, r.2⟩) }

/-- leo.c:110-120: replace the method of this selector or append. -/
def putMethod (sel m : Nat) : List (Nat × Nat) → List (Nat × Nat)
  | [] => [(sel, m)]
  | p :: l => if p.1 = sel then (sel, m) :: l else p :: putMethod sel m l

/-- leo.c:122-131: clear the selector in the caches of all contexts. -/
def purge (sel : Nat) (e : MethDef) : MethDef := if e.sel = some sel then { e with sel := none } else e

/-- leo.c:90-132 `addmethod` (`defmethod`). -/
def addmethod (d : D) (cls sel m : Nat) : D :=
  { d with methods := Function.update d.methods cls (putMethod sel m (d.methods cls)),
           cache := fun ctx i => purge sel (d.cache ctx i) }

/-- leo.c:433-445 `METHCACHE` with an argument: clears the cache of the calling context only. -/
def methodCache (d : D) (ctx : Nat) (on : Bool) : D :=
  { d with trycache := on,
           cache := Function.update d.cache ctx fun i => { d.cache ctx i with sel := none, cls := 0 } }

/-- common.l:720-723 `delete-method` by context `ctx`. -/
def deleteMethod (d : D) (ctx cls sel : Nat) : D :=
  methodCache { d with methods := Function.update d.methods cls ((d.methods cls).filter fun p => p.1 ≠ sel) } ctx true

/-- Calls that use or change methods (leo.c:90, 203, 433, common.l:720). -/
inductive DOp where
  | find (ctx sel cls : Nat)
  | add (cls sel m : Nat)
  | cacheOn (ctx : Nat) (on : Bool)
  | delete (ctx cls sel : Nat)

/-- One call (leo.c:90, 203, 433, common.l:720). -/
def dstep (h : Nat → Nat → Nat) (depth : Nat) (d : D) : DOp → D
  | .find ctx sel cls => (findmethod h depth d ctx sel cls).1
  | .add cls sel m => addmethod d cls sel m
  | .cacheOn ctx on => methodCache d ctx on
  | .delete ctx cls sel => deleteMethod d ctx cls sel

/-- makes.c:897-900: caches are empty at first. -/
def D.init (super : Nat → Option Nat) (methods : Nat → List (Nat × Nat)) : D :=
  ⟨super, methods, fun _ _ => ⟨none, 0, 0, 0⟩, true⟩

/-- What `SEND` does (leo.c:250-312): run a method with its owner class on a receiver, or E_NOMETHOD, or an error
because a component to forward to is a number, or undefined behaviour. -/
inductive Sent where
  | run (receiver owner meth : Nat)
  | nomethod (receiver owner meth : Nat)
  | noMethodError
  | noObjectError
  | ub
deriving DecidableEq

/-- leo.c:234-248 `findforward`: the slots of the receiver in order, each with the selectors forwarded (`none`: T,
all) and its value (`none`: a number; else object and class). -/
def findforward (h : Nat → Nat → Nat) (depth : Nat) (sel ctx : Nat) :
    List (Option (List Nat) × Option (Nat × Nat)) → D → D × Sent
  | [], d => (d, .noMethodError)
  | (fl, v) :: slots, d =>
    if fl.all (fun l => l.contains sel) then
      match v with
      | none => (d, .noObjectError)
      | some (obj, cls) =>
        match findmethod h depth d ctx sel cls with
        | (d, some (o, m)) => (d, .run obj o m)
        | (d, none) => findforward h depth sel ctx slots d
    else findforward h depth sel ctx slots d

/-- leo.c:250-288 `SEND` up to the call of the method; `nomethodSel` is the selector :nomethod. -/
def SEND (h : Nat → Nat → Nat) (depth nomethodSel : Nat) (d : D) (ctx obj cls sel : Nat)
    (slots : List (Option (List Nat) × Option (Nat × Nat))) : D × Sent :=
  match findmethod h depth d ctx sel cls with
  | (d, some (o, m)) => (d, .run obj o m)
  | (d, none) =>
    match findforward h depth sel ctx slots d with
    | (d, .noMethodError) =>
      match findmethod h depth d ctx nomethodSel cls with
      | (d, some (o, m)) => (d, .nomethod obj o m)
      | (d, none) => (d, .noMethodError)
    | r => r

/-- leo.c:314-340 `SEND_IF_FOUND` up to the call of the method: `findforward` is called with a null pointer for the
owner class, which is written to when it finds a method.  `none`: the default is returned. -/
def SEND_IF_FOUND (h : Nat → Nat → Nat) (depth : Nat) (d : D) (ctx obj cls sel : Nat)
    (slots : List (Option (List Nat) × Option (Nat × Nat))) : D × Option Sent :=
  match findmethod h depth d ctx sel cls with
  | (d, some (o, m)) => (d, some (.run obj o m))
  | (d, none) =>
    match findforward h depth sel ctx slots d with
    | (d, .noMethodError) => (d, none)
    | (d, .run _ _ _) => (d, some .ub)
    | (d, r) => (d, some r)

end Eus.Cls
