import Mathlib.Algebra.Group.Defs
set_option autoImplicit false
/-
lisp/l/coordinates.l: trees of cascaded-coords with cached world coordinates.

A coordinate system (the rotation matrix and the position vector of an object) is an element of a group: `transform-coords` is multiplication, `:inverse-transformation` the inverse (what this takes of rotations and vectors is in Verif/Crd/Rigid.lean).  The storage that holds it has an identity, as objects may share it.  Every object exists from the start, as `:init` without a parent leaves it; `:init` with a parent is followed by `:assoc`.  The argument `k` bounds the depth of recursion; none: deeper than that.
-/
namespace Eus.Crd

/-- Storage for a rotation and a position: made by the `:init` of an object, or later. -/
inductive Cell where
  | own (n : Nat)
  | later (n : Nat)
deriving DecidableEq

/-- coordinates.l:318-320: the slots of a cascaded-coords; `world` is what the slot worldcoords holds. -/
structure Node (G : Type) where
  cell : Cell
  parent : Option Nat
  desc : List Nat
  world : G
  changed : Bool

structure Heap (G : Type) where
  node : Nat → Node G
  val : Cell → G
  /-- number of cells made later -/
  next : Nat

section
variable {G : Type}

/-- rot and pos of an object -/
def Heap.loc (h : Heap G) (n : Nat) : G := h.val (h.node n).cell

def Heap.setNode (h : Heap G) (n : Nat) (x : Node G) : Heap G := { h with node := fun m => if m = n then x else h.node m }

/-- Storing into the rot and pos of an object. -/
def Heap.setLoc (h : Heap G) (n : Nat) (g : G) : Heap G := { h with val := fun c => if c = (h.node n).cell then g else h.val c }

/-- coordinates.l:545-556: objects after `:init`, each with its own storage. -/
def init (at_ : Nat → G) : Heap G :=
  ⟨fun n => ⟨.own n, none, [], at_ n, true⟩, fun c => match c with | .own n => at_ n | .later n => at_ n, 0⟩

/-- coordinates.l:364-367 `:changed` -/
def changedF : Nat → Heap G → Nat → Option (Heap G)
  | 0, _, _ => none
  | k + 1, h, n =>
    if (h.node n).changed then some h
    else (h.node n).desc.foldlM (changedF k) (h.setNode n { h.node n with changed := true })

/-- coordinates.l:360-363 `:newcoords`, with rot and pos of a coordinates that is used for nothing else: they become the ones of the object. -/
def newcoords (k : Nat) (h : Heap G) (n : Nat) (g : G) : Option (Heap G) :=
  let h := h.setNode n { h.node n with cell := .later h.next }
  changedF k { h with val := fun c => if c = .later h.next then g else h.val c, next := h.next + 1 } n

/-- coordinates.l:360-363 `:newcoords`, with another object. -/
def newcoordsOf (k : Nat) (h : Heap G) (n m : Nat) : Option (Heap G) :=
  changedF k (h.setNode n { h.node n with cell := (h.node m).cell }) n

/-- coordinates.l:65-70 `:replace-coords` and 245-251 `:4X4`: nothing is said about the change. -/
def replaceCoords (h : Heap G) (n : Nat) (g : G) : Heap G := h.setLoc n g

variable [Group G]

/-- coordinates.l:370-377 `:worldcoords` -/
def worldF : Nat → Heap G → Nat → Option (G × Heap G)
  | 0, _, _ => none
  | k + 1, h, n =>
    if (h.node n).changed then
      match (h.node n).parent with
      | some p => (worldF k h p).bind fun q =>
        some (q.1 * q.2.loc n, q.2.setNode n { q.2.node n with world := q.1 * q.2.loc n, changed := false })
      | none => some (h.loc n, h.setNode n { h.node n with world := h.loc n, changed := false })
    else some ((h.node n).world, h)

/-- coordinates.l:385-391 `:parentcoords` -/
def parentcoords (k : Nat) (h : Heap G) (n : Nat) : Option (G × Heap G) :=
  match (h.node n).parent with
  | some p => worldF k h p
  | none => some (1, h)

/-- coordinates.l:344-350 `:dissoc`, with `:disobey` of 357-359 -/
def dissoc (k : Nat) (h : Heap G) (p c : Nat) : Option (Heap G) :=
  if c ∈ (h.node p).desc then
    (worldF k h c).bind fun q =>
      let h := q.2.setNode p { q.2.node p with desc := (q.2.node p).desc.filter (· ≠ c) }
      let h := h.setNode c { h.node c with parent := if (h.node c).parent = some p then none else (h.node c).parent }
      newcoords k h c q.1
  else some h

/-- coordinates.l:354-356 `:obey` -/
def obey (k : Nat) (h : Heap G) (c mother : Nat) : Option (Heap G) :=
  (match (h.node c).parent with | some q => dissoc k h q c | none => some h).map fun (h : Heap G) =>
    h.setNode c { h.node c with parent := some mother }

/-- coordinates.l:334-343 `:assoc`; `at_` is the optional coordinates. -/
def assoc (k : Nat) (h : Heap G) (p c : Nat) (at_ : Option G) : Option (Heap G) :=
  if c ∈ (h.node p).desc then some h
  else
    (match at_ with
      | some g => some (g, h)
      | none => (worldF k h p).bind fun q => (worldF k q.2 c).map fun (r : G × Heap G) => (q.1⁻¹ * r.1, r.2)).bind fun (q : G × Heap G) =>
    (obey k q.2 c p).bind fun h =>
    (newcoords k h c q.1).map fun (h : Heap G) => h.setNode p { h.node p with desc := c :: (h.node p).desc }

/-- The argument wrt: `:local`, `:parent`, `:world`, a cascaded-coords, other coordinates. -/
inductive Wrt (G : Type) where
  | local | parent | world
  | node (m : Nat)
  | plain (x : G)

/-- `(eq wrt self)` and `(eq wrt parent)` -/
def Wrt.resolve (w : Wrt G) (h : Heap G) (n : Nat) : Wrt G :=
  match w with
  | .node m => if m = n then .local else if (h.node n).parent = some m then .parent else .node m
  | w => w

/-- coordinates.l:421-440 `:transform` -/
def transform (k : Nat) (h : Heap G) (n : Nat) (g : G) (w : Wrt G) : Option (Heap G) :=
  match w.resolve h n with
  | .local => changedF k (h.setLoc n (h.loc n * g)) n
  | .parent => changedF k (h.setLoc n (g * h.loc n)) n
  | .world => (parentcoords k h n).bind fun pc =>
      let h := pc.2.setLoc n (pc.1 * pc.2.loc n)
      let h := h.setLoc n (g * h.loc n)
      let h := h.setLoc n (pc.1⁻¹ * h.loc n)
      changedF k h n
  | .node m => (parentcoords k h n).bind fun pc =>
      (worldF k (pc.2.setLoc n (pc.1 * pc.2.loc n)) m).bind fun q =>
      let h := q.2.setLoc n (q.1⁻¹ * q.2.loc n)
      (worldF k (h.setLoc n (g * h.loc n)) m).bind fun q =>
      let h := q.2.setLoc n (q.1 * q.2.loc n)
      changedF k (h.setLoc n (pc.1⁻¹ * h.loc n)) n
  | .plain x => (parentcoords k h n).bind fun pc =>
      let h := pc.2.setLoc n (pc.1 * pc.2.loc n)
      let h := h.setLoc n (x⁻¹ * h.loc n)
      let h := h.setLoc n (g * h.loc n)
      let h := h.setLoc n (x * h.loc n)
      changedF k (h.setLoc n (pc.1⁻¹ * h.loc n)) n

/-- coordinates.l:441-457 `:move-to` -/
def moveTo (k : Nat) (h : Heap G) (n : Nat) (g : G) (w : Wrt G) : Option (Heap G) :=
  match w.resolve h n with
  | .local => newcoords k h n (h.loc n * g)
  | .parent => newcoords k h n g
  | .world => (parentcoords k h n).bind fun pc => newcoords k pc.2 n (pc.1⁻¹ * g)
  | .node m => (worldF k h m).bind fun q => (parentcoords k q.2 n).bind fun pc => newcoords k pc.2 n (pc.1⁻¹ * (q.1 * g))
  | .plain x => (parentcoords k h n).bind fun pc => newcoords k pc.2 n (pc.1⁻¹ * (x * g))

/-- coordinates.l:400-420 `:transformation` -/
def transformation (k : Nat) (h : Heap G) (n m : Nat) (w : Wrt G) : Option (G × Heap G) :=
  (worldF k h m).bind fun w2 => (worldF k w2.2 n).bind fun w1 =>
  match w.resolve w1.2 n with
  | .local => some (w1.1⁻¹ * w2.1, w1.2)
  | .parent => some (w1.2.loc n * (w1.1⁻¹ * (w2.1 * (w1.2.loc n)⁻¹)), w1.2)
  | .world => some (w2.1 * w1.1⁻¹, w1.2)
  | .node x => (worldF k w1.2 x).map fun xw => (xw.1⁻¹ * (w2.1 * (w1.1⁻¹ * xw.1)), xw.2)
  | .plain x => some (x⁻¹ * (w2.1 * (w1.1⁻¹ * x)), w1.2)

/-- What programs do with cascaded-coords. -/
inductive Op (G : Type) where
  | world (n : Nat)
  | assoc (p c : Nat) (at_ : Option G)
  | dissoc (p c : Nat)
  | transform (n : Nat) (g : G) (w : Wrt G)
  | moveTo (n : Nat) (g : G) (w : Wrt G)
  | transformation (n m : Nat) (w : Wrt G)

/-- The new state, and the coordinates returned by `:worldcoords` and `:transformation`. -/
def step (k : Nat) (h : Heap G) : Op G → Option (Option G × Heap G)
  | .world n => (worldF k h n).map fun q => (some q.1, q.2)
  | .assoc p c at_ => (assoc k h p c at_).map fun h => (none, h)
  | .dissoc p c => (dissoc k h p c).map fun h => (none, h)
  | .transform n g w => (transform k h n g w).map fun h => (none, h)
  | .moveTo n g w => (moveTo k h n g w).map fun h => (none, h)
  | .transformation n m w => (transformation k h n m w).map fun q => (some q.1, q.2)

/-- A program: the values returned, and the last state. -/
def run (k : Nat) (h : Heap G) : List (Op G) → Option (List (Option G) × Heap G)
  | [] => some ([], h)
  | op :: ops => (step k h op).bind fun q => (run k q.2 ops).map fun r => (q.1 :: r.1, r.2)

end
end Eus.Crd
