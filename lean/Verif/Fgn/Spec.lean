import Verif.Fgn.Model
set_option autoImplicit false
/-
What is said of C structures: numbers of a type, and the layout C prescribes.  Nothing of the layout functions and
of the access functions of the model is used.
-/
namespace Eus.Fgn

/-- The integers of a type: signed of 8, 4 and 2 bytes, bytes unsigned. -/
def InRange : Ty → Int → Prop
  | .long, v | .pointer, v => -2 ^ 63 ≤ v ∧ v < 2 ^ 63
  | .integer, v => -2 ^ 31 ≤ v ∧ v < 2 ^ 31
  | .short, v => -2 ^ 15 ≤ v ∧ v < 2 ^ 15
  | .char, v | .byte, v => 0 ≤ v ∧ v < 256
  | _, _ => False

/-- The number of values of an integer type. -/
def modulus : Ty → Int
  | .long | .pointer => 2 ^ 64
  | .integer => 2 ^ 32
  | .short => 2 ^ 16
  | _ => 256

/-- `m` is the least multiple of `a` from `e` on. -/
def NextMultiple (a e m : Nat) : Prop := a ∣ m ∧ e ≤ m ∧ ∀ k, a ∣ k → e ≤ k → m ≤ k

/-- The numbers a declaration asks for: name, type (of a pointer `:pointer`) and count. -/
def Decl.declared : Decl → List (String × Ty × Nat)
  | .prim n t false none => [(n, t, 1)]
  | .prim n t false (some k) => [(n, t, k)]
  | .prim n _ true none => [(n, .pointer, 1)]
  | .prim n _ true (some k) => [(n, .pointer, k)]
  | .sub n sl => sl.map fun x => (n ++ "." ++ x.name, x.ty, x.count)

/-- An index a slot has; no index is the first element. -/
def HasIndex (s : Slot) : Option Int → Prop
  | none => 0 < s.count
  | some i => 0 ≤ i ∧ i < s.count

/-- The element an index is for. -/
def element : Option Int → Int
  | none => 0
  | some i => i

/-! ### Structures in C -/

mutual
/-- A type of C: an array of `n` numbers (a number being an array of one), or a structure. -/
inductive CType where
  | prim (ty : Ty) (n : Nat)
  | struct (fs : CFields)
/-- The members of a structure. -/
inductive CFields where
  | nil
  | cons (name : String) (t : CType) (rest : CFields)
end

mutual
/-- The alignment: of a number its size, of a structure the largest of its members. -/
def CType.align : CType → Nat
  | .prim ty _ => byteSize ty
  | .struct fs => fs.align
def CFields.align : CFields → Nat
  | .nil => 1
  | .cons _ t rest => max t.align rest.align
end

/-- The least multiple of `a` from `e` on. -/
def nextMultiple (a e : Nat) : Nat := if e % a = 0 then e else e + (a - e % a)

mutual
/-- `sizeof`: a structure is filled up to a multiple of its alignment. -/
def CType.size : CType → Nat
  | .prim ty n => byteSize ty * n
  | .struct fs => nextMultiple fs.align (fs.finish 0)
/-- The end of the last member, the first one being placed at `e` or after it. -/
def CFields.finish (e : Nat) : CFields → Nat
  | .nil => e
  | .cons _ t rest => rest.finish (nextMultiple t.align e + t.size)
end

mutual
/-- The numbers in a value of the type at `base`: path, type, count and place. -/
def CType.places (base : Nat) (path : String) : CType → List (String × Ty × Nat × Nat)
  | .prim ty n => [(path, ty, n, base)]
  | .struct fs => fs.places base 0 (path ++ ".")
def CFields.places (base e : Nat) (pre : String) : CFields → List (String × Ty × Nat × Nat)
  | .nil => []
  | .cons name t rest =>
    t.places (base + nextMultiple t.align e) (pre ++ name) ++
      rest.places base (nextMultiple t.align e + t.size) pre
end

/-- What a program that includes the declaration sees. -/
def cPlaces (fs : CFields) : List (String × Ty × Nat × Nat) := fs.places 0 0 ""

/-! ### The declaration in Lisp -/

mutual
/-- `(name :type n)`, or `(name structname)` with the structure defined before. -/
def CType.decl (name : String) : CType → Decl
  | .prim ty n => .prim name ty false (some n)
  | .struct fs => .sub name (slotlist fs.decls).1
def CFields.decls : CFields → List Decl
  | .nil => []
  | .cons name t rest => t.decl name :: rest.decls
end

/-- The alignment of the first number of the type, 1 if there is none. -/
def CFields.first : CFields → Nat
  | .nil => 1
  | .cons _ (.prim ty _) _ => byteSize ty
  | .cons _ (.struct fs) _ => fs.first

mutual
/-- Every structure inside begins with a member of its alignment and needs no filling at its end. -/
def CType.Packed : CType → Prop
  | .prim _ _ => True
  | .struct fs => fs.Packed ∧ fs.first = fs.align ∧ fs.align ∣ fs.finish 0 ∧ fs ≠ .nil
def CFields.Packed : CFields → Prop
  | .nil => True
  | .cons _ t rest => t.Packed ∧ rest.Packed
end

end Eus.Fgn
