import Verif.Mat.Model
set_option autoImplicit false
/-
What the results of the matrix functions should be.
-/
namespace Eus.Mat

/-- f 0 + f 1 + ... + f (n-1), added from the left to zero, with whatever addition. -/
def sumFrom {K : Type} (add : K → K → K) (zero : K) (n : Nat) (f : Nat → K) : K := ((List.range n).map f).foldl add zero

/-- The element of a matrix in row i, column j. -/
def Mtx.at {K : Type} (m : Mtx) (S : Store K) (i j : Nat) : K := S m.ent (i * m.cols + j)

/-- `S'` is `S` with r holding the given elements, and everything else unchanged. -/
def Mtx.becomes {K : Type} (r : Mtx) (S S' : Store K) (f : Nat → Nat → K) : Prop :=
  (∀ i j, i < r.rows → j < r.cols → r.at S' i j = f i j) ∧ ∀ v, v ≠ r.ent → S' v = S v

/-- The same for a vector; the elements beyond its size are unchanged too. -/
def Vec.becomes {K : Type} (r : Vec) (S S' : Store K) (f : Nat → K) : Prop :=
  ∀ v i, S' v i = if v = r.ent ∧ i < r.size then f i else S v i

/-- Matrix times vector in a field. -/
def mulVec {K : Type} [Field K] (s : Nat) (m : Nat → Nat → K) (x : Nat → K) : Nat → K := fun i =>
  sumFrom (· + ·) 0 s fun j => m i j * x j

/-- Matrix times matrix in a field. -/
def mulMat {K : Type} [Field K] (s : Nat) (a b : Nat → Nat → K) : Nat → Nat → K := fun i k =>
  sumFrom (· + ·) 0 s fun j => a i j * b j k

end Eus.Mat
