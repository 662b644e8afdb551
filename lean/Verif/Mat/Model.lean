import Mathlib.Algebra.Field.Defs
import Mathlib.Algebra.Order.Group.Abs
set_option autoImplicit false
/-
lisp/c/matrix.c and the functions of lisp/l/array.l:225-300 on matrices.

The first part takes the operations on floating point numbers as arbitrary functions, so what is proved there holds for any rounding.  The second part (LU decomposition) and the third (rotations) take numbers from a field, that is, without rounding.
-/
namespace Eus.Mat

/-- `for (i=0; i<n; i++) f` -/
def loop {σ : Type} : Nat → (Nat → σ → σ) → σ → σ
  | 0, _, s => s
  | n + 1, f, s => f n (loop n f s)

/-! ### Storage -/

/-- The contents of float vectors, by vector and index. -/
abbrev Store (K : Type) := Nat → Nat → K

def Store.set {K : Type} (S : Store K) (v i : Nat) (x : K) : Store K := fun v' i' => if v' = v ∧ i' = i then x else S v' i'

/-- A float vector: its identity and its size. -/
structure Vec where
  ent : Nat
  size : Nat
deriving DecidableEq

/-- A matrix: its identity, the float vector that is its entity, rows and columns.  (matrix.c ignores the displacement of an array.) -/
structure Mtx where
  id : Nat
  ent : Nat
  rows : Nat
  cols : Nat
deriving DecidableEq

section
variable {K : Type} (add sub mul : K → K → K) (zero : K)

/-- `x=0.0; for (k=0; k<n; k++) x += f` -/
def accum (n : Nat) (f : Nat → K) : K := loop n (fun k x => add x (f k)) zero

/-- matrix.c:28-68 `VPLUS` and matrix.c:92-154 `VMINUS` with two vectors, for float vectors: op is + or -; r is the result vector, given or new.  none: an error. -/
def vzip (op : K → K → K) (S : Store K) (a b r : Vec) : Option (Store K) :=
  if a.size = b.size ∧ r.size = a.size then
    some (loop a.size (fun i S => S.set r.ent i (op (S a.ent i) (S b.ent i))) S)
  else none

/-- matrix.c:440-474 `SCALEVEC` for float vectors -/
def scale (S : Store K) (k : K) (a r : Vec) : Option (Store K) :=
  if r.size = a.size then some (loop a.size (fun i S => S.set r.ent i (mul k (S a.ent i))) S) else none

/-- matrix.c:393-417 `VCROSSPRODUCT` -/
def vcross (S : Store K) (a b r : Vec) : Option (Store K) :=
  if a.size = 3 ∧ b.size = 3 ∧ r.size = 3 then
    let S := S.set r.ent 0 (sub (mul (S a.ent 1) (S b.ent 2)) (mul (S a.ent 2) (S b.ent 1)))
    let S := S.set r.ent 1 (sub (mul (S a.ent 2) (S b.ent 0)) (mul (S a.ent 0) (S b.ent 2)))
    let S := S.set r.ent 2 (sub (mul (S a.ent 0) (S b.ent 1)) (mul (S a.ent 1) (S b.ent 0)))
    some S
  else none

/-- matrix.c:757-807 `MATTIMES`; r is the result matrix, given or new.  The buffer `fv` is a function. -/
def mTimes (S : Store K) (a b r : Mtx) : Option (Store K) :=
  if a.cols = b.rows ∧ r.rows = a.rows ∧ r.cols = b.cols then
    if b.ent ≠ r.ent then
      some (loop a.rows (fun i S =>
        let fv := fun j => accum add zero a.cols (fun k => mul (S a.ent (i * a.cols + k)) (S b.ent (j + k * b.cols)))
        loop b.cols (fun j S => S.set r.ent (i * b.cols + j) (fv j)) S) S)
    else
      some (loop b.cols (fun i S =>
        let fv := fun j => accum add zero a.cols (fun k => mul (S a.ent (j * a.cols + k)) (S b.ent (i + k * b.cols)))
        loop a.rows (fun j S => S.set r.ent (i + j * b.cols) (fv j)) S) S)
  else none

/-- array.l:275-278 `m**`: `(m* m1 m2)` into the new matrix r, then `(m* mat m mat)` for the others. -/
def mTimesAll (S : Store K) (a b r : Mtx) (more : List Mtx) : Option (Store K) :=
  (mTimes add mul zero S a b r).bind fun S => more.foldlM (fun S m => mTimes add mul zero S r m r) S

/-- matrix.c:809-854 `TRANSFORM`, matrix and vector -/
def transformMV (S : Store K) (m : Mtx) (v r : Vec) : Option (Store K) :=
  if m.cols = v.size ∧ r.size = m.rows then
    let fv := fun i => accum add zero m.cols (fun j => mul (S m.ent (i * m.cols + j)) (S v.ent j))
    some (loop m.rows (fun i S => S.set r.ent i (fv i)) S)
  else none

/-- matrix.c:809-854 `TRANSFORM`, vector and matrix -/
def transformVM (S : Store K) (v : Vec) (m : Mtx) (r : Vec) : Option (Store K) :=
  if m.rows = v.size ∧ r.size = m.cols then
    let fv := fun i => accum add zero m.rows (fun j => mul (S m.ent (i + j * m.cols)) (S v.ent j))
    some (loop m.cols (fun i S => S.set r.ent i (fv i)) S)
  else none

/-- matrix.c:1126-1155 `TRANSPOSE` -/
def transpose (S : Store K) (m r : Mtx) : Option (Store K) :=
  if r.rows = m.cols ∧ r.cols = m.rows then
    if r.id = m.id then
      some (loop m.rows (fun i S => loop (i + 1) (fun j S =>
        let x := S m.ent (j * m.cols + i)
        let S := S.set r.ent (j * m.cols + i) (S m.ent (m.cols * i + j))
        S.set r.ent (m.cols * i + j) x) S) S)
    else
      some (loop m.rows (fun i S => loop m.cols (fun j S => S.set r.ent (j * m.rows + i) (S m.ent (i * m.cols + j))) S) S)
  else none

end

/-! ### Comparison; integer vectors -/

section Cmp
variable {K : Type} [LinearOrder K]

/-- matrix.c:563-583 `VLESSP`, of vectors of n elements none of which is a NaN: NIL at the first a[i]>b[i]. -/
def vless (n : Nat) (a b : Nat → K) : Bool := (List.range n).all fun i => ! decide (a i > b i)

/-- matrix.c:585-606 `VGREATERP` -/
def vgreater (n : Nat) (a b : Nat → K) : Bool := (List.range n).all fun i => ! decide (a i < b i)

/-- matrix.c:654-687 `VMIN`: the first vector, and the others. -/
def vmin (v : Nat → K) (more : List (Nat → K)) : Nat → K := more.foldl (fun r v j => if v j < r j then v j else r j) v

/-- matrix.c:689-722 `VMAX` -/
def vmax (v : Nat → K) (more : List (Nat → K)) : Nat → K := more.foldl (fun r v j => if v j > r j then v j else r j) v

/-- matrix.c:608-640 `MINIMALBOX`, the loop: vmin and vmax are different vectors. -/
def minimalBox (v : Nat → K) (more : List (Nat → K)) : (Nat → K) × (Nat → K) :=
  more.foldl (fun q f =>
    (fun j => if f j < q.1 j then f j else q.1 j,
     fun j => if f j < q.1 j then q.2 j else if f j > q.2 j then f j else q.2 j)) (v, v)

end Cmp

/-- matrix.c:219-241 `VINNERPRODUCT` for integer vectors: the sum is a long. -/
def iInner (n : Nat) (a b : Nat → BitVec 64) : BitVec 64 := loop n (fun i sum => sum + a i * b i) 0

/-- matrix.c:197-205 `VMINUS_ABS` for integer vectors, an element: `ix` is an int. -/
def iMinusAbs (a b : BitVec 64) : BitVec 64 :=
  let ix : BitVec 32 := (a - b).setWidth 32
  (if ix.slt 0 then -ix else ix).signExtend 64

/-! ### LU decomposition

The matrix is a function of row and column (the code uses `a[p*s+k]`); numbers are from an ordered field. -/

section Lu
variable {K : Type} [Field K] [LinearOrder K]

/-- `a[i*s+j]=x` -/
def upd (a : Nat → Nat → K) (i j : Nat) (x : K) : Nat → Nat → K := fun i' j' => if i' = i ∧ j' = j then x else a i' j'

/-- matrix.c:1244-1247: the row of the largest element below the diagonal, and its size; n rows behind k have been looked at. -/
def pivot (a : Nat → Nat → K) (p : Nat → Nat) (k : Nat) (n : Nat) : Nat × K :=
  loop n (fun d q => if q.2 < |a (p (k + 1 + d)) k| then (k + 1 + d, |a (p (k + 1 + d)) k|) else q) (k, |a (p k) k|)

/-- matrix.c:1248-1250 -/
def swapP (p : Nat → Nat) (k l : Nat) : Nat → Nat := fun i => if i = l then p k else if i = k then p l else p i

/-- matrix.c:1253-1257 -/
def eliminate (s : Nat) (a : Nat → Nat → K) (p : Nat → Nat) (k : Nat) : Nat → Nat → K :=
  let a := upd a (p k) k (1 / a (p k) k)
  loop (s - (k + 1)) (fun d a =>
    let i := k + 1 + d
    let al := a (p i) k * a (p k) k
    let a := upd a (p i) k al
    loop (s - (k + 1)) (fun e a => upd a (p i) (k + 1 + e) (a (p i) (k + 1 + e) - al * a (p k) (k + 1 + e))) a) a

/-- matrix.c:1234-1260 `decompose`: n turns of the loop over k; none: -1, singular.  eps is `EPS`. -/
def decompose (eps : K) (s : Nat) (a : Nat → Nat → K) : Nat → Option ((Nat → Nat → K) × (Nat → Nat))
  | 0 => some (a, fun i => i)
  | k + 1 =>
    (decompose eps s a k).bind fun q =>
      let l := pivot q.1 q.2 k (s - (k + 1))
      let p := swapP q.2 k l.1
      if l.2 < eps then none else some (eliminate s q.1 p k, p)

/-- matrix.c:1295-1299: forward substitution, into x.  The given vector and the result may be the same one (`same`). -/
def forward (same : Bool) (a : Nat → Nat → K) (p : Nat → Nat) (s : Nat) (b x : Nat → K) : Nat → K :=
  loop s (fun i x =>
    let t := loop i (fun j t => t - a (p i) j * x j) (if same then x (p i) else b (p i))
    fun i' => if i' = i then t else x i') x

/-- matrix.c:1301-1304: backward substitution; d counts from the last row. -/
def backward (a : Nat → Nat → K) (p : Nat → Nat) (s : Nat) (x : Nat → K) : Nat → K :=
  loop s (fun d x =>
    let i := s - 1 - d
    let t := loop d (fun e t => t - a (p i) (i + 1 + e) * x (i + 1 + e)) (x i)
    fun i' => if i' = i then t * a (p i) i else x i') x

/-- matrix.c:1288-1305 `solve` -/
def solve (same : Bool) (a : Nat → Nat → K) (p : Nat → Nat) (s : Nat) (b x : Nat → K) : Nat → K :=
  backward a p s (forward same a p s b x)

/-- matrix.c:1330-1345 `LU_DETERMINANT` -/
def luDeterminant (a : Nat → Nat → K) (p : Nat → Nat) (s : Nat) : K :=
  1 / loop s (fun i v => v * a (p i) i) 1

/-- array.l:280-283 `simultaneous-equation`; none: an error, because lu-solve is given NIL. -/
def simultaneousEquation (eps : K) (s : Nat) (m : Nat → Nat → K) (v : Nat → K) : Option (Nat → K) :=
  (decompose eps s m s).map fun q => solve false q.1 q.2 s v (fun _ => 0)

/-- array.l:285-300 `inverse-matrix`; none: the symbol `degenerated`. -/
def inverseMatrix (eps : K) (s : Nat) (m : Nat → Nat → K) : Option (Nat → Nat → K) :=
  (decompose eps s m s).map fun q =>
    loop s (fun i r =>
      let rvec := solve false q.1 q.2 s (fun k => if k = i then 1 else 0) (fun _ => 0)
      loop s (fun j r => upd r j i (rvec j)) r) (fun _ _ => 0)

end Lu

/-! ### Rotations

c and s are the cosine and sine of the angle. -/

section Rot
variable {K : Type} [Field K]

inductive Axis where
  | x | y | z | mx | my | mz
deriving DecidableEq

/-- matrix.c:938-961: k1, k2 and the coefficients s1, s2. -/
def Axis.coef (ax : Axis) (worldp : Bool) (s : K) : Nat × Nat × K × K :=
  match ax with
  | .x => if worldp then (1, 2, -s, s) else (1, 2, s, -s)
  | .mx => if worldp then (1, 2, s, -s) else (1, 2, -s, s)
  | .y => if worldp then (0, 2, s, -s) else (0, 2, -s, s)
  | .my => if worldp then (0, 2, -s, s) else (0, 2, s, -s)
  | .z => if worldp then (0, 1, -s, s) else (0, 1, s, -s)
  | .mz => if worldp then (0, 1, s, -s) else (0, 1, -s, s)

/-- matrix.c:914-986 `ROTMAT` for 3 by 3 matrices and an axis: m is copied to the result first, if it is another matrix. -/
def rotateMatrix (m : Nat → Nat → K) (c s : K) (ax : Axis) (worldp : Bool) : Nat → Nat → K :=
  let q := ax.coef worldp s
  loop 3 (fun i m =>
    if worldp then
      let f1 := m q.1 i * c + m q.2.1 i * q.2.2.1
      let f2 := m q.1 i * q.2.2.2 + m q.2.1 i * c
      upd (upd m q.1 i f1) q.2.1 i f2
    else
      let f1 := m i q.1 * c + m i q.2.1 * q.2.2.1
      let f2 := m i q.1 * q.2.2.2 + m i q.2.1 * c
      upd (upd m i q.1 f1) i q.2.1 f2) m

/-- matrix.c:967-973: the case of no axis, for 2 by 2 matrices.  worldp is not looked at. -/
def rotateMatrix2 (m : Nat → Nat → K) (c s : K) (_worldp : Bool) : Nat → Nat → K := fun i j =>
  if i = 0 then c * m 0 j - s * m 1 j else s * m 0 j + c * m 1 j

/-- matrix.c:864-900 `ROTVEC` for vectors of 3; the axes -x, -y, -z are errors. -/
def rotateVector (v : Nat → K) (c s : K) (ax : Axis) : Option (Nat → K) :=
  match ax with
  | .x => some fun i => if i = 1 then c * v 1 + -s * v 2 else if i = 2 then s * v 1 + c * v 2 else v 0
  | .y => some fun i => if i = 0 then c * v 0 + s * v 2 else if i = 2 then -s * v 0 + c * v 2 else v 1
  | .z => some fun i => if i = 0 then c * v 0 + -s * v 1 else if i = 1 then s * v 0 + c * v 1 else v 2
  | _ => none

/-- A matrix of 3 by 3 written row by row. -/
def mat9 (a b c d e f g h i : K) : Nat → Nat → K := fun r k =>
  ([[a, b, c], [d, e, f], [g, h, i]].getD r []).getD k 0

/-- matrix.c:1027-1051 `ROTATION_MATRIX` with the name of an axis -/
def rotationMatrix (c s : K) : Axis → (Nat → Nat → K)
  | .x => mat9 1 0 0 0 c (-s) 0 s c
  | .mx => mat9 1 0 0 0 c s 0 (-s) c
  | .y => mat9 c 0 s 0 1 0 (-s) 0 c
  | .my => mat9 c 0 (-s) 0 1 0 s 0 c
  | .z => mat9 c (-s) 0 s c 0 0 0 1
  | .mz => mat9 c s 0 (-s) c 0 0 0 1

/-- matrix.c:1007-1026: rotation about a vector, here already of length 1. -/
def rotationAbout (c s : K) (x y z : K) : Nat → Nat → K :=
  let vers := 1 - c
  mat9 (x * x * vers + c) (x * y * vers - z * s) (z * x * vers + y * s)
    (x * y * vers + z * s) (y * y * vers + c) (y * z * vers - x * s)
    (z * x * vers - y * s) (y * z * vers + x * s) (z * z * vers + c)

end Rot

end Eus.Mat
