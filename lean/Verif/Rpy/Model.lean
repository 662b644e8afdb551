import Mathlib.Analysis.SpecialFunctions.Trigonometric.Basic
import Mathlib.Analysis.SpecialFunctions.Sqrt
import Verif.Mat.Model
set_option autoImplicit false
/-
Angles of rotations: `rpy-angle`, `euler-angle` and `rotation-angle` of lisp/c/matrix.c and `rpy-matrix`, `euler-matrix` of lisp/l/array.l.

Simplification: numbers are real numbers, without rounding.  What C answers for 0/0 and for the root of a negative number (NaN) is kept apart as `none`.  A matrix m of 3 by 3 has the element mv[3*i+j] as m i j.  atan2 of the C library is a parameter, because its value at (0,0) and at the cut depends on the signs of zeros.
-/
namespace Eus.Rpy
open Eus.Mat

/-- array.l:325-333 `rpy-matrix` -/
noncomputable def rpyMatrix (az ay ax : ℝ) : Nat → Nat → ℝ :=
  let r := rotationMatrix (Real.cos ax) (Real.sin ax) .x
  let r := rotateMatrix r (Real.cos ay) (Real.sin ay) .y true
  rotateMatrix r (Real.cos az) (Real.sin az) .z true

/-- array.l:316-323 `euler-matrix` -/
noncomputable def eulerMatrix (az ay az2 : ℝ) : Nat → Nat → ℝ :=
  let r := rotationMatrix (Real.cos az) (Real.sin az) .z
  let r := rotateMatrix r (Real.cos ay) (Real.sin ay) .y false
  rotateMatrix r (Real.cos az2) (Real.sin az2) .z false

/-- matrix.c:1173-1175 and 1180-1182: the other two angles, given the first -/
noncomputable def rpyFrom (atan2 : ℝ → ℝ → ℝ) (m : Nat → Nat → ℝ) (a : ℝ) : ℝ × ℝ × ℝ :=
  let sa := Real.sin a
  let ca := Real.cos a
  (a, atan2 (-(m 2 0)) (ca * m 0 0 + sa * m 1 0), atan2 (sa * m 0 2 - ca * m 1 2) (-sa * m 0 1 + ca * m 1 1))

/-- matrix.c:1157-1187 `INV_RPY`: the list of two lists of three angles -/
noncomputable def rpyAngle (atan2 : ℝ → ℝ → ℝ) (m : Nat → Nat → ℝ) : (ℝ × ℝ × ℝ) × (ℝ × ℝ × ℝ) :=
  let a := atan2 (m 1 0) (m 0 0)
  (rpyFrom atan2 m a, rpyFrom atan2 m (a + Real.pi))

/-- matrix.c:1206-1208 and 1213-1215 -/
noncomputable def eulerFrom (atan2 : ℝ → ℝ → ℝ) (m : Nat → Nat → ℝ) (a : ℝ) : ℝ × ℝ × ℝ :=
  let sa := Real.sin a
  let ca := Real.cos a
  (a, atan2 (ca * m 0 2 + sa * m 1 2) (m 2 2), atan2 (-sa * m 0 0 + ca * m 1 0) (-sa * m 0 1 + ca * m 1 1))

/-- matrix.c:1204-1205: the first angle -/
noncomputable def eulerFirst (atan2 : ℝ → ℝ → ℝ) (m : Nat → Nat → ℝ) : ℝ :=
  if -0.00001 < m 1 2 ∧ m 1 2 < 0.00001 ∧ -0.00001 < m 0 2 ∧ m 0 2 < 0.00001 then 0
  else atan2 (m 1 2) (m 0 2)

/-- matrix.c:1189-1220 `INV_EULER` -/
noncomputable def eulerAngle (atan2 : ℝ → ℝ → ℝ) (m : Nat → Nat → ℝ) : (ℝ × ℝ × ℝ) × (ℝ × ℝ × ℝ) :=
  let a := eulerFirst atan2 m
  (eulerFrom atan2 m a, eulerFrom atan2 m (a + Real.pi))

/-- Division in C; none: the divisor is 0. -/
noncomputable def fdiv (x y : ℝ) : Option ℝ := if y = 0 then none else some (x / y)

/-- The square root in C; none: NaN. -/
noncomputable def fsqrt (x : ℝ) : Option ℝ := if x < 0 then none else some (Real.sqrt x)

/-- What `rotation-angle` answers: NIL, numbers that are not numbers, or the angle and the axis. -/
inductive Ans where
  | nil
  | nan
  | ok (th kx ky kz : ℝ)

/-- matrix.c:1088-1092: the axis when the angle is below 2.6 -/
noncomputable def axisSmall (t1 t2 t3 sn2 : ℝ) : Option (ℝ × ℝ × ℝ) := do
  return (← fdiv t1 sn2, ← fdiv t2 sn2, ← fdiv t3 sn2)

/-- `k=sqrt(q); if (t<0) k= -k;` -/
noncomputable def signedRoot (q t : ℝ) : Option ℝ := do
  let k ← fsqrt q
  return if t < 0 then -k else k

/-- matrix.c:1093-1100: the axis when the angle is 2.6 or more -/
noncomputable def axisLarge (m : Nat → Nat → ℝ) (cs vers t1 t2 t3 : ℝ) : Option (ℝ × ℝ × ℝ) := do
  return (← signedRoot (← fdiv (m 0 0 - cs) vers) t1, ← signedRoot (← fdiv (m 1 1 - cs) vers) t2,
    ← signedRoot (← fdiv (m 2 2 - cs) vers) t3)

/-- matrix.c:1088-1100: the first axis -/
noncomputable def axisFirst (m : Nat → Nat → ℝ) (th cs vers t1 t2 t3 sn2 : ℝ) : Option (ℝ × ℝ × ℝ) :=
  if th < 2.6 then axisSmall t1 t2 t3 sn2 else axisLarge m cs vers t1 t2 t3

/-- `norm=sqrt((y*y+z*z)/(1.0-x*x)); if (!isnan(norm)) {y/=norm; z/=norm;}` of matrix.c:1106, 1109, 1113; 0/0 and roots of negative numbers are NaN, and a number divided by 0 is infinite. -/
noncomputable def unify (x y z : ℝ) : Option (ℝ × ℝ) :=
  let q := y * y + z * z
  let d := 1 - x * x
  if d = 0 then (if q = 0 then some (y, z) else some (0, 0))
  else if q / d < 0 then some (y, z)
  else do
    let norm := Real.sqrt (q / d)
    return (← fdiv y norm, ← fdiv z norm)

/-- matrix.c:1105-1106, 1108-1109, 1111-1113: the two smaller components from the largest one, x -/
noncomputable def refine (x pxy pxz vers : ℝ) : Option (ℝ × ℝ) := do
  unify x (← fdiv pxy (2 * x * vers)) (← fdiv pxz (2 * x * vers))

/-- matrix.c:1104-1113: the largest component is kept and the others computed from it. -/
noncomputable def better (m : Nat → Nat → ℝ) (vers kx ky kz : ℝ) : Option (ℝ × ℝ × ℝ) :=
  if |kx| > |ky| ∧ |kx| > |kz| then do
    let (y, z) ← refine kx (m 1 0 + m 0 1) (m 0 2 + m 2 0) vers
    return (kx, y, z)
  else if |ky| > |kx| ∧ |ky| > |kz| then do
    let (x, z) ← refine ky (m 1 0 + m 0 1) (m 1 2 + m 2 1) vers
    return (x, ky, z)
  else do
    let (x, y) ← refine kz (m 0 2 + m 2 0) (m 1 2 + m 2 1) vers
    return (x, y, kz)

/-- matrix.c:1115-1118: the axis made a vector of length 1 -/
noncomputable def unitize (k : ℝ × ℝ × ℝ) : Option (ℝ × ℝ × ℝ) := do
  let norm := Real.sqrt (k.1 * k.1 + k.2.1 * k.2.1 + k.2.2 * k.2.2)
  return (← fdiv k.1 norm, ← fdiv k.2.1 norm, ← fdiv k.2.2 norm)

/-- matrix.c:1056-1121 `ROTANGLE` of a matrix of 3 by 3 -/
noncomputable def rotationAngle (atan2 : ℝ → ℝ → ℝ) (m : Nat → Nat → ℝ) : Ans :=
  let t1 := m 2 1 - m 1 2
  let t2 := m 0 2 - m 2 0
  let t3 := m 1 0 - m 0 1
  let cs2 := m 0 0 + m 1 1 + m 2 2 - 1
  let cs := cs2 / 2
  let vers := 1 - cs
  let sn2 := Real.sqrt (t1 * t1 + t2 * t2 + t3 * t3)
  let th := atan2 sn2 cs2
  if th < 1e-10 ∨ vers < 1e-10 then .nil
  else
    let k := do
      let k ← axisFirst m th cs vers t1 t2 t3 sn2
      let k ← better m vers k.1 k.2.1 k.2.2
      unitize k
    match k with
    | none => .nan
    | some (x, y, z) => .ok th x y z

/-- matrix.c:1073-1075: `ROTANGLE` of a matrix of 2 by 2 -/
noncomputable def rotationAngle2 (atan2 : ℝ → ℝ → ℝ) (m : Nat → Nat → ℝ) : ℝ := atan2 (m 1 0) (m 0 0)

/-- matrix.c:1005-1011: `rotation-matrix` of an angle alone -/
noncomputable def rotationMatrix2 (s : ℝ) : Nat → Nat → ℝ := fun i j =>
  if i = 0 then (if j = 0 then Real.cos s else -Real.sin s) else (if j = 0 then Real.sin s else Real.cos s)

end Eus.Rpy
