set_option autoImplicit false
/-
Distance maps: lib/llib/disttrans.l:6-43 (`init-distance`, `calc-distance`, `calc-distance-6`).
Arrays of three dimensions are functions of the index triple; `collision` has n elements in each dimension and `distance` n+2.
-/
namespace Eus.Dtr

notation "Pos" => Nat × Nat × Nat

/-- (setf (aref distance ...) v) -/
def upd (d : Pos → Nat) (p : Pos) (v : Nat) : Pos → Nat := fun q => if q = p then v else d q

/-- the three nested loops `(dotimes (i n) (dotimes (j n) (dotimes (k n) ...)))` -/
def loops (n : Nat) : List Pos :=
  (List.range n).flatMap fun i => (List.range n).flatMap fun j => (List.range n).map fun k => (i, j, k)

/-- disttrans.l:6-12 `init-distance` -/
def initDistance (n : Nat) (collision : Pos → Bool) (distance : Pos → Nat) : Pos → Nat :=
  (loops n).foldl (fun d p => if collision p then upd d (p.1 + 1, p.2.1 + 1, p.2.2 + 1) 0 else d) distance

/-- disttrans.l:36-43 `calc-distance-6` -/
def calcDistance6 (d : Pos → Nat) (p : Pos) : Nat :=
  min (d (p.1, p.2.1, p.2.2 - 1)) (min (d (p.1, p.2.1, p.2.2 + 1)) (min (d (p.1 - 1, p.2.1, p.2.2))
    (min (d (p.1 + 1, p.2.1, p.2.2)) (min (d (p.1, p.2.1 - 1, p.2.2)) (d (p.1, p.2.1 + 1, p.2.2))))))

/-- disttrans.l:20-23, 31-33: one element -/
def relax (d : Pos → Nat) (p : Pos) : Pos → Nat := upd d p (min (d p) (1 + calcDistance6 d p))

/-- disttrans.l:17-24: the indices of the first loops -/
def up (p : Pos) : Pos := (p.1 + 1, p.2.1 + 1, p.2.2 + 1)

/-- disttrans.l:28-30: the indices of the second loops -/
def down (n : Nat) (p : Pos) : Pos := (n - p.1, n - p.2.1, n - p.2.2)

/-- disttrans.l:15-34 `calc-distance` -/
def calcDistance (n : Nat) (distance : Pos → Nat) : Pos → Nat :=
  let d := ((loops n).map up).foldl relax distance
  ((loops n).map (down n)).foldl relax d

end Eus.Dtr
