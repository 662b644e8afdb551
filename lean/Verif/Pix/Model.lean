import Verif.Arr.Model
set_option autoImplicit false
/-
Pictures: lisp/image/convolve.c, lisp/image/pixword.c, lisp/image/piximage.l:218-295 (single channel images).
A picture is its width, height and the string of its bytes, row by row.  Source and result are different strings unless said.
`none`: an access outside of a string, which C does not check.
-/
namespace Eus.Pix
open Eus.Arr

structure Img where
  w : Nat
  h : Nat
  ent : List Nat
deriving DecidableEq, Repr

/-- a byte stored in C -/
def wr (m : List Nat) (i v : Nat) : Option (List Nat) := if i < m.length then some (m.set i (v % 256)) else none

/-- piximage.l:219 `:pixel` of single channel images: `(aref entity y x)`, where entity is a string; vectorarray.c:178 -/
def pixel (m : Img) (_x y : Nat) : Option Nat := m.ent[y]?

/-- piximage.l:220 `:set-pixel`: `(setf (aref entity y x) val)`; vectorarray.c:193.  `none` is the error for an index outside. -/
def setPixel (m : Img) (_x y v : Nat) : Option Img := (wr m.ent y v).map fun e => { m with ent := e }

/-- all (j, i), row by row -/
def cells (h w : Nat) : List (Nat × Nat) := (List.range h).flatMap fun j => (List.range w).map fun i => (j, i)

/-- convolve.c:94-98: one pixel of `HALVE_IMAGE` -/
def halveStep (m : Img) (d : List Nat) (c : Nat × Nat) : Option (List Nat) :=
  (m.ent[m.w * c.1 * 2 + c.2 * 2]?).bind fun a => (m.ent[m.w * c.1 * 2 + c.2 * 2 + 1]?).bind fun b =>
  (m.ent[m.w * c.1 * 2 + m.w + c.2 * 2]?).bind fun e => (m.ent[m.w * c.1 * 2 + c.2 * 2 + m.w + 1]?).bind fun f =>
    wr d (m.w / 2 * c.1 + c.2) ((a + b + e + f) / 4)

/-- convolve.c:73-99 `HALVE_IMAGE` into `d`, piximage.l:222-228 `:halve` -/
def halve (m : Img) (d : List Nat) : Option Img :=
  ((cells (m.h / 2) (m.w / 2)).foldlM (halveStep m) d).map fun e => ⟨m.w / 2, m.h / 2, e⟩

/-- convolve.c:122-128: the assignments of `DOUBLE_IMAGE`, `t` from 3 down to 0: right to left -/
def doubleStep (m : Img) (d : List Nat) (c : (Nat × Nat) × Nat) : Option (List Nat) :=
  (m.ent[m.w * c.1.1 + c.1.2]?).bind fun a => wr d (m.w * 2 * c.1.1 * 2 + (c.2 / 2) * (m.w * 2) + c.1.2 * 2 + c.2 % 2) a

/-- convolve.c:101-130 `DOUBLE_IMAGE` into `d`, piximage.l:229-235 `:double` -/
def double (m : Img) (d : List Nat) : Option Img :=
  (((cells m.h m.w).flatMap fun c => [(c, 3), (c, 2), (c, 1), (c, 0)]).foldlM (doubleStep m) d).map fun e => ⟨m.w * 2, m.h * 2, e⟩

/-- the rows `0 … n-1` copied by `replace`: row j from `b j` of src to `a j` -/
def copyRows (src : List Nat) (w : Nat) (a b : Nat → Nat) : Nat → List Nat → Out (List Nat)
  | 0, d => .ok d
  | n + 1, d =>
    match copyRows src w a b n d with
    | .ok d => vecReplace false d src (a n) (a n + w) (b n) src.length
    | e => e

/-- piximage.l:275-281 `:subimage` -/
def subimage (m : Img) (x y sw sh : Nat) : Out Img :=
  match copyRows m.ent sw (fun j => j * sw) (fun j => (y + j) * m.w + x) sh (List.replicate (sw * sh) 0) with
  | .ok e => .ok ⟨sw, sh, e⟩
  | .err => .err
  | .ub => .ub

/-- piximage.l:285-296 `:patch-in` -/
def patchIn (m : Img) (xs ys : Nat) (p : Img) : Out Img :=
  match copyRows p.ent p.w (fun y => (ys + y) * m.w + xs) (fun y => y * p.w) p.h m.ent with
  | .ok e => .ok { m with ent := e }
  | .err => .err
  | .ub => .ub

/-- convolve.c:65-70 `LOOK_UP`, the loops; of a table of integers the low byte counts (here: not negative).  `none`: a pixel outside of the
table or a result shorter than the picture, both unchecked -/
def lookLoop (table : List Nat) : List Nat → List Nat → Option (List Nat)
  | [], r => some r
  | _ :: _, [] => none
  | p :: img, _ :: r => (table[p]?).bind fun v => (lookLoop table img r).map fun s => (v % 256) :: s

/-- convolve.c:44-71 `(look-up img result table)` -/
def lookUp (img result table : List Nat) : Option (List Nat) := lookLoop table img result

/-- pixword.c:40-44: `SPLIT_RGB`, the loop; `s` is s1, offset 0 -/
def splitLoop : Nat → Nat → List Nat → List Nat → List Nat → List Nat → Option (List Nat × List Nat × List Nat)
  | 0, _, _, r, g, b => some (r, g, b)
  | n + 1, s, rgb, r, g, b =>
    (rgb[3 * s]?).bind fun x => (rgb[3 * s + 1]?).bind fun y => (rgb[3 * s + 2]?).bind fun z =>
      (wr r s x).bind fun r => (wr g s y).bind fun g => (wr b s z).bind fun b => splitLoop n (s + 1) rgb r g b

/-- pixword.c:15-45 `(split-rgb rgb r g b)` -/
def splitRGB (rgb r g b : List Nat) : Option (List Nat × List Nat × List Nat) := splitLoop (rgb.length / 3) 0 rgb r g b

/-- pixword.c:67-71: `MERGE_RGB`, the loop; three bytes are written while `s3 < size3` -/
def mergeLoop (r g b : List Nat) : Nat → Nat → List Nat → Option (List Nat)
  | 0, _, rgb => some rgb
  | n + 1, s, rgb =>
    (r[s]?).bind fun x => (g[s]?).bind fun y => (b[s]?).bind fun z =>
      (wr rgb (3 * s) x).bind fun rgb => (wr rgb (3 * s + 1) y).bind fun rgb => (wr rgb (3 * s + 2) z).bind fun rgb => mergeLoop r g b n (s + 1) rgb

/-- pixword.c:47-72 `(merge-rgb rgb r g b 0)`: the loop is entered ⌈size3/3⌉ times -/
def mergeRGB (rgb r g b : List Nat) : Option (List Nat) := mergeLoop r g b ((rgb.length + 2) / 3) 0 rgb

/-- convolve.c:146-167 `median_img` from the label `find_med` on: one round decides by the last element only, since the loop has no braces.
`v`: the value the variable has; the first argument bounds the rounds. -/
def medRound : Nat → (first : Nat) → (v : Nat) → (cindex : Nat) → Option Nat
  | 0, _, _, _ => none
  | n + 1, med, v, cindex =>
    if v = med then (if 1 ≥ cindex then some med else medRound n med v (cindex - 1))  -- r = 1; k = p = 0: seq and v stay
    else if v > med then (if 0 ≥ cindex then some med else medRound n v v cindex)       -- p = 1: seq[0] = v, k = 1
    else if 1 ≤ cindex then (if 1 ≥ cindex then some med else medRound n med v (cindex - 1))  -- q = 1; k = p = 0
    else medRound n v v cindex                                                           -- seq[0] = down[0] = v, k = 1

/-- convolve.c:133-167 `median_img` of the window with the pixels `seq`; `none`: more than 100 pixels -/
def median (size : Nat) (seq : List Nat) : Option Nat :=
  if seq.length > 100 then none
  else medRound (size * size + 3) (seq.headD 0) (seq.getLastD 0) (size * size / 2)

/-- convolve.c:36-39: the pixels `CONVOLVE3` reads for the pixel at (x, y) -/
def convReads (m : Img) (y x : Nat) : Option (List Nat) :=
  [m.w * y + x - m.w - 1, m.w * y + x - m.w, m.w * y + x - m.w + 1, m.w * y + x - 1, m.w * y + x, m.w * y + x + 1,
   m.w * y + x + m.w - 1, m.w * y + x + m.w, m.w * y + x + m.w + 1].mapM fun i => m.ent[i]?

/-- convolve.c:32-42 `CONVOLVE3`: y from 1 to height-1, x from 1 to width-1; `f` is the weighted sum, divided, of which a byte is kept -/
def convolve3 (f : List Nat → Nat) (m : Img) (d : List Nat) : Option (List Nat) :=
  ((cells (m.h - 1) (m.w - 1)).foldlM (fun d c => (convReads m (c.1 + 1) (c.2 + 1)).bind fun l => wr d (m.w * (c.1 + 1) + (c.2 + 1)) (f l)) d)

end Eus.Pix
