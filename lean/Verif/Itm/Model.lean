import Mathlib.Data.Rat.Floor
import Mathlib.Algebra.Order.Field.Rat
set_option autoImplicit false
/-
Items of panels: sliders, choices and joysticks of `lisp/xwindow/Xitem.l`.  Positions are numbers of dots.  Values are exact
rational numbers here, floats in the program; what is drawn is not modelled, apart from where the knob or stick is.
-/
namespace Eus.Itm

/-- Xitem.l:20 `clump` -/
def clump (lo v hi : ℚ) : ℚ := max lo (min v hi)

/-- slider-item; `log`: the values the receiver has been sent, newest first -/
structure Slider where
  lo : ℚ
  hi : ℚ
  barX : ℚ
  barY : ℚ
  barW : ℚ
  cont : Bool
  value : ℚ
  nobX : ℚ
  moving : Bool
  log : List ℚ

/-- Xitem.l:387-388 `:nob-x` -/
def nobAt (s : Slider) (v : ℚ) : ℚ := s.barX + (v - s.lo) * s.barW / (s.hi - s.lo)

/-- Xitem.l:379-386 `:value` with a new value -/
def setValue (s : Slider) (v : ℚ) (notify : Bool) : Slider :=
  { s with nobX := nobAt s v, value := v, log := if notify then v :: s.log else s.log }

/-- Xitem.l:374-378 `:display-value`: the number that is shown; `int`: the upper limit is an integer -/
def shown (s : Slider) (int : Bool) (v : ℚ) : ℚ :=
  let w := max s.lo (min s.hi v)
  if int then (⌊w + 1 / 2⌋ : ℤ) else w

/-- Xitem.l:404-410 `:compute-value` -/
def computeValue (s : Slider) (x : ℚ) : ℚ := clump s.lo (s.lo + ((x - s.barX - 3) / s.barW) * (s.hi - s.lo)) s.hi

/-- Xitem.l:389-391 `:inside-nob-p` -/
def insideNob (s : Slider) (x y : ℚ) : Bool := decide (s.nobX ≤ x ∧ x ≤ s.nobX + 7 ∧ s.barY - 5 ≤ y ∧ y ≤ s.barY + 5)

/-- what the pointer does -/
inductive Ev where
  | press (x y : ℚ)
  | motion (x y : ℚ)
  | release (x y : ℚ)

/-- Xitem.l:400-403, 411-420 `:buttonPress`, `:MotionNotify`, `:buttonRelease`; a release without a drag goes to the window and changes nothing here -/
def Slider.step (s : Slider) : Ev → Slider
  | .press x y => if insideNob s x y then { s with moving := true } else s
  | .motion x _ => if s.moving then setValue s (computeValue s x) s.cont else s
  | .release x _ => if s.moving then setValue { s with moving := false } (computeValue s x) true else s

/-- choice-item: the left ends of the buttons -/
structure Choice where
  lefts : List Int
  size : Int
  active : Nat
  transient : Option Nat
  log : List Nat

/-- Xitem.l:460-468: the buttons, from the widths of the labels; `/` of positive integers -/
def placeFrom (size : Int) (p : Int) : List Int → List Int
  | [] => []
  | d :: l => ((d + 4) / 2 + p - size / 2) :: placeFrom size (p + (d + 4)) l

/-- Xitem.l:499-508 `:choice`: the first whose left end is near -/
def choiceAt (size x : Int) : List Int → Option Nat
  | [] => none
  | q :: l => if |x - q| < size then some 0 else (choiceAt size x l).map (· + 1)

/-- Xitem.l:509-518 `:buttonPress`, `:buttonRelease`; nothing happens on a motion -/
def Choice.press (c : Choice) (x : Int) : Choice := { c with transient := choiceAt c.size x c.lefts }
def Choice.release (c : Choice) (x : Int) : Choice :=
  match choiceAt c.size x c.lefts with
  | some i => if c.transient = some i then { c with active := i, log := i :: c.log, transient := none } else c
  | none => c

/-- joystick-item -/
structure Stick where
  width : Int
  height : Int
  loX : ℚ
  hiX : ℚ
  loY : ℚ
  hiY : ℚ
  size : Int
  back : Bool
  follow : Bool
  valX : ℚ
  valY : ℚ
  stickX : Int
  stickY : Int
  grabbed : Bool
  log : List (ℚ × ℚ)

/-- `round` -/
def rnd (q : ℚ) : Int := ⌊q + 1 / 2⌋

/-- Xitem.l:572-574 `:xy`, 575-588 `:draw-stick`, 589-595 `:value` with new values: they are clipped, the stick is put there -/
def Stick.set (s : Stick) (x y : ℚ) (notify : Bool) : Stick :=
  let nx := max s.loX (min s.hiX x)
  let ny := max s.loY (min s.hiY y)
  { s with
    valX := nx, valY := ny
    stickX := rnd (s.width * ((nx - s.loX) / (s.hiX - s.loX)))
    stickY := rnd (s.height - s.height * ((ny - s.loY) / (s.hiY - s.loY)))
    log := if notify then (nx, ny) :: s.log else s.log }

/-- Xitem.l:604-609 `:value-from-event`; the fractions are those of Xitem.l:546-547 -/
def Stick.fromEvent (s : Stick) (x y : Int) (notify : Bool) : Stick :=
  s.set (s.valX + ((x - s.stickX : Int) : ℚ) * ((s.hiX - s.loX) / s.width))
    (s.valY + ((s.stickY - y : Int) : ℚ) * ((s.hiY - s.loY) / s.height)) notify

/-- what the pointer does -/
inductive JEv where
  | press (x y : Int)
  | motion (x y : Int)
  | release (x y : Int)

/-- Xitem.l:599-603, 610-622 `:buttonPress`, `:motionNotify`, `:buttonRelease`.  The distance is compared by its square. -/
def Stick.step (s : Stick) : JEv → Stick
  | .press x y =>
    if (x - s.stickX) * (x - s.stickX) + (y - s.stickY) * (y - s.stickY) < s.size * s.size then { s with grabbed := true } else s
  | .motion x y => if s.grabbed then s.fromEvent x y s.follow else s
  | .release x y =>
    if s.grabbed then
      let s := { s with grabbed := false }
      if s.back then s.set ((s.loX + s.hiX) / 2) ((s.loY + s.hiY) / 2) true
      else if s.follow then s else s.fromEvent x y true
    else s

end Eus.Itm
