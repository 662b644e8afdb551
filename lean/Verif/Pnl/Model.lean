set_option autoImplicit false
/-
Where a panel puts its items: `lisp/xwindow/Xpanel.l`. Sizes and places are in pixels; the border of a
window (which X draws around it) is not counted, as in the code.
-/
namespace Eus.Pnl

/-- an item that has been placed -/
structure Item where
  x : Int
  y : Int
  w : Int
  h : Int
deriving DecidableEq

/-- the slots of a panel used for placing: lisp/xwindow/Xpanel.l:34-40 -/
structure Panel where
  width : Int
  itemWidth : Int
  itemHeight : Int
  nextX : Int
  nextY : Int
  items : List Item
deriving DecidableEq

/-- a new panel: Xpanel.l:34-40; also the state after `:delete-items`, Xpanel.l:108-111 -/
def new (width iw ih : Int) : Panel := ⟨width, iw, ih, 0, 0, []⟩

/-- `(apply #'max 0 (mapcar ... items))`, Xpanel.l:64-69 -/
def bottom (items : List Item) : Int := items.foldr (fun i m => max (i.h + i.y) m) 0

/-- `:locate-item`, Xpanel.l:58-78 -/
def locate (p : Panel) (w h : Int) (x y : Option Int) : Panel :=
  let over := p.width - p.nextX - 10 < w
  let nx := if over then 0 else p.nextX
  let ny := if over then max (p.nextY + p.itemHeight) (bottom p.items) else p.nextY
  let i : Item := ⟨x.getD (nx + 5), y.getD (ny + 5), w, h⟩
  { p with nextX := nx + max p.itemWidth (w + 5), nextY := i.y - 5, items := i :: p.items }

/-- items of these sizes, one after the other, without given places -/
def locateAll (p : Panel) (sizes : List (Int × Int)) : Panel :=
  sizes.foldl (fun p s => locate p s.1 s.2 none none) p

/-- a new menu bar: Xpanel.l:152 -/
def newBar (width iw ih : Int) : Panel := ⟨width, iw, ih, 3, 2, []⟩

/-- `:locate-item` of menubar-panel, Xpanel.l:156-168: given places are ignored -/
def locateBar (p : Panel) (w h : Int) : Panel :=
  let over := p.width - p.nextX - 10 < w
  let nx := if over then 3 else p.nextX
  let ny := if over then p.nextY + p.itemHeight else p.nextY
  let i : Item := ⟨nx, ny, w, h⟩
  { p with nextX := i.x + i.w, nextY := i.y, items := i :: p.items }

/-- items of these sizes in a menu bar -/
def locateBarAll (p : Panel) (sizes : List (Int × Int)) : Panel :=
  sizes.foldl (fun p s => locateBar p s.1 s.2) p

end Eus.Pnl
