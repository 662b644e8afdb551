import Verif.Flt.Model
set_option autoImplicit false
/-
C structures (lisp/l/eusforeign.l: `defcstruct`, the class `cstructclass`, the methods `:get` and `:set`) and the
memory access functions under them (lisp/c/sysfunc.c: `sys:peek`, `sys:poke`), 64-bit configuration, little endian.

An instance of a structure is a byte vector; the memory behind its end and before its beginning is not modelled: an
access there is the outcome `outside`.
-/
namespace Eus.Fgn

/-! ### Types -/

/-- The type keywords of `sizeof-types` (eusforeign.l:472-478). -/
inductive Ty where
  | pointer | long | int | integer | short | char | character | float | double | word | byte
deriving DecidableEq, Repr

/-- eusforeign.l:472-481 `byte-size`, with the sizes of constants.l:36-42. -/
def byteSize : Ty → Nat
  | .pointer => 8 | .long => 8 | .int => 4 | .integer => 4 | .short => 2 | .char => 1
  | .character => 1 | .float => 4 | .double => 8 | .word => 2 | .byte => 1

/-! ### The slot list of a class of structures -/

/-- A list of six: `(typename typespec element_count element_size offset slotsize)` (eusforeign.l:516-521). -/
structure Slot where
  name : String
  ty : Ty
  count : Nat
  esize : Nat
  offset : Nat
  ssize : Nat
deriving DecidableEq, Repr

/-- A slot of `defcstruct`: `(name :type [*] [dimension])`, or `(name structname)`, where the slot list of the other
structure stands for its name. -/
inductive Decl where
  | prim (name : String) (ty : Ty) (star : Bool) (dim : Option Nat)
  | sub (name : String) (slots : List Slot)
deriving DecidableEq, Repr

/-- A declaration after the references to other structures are replaced. -/
structure Flat where
  name : String
  ty : Ty
  star : Bool
  dim : Option Nat
deriving DecidableEq, Repr

/-- eusforeign.l:491-500: a slot of another structure is taken over with everything behind its name, of which the
loop below uses the type and the count. -/
def expand1 : Decl → List Flat
  | .prim n t s d => [⟨n, t, s, d⟩]
  | .sub n sl => sl.map fun x => ⟨n ++ "." ++ x.name, x.ty, false, some x.count⟩

/-- eusforeign.l:491-501 -/
def expand (ds : List Decl) : List Flat := ds.flatMap expand1

/-- eusforeign.l:514-515: the next multiple. -/
def roundUp (offset esize : Nat) : Nat := (offset + esize - 1) / esize * esize

/-- eusforeign.l:502-522, one slot. -/
def placeSlot (offset : Nat) (f : Flat) : Slot :=
  let ty := if f.star then Ty.pointer else f.ty
  let esize := if f.star then 8 else byteSize f.ty
  let count := f.dim.getD 1
  ⟨f.name, ty, count, esize, roundUp offset esize, esize * count⟩

/-- eusforeign.l:502-523, the loop. -/
def layout : Nat → List Flat → List Slot × Nat
  | offset, [] => ([], offset)
  | offset, f :: fs =>
    let s := placeSlot offset f
    let r := layout (s.offset + s.ssize) fs
    (s :: r.1, r.2)

/-- eusforeign.l:484-526 `(send class :slotlist slots)`: the slot list and the size of an instance. -/
def slotlist (ds : List Decl) : List Slot × Nat := layout 0 (expand ds)

/-! ### Memory -/

/-- What goes wrong. -/
inductive Err where
  | noInt | noNumber | unknownMode | noSlot | indexRange
  /-- an access outside the byte vector -/
  | outside
  /-- an access to the absolute address -/
  | wild (address : Int)
deriving DecidableEq, Repr

/-- A number: an integer, or a float given by its 64 bits. -/
inductive Val where
  | int (v : Int)
  | flt (b : BitVec 64)
deriving DecidableEq, Repr

/-- The conversions of the C compiler between `float`, `double` and integers, as functions of the bit patterns; the
theorems hold for all of them. -/
structure FConv where
  narrow : BitVec 64 → BitVec 32
  widen : BitVec 32 → BitVec 64
  ofInt : Int → BitVec 64

/-- `n` bytes of an integer, the lowest first. -/
def leBytes : Nat → Nat → List Nat
  | 0, _ => []
  | n + 1, x => x % 256 :: leBytes n (x / 256)

/-- The number in the bytes. -/
def ofLe : List Nat → Nat
  | [] => 0
  | b :: bs => b + 256 * ofLe bs

/-- Two's complement of `n` bytes. -/
def signed (n u : Nat) : Int := if u < 2 ^ (8 * n - 1) then u else (u : Int) - 2 ^ (8 * n)

/-- `n` bytes of memory at a place. -/
def load (m : List Nat) (off : Int) (n : Nat) : Except Err (List Nat) :=
  if 0 ≤ off ∧ off + n ≤ m.length then .ok ((m.drop off.toNat).take n) else .error .outside

/-- Bytes to memory. -/
def store (m : List Nat) (off : Int) (bs : List Nat) : Except Err (List Nat) :=
  if 0 ≤ off ∧ off + bs.length ≤ m.length then
    .ok (m.take off.toNat ++ bs ++ m.drop (off.toNat + bs.length))
  else .error .outside

/-- eus.h:796 `bigintval` to 64 bits: the bits of a bignum above are dropped. -/
def bigintval : Val → Except Err Nat
  | .int v => .ok (v % 2 ^ 64).toNat
  | .flt _ => .error .noInt

/-- eus.h:791 `ckintval`: a fixnum, or a bignum of one limb (63 bits) or of two whose upper one is less than 2. -/
def ckintval : Val → Except Err Nat
  | .int v => if -2 ^ 126 ≤ v ∧ v < 2 ^ 64 then .ok (v % 2 ^ 64).toNat else .error .noInt
  | .flt _ => .error .noInt

/-- eus.h:826 `ckfltval`; ratios are not modelled. -/
def ckfltval (c : FConv) : Val → BitVec 64
  | .int v => c.ofInt v
  | .flt b => b

/-- `makeflt`, as the value it is when used again (eus.h:814-815). -/
def boxed (b : BitVec 64) : Val := .flt (Flt.fltval (Flt.makeflt b))

/-- sysfunc.c:592-637 `(sys:peek vec off type)`. -/
def PEEK (c : FConv) (m : List Nat) (off : Int) (ty : Ty) : Except Err Val := do
  match ty with
  | .long => return .int (signed 8 (ofLe (← load m off 8)))
  | .integer => return .int (signed 4 (ofLe (← load m off 4)))
  | .byte | .char => return .int (ofLe (← load m off 1))
  | .short => return .int (signed 2 (ofLe (← load m off 2)))
  | .float => return boxed (c.widen (BitVec.ofNat 32 (ofLe (← load m off 4))))
  | .double => return boxed (BitVec.ofNat 64 (ofLe (← load m off 8)))
  | .pointer => return .int (signed 8 (ofLe (← load m off 8)))
  | .int | .word | .character => .error .unknownMode

/-- sysfunc.c:639-684 `(sys:poke val vec off type)`. -/
def POKE (c : FConv) (val : Val) (m : List Nat) (off : Int) (ty : Ty) : Except Err (List Nat) := do
  match ty with
  | .long => store m off (leBytes 8 (← bigintval val))
  | .integer => store m off (leBytes 4 (← ckintval val))
  | .byte | .char => store m off (leBytes 1 (← ckintval val))
  | .short => store m off (leBytes 2 (← ckintval val))
  | .float => store m off (leBytes 4 (c.narrow (ckfltval c val)).toNat)
  | .double => store m off (leBytes 8 (ckfltval c val).toNat)
  | .pointer => store m off (leBytes 8 (← ckintval val))
  | .int | .word | .character => .error .unknownMode

/-! ### Messages -/

/-- eusforeign.l:529-532 `:slot`, for an id. -/
def slot (sl : List Slot) (id : String) : Option Slot := sl.find? fun s => s.name == id

/-- eusforeign.l:540-548 `:access`: the type and the place. -/
def access (sl : List Slot) (id : String) (index : Option Int) : Except Err (Ty × Int) :=
  match slot sl id with
  | none => .error .noSlot
  | some s =>
    match index with
    | some i => if (s.count : Int) ≤ i then .error .indexRange else .ok (s.ty, s.offset + i * s.esize)
    | none => .ok (s.ty, s.offset)

/-- eusforeign.l:554-556 `:get` -/
def get (c : FConv) (sl : List Slot) (m : List Nat) (id : String) (index : Option Int) : Except Err Val :=
  match access sl id index with
  | .ok (ty, off) => PEEK c m off ty
  | .error e => .error e

/-- eusforeign.l:557-559 `:set` -/
def set (c : FConv) (sl : List Slot) (m : List Nat) (val : Val) (id : String) (index : Option Int) :
    Except Err (List Nat) :=
  match access sl id index with
  | .ok (ty, off) => POKE c val m off ty
  | .error e => .error e

/-- leo.c:161-195 `(instantiate structure)`: a byte vector of the size of the class, of zeros (makes.c `makevector`). -/
def instantiate (ds : List Decl) : List Nat := List.replicate (slotlist ds).2 0

/-! ### The functions `defcstruct` defines -/

/-- eusforeign.l:572-579: a slot of another structure is taken over with its type only. -/
def accExpand1 : Decl → List Flat
  | .prim n t s d => [⟨n, t, s, d⟩]
  | .sub n sl => sl.map fun x => ⟨n ++ "." ++ x.name, x.ty, false, none⟩

/-- The three kinds of accessors (eusforeign.l:588-629). -/
inductive Kind where
  | scalar | chars | elems
deriving DecidableEq, Repr

/-- A pair of accessors: where they reach. -/
structure Acc where
  name : String
  kind : Kind
  ty : Ty
  esize : Nat
  offset : Nat
  ssize : Nat
deriving DecidableEq, Repr

/-- eusforeign.l:580-629, one slot. -/
def placeAcc (offset : Nat) (f : Flat) : Acc :=
  if f.star = false ∧ f.dim = none then
    let n := byteSize f.ty
    ⟨f.name, .scalar, f.ty, n, roundUp offset n, n⟩
  else
    let ty := if f.star then Ty.long else f.ty
    let n := byteSize ty
    ⟨f.name, if ty = .char ∨ ty = .byte then .chars else .elems, ty, n, roundUp offset n, n * f.dim.getD 1⟩

/-- eusforeign.l:580-633, the loop. -/
def accLayout : Nat → List Flat → List Acc
  | _, [] => []
  | offset, f :: fs => let a := placeAcc offset f; a :: accLayout (a.offset + a.ssize) fs

/-- eusforeign.l:566-641 `defcstruct`: its accessors. -/
def accessors (ds : List Decl) : List Acc := accLayout 0 (ds.flatMap accExpand1)

/-- `(struct-slot s)` and `(struct-slot s i)` of a number (eusforeign.l:592, 605, 615-619); calling a scalar accessor
with an index, or that of an array of numbers without, is an error that is not modelled. -/
def accGet (c : FConv) (a : Acc) (m : List Nat) (i : Int) : Except Err Val :=
  match a.kind with
  | .scalar => PEEK c m a.offset a.ty
  | .chars => PEEK c m (a.offset + i) .byte
  | .elems => PEEK c m (a.offset + i * a.esize) a.ty

/-- `(setf (struct-slot s [i]) val)` (eusforeign.l:594-596, 608-611, 620-627): for an array of characters the
vector is missing in the call of `sys:poke`, so that the place is taken for an address. -/
def accSet (c : FConv) (a : Acc) (m : List Nat) (i : Int) (val : Val) : Except Err (List Nat) :=
  match a.kind with
  | .scalar => POKE c val m a.offset a.ty
  | .chars => .error (.wild (a.offset + i))
  | .elems => POKE c val m (a.offset + i * a.esize) a.ty

/-- `(struct-slot s)` of an array of characters: `(subseq s offset (+ offset slotsize))` (eusforeign.l:606). -/
def accGetChars (a : Acc) (m : List Nat) : List Nat := (m.drop a.offset).take a.ssize

/-- `(setf (struct-slot s) str)` of an array of characters: `(replace s str :start1 offset :end2 (length str))`
(eusforeign.l:612-613); `replace` stops at the end of the structure. -/
def accSetChars (a : Acc) (m : List Nat) (str : List Nat) : List Nat :=
  m.take a.offset ++ str.take (m.length - a.offset) ++ m.drop (a.offset + str.length)

end Eus.Fgn
