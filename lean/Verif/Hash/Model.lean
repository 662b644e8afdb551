import Mathlib.Logic.Function.Basic
set_option autoImplicit false
/-
Hash tables, lisp/l/hashtab.l:29-164.  Keys `K`, values `V`; the hash and test functions are
parameters.  The two key/value vectors are functions from indices (only indices below `size` are
used; the proofs show every index read or written is below `size`).  The marker symbols `empty` and
`deleted` are gensyms; simplification: no test function matches a marker with a key.
-/
namespace Eus.Hash

/-- Contents of a slot of the key vector (hashtab.l:17-21). -/
inductive Slot (K : Type) where
  | empty
  | deleted
  | key (k : K)
deriving DecidableEq, Repr

/-- The user's parameters of a table, `make-hash-table` (hashtab.l:151-158): hash function, test
function, and the rehash size as the positive rational `rn/rd` (1.7 by default; simplification: the
floating point quotient `size / rehash-size` is taken to be exact). -/
structure Cfg (K : Type) where
  hash : K → Int
  test : K → K → Bool
  rn : Nat
  rd : Nat

/-- hashtab.l:10-21, the changing part of a table. -/
structure HT (K V : Type) where
  size : Nat
  key : Nat → Slot K
  value : Nat → V
  fill : Nat
  count : Nat

variable {K V : Type}

/-- hashtab.l:135-149 `:init` (with `nil` in the value vector). -/
def init (nil : V) (s : Nat) : HT K V := ⟨s, fun _ => .empty, fun _ => nil, 0, 0⟩

/-- hashtab.l:41 `(if (>= (inc hash) size) (setq hash 0))`. -/
def next (size h : Nat) : Nat := if h + 1 ≥ size then 0 else h + 1

/-- hashtab.l:33-41, the probe loop of `:find`.  The first argument bounds the number of probes; with
`size` probes every slot has been seen (`Props.C24_full_table_never_returns` shows that the loop
never ends if it has not ended by then). -/
def findLoop (c : Cfg K) (key : Nat → Slot K) (size : Nat) (s : K) : Nat → Nat → Option Nat → Option Nat
  | 0, _, _ => none
  | n + 1, h, ep =>
    match key h with
    | .key k => if c.test k s then some h else findLoop c key size s n (next size h) ep
    | .empty => some (ep.getD h + size)
    | .deleted => findLoop c key size s n (next size h) (some (ep.getD h))

/-- hashtab.l:32 `(abs (mod (funcall hash-function s) size))`; `mod` truncates (arith.c:360). -/
def home (c : Cfg K) (size : Nat) (s : K) : Nat := ((c.hash s).tmod size).natAbs

/-- hashtab.l:31-42 `:find`; `none`: the loop does not end. -/
def find (c : Cfg K) (t : HT K V) (s : K) : Option Nat :=
  findLoop c t.key t.size s t.size (home c t.size s) none

/-- hashtab.l:43-45 `:get`, `gethash`; `none`: does not end. -/
def get (c : Cfg K) (notfound : V) (t : HT K V) (s : K) : Option V :=
  (find c t s).map fun e => if e ≥ t.size then notfound else t.value e

/-- hashtab.l:56-57: storing into a slot. -/
def store (t : HT K V) (e : Nat) (k : K) (v : V) : HT K V :=
  { t with key := Function.update t.key e (.key k), value := Function.update t.value e v }

/-- hashtab.l:52-57: storing a new key into the free slot `e`. -/
def add (t : HT K V) (e : Nat) (k : K) (v : V) : HT K V :=
  { store t e k v with
    count := t.count + 1
    fill := match t.key e with | .empty => t.fill + 1 | _ => t.fill }

/-- hashtab.l:65-87 `:extend`, with `ent` for `(send self :enter ...)`. -/
def extendWith (nil : V) (ent : HT K V → K → V → Option (HT K V)) (t : HT K V) : Option (HT K V) :=
  (List.range t.size).foldl
    (fun acc i => acc.bind fun t' =>
      match t.key i with
      | .key x => ent t' x (t.value i)
      | _ => some t')
    (some (init nil (2 * t.size)))

/-- hashtab.l:46-58 `:enter`.  `d` bounds the nesting of `:extend` inside `:enter` inside `:extend`;
`none`: does not end (or stores at a negative index, line 51). -/
def enterD (c : Cfg K) (nil : V) : Nat → HT K V → K → V → Option (HT K V)
  | d, t, k, v =>
    match find c t k with
    | none => none
    | some e =>
      if e < t.size then some (store t e k v)
      else if t.fill * c.rn > t.size * c.rd then
        match d with
        | 0 => none
        | d + 1 =>
          match extendWith nil (enterD c nil d) t with
          | none => none
          | some t' =>
            match find c t' k with
            | none => none
            | some e' => if e' < t'.size then none else some (add t' (e' - t'.size) k v)
      else some (add t (e - t.size) k v)

/-- hashtab.l:46-58 `:enter`, `sethash`; the nesting bound is never reached
(`Props.C22_hash_table_is_map`). -/
def enter (c : Cfg K) (nil : V) (t : HT K V) (k : K) (v : V) : Option (HT K V) :=
  enterD c nil (t.fill * c.rn) t k v

/-- hashtab.l:59-64 `:delete`, `remhash`. -/
def delete (c : Cfg K) (nil : V) (t : HT K V) (k : K) : Option (HT K V) :=
  (find c t k).map fun e =>
    if e < t.size then
      { t with key := Function.update t.key e .deleted, value := Function.update t.value e nil,
               count := t.count - 1 }
    else t

/-- hashtab.l:125-131 `:clear`, `clrhash`. -/
def clear (nil : V) (t : HT K V) : HT K V := { init nil t.size with }

/-- hashtab.l:110-116 `:list` (also the order in which `:map` visits, reversed): pairs pushed from
slot 0 to slot size-1. -/
def toList (t : HT K V) : List (K × V) :=
  (List.range t.size).foldl
    (fun acc i => match t.key i with | .key k => (k, t.value i) :: acc | _ => acc) []

/-- hashtab.l:91-96 `:map`: the calls made, in order. -/
def mapCalls (t : HT K V) : List (K × V) :=
  (List.range t.size).filterMap (fun i => match t.key i with | .key k => some (k, t.value i) | _ => none)

/-- One operation of the interface (hashtab.l:158-170). -/
inductive Op (K V : Type) where
  | set (k : K) (v : V)
  | rem (k : K)
  | clr
deriving DecidableEq, Repr

/-- One call of sethash, remhash or clrhash (hashtab.l). -/
def step (c : Cfg K) (nil : V) (t : HT K V) : Op K V → Option (HT K V)
  | .set k v => enter c nil t k v
  | .rem k => delete c nil t k
  | .clr => some (clear nil t)

/-- A sequence of calls (hashtab.l); `none`: one of them does not end. -/
def run (c : Cfg K) (nil : V) (t : HT K V) (ops : List (Op K V)) : Option (HT K V) :=
  ops.foldl (fun acc o => acc.bind fun t => step c nil t o) (some t)

end Eus.Hash
