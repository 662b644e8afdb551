import Verif.Mem.Model
set_option autoImplicit false
/-
What the memory properties talk about: blocks, access paths, histories.  Nothing here mentions marks,
free lists or the way cells are split.
-/
namespace Eus.Mem

/-- The number of words of a block. -/
def size (H : Heap) (x : Cell) : Nat := buddysize (H.hdr x).bix

/-- Two blocks share no word. -/
def Apart (H : Heap) (x y : Cell) : Prop :=
  x.1 ≠ y.1 ∨ x.2 + size H x ≤ y.2 ∨ y.2 + size H y ≤ x.2

/-- A block lies inside a chunk obtained from the operating system. -/
def Inside (H : Heap) (x : Cell) : Prop := ∃ k, (x.1, k) ∈ H.chunks ∧ x.2 + size H x ≤ buddysize k

/-- A block on a free list, of the root or of a thread. -/
def OnFreeList (H : Heap) (x : Cell) : Prop := (∃ k, x ∈ H.free k) ∨ ∃ t j, x ∈ H.tb t j

/-- What the program holds directly: system objects, stacks, thread-special variables, the latest
allocation of each thread, classes. -/
def Root (H : Heap) (x : Cell) : Prop :=
  x ∈ H.sys ∨ (∃ t < 64, x ∈ H.stk t ∨ x ∈ H.spec t ∨ H.last t = some x) ∨ x ∈ H.cls

/-- The objects an object refers to: all slots of an instance or a closure, the elements of a vector
(its first word is the length). -/
def refs (o : Obj) : List Cell :=
  match o.kind with
  | .fixed => o.words.filterMap id
  | .closure => o.words.filterMap id
  | .vector => o.words.tail.filterMap id
  | .other => []

/-- The program can get at the object. -/
inductive Accessible (H : Heap) : Cell → Prop
  | root (x : Cell) (h : Root H x) : Accessible H x
  | ref (x y : Cell) (h : Accessible H x) (h' : y ∈ refs (H.obj x)) : Accessible H y

/-- The largest request covered (in words, with the header): `buddysize[38]`, more than 1.5 GB. -/
def maxRequest : Nat := buddysize 38

/-- What a program can do: it allocates, and uses only objects it can get at.  Closures are left out
(see `C20_closure_wrong`), and so are larger requests (see `C17_huge_wrong`). -/
def Allowed (H : Heap) : Op → Prop
  | .alloc t s kind => t < 64 ∧ s + 1 ≤ maxRequest ∧ kind ≠ .closure
  | .store c _ v => Accessible H c ∧ ∀ d, v = some d → Accessible H d
  | .setsys l => ∀ x ∈ l, Accessible H x
  | .setstk _ l => ∀ x ∈ l, Accessible H x
  | .setspec _ l => ∀ x ∈ l, Accessible H x
  | .setcls l => ∀ x ∈ l, Accessible H x
  | .hook c _ => Accessible H c
  | .collect => True

/-- The table of how many cells a thread fetches at once asks for at least one (memory.c:269: 500,
300, 20, 15, 10). -/
def EnvOk (env : Env) : Prop := ∀ i, 1 ≤ i → i ≤ 5 → 1 ≤ env.fill i

/-- The states after any history of operations that ended normally. -/
inductive Hist (env : Env) : Heap → Prop
  | init (H : Heap) (h : initmemory env = .ok H) : Hist env H
  | step (H H' : Heap) (n : Nat) (op : Op) (h : Hist env H) (ha : Allowed H op) (hs : step env n H op = .ok H') :
      Hist env H'

/-- The words on the free lists of the root allocator. -/
def freeTotal (H : Heap) : Nat := ((List.range 40).map fun k => ((H.free k).map (size H)).sum).sum

/-- The words on the free lists of the threads. -/
def localTotal (H : Heap) : Nat :=
  ((List.range 64).map fun t => ([1, 2, 3, 4, 5].map fun j => ((H.tb t j).map (size H)).sum).sum).sum

/-- The words of the blocks handed out and not freed since. -/
def usedTotal (H : Heap) : Nat := (H.used.map fun u => size H u.1).sum

/-- The words obtained from the operating system. -/
def chunkTotal (H : Heap) : Nat := (H.chunks.map fun ck => buddysize ck.2).sum

/-- Executions from `H` to `H'` in which the block `x` is not handed out. -/
inductive Without (env : Env) (x : Cell) (H : Heap) : Heap → Prop
  | refl : Without env x H H
  | step (H1 H2 : Heap) (n : Nat) (op : Op) (h : Without env x H H1) (ha : Allowed H1 op)
      (hs : step env n H1 op = .ok H2)
      (hx : ∀ t s kind, op = .alloc t s kind → gc_alloc env n t s kind H1 ≠ .ok (H2, x)) : Without env x H H2

/-- Several operations. -/
def run (env : Env) (n : Nat) : Heap → List Op → Res Heap
  | H, [] => .ok H
  | H, op :: ops => (step env n H op).bind fun H' => run env n H' ops

end Eus.Mem
