import Verif.Eql.Proofs2
set_option autoImplicit false
/-
C25: equal keys have equal hashes.  C41: `equal` is structural equality.  C81: `superequal`.
-/
namespace Eus.Eql

/-- A class table: 0 cons, 1 symbol, 2 string, 3 bit vector, 4 vector, 5 a number too large for an
immediate (two slots). -/
def envEx : Env where
  consSub := 0
  symLo := 1
  symHi := 1
  strLo := 2
  strHi := 2
  objsize := fun _ => 2
  pname := fun _ => 0

def consEx (a d : Val) : Obj := ⟨0, .fixed, 0, [a, d], []⟩
def symEx : Obj := ⟨1, .fixed, 0, [.int 0, .int 0], []⟩
def strEx (n : Nat) (w : List Word) : Obj := ⟨2, .char, n, [], w⟩
def bitEx (n : Nat) (w : List Word) : Obj := ⟨3, .bit, n, [], w⟩
def vecEx (v : List Val) : Obj := ⟨4, .pointer, v.length, v, []⟩

/-- 0: the symbol nil; 1: "ab", 2: "ab", 3: #("ab" 7), 4: #("ab" 7), 5: (#("ab" 7)), 6: (#("ab" 7)),
7: "abc". -/
def heapEx : Heap := fun a =>
  match a with
  | 0 => symEx
  | 1 => strEx 2 [0x6261]
  | 2 => strEx 2 [0x6261]
  | 3 => vecEx [.ptr 1, .int 7]
  | 4 => vecEx [.ptr 2, .int 7]
  | 5 => consEx (.ptr 3) (.ptr 0)
  | 6 => consEx (.ptr 4) (.ptr 0)
  | 7 => strEx 3 [0x636261]
  | _ => symEx

theorem heapEx_cases (P : Obj → Prop) (h0 : P symEx) (h1 : P (strEx 2 [0x6261])) (h3 : P (vecEx [.ptr 1, .int 7]))
    (h4 : P (vecEx [.ptr 2, .int 7])) (h5 : P (consEx (.ptr 3) (.ptr 0))) (h6 : P (consEx (.ptr 4) (.ptr 0))) (h7 : P (strEx 3 [0x636261])) :
    ∀ a, P (heapEx a) := by
  intro a
  unfold heapEx
  split <;> assumption

theorem heapEx_wf : WF envEx heapEx where
  fixed := heapEx_cases (fun o => o.elm = .fixed → o.slots.length = envEx.objsize o.cix) (by decide) (by decide) (by decide) (by decide) (by decide) (by decide) (by decide)
  pointer := heapEx_cases (fun o => o.elm = .pointer → o.slots.length = o.size) (by decide) (by decide) (by decide) (by decide) (by decide) (by decide) (by decide)
  words := heapEx_cases (fun o => nwords o.elm o.size ≤ o.words.length ∨ o.elm = .fixed ∨ o.elm = .pointer) (by decide) (by decide) (by decide) (by decide) (by decide) (by decide) (by decide)
  cons := heapEx_cases (fun o => envEx.islist o.cix = true → o.elm = .fixed ∧ 2 ≤ o.slots.length) (by decide) (by decide) (by decide) (by decide) (by decide) (by decide) (by decide)
  disj := heapEx_cases (fun o => envEx.islist o.cix = true → ¬ envEx.issym o.cix = true) (by decide) (by decide) (by decide) (by decide) (by decide) (by decide) (by decide)
  str := heapEx_cases (fun o => envEx.isstr o.cix = true → o.elm = .char) (by decide) (by decide) (by decide) (by decide) (by decide) (by decide) (by decide)

theorem heapEx_clean : Clean heapEx := by
  have : ∀ a, ∀ i < (base (heapEx a).elm).2 * nwords (heapEx a).elm (heapEx a).size, (heapEx a).size ≤ i → elem (heapEx a) i = 0 :=
    heapEx_cases (fun o => ∀ i < (base o.elm).2 * nwords o.elm o.size, o.size ≤ i → elem o i = 0) (by decide) (by decide) (by decide) (by decide) (by decide) (by decide) (by decide)
  intro a i h1 h2
  exact this a i h2 h1

/-! ### C41 -/

/-- On finite objects whose packed vectors have zero padding, `equal` returns, and answers whether both
are the same tree: the same numbers, symbols and classes, and the same elements. -/
theorem C41_structural_partial {E : Env} {H : Heap} (hw : WF E H) (hc : Clean H) {x y : Val} {s t : Tree} (hx : IsTree E H x s) (hy : IsTree E H y t) :
    ∃ N b, (∀ n ≥ N, equal E H n x y = some b) ∧ (b = true ↔ s = t) := by
  classical
  obtain ⟨N, hN⟩ := hx
  refine ⟨N, decide (s = t), fun n hn => ?_, by simp⟩
  obtain ⟨r, e⟩ := equal_defined E H n x y s (tree_mono E H N x s hN n hn)
  have := equal_spec E H hw hc n x y s t r ⟨N, hN⟩ hy e
  rw [e]
  congr 1
  rw [Bool.eq_iff_iff, this]
  simp

example : IsTree envEx heapEx (.ptr 5) (.obj 0 [.vec 4 [.data 2 .char [0x61, 0x62], .int 7], .sym 0]) ∧
    IsTree envEx heapEx (.ptr 6) (.obj 0 [.vec 4 [.data 2 .char [0x61, 0x62], .int 7], .sym 0]) := ⟨⟨4, rfl⟩, ⟨4, rfl⟩⟩

example : WF envEx heapEx ∧ Clean heapEx := ⟨heapEx_wf, heapEx_clean⟩

example : equal envEx heapEx 9 (.ptr 5) (.ptr 6) = some true ∧ equal envEx heapEx 9 (.ptr 1) (.ptr 7) = some false := by decide

/-- `equal` is an equivalence relation, on all objects. -/
theorem C41_refl (E : Env) (H : Heap) (n : Nat) (x : Val) : equal E H (n + 1) x x = some true := equal_self E H n x

theorem C41_symm {E : Env} {H : Heap} (hw : WF E H) {n : Nat} {x y : Val} (h : equal E H n x y = some true) : equal E H n y x = some true :=
  equal_symm hw n x y h

theorem C41_trans {E : Env} {H : Heap} (hw : WF E H) {n : Nat} {x y z : Val} (h : equal E H n x y = some true) (h' : equal E H n y z = some true) :
    equal E H n x z = some true := equal_trans hw n x y z h h'

/-- `#*0`, and what `(bit-not #*1)` makes: a one-bit vector of the bit 0 whose padding is all ones. -/
def heapBits : Heap := fun a =>
  match a with
  | 0 => bitEx 1 [0]
  | 1 => bitEx 1 [0xfffffffffffffffe]
  | _ => symEx

/-- Two bit vectors with the same bits that are not `equal`: the whole last word is compared. -/
theorem C41_padding_wrong : (∃ t, IsTree envEx heapBits (.ptr 0) t ∧ IsTree envEx heapBits (.ptr 1) t) ∧
    ∀ n, equal envEx heapBits (n + 1) (.ptr 0) (.ptr 1) = some false := by
  refine ⟨⟨.data 3 .bit [0], ⟨1, rfl⟩, ⟨1, rfl⟩⟩, fun n => ?_⟩
  rw [equal_ptr _ _ _ _ _ (by decide)]
  rfl

/-! ### C25 -/

/-- On objects made of numbers, symbols, conses, strings and vectors, `equal` implies the same hash, and
there is a hash. -/
theorem C25_equal_hash_partial {E : Env} {H : Heap} (hw : WF E H) {d : Nat} {x y : Val} (hp : Plain E H d x) {n : Nat} (he : equal E H n x y = some true) :
    (∀ k, sxhash E H k x = sxhash E H k y) ∧ ∀ k ≥ d, ∃ h, sxhash E H k x = some h :=
  ⟨(hash_congr hw d x y n hp he).1, (hash_defined hw d x hp).1⟩

example : Plain envEx heapEx 4 (.ptr 5) ∧ equal envEx heapEx 4 (.ptr 5) (.ptr 6) = some true ∧
    sxhash envEx heapEx 4 (.ptr 5) = some 640 := by
  refine ⟨?_, by decide, by decide⟩
  refine Or.inr ⟨rfl, ?_⟩
  intro v hv
  have : v = .ptr 3 ∨ v = .ptr 0 := by simpa [heapEx, consEx] using hv
  rcases this with rfl | rfl
  · refine Or.inr ?_
    intro v hv
    have : v = .ptr 1 ∨ v = .int 7 := by simpa [heapEx, vecEx] using hv
    rcases this with rfl | rfl
    · exact Or.inr trivial
    · trivial
  · exact Or.inl rfl

/-- Two numbers beyond the immediate ones, the same in value, at different addresses. -/
def heapBig : Heap := fun a =>
  match a with
  | 16 => ⟨5, .fixed, 0, [.int 2, .int 3], []⟩
  | 32 => ⟨5, .fixed, 0, [.int 2, .int 3], []⟩
  | _ => symEx

/-- `equal` objects that are neither conses nor vectors (ratios, big integers, instances of classes)
hash by address. -/
theorem C25_object_wrong : equal envEx heapBig 2 (.ptr 16) (.ptr 32) = some true ∧
    sxhash envEx heapBig 2 (.ptr 16) = some 4 ∧ sxhash envEx heapBig 2 (.ptr 32) = some 8 := by decide

/-- The value of `(sxhash x m)` is a natural number below `m`. -/
theorem C25_range (h : Word) (m : Nat) (hm : 0 < m) : ∃ r, SXHASH h m = some r ∧ r < m :=
  ⟨_, if_neg (by omega), Nat.mod_lt _ hm⟩

example : SXHASH 643 10 = some 3 := by decide

/-! ### C81 -/

/-- `superequal` on a heap of `N` objects, none marked, always returns, circular or not, with no marks left
behind; when it answers, `equal` does not answer otherwise. -/
theorem C81_superequal {E : Env} {H : Heap} (hw : WF E H) {N : Nat} (hN : Closed H N) {x y : Val} (hx : ∀ a, x = .ptr a → a < N)
    (hy : ∀ b, y = .ptr b → b < N) :
    ∃ r, superequal E H (N + 1) (fun _ => false) x y = some (r, fun _ => false) ∧
      (r = .t → ∀ k, equal E H k x y ≠ some false) ∧ (r = .nil → ∀ k, equal E H k x y ≠ some true) := by
  obtain ⟨r, h⟩ := superequal_defined hw hN (N + 1) (fun _ => false) x y (by unfold unmarked; exact Nat.lt_succ_of_le (by simpa using List.countP_le_length (p := fun a => !(fun _ : Nat => false) a) (l := List.range N))) hx hy
  have := superequal_spec hw _ _ _ _ _ _ h
  exact ⟨r, h, this.2⟩

/-- On finite objects, what `superequal` answers is the truth. -/
theorem C81_sound {E : Env} {H : Heap} (hw : WF E H) (hc : Clean H) {x y : Val} {s t : Tree} (hx : IsTree E H x s) (hy : IsTree E H y t)
    {n : Nat} {m m' : Marks} {r : R3} (h : superequal E H n m x y = some (r, m')) : (r = .t → s = t) ∧ (r = .nil → s ≠ t) := by
  obtain ⟨N, b, hb, hst⟩ := C41_structural_partial hw hc hx hy
  obtain ⟨-, h1, h2⟩ := superequal_spec hw _ _ _ _ _ _ h
  refine ⟨fun hr => ?_, fun hr hs => ?_⟩
  · by_contra hne
    have : b = false := by
      cases b with
      | false => rfl
      | true => exact absurd (hst.1 rfl) hne
    exact h1 hr N (by rw [hb N (le_refl N), this])
  · exact h2 hr N (by rw [hb N (le_refl N), hst.2 hs])

example : Closed heapEx 8 := by
  have : ∀ a, ∀ v ∈ (heapEx a).slots, v ∈ [.int 0, .int 7, .ptr 0, .ptr 1, .ptr 2, .ptr 3, .ptr 4] :=
    heapEx_cases (fun o => ∀ v ∈ o.slots, v ∈ [.int 0, .int 7, .ptr 0, .ptr 1, .ptr 2, .ptr 3, .ptr 4]) (by decide) (by decide) (by decide) (by decide) (by decide) (by decide) (by decide)
  intro a _ b hb
  have := this a _ hb
  simp at this
  omega

example : (superequal envEx heapEx 9 (fun _ => false) (.ptr 5) (.ptr 6)).map Prod.fst = some .t := by decide

/-- 1: `(1)`; 2: `((1))`; 3: `(((1)))`, whose car is 2.  4: a circular list. -/
def heapNest : Heap := fun a =>
  match a with
  | 0 => symEx
  | 1 => consEx (.int 1) (.ptr 0)
  | 2 => consEx (.ptr 1) (.ptr 0)
  | 3 => consEx (.ptr 2) (.ptr 0)
  | 4 => consEx (.int 1) (.ptr 4)
  | 5 => consEx (.int 1) (.ptr 5)
  | _ => symEx

example : (superequal envEx heapNest 9 (fun _ => false) (.ptr 4) (.ptr 5)).map Prod.fst = some .unbound := by decide

/-- `((1))` against `(((1)))`, the first a part of the second: `superequal` reports a circular list,
though both are finite. -/
theorem C81_circular_wrong : (∃ s, IsTree envEx heapNest (.ptr 2) s) ∧ (∃ t, IsTree envEx heapNest (.ptr 3) t) ∧
    (superequal envEx heapNest 9 (fun _ => false) (.ptr 2) (.ptr 3)).map Prod.fst = some .unbound ∧
    equal envEx heapNest 9 (.ptr 2) (.ptr 3) = some false :=
  ⟨⟨.obj 0 [.obj 0 [.int 1, .sym 0], .sym 0], 3, rfl⟩, ⟨.obj 0 [.obj 0 [.obj 0 [.int 1, .sym 0], .sym 0], .sym 0], 4, rfl⟩, by decide, by decide⟩

end Eus.Eql
