import Verif.Bec.Spec
import Mathlib.Data.Nat.Bitwise
set_option autoImplicit false
/-
C212: become and replace-object.
-/
namespace Eus.Bec

theorem newLength_bits (e1 e2 : Elm) (n d : Nat) (h : n * e1.bits ≤ 64 * d) :
    n * e1.bits ≤ newLength e1 e2 n * e2.bits ∧ newLength e1 e2 n * e2.bits ≤ 64 * d ∧ newLength e1 e2 n * e2.bits < n * e1.bits + 64 := by
  cases e1 <;> cases e2 <;> simp only [newLength, Elm.bits] at * <;> omega

/-- C212.  A vector of bits, bytes, characters, integers or floats becomes any other of them: the new elements cover all of the old ones, do not leave the cell, and there is less than one word more of them. -/
theorem C212_class (v : Vec) (e2 : Elm) (h1 : Plain v.elm) (h2 : Plain e2) (h0 : 0 ≤ v.size) (hf : Fits v) (hs : v.size * (v.elm.bits : Int) < 2 ^ 31 - 64) :
    ∃ w, becomeClass v e2 = .ok w ∧ w.elm = e2 ∧ w.words = v.words ∧ w.data = v.data ∧ Fits w ∧
      v.size * (v.elm.bits : Int) ≤ w.size * (e2.bits : Int) ∧ w.size * (e2.bits : Int) < v.size * (v.elm.bits : Int) + 64 := by
  obtain ⟨n, hn⟩ := Int.eq_ofNat_of_zero_le h0
  have hf' : n * v.elm.bits ≤ 64 * v.data := by
    unfold Fits at hf; rw [hn] at hf; exact_mod_cast hf
  obtain ⟨a, b, c⟩ := newLength_bits v.elm e2 n v.data hf'
  have hs' : n * v.elm.bits < 2 ^ 31 - 64 := by
    rw [hn] at hs
    have : ((n * v.elm.bits : Nat) : Int) < 2 ^ 31 - 64 := by exact_mod_cast hs
    omega
  have hb : 1 ≤ e2.bits := by cases e2 <;> simp [Elm.bits]
  have hlt : newLength v.elm e2 n < 2 ^ 31 := by
    have : newLength v.elm e2 n * 1 ≤ newLength v.elm e2 n * e2.bits := Nat.mul_le_mul_left _ hb
    omega
  have hk : v.size.toNat = n := by rw [hn]; rfl
  refine ⟨{ v with elm := e2, size := newLength v.elm e2 n }, ?_, rfl, rfl, rfl, ?_, ?_, ?_⟩
  · unfold becomeClass
    rw [if_neg h1.1, if_neg (fun h => h1.2.2 h.1)]
    simp only [hk]
    rw [if_pos hlt]
  · show ((newLength v.elm e2 n : Nat) : Int) * (e2.bits : Int) ≤ 64 * (v.data : Int)
    exact_mod_cast b
  · rw [hn]; show ((n : Nat) : Int) * _ ≤ ((newLength v.elm e2 n : Nat) : Int) * _
    exact_mod_cast a
  · rw [hn]; show ((newLength v.elm e2 n : Nat) : Int) * _ < ((n : Nat) : Int) * _ + 64
    exact_mod_cast c

/-- C212.  Bit j of a byte vector that has become a bit vector is bit j mod 8 of byte j div 8, and the other way round. -/
theorem C212_bits (v w : Vec) (h : becomeClass v .bit = .ok w ∨ becomeClass w .byte = .ok v ∨ becomeClass w .char = .ok v) (j : Nat) :
    bitAt w j = (byteAt v (j / 8)).testBit (j % 8) := by
  have hw : w.words = v.words := by
    have key : ∀ (a b : Vec) (e : Elm), becomeClass a e = .ok b → b.words = a.words := by
      intro a b e h
      unfold becomeClass at h
      split at h
      · exact absurd h (by simp)
      · split at h
        · exact absurd h (by simp)
        · simp only at h
          split at h
          · injection h with h; rw [← h]
          · exact absurd h (by simp)
    rcases h with h | h | h
    · exact key _ _ _ h
    · exact (key _ _ _ h).symm
    · exact (key _ _ _ h).symm
  unfold bitAt byteAt
  rw [hw, show (256 : Nat) = 2 ^ 8 from rfl, Nat.testBit_mod_two_pow, Nat.testBit_shiftRight]
  have h1 : j / 8 / 8 = j / 64 := by omega
  have h2 : 8 * (j / 8 % 8) + j % 8 = j % 64 := by omega
  have h3 : j % 8 < 8 := Nat.mod_lt _ (by decide)
  rw [h1, h2]
  simp [h3]

/-- C212.  Byte i of an integer vector that has become a byte vector or a string is the i mod 8-th digit to the base 256 of integer i div 8. -/
theorem C212_bytes (v w : Vec) (e : Elm) (h : becomeClass v e = .ok w) (i : Nat) : byteAt w i = wordAt v (i / 8) / 256 ^ (i % 8) % 256 := by
  have hw : w.words = v.words := by
    unfold becomeClass at h
    split at h
    · exact absurd h (by simp)
    · split at h
      · exact absurd h (by simp)
      · simp only at h
        split at h
        · injection h with h; rw [← h]
        · exact absurd h (by simp)
  unfold byteAt wordAt
  rw [hw, Nat.shiftRight_eq_div_pow, Nat.pow_mul]

/-- C212.  Becoming the finer type and back gives the vector again. -/
theorem C212_back (v w : Vec) (e2 : Elm) (h1 : Plain v.elm) (h2 : Plain e2) (h0 : 0 ≤ v.size) (hb : e2.bits ≤ v.elm.bits) (hs : v.size < 2 ^ 31)
    (h : becomeClass v e2 = .ok w) : becomeClass w v.elm = .ok v := by
  obtain ⟨e, sz, ws, d⟩ := v
  obtain ⟨n, rfl⟩ := Int.eq_ofNat_of_zero_le h0
  simp only at *
  unfold becomeClass at h
  simp only at h
  rw [if_neg h1.1, if_neg (fun h => h1.2.2 h.1)] at h
  simp only [Int.toNat_natCast] at h
  split at h
  · injection h with h
    subst h
    have hr : newLength e2 e (newLength e e2 n) = n := by
      cases e <;> cases e2 <;> simp only [newLength, Elm.bits] at * <;> omega
    unfold becomeClass
    rw [if_neg h2.1, if_neg (fun h => h2.2.2 h.1)]
    simp only [Int.toNat_natCast]
    rw [hr, if_pos (by exact_mod_cast hs)]
  · exact absurd h (by simp)

/-- C212.  A vector of objects becomes only a vector of objects, and a record never a vector. -/
theorem C212_refused (v : Vec) (e2 : Elm) :
    (v.elm = .pointer → e2 ≠ .pointer → becomeClass v e2 = .typeMismatch) ∧ (v.elm = .fixed → becomeClass v e2 = .recordToVector) := by
  unfold becomeClass
  constructor
  · intro h h2
    rw [if_neg (by rw [h]; decide), if_pos ⟨h, by rw [h]; exact fun h => h2 h.symm⟩]
  · intro h
    rw [if_pos h]

/-- C212 fails: nothing stops integers from becoming objects: any number in an integer vector is then taken for the address of an object. -/
theorem C212_address_wrong (v : Vec) (h : v.elm = .int) (h0 : 0 ≤ v.size) (hs : v.size < 2 ^ 31) :
    becomeClass v .pointer = .ok { v with elm := .pointer } := by
  obtain ⟨e, sz, ws, d⟩ := v
  obtain ⟨n, rfl⟩ := Int.eq_ofNat_of_zero_le h0
  simp only at h hs
  subst h
  have hl : newLength .int .pointer n = n := rfl
  unfold becomeClass
  simp only [Int.toNat_natCast, hl]
  rw [if_neg (by decide), if_neg (by decide), if_pos (by exact_mod_cast hs)]

/-- C212.  A new length is accepted exactly if the elements lie within the cell; only the length changes. -/
theorem C212_resize (v : Vec) (m : Nat) :
    (Fits { v with size := m } → becomeSize v m = .ok { v with size := m }) ∧ (¬ Fits { v with size := m } → becomeSize v m = .arrayIndex) := by
  have key : wordsFor v.elm m + 2 ≤ (v.data : Int) + 2 ↔ Fits { v with size := m } := by
    unfold Fits wordsFor
    have t1 : ((m : Int) + 64 - 1).tdiv 64 = ((m + 63) / 64 : Nat) := by
      rw [Int.tdiv_eq_ediv_of_nonneg (by omega)]; omega
    have t2 : ((m : Int) + 64 / 8 - 1).tdiv (64 / 8) = ((m + 7) / 8 : Nat) := by
      rw [Int.tdiv_eq_ediv_of_nonneg (by omega)]; omega
    cases h : v.elm <;> simp only [Elm.bits] <;> first | (rw [t1]; omega) | (rw [t2]; omega) | omega
  unfold becomeSize
  constructor
  · intro h; rw [if_pos (key.2 h)]
  · intro h; rw [if_neg (fun c => h (key.1 c))]

/-- C212 fails: a negative length is accepted for every vector. -/
theorem C212_negative_wrong (v : Vec) (m : Int) (hm : m < 0) : becomeSize v m = .ok { v with size := m } := by
  have h64 : (m + 64 - 1).tdiv 64 ≤ 0 := by
    rcases Int.lt_or_le (m + 64 - 1) 0 with h | h
    · have e : (m + 64 - 1).tdiv 64 = -((-(m + 64 - 1)).tdiv 64) := by rw [Int.neg_tdiv, Int.neg_neg]
      have := Int.tdiv_nonneg (a := -(m + 64 - 1)) (b := 64) (by omega) (by decide)
      omega
    · rw [Int.tdiv_eq_ediv_of_nonneg h]; omega
  have h8 : (m + 64 / 8 - 1).tdiv (64 / 8) ≤ 0 := by
    rcases Int.lt_or_le (m + 64 / 8 - 1) 0 with h | h
    · have e : (m + 64 / 8 - 1).tdiv (64 / 8) = -((-(m + 64 / 8 - 1)).tdiv (64 / 8)) := by rw [Int.neg_tdiv, Int.neg_neg]
      have := Int.tdiv_nonneg (a := -(m + 64 / 8 - 1)) (b := (64 / 8)) (by omega) (by decide)
      omega
    · rw [Int.tdiv_eq_ediv_of_nonneg h]; omega
  unfold becomeSize
  rw [if_pos]
  unfold wordsFor
  cases v.elm <;> simp only <;> omega

theorem replaceLoop_eq (src : Nat → Nat) (n : Nat) : ∀ (dest : Nat → Nat) (i : Nat), replaceLoop dest src n i = if i < n then src i else dest i := by
  induction n with
  | zero => intro dest i; simp [replaceLoop]
  | succ n ih =>
    intro dest i
    rw [replaceLoop, ih]
    by_cases h : i < n
    · rw [if_pos h, if_pos (by omega)]
    · by_cases e : i = n
      · subst e; simp
      · rw [if_neg h, if_neg e, if_neg (by omega)]

/-- C212.  `(replace-object dest src)` of records: the slots both classes have become those of src, the others stay. -/
theorem C212_replace (dest src : Obj) (i : Nat) :
    (replaceObject dest src).slots i = (if i < src.vars ∧ i < dest.vars then src.slots i else dest.slots i) ∧ (replaceObject dest src).vars = dest.vars := by
  refine ⟨?_, rfl⟩
  unfold replaceObject
  simp only
  rw [replaceLoop_eq]
  by_cases h : i < src.vars ∧ i < dest.vars
  · rw [if_pos h, if_pos (by omega)]
  · rw [if_neg h, if_neg (by omega)]

/-- C212 fails for vectors: replace-object gives the length of src to dest and leaves its elements, so a shorter vector then reaches beyond its cell. -/
theorem C212_replace_wrong (dest src : Vec) (h0 : 0 ≤ src.size) :
    (ofObj dest (replaceObject (asObj dest) (asObj src))).size = src.size ∧ (ofObj dest (replaceObject (asObj dest) (asObj src))).words = dest.words ∧
    (dest.elm = src.elm → ¬ Fits { src with data := dest.data } → ¬ Fits (ofObj dest (replaceObject (asObj dest) (asObj src)))) := by
  have hz : (ofObj dest (replaceObject (asObj dest) (asObj src))).size = src.size := by
    show (((replaceObject (asObj dest) (asObj src)).slots 0 : Nat) : Int) = src.size
    rw [(C212_replace _ _ 0).1]
    simp [asObj, Int.toNat_of_nonneg h0]
  refine ⟨hz, ?_, ?_⟩
  · funext i
    show (replaceObject (asObj dest) (asObj src)).slots (i + 1) = dest.words i
    rw [(C212_replace _ _ (i + 1)).1]
    simp [asObj]
  · intro he hn hf
    apply hn
    unfold Fits at *
    rw [hz] at hf
    simpa [ofObj, he] using hf

/-- five integers in a cell with six data words -/
def exV : Vec := ⟨.int, 5, fun i => 1000 * i, 6⟩

example : Plain exV.elm ∧ Plain .bit ∧ Fits exV := by
  refine ⟨?_, ?_, ?_⟩ <;> simp [Plain, exV, Fits, Elm.bits]
example : ∃ w, becomeClass exV .char = .ok w ∧ w.size = 40 ∧ byteAt w 9 = 3 :=
  ⟨{ exV with elm := .char, size := 40 }, rfl, rfl, by decide⟩
example : ∃ w, becomeSize exV 6 = .ok w := ⟨_, rfl⟩
example : becomeSize exV 7 = .arrayIndex := rfl

end Eus.Bec
