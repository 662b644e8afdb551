import Verif.Arr.Spec
import Verif.Bits.Props
import Mathlib.Tactic.Linarith
set_option autoImplicit false
namespace Eus.Arr
open Eus.Num
variable {α : Type}

theorem int32_eq (i : Int) (h : -2 ^ 31 ≤ i) (h' : i < 2 ^ 31) : int32 i = i := by
  unfold int32
  rw [Int.bmod_def]; split_ifs <;> omega

theorem fits_iff (i : Int) : fits i = true ↔ -2 ^ 31 ≤ i ∧ i < 2 ^ 31 := by simp [fits]

theorem valid_prod_pos {dims is : List Int} (h : Valid dims is) : 0 < dims.prod := by
  induction h with
  | nil => simp
  | cons h _ ih => rw [List.prod_cons]; exact Int.mul_pos (by omega) ih

theorem rowMajor_bounds {dims is : List Int} (h : Valid dims is) :
    0 ≤ rowMajor dims is ∧ rowMajor dims is < dims.prod := by
  induction h with
  | nil => simp [rowMajor]
  | @cons d i ds is h hv ih =>
    have hp := valid_prod_pos hv
    simp only [rowMajor, List.prod_cons]
    constructor
    · nlinarith [ih.1, h.1]
    · nlinarith [ih.2, h.2]

theorem rowMajor_inj {dims is js : List Int} (h : Valid dims is) (h' : Valid dims js)
    (e : rowMajor dims is = rowMajor dims js) : is = js := by
  induction h generalizing js with
  | nil => cases h'; rfl
  | @cons d i ds is h hv ih =>
    cases h' with
    | @cons _ j _ js hj hv' =>
      have hp := valid_prod_pos hv
      have b1 := rowMajor_bounds hv
      have b2 := rowMajor_bounds hv'
      simp only [rowMajor] at e
      have e1 : i = j := by
        rcases lt_trichotomy i j with hl | hl | hl
        · nlinarith
        · exact hl
        · nlinarith
      subst e1
      rw [ih hv' (by linarith)]

theorem indexLoop_valid {dims is : List Int} (h : Valid dims is) (index : Int) (h0 : 0 ≤ index)
    (hb : (index + 1) * dims.prod < 2 ^ 31) :
    indexLoop dims is index = .ok (index * dims.prod + rowMajor dims is) := by
  induction h generalizing index with
  | nil => simp [indexLoop, rowMajor]
  | @cons d i ds is h hv ih =>
    have hp := valid_prod_pos hv
    rw [List.prod_cons] at hb
    have hd : d ≤ (index + 1) * (d * ds.prod) := by nlinarith [Int.mul_pos (show 0 < d by omega) hp]
    have hn : (index * d + i + 1) * ds.prod ≤ (index + 1) * (d * ds.prod) := by nlinarith
    have hn' : index * d + i + 1 ≤ (index * d + i + 1) * ds.prod := by
      nlinarith [mul_nonneg h0 (show 0 ≤ d by omega)]
    have hm : 0 ≤ index * d := mul_nonneg h0 (by omega)
    have e1 : int32 d = d := int32_eq d (by omega) (by omega)
    have e2 : int32 i = i := int32_eq i (by omega) (by omega)
    have f1 : fits (index * d) = true := (fits_iff _).2 ⟨by omega, by omega⟩
    have f2 : fits (index * d + i) = true := (fits_iff _).2 ⟨by omega, by omega⟩
    rw [indexLoop, e1, e2, if_neg (by omega), f1, f2]
    simp only [Bool.and_self, if_true]
    rw [ih _ (by omega) (by omega)]
    simp only [rowMajor, List.prod_cons]
    congr 1; ring

theorem prod_pos' (l : List Int) (h : ∀ d ∈ l, 0 < d) : 0 < l.prod := by
  induction l with
  | nil => simp
  | cons d l ih =>
    rw [List.prod_cons]
    exact Int.mul_pos (h d (List.mem_cons_self ..)) (ih fun d hd => h d (List.mem_cons_of_mem _ hd))

theorem indexLoop_bad {dims is : List Int} (hl : is.length = dims.length) (hd : ∀ d ∈ dims, 0 < d)
    (hi : ∀ i ∈ is, 0 ≤ i ∧ i < 2 ^ 31) (hbad : ¬ Valid dims is) (index : Int) (h0 : 0 ≤ index)
    (hb : (index + 1) * dims.prod < 2 ^ 31) : indexLoop dims is index = .err := by
  induction dims generalizing is index with
  | nil => cases is with
    | nil => exact absurd List.Forall₂.nil hbad
    | cons _ _ => simp at hl
  | cons d ds ih => cases is with
    | nil => simp at hl
    | cons i is =>
      have hp : 0 < ds.prod := prod_pos' _ fun d h => hd d (List.mem_cons_of_mem _ h)
      have hd0 := hd d (List.mem_cons_self ..)
      have hi0 := hi i (List.mem_cons_self ..)
      rw [List.prod_cons] at hb
      have hdd : d ≤ (index + 1) * (d * ds.prod) := by nlinarith [Int.mul_pos hd0 hp]
      have e1 : int32 d = d := int32_eq d (by omega) (by omega)
      have e2 : int32 i = i := int32_eq i (by omega) (by omega)
      rw [indexLoop, e1, e2]
      by_cases hid : i ≥ d
      · rw [if_pos hid]
      · rw [if_neg hid]
        have hn : (index * d + i + 1) * ds.prod ≤ (index + 1) * (d * ds.prod) := by nlinarith
        have hm : 0 ≤ index * d := mul_nonneg h0 (by omega)
        have hn' : index * d + i + 1 ≤ (index * d + i + 1) * ds.prod := by nlinarith
        have f1 : fits (index * d) = true := (fits_iff _).2 ⟨by omega, by omega⟩
        have f2 : fits (index * d + i) = true := (fits_iff _).2 ⟨by omega, by omega⟩
        rw [f1, f2]
        simp only [Bool.and_self, if_true]
        refine ih (by simpa using hl) (fun d h => hd d (List.mem_cons_of_mem _ h))
          (fun i h => hi i (List.mem_cons_of_mem _ h)) (fun hv => hbad ?_) _ (by omega) (by omega)
        exact List.Forall₂.cons ⟨hi0.1, by omega⟩ hv

theorem arrayindex_valid {a : Ary α} {is : List Int} (hw : a.WF) (h : Valid a.dims is) :
    arrayindex a is = .ok (rowMajor a.dims is + a.offset) := by
  have hb := rowMajor_bounds h
  have := hw.small; have := hw.off; have := hw.inside; have := hw.size
  unfold arrayindex
  rw [if_neg (by simpa using h.length_eq.symm), indexLoop_valid h 0 (by omega) (by omega)]
  simp only [zero_mul, zero_add]
  rw [int32_eq _ (by omega) (by omega)]

/-! ### initial contents -/

theorem fillRow_eq (major : Nat) : ∀ (seq : List α) (inc offset : Nat) (vec : List α),
    inc + seq.length ≤ major → offset + seq.length ≤ vec.length →
    fillRow major inc seq offset vec =
      some (vec.take offset ++ seq ++ vec.drop (offset + seq.length)) := by
  intro seq
  induction seq with
  | nil => intro inc offset vec _ h; simp [fillRow]
  | cons x seq ih =>
    intro inc offset vec h h'
    simp only [List.length_cons] at h h'
    rw [fillRow, if_pos (by omega), if_neg (by omega), ih _ _ _ (by omega) (by simp; omega)]
    congr 1
    rw [List.take_add_one, List.take_set_of_le (le_refl _), List.getElem?_set_self (by omega),
      List.drop_set_of_lt (by omega)]
    simp [Nat.add_assoc, Nat.add_comm 1]

/-- All elements of nested sequences, in order. -/
def flat : (n : Nat) → Nest α n → List α
  | 0, x => [x]
  | n + 1, s => ((show List (Nest α n) from s).map (flat n)).flatten

theorem flat_length : ∀ (ds : List Nat) (s : Nest α ds.length), Shaped ds s → (flat ds.length s).length = ds.prod
  | [], s, _ => rfl
  | d :: ds, s, h => by
    have ih := fun t ht => flat_length ds t (h.2 t ht)
    show (((show List (Nest α ds.length) from s).map (flat ds.length)).flatten).length = _
    have h1 : List.length (show List (Nest α ds.length) from s) = d := h.1
    revert ih
    generalize (show List (Nest α ds.length) from s) = l at h1
    intro ih
    rw [List.prod_cons, ← h1]
    clear h1 h s
    induction l with
    | nil => simp
    | cons t l ihl =>
      rw [List.map_cons, List.flatten_cons, List.length_append, ihl (fun t ht => ih t (List.mem_cons_of_mem _ ht)),
        ih t (List.mem_cons_self ..), List.length_cons]
      ring

theorem flatten_getElem? (P : Nat) : ∀ (l : List (List α)) (_ : ∀ t ∈ l, t.length = P) (i r : Nat),
    r < P → l.flatten[i * P + r]? = (l[i]?).bind (·[r]?) := by
  intro l
  induction l with
  | nil => intro _ i r _; simp
  | cons t l ih =>
    intro h i r hr
    have ht := h t (List.mem_cons_self ..)
    rw [List.flatten_cons, List.getElem?_append]
    cases i with
    | zero => rw [if_pos (by omega)]; simp
    | succ i =>
      rw [if_neg (by rw [ht]; nlinarith)]
      have : (i + 1) * P + r - t.length = i * P + r := by rw [ht, Nat.add_mul]; omega
      rw [this, ih (fun t h' => h t (List.mem_cons_of_mem _ h')) i r hr]
      simp

/-- Row-major position, natural numbers. -/
def rmN : List Nat → List Nat → Nat
  | _ :: ds, i :: is => i * ds.prod + rmN ds is
  | _, _ => 0

theorem rmN_lt : ∀ (ds is : List Nat), List.Forall₂ (fun d i => i < d) ds is → rmN ds is < ds.prod := by
  intro ds is h
  induction h with
  | nil => simp [rmN]
  | @cons d i ds is h _ ih => simp only [rmN, List.prod_cons]; nlinarith

theorem prod_ofNat (l : List Nat) : (l.map Int.ofNat).prod = (l.prod : Int) := by
  induction l with
  | nil => rfl
  | cons d l ih => rw [List.map_cons, List.prod_cons, List.prod_cons, ih]; push_cast; rfl

theorem rmN_rowMajor : ∀ (ds is : List Nat),
    rowMajor (ds.map Int.ofNat) (is.map Int.ofNat) = (rmN ds is : Int) := by
  intro ds
  induction ds with
  | nil => intro is; simp [rowMajor, rmN]
  | cons d ds ih =>
    intro is
    cases is with
    | nil => simp [rowMajor, rmN]
    | cons i is =>
      simp only [List.map_cons, rowMajor, rmN, ih, prod_ofNat]
      push_cast; rfl

theorem flat_get : ∀ (ds : List Nat) (s : Nest α ds.length) (is : List Nat), Shaped ds s →
    List.Forall₂ (fun d i => i < d) ds is → (flat ds.length s)[rmN ds is]? = nestGet ds.length s is
  | [], s, is, _, h => by cases h; rfl
  | d :: ds, s, is, hs, h => by
    cases h with
    | @cons _ i _ is hi h =>
      have ih := fun t ht => flat_get ds t is (hs.2 t ht) h
      have hlt := rmN_lt ds is h
      show (((show List (Nest α ds.length) from s).map (flat ds.length)).flatten)[i * ds.prod + rmN ds is]? = _
      rw [flatten_getElem? ds.prod _ _ i _ hlt]
      · rw [List.getElem?_map]
        show _ = ((show List (Nest α ds.length) from s)[i]?).bind fun t => nestGet ds.length t is
        cases e : (show List (Nest α ds.length) from s)[i]? with
        | none => rfl
        | some t => exact ih t (List.mem_of_getElem? e)
      · intro t ht
        obtain ⟨u, hu, rfl⟩ := List.mem_map.1 ht
        exact flat_length ds u (hs.2 u hu)

theorem splice_splice (vec a b : List α) (o : Nat) (h : o + a.length + b.length ≤ vec.length) :
    (vec.take o ++ a ++ vec.drop (o + a.length)).take (o + a.length) ++ b ++
      (vec.take o ++ a ++ vec.drop (o + a.length)).drop (o + a.length + b.length) =
    vec.take o ++ (a ++ b) ++ vec.drop (o + (a ++ b).length) := by
  have e : (vec.take o ++ a).length = o + a.length := by simp; omega
  rw [List.take_append_of_le_length (by omega), List.take_of_length_le (by omega), List.drop_append, e,
    List.drop_eq_nil_of_le (by omega)]
  simp [List.drop_drop, Nat.add_assoc]

theorem fillRows_eq {β : Type} (fill : β → Nat → List α → Option (List α)) (fl : β → List α) (P : Nat) :
    ∀ (seq : List β) (offset : Nat) (vec : List α), (∀ t ∈ seq, (fl t).length = P) →
    (∀ t ∈ seq, ∀ offset vec, offset + P ≤ vec.length →
      fill t offset vec = some (vec.take offset ++ fl t ++ vec.drop (offset + P))) →
    offset + seq.length * P ≤ vec.length →
    fillRows fill P seq.length seq offset vec =
      some (vec.take offset ++ (seq.map fl).flatten ++ vec.drop (offset + seq.length * P)) := by
  intro seq
  induction seq with
  | nil => intro o v _ _ _; simp [fillRows]
  | cons t seq ih =>
    intro o v hl hf hb
    rw [List.length_cons, Nat.add_mul, Nat.one_mul] at hb
    have hlt := hl t (List.mem_cons_self ..)
    rw [List.length_cons, fillRows, hf t (List.mem_cons_self ..) o v (by omega)]
    simp only
    rw [ih _ _ (fun t h => hl t (List.mem_cons_of_mem _ h)) (fun t h => hf t (List.mem_cons_of_mem _ h))
      (by simp; omega)]
    congr 1
    have hfl : ((seq.map fl).flatten).length = seq.length * P := by
      clear ih hf hb
      induction seq with
      | nil => simp
      | cons u seq ih2 =>
        rw [List.map_cons, List.flatten_cons, List.length_append, hl u (by simp), List.length_cons,
          ih2 (fun t h => hl t (by simp at h ⊢; tauto)), Nat.add_mul, Nat.one_mul, Nat.add_comm]
    have := splice_splice v (fl t) ((seq.map fl).flatten) o (by rw [hlt, hfl]; omega)
    rw [hlt, hfl] at this
    rw [this]
    simp only [List.map_cons, List.flatten_cons, List.length_append, hlt, hfl, Nat.add_mul, Nat.one_mul]
    congr 3; omega

theorem foldl_mul (l : List Nat) (a : Nat) : l.foldl (· * ·) a = a * l.prod := by
  induction l generalizing a with
  | nil => simp
  | cons x l ih => rw [List.foldl_cons, ih, List.prod_cons, Nat.mul_assoc]

theorem fillInitial_eq : ∀ (ds : List Nat) (d : Nat) (seq : Nest α (ds.length + 1)) (offset : Nat) (vec : List α),
    Shaped (d :: ds) seq → offset + d * ds.prod ≤ vec.length →
    fillInitial ds d seq offset vec =
      some (vec.take offset ++ flat (ds.length + 1) seq ++ vec.drop (offset + d * ds.prod))
  | [], d, seq, offset, vec, hs, hb => by
    have h1 : List.length (show List α from seq) = d := hs.1
    rw [List.prod_nil, Nat.mul_one] at *
    have hf : flat (([] : List Nat).length + 1) seq = (show List α from seq) := by
      show ((show List (Nest α 0) from seq).map (flat 0)).flatten = _
      generalize (show List (Nest α 0) from seq) = l
      induction l with
      | nil => rfl
      | cons x l ih => rw [List.map_cons, List.flatten_cons, ih]; rfl
    rw [hf, fillInitial]
    have := fillRow_eq d (show List α from seq) 0 offset vec (by omega) (by omega)
    rw [h1] at this
    exact this
  | d' :: ds, d, seq, offset, vec, hs, hb => by
    have h1 : List.length (show List (Nest α (ds.length + 1)) from seq) = d := hs.1
    rw [fillInitial, foldl_mul, Nat.one_mul, List.prod_cons]
    rw [List.prod_cons] at hb
    have := fillRows_eq (fillInitial ds d') (flat (ds.length + 1)) (d' * ds.prod)
      (show List (Nest α (ds.length + 1)) from seq) offset vec
      (fun t ht => by
        have := flat_length (d' :: ds) t (hs.2 t ht)
        rwa [List.prod_cons] at this)
      (fun t ht o v hv => fillInitial_eq ds d' t o v (hs.2 t ht) hv) (by rw [h1]; exact hb)
    rw [h1] at this
    exact this

/-! ### bits -/

theorem shl1_getLsbD (k i : Nat) (h : k < 64) : (1#64 <<< k).getLsbD i = decide (i = k) := by
  rw [BitVec.getLsbD_shiftLeft]
  have h1 : (1#64).getLsbD (i - k) = decide (i - k = 0) := by
    rw [BitVec.getLsbD_one]; simp
  rw [h1]
  rw [Bool.eq_iff_iff]
  simp only [Bool.and_eq_true, decide_eq_true_eq, Bool.not_eq_true', decide_eq_false_iff_not]
  omega

theorem and_shl1_ne (w : Word) (k : Nat) (h : k < 64) : (w &&& (1#64 <<< k) ≠ 0) ↔ w.getLsbD k = true := by
  constructor
  · intro hn
    by_contra hc
    apply hn
    apply BitVec.eq_of_getLsbD_eq
    intro i hi
    rw [BitVec.getLsbD_and, shl1_getLsbD k i h]
    by_cases e : i = k
    · subst e; simp [hc]
    · simp [e]
  · intro hb e
    have := congrArg (fun v => v.getLsbD k) e
    simp only [BitVec.getLsbD_and, shl1_getLsbD k k h, hb] at this
    simp at this

theorem BIT_eq (v : BV) (m : Nat) (h : m < v.size) :
    BIT v m = .ok ((v.words.getD (m / 64) 0).getLsbD (m % 64)) := by
  unfold BIT
  rw [if_neg (by omega)]
  congr 1
  rw [Bool.eq_iff_iff, decide_eq_true_eq]
  exact and_shl1_ne _ _ (Nat.mod_lt _ (by omega))

theorem and1_ne (val : Word) : (val &&& 1 ≠ 0) ↔ val.getLsbD 0 = true := by
  have := and_shl1_ne val 0 (by omega)
  simpa using this

theorem fastvset_bit (v : BV) (hw : v.WF) (n : Nat) (hn : n < v.size) (val : Word) :
    (fastvset v n val).WF ∧ (fastvset v n val).size = v.size ∧ ∀ m < v.size,
      BIT (fastvset v n val) m = if m = n then .ok (val.getLsbD 0) else BIT v m := by
  have hk : n % 64 < 64 := Nat.mod_lt _ (by omega)
  refine ⟨by simp only [fastvset, BV.WF, List.length_set]; exact hw, rfl, fun m hm => ?_⟩
  rw [BIT_eq _ _ (by exact hm), BIT_eq _ _ hm]
  simp only [fastvset]
  have hlen : n / 64 < v.words.length := by rw [hw]; omega
  by_cases e : n / 64 = m / 64
  · rw [← e]
    have hs : ∀ w, (v.words.set (n / 64) w).getD (n / 64) 0 = w := by
      intro w; rw [List.getD_eq_getElem?_getD, List.getElem?_set_self (by exact hlen)]; rfl
    rw [hs]
    have hmk : m % 64 < 64 := Nat.mod_lt _ (by omega)
    by_cases hv : val.getLsbD 0 = true
    · rw [if_pos ((and1_ne val).2 hv), BitVec.getLsbD_or, shl1_getLsbD _ _ hk, hv]
      split_ifs with h1
      · subst h1; simp
      · have : ¬ m % 64 = n % 64 := by omega
        simp [this]
    · rw [if_neg (fun h => hv ((and1_ne val).1 h)), BitVec.getLsbD_and, BitVec.getLsbD_not, shl1_getLsbD _ _ hk]
      simp only [Bool.not_eq_true] at hv
      rw [hv]
      split_ifs with h1
      · subst h1; simp
      · have : ¬ m % 64 = n % 64 := by omega
        simp [this, hmk]
  · have hmn : ¬ m = n := by rintro rfl; exact e rfl
    simp only [if_neg hmn]
    rw [List.getD_eq_getElem?_getD, List.getElem?_set_ne e, ← List.getD_eq_getElem?_getD]

theorem SETBIT_eq (v : BV) (n : Nat) (val : Word) (h : n < v.size) : SETBIT v n val = .ok (fastvset v n val) := by
  unfold SETBIT fastvset
  rw [if_neg (by omega)]

theorem bitop_bit (f : Word → Word → Word) (g : Bool → Bool → Bool)
    (hf : ∀ x y i, i < 64 → (f x y).getLsbD i = g (x.getLsbD i) (y.getLsbD i)) (a b : BV)
    (hs : a.size = b.size) : ∃ r, bitop f a b = .ok r ∧ r.WF ∧ r.size = a.size ∧
      ∀ m < a.size, ∃ x y, BIT a m = .ok x ∧ BIT b m = .ok y ∧ BIT r m = .ok (g x y) := by
  refine ⟨⟨(List.range ((a.size + 63) / 64)).map fun i => f (a.words.getD i 0) (b.words.getD i 0), a.size⟩,
    by unfold bitop; rw [if_neg (by simpa using hs)], ?_, rfl, fun m hm => ?_⟩
  · simp [BV.WF]
  · refine ⟨_, _, BIT_eq a m hm, BIT_eq b m (by omega), ?_⟩
    rw [BIT_eq _ _ (by exact hm)]
    congr 1
    have : m / 64 < (a.size + 63) / 64 := by omega
    simp only [List.getD_eq_getElem?_getD, List.getElem?_map, List.getElem?_range this, Option.map_some,
      Option.getD_some]
    rw [← List.getD_eq_getElem?_getD, ← List.getD_eq_getElem?_getD]
    exact hf _ _ _ (Nat.mod_lt _ (by omega))

/-! fill -/

/-- `v'` is `v` with the bits `p` set to `b`. -/
def Upd (v v' : BV) (b : Bool) (p : Nat → Prop) : Prop :=
  v'.WF ∧ v'.size = v.size ∧ ∀ m < v.size, (p m → BIT v' m = .ok b) ∧ (¬ p m → BIT v' m = BIT v m)

theorem Upd.trans {v v' v'' : BV} {b : Bool} {p q : Nat → Prop} (h : Upd v v' b p) (h' : Upd v' v'' b q) :
    Upd v v'' b (fun m => p m ∨ q m) := by
  refine ⟨h'.1, h'.2.1.trans h.2.1, fun m hm => ?_⟩
  have a := h.2.2 m hm
  have c := h'.2.2 m (by rw [h.2.1]; exact hm)
  by_cases hq : q m
  · exact ⟨fun _ => c.1 hq, fun hn => absurd (Or.inr hq) hn⟩
  · refine ⟨fun hp => ?_, fun hn => ?_⟩
    · rw [c.2 hq]; exact a.1 (hp.resolve_right hq)
    · rw [c.2 hq]; exact a.2 (fun hp => hn (Or.inl hp))

theorem Upd.congr {v v' : BV} {b : Bool} {p q : Nat → Prop} (h : Upd v v' b p) (e : ∀ m < v.size, p m ↔ q m) :
    Upd v v' b q :=
  ⟨h.1, h.2.1, fun m hm => ⟨fun hq => (h.2.2 m hm).1 ((e m hm).2 hq), fun hq => (h.2.2 m hm).2 (fun hp => hq ((e m hm).1 hp))⟩⟩

theorem Upd.refl {v : BV} (hw : v.WF) (b : Bool) {p : Nat → Prop} (e : ∀ m < v.size, ¬ p m) : Upd v v b p :=
  ⟨hw, rfl, fun m hm => ⟨fun hp => absurd hp (e m hm), fun _ => rfl⟩⟩

theorem fastvset_upd (v : BV) (hw : v.WF) (n : Nat) (hn : n < v.size) (item : Word) :
    Upd v (fastvset v n item) (item.getLsbD 0) (fun m => m = n) := by
  obtain ⟨h1, h2, h3⟩ := fastvset_bit v hw n hn item
  exact ⟨h1, h2, fun m hm => ⟨fun e => by rw [h3 m hm, if_pos e], fun e => by rw [h3 m hm, if_neg e]⟩⟩

theorem fillTail_upd (item : Word) : ∀ (n start : Nat) (v : BV), v.WF → start + n ≤ v.size →
    Upd v (fillTail item n start v) (item.getLsbD 0) (fun m => start ≤ m ∧ m < start + n) := by
  intro n
  induction n with
  | zero => intro s v hw _; exact Upd.refl hw _ (by intros; omega)
  | succ n ih =>
    intro s v hw hb
    have h1 := fastvset_upd v hw s (by omega) item
    exact (h1.trans (ih (s + 1) _ h1.1 (by rw [h1.2.1]; omega))).congr (by intros; omega)

theorem fillWords_upd (val : Word) (b : Bool) (hval : ∀ i < 64, val.getLsbD i = b) : ∀ (n k : Nat) (v : BV), v.WF →
    (k + n) * 64 ≤ v.size → Upd v (fillWords val n k v) b (fun m => k * 64 ≤ m ∧ m < (k + n) * 64) := by
  intro n
  induction n with
  | zero => intro k v hw _; exact Upd.refl hw _ (by intros; omega)
  | succ n ih =>
    intro k v hw hb
    have h1 : Upd v { v with words := v.words.set k val } b (fun m => m / 64 = k) := by
      refine ⟨by simp only [BV.WF, List.length_set]; exact hw, rfl, fun m hm => ?_⟩
      rw [BIT_eq _ _ (by exact hm), BIT_eq _ _ hm]
      constructor
      · rintro rfl
        rw [List.getD_eq_getElem?_getD, List.getElem?_set_self (by rw [hw]; omega)]
        exact congrArg _ (hval _ (Nat.mod_lt _ (by omega)))
      · intro hne
        rw [List.getD_eq_getElem?_getD, List.getD_eq_getElem?_getD, List.getElem?_set_ne (fun e => hne e.symm)]
    exact (h1.trans (ih (k + 1) _ h1.1 (by rw [h1.2.1]; omega))).congr (by intros; omega)

theorem fillHead_upd (item : Word) (stop : Nat) : ∀ (n start : Nat) (v : BV), v.WF → stop ≤ v.size →
    stop - start ≤ n → start ≤ stop →
    start ≤ (fillHead item stop n start v).1 ∧ (fillHead item stop n start v).1 ≤ stop ∧
    ((fillHead item stop n start v).1 % 64 = 0 ∨ (fillHead item stop n start v).1 = stop) ∧
    Upd v (fillHead item stop n start v).2 (item.getLsbD 0)
      (fun m => start ≤ m ∧ m < (fillHead item stop n start v).1) := by
  intro n
  induction n with
  | zero =>
    intro s v hw _ hn hs
    have : s = stop := by omega
    exact ⟨le_refl s, hs, Or.inr this, Upd.refl hw _ (by intros; simp only [fillHead]; omega)⟩
  | succ n ih =>
    intro s v hw hst hn hs
    rw [fillHead]
    split_ifs with h
    · have h1 := fastvset_upd v hw s (by omega) item
      obtain ⟨a, b, c, d⟩ := ih (s + 1) (fastvset v s item) h1.1 (by rw [h1.2.1]; exact hst) (by omega) (by omega)
      exact ⟨by omega, b, c, (h1.trans d).congr (by intros; omega)⟩
    · refine ⟨le_refl s, hs, ?_, Upd.refl hw _ (by intros; simp only; omega)⟩
      simp only
      by_contra hc
      push Not at hc
      apply h
      exact ⟨by simpa using hc.1, by omega⟩

theorem fillBits_upd (v : BV) (hw : v.WF) (item : Word) (h : item = 0 ∨ item.getLsbD 0 = true) (start stop : Nat) :
    Upd v (fillBits v item start stop) (item.getLsbD 0) (fun m => start ≤ m ∧ m < stop) := by
  have hval : ∀ i < 64, (if item = 0 then (0 : Word) else ~~~0).getLsbD i = item.getLsbD 0 := by
    intro i hi
    by_cases e : item = 0
    · subst e; simp
    · rw [if_neg e, h.resolve_left e, BitVec.getLsbD_not]; simp [hi]
  unfold fillBits
  simp only
  by_cases hs : start ≤ min stop v.size
  · obtain ⟨a, b, c, d⟩ := fillHead_upd item (min stop v.size) (min stop v.size - start) start v hw (by omega) (le_refl _) hs
    generalize hh : fillHead item (min stop v.size) (min stop v.size - start) start v = r at *
    obtain ⟨s1, v1⟩ := r
    simp only at a b c d ⊢
    have hsz := d.2.1
    have w := fillWords_upd _ _ hval ((min stop v.size - s1) / 64) (s1 / 64) v1 d.1 (by rw [hsz]; omega)
    have t := fillTail_upd item (min stop v.size - (s1 + (min stop v.size - s1) / 64 * 64))
      (s1 + (min stop v.size - s1) / 64 * 64) _ w.1 (by rw [w.2.1, hsz]; omega)
    exact ((d.trans w).trans t).congr (by intros; omega)
  · have e0 : min stop v.size - start = 0 := by omega
    rw [e0]
    simp only [fillHead]
    rw [e0]
    simp only [Nat.zero_div, fillWords, Nat.zero_mul, Nat.add_zero]
    rw [e0]
    exact Upd.refl hw _ (by intros; omega)

/-! ### fill pointers -/

/-- The array `a` holds the stack `s` with capacity `cap`. -/
structure Holds (a : FArr α) (s : List α × Nat) : Prop where
  off : a.offset = 0
  cap : a.entity.length = s.2
  dim : a.dim = s.2
  pos : 0 < s.2
  fp : a.fp = s.1.length
  le : s.1.length ≤ s.2
  contents : a.entity.take a.fp = s.1

theorem Holds.step {nil : α} {a : FArr α} {s : List α × Nat} (h : Holds a s) (op : FOp α) :
    Holds (fstep nil a op) (stackStep s op) := by
  obtain ⟨st, cap⟩ := s
  obtain ⟨h1, h2, h3, h4, h5, h6, h7⟩ := h
  simp only at *
  cases op with
  | push x =>
    simp only [fstep, stackStep, FArr.push, h1, Nat.add_zero, h2, h5]
    split_ifs with hc
    · refine ⟨rfl, by simp [h2], h3, h4, by simp, by simp; omega, ?_⟩
      simp only [Option.getD_some]
      rw [List.take_add_one, List.take_set_of_le (le_refl _), ← h5, h7, List.getElem?_set_self (by omega)]
      rfl
    · exact ⟨h1, h2, h3, h4, h5, h6, h7⟩
  | pushExtend x =>
    have key : ∀ (b : FArr α) (cap' : Nat), b.offset = 0 → b.entity.length = cap' → b.dim = cap' → b.fp = st.length →
        st.length < cap' → b.entity.take b.fp = st →
        Holds ((if b.fp < b.entity.length then some { b with entity := b.entity.set b.fp x, fp := b.fp + 1 } else none).getD a)
          (st ++ [x], cap') := by
      intro b cap' g1 g2 g3 g4 g5 g6
      rw [if_pos (by omega)]
      refine ⟨g1, by simp [g2], g3, by omega, by simp [g4], by simp; omega, ?_⟩
      simp only [Option.getD_some]
      rw [List.take_add_one, List.take_set_of_le (le_refl _), g6, List.getElem?_set_self (by omega)]
      rfl
    simp only [fstep, stackStep, FArr.pushExtend]
    by_cases hc : st.length < cap
    · have hg : ¬ a.fp ≥ a.entity.length := by omega
      simp only [if_neg hg]
      rw [if_pos hc]
      exact key a cap h1 h2 h3 h5 hc h7
    · have hg : a.fp ≥ a.entity.length := by omega
      simp only [if_pos hg]
      rw [if_neg hc]
      refine key { a with entity := a.entity ++ List.replicate (a.fp * 2 - a.entity.length) nil, dim := a.fp * 2 } (2 * st.length) h1 ?_ ?_ h5 (by omega) ?_
      · simp only [List.length_append, List.length_replicate]; omega
      · simp only; omega
      · simp only
        rw [List.take_append_of_le_length (by omega), h7]
  | pop =>
    simp only [fstep, stackStep, FArr.pop]
    split_ifs with hc
    · have : st = [] := List.length_eq_zero_iff.1 (by omega)
      subst this
      exact ⟨h1, h2, h3, h4, h5, h6, h7⟩
    · rw [h1, Nat.add_zero, List.getElem?_eq_getElem (by omega)]
      refine ⟨rfl, h2, h3, h4, by simp [h5], by simp; omega, ?_⟩
      simp only [Option.map_some, Option.getD_some]
      rw [← h7, List.dropLast_eq_take, List.length_take, List.take_take]
      congr 1; omega

theorem Holds.run {nil : α} {a : FArr α} {s : List α × Nat} (h : Holds a s) (ops : List (FOp α)) :
    Holds (ops.foldl (fstep nil) a) (ops.foldl stackStep s) := by
  induction ops generalizing a s with
  | nil => exact h
  | cons op ops ih => exact ih (h.step op)

theorem make_holds (nil : α) (dim fp : Nat) (hd : 0 < dim) (hf : fp ≤ dim) :
    Holds (FArr.make nil dim fp) (List.replicate fp nil, dim) := by
  refine ⟨rfl, by simp [FArr.make]; omega, rfl, hd, by simp [FArr.make], by simpa using hf, ?_⟩
  simp only [FArr.make, List.take_replicate]
  congr 1; omega

/-! ### replace -/

theorem storeDown_eq : ∀ (stk : List α) (de : Nat) (dest : List α), stk.length ≤ de → de ≤ dest.length →
    storeDown stk de dest = dest.take (de - stk.length) ++ stk.reverse ++ dest.drop de := by
  intro stk
  induction stk with
  | nil => intro de dest _ _; simp [storeDown]
  | cons x stk ih =>
    intro de dest h h'
    simp only [List.length_cons] at h
    rw [storeDown, ih (de - 1) _ (by omega) (by simp; omega)]
    rw [List.take_set_of_le (by omega), List.drop_eq_getElem_cons (by simp; omega), List.getElem_set_self]
    rw [List.reverse_cons, List.length_cons]
    have e1 : de - 1 - stk.length = de - (stk.length + 1) := by omega
    have e2 : de - 1 + 1 = de := by omega
    rw [e1, e2, List.drop_set_of_lt (by omega)]
    simp

end Eus.Arr
