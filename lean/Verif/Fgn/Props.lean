import Verif.Fgn.CLayout
import Verif.Flt.Box
set_option autoImplicit false
/-
C169: the layout of a C structure.  C170: what is set is what is got, and nothing else changes.
C171: the layout is that of C.  C172: the functions of defcstruct are the messages.
-/
namespace Eus.Fgn

/-- A structure used in the examples: `((a :byte) (b :integer) (c :short 3) (d :double) (e :char *))`. -/
def exDecls : List Decl :=
  [.prim "a" .byte false none, .prim "b" .integer false none, .prim "c" .short false (some 3),
   .prim "d" .double false none, .prim "e" .char true none]

/-- Another one, with the first one inside. -/
def exOuter : List Decl := [.prim "x" .short false none, .sub "y" (slotlist exDecls).1, .prim "z" .char false (some 5)]

/-- Conversions for the examples. -/
def exConv : FConv := ⟨fun b => BitVec.truncate 32 (b >>> 32), fun b => (b.zeroExtend 64) <<< 32, fun v => BitVec.ofInt 64 v⟩

/-! ### C169 -/

/-- No two slots have a byte in common, all lie inside an instance, and every element is where its size divides the
offset. -/
theorem C169_layout (ds : List Decl) :
    (slotlist ds).1.Pairwise (fun a b => a.offset + a.ssize ≤ b.offset) ∧
    ∀ s ∈ (slotlist ds).1, s.offset + s.ssize ≤ (instantiate ds).length ∧ s.ssize = byteSize s.ty * s.count ∧
      ∀ i : Nat, byteSize s.ty ∣ s.offset + i * s.esize := by
  refine ⟨layout_pairwise _ _, ?_⟩
  intro s hs
  obtain ⟨_, h2, h3, h4, h5⟩ := layout_mem _ _ s hs
  refine ⟨?_, by rw [h5, h4], fun i => ?_⟩
  · unfold instantiate; rw [List.length_replicate]; exact h2
  · rw [h4]; exact dvd_add h3 (Dvd.intro_left _ rfl)

/-- The slots are those declared, in the order of the declaration. -/
theorem C169_declared (ds : List Decl) :
    (slotlist ds).1.map (fun s => (s.name, s.ty, s.count)) = ds.flatMap Decl.declared := by
  unfold slotlist
  rw [layout_keys]
  unfold expand
  induction ds with
  | nil => rfl
  | cons d ds ih => simp only [List.flatMap_cons, List.map_append, expand1_keys]; rw [ih]

/-- No byte is wasted: a slot begins at the first place after the one before it where its size divides the offset, the
first one at 0, and the structure ends with its last slot. -/
theorem C169_tight (ds : List Decl) :
    (∀ s post, (slotlist ds).1 = s :: post → s.offset = 0) ∧
    (∀ pre a s post, (slotlist ds).1 = pre ++ a :: s :: post →
      NextMultiple (byteSize s.ty) (a.offset + a.ssize) s.offset) ∧
    (∀ pre s, (slotlist ds).1 = pre ++ [s] → (instantiate ds).length = s.offset + s.ssize) := by
  refine ⟨?_, ?_, ?_⟩
  · intro s post h
    have := layout_next _ 0 [] s post h
    exact Nat.le_zero.1 (this.2.2 0 (dvd_zero _) (le_refl _))
  · intro pre a s post h
    have := layout_next (expand ds) 0 (pre ++ [a]) s post (by rw [List.append_assoc]; exact h)
    simpa using this
  · intro pre s h
    have := layout_size (expand ds) 0
    unfold instantiate
    rw [List.length_replicate]
    unfold slotlist at h ⊢
    rw [this, h]
    simp

example : (slotlist exDecls).1.map (fun s => s.offset) = [0, 4, 8, 16, 24] ∧ (instantiate exDecls).length = 32 ∧
    (slotlist exOuter).1.map (fun s => (s.name, s.offset)) =
      [("x", 0), ("y.a", 2), ("y.b", 4), ("y.c", 8), ("y.d", 16), ("y.e", 24), ("z", 32)] ∧
    (slotlist exOuter).2 = 37 := by decide

/-! ### C170 -/

theorem get_at {c : FConv} {sl : List Slot} {m : List Nat} {id : String} {s : Slot} {index : Option Int}
    (h : slot sl id = some s) (hi : HasIndex s index) :
    get c sl m id index = PEEK c m (s.offset + element index * s.esize) s.ty := by
  unfold get; rw [access_ok h hi]

theorem set_at {c : FConv} {sl : List Slot} {m : List Nat} {v : Val} {id : String} {s : Slot} {index : Option Int}
    (h : slot sl id = some s) (hi : HasIndex s index) :
    set c sl m v id index = POKE c v m (s.offset + element index * s.esize) s.ty := by
  unfold set; rw [access_ok h hi]

/-- An element of a slot lies inside an instance. -/
theorem inside {ds : List Decl} {m : List Nat} (hm : m.length = (instantiate ds).length) {id : String} {s : Slot}
    {index : Option Int} (h : slot (slotlist ds).1 id = some s) (hi : HasIndex s index) :
    0 ≤ s.offset + element index * (s.esize : Int) ∧
    s.offset + element index * (s.esize : Int) + (byteSize s.ty : Int) ≤ m.length := by
  obtain ⟨h1, h2⟩ := element_in hi
  obtain ⟨hs, _⟩ := slot_mem h
  obtain ⟨_, k2, _, k4, k5⟩ := layout_mem _ _ s hs
  rw [← k5] at h2
  rw [← k4]
  have hl : m.length = (layout 0 (expand ds)).2 := by
    rw [hm]; unfold instantiate; rw [List.length_replicate]; rfl
  omega

theorem int_back {x : Nat} {m m' : List Nat} {off : Int} {n : Nat} (h : store m off (leBytes n x) = .ok m') :
    load m' off n = .ok (leBytes n x) ∧ ofLe (leBytes n x) = x % 256 ^ n := ⟨load_leBytes h, ofLe_leBytes n x⟩

theorem back8 (v : Int) : (-2 ^ 63 ≤ signed 8 ((v % 2 ^ 64).toNat % 256 ^ 8) ∧
    signed 8 ((v % 2 ^ 64).toNat % 256 ^ 8) < 2 ^ 63) ∧
    (2 : Int) ^ 64 ∣ v - signed 8 ((v % 2 ^ 64).toNat % 256 ^ 8) := by
  unfold signed
  split <;> omega

theorem back4 (v : Int) : (-2 ^ 31 ≤ signed 4 ((v % 2 ^ 64).toNat % 256 ^ 4) ∧
    signed 4 ((v % 2 ^ 64).toNat % 256 ^ 4) < 2 ^ 31) ∧
    (2 : Int) ^ 32 ∣ v - signed 4 ((v % 2 ^ 64).toNat % 256 ^ 4) := by
  unfold signed
  split <;> omega

theorem back2 (v : Int) : (-2 ^ 15 ≤ signed 2 ((v % 2 ^ 64).toNat % 256 ^ 2) ∧
    signed 2 ((v % 2 ^ 64).toNat % 256 ^ 2) < 2 ^ 15) ∧
    (2 : Int) ^ 16 ∣ v - signed 2 ((v % 2 ^ 64).toNat % 256 ^ 2) := by
  unfold signed
  split <;> omega

theorem back1 (v : Int) : (0 ≤ (((v % 2 ^ 64).toNat % 256 ^ 1 : Nat) : Int) ∧
    (((v % 2 ^ 64).toNat % 256 ^ 1 : Nat) : Int) < 256) ∧
    (256 : Int) ∣ v - (((v % 2 ^ 64).toNat % 256 ^ 1 : Nat) : Int) := by
  omega

/-- **Integers**: any integer of up to 64 bits can be put into any element of any slot of integer type; what comes back
is the integer of the type that is congruent to it.  No access is outside of the instance. -/
theorem C170_integer (c : FConv) (ds : List Decl) (m : List Nat) (hm : m.length = (instantiate ds).length)
    (id : String) (s : Slot) (index : Option Int) (h : slot (slotlist ds).1 id = some s) (hi : HasIndex s index)
    (hty : s.ty ∈ [Ty.long, .pointer, .integer, .short, .char, .byte]) (v : Int) (hv : -2 ^ 63 ≤ v ∧ v < 2 ^ 64) :
    ∃ m' w, set c (slotlist ds).1 m (.int v) id index = .ok m' ∧ m'.length = m.length ∧
      get c (slotlist ds).1 m' id index = .ok (.int w) ∧ InRange s.ty w ∧ modulus s.ty ∣ v - w := by
  rw [set_at h hi]
  simp only [get_at h hi]
  obtain ⟨h1, h2⟩ := inside hm h hi
  generalize (s.offset : Int) + element index * (s.esize : Int) = off at *
  generalize s.ty = ty at *
  have hx : ∀ x : Nat, ∃ m', store m off (leBytes (byteSize ty) x) = .ok m' := fun x =>
    store_can ⟨h1, by rw [leBytes_length]; exact h2⟩
  obtain ⟨m', hm'⟩ := hx (v % 2 ^ 64).toNat
  refine ⟨m', ?_⟩
  obtain ⟨b1, b2⟩ := int_back hm'
  have hck : ckintval (.int v) = .ok (v % 2 ^ 64).toNat := by
    have h0 : -2 ^ 126 ≤ v ∧ v < 2 ^ 64 := ⟨by have := hv.1; norm_num at this ⊢; omega, hv.2⟩
    simp only [ckintval, if_pos h0]
  have hlen := store_length hm'
  have hbig : bigintval (.int v) = .ok (v % 2 ^ 64).toNat := rfl
  simp only [List.mem_cons, List.not_mem_nil, or_false] at hty
  rcases hty with rfl | rfl | rfl | rfl | rfl | rfl
  all_goals simp only [POKE, PEEK, hck, hbig, bind, Except.bind, byteSize] at hm' b1 b2 ⊢
  · exact ⟨signed 8 (ofLe (leBytes 8 (v % 2 ^ 64).toNat)), hm', hlen, by simp only [b1, pure, Except.pure],
      b2 ▸ back8 v⟩
  · exact ⟨signed 8 (ofLe (leBytes 8 (v % 2 ^ 64).toNat)), hm', hlen, by simp only [b1, pure, Except.pure],
      b2 ▸ back8 v⟩
  · exact ⟨signed 4 (ofLe (leBytes 4 (v % 2 ^ 64).toNat)), hm', hlen, by simp only [b1, pure, Except.pure],
      b2 ▸ back4 v⟩
  · exact ⟨signed 2 (ofLe (leBytes 2 (v % 2 ^ 64).toNat)), hm', hlen, by simp only [b1, pure, Except.pure],
      b2 ▸ back2 v⟩
  · exact ⟨(ofLe (leBytes 1 (v % 2 ^ 64).toNat) : Nat), hm', hlen, by simp only [b1, pure, Except.pure],
      b2 ▸ back1 v⟩
  · exact ⟨(ofLe (leBytes 1 (v % 2 ^ 64).toNat) : Nat), hm', hlen, by simp only [b1, pure, Except.pure],
      b2 ▸ back1 v⟩

/-- **Integers of the type** come back as they are. -/
theorem C170_same (c : FConv) (ds : List Decl) (m : List Nat) (hm : m.length = (instantiate ds).length)
    (id : String) (s : Slot) (index : Option Int) (h : slot (slotlist ds).1 id = some s) (hi : HasIndex s index)
    (v : Int) (hv : InRange s.ty v) :
    ∃ m', set c (slotlist ds).1 m (.int v) id index = .ok m' ∧ m'.length = m.length ∧
      get c (slotlist ds).1 m' id index = .ok (.int v) := by
  have hty : s.ty ∈ [Ty.long, .pointer, .integer, .short, .char, .byte] := by
    revert hv; cases s.ty <;> simp [InRange]
  have hb : -2 ^ 63 ≤ v ∧ v < 2 ^ 64 := by
    revert hv; cases s.ty <;> simp only [InRange] <;> intro hv <;> first | exact hv.elim | omega
  obtain ⟨m', w, h1, h2, h3, h4, h5⟩ := C170_integer c ds m hm id s index h hi hty v hb
  have : v = w := by
    clear h1 h3 hi h hty
    revert hv h4 h5
    cases s.ty <;> simp only [InRange, modulus] <;> intro hv h4 h5 <;> first | exact hv.elim | omega
  subst this
  exact ⟨m', h1, h2, h3⟩

/-- **Doubles**: what comes back is the pattern without its two lowest bits: the same number if it was a float of
EusLisp (see C164). -/
theorem C170_double (c : FConv) (ds : List Decl) (m : List Nat) (hm : m.length = (instantiate ds).length)
    (id : String) (s : Slot) (index : Option Int) (h : slot (slotlist ds).1 id = some s) (hi : HasIndex s index)
    (hty : s.ty = .double) (b : BitVec 64) :
    ∃ m', set c (slotlist ds).1 m (.flt b) id index = .ok m' ∧ m'.length = m.length ∧
      get c (slotlist ds).1 m' id index = .ok (.flt (b &&& ~~~3#64)) := by
  rw [set_at h hi]
  simp only [get_at h hi]
  obtain ⟨h1, h2⟩ := inside hm h hi
  generalize (s.offset : Int) + element index * (s.esize : Int) = off at *
  rw [hty] at h2 ⊢
  obtain ⟨m', hm'⟩ := store_can (m := m) (bs := leBytes 8 b.toNat) ⟨h1, by rw [leBytes_length]; exact h2⟩
  obtain ⟨b1, b2⟩ := int_back hm'
  refine ⟨m', by simpa only [POKE, ckfltval] using hm', store_length hm', ?_⟩
  simp only [PEEK, b1, bind, Except.bind, b2, pure, Except.pure, boxed]
  congr 2
  have : BitVec.ofNat 64 (b.toNat % 256 ^ 8) = b := by
    apply BitVec.eq_of_toNat_eq
    rw [BitVec.toNat_ofNat]
    have := b.isLt
    omega
  rw [this]
  exact Flt.unbox _

/-- **Single floats**: what comes back is the single float nearest in the sense of the C compiler. -/
theorem C170_float (c : FConv) (ds : List Decl) (m : List Nat) (hm : m.length = (instantiate ds).length)
    (id : String) (s : Slot) (index : Option Int) (h : slot (slotlist ds).1 id = some s) (hi : HasIndex s index)
    (hty : s.ty = .float) (b : BitVec 64) :
    ∃ m', set c (slotlist ds).1 m (.flt b) id index = .ok m' ∧ m'.length = m.length ∧
      get c (slotlist ds).1 m' id index = .ok (.flt (c.widen (c.narrow b) &&& ~~~3#64)) := by
  rw [set_at h hi]
  simp only [get_at h hi]
  obtain ⟨h1, h2⟩ := inside hm h hi
  generalize (s.offset : Int) + element index * (s.esize : Int) = off at *
  rw [hty] at h2 ⊢
  obtain ⟨m', hm'⟩ := store_can (m := m) (bs := leBytes 4 (c.narrow b).toNat) ⟨h1, by rw [leBytes_length]; exact h2⟩
  obtain ⟨b1, b2⟩ := int_back hm'
  refine ⟨m', by simpa only [POKE, ckfltval] using hm', store_length hm', ?_⟩
  simp only [PEEK, b1, bind, Except.bind, b2, pure, Except.pure, boxed]
  congr 2
  have : BitVec.ofNat 32 ((c.narrow b).toNat % 256 ^ 4) = c.narrow b := by
    apply BitVec.eq_of_toNat_eq
    rw [BitVec.toNat_ofNat]
    have := (c.narrow b).isLt
    omega
  rw [this]
  exact Flt.unbox _

/-- **Nothing else changes**: any other element, of the same slot or of another, gives afterwards what it gave
before. -/
theorem C170_other (c : FConv) (ds : List Decl) (m m' : List Nat) (v : Val)
    (id id' : String) (s s' : Slot) (index index' : Option Int)
    (h : slot (slotlist ds).1 id = some s) (hi : HasIndex s index)
    (h' : slot (slotlist ds).1 id' = some s') (hi' : HasIndex s' index')
    (hne : id ≠ id' ∨ element index ≠ element index')
    (hset : set c (slotlist ds).1 m v id index = .ok m') :
    get c (slotlist ds).1 m' id' index' = get c (slotlist ds).1 m id' index' := by
  rw [set_at h hi] at hset
  rw [get_at h' hi', get_at h' hi']
  obtain ⟨x, hx⟩ := POKE_store hset
  apply PEEK_congr
  apply load_other hx
  rw [leBytes_length]
  obtain ⟨hs, hn⟩ := slot_mem h
  obtain ⟨hs', hn'⟩ := slot_mem h'
  obtain ⟨_, _, _, k4, k5⟩ := layout_mem _ _ s hs
  obtain ⟨_, _, _, k4', k5'⟩ := layout_mem _ _ s' hs'
  obtain ⟨e1, e2⟩ := element_in hi
  obtain ⟨e1', e2'⟩ := element_in hi'
  rw [← k5] at e2
  rw [← k5'] at e2'
  rw [← k4, ← k4']
  by_cases hss : s = s'
  · subst hss
    have hid : id = id' := hn.symm.trans hn'
    have hel : element index ≠ element index' := by
      rcases hne with h | h
      · exact absurd hid h
      · exact h
    rcases lt_or_gt_of_ne hel with hlt | hlt
    · right
      have := mul_le_mul_of_nonneg_right (Int.add_one_le_of_lt hlt) (Int.natCast_nonneg s.esize)
      rw [add_mul] at this
      omega
    · left
      have := mul_le_mul_of_nonneg_right (Int.add_one_le_of_lt hlt) (Int.natCast_nonneg s.esize)
      rw [add_mul] at this
      omega
  · rcases pair_mem (layout_pairwise (expand ds) 0) hs hs' hss with hp | hp
    · right; omega
    · left; omega

/-- An index from the declared number on is an error, for `:get` and for `:set`, and so is a name that was not
declared. -/
theorem C170_error (c : FConv) (ds : List Decl) (m : List Nat) (v : Val) (id : String) :
    (slot (slotlist ds).1 id = none → ∀ index, get c (slotlist ds).1 m id index = .error .noSlot ∧
      set c (slotlist ds).1 m v id index = .error .noSlot) ∧
    (∀ s i, slot (slotlist ds).1 id = some s → (s.count : Int) ≤ i →
      get c (slotlist ds).1 m id (some i) = .error .indexRange ∧
      set c (slotlist ds).1 m v id (some i) = .error .indexRange) := by
  constructor
  · intro h index
    unfold get set access
    rw [h]; exact ⟨rfl, rfl⟩
  · intro s i h hi
    unfold get set access
    simp only [h, if_pos hi, and_self]

example : (set exConv (slotlist exDecls).1 (instantiate exDecls) (.int (-2)) "c" (some 1)).toOption.map
      (fun m => (m, (get exConv (slotlist exDecls).1 m "c" (some 1)).toOption,
        (get exConv (slotlist exDecls).1 m "c" (some 2)).toOption)) =
    some (List.replicate 10 0 ++ [254, 255] ++ List.replicate 20 0, some (.int (-2)), some (.int 0)) := by decide +kernel

example : (set exConv (slotlist exDecls).1 (instantiate exDecls) (.int 300) "a" none).toOption.bind
    (fun m => (get exConv (slotlist exDecls).1 m "a" none).toOption) = some (.int 44) := by decide +kernel

/-- A negative index is not noticed: `(send s :set 7 'c -1)` changes `b`. -/
theorem C170_negative_wrong : ∃ m', set exConv (slotlist exDecls).1 (instantiate exDecls) (.int 7) "c" (some (-1)) = .ok m' ∧
    get exConv (slotlist exDecls).1 (instantiate exDecls) "b" none = .ok (.int 0) ∧
    get exConv (slotlist exDecls).1 m' "b" none = .ok (.int 458752) :=
  ⟨List.replicate 6 0 ++ [7, 0] ++ List.replicate 24 0, by rfl, by rfl, by rfl⟩

/-- A slot declared `:int`, `:word` or `:character` has a place, but can neither be read nor written. -/
theorem C170_types_wrong (c : FConv) (ds : List Decl) (m : List Nat) (v : Val) (id : String) (s : Slot)
    (index : Option Int) (h : slot (slotlist ds).1 id = some s) (hi : HasIndex s index)
    (hty : s.ty ∈ [Ty.int, .word, .character]) :
    get c (slotlist ds).1 m id index = .error .unknownMode ∧
    set c (slotlist ds).1 m v id index = .error .unknownMode := by
  rw [get_at h hi, set_at h hi]
  simp only [List.mem_cons, List.not_mem_nil, or_false] at hty
  rcases hty with hty | hty | hty <;> rw [hty] <;> exact ⟨rfl, rfl⟩

example : slot (slotlist [.prim "n" .int false none]).1 "n" = some ⟨"n", .int, 1, 4, 0, 4⟩ := by decide

/-! ### C171 -/

/-- **The layout of C**: for a structure all of whose inner structures begin with a member of the largest alignment
and need no filling at the end (in particular, for every structure without inner structures), the slots are exactly
where a C compiler puts the members, at all depths. -/
theorem C171_layout_partial (fs : CFields) (h : fs.Packed) :
    (slotlist fs.decls).1.map (fun s => (s.name, s.ty, s.count, s.offset)) = cPlaces fs :=
  congrArg Prod.fst (layout_c fs h)

/-- The size is that of C but for the filling at the end. -/
theorem C171_size_partial (fs : CFields) (h : fs.Packed) :
    (CType.struct fs).size = nextMultiple fs.align (instantiate fs.decls).length := by
  unfold instantiate
  rw [List.length_replicate, congrArg Prod.snd (layout_c fs h), CType.size]

/-- `struct {int i; char c; short s; struct {double d; short t[4];} in[1]; char e;}`. -/
def exC : CFields :=
  .cons "i" (.prim .integer 1) (.cons "c" (.prim .char 1) (.cons "s" (.prim .short 1)
    (.cons "in" (.struct (.cons "d" (.prim .double 1) (.cons "t" (.prim .short 4) .nil)))
      (.cons "e" (.prim .char 1) .nil))))

example : exC.Packed ∧ cPlaces exC = [("i", .integer, 1, 0), ("c", .char, 1, 4), ("s", .short, 1, 6),
    ("in.d", .double, 1, 8), ("in.t", .short, 4, 16), ("e", .char, 1, 24)] ∧ (CType.struct exC).size = 32 := by
  refine ⟨?_, by decide +kernel, by decide +kernel⟩
  simp [exC, CFields.Packed, CType.Packed, CFields.first, CFields.align, CType.align, CFields.finish, CType.size,
    nextMultiple, byteSize]

/-- Members of an inner structure are not where C has them: `struct {char c; struct {char a; int b;} in;}` has `in.a`
at 4 and `in.b` at 8. -/
theorem C171_nested_wrong :
    cPlaces (.cons "c" (.prim .char 1) (.cons "in" (.struct (.cons "a" (.prim .char 1)
      (.cons "b" (.prim .integer 1) .nil))) .nil)) =
      [("c", .char, 1, 0), ("in.a", .char, 1, 4), ("in.b", .integer, 1, 8)] ∧
    (slotlist (CFields.decls (.cons "c" (.prim .char 1) (.cons "in" (.struct (.cons "a" (.prim .char 1)
      (.cons "b" (.prim .integer 1) .nil))) .nil)))).1.map (fun s => (s.name, s.ty, s.count, s.offset)) =
      [("c", .char, 1, 0), ("in.a", .char, 1, 1), ("in.b", .integer, 1, 4)] := by
  constructor <;> decide +kernel

/-- An instance is smaller than the structure of C: `struct {int i; char c;}` has 8 bytes, an instance 5. -/
theorem C171_size_wrong :
    (CType.struct (.cons "i" (.prim .integer 1) (.cons "c" (.prim .char 1) .nil))).size = 8 ∧
    (instantiate (CFields.decls (.cons "i" (.prim .integer 1) (.cons "c" (.prim .char 1) .nil)))).length = 5 := by
  constructor <;> decide +kernel

/-! ### C172 -/

/-- The declarations for which the accessors of `defcstruct` reach the slots of the class: inner structures have no
arrays. -/
def NoInnerArrays (ds : List Decl) : Prop :=
  ∀ d ∈ ds, match d with
    | .prim _ _ _ _ => True
    | .sub _ sl => ∀ x ∈ sl, x.count = 1

theorem acc_place (e : Nat) (f g : Flat) (hn : f.name = g.name) (ht : f.ty = g.ty) (hs : f.star = g.star)
    (hd : f.dim.getD 1 = g.dim.getD 1) :
    (placeAcc e f).name = (placeSlot e g).name ∧ (placeAcc e f).offset = (placeSlot e g).offset ∧
    (placeAcc e f).esize = (placeSlot e g).esize ∧ (placeAcc e f).ssize = (placeSlot e g).ssize ∧
    (placeAcc e f).ty = (if g.star then Ty.long else (placeSlot e g).ty) := by
  obtain ⟨n, t, s, d⟩ := f
  obtain ⟨n', t', s', d'⟩ := g
  simp only at hn ht hs hd
  subst hn ht hs
  cases s with
  | true =>
    unfold placeAcc placeSlot
    rw [if_neg (by simp)]
    simp [byteSize, hd]
  | false =>
    unfold placeAcc placeSlot
    split
    · rename_i h
      simp only at h
      rw [h.2] at hd
      simp only [Option.getD_none] at hd
      simp [← hd]
    · simp [hd]

theorem acc_layout (fs gs : List Flat) (h : List.Forall₂ (fun f g => f.name = g.name ∧ f.ty = g.ty ∧ f.star = g.star ∧
      f.dim.getD 1 = g.dim.getD 1) fs gs) : ∀ e,
    (accLayout e fs).map (fun a => (a.name, a.offset, a.esize, a.ssize)) =
      (layout e gs).1.map (fun s => (s.name, s.offset, s.esize, s.ssize)) := by
  induction h with
  | nil => intro e; rfl
  | cons h _ ih =>
    intro e
    obtain ⟨h1, h2, h3, h4⟩ := h
    obtain ⟨k1, k2, k3, k4, _⟩ := acc_place e _ _ h1 h2 h3 h4
    simp only [accLayout, layout, List.map_cons]
    rw [k1, k2, k3, k4, ih]

theorem acc_expand (ds : List Decl) (h : NoInnerArrays ds) :
    List.Forall₂ (fun f g : Flat => f.name = g.name ∧ f.ty = g.ty ∧ f.star = g.star ∧
      f.dim.getD 1 = g.dim.getD 1) (ds.flatMap accExpand1) (expand ds) := by
  unfold expand
  induction ds with
  | nil => exact List.Forall₂.nil
  | cons d ds ih =>
    simp only [List.flatMap_cons]
    apply List.rel_append
    · cases d with
      | prim n t s d => exact List.Forall₂.cons ⟨rfl, rfl, rfl, rfl⟩ List.Forall₂.nil
      | sub n sl =>
        have hsl : ∀ x ∈ sl, x.count = 1 := h _ List.mem_cons_self
        simp only [accExpand1, expand1]
        clear ih h
        induction sl with
        | nil => exact List.Forall₂.nil
        | cons x sl ih =>
          refine List.Forall₂.cons ⟨rfl, rfl, rfl, ?_⟩ (ih (fun y hy => hsl y (List.mem_cons_of_mem _ hy)))
          simp [hsl x List.mem_cons_self]
    · exact ih (fun d hd => h d (List.mem_cons_of_mem _ hd))

/-- **The accessors reach the slots**: without arrays in inner structures, the accessors of `defcstruct` are for the
names, places and sizes of the slot list. -/
theorem C172_places_partial (ds : List Decl) (h : NoInnerArrays ds) :
    (accessors ds).map (fun a => (a.name, a.offset, a.esize, a.ssize)) =
      (slotlist ds).1.map (fun s => (s.name, s.offset, s.esize, s.ssize)) :=
  acc_layout _ _ (acc_expand ds h) 0

/-- Declarations of numbers that are not pointers, nor inner structures. -/
def Plain (ds : List Decl) : Prop := ∀ d ∈ ds, ∃ n t k, d = .prim n t false k

theorem acc_mem : ∀ (fs : List Flat) (e : Nat) (a : Acc), (∀ f ∈ fs, f.star = false) → a ∈ accLayout e fs →
    ∃ s ∈ (layout e fs).1, s.name = a.name ∧ s.offset = a.offset ∧ s.esize = a.esize ∧ s.ssize = a.ssize ∧
      s.ty = a.ty ∧ (a.kind = .scalar → s.count = 1) ∧ (a.kind = .chars → s.ty = .char ∨ s.ty = .byte)
  | [], _, _, _, h => by cases h
  | f :: fs, e, a, hf, h => by
    obtain ⟨k1, k2, k3, k4, k5⟩ := acc_place e f f rfl rfl rfl rfl
    have h' : a ∈ placeAcc e f :: accLayout ((placeAcc e f).offset + (placeAcc e f).ssize) fs := h
    rcases List.mem_cons.1 h' with rfl | h'
    · rw [hf f List.mem_cons_self] at k5
      refine ⟨placeSlot e f, List.mem_cons_self, k1.symm, k2.symm, k3.symm, k4.symm, k5.symm, ?_, ?_⟩
      · intro hk
        unfold placeAcc at hk
        rw [hf f List.mem_cons_self] at hk
        show f.dim.getD 1 = 1
        cases hd : f.dim with
        | none => rfl
        | some k =>
          rw [hd] at hk
          by_cases hc : f.ty = .char ∨ f.ty = .byte <;> simp [hc] at hk
      · intro hk
        rw [show (placeSlot e f).ty = (placeAcc e f).ty from k5.symm, show (placeAcc e f).ty = (placeSlot e f).ty from k5]
        unfold placeAcc at hk
        rw [hf f List.mem_cons_self] at hk
        have : (placeSlot e f).ty = f.ty := by unfold placeSlot; rw [hf f List.mem_cons_self]; rfl
        rw [this]
        cases hd : f.dim with
        | none => rw [hd] at hk; simp at hk
        | some k =>
          rw [hd] at hk
          by_contra hc
          simp [hc] at hk
    · rw [k2, k4] at h'
      obtain ⟨s, hs, hr⟩ := acc_mem fs _ a (fun f hf' => hf f (List.mem_cons_of_mem _ hf')) h'
      exact ⟨s, List.mem_cons_of_mem _ hs, hr⟩

theorem plain_flat (ds : List Decl) (h : Plain ds) : ds.flatMap accExpand1 = expand ds ∧
    ∀ f ∈ expand ds, f.star = false := by
  unfold expand
  induction ds with
  | nil => exact ⟨rfl, fun f hf => by cases hf⟩
  | cons d ds ih =>
    obtain ⟨i1, i2⟩ := ih (fun d hd => h d (List.mem_cons_of_mem _ hd))
    obtain ⟨n, t, k, rfl⟩ := h d List.mem_cons_self
    simp only [List.flatMap_cons]
    refine ⟨by rw [i1]; rfl, ?_⟩
    intro f hf
    rcases List.mem_append.1 hf with h | h
    · simp only [expand1, List.mem_singleton] at h
      rw [h]
    · exact i2 f h

theorem slot_of {L : List Slot} (hu : (L.map (fun s => s.name)).Nodup) {s : Slot} (hs : s ∈ L) {n : String}
    (hn : s.name = n) : slot L n = some s := by
  unfold slot
  induction L with
  | nil => cases hs
  | cons x L ih =>
    rw [List.find?_cons]
    rw [List.map_cons, List.nodup_cons] at hu
    by_cases hx : x.name = n
    · rw [show (x.name == n) = true by simpa using hx]
      rcases List.mem_cons.1 hs with h | h
      · rw [h]
      · exact absurd (List.mem_map.2 ⟨s, h, by rw [hn, hx]⟩) hu.1
    · rw [show (x.name == n) = false by simpa using hx]
      rcases List.mem_cons.1 hs with h | h
      · exact absurd (h ▸ hn) hx
      · exact ih hu.2 h

/-- **Reading**: the accessor of a slot of numbers gives what `:get` gives, for every index declared. -/
theorem C172_get_partial (c : FConv) (ds : List Decl) (hp : Plain ds) (a : Acc) (ha : a ∈ accessors ds)
    (hu : ((slotlist ds).1.map (fun s => s.name)).Nodup) (m : List Nat) :
    ∃ s, slot (slotlist ds).1 a.name = some s ∧ ∀ i : Int, 0 ≤ i → i < s.count →
      accGet c a m i = get c (slotlist ds).1 m a.name (some i) := by
  obtain ⟨h1, h2⟩ := plain_flat ds hp
  unfold accessors at ha
  rw [h1] at ha
  obtain ⟨s, hs, hn, ho, he, hz, ht, hk, hk'⟩ := acc_mem _ _ a h2 ha
  have hslot : slot (slotlist ds).1 a.name = some s := slot_of hu hs hn
  refine ⟨s, hslot, ?_⟩
  intro i hi0 hi
  rw [get_at hslot (index := some i) ⟨hi0, hi⟩]
  obtain ⟨_, _, _, ke, _⟩ := layout_mem _ _ s hs
  unfold accGet
  simp only [element]
  cases hkind : a.kind with
  | scalar =>
    have := hk hkind
    have hi' : i = 0 := by omega
    subst hi'
    simp [ho, ht]
  | chars =>
    have hb : s.esize = 1 := by rcases hk' hkind with h | h <;> rw [ke, h] <;> rfl
    rw [hb, ho]
    simp only [Nat.cast_one, mul_one]
    rcases hk' hkind with h | h <;> rw [h] <;> rfl
  | elems => simp only [ho, ht, he]

/-- **Writing**: so it is with `(setf (struct-slot s i) v)` and `:set`, except for arrays of characters. -/
theorem C172_set_partial (c : FConv) (ds : List Decl) (hp : Plain ds) (a : Acc) (ha : a ∈ accessors ds)
    (hu : ((slotlist ds).1.map (fun s => s.name)).Nodup) (hc : a.kind ≠ .chars) (m : List Nat) (v : Val) :
    ∃ s, slot (slotlist ds).1 a.name = some s ∧ ∀ i : Int, 0 ≤ i → i < s.count →
      accSet c a m i v = set c (slotlist ds).1 m v a.name (some i) := by
  obtain ⟨h1, h2⟩ := plain_flat ds hp
  unfold accessors at ha
  rw [h1] at ha
  obtain ⟨s, hs, hn, ho, he, hz, ht, hk, hk'⟩ := acc_mem _ _ a h2 ha
  have hslot : slot (slotlist ds).1 a.name = some s := slot_of hu hs hn
  refine ⟨s, hslot, ?_⟩
  intro i hi0 hi
  rw [set_at hslot (index := some i) ⟨hi0, hi⟩]
  unfold accSet
  simp only [element]
  cases hkind : a.kind with
  | scalar =>
    have := hk hkind
    have hi' : i = 0 := by omega
    subst hi'
    simp [ho, ht]
  | chars => exact absurd hkind hc
  | elems => simp only [ho, ht, he]

/-- **Arrays of characters as a whole**: a string that fits is stored at the place of the array and nothing else
changes; a string of the full length is what the accessor then gives. -/
theorem C172_chars_partial (a : Acc) (m str : List Nat) (hin : a.offset + a.ssize ≤ m.length)
    (hlen : str.length ≤ a.ssize) :
    (accSetChars a m str).length = m.length ∧
    (∀ k, (accSetChars a m str)[k]? =
      if a.offset ≤ k ∧ k < a.offset + str.length then str[k - a.offset]? else m[k]?) ∧
    (str.length = a.ssize → accGetChars a (accSetChars a m str) = str) := by
  have hst : store m a.offset str = .ok (accSetChars a m str) := by
    unfold store accSetChars
    rw [if_pos ⟨by omega, by omega⟩, List.take_of_length_le (l := str) (by omega)]
    simp
  refine ⟨store_length hst, ?_, ?_⟩
  · intro k
    rw [store_get hst]
    simp only [Int.toNat_natCast]
    by_cases hk : a.offset ≤ k ∧ k < a.offset + str.length
    · rw [if_pos hk, if_neg (by omega)]
    · rw [if_neg hk, if_pos (by omega)]
  · intro he
    have := load_same hst
    unfold load at this
    rw [if_pos ⟨by omega, by rw [store_length hst]; omega⟩] at this
    unfold accGetChars
    rw [← he]
    simpa using this

example : Plain [.prim "a" .byte false none, .prim "n" .short false (some 2)] ∧ NoInnerArrays exDecls ∧
    (accessors exDecls).map (fun a => a.offset) = [0, 4, 8, 16, 24] := by
  refine ⟨?_, ?_, by decide⟩
  · intro d hd
    simp only [List.mem_cons, List.not_mem_nil, or_false] at hd
    rcases hd with rfl | rfl
    · exact ⟨_, _, _, rfl⟩
    · exact ⟨_, _, _, rfl⟩
  · intro d hd
    simp only [exDecls, List.mem_cons, List.not_mem_nil, or_false] at hd
    rcases hd with rfl | rfl | rfl | rfl | rfl <;> trivial

/-- With an array in an inner structure the accessors of the slots behind it reach into it: after
`(defcstruct in (t :short 4))` and `(defcstruct out (i in) (n :short))`, `out-n` is at 2, the slot `n` at 8. -/
theorem C172_nested_wrong :
    (slotlist [.sub "i" (slotlist [.prim "t" .short false (some 4)]).1, .prim "n" .short false none]).1.map
      (fun s => (s.name, s.offset)) = [("i.t", 0), ("n", 8)] ∧
    (accessors [.sub "i" (slotlist [.prim "t" .short false (some 4)]).1, .prim "n" .short false none]).map
      (fun a => (a.name, a.offset)) = [("i.t", 0), ("n", 2)] := by decide

/-- Setting one character of an array of characters never reaches the structure: it writes to the absolute address
that is the number of the byte in the structure. -/
theorem C172_char_wrong (c : FConv) (a : Acc) (h : a.kind = .chars) (m : List Nat) (i : Int) (v : Val) :
    accSet c a m i v = .error (.wild (a.offset + i)) := by
  unfold accSet; rw [h]

/-- A string that is too long runs over the slots that follow. -/
theorem C172_overflow_wrong :
    let ds := [Decl.prim "name" .char false (some 2), .prim "n" .byte false none]
    (accessors ds).map (fun a => (a.name, a.kind)) = [("name", .chars), ("n", .scalar)] ∧
    accSetChars ⟨"name", .chars, .char, 1, 0, 2⟩ [0, 0, 7] [97, 98, 99] = [97, 98, 99] := by decide

end Eus.Fgn
