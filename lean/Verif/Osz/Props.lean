import Verif.Osz.Spec
set_option autoImplicit false
namespace Eus.Osz

/-! ### bookkeeping -/

/-- The number of marked objects among the first `n`. -/
def marked (m : Nat → Bool) : Nat → Nat
  | 0 => 0
  | n + 1 => marked m n + if m n then 1 else 0

theorem marked_le (m : Nat → Bool) (n : Nat) : marked m n ≤ n := by
  induction n with
  | zero => simp [marked]
  | succ n ih => simp only [marked]; split <;> omega

theorem marked_set_ge (m : Nat → Bool) (i n : Nat) (b : Bool) (h : n ≤ i) :
    marked (setMark m i b) n = marked m n := by
  induction n with
  | zero => rfl
  | succ n ih =>
    simp only [marked]
    rw [ih (by omega), show setMark m i b n = m n from if_neg (by omega)]

theorem marked_set (m : Nat → Bool) (i : Nat) (n : Nat) (h : i < n) (hm : m i = false) :
    marked (setMark m i true) n = marked m n + 1 := by
  induction n with
  | zero => omega
  | succ n ih =>
    simp only [marked]
    by_cases e : i = n
    · subst e
      rw [marked_set_ge _ _ _ _ (Nat.le_refl _)]
      simp [setMark, hm]
    · rw [ih (by omega), show setMark m i true n = m n from if_neg (fun h' => e h'.symm)]; omega

theorem marked_mono (m m' : Nat → Bool) (n : Nat) (h : ∀ i, m i = true → m' i = true) : marked m n ≤ marked m' n := by
  induction n with
  | zero => simp [marked]
  | succ n ih =>
    simp only [marked]
    have := h n
    by_cases e : m n = true
    · rw [e, this e]; simp only [if_true]; omega
    · simp only [e]; split <;> simp_all <;> omega

theorem mem_refs (H : Heap) (i j : Nat) : Ref.obj j ∈ refs (H.obj i).body ↔ RefersTo H i j := by
  unfold RefersTo
  cases h : (H.obj i).body <;> simp [refs]

theorem counts_iff (H : Heap) (sym : Bool) (i : Nat) :
    Counts H sym i ↔ ((!sym && (H.obj i).sym) = false) := by
  unfold Counts
  cases sym <;> simp

/-- `s'` comes from `s` by visiting the objects of `L`, in some order, once each. -/
structure Visit (H : Heap) (sym : Bool) (s s' : St) (L : List Nat) : Prop where
  nodup : L.Nodup
  mark : ∀ j, s'.mark j = true ↔ s.mark j = true ∨ j ∈ L
  fresh : ∀ j ∈ L, s.mark j = false
  cnt : ∀ j ∈ L, Counts H sym j
  closed : ∀ j ∈ L, ∀ k, RefersTo H j k → Counts H sym k → s'.mark k = true
  n : s'.count = s.count + L.length
  w : s'.words = s.words + (L.map fun j => words (H.obj j).body).sum
  c : s'.cells = s.cells + (L.map fun j => (H.obj j).cell).sum

theorem Visit.refl (H : Heap) (sym : Bool) (s : St) : Visit H sym s s [] :=
  ⟨List.nodup_nil, by simp, by simp, by simp, by simp, by simp, by simp, by simp⟩

theorem Visit.trans {H : Heap} {sym : Bool} {s s' s'' : St} {L L' : List Nat}
    (h : Visit H sym s s' L) (h' : Visit H sym s' s'' L') : Visit H sym s s'' (L ++ L') := by
  refine ⟨?_, ?_, ?_, ?_, ?_, ?_, ?_, ?_⟩
  · refine List.nodup_append.2 ⟨h.nodup, h'.nodup, ?_⟩
    rintro a ha b hb rfl
    have h1 := (h.mark a).2 (Or.inr ha)
    rw [h'.fresh a hb] at h1; simp at h1
  · intro j; rw [h'.mark, h.mark, List.mem_append]; exact or_assoc
  · intro j hj
    rcases List.mem_append.1 hj with hj | hj
    · exact h.fresh j hj
    · have := h'.fresh j hj
      cases e : s.mark j with
      | false => rfl
      | true => rw [(h.mark j).2 (Or.inl e)] at this; simp at this
  · intro j hj
    rcases List.mem_append.1 hj with hj | hj
    · exact h.cnt j hj
    · exact h'.cnt j hj
  · intro j hj k hk ck
    rcases List.mem_append.1 hj with hj | hj
    · exact (h'.mark k).2 (Or.inl (h.closed j hj k hk ck))
    · exact h'.closed j hj k hk ck
  · rw [h'.n, h.n, List.length_append]; omega
  · rw [h'.w, h.w, List.map_append, List.sum_append]; omega
  · rw [h'.c, h.c, List.map_append, List.sum_append]; omega

theorem Visit.mono {H : Heap} {sym : Bool} {s s' : St} {L : List Nat} (h : Visit H sym s s' L) :
    ∀ j, s.mark j = true → s'.mark j = true := fun j e => (h.mark j).2 (Or.inl e)

/-- Everything visited is reached from one of the objects `R`. -/
def From (H : Heap) (sym : Bool) (R : Ref → Prop) (L : List Nat) : Prop :=
  ∀ j ∈ L, ∃ a, R (.obj a) ∧ Reach H sym a j

theorem Reach.head {H : Heap} {sym : Bool} {i j k : Nat} (hi : Counts H sym i) (hr : RefersTo H i j)
    (h : Reach H sym j k) : Reach H sym i k := by
  induction h with
  | here hc => exact .step (.here hi) hr hc
  | step _ h2 h3 ih => exact .step ih h2 h3

/-- The first pass. -/
theorem objsize1_visit (H : Heap) (sym : Bool) (hH : Closed H) : ∀ (n : Nat),
    (∀ (r : Ref) (s : St), (∀ i, r = .obj i → i < H.size) → H.size - marked s.mark H.size < n →
      ∃ s' L, objsize1 H sym n r s = some s' ∧ Visit H sym s s' L ∧ From H sym (· = r) L ∧
        ∀ i, r = .obj i → Counts H sym i → s'.mark i = true) := by
  intro n
  induction n with
  | zero => intro r s _ h; omega
  | succ n ih =>
    -- the loop
    have loop : ∀ (l : List Ref) (s : St), (∀ i, Ref.obj i ∈ l → i < H.size) →
        H.size - marked s.mark H.size < n →
        ∃ s' L, objsize1s H sym n l s = some s' ∧ Visit H sym s s' L ∧ From H sym (· ∈ l) L ∧
          ∀ i, Ref.obj i ∈ l → Counts H sym i → s'.mark i = true := by
      intro l
      induction l with
      | nil =>
        intro s _ _
        exact ⟨s, [], by simp [objsize1s], Visit.refl _ _ _, by simp [From], by simp⟩
      | cons r l il =>
        intro s hb hf
        obtain ⟨s1, L1, e1, v1, f1, c1⟩ := ih r s (fun i hi => hb i (by simp [hi])) hf
        have hm := marked_mono _ _ H.size v1.mono
        obtain ⟨s2, L2, e2, v2, f2, c2⟩ := il s1 (fun i hi => hb i (List.mem_cons_of_mem _ hi)) (by omega)
        refine ⟨s2, L1 ++ L2, ?_, v1.trans v2, ?_, ?_⟩
        · simp only [objsize1s, e1, e2]
        · intro j hj
          rcases List.mem_append.1 hj with hj | hj
          · obtain ⟨a, ha, hr⟩ := f1 j hj; exact ⟨a, by simp [ha], hr⟩
          · obtain ⟨a, ha, hr⟩ := f2 j hj; exact ⟨a, List.mem_cons_of_mem _ ha, hr⟩
        · intro i hi hc
          rcases List.mem_cons.1 hi with hi | hi
          · exact v2.mono _ (c1 i hi.symm hc)
          · exact c2 i hi hc
    intro r s hb hf
    cases r with
    | imm => exact ⟨s, [], by simp [objsize1], Visit.refl _ _ _, by simp [From], by simp⟩
    | obj i =>
      simp only [objsize1]
      by_cases hc : (!sym && (H.obj i).sym) = true
      · refine ⟨s, [], by simp only [hc, Bool.true_or, if_true], Visit.refl _ _ _, by simp [From], ?_⟩
        intro j hj hcj
        injection hj with hj; subst hj
        rw [counts_iff, hc] at hcj; simp at hcj
      · have hcf : (!sym && (H.obj i).sym) = false := by simpa using hc
        have hci : Counts H sym i := (counts_iff H sym i).2 hcf
        by_cases hm : s.mark i = true
        · refine ⟨s, [], by simp only [hm, Bool.or_true, if_true], Visit.refl _ _ _, by simp [From], ?_⟩
          intro j hj _
          injection hj with hj; subst hj; exact hm
        · have hmf : s.mark i = false := by simpa using hm
          have hi := hb i rfl
          simp only [hcf, hmf, Bool.or_false, Bool.false_eq_true, if_false]
          have h1 := marked_set s.mark i H.size hi hmf
          have h2 := marked_le (setMark s.mark i true) H.size
          obtain ⟨s', L, e, v, f, c⟩ := loop (refs (H.obj i).body)
            { mark := setMark s.mark i true, count := s.count + 1,
              words := s.words + words (H.obj i).body, cells := s.cells + (H.obj i).cell }
            (fun j hj => hH i j hi ((mem_refs H i j).1 hj)) (by simp only; omega)
          have hil : i ∉ L := by
            intro hl
            have := v.fresh i hl
            simp [setMark] at this
          refine ⟨s', i :: L, e, ?_, ?_, ?_⟩
          · refine ⟨List.nodup_cons.2 ⟨hil, v.nodup⟩, ?_, ?_, ?_, ?_, ?_, ?_, ?_⟩
            · intro j
              rw [v.mark, List.mem_cons]
              simp only [setMark]
              by_cases e : j = i
              · subst e; simp
              · simp [e]
            · intro j hj
              rcases List.mem_cons.1 hj with rfl | hj
              · exact hmf
              · have := v.fresh j hj
                simp only [setMark] at this
                split at this
                · simp at this
                · exact this
            · intro j hj
              rcases List.mem_cons.1 hj with rfl | hj
              · exact hci
              · exact v.cnt j hj
            · intro j hj k hk ck
              rcases List.mem_cons.1 hj with rfl | hj
              · exact c k ((mem_refs H j k).2 hk) ck
              · exact v.closed j hj k hk ck
            · rw [v.n]; simp only [List.length_cons]; omega
            · rw [v.w]; simp only [List.map_cons, List.sum_cons]; omega
            · rw [v.c]; simp only [List.map_cons, List.sum_cons]; omega
          · intro j hj
            rcases List.mem_cons.1 hj with rfl | hj
            · exact ⟨_, rfl, .here hci⟩
            · obtain ⟨a, ha, hr⟩ := f j hj
              exact ⟨i, rfl, Reach.head hci ((mem_refs H i a).1 ha) hr⟩
          · intro j hj _
            injection hj with hj; subst hj
            exact (v.mark i).2 (Or.inl (by simp [setMark]))

/-- The second pass is the first one on the opposite marks. -/
theorem objsize2_eq (H : Heap) (sym : Bool) : ∀ (n : Nat),
    (∀ (r : Ref) (m : Nat → Bool) (s : St), (∀ j, s.mark j = !m j) →
      ∀ s', objsize1 H sym n r s = some s' → ∃ m', objsize2 H sym n r m = some m' ∧ ∀ j, s'.mark j = !m' j) := by
  intro n
  induction n with
  | zero => intro r m s _ s' h; simp [objsize1] at h
  | succ n ih =>
    have loop : ∀ (l : List Ref) (m : Nat → Bool) (s : St), (∀ j, s.mark j = !m j) →
        ∀ s', objsize1s H sym n l s = some s' → ∃ m', objsize2s H sym n l m = some m' ∧ ∀ j, s'.mark j = !m' j := by
      intro l
      induction l with
      | nil =>
        intro m s h s' e
        simp only [objsize1s, Option.some.injEq] at e; subst e
        exact ⟨m, by simp [objsize2s], h⟩
      | cons r l il =>
        intro m s h s' e
        simp only [objsize1s] at e
        cases e1 : objsize1 H sym n r s with
        | none => rw [e1] at e; simp at e
        | some s1 =>
          rw [e1] at e
          obtain ⟨m1, e2, h2⟩ := ih r m s h s1 e1
          obtain ⟨m2, e3, h3⟩ := il m1 s1 h2 s' e
          exact ⟨m2, by simp only [objsize2s, e2, e3], h3⟩
    intro r m s h s' e
    cases r with
    | imm =>
      simp only [objsize1, Option.some.injEq] at e; subst e
      exact ⟨m, by simp [objsize2], h⟩
    | obj i =>
      simp only [objsize1] at e
      simp only [objsize2, ← h i]
      by_cases hc : ((!sym && (H.obj i).sym) || s.mark i) = true
      · rw [if_pos hc] at e ⊢
        simp only [Option.some.injEq] at e; subst e
        exact ⟨m, rfl, h⟩
      · rw [if_neg hc] at e ⊢
        refine loop _ _ _ ?_ s' e
        intro j
        simp only [setMark]
        split
        · rfl
        · exact h j

/-! ### C186 -/

/-- C186.  `object-size` of an object counts every object reached from it once — whatever is shared or
circular; symbols and what is reached only over them are left out unless asked for — and gives their
number, the words they use and the words of their cells; it always comes to an end, at a depth of at most the
number of objects in the heap, and leaves no object marked. -/
theorem C186_objects (H : Heap) (hH : Closed H) (sym : Bool) (a : Nat) (ha : a < H.size) (depth : Nat)
    (hd : H.size < depth) :
    ∃ L : List Nat, L.Nodup ∧ (∀ j, j ∈ L ↔ Reach H sym a j) ∧
      ∃ m', objectSize H sym depth (.obj a) (fun _ => false) =
        some ((L.length, (L.map fun j => Uses (H.obj j).body).sum, (L.map fun j => (H.obj j).cell).sum), m') ∧
        ∀ j, m' j = false := by
  have hb : ∀ i, Ref.obj a = .obj i → i < H.size := by intro i hi; injection hi with hi; omega
  obtain ⟨s, L, e, v, f, c⟩ := objsize1_visit H sym hH depth (.obj a) ⟨fun _ => false, 0, 0, 0⟩ hb (by simp only; omega)
  have hL : ∀ j, j ∈ L ↔ Reach H sym a j := by
    intro j
    constructor
    · intro hj
      obtain ⟨b, hb', hr⟩ := f j hj
      injection hb' with hb'; subst hb'; exact hr
    · intro hr
      have key : s.mark j = true := by
        induction hr with
        | here hc => exact c a rfl hc
        | @step i j h1 h2 h3 ih =>
          have : i ∈ L := by simpa using (v.mark i).1 ih
          exact v.closed i this j h2 h3
      simpa using (v.mark j).1 key
  have hu : ∀ b, words b = Uses b := by
    intro b
    cases b with
    | bits n => simp only [words, Uses]; split <;> omega
    | bytes n => simp only [words, Uses]; split <;> omega
    | _ => rfl
  have hw : (L.map fun j => words (H.obj j).body) = L.map fun j => Uses (H.obj j).body := by
    apply List.map_congr_left; intro j _; exact hu _
  -- the second pass
  let s0 : St := ⟨fun j => !s.mark j, 0, 0, 0⟩
  obtain ⟨s2, L2, e2, v2, f2, c2⟩ := objsize1_visit H sym hH depth (.obj a) s0 hb
    (by have := marked_le s0.mark H.size; omega)
  obtain ⟨m', e3, h3⟩ := objsize2_eq H sym depth (.obj a) s.mark s0 (fun _ => rfl) s2 e2
  refine ⟨L, v.nodup, hL, m', ?_, ?_⟩
  · simp only [objectSize, e, e3, v.n, v.w, v.c, hw]; simp
  · intro j
    have key : s2.mark j = true := by
      cases hj : s.mark j with
      | false => exact v2.mono j (by simp [s0, hj])
      | true =>
        have hr := (hL j).1 (by simpa using (v.mark j).1 hj)
        clear hj
        induction hr with
        | here hc => exact c2 a rfl hc
        | @step i j h1 h2 h4 ih =>
          rcases (v2.mark i).1 ih with h5 | h5
          · have : i ∈ L := (hL i).2 h1
            have := (v.mark i).2 (Or.inr this)
            simp [s0, this] at h5
          · exact v2.closed i h5 j h2 h4
    have := h3 j
    rw [key] at this
    simpa using this.symm

/-- A number has no objects. -/
theorem C186_immediate (H : Heap) (sym : Bool) (depth : Nat) (m : Nat → Bool) :
    objectSize H sym (depth + 1) .imm m = some ((0, 0, 0), m) := by
  simp [objectSize, objsize1, objsize2]

/-- A circular list of two conses with a shared string in both, a symbol with a cons as its value. -/
def exH : Heap where
  size := 5
  obj
    | 0 => ⟨.fixed [.obj 2, .obj 1], false, 4⟩
    | 1 => ⟨.fixed [.obj 2, .obj 0], false, 4⟩
    | 2 => ⟨.bytes 7, false, 4⟩
    | 3 => ⟨.fixed [.obj 4, .imm], true, 8⟩
    | _ => ⟨.fixed [.obj 3, .imm], false, 4⟩

example : (objectSize exH false 6 (.obj 0) (fun _ => false)).map (·.1) = some (3, 6, 12) ∧
    (objectSize exH false 6 (.obj 4) (fun _ => false)).map (·.1) = some (1, 2, 4) ∧
    (objectSize exH true 6 (.obj 4) (fun _ => false)).map (·.1) = some (2, 4, 12) := by
  refine ⟨?_, ?_, ?_⟩ <;>
    simp [objectSize, objsize1, objsize1s, objsize2, objsize2s, exH, refs, words, setMark]

example : Closed exH := by
  intro i j hi h
  simp only [exH] at hi
  rcases (by omega : i = 0 ∨ i = 1 ∨ i = 2 ∨ i = 3 ∨ i = 4) with rfl | rfl | rfl | rfl | rfl <;>
    simp [RefersTo, exH] at h <;> simp only [exH] <;> omega

end Eus.Osz
