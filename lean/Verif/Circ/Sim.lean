import Verif.Circ.Read
set_option autoImplicit false
/-
The reader on the printed tree.
-/
namespace Eus.Circ
open Spec

mutual
/-- Steps enough for reading a tree. -/
def sz : T → Nat
  | .leaf _ => 1
  | .ref _ _ => 1
  | .cons _ _ x y => sz x + sz y + 5
  | .vec _ _ ts => szL ts + 3
  | .str _ _ _ _ => 3
def szL : List T → Nat
  | [] => 1
  | t :: ts => sz t + szL ts + 1
end

variable {G : Heap} {S : List Nat}

/-- A value that was read: where it points was read, and what it waits for has a label. -/
def VOk (S X' O : List Nat) (v : Val) : Prop := ∀ b, v = .ptr b → b ∈ X' ∧ (b ∈ O → b ∈ S)

/-- Reading a tree. -/
def R1 (G : Heap) (S X : List Nat) (t : T) (v : Val) (X' : List Nat) : Prop :=
  ∀ (O : List Nat) (f : Nat → Nat) (heap : Heap) (labs : List (Nat × Option Val)), (∀ b ∈ O, b ∈ X) → Labs S X O f heap labs →
    ∃ (f' : Nat → Nat) (heap' : Heap) (labs' : List (Nat × Option Val)), Post G S X X' O f f' heap heap' labs' ∧ VOk S X' O v ∧
      ∀ (n : Nat) (rest : List Tok), sz t ≤ n → read1 n ⟨heap, labs⟩ (tok t ++ rest) = some (raw S O f' v, rest, ⟨heap', labs'⟩)

/-- Reading a tree at the end of a list. -/
def RT (G : Heap) (S X : List Nat) (t : T) (v : Val) (X' : List Nat) : Prop :=
  ∀ (O : List Nat) (f : Nat → Nat) (heap : Heap) (labs : List (Nat × Option Val)), (∀ b ∈ O, b ∈ X) → Labs S X O f heap labs →
    ∃ (f' : Nat → Nat) (heap' : Heap) (labs' : List (Nat × Option Val)) (vs : List Val) (tl : Val) (h1 : Heap),
      Post G S X X' O f f' heap heap' labs' ∧ VOk S X' O v ∧ build tl vs h1 = (raw S O f' v, heap') ∧
      ∀ (n : Nat) (rest : List Tok), sz t + 1 ≤ n → readElems n ⟨heap, labs⟩ (tokTail t ++ rest) = some (vs, tl, rest, ⟨h1, labs'⟩)

/-- Reading the elements of a vector. -/
def RL (G : Heap) (S X : List Nat) (ts : List T) (vs : List Val) (X' : List Nat) : Prop :=
  ∀ (O : List Nat) (f : Nat → Nat) (heap : Heap) (labs : List (Nat × Option Val)), (∀ b ∈ O, b ∈ X) → Labs S X O f heap labs →
    ∃ (f' : Nat → Nat) (heap' : Heap) (labs' : List (Nat × Option Val)), Post G S X X' O f f' heap heap' labs' ∧ (∀ v ∈ vs, VOk S X' O v) ∧
      ∀ (n : Nat) (rest : List Tok), szL ts ≤ n → readVec n ⟨heap, labs⟩ (toks ts ++ .rp :: rest) = some (vs.map (raw S O f'), rest, ⟨heap', labs'⟩)

/-- Tokens that begin an object. -/
def opens : Tok → Bool
  | .rp => false
  | .dot => false
  | _ => true

theorem tok_head (t : T) : ∃ a r, tok t = a :: r ∧ opens a = true := by
  have h : ∀ ts : List Tok, (∃ a r, ts = a :: r ∧ opens a = true) → ∀ l, ∃ a r, labT l ++ ts = a :: r ∧ opens a = true := by
    intro ts h l
    cases l with
    | none => exact h
    | some k => exact ⟨_, _, rfl, rfl⟩
  cases t with
  | leaf v => rw [tok]; exact ⟨_, _, rfl, rfl⟩
  | ref k a => rw [tok]; exact ⟨_, _, rfl, rfl⟩
  | cons l a x y => rw [tok]; exact h _ ⟨_, _, rfl, rfl⟩ l
  | vec l a ts => rw [tok]; exact h _ ⟨_, _, rfl, rfl⟩ l
  | str l a s k => rw [tok]; exact h _ ⟨_, _, rfl, rfl⟩ l

theorem readElems_open (n : Nat) (rs rs1 rs2 : RSt) (a : Tok) (r t1 t2 : List Tok) (v tl : Val) (vs : List Val) (h : opens a = true)
    (h1 : read1 n rs (a :: r) = some (v, t1, rs1)) (h2 : readElems n rs1 t1 = some (vs, tl, t2, rs2)) :
    readElems (n + 1) rs (a :: r) = some (v :: vs, tl, t2, rs2) := by
  cases a <;> first | (simp [opens] at h; done) | simp [readElems, h1, h2]

theorem readVec_open (n : Nat) (rs rs1 rs2 : RSt) (a : Tok) (r t1 t2 : List Tok) (v : Val) (vs : List Val) (h : opens a = true)
    (h1 : read1 n rs (a :: r) = some (v, t1, rs1)) (h2 : readVec n rs1 t1 = some (vs, t2, rs2)) :
    readVec (n + 1) rs (a :: r) = some (v :: vs, t2, rs2) := by
  cases a <;> first | (simp [opens] at h; done) | simp [readVec, h1, h2]

/-- Reading a label around an object that is read without one. -/
theorem read_label {n : Nat} {heap : Heap} {labs : List (Nat × Option Val)} {body rest : List Tok} {l : Option Nat} {p : Nat} {heap3 : Heap}
    {labs3 : List (Nat × Option Val)} (hfree : ∀ k, l = some k → findlabel k labs = none)
    (hb : ∀ m, n ≤ m + 1 → read1 m ⟨heap, openLabs l labs⟩ (body ++ rest) =
      some (.ptr p, rest, ⟨heap3, labs3⟩)) (m : Nat) (hm : n ≤ m) (hn : 1 ≤ n) :
    read1 m ⟨heap, labs⟩ (labT l ++ body ++ rest) = some (.ptr p, rest, ⟨closeHeap l p heap3, closeLabs l p labs3⟩) := by
  cases l with
  | none => simpa [labT, closeHeap, closeLabs, openLabs] using hb m (by omega)
  | some k =>
    obtain ⟨m, rfl⟩ : ∃ i, m = i + 1 := ⟨m - 1, by omega⟩
    have := hb m (by omega)
    simp only [openLabs] at this
    simp only [labT, List.cons_append, List.nil_append, read1, hfree k rfl, this]
    rfl

theorem LabOk.free {X O : List Nat} {f : Nat → Nat} {heap : Heap} {labs : List (Nat × Option Val)} {l : Option Nat} {a : Nat}
    (hl : LabOk S l a) (haX : a ∉ X) (hL : Labs S X O f heap labs) : ∀ k, l = some k → findlabel k labs = none := by
  intro k hk
  rcases hl with ⟨_, rfl⟩ | ⟨j, hj, rfl⟩
  · cases hk
  · cases hk
    rw [hL.find j a hj]; simp [haX]

theorem VOk.mono {X X' O : List Nat} {v : Val} (h : VOk S X O v) (hs : ∀ a ∈ X, a ∈ X') : VOk S X' O v :=
  fun b hb => ⟨hs b (h b hb).1, (h b hb).2⟩

/-- The inside of a cons, after its label. -/
theorem cons_core (hG : GoodHeap G) (hnd : S.Nodup) {X X1 X2 : List Nat} {l : Option Nat} {a : Nat} {x y : Val} {tx ty : T} (haX : a ∉ X)
    (hc : G[a]? = some (.cons x y)) (hl : LabOk S l a) (h1 : R1 G S (a :: X) tx x X1) (h2 : RT G S X1 ty y X2) (O : List Nat) (f : Nat → Nat)
    (heap : Heap) (labs : List (Nat × Option Val)) (hO : ∀ b ∈ O, b ∈ X) (hL : Labs S X O f heap labs) :
    ∃ (f' : Nat → Nat) (heap2 : Heap) (labs2 : List (Nat × Option Val)) (vs : List Val) (tl : Val) (h3 : Heap) (cell : Cell),
      Post G S X X2 O f (Function.update f' a heap2.length) heap (closeHeap l heap2.length (heap2 ++ [cell])) (closeLabs l heap2.length labs2) ∧
      a ∈ X2 ∧ build tl vs h3 = (.ptr heap2.length, heap2 ++ [cell]) ∧
      ∀ (n : Nat) (rest : List Tok), sz tx + sz ty + 2 ≤ n →
        readElems n ⟨heap, openLabs l labs⟩ (tok tx ++ tokTail ty ++ rest) = some (vs, tl, rest, ⟨h3, labs2⟩) := by
  have hin := hL.enter l hnd hl
  have hOX : ∀ b ∈ a :: O, b ∈ a :: X := by
    intro b hb
    rcases List.mem_cons.1 hb with rfl | hb
    · simp
    · simp [hO b hb]
  obtain ⟨f1, heap1, labs1, p1, v1, r1⟩ := h1 (a :: O) f heap _ hOX hin
  obtain ⟨f2, heap2, labs2, vs, tl, h3, p2, v2, b2, r2⟩ := h2 (a :: O) f1 heap1 labs1 (fun b hb => p1.sub b (hOX b hb)) p1.labs
  have hgp := good_parts hG hc
  have hpost := p1.trans p2
  have v1' : VOk S X2 (a :: O) x := v1.mono p2.sub
  refine ⟨f2, heap2, labs2, raw S (a :: O) f1 x :: vs, tl, h3, imgCell S (a :: O) f2 (.cons x y), ?_, hpost.sub a (by simp), ?_, ?_⟩
  · apply Post.close hG hnd hO hL haX hc hl hpost
    intro b hb
    simp only [parts, List.mem_cons, List.not_mem_nil, or_false] at hb
    rcases hb with hb | hb
    · exact v1' b hb.symm
    · exact v2 b hb.symm
  · simp only [build, b2]
    rw [← raw_congr (f' := f2) (fun b hb => p2.agree b (v1 b hb).1), store_raw (hgp x (by simp [parts])), store_raw (hgp y (by simp [parts]))]
    rfl
  · intro n rest hn
    obtain ⟨n, rfl⟩ : ∃ i, n = i + 1 := ⟨n - 1, by omega⟩
    obtain ⟨t0, r0, ht, ho⟩ := tok_head tx
    have e1 := r1 n (tokTail ty ++ rest) (by omega)
    have e2 := r2 n rest (by omega)
    rw [ht] at e1 ⊢
    simp only [List.cons_append, List.append_assoc] at e1 ⊢
    exact readElems_open n _ _ _ t0 _ _ _ _ _ _ ho e1 e2

theorem raw_new {O : List Nat} {f : Nat → Nat} {a p : Nat} (h : a ∉ O) : raw S O (Function.update f a p) (.ptr a) = .ptr p := by
  simp [raw, h]

theorem R1.toRT {X X' : List Nat} {t : T} {v : Val} (h : R1 G S X t v X') (ht : t.isTail = false) : RT G S X t v X' := by
  intro O f heap labs hO hL
  obtain ⟨f', heap', labs', p, vo, r⟩ := h O f heap labs hO hL
  refine ⟨f', heap', labs', [], raw S O f' v, heap', p, vo, rfl, ?_⟩
  intro n rest hn
  obtain ⟨n, rfl⟩ : ∃ i, n = i + 1 := ⟨n - 1, by omega⟩
  rw [tokTail_dot t ht]
  have := r n (.rp :: rest) (by omega)
  simp only [List.cons_append, List.append_assoc, List.nil_append, readElems]
  rw [this]

mutual
theorem read_ok (hG : GoodHeap G) (hnd : S.Nodup) {X X' : List Nat} {t : T} {v : Val} : Ok G S X t v X' → R1 G S X t v X' ∧ RT G S X t v X'
  | .leaf hn hg => by
    have h1 : R1 G S X (.leaf v) v X := by
      intro O f heap labs hO hL
      refine ⟨f, heap, labs, Post.refl hL, ?_, ?_⟩
      · intro b hb; subst hb; exact absurd hn (by simp [notPtr])
      · intro n rest h
        obtain ⟨n, rfl⟩ : ∃ i, n = i + 1 := ⟨n - 1, by simp [sz] at h; omega⟩
        have : raw S O f v = v := by cases v <;> first | rfl | exact absurd hn (by simp [notPtr])
        simp [tok, read1, this]
    refine ⟨h1, ?_⟩
    by_cases ht : (T.leaf v).isTail = false
    · exact h1.toRT ht
    · have : v = .nil := by cases v <;> simp_all [T.isTail]
      subst this
      intro O f heap labs hO hL
      refine ⟨f, heap, labs, [], .nil, heap, Post.refl hL, (by intro b hb; cases hb), rfl, ?_⟩
      intro n rest h
      obtain ⟨n, rfl⟩ : ∃ i, n = i + 1 := ⟨n - 1, by omega⟩
      simp [tokTail, readElems]
  | .ref (j := j) (a := a) hj haX => by
    have h1 : R1 G S X (.ref (j + 1) a) (.ptr a) X := by
      intro O f heap labs hO hL
      refine ⟨f, heap, labs, Post.refl hL, ?_, ?_⟩
      · intro b hb; cases hb; exact ⟨haX, fun _ => List.mem_of_getElem? hj⟩
      · intro n rest h
        obtain ⟨n, rfl⟩ : ∃ i, n = i + 1 := ⟨n - 1, by simp [sz] at h; omega⟩
        have hf := hL.find j a hj
        by_cases haO : a ∈ O
        · simp only [haX, haO, if_true] at hf
          simp [tok, read1, hf, raw, haO, idx_of hnd hj]
        · simp only [haX, haO, if_true, if_false] at hf
          simp [tok, read1, hf, raw, haO]
    exact ⟨h1, h1.toRT rfl⟩
  | .cons (X1 := X1) (l := l) (a := a) (x := x) (y := y) (tx := tx) (ty := ty) haX hc hl ox oy => by
    have ihx := read_ok hG hnd ox
    have ihy := read_ok hG hnd oy
    have h1 : R1 G S X (.cons l a tx ty) (.ptr a) X' := by
      intro O f heap labs hO hL
      have haO : a ∉ O := fun h => haX (hO a h)
      obtain ⟨f2, heap2, labs2, vs, tl, h3, cell, hp, ha2, hb, hr⟩ := cons_core hG hnd haX hc hl ihx.1 ihy.2 O f heap labs hO hL
      refine ⟨_, _, _, hp, ?_, ?_⟩
      · intro b hb'; cases hb'; exact ⟨ha2, fun h => absurd h haO⟩
      · intro n rest hn
        simp only [sz] at hn
        rw [raw_new haO, tok]
        refine read_label (n := sz tx + sz ty + 5) (hl.free haX hL) ?_ n hn (by omega)
        intro m hm
        obtain ⟨m, rfl⟩ : ∃ i, m = i + 1 := ⟨m - 1, by omega⟩
        simp only [List.cons_append, read1]
        rw [hr m rest (by omega)]
        simp only [hb]
    refine ⟨h1, ?_⟩
    cases l with
    | some k => exact h1.toRT rfl
    | none =>
      intro O f heap labs hO hL
      have haO : a ∉ O := fun h => haX (hO a h)
      obtain ⟨f2, heap2, labs2, vs, tl, h3, cell, hp, ha2, hb, hr⟩ := cons_core hG hnd haX hc hl ihx.1 ihy.2 O f heap labs hO hL
      refine ⟨_, _, _, vs, tl, h3, hp, ?_, ?_, ?_⟩
      · intro b hb'; cases hb'; exact ⟨ha2, fun h => absurd h haO⟩
      · rw [raw_new haO, hb]; rfl
      · intro n rest hn
        simp only [sz] at hn
        rw [tokTail]
        exact hr n rest (by omega)
  | .vec (X1 := X1) (l := l) (a := a) (vs := vs) (ts := ts) haX hc hl ol => by
    have ih := readL_ok hG hnd ol
    have h1 : R1 G S X (.vec l a ts) (.ptr a) X1 := by
      intro O f heap labs hO hL
      have haO : a ∉ O := fun h => haX (hO a h)
      have hin := hL.enter l hnd hl
      have hOX : ∀ b ∈ a :: O, b ∈ a :: X := by
        intro b hb
        rcases List.mem_cons.1 hb with rfl | hb
        · simp
        · simp [hO b hb]
      obtain ⟨f1, heap1, labs1, p1, v1, r1⟩ := ih (a :: O) f heap _ hOX hin
      have hgp := good_parts hG hc
      refine ⟨_, _, _, Post.close hG hnd hO hL haX hc hl p1 (fun b hb => v1 _ hb b rfl), ?_, ?_⟩
      · intro b hb'; cases hb'; exact ⟨p1.sub a (by simp), fun h => absurd h haO⟩
      · intro n rest hn
        simp only [sz] at hn
        rw [raw_new haO, tok]
        refine read_label (n := szL ts + 3) (hl.free haX hL) ?_ n hn (by omega)
        intro m hm
        obtain ⟨m, rfl⟩ : ∃ i, m = i + 1 := ⟨m - 1, by omega⟩
        simp only [List.cons_append, read1, List.append_assoc, List.nil_append]
        rw [r1 m rest (by omega)]
        have : (vs.map (raw S (a :: O) f1)).map store = vs.map (img S (a :: O) f1) := by
          rw [List.map_map]
          exact List.map_congr_left (fun v hv => store_raw (hgp v hv))
        simp only [this, List.length_map]
        rfl
    exact ⟨h1, h1.toRT rfl⟩
  | .str (l := l) (a := a) (s := s) (k := k) haX hc hl => by
    have h1 : R1 G S X (.str l a s k) (.ptr a) (a :: X) := by
      intro O f heap labs hO hL
      have haO : a ∉ O := fun h => haX (hO a h)
      have hin := hL.enter l hnd hl
      refine ⟨_, _, _, Post.close hG hnd hO hL haX hc hl (Post.refl hin) (by simp [parts]), ?_, ?_⟩
      · intro b hb'; cases hb'; exact ⟨by simp, fun h => absurd h haO⟩
      · intro n rest hn
        simp only [sz] at hn
        rw [raw_new haO, tok]
        refine read_label (n := 3) (hl.free haX hL) ?_ n hn (by omega)
        intro m hm
        obtain ⟨m, rfl⟩ : ∃ i, m = i + 1 := ⟨m - 1, by omega⟩
        simp [read1, imgCell]
    exact ⟨h1, h1.toRT rfl⟩
theorem readL_ok (hG : GoodHeap G) (hnd : S.Nodup) {X X' : List Nat} {ts : List T} {vs : List Val} : OkL G S X ts vs X' → RL G S X ts vs X'
  | .nil => by
    intro O f heap labs hO hL
    refine ⟨f, heap, labs, Post.refl hL, by simp, ?_⟩
    intro n rest h
    obtain ⟨n, rfl⟩ : ∃ i, n = i + 1 := ⟨n - 1, by simp [szL] at h; omega⟩
    simp [toks, readVec]
  | .cons (t := t) (ts := ts') (v := v) (vs := vs') o1 o2 => by
    have h1 := (read_ok hG hnd o1).1
    have h2 := readL_ok hG hnd o2
    intro O f heap labs hO hL
    obtain ⟨f1, heap1, labs1, p1, v1, r1⟩ := h1 O f heap labs hO hL
    obtain ⟨f2, heap2, labs2, p2, v2, r2⟩ := h2 O f1 heap1 labs1 (fun b hb => p1.sub b (hO b hb)) p1.labs
    refine ⟨f2, heap2, labs2, p1.trans p2, ?_, ?_⟩
    · intro w hw
      rcases List.mem_cons.1 hw with rfl | hw
      · exact v1.mono p2.sub
      · exact v2 w hw
    · intro n rest hn
      simp only [szL] at hn
      obtain ⟨n, rfl⟩ : ∃ i, n = i + 1 := ⟨n - 1, by omega⟩
      obtain ⟨t0, r0, ht, ho⟩ := tok_head t
      have e1 := r1 n (toks ts' ++ .rp :: rest) (by omega)
      have e2 := r2 n rest (by omega)
      rw [toks]
      rw [ht] at e1 ⊢
      simp only [List.cons_append, List.append_assoc] at e1 ⊢
      rw [readVec_open n _ _ _ t0 _ _ _ _ _ ho e1 e2, List.map_cons,
        raw_congr (f' := f2) (f := f1) (fun b hb => p2.agree b (v1 b hb).1)]
end

end Eus.Circ
