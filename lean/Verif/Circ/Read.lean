import Verif.Circ.Print
import Mathlib.Logic.Function.Basic
set_option autoImplicit false
/-
Reading what was printed.
-/
namespace Eus.Circ
open Spec

/-- What the reader returns for a value: `O` are the objects being read, `f` where objects were put. -/
def raw (S O : List Nat) (f : Nat → Nat) : Val → Val
  | .ptr b => if b ∈ O then .lab (S.idxOf b + 1) else .ptr (f b)
  | v => v

/-- What is stored for a value. -/
def img (S O : List Nat) (f : Nat → Nat) : Val → Val
  | .ptr b => if b ∈ O then .hole (S.idxOf b + 1) else .ptr (f b)
  | v => v

def imgCell (S O : List Nat) (f : Nat → Nat) : Cell → Cell
  | .cons a d => .cons (img S O f a) (img S O f d)
  | .vec s vs => .vec s (vs.map (img S O f))
  | .str s k => .str s k

variable {G : Heap} {S : List Nat}

theorem store_raw {O : List Nat} {f : Nat → Nat} {v : Val} (h : GoodVal G v) : store (raw S O f v) = img S O f v := by
  cases v with
  | ptr b => by_cases hb : b ∈ O <;> simp [raw, img, store, hb]
  | lab n => exact absurd h (by simp [GoodVal])
  | _ => simp [raw, img, store]

/-- The table of labels, and the places that wait. -/
structure Labs (S X O : List Nat) (f : Nat → Nat) (heap : Heap) (labs : List (Nat × Option Val)) : Prop where
  find : ∀ j a, S[j]? = some a → findlabel (j + 1) labs =
    if a ∈ X then (if a ∈ O then some none else some (some (.ptr (f a)))) else none
  holes : ∀ c ∈ heap, ∀ k, Val.hole k ∈ parts c → ∃ b ∈ O, ∃ j, k = j + 1 ∧ S[j]? = some b

/-- After reading: `X'` are the objects read. -/
structure Post (G : Heap) (S X X' O : List Nat) (f f' : Nat → Nat) (heap heap' : Heap) (labs' : List (Nat × Option Val)) : Prop where
  sub : ∀ a ∈ X, a ∈ X'
  agree : ∀ a ∈ X, f' a = f a
  len : heap.length ≤ heap'.length
  pre : ∀ i, i < heap.length → heap'[i]? = heap[i]?
  new : ∀ a ∈ X', a ∉ X → ∃ c, G[a]? = some c ∧ heap.length ≤ f' a ∧ heap'[f' a]? = some (imgCell S O f' c) ∧
    ∀ b, Val.ptr b ∈ parts c → b ∈ X' ∧ (b ∈ O → b ∈ S)
  inj : ∀ a ∈ X', a ∉ X → ∀ b ∈ X', b ∉ X → f' a = f' b → a = b
  labs : Labs S X' O f' heap' labs'

theorem img_congr {O : List Nat} {f f' : Nat → Nat} {v : Val} (h : ∀ b, v = .ptr b → f' b = f b) : img S O f' v = img S O f v := by
  cases v with
  | ptr b => simp [img, h b rfl]
  | _ => rfl

theorem raw_congr {O : List Nat} {f f' : Nat → Nat} {v : Val} (h : ∀ b, v = .ptr b → f' b = f b) : raw S O f' v = raw S O f v := by
  cases v with
  | ptr b => simp [raw, h b rfl]
  | _ => rfl

theorem imgCell_congr {O : List Nat} {f f' : Nat → Nat} {c : Cell} (h : ∀ b, Val.ptr b ∈ parts c → f' b = f b) :
    imgCell S O f' c = imgCell S O f c := by
  cases c with
  | cons a d =>
    simp only [imgCell]
    rw [img_congr (fun b hb => h b (by simp [parts, hb])), img_congr (fun b hb => h b (by simp [parts, hb]))]
  | vec s vs =>
    simp only [imgCell]
    congr 1
    apply List.map_congr_left
    intro v hv
    exact img_congr (fun b hb => h b (by simpa [parts, ← hb] using hv))
  | str s k => rfl

theorem Post.refl {X O : List Nat} {f : Nat → Nat} {heap : Heap} {labs : List (Nat × Option Val)} (h : Labs S X O f heap labs) :
    Post G S X X O f f heap heap labs :=
  ⟨fun _ h => h, fun _ _ => rfl, Nat.le_refl _, fun _ _ => rfl, fun a h1 h2 => absurd h1 h2, fun a h1 h2 => absurd h1 h2, h⟩

theorem Post.trans {X X1 X2 O : List Nat} {f f1 f2 : Nat → Nat} {heap heap1 heap2 : Heap} {labs1 labs2 : List (Nat × Option Val)}
    (h1 : Post G S X X1 O f f1 heap heap1 labs1) (h2 : Post G S X1 X2 O f1 f2 heap1 heap2 labs2) : Post G S X X2 O f f2 heap heap2 labs2 := by
  have hold : ∀ a ∈ X1, a ∉ X → f2 a < heap1.length := by
    intro a ha hX
    obtain ⟨c, _, _, h, _⟩ := h1.new a ha hX
    rw [h2.agree a ha]; exact getElem?_lt h
  refine ⟨fun a ha => h2.sub a (h1.sub a ha), fun a ha => by rw [h2.agree a (h1.sub a ha), h1.agree a ha], Nat.le_trans h1.len h2.len,
    fun i hi => by rw [h2.pre i (Nat.lt_of_lt_of_le hi h1.len), h1.pre i hi], ?_, ?_, h2.labs⟩
  · intro a ha hX
    by_cases ha1 : a ∈ X1
    · obtain ⟨c, hc, hl, hh, hk⟩ := h1.new a ha1 hX
      refine ⟨c, hc, by rw [h2.agree a ha1]; exact hl, ?_, fun b hb => ⟨h2.sub b (hk b hb).1, (hk b hb).2⟩⟩
      rw [h2.pre _ (hold a ha1 hX), h2.agree a ha1, hh, imgCell_congr (fun b hb => h2.agree b (hk b hb).1)]
    · obtain ⟨c, hc, hl, hh, hk⟩ := h2.new a ha ha1
      exact ⟨c, hc, Nat.le_trans h1.len hl, hh, hk⟩
  · intro a ha hX b hb hbX hab
    by_cases ha1 : a ∈ X1
    · by_cases hb1 : b ∈ X1
      · rw [h2.agree a ha1, h2.agree b hb1] at hab
        exact h1.inj a ha1 hX b hb1 hbX hab
      · obtain ⟨_, _, hl, _⟩ := h2.new b hb hb1
        have := hold a ha1 hX; omega
    · by_cases hb1 : b ∈ X1
      · obtain ⟨_, _, hl, _⟩ := h2.new a ha ha1
        have := hold b hb1 hbX; omega
      · exact h2.inj a ha ha1 b hb hb1 hab

/-- What a label's beginning does to the table. -/
def openLabs (l : Option Nat) (labs : List (Nat × Option Val)) : List (Nat × Option Val) :=
  match l with
  | none => labs
  | some k => (k, none) :: labs

/-- Before the contents of an object are read. -/
theorem Labs.enter {X O : List Nat} {f : Nat → Nat} {heap : Heap} {labs : List (Nat × Option Val)} {a : Nat} (h : Labs S X O f heap labs)
    (l : Option Nat) (hnd : S.Nodup) (hl : LabOk S l a) :
    Labs S (a :: X) (a :: O) f heap (openLabs l labs) := by
  refine ⟨?_, ?_⟩
  · intro j b hj
    rcases hl with ⟨ha, rfl⟩ | ⟨i, hi, rfl⟩
    · have hb : b ≠ a := fun e => ha (e ▸ List.mem_of_getElem? hj)
      simp only [List.mem_cons, hb, false_or]
      exact h.find j b hj
    · by_cases hba : b = a
      · subst hba
        have : i = j := by
          have h1 := getElem?_lt hi
          have h2 := getElem?_lt hj
          exact (List.Nodup.getElem_inj_iff hnd (hi := h1) (hj := h2)).1 (by
            rw [List.getElem?_eq_getElem h1] at hi; rw [List.getElem?_eq_getElem h2] at hj
            rw [Option.some.inj hi, Option.some.inj hj])
        subst this
        simp [findlabel, openLabs]
      · have : i ≠ j := by
          intro e; subst e; rw [hi] at hj; exact hba (Option.some.inj hj).symm
        have hf := h.find j b hj
        simp only [List.mem_cons, hba, false_or]
        rw [← hf]
        simp [findlabel, openLabs, this]
  · intro c hc k hk
    obtain ⟨b, hb, hr⟩ := h.holes c hc k hk
    exact ⟨b, List.mem_cons_of_mem _ hb, hr⟩

/-- What a label's end does to the heap and the table. -/
def closeHeap (l : Option Nat) (p : Nat) (h : Heap) : Heap :=
  match l with
  | none => h
  | some k => h.map (Cell.fill k (.ptr p))

def closeCell (l : Option Nat) (p : Nat) (c : Cell) : Cell :=
  match l with
  | none => c
  | some k => c.fill k (.ptr p)

def closeVal (l : Option Nat) (p : Nat) (v : Val) : Val :=
  match l with
  | none => v
  | some k => v.fill k (.ptr p)

def closeLabs (l : Option Nat) (p : Nat) (labs : List (Nat × Option Val)) : List (Nat × Option Val) :=
  match l with
  | none => labs
  | some k => setlabel k (.ptr p) labs

theorem findlabel_set (k j : Nat) (r : Val) (labs : List (Nat × Option Val)) :
    findlabel j (setlabel k r labs) = if j = k then (findlabel j labs).map (fun _ => some r) else findlabel j labs := by
  induction labs with
  | nil => simp [findlabel, setlabel]
  | cons p ps ih =>
    simp only [findlabel, setlabel, List.map_cons] at ih ⊢
    by_cases hp : p.1 = k
    · subst hp
      by_cases hj : j = p.1
      · subst hj; simp
      · have : ¬ p.1 = j := fun e => hj e.symm
        simp [hj, this] at ih ⊢
        exact ih
    · by_cases hj : j = p.1
      · subst hj; simp [hp]
      · have : ¬ p.1 = j := fun e => hj e.symm
        simp [hp, this] at ih ⊢
        exact ih

theorem idx_of {j a : Nat} (hnd : S.Nodup) (hj : S[j]? = some a) : S.idxOf a = j := by
  have h := getElem?_lt hj
  rw [List.getElem?_eq_getElem h] at hj
  rw [← Option.some.inj hj]
  exact hnd.idxOf_getElem j h

theorem fill_img {O : List Nat} {f : Nat → Nat} {a p j : Nat} {v : Val} (hnd : S.Nodup) (hj : S[j]? = some a) (haO : a ∉ O)
    (hO : ∀ b, v = .ptr b → b ∈ a :: O → b ∈ S) (hv : GoodVal G v) :
    (img S (a :: O) f v).fill (j + 1) (.ptr p) = img S O (Function.update f a p) v := by
  cases v with
  | ptr b =>
    by_cases hba : b = a
    · subst hba
      simp [img, Val.fill, haO, idx_of hnd hj]
    · by_cases hb : b ∈ O
      · have hbS : b ∈ S := hO b rfl (by simp [hb])
        have : S.idxOf b ≠ j := by
          intro e
          have h1 : S[S.idxOf b]? = some b := List.getElem?_idxOf hbS
          rw [e, hj] at h1; exact hba (Option.some.inj h1).symm
        simp [img, Val.fill, hb, this]
      · simp [img, Val.fill, hb, hba, Function.update]
  | hole n => exact absurd hv (by simp [GoodVal])
  | _ => simp [img, Val.fill]

theorem noLab_img {O : List Nat} {f : Nat → Nat} {a p : Nat} {v : Val} 
    (hsub : ∀ b, v = .ptr b → b ≠ a) : img S (a :: O) f v = img S O (Function.update f a p) v := by
  cases v with
  | ptr b =>
    have hba : b ≠ a := hsub b rfl
    by_cases hb : b ∈ O <;> simp [img, hb, hba, Function.update]
  | _ => simp [img]

theorem parts_img {O : List Nat} {f : Nat → Nat} {c : Cell} : parts (imgCell S O f c) = (parts c).map (img S O f) := by
  cases c <;> rfl

theorem parts_fill {k : Nat} {r : Val} {c : Cell} : parts (c.fill k r) = (parts c).map (fun v => v.fill k r) := by
  cases c <;> rfl

theorem fill_id {k : Nat} {r : Val} {c : Cell} (h : Val.hole k ∉ parts c) : c.fill k r = c := by
  have hv : ∀ v ∈ parts c, v.fill k r = v := by
    intro v hv
    unfold Val.fill
    by_cases e : v = .hole k
    · subst e; exact absurd hv h
    · simp [e]
  cases c with
  | cons a d => simp [Cell.fill, hv a (by simp [parts]), hv d (by simp [parts])]
  | vec s vs =>
    simp only [Cell.fill]
    congr 1
    exact (List.map_congr_left (fun v h' => hv v h')).trans (List.map_id _)
  | str s k => rfl

theorem cell_close {O : List Nat} {f : Nat → Nat} {a p : Nat} {c : Cell} {l : Option Nat} (hG : GoodHeap G) {i : Nat} (hc : G[i]? = some c)
    (hnd : S.Nodup) (haO : a ∉ O) (hl : LabOk S l a) (hO : ∀ b, Val.ptr b ∈ parts c → b ∈ a :: O → b ∈ S) :
    closeCell l p (imgCell S (a :: O) f c) =
      imgCell S O (Function.update f a p) c := by
  have hg := good_parts hG hc
  have hval : ∀ v ∈ parts c, closeVal l p (img S (a :: O) f v) =
      img S O (Function.update f a p) v := by
    intro v hv
    have h1 : ∀ b, v = .ptr b → b ∈ a :: O → b ∈ S := fun b hb => hO b (hb ▸ hv)
    rcases hl with ⟨ha, rfl⟩ | ⟨j, hj, rfl⟩
    · exact noLab_img (fun b hb e => ha (e ▸ h1 b hb (by simp [e])))
    · exact fill_img hnd hj haO h1 (hg v hv)
  cases c with
  | cons x y =>
    have h1 := hval x (by simp [parts])
    have h2 := hval y (by simp [parts])
    cases l <;> simp only [imgCell, Cell.fill, closeCell, closeVal] at * <;> rw [h1, h2]
  | vec s vs =>
    cases l with
    | none => simp only [imgCell, closeCell]; congr 1; exact List.map_congr_left (fun v hv => hval v hv)
    | some k =>
      simp only [imgCell, closeCell, Cell.fill, List.map_map]; congr 1; exact List.map_congr_left (fun v hv => hval v hv)
  | str s k => cases l <;> rfl

theorem LabOk.inj {l : Option Nat} {a b j : Nat} (hl : LabOk S l a) (hj : S[j]? = some b) (h : l = some (j + 1)) : b = a := by
  rcases hl with ⟨_, rfl⟩ | ⟨i, hi, rfl⟩
  · cases h
  · have : i = j := by simpa using h
    subst this
    rw [hi] at hj; exact (Option.some.inj hj).symm

/-- The object is made and its label, if any, ends. -/
theorem Post.close {X X2 O : List Nat} {f f2 : Nat → Nat} {heap heap2 : Heap} {labs labs2 : List (Nat × Option Val)} {a : Nat} {c : Cell}
    {l : Option Nat} (hG : GoodHeap G) (hnd : S.Nodup) (hOX : ∀ b ∈ O, b ∈ X) (hL : Labs S X O f heap labs) (haX : a ∉ X) (hc : G[a]? = some c)
    (hl : LabOk S l a) (h : Post G S (a :: X) X2 (a :: O) f f2 heap heap2 labs2)
    (hk : ∀ b, Val.ptr b ∈ parts c → b ∈ X2 ∧ (b ∈ a :: O → b ∈ S)) :
    Post G S X X2 O f (Function.update f2 a heap2.length) heap
      (closeHeap l heap2.length (heap2 ++ [imgCell S (a :: O) f2 c])) (closeLabs l heap2.length labs2) := by
  have haO : a ∉ O := fun h => haX (hOX a h)
  have haX2 : a ∈ X2 := h.sub a (by simp)
  -- a cell of the heap after closing
  have hget : ∀ (i : Nat) (d : Cell), (heap2 ++ [imgCell S (a :: O) f2 c])[i]? = some d →
      (closeHeap l heap2.length (heap2 ++ [imgCell S (a :: O) f2 c]))[i]? =
        some (closeCell l heap2.length d) := by
    intro i d hd
    cases l with
    | none => exact hd
    | some k => simp only [closeHeap, closeCell, List.getElem?_map, hd, Option.map_some]
  have hlen : (closeHeap l heap2.length (heap2 ++ [imgCell S (a :: O) f2 c])).length = heap2.length + 1 := by
    cases l <;> simp [closeHeap]
  refine ⟨fun b hb => h.sub b (by simp [hb]), ?_, ?_, ?_, ?_, ?_, ?_, ?_⟩
  · intro b hb
    have : b ≠ a := fun e => haX (e ▸ hb)
    simp [Function.update, this, h.agree b (by simp [hb])]
  · rw [hlen]; have := h.len; omega
  · intro i hi
    have hi2 : i < heap2.length := Nat.lt_of_lt_of_le hi h.len
    obtain ⟨d, hd⟩ : ∃ d, heap[i]? = some d := ⟨heap[i], by simp [hi]⟩
    rw [hget i d (by rw [List.getElem?_append_left hi2, h.pre i hi, hd]), hd]
    cases hl' : l with
    | none => rfl
    | some k =>
      simp only [closeCell]
      rw [fill_id]
      intro hh
      obtain ⟨b, hb, j, rfl, hj⟩ := hL.holes d (List.mem_of_getElem? hd) k hh
      exact haO (LabOk.inj hl hj hl' ▸ hb)
  · intro b hb hbX
    by_cases hba : b = a
    · subst hba
      refine ⟨c, hc, by simp [h.len], ?_, fun e he => ⟨(hk e he).1, fun h => (hk e he).2 (by simp [h])⟩⟩
      rw [Function.update_self, hget heap2.length (imgCell S (b :: O) f2 c) (by simp), cell_close hG hc hnd haO hl (fun e he => (hk e he).2)]
    · obtain ⟨cb, hcb, hle, hh, hkb⟩ := h.new b hb (by simp [hba, hbX])
      refine ⟨cb, hcb, by simp [Function.update, hba, hle], ?_, fun e he => ⟨(hkb e he).1, fun h => (hkb e he).2 (by simp [h])⟩⟩
      have hu : Function.update f2 a heap2.length b = f2 b := by simp [Function.update, hba]
      rw [hu, hget (f2 b) _ (by rw [List.getElem?_append_left (getElem?_lt hh), hh]), cell_close hG hcb hnd haO hl (fun e he => (hkb e he).2)]
  · intro b hb hbX e he heX hbe
    have hlt : ∀ b ∈ X2, b ∉ X → b ≠ a → f2 b < heap2.length := by
      intro b hb hbX hba
      obtain ⟨_, _, _, hh, _⟩ := h.new b hb (by simp [hba, hbX])
      exact getElem?_lt hh
    by_cases hba : b = a
    · by_cases hea : e = a
      · rw [hba, hea]
      · have := hlt e he heX hea
        simp [Function.update, hba, hea] at hbe; omega
    · by_cases hea : e = a
      · have := hlt b hb hbX hba
        simp [Function.update, hba, hea] at hbe; omega
      · simp only [Function.update, hba, hea, dif_neg, not_false_eq_true] at hbe
        exact h.inj b hb (by simp [hba, hbX]) e he (by simp [hea, heX]) hbe
  · intro j b hj
    have hf := h.labs.find j b hj
    by_cases hba : b = a
    · subst hba
      rcases hl with ⟨ha, rfl⟩ | ⟨i, hi, rfl⟩
      · exact absurd (List.mem_of_getElem? hj) ha
      · have hij : i = j := by rw [← idx_of hnd hi, idx_of hnd hj]
        subst hij
        simp only [closeLabs]
        rw [findlabel_set, hf]
        simp [haX2, haO]
    · have e1 : findlabel (j + 1) (closeLabs l heap2.length labs2) = findlabel (j + 1) labs2 := by
        cases hl' : l with
        | none => rfl
        | some k =>
          simp only [closeLabs]
          rw [findlabel_set]
          by_cases hk' : j + 1 = k
          · exact absurd (LabOk.inj hl hj (by rw [hl', hk'])) hba
          · simp [hk']
      rw [e1, hf]
      simp [hba, Function.update]
  · intro d hd k hk'
    have hsrc : ∃ b ∈ a :: O, ∃ j, k = j + 1 ∧ S[j]? = some b := by
      have hall : ∀ d ∈ heap2 ++ [imgCell S (a :: O) f2 c], ∀ k, Val.hole k ∈ parts d → ∃ b ∈ a :: O, ∃ j, k = j + 1 ∧ S[j]? = some b := by
        intro d hd k hk'
        rcases List.mem_append.1 hd with hd | hd
        · exact h.labs.holes d hd k hk'
        · rw [List.mem_singleton.1 hd, parts_img] at hk'
          obtain ⟨w, hw, hwk⟩ := List.mem_map.1 hk'
          cases w with
          | ptr b =>
            by_cases hb : b ∈ a :: O
            · simp only [img, hb, if_true, Val.hole.injEq] at hwk
              exact ⟨b, hb, S.idxOf b, hwk.symm, List.getElem?_idxOf ((hk b hw).2 hb)⟩
            · simp [img, hb] at hwk
          | hole n => exact absurd (good_parts hG hc _ hw) (by simp [GoodVal])
          | _ => simp [img] at hwk
      cases l with
      | none => exact hall d hd k hk'
      | some m =>
        simp only [closeHeap] at hd
        obtain ⟨d0, hd0, rfl⟩ := List.mem_map.1 hd
        rw [parts_fill] at hk'
        obtain ⟨w, hw, hwk⟩ := List.mem_map.1 hk'
        unfold Val.fill at hwk
        by_cases e : w = .hole m
        · simp [e] at hwk
        · simp only [e, if_false] at hwk
          exact hall d0 hd0 k (hwk ▸ hw)
    obtain ⟨b, hb, j, rfl, hj⟩ := hsrc
    refine ⟨b, ?_, j, rfl, hj⟩
    rcases List.mem_cons.1 hb with rfl | hb
    · exfalso
      rcases hl with ⟨ha, rfl⟩ | ⟨i, hi, rfl⟩
      · exact ha (List.mem_of_getElem? hj)
      · have hij : i = j := by rw [← idx_of hnd hi, idx_of hnd hj]
        subst hij
        simp only [closeHeap] at hd
        obtain ⟨d0, hd0, rfl⟩ := List.mem_map.1 hd
        rw [parts_fill] at hk'
        obtain ⟨w, hw, hwk⟩ := List.mem_map.1 hk'
        unfold Val.fill at hwk
        by_cases e : w = .hole (i + 1)
        · simp [e] at hwk
        · simp [e] at hwk
    · exact hb

end Eus.Circ
