import Verif.Circ.Mark
set_option autoImplicit false
/-
What is printed, as a tree; `prin1` prints the tree of a value.
-/
namespace Eus.Circ
open Spec

/-- A printed value: an atom, a reference, or an object, with a label or without, with what is printed for its contents. -/
inductive T where
  | leaf (v : Val)
  | ref (k a : Nat)
  | cons (l : Option Nat) (a : Nat) (x y : T)
  | vec (l : Option Nat) (a : Nat) (ts : List T)
  | str (l : Option Nat) (a : Nat) (s k : Nat)

def labT : Option Nat → List Tok
  | none => []
  | some k => [.lab k]

mutual
def tok : T → List Tok
  | .leaf v => [.atom v]
  | .ref k _ => [.ref k]
  | .cons l _ x y => labT l ++ (.lp :: tok x ++ tokTail y)
  | .vec l _ ts => labT l ++ (.vp :: toks ts ++ [.rp])
  | .str l _ s k => labT l ++ [.str s k]
def tokTail : T → List Tok
  | .leaf .nil => [.rp]
  | .leaf v => [.dot, .atom v, .rp]
  | .ref k _ => [.dot, .ref k, .rp]
  | .cons none _ x y => tok x ++ tokTail y
  | .cons (some k) _ x y => .dot :: (.lab k :: (.lp :: tok x ++ tokTail y)) ++ [.rp]
  | .vec l _ ts => .dot :: (labT l ++ (.vp :: toks ts ++ [.rp])) ++ [.rp]
  | .str l _ s k => .dot :: (labT l ++ [.str s k]) ++ [.rp]
def toks : List T → List Tok
  | [] => []
  | t :: ts => tok t ++ toks ts
end

/-- A tree that a list goes on with. -/
def T.isTail : T → Bool
  | .leaf .nil => true
  | .cons none _ _ _ => true
  | _ => false

theorem tokTail_dot (t : T) (h : t.isTail = false) : tokTail t = .dot :: tok t ++ [.rp] := by
  cases t with
  | leaf v => cases v <;> simp_all [T.isTail, tokTail, tok]
  | ref k a => simp [tokTail, tok]
  | cons l a x y => cases l <;> simp_all [T.isTail, tokTail, tok, labT]
  | vec l a ts => simp [tokTail, tok]
  | str l a s k => simp [tokTail, tok]

/-- An object has a label if and only if it is shared. -/
def LabOk (S : List Nat) (l : Option Nat) (a : Nat) : Prop := (a ∉ S ∧ l = none) ∨ ∃ j, S[j]? = some a ∧ l = some (j + 1)

def notPtr : Val → Prop
  | .ptr _ => False
  | _ => True

mutual
/-- The tree of a value: `X` are the objects printed before, `X'` those printed when it is done. -/
inductive Ok (G : Heap) (S : List Nat) : List Nat → T → Val → List Nat → Prop where
  | leaf {X : List Nat} {v : Val} : notPtr v → GoodVal G v → Ok G S X (.leaf v) v X
  | ref {X : List Nat} {j a : Nat} : S[j]? = some a → a ∈ X → Ok G S X (.ref (j + 1) a) (.ptr a) X
  | cons {X X1 X2 : List Nat} {l : Option Nat} {a : Nat} {x y : Val} {tx ty : T} :
    a ∉ X → G[a]? = some (.cons x y) → LabOk S l a → Ok G S (a :: X) tx x X1 → Ok G S X1 ty y X2 → Ok G S X (.cons l a tx ty) (.ptr a) X2
  | vec {X X1 : List Nat} {l : Option Nat} {a : Nat} {vs : List Val} {ts : List T} :
    a ∉ X → G[a]? = some (.vec vs.length vs) → LabOk S l a → OkL G S (a :: X) ts vs X1 → Ok G S X (.vec l a ts) (.ptr a) X1
  | str {X : List Nat} {l : Option Nat} {a s k : Nat} :
    a ∉ X → G[a]? = some (.str s k) → LabOk S l a → Ok G S X (.str l a s k) (.ptr a) (a :: X)
inductive OkL (G : Heap) (S : List Nat) : List Nat → List T → List Val → List Nat → Prop where
  | nil {X : List Nat} : OkL G S X [] [] X
  | cons {X X1 X2 : List Nat} {t : T} {ts : List T} {v : Val} {vs : List Val} :
    Ok G S X t v X1 → OkL G S X1 ts vs X2 → OkL G S X (t :: ts) (v :: vs) X2
end

/-- The state of printing: `X` are the objects printed, `K` the pointers still to be printed. -/
structure PInv (G : Heap) (v : Val) (st : PSt) (X pm K : List Nat) : Prop where
  bag : ∃ D : List Nat, (ptrs v ++ X.flatMap (kids G)).Perm (D ++ K) ∧ ∀ a, a ∈ X ↔ a ∈ D
  nd : X.Nodup
  sub : ∀ a ∈ X, a ∈ st.pm
  ksub : ∀ a ∈ K, a ∈ st.pm
  pmnd : pm.Nodup
  pmX : ∀ a ∈ st.sm, a ∈ pm ↔ a ∉ X
  pm2 : ∀ a, a ∉ st.sm → (a ∈ pm ↔ a ∈ st.pm)

theorem setFirst_first (c : Cell) : c.setFirst c.first = c := by cases c <;> rfl

theorem setFirst_setFirst (c : Cell) (m : Nat) : (c.setFirst (.num m)).setFirst c.first = c := by cases c <;> rfl

theorem first_setFirst (c : Cell) (m : Nat) : (c.setFirst (.num m)).first = .num m := by cases c <;> rfl

variable {G : Heap} {v : Val} {st : PSt}

theorem count_flatMap_le (f : Nat → List Nat) (a : Nat) {l l' : List Nat} (h : l.Sublist l') :
    (l.flatMap f).count a ≤ (l'.flatMap f).count a := by
  induction h with
  | slnil => exact Nat.le_refl _
  | cons x _ ih => rw [List.flatMap_cons, List.count_append]; omega
  | cons_cons x _ ih => rw [List.flatMap_cons, List.flatMap_cons, List.count_append, List.count_append]; omega

theorem PInv.notIn (hM : Marked G v st) {X pm K : List Nat} {a : Nat} (inv : PInv G v st X pm (a :: K)) (ha : a ∉ st.sm) : a ∉ X := by
  intro hX
  obtain ⟨D, hp, hD⟩ := inv.bag
  apply ha
  rw [hM.sm a]
  have h1 : 2 ≤ (ptrs v ++ X.flatMap (kids G)).count a := by
    rw [hp.count_eq, List.count_append, List.count_cons_self]
    have : 1 ≤ D.count a := List.count_pos_iff.2 ((hD a).1 hX)
    omega
  refine Nat.le_trans h1 ?_
  rw [List.count_append, List.count_append]
  have hs : X.Subperm st.pm := List.subperm_of_subset inv.nd inv.sub
  obtain ⟨l, hl, hsub⟩ := hs
  have e : (X.flatMap (kids G)).count a = (l.flatMap (kids G)).count a := (hl.flatMap_right (kids G)).count_eq a |>.symm
  rw [e]
  exact Nat.add_le_add_left (count_flatMap_le (kids G) a hsub) _

/-- Expanding an object. -/
theorem PInv.expand {X pm pm' K : List Nat} {a : Nat} {c : Cell} (hM : Marked G v st) (inv : PInv G v st X pm (a :: K))
    (ha : a ∉ X) (hc : G[a]? = some c) (hnd : pm'.Nodup) (hpm : ∀ b ∈ st.sm, b ∈ pm' ↔ (b ∈ pm ∧ b ≠ a))
    (hpm2 : ∀ b, b ∉ st.sm → (b ∈ pm' ↔ b ∈ pm)) :
    PInv G v st (a :: X) pm' ((parts c).flatMap ptrs ++ K) := by
  obtain ⟨D, hp, hD⟩ := inv.bag
  have hr : Reach G v a := (hM.reach a).1 (inv.ksub a (by simp))
  refine ⟨⟨a :: D, ?_, ?_⟩, List.nodup_cons.2 ⟨ha, inv.nd⟩, ?_, ?_, hnd, ?_, fun b hb => (hpm2 b hb).trans (inv.pm2 b hb)⟩
  · simp only [List.flatMap_cons, kids_eq hc]
    have h1 : (ptrs v ++ (List.flatMap ptrs (parts c) ++ List.flatMap (kids G) X)).Perm
        (List.flatMap ptrs (parts c) ++ (ptrs v ++ List.flatMap (kids G) X)) := by
      rw [← List.append_assoc, ← List.append_assoc]
      exact List.Perm.append_right _ List.perm_append_comm
    refine h1.trans ?_
    refine (List.Perm.append_left _ (hp.trans List.perm_middle)).trans ?_
    rw [← List.cons_append, ← List.append_assoc, ← List.append_assoc]
    exact List.Perm.append_right _ List.perm_append_comm
  · intro b; simp [hD b]
  · intro b hb
    rcases List.mem_cons.1 hb with rfl | hb
    · exact inv.ksub b (by simp)
    · exact inv.sub b hb
  · intro b hb
    rcases List.mem_append.1 hb with hb | hb
    · obtain ⟨w, hw, hbw⟩ := List.mem_flatMap.1 hb
      exact (hM.reach b).2 (.step hr hc (mem_ptrs.1 hbw ▸ hw))
    · exact inv.ksub b (by simp [hb])
  · intro b hb
    rw [hpm b hb, inv.pmX b hb]
    simp only [List.mem_cons, not_or]
    exact ⟨fun h => ⟨h.2, h.1⟩, fun h => ⟨h.2, h.1⟩⟩

/-- A reference. -/
theorem PInv.skip {X pm K : List Nat} {a : Nat} (inv : PInv G v st X pm (a :: K)) (ha : a ∈ X) : PInv G v st X pm K := by
  obtain ⟨D, hp, hD⟩ := inv.bag
  refine { inv with
    bag := ⟨a :: D, hp.trans List.perm_middle, ?_⟩
    ksub := fun b hb => inv.ksub b (by simp [hb]) }
  intro b
  simp only [List.mem_cons, ← hD b]
  constructor
  · exact .inr
  · rintro (rfl | h)
    · exact ha
    · exact h

theorem PInv.le {X pm K : List Nat} (inv : PInv G v st X pm K) : X.length ≤ st.pm.length :=
  (List.subperm_of_subset inv.nd inv.sub).length_le

theorem Marked.smpm (hM : Marked G v st) : ∀ a ∈ st.sm, a ∈ st.pm := by
  intro b hb
  have h2 : b ∈ ptrs v ++ st.pm.flatMap (kids G) := List.count_pos_iff.1 (by have := (hM.sm b).1 hb; omega)
  rcases List.mem_append.1 h2 with h3 | h3
  · rw [hM.reach, mem_ptrs.1 h3]; exact .here b
  · obtain ⟨w, hw, hk⟩ := List.mem_flatMap.1 h3
    obtain ⟨c, hc, hp⟩ := mem_kids.1 hk
    exact (hM.reach b).2 (.step ((hM.reach w).1 hw) hc hp)

theorem quoted_none (hM : Marked G v st) (hQ : NoQuote G) {a : Nat} {x y : Val} (hc : G[a]? = some (.cons x y)) :
    quoted st.heap x y = none := by
  unfold quoted
  by_cases hx : x = .quote
  · subst hx
    simp only [if_true]
    cases y with
    | ptr b =>
      simp only
      have hq := fun e => hQ b e (List.mem_of_getElem? hc)
      by_cases hb : b ∈ st.sm
      · obtain ⟨j, hj⟩ := List.getElem?_of_mem hb
        cases hGb : G[b]? with
        | none =>
          have h4 : st.heap[b]? = none := by
            rw [List.getElem?_eq_none_iff, hM.hlen]; exact List.getElem?_eq_none_iff.1 hGb
          simp [h4]
        | some cb =>
          obtain ⟨h1, _⟩ := hM.shared j b cb hj hGb
          rw [h1]
          cases cb with
          | cons e d =>
            cases d <;> simp_all [Cell.setFirst]
          | vec s vs => simp [Cell.setFirst]
          | str s k => simp [Cell.setFirst]
      · rw [hM.plain b hb]
        cases hGb : G[b]? with
        | none => rfl
        | some cb =>
          cases cb with
          | cons e d => cases d <;> simp_all
          | vec s vs => rfl
          | str s k => rfl
    | _ => rfl
  · simp [hx]

/-- What the three functions of the printer do. -/
structure PrintOk (G : Heap) (v : Val) (st : PSt) (len n : Nat) : Prop where
  one : ∀ (lev : Nat) (X pm K : List Nat) (x : Val), PInv G v st X pm (ptrs x ++ K) → GoodVal G x →
    3 * (st.pm.length - X.length) + 1 ≤ n → st.pm.length - X.length < lev →
    ∃ t X' pm', prin1 st len n lev pm x = some (tok t, pm') ∧ Ok G st.sm X t x X' ∧ PInv G v st X' pm' K ∧ X.length ≤ X'.length ∧
      (listCell st x = none → x ≠ .nil → t.isTail = false)
  obj : ∀ (lev : Nat) (X pm K : List Nat) (a : Nat) (c : Cell) (w : Val), PInv G v st (a :: X) pm ((parts c).flatMap ptrs ++ K) → G[a]? = some c →
    3 * (st.pm.length - (X.length + 1)) + 3 ≤ n → st.pm.length - (X.length + 1) < lev →
    ∃ (mk : Option Nat → T) (X' pm' : List Nat) (ts : List Tok), prinObj st len n lev pm (c.setFirst w) c.first = some (ts, pm') ∧
      (∀ l, tok (mk l) = labT l ++ ts) ∧ (∀ l, a ∉ X → LabOk st.sm l a → Ok G st.sm X (mk l) (.ptr a) X') ∧ PInv G v st X' pm' K ∧
      X.length + 1 ≤ X'.length ∧ (∀ k, (mk (some k)).isTail = false) ∧ ((∀ x y, c ≠ .cons x y) → (mk none).isTail = false)
  tail : ∀ (lev prlen : Nat) (X pm K : List Nat) (x : Val), PInv G v st X pm (ptrs x ++ K) → GoodVal G x →
    3 * (st.pm.length - X.length) + 2 ≤ n → st.pm.length - X.length < lev → st.pm.length - X.length < prlen →
    ∃ t X' pm', prinTail st len n lev prlen pm x = some (tokTail t, pm') ∧ Ok G st.sm X t x X' ∧ PInv G v st X' pm' K ∧ X.length ≤ X'.length

theorem print_all (hG : GoodHeap G) (hQ : NoQuote G) (hM : Marked G v st) (len : Nat) (hlen : st.pm.length ≤ len)
    (hlen0 : 0 < len) : ∀ n, PrintOk G v st len n := by
  intro n
  induction n with
  | zero =>
    constructor
    · intro lev X pm K x _ _ h; omega
    · intro lev X pm K a c w _ _ h; omega
    · intro lev prlen X pm K x _ _ h; omega
  | succ n ih =>
    constructor
    · intro lev X pm K x inv hx hn hl
      have hlev : lev ≠ 0 := by omega
      cases x with
      | lab m => exact absurd hx (by simp [GoodVal])
      | hole m => exact absurd hx (by simp [GoodVal])
      | nil => exact ⟨.leaf .nil, X, pm, by simp [prin1, hlev, tok], .leaf trivial trivial, by simpa [ptrs] using inv, Nat.le_refl _, by simp⟩
      | quote => exact ⟨.leaf .quote, X, pm, by simp [prin1, hlev, tok], .leaf trivial trivial, by simpa [ptrs] using inv, Nat.le_refl _, by simp [T.isTail]⟩
      | sym m => exact ⟨.leaf (.sym m), X, pm, by simp [prin1, hlev, tok], .leaf trivial trivial, by simpa [ptrs] using inv, Nat.le_refl _, by simp [T.isTail]⟩
      | num m => exact ⟨.leaf (.num m), X, pm, by simp [prin1, hlev, tok], .leaf trivial trivial, by simpa [ptrs] using inv, Nat.le_refl _, by simp [T.isTail]⟩
      | ptr a =>
        have ha : a < G.length := hx
        obtain ⟨c, hc⟩ : ∃ c, G[a]? = some c := ⟨G[a], by simp [ha]⟩
        replace inv : PInv G v st X pm (a :: K) := by simpa [ptrs] using inv
        by_cases has : a ∈ st.sm
        · obtain ⟨j, hj⟩ := List.getElem?_of_mem has
          obtain ⟨hh, hix⟩ := hM.shared j a c hj hc
          have hixd : st.ix.getD j .nil = c.first := by simp [List.getD_eq_getElem?_getD, hix]
          by_cases hap : a ∈ pm
          · have haX : a ∉ X := (inv.pmX a has).1 hap
            have inv1 : PInv G v st (a :: X) (pm.erase a) ((parts c).flatMap ptrs ++ K) := by
              apply inv.expand hM haX hc (inv.pmnd.erase a)
              · intro b _
                rw [inv.pmnd.mem_erase_iff]; exact ⟨fun h => ⟨h.2, h.1⟩, fun h => ⟨h.2, h.1⟩⟩
              · intro b hb
                rw [inv.pmnd.mem_erase_iff]; exact ⟨fun h => h.2, fun h => ⟨fun e => hb (e ▸ has), h⟩⟩
            have hlt : X.length + 1 ≤ st.pm.length := by simpa using inv1.le
            obtain ⟨mk, X', pm', ts, h1, h2, h3, h4, h5, h6, _⟩ := ih.obj (lev - 1) X _ K a c (.num (j + 1)) inv1 hc (by omega) (by omega)
            refine ⟨mk (some (j + 1)), X', pm', ?_, h3 _ haX (.inr ⟨j, hj, rfl⟩), h4, by omega, fun _ _ => h6 _⟩
            have hixd' : st.ix.getD (j + 1 - 1) .nil = c.first := by rw [Nat.add_sub_cancel]; exact hixd
            simp only [prin1, hlev, if_false, hh, has, if_true, first_setFirst, hap, hixd', h1]
            simp [h2, labT]
          · have haX : a ∈ X := by
              by_contra h; exact hap ((inv.pmX a has).2 h)
            refine ⟨.ref (j + 1) a, X, pm, ?_, .ref hj haX, inv.skip haX, Nat.le_refl _, fun _ _ => rfl⟩
            simp [prin1, hlev, hh, has, first_setFirst, hap, tok]
        · have haX : a ∉ X := inv.notIn hM has
          have hh : st.heap[a]? = some c := by rw [hM.plain a has, hc]
          have inv1 : PInv G v st (a :: X) pm ((parts c).flatMap ptrs ++ K) := by
            apply inv.expand hM haX hc inv.pmnd
            · intro b hb
              exact ⟨fun h => ⟨h, fun e => has (e ▸ hb)⟩, fun h => h.1⟩
            · exact fun b _ => Iff.rfl
          have hlt : X.length + 1 ≤ st.pm.length := by simpa using inv1.le
          obtain ⟨mk, X', pm', ts, h1, h2, h3, h4, h5, _, h7⟩ := ih.obj (lev - 1) X _ K a c c.first inv1 hc (by omega) (by omega)
          rw [setFirst_first] at h1
          refine ⟨mk none, X', pm', ?_, h3 _ haX (.inl ⟨has, rfl⟩), h4, by omega, ?_⟩
          · simp [prin1, hlev, hh, has, h1, h2, labT]
          · intro hlc _
            apply h7
            intro x y hxy
            subst hxy
            simp [listCell, hh, has] at hlc
    · intro lev X pm K a c w inv hc hn hl
      cases c with
      | cons x y =>
        have hgp := good_parts hG hc
        obtain ⟨t1, X1, pm1, e1, o1, i1, l1, _⟩ := ih.one lev (a :: X) pm (ptrs y ++ K) x (by simpa [parts, List.append_assoc] using inv)
          (hgp x (by simp [parts])) (by simp; omega) (by simpa using hl)
        simp only [List.length_cons] at l1
        obtain ⟨t2, X2, pm2, e2, o2, i2, l2⟩ := ih.tail lev len X1 pm1 K y i1 (hgp y (by simp [parts])) (by omega) (by omega) (by
          have := i1.le; omega)
        refine ⟨fun l => .cons l a t1 t2, X2, pm2, .lp :: tok t1 ++ tokTail t2, ?_, fun l => by simp [tok], fun l h1 h2 => .cons h1 hc h2 o1 o2, i2,
          by omega, fun k => rfl, fun h => absurd rfl (h x y)⟩
        simp [prinObj, Cell.setFirst, Cell.first, quoted_none hM hQ hc, e1, e2]
      | vec s vs =>
        have hs : vs.length = s := (hG _ (List.mem_of_getElem? hc)).2 s vs rfl
        have hgp := good_parts hG hc
        have hfold : ∀ (vs : List Val) (X pm : List Nat) (acc : List Tok), PInv G v st X pm (vs.flatMap ptrs ++ K) → (∀ x ∈ vs, GoodVal G x) →
            3 * (st.pm.length - X.length) + 1 ≤ n → st.pm.length - X.length < lev →
            ∃ ts X' pm', vs.foldlM (fun (acc : List Tok × List Nat) v =>
              (prin1 st len n lev acc.2 v).map fun r => (acc.1 ++ r.1, r.2)) (acc, pm) = some (acc ++ toks ts, pm') ∧ OkL G st.sm X ts vs X' ∧ PInv G v st X' pm' K ∧ X.length ≤ X'.length := by
          intro vs
          induction vs with
          | nil => intro X pm acc i _ _ _; exact ⟨[], X, pm, by simp [toks], .nil, by simpa using i, Nat.le_refl _⟩
          | cons x xs ihx =>
            intro X pm acc i hg hn hl
            obtain ⟨t1, X1, pm1, e1, o1, i1, l1, _⟩ := ih.one lev X pm (xs.flatMap ptrs ++ K) x
              (by simpa [List.flatMap_cons, List.append_assoc] using i) (hg x (by simp)) hn hl
            obtain ⟨ts, X2, pm2, e2, o2, i2, l2⟩ := ihx X1 pm1 (acc ++ tok t1) i1 (fun y hy => hg y (by simp [hy])) (by omega) (by omega)
            refine ⟨t1 :: ts, X2, pm2, ?_, .cons o1 o2, i2, by omega⟩
            rw [List.foldlM_cons]
            simp only [e1]
            simpa [toks, List.append_assoc] using e2
        obtain ⟨ts, X1, pm1, e1, o1, i1, l1⟩ := hfold vs (a :: X) pm [.vp] inv hgp (by simp; omega) (by simpa using hl)
        simp only [List.length_cons] at l1
        refine ⟨fun l => .vec l a ts, X1, pm1, .vp :: toks ts ++ [.rp], ?_, fun l => by simp [tok], fun l h1 h2 => .vec h1 (hs ▸ hc) h2 o1, i1,
          by omega, fun k => rfl, fun _ => rfl⟩
        have ht : vs.take s = vs := by simp [← hs]
        have hl0 : len ≠ 0 := by omega
        simp only [prinObj, Cell.setFirst, Cell.first, hl0, if_false, ht]
        rw [e1]; simp
      | str s k =>
        refine ⟨fun l => .str l a s k, a :: X, pm, [.str s k], by simp [prinObj, Cell.setFirst, Cell.first], fun l => by simp [tok],
          fun l h1 h2 => .str h1 hc h2, by simpa [parts] using inv, by simp, fun k => rfl, fun _ => rfl⟩
    · intro lev prlen X pm K x inv hx hn hl hp
      cases hlc : listCell st x with
      | none =>
        by_cases hnil : x = .nil
        · subst hnil
          exact ⟨.leaf .nil, X, pm, by simp [prinTail, listCell, tokTail], .leaf trivial trivial, by simpa [ptrs] using inv, Nat.le_refl _⟩
        · obtain ⟨t, X', pm', e, o, i, l, ht⟩ := ih.one lev X pm K x inv hx (by omega) hl
          refine ⟨t, X', pm', ?_, o, i, l⟩
          rw [tokTail_dot t (ht hlc hnil)]
          simp [prinTail, hlc, hnil, e]
      | some p =>
        obtain ⟨e, d⟩ := p
        have ⟨a, hxa, hha, has⟩ : ∃ a, x = .ptr a ∧ st.heap[a]? = some (.cons e d) ∧ a ∉ st.sm := by
          unfold listCell at hlc
          cases x with
          | ptr b =>
            simp only at hlc
            cases hb : st.heap[b]? with
            | none => simp [hb] at hlc
            | some cb =>
              cases cb with
              | cons e' d' =>
                by_cases hs : b ∈ st.sm
                · simp [hb, hs] at hlc
                · simp [hb, hs] at hlc
                  obtain ⟨rfl, rfl⟩ := hlc
                  exact ⟨b, rfl, hb, hs⟩
              | vec s vs => simp [hb] at hlc
              | str s k => simp [hb] at hlc
          | _ => simp at hlc
        subst hxa
        have hc : G[a]? = some (.cons e d) := by rw [← hM.plain a has, hha]
        replace inv : PInv G v st X pm (a :: K) := by simpa [ptrs] using inv
        have haX : a ∉ X := inv.notIn hM has
        have inv1 : PInv G v st (a :: X) pm ((parts (.cons e d)).flatMap ptrs ++ K) := by
          apply inv.expand hM haX hc inv.pmnd
          · intro b hb
            exact ⟨fun h => ⟨h, fun e => has (e ▸ hb)⟩, fun h => h.1⟩
          · exact fun b _ => Iff.rfl
        have hlt : X.length + 1 ≤ st.pm.length := by simpa using inv1.le
        have hgp := good_parts hG hc
        obtain ⟨t1, X1, pm1, e1, o1, i1, l1, _⟩ := ih.one lev (a :: X) pm (ptrs d ++ K) e (by simpa [parts, List.append_assoc] using inv1)
          (hgp e (by simp [parts])) (by simp; omega) (by simp; omega)
        simp only [List.length_cons] at l1
        obtain ⟨t2, X2, pm2, e2, o2, i2, l2⟩ := ih.tail lev (prlen - 1) X1 pm1 K d i1 (hgp d (by simp [parts])) (by omega) (by omega) (by omega)
        refine ⟨.cons none a t1 t2, X2, pm2, ?_, .cons haX hc (.inl ⟨has, rfl⟩) o1 o2, i2, by omega⟩
        have hpl : prlen - 1 ≠ 0 := by omega
        simp [prinTail, hlc, hpl, e1, e2, tokTail]

/-- Printing a value: a tree in which every object that can be reached is printed once. -/
theorem print_done (hG : GoodHeap G) (hv : GoodVal G v) (hQ : NoQuote G) (hM : Marked G v st) (len lev n : Nat) (hlen : G.length ≤ len)
    (hlen0 : 0 < len) (hlev : G.length < lev) (hn : 3 * G.length + 1 ≤ n) :
    ∃ t X pm, prin1 st len n lev st.pm v = some (tok t, pm) ∧ Ok G st.sm [] t v X ∧ (∀ a, a ∈ X ↔ Reach G v a) ∧
      pm.Nodup ∧ ∀ a, a ∈ pm ↔ (a ∈ st.pm ∧ a ∉ st.sm) := by
  have hle : st.pm.length ≤ G.length := length_le_of_nodup hM.pmnd (fun a ha => reach_lt hG hv ((hM.reach a).1 ha))
  have hsp := hM.smpm
  have inv : PInv G v st [] st.pm (ptrs v ++ []) := by
    refine ⟨⟨[], by simp, by simp⟩, by simp, by simp, ?_, hM.pmnd, ?_, fun _ _ => Iff.rfl⟩
    · intro a ha
      simp only [List.append_nil] at ha
      rw [hM.reach, mem_ptrs.1 ha]; exact .here a
    · intro a ha; simp [hsp a ha]
  obtain ⟨t, X, pm, e, o, i, _, _⟩ := (print_all hG hQ hM len (by omega) hlen0 n).one lev [] st.pm [] v inv hv (by simp; omega) (by simp; omega)
  obtain ⟨D, hp, hD⟩ := i.bag
  rw [List.append_nil] at hp
  have hX : ∀ a, a ∈ X ↔ Reach G v a := by
    intro a
    refine ⟨fun h => (hM.reach a).1 (i.sub a h), ?_⟩
    apply reach_closed
    · intro a ha; exact (hD a).2 (hp.subset (by simp [ha]))
    · intro a ha b hb
      exact (hD b).2 (hp.subset (List.mem_append_right _ (List.mem_flatMap.2 ⟨a, ha, hb⟩)))
  refine ⟨t, X, pm, e, o, hX, i.pmnd, ?_⟩
  intro a
  by_cases ha : a ∈ st.sm
  · constructor
    · intro hap; exact absurd ((hX a).2 ((hM.reach a).1 (hsp a ha))) ((i.pmX a ha).1 hap)
    · intro h; exact absurd ha h.2
  · rw [i.pm2 a ha]; simp [ha]

end Eus.Circ
