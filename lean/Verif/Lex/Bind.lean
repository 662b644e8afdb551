import Verif.Lex.Proofs
set_option autoImplicit false
/-
Looking up, binding and leaving.
-/
namespace Eus.Lex

/-! ### Looking up -/

theorem cellOf_cons (x y : Sym) (l : Nat) (ρ : SEnv) : cellOf x ((y, l) :: ρ) = if y = x then some l else cellOf x ρ := by
  simp only [cellOf, List.find?_cons]
  by_cases h : y = x
  · subst h; simp
  · have : (y == x) = false := by simpa using h
    rw [this, if_neg h]

theorem skel_bind {st : List Entry} {i : Nat} {x : Sym} {w : MVal} {lex : Ptr} (h : (st.map skel)[i]? = some (.bind x w lex)) : ∃ v, st[i]? = some (.bind x v lex) := by
  rw [List.getElem?_map] at h
  cases he : st[i]? with
  | none => rw [he] at h; cases h
  | some E =>
    rw [he] at h
    cases E with
    | bind y v l => simp only [Option.map_some, skel, Option.some.injEq, Entry.bind.injEq] at h; exact ⟨v, by rw [h.1, h.2.2]⟩
    | fn => simp [skel] at h

theorem skel_fn {st : List Entry} {i : Nat} {f : Sym} {a b c d lex} (h : (st.map skel)[i]? = some (.fn f a b c d lex)) : ∃ ps body e fe, st[i]? = some (.fn f ps body e fe lex) := by
  rw [List.getElem?_map] at h
  cases he : st[i]? with
  | none => rw [he] at h; cases h
  | some E =>
    rw [he] at h
    cases E with
    | bind => simp [skel] at h
    | fn y ps body e fe l => simp only [Option.map_some, skel, Option.some.injEq, Entry.fn.injEq] at h; exact ⟨ps, body, e, fe, by rw [h.1, h.2.2.2.2.2]⟩

theorem findVar_rel (brk : Bool) {W : World} {st : List Entry} (hst : st.map skel = W.sk) {x : Sym} {ρ : SEnv} : ∀ {p : Ptr} {n : Nat}, EnvRel W ρ p → ltPtr p n →
    match cellOf x ρ with
    | some l => ∃ i v lex, findVar brk st x n p = .ok (some i) () ∧ W.L[i]? = some l ∧ st[i]? = some (.bind x v lex)
    | none => findVar brk st x n p = .ok none () := by
  induction ρ with
  | nil => intro p n h _; obtain rfl : p = none := h; simp [cellOf, findVar]
  | cons c ρ ih =>
    obtain ⟨y, l⟩ := c
    intro p n h hn
    obtain ⟨i, lex, rfl, hi, hs, hlt, hr⟩ := h
    obtain ⟨v, hv⟩ := skel_bind (hst ▸ hs)
    cases n with
    | zero => exact absurd hn (by simp [ltPtr])
    | succ n =>
      rw [cellOf_cons]
      by_cases hy : y = x
      · subst hy
        rw [if_pos rfl]
        exact ⟨i, v, lex, by simp [findVar, hv], hi, hv⟩
      · rw [if_neg hy]
        have hne : lex ≠ some i := by rintro rfl; simp [ltPtr] at hlt
        have hf : findVar brk st x (n + 1) (some i) = findVar brk st x n lex := by simp [findVar, hv, hy, hne]
        rw [hf]
        refine ih hr ?_
        cases lex with
        | none => trivial
        | some j => simp only [ltPtr] at hlt hn ⊢; omega

theorem findFun_extra {md : Mode} {P : Prog} {W : World} {st : List Entry} (hst : st.map skel = W.sk) {f : Sym} (hf : P.fns f ≠ none) {lim : Nat} {q : Ptr} (h : Extra md P W lim q) :
    ∀ {n : Nat}, ltPtr q n → findFun st f n q = .ok none () := by
  induction h with
  | nil => intro n _; cases n <;> rfl
  | @cons i g lex _ _ hs hg hlt _ ih =>
    intro n hn
    obtain ⟨ps, b, e, fe, hv⟩ := skel_fn (hst ▸ hs)
    cases n with
    | zero => exact absurd hn (by simp [ltPtr])
    | succ n =>
      have hne : g ≠ f := by rintro rfl; exact hf hg
      have : findFun st f (n + 1) (some i) = findFun st f n lex := by simp [findFun, hv, hne]
      rw [this]
      refine ih ?_
      cases lex with
      | none => trivial
      | some j => simp only [ltPtr] at hlt hn ⊢; omega

theorem findFun_rel {md : Mode} {P : Prog} {W : World} {st : List Entry} (hst : st.map skel = W.sk) {f : Sym} {lim : Nat} {φ : SEnv} : ∀ {q : Ptr} {n : Nat}, FunRel md P W lim φ q → ltPtr q n →
    match cellOf f φ with
    | some l => ∃ i ps b e fe lex, findFun st f n q = .ok (some i) () ∧ W.L[i]? = some l ∧ st[i]? = some (.fn f ps b e fe lex)
    | none => P.fns f ≠ none → findFun st f n q = .ok none () := by
  induction φ with
  | nil => intro q n h hn; simp only [cellOf, List.find?_nil, Option.map_none]; exact fun hf => findFun_extra hst hf h hn
  | cons c φ ih =>
    obtain ⟨y, l⟩ := c
    intro p n h hn
    obtain ⟨i, lex, rfl, _, hi, hs, _, hlt, hr⟩ := h
    obtain ⟨ps, b, e, fe, hv⟩ := skel_fn (hst ▸ hs)
    cases n with
    | zero => exact absurd hn (by simp [ltPtr])
    | succ n =>
      rw [cellOf_cons]
      by_cases hy : y = f
      · subst hy
        rw [if_pos rfl]
        exact ⟨i, ps, b, e, fe, lex, by simp [findFun, hv], hi, hv⟩
      · rw [if_neg hy]
        have hf : findFun st f (n + 1) (some i) = findFun st f n lex := by simp [findFun, hv, hy]
        rw [hf]
        refine ih hr ?_
        cases lex with
        | none => trivial
        | some j => simp only [ltPtr] at hlt hn ⊢; omega

theorem EnvRel.inRange {W : World} (g : W.Good) {ρ : SEnv} {p : Ptr} (h : EnvRel W ρ p) : ltPtr p (W.sk.length + 1) := by
  cases ρ with
  | nil => obtain rfl : p = none := h; trivial
  | cons c ρ =>
    obtain ⟨i, lex, rfl, hi, _⟩ := h
    have := (List.getElem?_eq_some_iff.1 hi).1
    have := g.len
    simp only [ltPtr]; omega

theorem FunRel.inRange {md : Mode} {P : Prog} {W : World} (g : W.Good) {lim : Nat} {φ : SEnv} {q : Ptr} (h : FunRel md P W lim φ q) : ltPtr q (W.sk.length + 1) := by
  cases φ with
  | nil =>
    cases h with
    | nil => trivial
    | cons _ _ hs _ _ _ => have := (List.getElem?_eq_some_iff.1 hs).1; simp only [ltPtr]; omega
  | cons c φ =>
    obtain ⟨i, lex, rfl, _, hi, _⟩ := h
    have := (List.getElem?_eq_some_iff.1 hi).1
    have := g.len
    simp only [ltPtr]; omega

/-- Variables of the chain above scope have none of these names. -/
def Clear (W : World) (ρ : SEnv) (scope : Ptr) (xs : List Sym) : Prop := ∀ c ∈ ρ, ∀ i, W.L[i]? = some c.2 → Ptr.above (some i) scope = true → c.1 ∉ xs

theorem multi_false {W : World} {st : List Entry} (hst : st.map skel = W.sk) {x : Sym} {scope : Ptr} {ρ : SEnv} : ∀ {p : Ptr} {n : Nat}, EnvRel W ρ p → ltPtr p n →
    (∀ c ∈ ρ, ∀ i, W.L[i]? = some c.2 → Ptr.above (some i) scope = true → c.1 ≠ x) → multi st x scope n p = .ok false () := by
  induction ρ with
  | nil => intro p n h _ _; obtain rfl : p = none := h; cases n <;> simp [multi, Ptr.above]
  | cons c ρ ih =>
    obtain ⟨y, l⟩ := c
    intro p n h hn hc
    obtain ⟨i, lex, rfl, hi, hs, hlt, hr⟩ := h
    obtain ⟨v, hv⟩ := skel_bind (hst ▸ hs)
    cases n with
    | zero => exact absurd hn (by simp [ltPtr])
    | succ n =>
      by_cases ha : Ptr.above (some i) scope = true
      · have hy : y ≠ x := hc (y, l) List.mem_cons_self i hi ha
        have hne : lex ≠ some i := by rintro rfl; simp [ltPtr] at hlt
        have hf : multi st x scope (n + 1) (some i) = multi st x scope n lex := by
          rw [multi, if_pos ha]; simp only [hv, if_neg hy, if_neg hne]
        rw [hf]
        refine ih hr ?_ (fun c hcm => hc c (List.mem_cons_of_mem _ hcm))
        cases lex with
        | none => trivial
        | some j => simp only [ltPtr] at hlt hn ⊢; omega
      · rw [multi, if_neg ha]

/-! ### Unbinding special variables -/

theorem unbind_comp {a b : Nat} (hab : a ≤ b) (sb : List (Sym × Option MVal)) : ∀ g, unbind a (unbind b sb g).1 (unbind b sb g).2 = unbind a sb g := by
  induction sb with
  | nil => intro g; rfl
  | cons c sb ih =>
    intro g
    obtain ⟨x, v⟩ := c
    by_cases hb : b < sb.length + 1
    · have ha : a < sb.length + 1 := by omega
      simp only [unbind, if_pos hb, if_pos ha]
      exact ih _
    · simp only [unbind, if_neg hb]

theorem unbind_self (sb : List (Sym × Option MVal)) (g : Sym → Option MVal) : unbind sb.length sb g = (sb, g) := by
  cases sb with
  | nil => rfl
  | cons c sb => obtain ⟨x, v⟩ := c; simp [unbind]

/-- Unbinding from M1 to M brings back the special variables xs. -/
structure Restores (P : Prog) (xs : List Sym) (M M1 : MState) : Prop where
  le : M.sb.length ≤ M1.sb.length
  un : ∀ g, unbind M.sb.length M1.sb g = (M.sb, fun y => if P.special y = true ∧ y ∈ xs then M.glob y else g y)
  keep : ∀ y, ¬(P.special y = true ∧ y ∈ xs) → M1.glob y = M.glob y

theorem Restores.trans {P : Prog} {xs ys : List Sym} {M M1 M2 : MState} (h : Restores P xs M M1) (h' : Restores P ys M1 M2) : Restores P (xs ++ ys) M M2 := by
  refine ⟨Nat.le_trans h.le h'.le, fun g => ?_, fun y hy => ?_⟩
  · rw [← unbind_comp h.le, h'.un]
    simp only [h.un, Prod.mk.injEq, true_and]
    funext y
    by_cases h1 : P.special y = true ∧ y ∈ xs
    · rw [if_pos h1, if_pos ⟨h1.1, List.mem_append_left _ h1.2⟩]
    · rw [if_neg h1]
      by_cases h2 : P.special y = true ∧ y ∈ ys
      · rw [if_pos h2, if_pos ⟨h2.1, List.mem_append_right _ h2.2⟩, h.keep y h1]
      · rw [if_neg h2, if_neg]
        rintro ⟨ha, hb⟩
        rcases List.mem_append.1 hb with hb | hb
        · exact h1 ⟨ha, hb⟩
        · exact h2 ⟨ha, hb⟩
  · rw [h'.keep y fun h2 => hy ⟨h2.1, List.mem_append_right _ h2.2⟩, h.keep y fun h2 => hy ⟨h2.1, List.mem_append_left _ h2.2⟩]

/-! ### Entering and leaving forms -/

structure Grow (md : Mode) (P : Prog) (xs : List Sym) (S : SState) (M : MState) (S1 : SState) (M1 : MState) : Prop where
  inv : Inv md P S1 M1
  pre : ∃ ls es, S1.live = S.live ++ ls ∧ M1.stack = M.stack ++ es
  next : S.next ≤ S1.next
  ge : ∀ (i l : Nat), S1.live[i]? = some l → S.live.length ≤ i → S.next ≤ l
  un : Restores P xs M M1

theorem Grow.later {md : Mode} {P : Prog} {xs : List Sym} {S S1 : SState} {M M1 : MState} (h : Grow md P xs S M S1 M1) (hi : Inv md P S M) : Later (wof S M) (wof S1 M1) := by
  obtain ⟨ls, es, hl, he⟩ := h.pre
  refine ⟨h.next, fun i l hil hlt => ?_⟩
  have hil' : S1.live[i]? = some l := hil
  have hlen : S.live.length = M.stack.length := by have := hi.good.len; simpa [wof] using this
  have hin : i < S.live.length := by
    rcases Nat.lt_or_ge i S.live.length with h1 | h1
    · exact h1
    · have h2 := h.ge i l hil' h1
      have h3 : l < S.next := hlt
      omega
  constructor
  · show S.live[i]? = some l
    rw [hl, List.getElem?_append_left hin] at hil'; exact hil'
  · show (M1.stack.map skel)[i]? = (M.stack.map skel)[i]?
    rw [he, List.map_append, List.getElem?_append_left (by rw [List.length_map]; omega)]

theorem leave_ok {md : Mode} {P : Prog} {xs : List Sym} {S S1 S' : SState} {M M1 M' : MState} (hi : Inv md P S M) (he : Grow md P xs S M S1 M1) (ha : After md P S1 M1 S' M') :
    After md P S M (sleave P xs S S') (leave M M') ∧ ∀ v v', VRel md P (wof S' M') v v' → VRel md P (wof (sleave P xs S S') (leave M M')) v v' := by
  obtain ⟨ls, es, hl, hes⟩ := he.pre
  have hlen : S.live.length = M.stack.length := by have := hi.good.len; simpa [wof] using this
  have hsk : (leave M M').stack.map skel = M.stack.map skel := by
    show (M'.stack.take M.stack.length).map skel = _
    rw [List.map_take, ha.sk, hes, List.map_append, List.take_append_of_le_length (by simp), List.take_of_length_le (by simp)]
  have hlive' : S'.live = S.live ++ ls := ha.live.trans hl
  have hnext : S.next ≤ S'.next := Nat.le_trans he.next ha.next
  have hg : (wof (sleave P xs S S') (leave M M')).Good := by
    refine ⟨hi.good.inc, fun l h => Nat.lt_of_lt_of_le (hi.good.lt l h) hnext, ?_⟩
    show S.live.length = ((leave M M').stack.map skel).length
    rw [hsk]; simpa using hlen
  have h2 : Later (wof S' M') (wof (sleave P xs S S') (leave M M')) := by
    refine ⟨Nat.le_refl _, fun i l hil _ => ?_⟩
    have hil' : S.live[i]? = some l := hil
    have hlt : i < S.live.length := (List.getElem?_eq_some_iff.1 hil').1
    constructor
    · show S'.live[i]? = some l
      rw [hlive', List.getElem?_append_left hlt]; exact hil'
    · show ((leave M M').stack.map skel)[i]? = (M'.stack.map skel)[i]?
      rw [hsk, ha.sk, hes, List.map_append, List.getElem?_append_left (by rw [List.length_map]; omega)]
  have h1 : Later (wof S M) (wof (sleave P xs S S') (leave M M')) := (he.later hi).trans (ha.later.trans h2)
  have hun : unbind M.sb.length M'.sb M'.glob = (M.sb, fun y => if P.special y = true ∧ y ∈ xs then M.glob y else M'.glob y) := by rw [ha.sb]; exact he.un.un _
  refine ⟨⟨⟨hg, ?_, ?_⟩, rfl, hsk, hnext, rfl, rfl, ?_⟩, fun v v' hv => hv.later h2 ha.inv.good hg⟩
  · intro i l E hil hE
    have hil' : S.live[i]? = some l := hil
    have hE' : (M'.stack.take M.stack.length)[i]? = some E := hE
    have hlt : i < S.live.length := (List.getElem?_eq_some_iff.1 hil').1
    rw [List.getElem?_take_of_lt (by omega)] at hE'
    exact (ha.inv.cells i l E (by rw [hlive', List.getElem?_append_left hlt]; exact hil') hE').later h2 ha.inv.good hg
  · intro x
    have hM : (leave M M').glob x = if P.special x = true ∧ x ∈ xs then M.glob x else M'.glob x := by simp only [leave, hun]
    have hS : (sleave P xs S S').glob x = if P.special x = true ∧ x ∈ xs then S.glob x else S'.glob x := rfl
    rw [hM, hS]
    by_cases hx : P.special x = true ∧ x ∈ xs
    · rw [if_pos hx, if_pos hx]; exact (hi.glob x).later h1 hi.good hg
    · rw [if_neg hx, if_neg hx]; exact (ha.inv.glob x).later h2 ha.inv.good hg
  · simp only [leave, hun]

/-! ### Binding variables -/

def TopP (W : World) (p : Ptr) : Prop := ∀ (i : Nat) (x : Sym) (lex : Ptr), W.sk[i]? = some (.bind x .nil lex) → ∃ j, p = some j ∧ i ≤ j

structure Entered (md : Mode) (P : Prog) (xs : List Sym) (ρ ρ1 : SEnv) (S : SState) (M : MState) (S1 : SState) (M1 : MState) : Prop where
  grow : Grow md P xs S M S1 M1
  env : EnvRel (wof S1 M1) ρ1 M1.bindfp
  fletfp : M1.fletfp = M.fletfp
  names : names ρ1 = ext P xs (names ρ)
  new : ∃ new, ρ1 = new ++ ρ ∧ (∀ c, new.getLast? = some c → c.2 = S.next ∧ S1.live[S.live.length]? = some S.next) ∧ ((∃ x ∈ xs, P.special x = false) → new ≠ []) ∧
    (new = [] → S1.next = S.next ∧ S1.live = S.live)
  keepTop : TopP (wof S M) M.bindfp → TopP (wof S1 M1) M1.bindfp
  newTop : (∃ x ∈ xs, P.special x = false) → TopP (wof S1 M1) M1.bindfp

theorem Entered.refl {md : Mode} {P : Prog} {ρ : SEnv} {S : SState} {M : MState} (hi : Inv md P S M) (he : EnvRel (wof S M) ρ M.bindfp) : Entered md P [] ρ ρ S M S M := by
  refine ⟨⟨hi, ⟨[], [], by simp, by simp⟩, Nat.le_refl _, ?_, ⟨Nat.le_refl _, fun g => ?_, fun _ _ => rfl⟩⟩, he, rfl, rfl, ⟨[], rfl, ?_, ?_, fun _ => ⟨rfl, rfl⟩⟩, id, ?_⟩
  · intro i l h h'; have := (List.getElem?_eq_some_iff.1 h).1; omega
  · rw [unbind_self]; simp
  · intro c hc; cases hc
  · rintro ⟨x, hx, _⟩; cases hx
  · rintro ⟨x, hx, _⟩; cases hx

theorem ext_append (P : Prog) (xs ys sc : List Sym) : ext P (xs ++ ys) sc = ext P ys (ext P xs sc) := by
  induction xs generalizing sc with
  | nil => rfl
  | cons x xs ih => simp only [List.cons_append, ext]; exact ih _

theorem Entered.trans {md : Mode} {P : Prog} {xs ys : List Sym} {ρ ρ1 ρ2 : SEnv} {S S1 S2 : SState} {M M1 M2 : MState} (h : Entered md P xs ρ ρ1 S M S1 M1)
    (h' : Entered md P ys ρ1 ρ2 S1 M1 S2 M2) : Entered md P (xs ++ ys) ρ ρ2 S M S2 M2 := by
  obtain ⟨ls, es, hl, he⟩ := h.grow.pre
  obtain ⟨ls', es', hl', he'⟩ := h'.grow.pre
  obtain ⟨new, hn, hnl, hnn, hne⟩ := h.new
  obtain ⟨new', hn', hnl', hnn', hne'⟩ := h'.new
  refine ⟨⟨h'.grow.inv, ⟨ls ++ ls', es ++ es', by rw [hl', hl, List.append_assoc], by rw [he', he, List.append_assoc]⟩, Nat.le_trans h.grow.next h'.grow.next, ?_, h.grow.un.trans h'.grow.un⟩,
    h'.env, h'.fletfp.trans h.fletfp, ?_, ⟨new' ++ new, ?_, ?_, ?_, ?_⟩, fun ht => h'.keepTop (h.keepTop ht), ?_⟩
  · intro i l hi hlen
    rcases Nat.lt_or_ge i S1.live.length with h1 | h1
    · rw [hl', List.getElem?_append_left h1] at hi
      exact h.grow.ge i l hi hlen
    · exact Nat.le_trans h.grow.next (h'.grow.ge i l hi h1)
  · rw [h'.names, h.names, ext_append]
  · rw [hn', hn, List.append_assoc]
  · intro c hc
    by_cases h0 : new = []
    · subst h0
      rw [List.append_nil] at hc
      have := hnl' c hc
      obtain ⟨h1, h2⟩ := hne rfl
      rw [h1, h2] at this
      exact this
    · have h1 : new.getLast? = some c := by
        rw [List.getLast?_append] at hc
        cases hg : new.getLast? with
        | none => exact absurd (List.getLast?_eq_none_iff.1 hg) h0
        | some d => rw [hg] at hc; simpa using hc
      have h2 := hnl c h1
      refine ⟨h2.1, ?_⟩
      rw [hl', List.getElem?_append_left (List.getElem?_eq_some_iff.1 h2.2).1]; exact h2.2
  · rintro ⟨x, hx, hs⟩
    rcases List.mem_append.1 hx with hx | hx
    · have := hnn ⟨x, hx, hs⟩; simp [this]
    · have := hnn' ⟨x, hx, hs⟩; simp [this]
  · intro h0
    obtain ⟨h1, h2⟩ := List.append_eq_nil_iff.1 h0
    have a := hne h2; have b := hne' h1
    exact ⟨b.1.trans a.1, b.2.trans a.2⟩
  · rintro ⟨x, hx, hs⟩
    rcases List.mem_append.1 hx with hx | hx
    · exact h'.keepTop (h.newTop ⟨x, hx, hs⟩)
    · exact h'.newTop ⟨x, hx, hs⟩

theorem CellRel.var_put {md : Mode} {P : Prog} {W : World} {v : SVal} {v' : MVal} {x : Sym} {lex : Ptr} (h : VRel md P W v v') : CellRel md P W (.var v) (.bind x v' lex) := h

/-- One more cell and frame. -/
theorem grow_one {md : Mode} {P : Prog} {S : SState} {M : MState} (hi : Inv md P S M) {c : Cell} {E : Entry} {b q : Ptr}
    (hc : CellRel md P (wof (S.alloc c) { M with stack := M.stack ++ [E], bindfp := b, fletfp := q }) c E) :
    Grow md P [] S M (S.alloc c) { M with stack := M.stack ++ [E], bindfp := b, fletfp := q } := by
  have hlen : S.live.length = M.stack.length := by have := hi.good.len; simpa [wof] using this
  have hg : (wof (S.alloc c) { M with stack := M.stack ++ [E], bindfp := b, fletfp := q }).Good := by
    refine ⟨?_, ?_, ?_⟩
    · show (S.live ++ [S.next]).Pairwise (· < ·)
      rw [List.pairwise_append]
      exact ⟨hi.good.inc, List.pairwise_singleton _ _, fun a ha b hb => by rw [List.mem_singleton.1 hb]; exact hi.good.lt a ha⟩
    · intro l hl
      have hl' : l ∈ S.live ++ [S.next] := hl
      show l < S.next + 1
      rcases List.mem_append.1 hl' with h | h
      · have : l < S.next := hi.good.lt l h
        omega
      · rw [List.mem_singleton.1 h]; omega
    · show (S.live ++ [S.next]).length = ((M.stack ++ [E]).map skel).length
      simp [hlen]
  have hge : ∀ (i l : Nat), (S.alloc c).live[i]? = some l → S.live.length ≤ i → S.next ≤ l := by
    intro i l hil hlt
    have hil' : (S.live ++ [S.next])[i]? = some l := hil
    rw [List.getElem?_append_right hlt] at hil'
    have := List.mem_of_getElem? hil'
    rw [List.mem_singleton.1 this]; exact Nat.le_refl _
  have hla : Later (wof S M) (wof (S.alloc c) { M with stack := M.stack ++ [E], bindfp := b, fletfp := q }) := by
    refine ⟨Nat.le_succ _, fun i l hil hlt => ?_⟩
    have hil' : (S.live ++ [S.next])[i]? = some l := hil
    have hlt' : l < S.next := hlt
    have hin : i < S.live.length := by
      rcases Nat.lt_or_ge i S.live.length with h1 | h1
      · exact h1
      · have h2 := hge i l hil h1
        omega
    rw [List.getElem?_append_left hin] at hil'
    refine ⟨hil', ?_⟩
    show ((M.stack ++ [E]).map skel)[i]? = (M.stack.map skel)[i]?
    rw [List.map_append, List.getElem?_append_left (by rw [List.length_map]; omega)]
  refine ⟨⟨hg, ?_, fun x => (hi.glob x).later hla hi.good hg⟩, ⟨[S.next], [E], rfl, rfl⟩, Nat.le_succ _, hge, ⟨Nat.le_refl _, fun g => ?_, fun _ _ => rfl⟩⟩
  · intro i l F hil hF
    have hil' : (S.live ++ [S.next])[i]? = some l := hil
    have hF' : (M.stack ++ [E])[i]? = some F := hF
    have hcell : (S.alloc c).cells l = if l = S.next then c else S.cells l := rfl
    rcases Nat.lt_or_ge i S.live.length with h1 | h1
    · rw [List.getElem?_append_left h1] at hil'
      rw [List.getElem?_append_left (by omega)] at hF'
      have hlt : l < S.next := hi.good.get_n (W := wof S M) hil'
      rw [hcell, if_neg (by omega)]
      exact (hi.cells i l F hil' hF').later hla hi.good hg
    · rw [List.getElem?_append_right h1] at hil'
      rw [List.getElem?_append_right (by omega)] at hF'
      have e1 := List.mem_singleton.1 (List.mem_of_getElem? hil')
      have e2 := List.mem_singleton.1 (List.mem_of_getElem? hF')
      subst e1 e2
      rw [hcell, if_pos rfl]
      exact hc
  · show unbind M.sb.length M.sb g = _
    rw [unbind_self]; simp

theorem enter_lex {md : Mode} {P : Prog} {S : SState} {M : MState} {ρ : SEnv} {x : Sym} {v : SVal} {v' : MVal} (hi : Inv md P S M) (he : EnvRel (wof S M) ρ M.bindfp)
    (hv : VRel md P (wof S M) v v') (hx : P.special x = false) :
    Entered md P [x] ρ ((x, S.next) :: ρ) S M (S.alloc (.var v)) { M with stack := M.stack ++ [.bind x v' M.bindfp], bindfp := some M.stack.length } := by
  have hlen : S.live.length = M.stack.length := by have := hi.good.len; simpa [wof] using this
  have hN : (S.live ++ [S.next])[M.stack.length]? = some S.next := by rw [← hlen]; simp
  -- the world does not depend on the value
  have hgr0 : Grow md P [] S M (S.alloc (.var .nil)) { M with stack := M.stack ++ [.bind x .nil M.bindfp], bindfp := some M.stack.length, fletfp := M.fletfp } :=
    grow_one hi (c := .var .nil) (E := .bind x .nil M.bindfp) trivial
  have hW : wof (S.alloc (.var v)) { M with stack := M.stack ++ [.bind x v' M.bindfp], bindfp := some M.stack.length, fletfp := M.fletfp }
      = wof (S.alloc (.var .nil)) { M with stack := M.stack ++ [.bind x .nil M.bindfp], bindfp := some M.stack.length, fletfp := M.fletfp } := by
    simp [wof, skel, SState.alloc, SState.put]
  have hgr : Grow md P [] S M (S.alloc (.var v)) { M with stack := M.stack ++ [.bind x v' M.bindfp], bindfp := some M.stack.length, fletfp := M.fletfp } := by
    refine grow_one hi (c := .var v) (E := .bind x v' M.bindfp) ?_
    rw [hW]
    exact hv.later (hgr0.later hi) hi.good hgr0.inv.good
  have hl := hgr.later hi
  have hltp : ltPtr M.bindfp M.stack.length := by
    cases ρ with
    | nil => rw [show M.bindfp = none from he]; trivial
    | cons c ρ =>
      obtain ⟨i, lex, hp, hil, _⟩ := he
      rw [hp]
      have : i < S.live.length := (List.getElem?_eq_some_iff.1 hil).1
      simp only [ltPtr]; omega
  have hskl : ((M.stack ++ [Entry.bind x v' M.bindfp]).map skel)[M.stack.length]? = some (.bind x .nil M.bindfp) := by simp [skel]
  have htop : TopP (wof (S.alloc (.var v)) { M with stack := M.stack ++ [.bind x v' M.bindfp], bindfp := some M.stack.length }) (some M.stack.length) := by
    intro i y lex h
    have h' : ((M.stack ++ [Entry.bind x v' M.bindfp]).map skel)[i]? = some (.bind y .nil lex) := h
    have := (List.getElem?_eq_some_iff.1 h').1
    simp only [List.length_map, List.length_append, List.length_singleton] at this
    exact ⟨_, rfl, by omega⟩
  refine ⟨⟨hgr.inv, hgr.pre, hgr.next, hgr.ge, ⟨Nat.le_refl _, fun g => ?_, fun _ _ => rfl⟩⟩, ?_, rfl, ?_, ⟨[(x, S.next)], rfl, ?_, fun _ => by simp, fun h => by cases h⟩, fun _ => htop, fun _ => htop⟩
  · show unbind M.sb.length M.sb g = _
    rw [unbind_self]
    have : ∀ y, ¬(P.special y = true ∧ y ∈ [x]) := by
      rintro y ⟨h1, h2⟩
      rw [List.mem_singleton.1 h2, hx] at h1; cases h1
    simp only [if_neg (this _)]
  · refine ⟨M.stack.length, M.bindfp, rfl, hN, hskl, hltp, ?_⟩
    refine he.later hl hi.good fun c hc => ?_
    exact List.mem_append_left _ (he.mem c hc)
  · simp [names, ext, hx]
  · intro c hc
    obtain rfl : (x, S.next) = c := by simpa using hc
    refine ⟨rfl, ?_⟩
    rw [hlen]; exact hN

theorem enter_special {md : Mode} {P : Prog} {S : SState} {M : MState} {ρ : SEnv} {x : Sym} {v : SVal} {v' : MVal} (hi : Inv md P S M) (he : EnvRel (wof S M) ρ M.bindfp)
    (hv : VRel md P (wof S M) v v') (hx : P.special x = true) :
    Entered md P [x] ρ ρ S M (S.setGlob x (some v)) { M.setGlob x (some v') with sb := (x, M.glob x) :: M.sb } := by
  have hW : wof (S.setGlob x (some v)) { M.setGlob x (some v') with sb := (x, M.glob x) :: M.sb } = wof S M := rfl
  refine ⟨⟨⟨hW ▸ hi.good, hi.cells, fun y => ?_⟩, ⟨[], [], (List.append_nil _).symm, (List.append_nil _).symm⟩, Nat.le_refl _, ?_, ⟨Nat.le_succ _, fun g => ?_, fun y hy => ?_⟩⟩, he, rfl, ?_,
    ⟨[], rfl, ?_, ?_, fun _ => ⟨rfl, rfl⟩⟩, id, ?_⟩
  · rw [hW]
    have hS : (S.setGlob x (some v)).glob y = if y = x then some v else S.glob y := rfl
    have hM : (M.setGlob x (some v')).glob y = if y = x then some v' else M.glob y := rfl
    show ORel md P (wof S M) ((S.setGlob x (some v)).glob y) ((M.setGlob x (some v')).glob y)
    rw [hS, hM]
    by_cases h : y = x
    · rw [if_pos h, if_pos h]; exact hv
    · rw [if_neg h, if_neg h]; exact hi.glob y
  · intro i l h h'
    have := (List.getElem?_eq_some_iff.1 h).1
    have e : (S.setGlob x (some v)).live = S.live := rfl
    rw [e] at this; omega
  · show unbind M.sb.length ((x, M.glob x) :: M.sb) g = _
    rw [unbind, if_pos (Nat.lt_succ_self _), unbind_self]
    congr 1
    funext y
    by_cases h : y = x
    · subst h; simp [hx]
    · simp [h]
  · show (M.setGlob x (some v')).glob y = M.glob y
    have : y ≠ x := by rintro rfl; exact hy ⟨hx, List.mem_singleton.2 rfl⟩
    simp [MState.setGlob, this]
  · simp [ext, hx]
  · intro c hc; cases hc
  · rintro ⟨y, hy, hs⟩; rw [List.mem_singleton.1 hy, hx] at hs; cases hs
  · rintro ⟨y, hy, hs⟩; rw [List.mem_singleton.1 hy, hx] at hs; cases hs

/-- `vbind` of one variable. -/
theorem vbind_ok {md : Mode} {P : Prog} {S : SState} {M : MState} {ρ : SEnv} {x : Sym} {v : SVal} {v' : MVal} {scope : Ptr} (hi : Inv md P S M) (he : EnvRel (wof S M) ρ M.bindfp)
    (hv : VRel md P (wof S M) v v') (hc : ∀ c ∈ ρ, ∀ i, (wof S M).L[i]? = some c.2 → Ptr.above (some i) scope = true → c.1 ≠ x) :
    ∃ M1, vbind P x v' M.bindfp scope M = .ok M1.bindfp M1 ∧ Entered md P [x] ρ (sbind P [x] [v] ρ S).1 S M (sbind P [x] [v] ρ S).2 M1 := by
  have hm : multi M.stack x scope (M.stack.length + 1) M.bindfp = .ok false () := by
    refine multi_false (W := wof S M) rfl he ?_ hc
    have := he.inRange hi.good
    simpa [wof] using this
  cases hx : P.special x with
  | true =>
    refine ⟨{ M.setGlob x (some v') with sb := (x, M.glob x) :: M.sb }, ?_, ?_⟩
    · simp only [vbind, hm, hx, if_true]; rfl
    · simp only [sbind, hx, if_true]; exact enter_special hi he hv hx
  | false =>
    refine ⟨{ M with stack := M.stack ++ [.bind x v' M.bindfp], bindfp := some M.stack.length }, ?_, ?_⟩
    · simp [vbind, hm, hx]
    · simp only [sbind, hx, Bool.false_eq_true, if_false]; exact enter_lex hi he hv hx

theorem sbind_cons (P : Prog) (x : Sym) (xs : List Sym) (v : SVal) (vs : List SVal) (ρ : SEnv) (S : SState) :
    sbind P (x :: xs) (v :: vs) ρ S = sbind P xs vs (sbind P [x] [v] ρ S).1 (sbind P [x] [v] ρ S).2 := by
  cases hx : P.special x <;> simp [sbind, hx]

/-- The chain after binding x: as before, and x if it is lexical. -/
theorem Clear.step {md : Mode} {P : Prog} {S S1 : SState} {M M1 : MState} {ρ : SEnv} {x : Sym} {v : SVal} {scope : Ptr} {xs : List Sym} (hi : Inv md P S M) (hen : EnvRel (wof S M) ρ M.bindfp)
    (h : Clear (wof S M) ρ scope (x :: xs)) (hx : x ∉ xs) (he : Entered md P [x] ρ (sbind P [x] [v] ρ S).1 S M S1 M1) : Clear (wof S1 M1) (sbind P [x] [v] ρ S).1 scope xs := by
  have hl := he.grow.later hi
  have hold : ∀ c ∈ ρ, ∀ i, (wof S1 M1).L[i]? = some c.2 → Ptr.above (some i) scope = true → c.1 ∉ xs := by
    intro c hc i hi' ha hm
    have hlt : c.2 < (wof S M).n := hi.good.lt _ (hen.mem c hc)
    exact h c hc i (hl.at_ i c.2 hi' hlt).1 ha (List.mem_cons_of_mem _ hm)
  cases hs : P.special x with
  | true => simp only [sbind, hs, if_true]; exact hold
  | false =>
    simp only [sbind, hs, Bool.false_eq_true, if_false]
    intro c hc i hi' ha
    rcases List.mem_cons.1 hc with rfl | hc
    · exact hx
    · exact hold c hc i hi' ha

theorem bindAll_ok {md : Mode} {P : Prog} {scope : Ptr} (xs : List Sym) : ∀ {S : SState} {M : MState} {ρ : SEnv} {vs : List SVal} {vs' : List MVal}, Inv md P S M → EnvRel (wof S M) ρ M.bindfp →
    LRel md P (wof S M) vs vs' → xs.Nodup → Clear (wof S M) ρ scope xs →
    if xs.length = vs.length then
      ∃ M1, bindAll P scope xs vs' M.bindfp M = .ok M1.bindfp M1 ∧ Entered md P xs ρ (sbind P xs vs ρ S).1 S M (sbind P xs vs ρ S).2 M1
    else bindAll P scope xs vs' M.bindfp M = .err := by
  induction xs with
  | nil =>
    intro S M ρ vs vs' hi he hv _ _
    cases hv with
    | nil => exact ⟨M, rfl, Entered.refl hi he⟩
    | cons _ _ => rfl
  | cons x xs ih =>
    intro S M ρ vs vs' hi he hv hn hc
    cases hv with
    | nil => rfl
    | @cons v v' vs vs' h1 h2 =>
      obtain ⟨hx, hn⟩ := List.nodup_cons.1 hn
      obtain ⟨M1, hb, hen⟩ := vbind_ok (scope := scope) hi he h1 (fun c hcm i hil ha => fun hxe => hc c hcm i hil ha (by rw [hxe]; exact List.mem_cons_self))
      have := ih hen.grow.inv hen.env (h2.later (hen.grow.later hi) hi.good hen.grow.inv.good) hn (hc.step hi he hx hen)
      have hstep : bindAll P scope (x :: xs) (v' :: vs') M.bindfp M = bindAll P scope xs vs' M1.bindfp M1 := by simp only [bindAll, hb, Res.bind]
      rw [hstep]
      by_cases hlen : xs.length = vs.length
      · rw [if_pos hlen] at this
        rw [if_pos (by simp [hlen])]
        obtain ⟨M2, hb2, hen2⟩ := this
        refine ⟨M2, hb2, ?_⟩
        rw [sbind_cons]
        exact hen.trans hen2
      · rw [if_neg hlen] at this
        rw [if_neg (by simp [hlen])]
        exact this

end Eus.Lex
