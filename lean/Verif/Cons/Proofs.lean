import Verif.Cons.Spec
import Mathlib.Data.List.Basic
import Mathlib.Data.List.Nodup
set_option autoImplicit false
namespace Eus.Cons
open Eus.Seq (dropFirst)

theorem chain_append (h : H) (l1 l2 : List Nat) : ∀ (v t : V),
    Chain h v (l1 ++ l2) t ↔ ∃ m, Chain h v l1 m ∧ Chain h m l2 t := by
  induction l1 with
  | nil => intro v t; simp [Chain]
  | cons a as ih =>
    intro v t
    simp only [List.cons_append, Chain, ih]
    constructor
    · rintro ⟨h1, m, h2, h3⟩; exact ⟨m, ⟨h1, h2⟩, h3⟩
    · rintro ⟨m, ⟨h1, h2⟩, h3⟩; exact ⟨h1, m, h2, h3⟩

theorem chain_congr (h h' : H) (l : List Nat) (hc : ∀ a ∈ l, h'.cdr a = h.cdr a) : ∀ (v t : V),
    Chain h v l t → Chain h' v l t := by
  induction l with
  | nil => intro v t hh; exact hh
  | cons a as ih =>
    intro v t hh
    refine ⟨hh.1, ?_⟩
    rw [hc a List.mem_cons_self]
    exact ih (fun b hb => hc b (List.mem_cons_of_mem _ hb)) _ _ hh.2

theorem chain_unique (h : H) (l1 : List Nat) : ∀ (l2 : List Nat) (v : V),
    Chain h v l1 .nil → Chain h v l2 .nil → l1 = l2 := by
  induction l1 with
  | nil =>
    intro l2 v h1 h2
    cases l2 with
    | nil => rfl
    | cons a as => rw [show v = V.nil from h1] at h2; simp [Chain] at h2
  | cons a as ih =>
    intro l2 v h1 h2
    cases l2 with
    | nil => rw [show v = V.nil from h2] at h1; simp [Chain] at h1
    | cons b bs =>
      have : a = b := by
        have := h1.1.symm.trans h2.1
        injection this
      subst this
      rw [ih bs _ h1.2 h2.2]

theorem chain_nodup (h : H) (l : List Nat) : ∀ (v : V), Chain h v l .nil → l.Nodup := by
  induction l with
  | nil => intro v _; exact List.nodup_nil
  | cons a as ih =>
    intro v hh
    rw [List.nodup_cons]
    refine ⟨fun ha => ?_, ih _ hh.2⟩
    obtain ⟨l1, l2, rfl⟩ := List.append_of_mem ha
    obtain ⟨m, h1, h2⟩ := (chain_append h l1 (a :: l2) _ _).1 hh.2
    have h3 : Chain h v (a :: l2) .nil := ⟨hh.1, h2.2⟩
    have := congrArg List.length (chain_unique h _ _ _ hh h3)
    simp at this
    omega

theorem chain_cell (h : H) (v : V) (l : List Nat) (a : Nat) (t : V) (hh : Chain h v (a :: l) t) :
    v = .cell a := hh.1

theorem setCdr_cdr (h : H) (a b : Nat) (v : V) :
    (h.setCdr a v).cdr b = if b = a then v else h.cdr b := rfl

/-- Relinking the last cell before the tail. -/
theorem chain_setCdr (h : H) (v t t' : V) (l : List Nat) (b : Nat) (hh : Chain h v (l ++ [b]) t)
    (hb : b ∉ l) : Chain (h.setCdr b t') v (l ++ [b]) t' := by
  obtain ⟨m, h1, h2⟩ := (chain_append h l [b] v t).1 hh
  refine (chain_append _ l [b] v t').2 ⟨m, chain_congr h _ l ?_ v m h1, h2.1, ?_⟩
  · intro a ha
    rw [setCdr_cdr, if_neg]
    rintro rfl; exact hb ha
  · simp [Chain, setCdr_cdr]

/-! ### push and cons -/

theorem pushAll_spec (h : H) (cs : List Nat) : ∀ (fuel : Nat) (v : V) (stk : List V),
    Chain h v cs .nil → cs.length ≤ fuel →
    pushAll h fuel v stk = some ((elems h cs).reverse ++ stk) := by
  induction cs with
  | nil =>
    intro fuel v stk hh _
    rw [show v = V.nil from hh]
    cases fuel <;> rfl
  | cons a as ih =>
    intro fuel v stk hh hf
    obtain ⟨rfl, h2⟩ := hh
    cases fuel with
    | zero => simp at hf
    | succ n =>
      simp only [pushAll]
      rw [ih n _ _ h2 (by simpa using hf)]
      simp [elems]

/-- Heap `h'` extends `h`: nothing allocated in `h` changed. -/
def Extends (h h' : H) : Prop :=
  h.next ≤ h'.next ∧ ∀ a < h.next, h'.car a = h.car a ∧ h'.cdr a = h.cdr a

theorem Extends.refl (h : H) : Extends h h := ⟨Nat.le_refl _, fun _ _ => ⟨rfl, rfl⟩⟩
theorem Extends.trans {h1 h2 h3 : H} (a : Extends h1 h2) (b : Extends h2 h3) : Extends h1 h3 :=
  ⟨Nat.le_trans a.1 b.1, fun x hx => ⟨((b.2 x (by have := a.1; omega)).1).trans (a.2 x hx).1,
    ((b.2 x (by have := a.1; omega)).2).trans (a.2 x hx).2⟩⟩

theorem cons_extends (h : H) (x d : V) : Extends h (h.cons x d).1 := by
  refine ⟨Nat.le_succ _, fun a ha => ?_⟩
  have : a ≠ h.next := by omega
  simp [H.cons, this]

theorem extends_chain {h h' : H} (e : Extends h h') (v t : V) (cs : List Nat) (hl : ∀ a ∈ cs, a < h.next)
    (hh : Chain h v cs t) : Chain h' v cs t :=
  chain_congr h h' cs (fun a ha => (e.2 a (hl a ha)).2) v t hh

theorem extends_elems {h h' : H} (e : Extends h h') (cs : List Nat) (hl : ∀ a ∈ cs, a < h.next) :
    elems h' cs = elems h cs :=
  List.map_congr_left fun a ha => (e.2 a (hl a ha)).1

theorem consAll_spec (stk : List V) : ∀ (h : H) (r : V) (cs : List Nat), IsList h r cs →
    ∃ new, IsList (consAll h stk r).1 (consAll h stk r).2 (new ++ cs) ∧
      elems (consAll h stk r).1 new = stk.reverse ∧ (∀ a ∈ new, h.next ≤ a) ∧
      Extends h (consAll h stk r).1 := by
  induction stk with
  | nil => intro h r cs hr; exact ⟨[], hr, rfl, by simp, Extends.refl h⟩
  | cons x stk ih =>
    intro h r cs hr
    have he := cons_extends h x r
    have hr' : IsList (h.cons x r).1 (h.cons x r).2 (h.next :: cs) := by
      refine ⟨⟨rfl, ?_⟩, ?_⟩
      · have : (h.cons x r).1.cdr h.next = r := by simp [H.cons]
        rw [this]; exact extends_chain he _ _ _ hr.2 hr.1
      · intro a ha
        rcases List.mem_cons.1 ha with rfl | ha
        · simp [H.cons]
        · have := hr.2 a ha; simp [H.cons]; omega
    obtain ⟨new, h1, h2, h3, h4⟩ := ih (h.cons x r).1 (h.cons x r).2 (h.next :: cs) hr'
    refine ⟨new ++ [h.next], by simpa [consAll] using h1, ?_, ?_, ?_⟩
    · have : (consAll (h.cons x r).1 stk (h.cons x r).2).1.car h.next = x := by
        rw [(h4.2 h.next (by simp [H.cons])).1]; simp [H.cons]
      show elems (consAll (h.cons x r).1 stk (h.cons x r).2).1 (new ++ [h.next]) = _
      simp only [elems, List.map_append, List.map_cons, List.map_nil, this, List.reverse_cons]
      rw [show List.map (consAll (h.cons x r).1 stk (h.cons x r).2).1.car new = stk.reverse from h2]
    · intro a ha
      rcases List.mem_append.1 ha with ha | ha
      · have := h3 a ha; simp [H.cons] at this; omega
      · simp at ha; omega
    · exact he.trans h4

/-! ### lastCell, len, nthcdr -/

theorem lastCell_spec (h : H) (l : List Nat) : ∀ (fuel c b : Nat), Chain h (.cell c) (l ++ [b]) .nil →
    l.length < fuel → lastCell h fuel c = some b := by
  induction l with
  | nil =>
    intro fuel c b hh hf
    cases fuel with
    | zero => simp at hf
    | succ n =>
      obtain ⟨h1, h2⟩ := hh
      injection h1 with h1
      subst h1
      have h2 : h.cdr c = .nil := h2
      simp [lastCell, h2]
  | cons a as ih =>
    intro fuel c b hh hf
    cases fuel with
    | zero => simp at hf
    | succ n =>
      obtain ⟨h1, h2⟩ := hh
      injection h1 with h1
      subst h1
      cases hc : h.cdr c with
      | cell d =>
        simp only [lastCell, hc]
        rw [hc] at h2
        exact ih n d b h2 (by simpa using hf)
      | nil => rw [hc] at h2; cases as <;> simp [Chain] at h2
      | atom k => rw [hc] at h2; cases as <;> simp [Chain] at h2

theorem len_spec (h : H) (cs : List Nat) : ∀ (fuel : Nat) (v : V), Chain h v cs .nil →
    cs.length ≤ fuel → len h fuel v = some cs.length := by
  induction cs with
  | nil => intro fuel v hh _; rw [show v = V.nil from hh]; cases fuel <;> rfl
  | cons a as ih =>
    intro fuel v hh hf
    obtain ⟨rfl, h2⟩ := hh
    cases fuel with
    | zero => simp at hf
    | succ n =>
      simp only [len]
      rw [ih n _ h2 (by simpa using hf)]; simp

theorem nthcdr_spec (h : H) (l1 : List Nat) : ∀ (l2 : List Nat) (v : V), Chain h v (l1 ++ l2) .nil →
    Chain h (nthcdr h l1.length v) l2 .nil ∧ Chain h v l1 (nthcdr h l1.length v) := by
  induction l1 with
  | nil => intro l2 v hh; exact ⟨hh, rfl⟩
  | cons a as ih =>
    intro l2 v hh
    obtain ⟨rfl, h2⟩ := hh
    obtain ⟨h3, h4⟩ := ih l2 _ h2
    exact ⟨h3, rfl, h4⟩

theorem skip_spec (h : H) (l1 : List Nat) : ∀ (l2 : List Nat) (v : V), Chain h v (l1 ++ l2) .nil →
    skip h l1.length v = some (nthcdr h l1.length v) := by
  induction l1 with
  | nil => intro l2 v hh; rfl
  | cons a as ih =>
    intro l2 v hh
    obtain ⟨rfl, h2⟩ := hh
    exact ih l2 _ h2

theorem pushCells_spec (h : H) (cs : List Nat) : ∀ (fuel : Nat) (v : V) (stk : List Nat),
    Chain h v cs .nil → cs.length ≤ fuel →
    pushCells h fuel v stk = some (cs.reverse ++ stk) := by
  induction cs with
  | nil =>
    intro fuel v stk hh _
    rw [show v = V.nil from hh]
    cases fuel <;> rfl
  | cons a as ih =>
    intro fuel v stk hh hf
    obtain ⟨rfl, h2⟩ := hh
    cases fuel with
    | zero => simp at hf
    | succ n =>
      simp only [pushCells]
      rw [ih n _ _ h2 (by simpa using hf)]
      simp

/-! ### delete -/

/-- what `DELETE` may change -/
def OnlyCdrs (h h' : H) (cs : List Nat) : Prop :=
  h'.car = h.car ∧ h'.next = h.next ∧ ∀ a, a ∉ cs → h'.cdr a = h.cdr a

theorem OnlyCdrs.refl (h : H) (cs : List Nat) : OnlyCdrs h h cs := ⟨rfl, rfl, fun _ _ => rfl⟩

theorem dropFirst_zero' {α : Type} (p : α → Bool) (l : List α) : dropFirst p 0 l = l := by cases l <;> rfl

/-- the loop when a kept cell `b` precedes the rest -/
theorem delLoop_kept (p : V → Bool) (cells : List Nat) : ∀ (n c : Nat) (h : H) (result : V) (pre : List Nat)
    (b : Nat), Chain h result (pre ++ b :: cells) .nil → n ≤ cells.length →
    ∃ h', delLoop p n c h result (h.cdr b) b false = some (h', result) ∧
      Chain h' result (pre ++ b :: (dropFirst (fun a => p (h.car a)) c (cells.take n) ++ cells.drop n)) .nil ∧
      OnlyCdrs h h' (b :: cells) := by
  induction cells with
  | nil =>
    intro n c h result pre b hh hn
    have : n = 0 := by simpa using hn
    subst this
    exact ⟨h, rfl, by cases c <;> simpa [dropFirst] using hh, OnlyCdrs.refl _ _⟩
  | cons a as ih =>
    intro n c h result pre b hh hn
    cases n with
    | zero => exact ⟨h, rfl, by cases c <;> simpa [dropFirst] using hh, OnlyCdrs.refl _ _⟩
    | succ n =>
      cases c with
      | zero => exact ⟨h, rfl, by simpa [dropFirst_zero'] using hh, OnlyCdrs.refl _ _⟩
      | succ c =>
        have hn' : n ≤ as.length := by simpa using hn
        have hnd := chain_nodup h _ _ hh
        obtain ⟨m, h1, h2⟩ := (chain_append h pre (b :: a :: as) _ _).1 hh
        obtain ⟨rfl, h3, h4⟩ := h2
        have hres : ∃ r, result = .cell r := by
          cases pre with
          | nil => exact ⟨b, h1⟩
          | cons x xs => exact ⟨x, h1.1⟩
        obtain ⟨r, rfl⟩ := hres
        have hba : b ≠ a := by
          rintro rfl
          simp [List.nodup_append] at hnd
        by_cases hp : p (h.car a) = true
        · -- unlink a
          have hh' : Chain (h.setCdr b (h.cdr a)) (.cell r) (pre ++ b :: as) .nil := by
            refine (chain_append _ pre (b :: as) _ _).2 ⟨.cell b, chain_congr h _ pre ?_ _ _ h1, rfl, ?_⟩
            · intro x hx
              rw [setCdr_cdr, if_neg]
              rintro rfl
              rw [List.nodup_append] at hnd
              exact hnd.2.2 x hx x List.mem_cons_self rfl
            · rw [setCdr_cdr, if_pos rfl]
              refine chain_congr h _ as ?_ _ _ h4
              intro x hx
              rw [setCdr_cdr, if_neg]
              rintro rfl
              rw [List.nodup_append] at hnd
              have := hnd.2.1
              simp only [List.nodup_cons, List.mem_cons, not_or] at this
              exact this.1.2 hx
          obtain ⟨h', e1, e2, e3⟩ := ih n c (h.setCdr b (h.cdr a)) (.cell r) pre b hh' hn'
          refine ⟨h', ?_, ?_, ?_⟩
          · rw [show (h.setCdr b (h.cdr a)).cdr b = h.cdr a by rw [setCdr_cdr, if_pos rfl]] at e1
            simp only [delLoop, h3, hp, if_true, Bool.false_eq_true, if_false]
            rw [show (h.setCdr b (h.cdr a)).cdr a = h.cdr a by rw [setCdr_cdr, if_neg (Ne.symm hba)]]
            exact e1
          · simp only [List.take_succ_cons, dropFirst, hp, if_true, List.drop_succ_cons]
            exact e2
          · refine ⟨e3.1, e3.2.1, fun x hx => ?_⟩
            simp only [List.mem_cons, not_or] at hx
            rw [e3.2.2 x (by simp [hx.1, hx.2.2]), setCdr_cdr, if_neg hx.1]
        · have hh' : Chain h (.cell r) ((pre ++ [b]) ++ a :: as) .nil := by simpa using hh
          obtain ⟨h', e1, e2, e3⟩ := ih n (c + 1) h (.cell r) (pre ++ [b]) a hh' hn'
          refine ⟨h', ?_, ?_, ?_⟩
          · simp only [delLoop, h3, hp]
            exact e1
          · simp only [List.take_succ_cons, dropFirst, hp, List.drop_succ_cons]
            simpa using e2
          · refine ⟨e3.1, e3.2.1, fun x hx => ?_⟩
            simp only [List.mem_cons, not_or] at hx
            exact e3.2.2 x (by simp [hx.2])

/-- the loop from the first cell -/
theorem delLoop_first (p : V → Bool) (cells : List Nat) : ∀ (n c : Nat) (h : H) (v : V) (b : Nat),
    Chain h v cells .nil → n ≤ cells.length →
    ∃ h' r, delLoop p n c h v v b true = some (h', r) ∧
      Chain h' r (dropFirst (fun a => p (h.car a)) c (cells.take n) ++ cells.drop n) .nil ∧
      OnlyCdrs h h' cells := by
  induction cells with
  | nil =>
    intro n c h v b hh hn
    have : n = 0 := by simpa using hn
    subst this
    exact ⟨h, v, rfl, by cases c <;> simpa [dropFirst] using hh, OnlyCdrs.refl _ _⟩
  | cons a as ih =>
    intro n c h v b hh hn
    cases n with
    | zero => exact ⟨h, v, rfl, by cases c <;> simpa [dropFirst] using hh, OnlyCdrs.refl _ _⟩
    | succ n =>
      cases c with
      | zero => exact ⟨h, v, rfl, by simpa [dropFirst_zero'] using hh, OnlyCdrs.refl _ _⟩
      | succ c =>
        have hn' : n ≤ as.length := by simpa using hn
        obtain ⟨rfl, h2⟩ := hh
        by_cases hp : p (h.car a) = true
        · obtain ⟨h', r, e1, e2, e3⟩ := ih n c h (h.cdr a) b h2 hn'
          refine ⟨h', r, ?_, ?_, ?_⟩
          · simp only [delLoop, hp, if_true]; exact e1
          · simp only [List.take_succ_cons, dropFirst, hp, if_true, List.drop_succ_cons]; exact e2
          · exact ⟨e3.1, e3.2.1, fun x hx => e3.2.2 x (fun hx' => hx (List.mem_cons_of_mem _ hx'))⟩
        · obtain ⟨h', e1, e2, e3⟩ := delLoop_kept p as n (c + 1) h (.cell a) [] a ⟨rfl, h2⟩ hn'
          refine ⟨h', .cell a, ?_, ?_, e3⟩
          · simp only [delLoop, hp]; exact e1
          · simp only [List.take_succ_cons, dropFirst, hp, List.drop_succ_cons]
            simpa using e2

theorem dropFirst_map {α β : Type} (f : α → β) (p : β → Bool) (l : List α) : ∀ c,
    (dropFirst (fun a => p (f a)) c l).map f = dropFirst p c (l.map f) := by
  induction l with
  | nil => intro c; cases c <;> rfl
  | cons x l ih =>
    intro c
    cases c with
    | zero => rfl
    | succ c => by_cases hx : p (f x) = true <;> simp [dropFirst, hx, ih]

theorem dropFirst_sublist {α : Type} (p : α → Bool) (l : List α) : ∀ c, (dropFirst p c l).Sublist l := by
  induction l with
  | nil => intro c; cases c <;> simp [dropFirst]
  | cons x l ih =>
    intro c
    cases c with
    | zero => simp [dropFirst]
    | succ c =>
      simp only [dropFirst]
      split
      · exact (ih c).cons _
      · exact (ih (c + 1)).cons_cons _

/-! ### nconc -/

theorem nconcLoop_spec (fuel : Nat) : ∀ (args : List (V × List Nat)) (h : H) (a : V) (cs : List Nat),
    IsList h a cs → (∀ x ∈ args, IsList h x.1 x.2 ∧ x.2.length ≤ fuel) →
    (cs ++ (args.map Prod.snd).flatten).Nodup →
    ∃ h', nconcLoop fuel h (args.map Prod.fst) a = some (h', (args.foldl (fun r x => match x.1 with
        | .cell c => .cell c | _ => r) a)) ∧
      IsList h' (args.foldl (fun r x => match x.1 with | .cell c => .cell c | _ => r) a)
        ((args.map Prod.snd).reverse.flatten ++ cs) ∧
      h'.car = h.car ∧ h'.next = h.next ∧
      (∀ x, x ∉ (args.map Prod.snd).flatten → h'.cdr x = h.cdr x) := by
  intro args
  induction args with
  | nil => intro h a cs ha _ _; exact ⟨h, rfl, by simpa using ha, rfl, rfl, fun _ _ => rfl⟩
  | cons x args ih =>
    intro h a cs ha hargs hnd
    obtain ⟨⟨hx, hxb⟩, hxf⟩ := hargs x List.mem_cons_self
    obtain ⟨v, cells⟩ := x
    simp only at hx hxb hxf
    simp only [List.map_cons, List.flatten_cons] at hnd
    cases hrev : cells.reverse with
    | nil =>
      have hc0 : cells = [] := by simpa using hrev
      subst hc0
      have hv : v = .nil := hx
      subst hv
      obtain ⟨h', e1, e2, e3⟩ := ih h a cs ha (fun y hy => hargs y (List.mem_cons_of_mem _ hy)) (by simpa using hnd)
      refine ⟨h', ?_, ?_, ?_⟩
      · simpa [nconcLoop] using e1
      · simpa using e2
      · simpa using e3
    | cons b l =>
      have hcells : cells = l.reverse ++ [b] := by
        have := congrArg List.reverse hrev; simpa using this
      subst hcells
      have hcell : ∃ c, v = .cell c := by
        cases hl : l.reverse with
        | nil => rw [hl] at hx; exact ⟨b, hx.1⟩
        | cons y ys => rw [hl] at hx; exact ⟨y, hx.1⟩
      obtain ⟨c, rfl⟩ := hcell
      have hlast := lastCell_spec h l.reverse fuel c b hx (by simp at hxf ⊢; omega)
      have hnd0 := chain_nodup h _ _ hx
      have hb : b ∉ l.reverse := by
        rw [List.nodup_append] at hnd0
        intro hb
        exact hnd0.2.2 b hb b (by simp) rfl
      have hbcs : b ∉ cs := by
        rw [List.nodup_append] at hnd
        intro hb'
        exact hnd.2.2 b hb' b (by simp) rfl
      have hset : ∀ y, y ≠ b → (h.setCdr b a).cdr y = h.cdr y := fun y hy => by
        rw [setCdr_cdr, if_neg hy]
      have ha' : IsList (h.setCdr b a) (.cell c) ((l.reverse ++ [b]) ++ cs) := by
        refine ⟨(chain_append _ _ _ _ _).2 ⟨a, chain_setCdr h _ _ _ _ _ hx hb, ?_⟩, ?_⟩
        · refine chain_congr h _ cs ?_ _ _ ha.1
          intro y hy; apply hset; rintro rfl; exact hbcs hy
        · intro y hy
          rcases List.mem_append.1 hy with hy | hy
          · exact hxb y hy
          · exact ha.2 y hy
      have hargs' : ∀ y ∈ args, IsList (h.setCdr b a) y.1 y.2 ∧ y.2.length ≤ fuel := by
        intro y hy
        obtain ⟨⟨g1, g2⟩, g3⟩ := hargs y (List.mem_cons_of_mem _ hy)
        refine ⟨⟨chain_congr h _ y.2 ?_ _ _ g1, g2⟩, g3⟩
        intro z hz; apply hset; rintro rfl
        rw [List.nodup_append] at hnd
        have := (List.nodup_append.1 hnd.2.1).2.2 z (by simp) z (by
          simp only [List.mem_flatten, List.mem_map]
          exact ⟨y.2, ⟨y, hy, rfl⟩, hz⟩)
        exact this rfl
      have hnd' : (((l.reverse ++ [b]) ++ cs) ++ (args.map Prod.snd).flatten).Nodup := by
        rw [← List.append_assoc] at hnd
        refine (List.Perm.nodup_iff ?_).1 hnd
        exact List.Perm.append_right _ List.perm_append_comm
      obtain ⟨h', e1, e2, e3, e4, e5⟩ := ih (h.setCdr b a) (.cell c) _ ha' hargs' hnd'
      refine ⟨h', ?_, ?_, e3, e4, ?_⟩
      · simp only [List.map_cons, nconcLoop, hlast, Option.bind_some, List.foldl_cons]
        exact e1
      · simp only [List.map_cons, List.reverse_cons, List.flatten_append, List.foldl_cons]
        simpa using e2
      · intro y hy
        simp only [List.map_cons, List.flatten_cons, List.mem_append, not_or] at hy
        rw [e5 y hy.2, hset]
        rintro rfl; exact hy.1.2 (by simp)

end Eus.Cons
