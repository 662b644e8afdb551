import Verif.Pnl.Spec
set_option autoImplicit false
/- C220: panels -/
namespace Eus.Pnl
open Spec

theorem after_apart (a b : Item) (h : After b a) : Apart b a := by
  intro px py hh
  rcases h with ⟨_, h2⟩ | h2 <;> omega

theorem bottom_ge (l : List Item) : 0 ≤ bottom l ∧ ∀ i ∈ l, i.y + i.h ≤ bottom l := by
  induction l with
  | nil => exact ⟨Int.le_refl _, fun i hi => absurd hi List.not_mem_nil⟩
  | cons a l ih =>
    have e : bottom (a :: l) = max (a.h + a.y) (bottom l) := rfl
    refine ⟨by omega, fun i hi => ?_⟩
    rcases List.mem_cons.1 hi with h | h
    · subst h; omega
    · have := ih.2 i h; omega

/-- placed so far -/
structure Ok (p : Panel) : Prop where
  order : p.items.Pairwise After
  left : ∀ i ∈ p.items, (i.y = p.nextY + 5 ∧ i.x + i.w ≤ p.nextX + 5) ∨ i.y + i.h ≤ p.nextY + 5

theorem locate_ok (p : Panel) (w h : Int) (hw : 0 ≤ w) (hp : Ok p) : Ok (locate p w h none none) := by
  obtain ⟨h1, h2⟩ := hp
  have hb := bottom_ge p.items
  by_cases ho : p.width - p.nextX - 10 < w
  · have e : locate p w h none none = { p with nextX := 0 + max p.itemWidth (w + 5), nextY := max (p.nextY + p.itemHeight) (bottom p.items) + 5 - 5, items := ⟨0 + 5, max (p.nextY + p.itemHeight) (bottom p.items) + 5, w, h⟩ :: p.items } := by
      unfold locate; simp only [if_pos ho, Option.getD_none]
    rw [e]
    refine ⟨List.pairwise_cons.2 ⟨fun i hi => ?_, h1⟩, fun i hi => ?_⟩
    · right
      have := hb.2 i hi
      show i.y + i.h ≤ max (p.nextY + p.itemHeight) (bottom p.items) + 5
      omega
    · rcases List.mem_cons.1 hi with hh | hh
      · subst hh
        left
        show max (p.nextY + p.itemHeight) (bottom p.items) + 5 = max (p.nextY + p.itemHeight) (bottom p.items) + 5 - 5 + 5 ∧ 0 + 5 + w ≤ 0 + max p.itemWidth (w + 5) + 5
        omega
      · right
        have := hb.2 i hh
        show i.y + i.h ≤ max (p.nextY + p.itemHeight) (bottom p.items) + 5 - 5 + 5
        omega
  · have e : locate p w h none none = { p with nextX := p.nextX + max p.itemWidth (w + 5), nextY := p.nextY + 5 - 5, items := ⟨p.nextX + 5, p.nextY + 5, w, h⟩ :: p.items } := by
      unfold locate; simp only [if_neg ho, Option.getD_none]
    rw [e]
    refine ⟨List.pairwise_cons.2 ⟨fun i hi => ?_, h1⟩, fun i hi => ?_⟩
    · rcases h2 i hi with q | q
      · exact Or.inl ⟨q.1, q.2⟩
      · exact Or.inr q
    · rcases List.mem_cons.1 hi with hh | hh
      · subst hh
        left
        show p.nextY + 5 = p.nextY + 5 - 5 + 5 ∧ p.nextX + 5 + w ≤ p.nextX + max p.itemWidth (w + 5) + 5
        omega
      · rcases h2 i hh with q | q
        · left
          show i.y = p.nextY + 5 - 5 + 5 ∧ i.x + i.w ≤ p.nextX + max p.itemWidth (w + 5) + 5
          omega
        · right
          show i.y + i.h ≤ p.nextY + 5 - 5 + 5
          omega

theorem locateAll_ok (sizes : List (Int × Int)) : ∀ p, Ok p → (∀ s ∈ sizes, 0 ≤ s.1) → Ok (locateAll p sizes) := by
  induction sizes with
  | nil => intro p hp _; exact hp
  | cons a l ih =>
    intro p hp hs
    exact ih _ (locate_ok p a.1 a.2 (hs a List.mem_cons_self) hp) (fun s h => hs s (List.mem_cons_of_mem _ h))

theorem locateAll_length (sizes : List (Int × Int)) : ∀ p, (locateAll p sizes).items.map (fun i => (i.w, i.h)) = sizes.reverse ++ p.items.map (fun i => (i.w, i.h)) := by
  induction sizes with
  | nil => intro p; rfl
  | cons a l ih =>
    intro p
    show (locateAll (locate p a.1 a.2 none none) l).items.map _ = _
    rw [ih, List.reverse_cons, List.append_assoc]
    rfl

/-- C220: the items of a panel stand as words on a page, in the order they were made, whatever their
sizes; no two of them have a pixel in common. (The newest item is first in the list.) -/
theorem C220_items (width iw ih : Int) (sizes : List (Int × Int)) (hs : ∀ s ∈ sizes, 0 ≤ s.1) :
    (locateAll (new width iw ih) sizes).items.map (fun i => (i.w, i.h)) = sizes.reverse
    ∧ (locateAll (new width iw ih) sizes).items.Pairwise After
    ∧ (locateAll (new width iw ih) sizes).items.Pairwise Apart := by
  have h0 : Ok (new width iw ih) := ⟨List.Pairwise.nil, fun i hi => absurd hi List.not_mem_nil⟩
  have h := locateAll_ok sizes _ h0 hs
  refine ⟨?_, h.order, h.order.imp (fun {a b} q => after_apart b a q)⟩
  rw [locateAll_length]
  show sizes.reverse ++ [] = _
  rw [List.append_nil]

example : (locateAll (new 200 50 28) [(80, 20), (80, 40), (60, 20)]).items = [⟨5, 50, 60, 20⟩, ⟨90, 5, 80, 40⟩, ⟨5, 5, 80, 20⟩] := by decide +kernel

theorem inside_step (width : Int) (p : Panel) (w h : Int) (hw : 0 ≤ w) (hf : w ≤ width - 10) (hp : p.width = width) (h0 : 0 ≤ p.nextX) (h1 : 0 ≤ p.nextY)
    (hi : ∀ i ∈ p.items, 5 ≤ i.x ∧ i.x + i.w ≤ width - 5 ∧ 5 ≤ i.y) :
    (locate p w h none none).width = width ∧ 0 ≤ (locate p w h none none).nextX ∧ 0 ≤ (locate p w h none none).nextY
    ∧ ∀ i ∈ (locate p w h none none).items, 5 ≤ i.x ∧ i.x + i.w ≤ width - 5 ∧ 5 ≤ i.y := by
  have hb := (bottom_ge p.items).1
  by_cases ho : p.width - p.nextX - 10 < w
  · have e : locate p w h none none = { p with nextX := 0 + max p.itemWidth (w + 5), nextY := max (p.nextY + p.itemHeight) (bottom p.items) + 5 - 5, items := ⟨0 + 5, max (p.nextY + p.itemHeight) (bottom p.items) + 5, w, h⟩ :: p.items } := by
      unfold locate; simp only [if_pos ho, Option.getD_none]
    rw [e]
    refine ⟨hp, ?_, ?_, fun i hh => ?_⟩
    · show 0 ≤ 0 + max p.itemWidth (w + 5); omega
    · show 0 ≤ max (p.nextY + p.itemHeight) (bottom p.items) + 5 - 5; omega
    · rcases List.mem_cons.1 hh with q | q
      · subst q
        show 5 ≤ (0 : Int) + 5 ∧ 0 + 5 + w ≤ width - 5 ∧ 5 ≤ max (p.nextY + p.itemHeight) (bottom p.items) + 5
        omega
      · exact hi i q
  · have e : locate p w h none none = { p with nextX := p.nextX + max p.itemWidth (w + 5), nextY := p.nextY + 5 - 5, items := ⟨p.nextX + 5, p.nextY + 5, w, h⟩ :: p.items } := by
      unfold locate; simp only [if_neg ho, Option.getD_none]
    rw [e]
    refine ⟨hp, ?_, ?_, fun i hh => ?_⟩
    · show 0 ≤ p.nextX + max p.itemWidth (w + 5); omega
    · show 0 ≤ p.nextY + 5 - 5; omega
    · rcases List.mem_cons.1 hh with q | q
      · subst q
        show 5 ≤ p.nextX + 5 ∧ p.nextX + 5 + w ≤ width - 5 ∧ 5 ≤ p.nextY + 5
        omega
      · exact hi i q

/-- C220: items not wider than the panel (less its margins) stand within its margins. -/
theorem C220_inside (width iw ih : Int) (sizes : List (Int × Int)) (hs : ∀ s ∈ sizes, 0 ≤ s.1 ∧ s.1 ≤ width - 10) :
    ∀ i ∈ (locateAll (new width iw ih) sizes).items, 5 ≤ i.x ∧ i.x + i.w ≤ width - 5 ∧ 5 ≤ i.y := by
  have : ∀ (l : List (Int × Int)) (p : Panel), (∀ s ∈ l, 0 ≤ s.1 ∧ s.1 ≤ width - 10) → p.width = width → 0 ≤ p.nextX → 0 ≤ p.nextY →
      (∀ i ∈ p.items, 5 ≤ i.x ∧ i.x + i.w ≤ width - 5 ∧ 5 ≤ i.y) → ∀ i ∈ (locateAll p l).items, 5 ≤ i.x ∧ i.x + i.w ≤ width - 5 ∧ 5 ≤ i.y := by
    intro l
    induction l with
    | nil => intro p _ _ _ _ h; exact h
    | cons a l ih =>
      intro p hl h1 h2 h3 h4
      obtain ⟨q1, q2, q3, q4⟩ := inside_step width p a.1 a.2 (hl a List.mem_cons_self).1 (hl a List.mem_cons_self).2 h1 h2 h3 h4
      exact ih (locate p a.1 a.2 none none) (fun s h => hl s (List.mem_cons_of_mem _ h)) q1 q2 q3 q4
  exact this sizes (new width iw ih) hs rfl (Int.le_refl _) (Int.le_refl _) (fun i hi => absurd hi List.not_mem_nil)

example : ∀ s ∈ ([(80, 20), (80, 40), (60, 20)] : List (Int × Int)), 0 ≤ s.1 ∧ s.1 ≤ 200 - 10 := by decide

/-- C220: an item with a given place does not move the place of the next one, which may cover it. -/
theorem C220_given_wrong : ∃ i j, (locate (locate (new 400 50 28) 100 20 (some 100) (some 5)) 50 20 none none).items = [j, i] ∧ ¬ Apart j i :=
  ⟨⟨100, 5, 100, 20⟩, ⟨110, 5, 50, 20⟩, by decide +kernel, fun h => h 120 10 (by decide)⟩

/-- placed so far in a menu bar -/
structure BarOk (p : Panel) : Prop where
  order : p.items.Pairwise After
  left : ∀ i ∈ p.items, (i.y = p.nextY ∧ i.x + i.w ≤ p.nextX) ∨ i.y + i.h ≤ p.nextY

theorem locateBar_ok (p : Panel) (w h : Int) (hw : 0 ≤ w) (hi : 0 ≤ p.itemHeight) (hh : ∀ i ∈ p.items, i.h ≤ p.itemHeight) (hp : BarOk p) : BarOk (locateBar p w h) := by
  obtain ⟨h1, h2⟩ := hp
  by_cases ho : p.width - p.nextX - 10 < w
  · have e : locateBar p w h = { p with nextX := 3 + w, nextY := p.nextY + p.itemHeight, items := ⟨3, p.nextY + p.itemHeight, w, h⟩ :: p.items } := by
      unfold locateBar; simp only [if_pos ho]
    rw [e]
    have hb : ∀ i ∈ p.items, i.y + i.h ≤ p.nextY + p.itemHeight := by
      intro i q
      have := hh i q
      rcases h2 i q with r | r <;> omega
    refine ⟨List.pairwise_cons.2 ⟨fun i q => Or.inr (hb i q), h1⟩, fun i q => ?_⟩
    rcases List.mem_cons.1 q with q | q
    · subst q; exact Or.inl ⟨rfl, Int.le_refl _⟩
    · exact Or.inr (hb i q)
  · have e : locateBar p w h = { p with nextX := p.nextX + w, nextY := p.nextY, items := ⟨p.nextX, p.nextY, w, h⟩ :: p.items } := by
      unfold locateBar; simp only [if_neg ho]
    rw [e]
    refine ⟨List.pairwise_cons.2 ⟨fun i q => h2 i q, h1⟩, fun i q => ?_⟩
    rcases List.mem_cons.1 q with q | q
    · subst q; exact Or.inl ⟨rfl, Int.le_refl _⟩
    · rcases h2 i q with r | r
      · left
        show i.y = p.nextY ∧ i.x + i.w ≤ p.nextX + w
        omega
      · exact Or.inr r

/-- C220: the items of a menu bar stand as words on a page when none is higher than the item height. -/
theorem C220_bar_partial (width iw ih : Int) (sizes : List (Int × Int)) (h0 : 0 ≤ ih) (hs : ∀ s ∈ sizes, 0 ≤ s.1 ∧ s.2 ≤ ih) :
    (locateBarAll (newBar width iw ih) sizes).items.Pairwise After ∧ (locateBarAll (newBar width iw ih) sizes).items.Pairwise Apart := by
  have : ∀ (l : List (Int × Int)) (p : Panel), (∀ s ∈ l, 0 ≤ s.1 ∧ s.2 ≤ ih) → p.itemHeight = ih → (∀ i ∈ p.items, i.h ≤ ih) → BarOk p → BarOk (locateBarAll p l) := by
    intro l
    induction l with
    | nil => intro p _ _ _ h; exact h
    | cons a l hind =>
      intro p hl h1 h2 h3
      refine hind (locateBar p a.1 a.2) (fun s h => hl s (List.mem_cons_of_mem _ h)) h1 (fun i q => ?_) (locateBar_ok p a.1 a.2 (hl a List.mem_cons_self).1 (by omega) (by rw [h1]; exact h2) h3)
      rcases List.mem_cons.1 q with q | q
      · rw [q]; exact (hl a List.mem_cons_self).2
      · exact h2 i q
  have h := this sizes (newBar width iw ih) hs rfl (fun i hi => absurd hi List.not_mem_nil) ⟨List.Pairwise.nil, fun i hi => absurd hi List.not_mem_nil⟩
  exact ⟨h.order, h.order.imp (fun {a b} q => after_apart b a q)⟩

example : (locateBarAll (newBar 200 50 28) [(80, 20), (80, 28), (60, 20)]).items = [⟨3, 30, 60, 20⟩, ⟨83, 2, 80, 28⟩, ⟨3, 2, 80, 20⟩] := by decide +kernel

/-- C220: a higher item of a menu bar is covered by the next row. -/
theorem C220_bar_wrong : ∃ i j, (locateBarAll (newBar 200 50 28) [(150, 40), (100, 20)]).items = [j, i] ∧ ¬ Apart j i :=
  ⟨⟨3, 2, 150, 40⟩, ⟨3, 30, 100, 20⟩, by decide +kernel, fun h => h 10 35 (by decide)⟩

end Eus.Pnl
