import Verif.Lib.Spec
set_option autoImplicit false
/-
Lemmas for perm.l.
-/
namespace Eus.Lib

section
variable {α : Type}

/-- All ways to insert a into a list, from the front to the back. -/
def inserts (a : α) : List α → List (List α)
  | [] => [[a]]
  | x :: r => (a :: x :: r) :: (inserts a r).map (x :: ·)

theorem perm2_eq (a : α) : ∀ cc bb dd, perm2 a bb cc dd = ((inserts a cc).map (bb ++ ·)).reverse ++ dd
  | [], bb, dd => by simp [perm2, inserts]
  | c :: cc, bb, dd => by
    rw [perm2, perm2_eq a cc]
    simp [inserts, Function.comp_def, List.append_assoc]

theorem inserts_length (a : α) : ∀ l : List α, (inserts a l).length = l.length + 1
  | [] => rfl
  | x :: r => by simp [inserts, inserts_length a r]

theorem mem_inserts (a : α) : ∀ (l z : List α), z ∈ inserts a l ↔ ∃ u v, l = u ++ v ∧ z = u ++ a :: v
  | [], z => by
    simp only [inserts, List.mem_singleton]
    constructor
    · rintro rfl; exact ⟨[], [], rfl, rfl⟩
    · rintro ⟨u, v, h, rfl⟩
      obtain ⟨rfl, rfl⟩ := List.append_eq_nil_iff.1 h.symm
      rfl
  | x :: r, z => by
    simp only [inserts, List.mem_cons, List.mem_map]
    constructor
    · rintro (rfl | ⟨w, hw, rfl⟩)
      · exact ⟨[], x :: r, rfl, rfl⟩
      · obtain ⟨u, v, rfl, rfl⟩ := (mem_inserts a r w).1 hw
        exact ⟨x :: u, v, rfl, rfl⟩
    · rintro ⟨u, v, h, rfl⟩
      cases u with
      | nil => left; simp at h; simp [h]
      | cons y u =>
        simp at h
        right
        exact ⟨u ++ a :: v, (mem_inserts a r _).2 ⟨u, v, h.2, rfl⟩, by simp [h.1]⟩

/-- The permutations in the order in which the generator gives them. -/
def orders : List α → List (List α)
  | [] => []
  | [x] => [[x]]
  | x :: y :: r => (orders (y :: r)).flatMap (inserts x)

theorem mem_orders : ∀ (x : α) (l z : List α), z ∈ orders (x :: l) ↔ z.Perm (x :: l)
  | x, [], z => by simp [orders, List.perm_singleton]
  | x, y :: r, z => by
    simp only [orders, List.mem_flatMap]
    constructor
    · rintro ⟨p, hp, hz⟩
      obtain ⟨u, v, rfl, rfl⟩ := (mem_inserts x p z).1 hz
      exact List.perm_middle.trans (((mem_orders y r _).1 hp).cons x)
    · intro h
      have hx : x ∈ z := h.symm.subset (by simp)
      obtain ⟨u, v, rfl⟩ := List.append_of_mem hx
      refine ⟨u ++ v, (mem_orders y r _).2 ?_, (mem_inserts x _ _).2 ⟨u, v, rfl, rfl⟩⟩
      exact (List.perm_cons x).1 (List.perm_middle.symm.trans h)

theorem flatMap_length_const {β γ : Type} (f : β → List γ) (k : Nat) : ∀ l : List β, (∀ x ∈ l, (f x).length = k) →
    (l.flatMap f).length = l.length * k
  | [], _ => by simp
  | x :: l, h => by
    rw [List.flatMap_cons, List.length_append, h x (by simp), flatMap_length_const f k l (fun y hy => h y (by simp [hy])),
      List.length_cons, Nat.succ_mul, Nat.add_comm]

theorem orders_length : ∀ (x : α) (l : List α), (orders (x :: l)).length = factorial (l.length + 1)
  | x, [] => rfl
  | x, y :: r => by
    rw [orders, flatMap_length_const _ ((y :: r).length + 1), orders_length y r]
    · simp only [List.length_cons]
      conv => rhs; rw [factorial]
      rw [Nat.mul_comm]
    · intro p hp
      rw [inserts_length, ((mem_orders y r p).1 hp).length_eq]

theorem nodup_inserts (a : α) : ∀ l : List α, a ∉ l → (inserts a l).Nodup
  | [], _ => by simp [inserts]
  | x :: r, h => by
    simp only [List.mem_cons, not_or] at h
    rw [inserts, List.nodup_cons]
    refine ⟨?_, ?_⟩
    · rw [List.mem_map]
      rintro ⟨w, _, hw⟩
      simp at hw
      exact h.1 hw.1.symm
    · have := nodup_inserts a r h.2
      rw [List.Nodup, List.pairwise_map]
      exact List.Pairwise.imp (fun hab hc => hab (by simpa using hc)) this

theorem inserts_inj (a : α) {p q z : List α} (hp : a ∉ p) (hq : a ∉ q) (h1 : z ∈ inserts a p) (h2 : z ∈ inserts a q) : p = q := by
  obtain ⟨u, v, rfl, rfl⟩ := (mem_inserts a p z).1 h1
  obtain ⟨u', v', rfl, h⟩ := (mem_inserts a q _).1 h2
  clear h1 h2
  induction u generalizing u' with
  | nil =>
    cases u' with
    | nil => simpa using h
    | cons y u' => simp at h; simp [h.1] at hq
  | cons x u ih =>
    cases u' with
    | nil => simp at h; simp [h.1] at hp
    | cons y u' =>
      simp at h
      simp at hp hq
      have := ih (by simp [hp]) u' h.2 (by simp [hq])
      simp [h.1, this]

theorem nodup_flatMap {β γ : Type} (f : β → List γ) : ∀ l : List β, l.Nodup → (∀ x ∈ l, (f x).Nodup) →
    (∀ x ∈ l, ∀ y ∈ l, ∀ z, z ∈ f x → z ∈ f y → x = y) → (l.flatMap f).Nodup
  | [], _, _, _ => by simp
  | x :: l, hn, h1, h2 => by
    rw [List.nodup_cons] at hn
    rw [List.flatMap_cons, List.nodup_append]
    refine ⟨h1 x (by simp), nodup_flatMap f l hn.2 (fun y hy => h1 y (by simp [hy])) (fun y hy z hz => h2 y (by simp [hy]) z (by simp [hz])), ?_⟩
    rintro a ha b hb rfl
    obtain ⟨y, hy, hay⟩ := List.mem_flatMap.1 hb
    have := h2 x (by simp) y (by simp [hy]) a ha hay
    subst this
    exact hn.1 hy

theorem nodup_orders : ∀ l : List α, l.Nodup → (orders l).Nodup
  | [], _ => by simp [orders]
  | [x], _ => by simp [orders]
  | x :: y :: r, h => by
    rw [List.nodup_cons] at h
    have hm : ∀ p ∈ orders (y :: r), x ∉ p := fun p hp hx => h.1 (((mem_orders y r p).1 hp).subset hx)
    rw [orders]
    exact nodup_flatMap _ _ (nodup_orders _ h.2) (fun p hp => nodup_inserts x p (hm p hp))
      (fun p hp q hq z hz hz' => inserts_inj x (hm p hp) (hm q hq) hz hz')

theorem listPermutation_perm : ∀ l : List α, (listPermutation l).Perm (orders l)
  | [] => by simp [listPermutation, orders]
  | [x] => by simp [listPermutation, orders]
  | x :: y :: r => by
    rw [listPermutation, orders]
    have h1 : ((listPermutation (y :: r)).flatMap fun p => perm2 x [] p []).Perm ((listPermutation (y :: r)).flatMap (inserts x)) := by
      generalize listPermutation (y :: r) = l
      induction l with
      | nil => simp
      | cons p l ih =>
        rw [List.flatMap_cons, List.flatMap_cons]
        refine List.Perm.append ?_ ih
        rw [perm2_eq]
        simp
    exact h1.trans ((listPermutation_perm (y :: r)).flatMap_right _)

/-! ### The generator -/

/-- The first n results of `:next` are those of l, then nil. -/
def HoldsN : Nat → Gen α → List (List α) → Prop
  | 0, _, _ => True
  | n + 1, g, [] => g.next.1 = [] ∧ HoldsN n g.next.2 []
  | n + 1, g, p :: l => g.next.1 = p ∧ HoldsN n g.next.2 l

theorem HoldsN.mono : ∀ {n : Nat} {g : Gen α} {l : List (List α)}, HoldsN (n + 1) g l → HoldsN n g l
  | 0, _, _, _ => trivial
  | _ + 1, _, [], h => ⟨h.1, HoldsN.mono h.2⟩
  | _ + 1, _, _ :: _, h => ⟨h.1, HoldsN.mono h.2⟩

/-- What is still to come, with b and c in the slots, and subl to come from the inner generator. -/
def out (x : α) (b c : List α) (subl : List (List α)) : List (List α) :=
  match b, c with
  | [], [] => subl.flatMap (inserts x)
  | b, c => (inserts x c).map (b ++ ·) ++ subl.flatMap (inserts x)

theorem out_b (x : α) (b c : List α) (subl : List (List α)) (h : b ≠ []) :
    out x b c subl = (inserts x c).map (b ++ ·) ++ subl.flatMap (inserts x) := by
  cases b with
  | nil => exact absurd rfl h
  | cons y r => rfl

theorem holds_level (x : α) (l : List α) : ∀ n sub b c subl k, HoldsN n sub subl → (∀ p ∈ subl, p ≠ []) →
    HoldsN n (.mk l (some sub) (some x) b c k) (out x b c subl)
  | 0, _, _, _, _, _, _, _ => trivial
  | n + 1, sub, b, z :: r, subl, k, hs, hne => by
    have e : out x b (z :: r) subl = (b ++ x :: z :: r) :: out x (b ++ [z]) r subl := by
      rw [out_b x (b ++ [z]) r subl (by simp)]
      cases b <;> simp [out, inserts, Function.comp_def]
    rw [e]
    refine ⟨?_, ?_⟩
    · simp [Gen.next, Gen.emit]
    · simp only [Gen.next, Gen.emit]
      exact holds_level x l n sub (b ++ [z]) r subl (k + 1) hs.mono hne
  | n + 1, sub, y :: r, [], subl, k, hs, hne => by
    refine ⟨?_, ?_⟩
    · simp [Gen.next]
    · simp only [Gen.next, List.append_eq, List.map_nil, List.nil_append]
      exact holds_level x l n sub [] [] subl (k + 1) hs.mono hne
  | n + 1, sub, [], [], [], k, hs, hne => by
    have h1 : sub.next.1 = [] := hs.1
    refine ⟨?_, ?_⟩
    · simp [Gen.next, h1, Gen.emit]
    · simp only [Gen.next, h1, Gen.emit]
      exact holds_level x l n _ [] [] [] k hs.2 hne
  | n + 1, sub, [], [], q :: subl, k, hs, hne => by
    have h1 : sub.next.1 = q := hs.1
    cases q with
    | nil => exact absurd rfl (hne [] (by simp))
    | cons z r =>
      have e : out x [] [] ((z :: r) :: subl) = (x :: z :: r) :: out x [z] r subl := by
        rw [out_b x [z] r subl (by simp)]
        simp [out, inserts]
      rw [e]
      refine ⟨?_, ?_⟩
      · simp [Gen.next, h1, Gen.emit]
      · simp only [Gen.next, h1, Gen.emit]
        exact holds_level x l n _ [z] r subl (k + 1) hs.2 (fun p hp => hne p (by simp [hp]))

theorem reset_reset : ∀ g : Gen α, g.reset.reset = g.reset
  | .mk _ none _ _ _ _ => rfl
  | .mk l (some s) _ _ _ _ => by simp [Gen.reset, reset_reset s]

theorem init_reset : ∀ l : List α, (Gen.init l).reset = Gen.init l
  | [] => rfl
  | [_] => rfl
  | x :: y :: r => by
    simp only [Gen.init]
    exact reset_reset _

theorem init_cons (x y : α) (r : List α) :
    Gen.init (x :: y :: r) = .mk (x :: y :: r) (some (Gen.init (y :: r))) (some x) [] [] 0 := by
  simp only [Gen.init, Gen.reset, init_reset, List.head?_cons]

theorem next_reset : ∀ g : Gen α, g.next.2.reset = g.reset
  | .mk l (some s) a [] [] n => by
    simp only [Gen.next]
    have ih := next_reset s
    cases h : s.next.1 <;> simp [Gen.emit, Gen.reset, ih]
  | .mk l (some s) a (y :: r) [] n => by simp [Gen.next, Gen.reset]
  | .mk l none a [] [] n => by simp [Gen.next, Gen.reset]
  | .mk l none a (y :: r) [] n => by simp [Gen.next, Gen.reset]
  | .mk l none a b (x :: r) n => by simp [Gen.next, Gen.emit, Gen.reset]
  | .mk l (some s) a b (x :: r) n => by simp [Gen.next, Gen.emit, Gen.reset]

theorem holds_nil (x : α) : ∀ (n : Nat) k, HoldsN n (Gen.mk [x] none (some x) [x] [] k) []
  | 0, _ => trivial
  | n + 1, k => ⟨by simp [Gen.next], by simp only [Gen.next]; exact holds_nil x n k⟩

theorem orders_ne (x : α) (l : List α) : ∀ p ∈ orders (x :: l), p ≠ [] := by
  rintro p hp rfl
  have := ((mem_orders x l _).1 hp).length_eq
  simp at this

theorem holds_init : ∀ (n : Nat) (x : α) (l : List α), HoldsN n (Gen.init (x :: l)) (orders (x :: l))
  | 0, x, l => trivial
  | n + 1, x, [] => ⟨by simp [Gen.init, Gen.reset, Gen.next], by
      simp only [Gen.init, Gen.reset, Gen.next, List.head?_cons]
      exact holds_nil x n 1⟩
  | n + 1, x, y :: r => by
    rw [init_cons]
    have := holds_level x (x :: y :: r) (n + 1) (Gen.init (y :: r)) [] [] (orders (y :: r)) 0 (holds_init (n + 1) y r) (orders_ne y r)
    simpa [out, orders] using this

theorem take_holds : ∀ (l : List (List α)) (n : Nat) (g : Gen α), HoldsN (l.length + n) g l →
    Gen.take (l.length + n) g = l ++ List.replicate n []
  | [], 0, _, _ => rfl
  | [], n + 1, g, h => by
    have h : HoldsN (n + 1) g [] := by simpa using h
    have := take_holds [] n g.next.2 (by simpa using h.2)
    simp only [List.length_nil, Nat.zero_add, List.nil_append] at this ⊢
    rw [Gen.take, this, h.1, List.replicate_succ]
  | p :: l, n, g, h => by
    have e : (p :: l).length + n = (l.length + n) + 1 := by simp; omega
    rw [e] at h ⊢
    rw [Gen.take, h.1, take_holds l n _ h.2, List.cons_append]

theorem all_holds : ∀ (l : List (List α)) (n : Nat) (g : Gen α) (acc), HoldsN (l.length + 1) g l → l.length < n →
    (∀ p ∈ l, p ≠ []) → Gen.all n g acc = some (l.reverse ++ acc)
  | [], n + 1, g, acc, h, _, _ => by
    simp [Gen.all, h.1]
  | p :: l, n + 1, g, acc, h, hn, hne => by
    have h1 : g.next.1 = p := h.1
    have h2 : HoldsN (l.length + 1) g.next.2 l := h.2
    have hp := hne p (by simp)
    rw [Gen.all]
    simp only [h1]
    rw [if_neg (by simpa using hp), all_holds l n _ _ h2 (by simp at hn; omega) (fun q hq => hne q (by simp [hq]))]
    simp

/-! ### Combinations -/

/-- Choose r elements, keeping their order. -/
def choose : Nat → List α → List (List α)
  | 0, _ => [[]]
  | _ + 1, [] => []
  | r + 1, x :: l => (choose r l).map (x :: ·) ++ choose (r + 1) l

theorem choose_tails (r : Nat) : ∀ l : List α, (tails l).flatMap (fun y => match y with
      | [] => []
      | x :: d => (choose r d).map (x :: ·)) = choose (r + 1) l
  | [] => rfl
  | x :: l => by simp only [tails, List.flatMap_cons, choose_tails r l, choose]

theorem choose_one : ∀ l : List α, choose 1 l = l.map fun x => [x]
  | [] => rfl
  | x :: l => by simp [choose, choose_one l]

theorem mem_tails_length : ∀ (l y : List α), y ∈ tails l → y.length ≤ l.length
  | [], _, h => by simp [tails] at h
  | x :: l, y, h => by
    simp only [tails, List.mem_cons] at h
    rcases h with rfl | h
    · exact Nat.le_refl _
    · have := mem_tails_length l y h
      simp; omega

theorem flatMap_congr' {β γ : Type} {f g : β → List γ} : ∀ {l : List β}, (∀ x ∈ l, f x = g x) → l.flatMap f = l.flatMap g
  | [], _ => rfl
  | x :: l, h => by rw [List.flatMap_cons, List.flatMap_cons, h x (by simp), flatMap_congr' fun y hy => h y (by simp [hy])]

theorem combiN_eq : ∀ (n : Nat) (l : List α) (r : Nat), l.length < n → combiN n l (r + 1 : Nat) = choose (r + 1) l
  | 0, _, _, h => by omega
  | n + 1, l, 0, _ => by simp [combiN, choose_one]
  | n + 1, l, r + 1, h => by
    have e : ((r + 1 + 1 : Nat) : Int) ≠ 1 := by omega
    have e2 : ((r + 1 + 1 : Nat) : Int) - 1 = (r + 1 : Nat) := by omega
    rw [combiN, if_neg e, ← choose_tails]
    refine flatMap_congr' fun y hy => ?_
    have := mem_tails_length l y hy
    cases y with
    | nil => rfl
    | cons x d =>
      simp only [e2]
      rw [combiN_eq n d r (by simp at this; omega)]

theorem mem_choose : ∀ (r : Nat) (l z : List α), z ∈ choose r l ↔ z.Sublist l ∧ z.length = r
  | 0, l, z => by
    simp only [choose, List.mem_singleton]
    constructor
    · rintro rfl; exact ⟨List.nil_sublist _, rfl⟩
    · rintro ⟨_, h⟩; exact List.length_eq_zero_iff.1 h
  | r + 1, [], z => by
    simp only [choose, List.not_mem_nil, false_iff, not_and]
    intro h; rw [List.sublist_nil.1 h]; simp
  | r + 1, x :: l, z => by
    simp only [choose, List.mem_append, List.mem_map, mem_choose r l, mem_choose (r + 1) l]
    constructor
    · rintro (⟨w, ⟨h1, h2⟩, rfl⟩ | ⟨h1, h2⟩)
      · exact ⟨h1.cons_cons x, by simp [h2]⟩
      · exact ⟨h1.cons x, h2⟩
    · rintro ⟨h1, h2⟩
      cases h1 with
      | cons _ h => exact Or.inr ⟨h, h2⟩
      | cons_cons _ h => exact Or.inl ⟨_, ⟨h, by simpa using h2⟩, rfl⟩

theorem choose_length : ∀ (r : Nat) (l : List α), (choose r l).length = binomial l.length r
  | 0, l => by cases l <;> rfl
  | r + 1, [] => rfl
  | r + 1, x :: l => by
    simp [choose, binomial, choose_length r l, choose_length (r + 1) l]

theorem nodup_choose : ∀ (r : Nat) (l : List α), l.Nodup → (choose r l).Nodup
  | 0, _, _ => by simp [choose]
  | r + 1, [], _ => by simp [choose]
  | r + 1, x :: l, h => by
    rw [List.nodup_cons] at h
    rw [choose, List.nodup_append]
    refine ⟨?_, nodup_choose (r + 1) l h.2, ?_⟩
    · rw [List.Nodup, List.pairwise_map]
      exact List.Pairwise.imp (fun hab hc => hab (by simpa using hc)) (nodup_choose r l h.2)
    · rintro a ha b hb rfl
      obtain ⟨w, _, rfl⟩ := List.mem_map.1 ha
      have := ((mem_choose (r + 1) l _).1 hb).1
      exact h.1 (this.subset (by simp))

theorem combi2_eq (l : List α) : combi2 l = choose 2 l := by
  rw [← choose_tails, combi2]
  refine flatMap_congr' fun y _ => ?_
  cases y with
  | nil => rfl
  | cons x d => simp [choose_one, Function.comp_def]

theorem combiN_zero (l : List α) : ∀ n (r : Int), r ≤ 0 → combiN n l r = [] := by
  intro n
  induction n generalizing l with
  | zero => intro r _; rfl
  | succ n ih =>
    intro r hr
    rw [combiN, if_neg (by omega), List.flatMap_eq_nil_iff]
    intro y _
    cases y with
    | nil => rfl
    | cons x d => simp [ih d (r - 1) (by omega)]

end
end Eus.Lib
