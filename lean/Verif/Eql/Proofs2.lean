import Verif.Eql.Proofs
set_option autoImplicit false
namespace Eus.Eql

/-! ### symmetry and transitivity -/

theorem slotLoop_true {f : Val → Val → Option Bool} : ∀ (n : Nat) (as bs : List Val), as.length = n → bs.length = n →
    (slotLoop f n as bs = some true ↔ List.Forall₂ (fun a b => f a b = some true) as bs)
  | 0, as, bs, h1, h2 => by
    obtain rfl := List.length_eq_zero_iff.1 h1
    obtain rfl := List.length_eq_zero_iff.1 h2
    simp [slotLoop]
  | n + 1, a :: as, b :: bs, h1, h2 => by
    rw [slotLoop, List.forall₂_cons, ← slotLoop_true n as bs (by simpa using h1) (by simpa using h2)]
    cases e : f a b with
    | none => simp
    | some r => cases r <;> simp
  | n + 1, [], _, h1, _ => by simp at h1
  | n + 1, _ :: _, [], _, h2 => by simp at h2

/-- The cases in which `equal` holds. -/
theorem equal_true {E : Env} {H : Heap} (hw : WF E H) (n : Nat) (x y : Val) :
    equal E H (n + 1) x y = some true ↔ x = y ∨ ∃ a b, x = .ptr a ∧ y = .ptr b ∧ (H a).cix = (H b).cix ∧ E.issym (H a).cix = false ∧
      (H a).elm = (H b).elm ∧
      ((H a).elm = .fixed ∧ List.Forall₂ (fun u v => equal E H n u v = some true) (H a).slots (H b).slots ∨
       (H a).elm = .pointer ∧ (H a).size = (H b).size ∧ List.Forall₂ (fun u v => equal E H n u v = some true) (H a).slots (H b).slots ∨
       (H a).elm ≠ .fixed ∧ (H a).elm ≠ .pointer ∧ (H a).size = (H b).size ∧
         ∀ i < nwords (H a).elm (H a).size, (H a).words.getD i 0 = (H b).words.getD i 0) := by
  by_cases hxy : x = y
  · subst hxy; rw [equal_self]; simp
  · by_cases hp : ∀ a b, x = .ptr a → y = .ptr b → False
    · rw [equal_num E H n hxy hp]
      constructor
      · intro h; cases h
      · rintro (h | ⟨a, b, rfl, rfl, -⟩)
        · exact absurd h hxy
        · exact (hp a b rfl rfl).elim
    · push Not at hp
      obtain ⟨a, b, rfl, rfl, -⟩ := hp
      rw [equal_ptr E H n a b (fun h => hxy (by rw [h]))]
      by_cases hc : (H a).cix = (H b).cix ∧ E.issym (H a).cix = false ∧ (H a).elm = (H b).elm
      · rw [if_pos hc]
        obtain ⟨c1, c2, c3⟩ := hc
        by_cases e1 : (H a).elm = .fixed
        · rw [if_pos e1, slotLoop_true _ _ _ (hw.fixed a e1) (by rw [c1]; exact hw.fixed b (by rw [← c3]; exact e1))]
          constructor
          · intro h; exact Or.inr ⟨a, b, rfl, rfl, c1, c2, c3, Or.inl ⟨e1, h⟩⟩
          · rintro (h | ⟨a', b', ⟨⟩, ⟨⟩, -, -, -, ⟨-, h⟩ | ⟨h, -⟩ | ⟨h, -⟩⟩)
            · exact absurd h hxy
            · exact h
            · rw [e1] at h; cases h
            · exact absurd e1 h
        · rw [if_neg e1]
          by_cases hs : (H a).size = (H b).size
          · rw [if_neg (show ¬ (H a).size ≠ (H b).size by simpa using hs)]
            by_cases e2 : (H a).elm = .pointer
            · rw [if_pos e2, slotLoop_true _ _ _ (hw.pointer a e2) (by rw [hs]; exact hw.pointer b (by rw [← c3]; exact e2))]
              constructor
              · intro h; exact Or.inr ⟨a, b, rfl, rfl, c1, c2, c3, Or.inr (Or.inl ⟨e2, hs, h⟩)⟩
              · rintro (h | ⟨a', b', ⟨⟩, ⟨⟩, -, -, -, ⟨h, -⟩ | ⟨-, -, h⟩ | ⟨-, h, -⟩⟩)
                · exact absurd h hxy
                · exact absurd h e1
                · exact h
                · exact absurd e2 h
            · rw [if_neg e2, Option.some.injEq, wordsEq_iff _ _ _ (words_of hw a e1 e2) (by
                rw [c3, hs]; exact words_of hw b (by rw [← c3]; exact e1) (by rw [← c3]; exact e2))]
              constructor
              · intro h; exact Or.inr ⟨a, b, rfl, rfl, c1, c2, c3, Or.inr (Or.inr ⟨e1, e2, hs, h⟩)⟩
              · rintro (h | ⟨a', b', ⟨⟩, ⟨⟩, -, -, -, ⟨h, -⟩ | ⟨h, -⟩ | ⟨-, -, -, h⟩⟩)
                · exact absurd h hxy
                · exact absurd h e1
                · exact absurd h e2
                · exact h
          · rw [if_pos hs]
            constructor
            · intro h; cases h
            · rintro (h | ⟨a', b', ⟨⟩, ⟨⟩, -, -, -, ⟨h, -⟩ | ⟨-, h, -⟩ | ⟨-, -, h, -⟩⟩)
              · exact absurd h hxy
              · exact absurd h e1
              · exact absurd h hs
              · exact absurd h hs
      · rw [if_neg hc]
        constructor
        · intro h; cases h
        · rintro (h | ⟨a', b', ⟨⟩, ⟨⟩, h1, h2, h3, -⟩)
          · exact absurd h hxy
          · exact absurd ⟨h1, h2, h3⟩ hc

theorem equal_symm {E : Env} {H : Heap} (hw : WF E H) : ∀ (n : Nat) (x y : Val), equal E H n x y = some true → equal E H n y x = some true := by
  intro n
  induction n with
  | zero => intro x y h; cases h
  | succ n ih =>
    intro x y h
    rw [equal_true hw] at h ⊢
    have fl : ∀ l l', List.Forall₂ (fun u v => equal E H n u v = some true) l l' → List.Forall₂ (fun u v => equal E H n u v = some true) l' l :=
      fun l l' h => (List.Forall₂.flip h).imp fun a b hab => ih b a hab
    rcases h with h | ⟨a, b, rfl, rfl, c1, c2, c3, h⟩
    · exact Or.inl h.symm
    · refine Or.inr ⟨b, a, rfl, rfl, c1.symm, by rw [← c1]; exact c2, c3.symm, ?_⟩
      rcases h with ⟨e, h⟩ | ⟨e, hs, h⟩ | ⟨e, e', hs, h⟩
      · exact Or.inl ⟨by rw [← c3]; exact e, fl _ _ h⟩
      · exact Or.inr (Or.inl ⟨by rw [← c3]; exact e, hs.symm, fl _ _ h⟩)
      · exact Or.inr (Or.inr ⟨by rw [← c3]; exact e, by rw [← c3]; exact e', hs.symm, fun i hi => (h i (by rw [c3, hs]; exact hi)).symm⟩)

theorem forall2_trans {P : Val → Val → Prop} (hP : ∀ a b c, P a b → P b c → P a c) : ∀ {l m k : List Val}, List.Forall₂ P l m → List.Forall₂ P m k →
    List.Forall₂ P l k
  | _, _, _, .nil, .nil => .nil
  | _, _, _, .cons h1 t1, .cons h2 t2 => .cons (hP _ _ _ h1 h2) (forall2_trans hP t1 t2)

theorem equal_trans {E : Env} {H : Heap} (hw : WF E H) : ∀ (n : Nat) (x y z : Val), equal E H n x y = some true → equal E H n y z = some true →
    equal E H n x z = some true := by
  intro n
  induction n with
  | zero => intro x y z h; cases h
  | succ n ih =>
    intro x y z h h'
    rw [equal_true hw] at h h' ⊢
    rcases h with rfl | ⟨a, b, rfl, rfl, c1, c2, c3, h⟩
    · exact h'
    · rcases h' with rfl | ⟨b', c, ⟨⟩, rfl, d1, d2, d3, h'⟩
      · exact Or.inr ⟨a, b, rfl, rfl, c1, c2, c3, h⟩
      · refine Or.inr ⟨a, c, rfl, rfl, c1.trans d1, c2, c3.trans d3, ?_⟩
        rcases h with ⟨e, h⟩ | ⟨e, hs, h⟩ | ⟨e, e', hs, h⟩
        · rcases h' with ⟨-, h'⟩ | ⟨f, -⟩ | ⟨f, -⟩
          · exact Or.inl ⟨e, forall2_trans ih h h'⟩
          · rw [← c3, e] at f; cases f
          · rw [← c3, e] at f; exact absurd rfl f
        · rcases h' with ⟨f, -⟩ | ⟨-, hs', h'⟩ | ⟨-, f, -⟩
          · rw [← c3, e] at f; cases f
          · exact Or.inr (Or.inl ⟨e, hs.trans hs', forall2_trans ih h h'⟩)
          · rw [← c3, e] at f; exact absurd rfl f
        · rcases h' with ⟨f, -⟩ | ⟨f, -⟩ | ⟨-, -, hs', h'⟩
          · rw [← c3] at f; exact absurd f e
          · rw [← c3] at f; exact absurd f e'
          · refine Or.inr (Or.inr ⟨e, e', hs.trans hs', fun i hi => (h i hi).trans (h' i ?_)⟩)
            rw [← c3, ← hs]; exact hi

/-! ### sxhash -/

theorem rehash_congr {X Y : Obj} (hs : X.size = Y.size) (h : ∀ i < nwords .char X.size, X.words.getD i 0 = Y.words.getD i 0) : rehash X = rehash Y := by
  unfold rehash
  congr 1
  have : ∀ (l : List Nat) (k : Nat), (∀ i ∈ l, i < X.size) → l.foldl (fun h i => 5 * h + byteAt X.words i) k = l.foldl (fun h i => 5 * h + byteAt Y.words i) k := by
    intro l
    induction l with
    | nil => intro k _; rfl
    | cons a l ih =>
      intro k hl
      have : byteAt X.words a = byteAt Y.words a := by
        unfold byteAt
        rw [h (a / 8) ((nwords_size .char X.size).2 a (hl a (by simp)))]
      rw [List.foldl_cons, List.foldl_cons, this]
      exact ih _ fun i hi => hl i (by simp [hi])
  rw [← hs]
  exact this _ _ fun i hi => List.mem_range.1 hi

theorem hloop_congr {f : Val → Option Word} : ∀ (n : Nat) (as bs : List Val) (h : Word), List.Forall₂ (fun a b => f a = f b) as bs →
    hloop f n as h = hloop f n bs h
  | 0, _, _, _, _ => rfl
  | n + 1, _, _, h, .nil => rfl
  | n + 1, _, _, h, .cons (l₁ := as) (l₂ := bs) hab t => by
    rw [hloop, hloop, hab]
    split
    · exact hloop_congr n as bs _ t
    · rfl

theorem hwords_le (e : Elm) (s : Nat) : hwords e s ≤ nwords e s := by
  cases e <;> simp only [hwords, nwords] <;> omega

theorem take_congr : ∀ (n : Nat) (as bs : List Word), n ≤ as.length → n ≤ bs.length → (∀ i < n, as.getD i 0 = bs.getD i 0) → as.take n = bs.take n
  | 0, _, _, _, _, _ => by simp
  | n + 1, a :: as, b :: bs, h1, h2, h => by
    rw [List.take_succ_cons, List.take_succ_cons, take_congr n as bs (by simpa using h1) (by simpa using h2) (fun i hi => by simpa using h (i + 1) (by omega))]
    congr 1
    simpa using h 0 (by omega)
  | n + 1, [], _, h1, _, _ => by simp at h1
  | n + 1, _ :: _, [], _, h2, _ => by simp at h2

theorem forall2_plain {E : Env} {H : Heap} {n : Nat} {P Q : Val → Val → Prop} (h : ∀ u v, Plain E H n u → P u v → Q u v) :
    ∀ {l m : List Val}, (∀ v ∈ l, Plain E H n v) → List.Forall₂ P l m → List.Forall₂ Q l m
  | _, _, _, .nil => .nil
  | _, _, hp, .cons h1 t => .cons (h _ _ (hp _ (by simp)) h1) (forall2_plain h (fun v hv => hp v (by simp [hv])) t)

/-- Equal plain objects have the same hash, and the same hash along the spine. -/
theorem hash_congr {E : Env} {H : Heap} (hw : WF E H) : ∀ (n : Nat) (x y : Val) (m : Nat), Plain E H n x → equal E H m x y = some true →
    (∀ k, sxhash E H k x = sxhash E H k y) ∧ ∀ k j h, spine E H (sxhash E H k) j x h = spine E H (sxhash E H k) j y h := by
  intro n
  induction n with
  | zero => intro x y m h; exact h.elim
  | succ n ih =>
    intro x y m hp he
    cases m with
    | zero => cases he
    | succ m =>
    rw [equal_true hw] at he
    rcases he with rfl | ⟨a, b, rfl, rfl, c1, c2, c3, h⟩
    · exact ⟨fun _ => rfl, fun _ _ _ => rfl⟩
    · rw [Plain] at hp
      rcases hp with hp | hp
      · rw [c2] at hp; cases hp
      have hsp : ∀ k j h, spine E H (sxhash E H k) j (.ptr a) h = spine E H (sxhash E H k) j (.ptr b) h := by
        intro k j h'
        cases j with
        | zero => rfl
        | succ j =>
          rw [spine, spine, ← c1]
          by_cases hl : E.islist (H a).cix = true
          · rw [if_pos hl, if_pos hl]
            obtain ⟨q1, q2⟩ := hw.cons a hl
            rw [q1] at hp
            rcases h with ⟨-, h⟩ | ⟨q, -⟩ | ⟨q, -⟩
            · have hl2 := hp.2
              generalize (H a).slots = l1 at h hl2 ⊢
              generalize (H b).slots = l2 at h ⊢
              cases h with
              | nil => rfl
              | @cons u v us vs huv h =>
                cases h with
                | nil => rfl
                | @cons u' v' us vs huv' h =>
                  dsimp only
                  rw [(ih u v m (hl2 u (by simp)) huv).1 k]
                  cases sxhash E H k v with
                  | none => rfl
                  | some w => exact (ih u' v' m (hl2 u' (by simp)) huv').2 k j _
            · rw [q1] at q; cases q
            · exact absurd q1 q
          · rw [if_neg hl, if_neg hl]
      refine ⟨fun k => ?_, hsp⟩
      cases k with
      | zero => rfl
      | succ k =>
        rw [sxhash, sxhash, ← c1]
        by_cases h1 : E.isstr (H a).cix = true
        · rw [if_pos h1, if_pos h1]
          have hce := hw.str a h1
          rcases h with ⟨q, -⟩ | ⟨q, -⟩ | ⟨-, -, hs, h⟩
          · rw [hce] at q; cases q
          · rw [hce] at q; cases q
          · rw [hce] at h
            rw [rehash_congr hs h]
        · have c2' : ¬ E.issym (H a).cix = true := by simp [c2]
          rw [if_neg h1, if_neg h1, if_neg c2', if_neg c2']
          by_cases h2 : E.islist (H a).cix = true
          · rw [if_pos h2, if_pos h2]
            exact hsp _ _ _
          · rw [if_neg h2, if_neg h2, ← c3]
            rcases h with ⟨q, -⟩ | ⟨q, hs, h⟩ | ⟨q1, q2, hs, h⟩
            · rw [q] at hp; exact absurd hp.1 h2
            · rw [q] at hp ⊢
              dsimp only at hp ⊢
              rw [← hs]
              exact hloop_congr _ _ _ _ (forall2_plain (fun u v hu huv => (ih u v m hu huv).1 k) hp h)
            · have e1 := words_of hw a q1 q2
              have e2 := words_of hw b (by rw [← c3]; exact q1) (by rw [← c3]; exact q2)
              rw [← c3, ← hs] at e2
              have hle := hwords_le (H a).elm (H a).size
              have key := take_congr (hwords (H a).elm (H a).size) _ _ (by omega) (by omega) (fun i hi => h i (by omega))
              rw [← hs]
              cases e : (H a).elm <;> rw [e] at key q1 q2 <;> first | exact absurd rfl q1 | exact absurd rfl q2 | (dsimp only; rw [key])

/-- `sxhash` returns on plain objects. -/
theorem hash_defined {E : Env} {H : Heap} (hw : WF E H) : ∀ (n : Nat) (x : Val), Plain E H n x →
    (∀ k, n ≤ k → ∃ h, sxhash E H k x = some h) ∧ ∀ k j h, n ≤ k + 1 → n ≤ j → ∃ h', spine E H (sxhash E H k) j x h = some h' := by
  intro n
  induction n with
  | zero => intro x h; exact h.elim
  | succ n ih =>
    intro x hp
    have hsp : ∀ k j h, n + 1 ≤ k + 1 → n + 1 ≤ j → ∃ h', spine E H (sxhash E H k) j x h = some h' := by
      intro k j h hk hj
      obtain ⟨j, rfl⟩ : ∃ i, j = i + 1 := ⟨j - 1, by omega⟩
      cases x with
      | int z => exact ⟨h, rfl⟩
      | flt b => exact ⟨h, rfl⟩
      | ptr a =>
        rw [spine]
        by_cases hl : E.islist (H a).cix = true
        · rw [if_pos hl]
          obtain ⟨q1, q2⟩ := hw.cons a hl
          rw [Plain] at hp
          have hs : E.issym (H a).cix = true ∨ ∀ v ∈ (H a).slots, Plain E H n v := by
            rcases hp with hp | hp
            · exact Or.inl hp
            · rw [q1] at hp; exact Or.inr hp.2
          rcases hs with hs | hs
          · exact absurd hs (hw.disj a hl)
          · generalize (H a).slots = l at hs q2
            match l, q2 with
            | u :: v :: l, _ =>
              dsimp only
              obtain ⟨w, e⟩ := (ih u (hs u (by simp))).1 k (by omega)
              rw [e]
              exact (ih v (hs v (by simp))).2 k j _ (by omega) (by omega)
        · rw [if_neg hl]; exact ⟨h, rfl⟩
    refine ⟨fun k hk => ?_, hsp⟩
    obtain ⟨k, rfl⟩ : ∃ i, k = i + 1 := ⟨k - 1, by omega⟩
    cases x with
    | int z => exact ⟨_, rfl⟩
    | flt b => exact ⟨_, rfl⟩
    | ptr a =>
      rw [sxhash]
      by_cases h1 : E.isstr (H a).cix = true
      · rw [if_pos h1]; exact ⟨_, rfl⟩
      · rw [if_neg h1]
        by_cases h2 : E.issym (H a).cix = true
        · rw [if_pos h2]; exact ⟨_, rfl⟩
        · rw [if_neg h2]
          by_cases h3 : E.islist (H a).cix = true
          · rw [if_pos h3]; exact hsp k (k + 1) 0 hk hk
          · rw [if_neg h3]
            rw [Plain] at hp
            rcases hp with hp | hp
            · exact absurd hp h2
            · cases e : (H a).elm with
              | pointer =>
                rw [e] at hp
                dsimp only at hp ⊢
                have : ∀ (m : Nat) (l : List Val) (h : Word), l.length = m → (∀ v ∈ l, Plain E H n v) → ∃ h', hloop (sxhash E H k) m l h = some h' := by
                  intro m
                  induction m with
                  | zero => intro l h _ _; exact ⟨h, rfl⟩
                  | succ m ihm =>
                    intro l h hl hv
                    match l, hl with
                    | v :: l, hl =>
                      obtain ⟨w, e⟩ := (ih v (hv v (by simp))).1 k (by omega)
                      rw [hloop, e]
                      exact ihm l _ (by simpa using hl) fun u hu => hv u (by simp [hu])
                exact this _ _ 0 (hw.pointer a e) hp
              | fixed => exact ⟨_, rfl⟩
              | bit => exact ⟨_, rfl⟩
              | char => exact ⟨_, rfl⟩
              | byte => exact ⟨_, rfl⟩
              | int => exact ⟨_, rfl⟩
              | float => exact ⟨_, rfl⟩

/-! ### superequal -/

theorem set_set (m : Marks) (a b : Nat) (ha : m a = false) (hb : m b = false) :
    ((((m.set a true).set b true).set a false).set b false) = m := by
  funext x
  unfold Marks.set
  by_cases h1 : x = b
  · subst h1; simp [hb]
  · by_cases h2 : x = a
    · subst h2; simp [h1, ha]
    · simp [h1, h2]

theorem sloop_spec {f : Marks → Val → Val → Option (R3 × Marks)} {g : Nat → Val → Val → Option Bool}
    (hf : ∀ m a b r m', f m a b = some (r, m') → m' = m ∧ (r = .t → ∀ k, g k a b ≠ some false) ∧ (r = .nil → ∀ k, g k a b ≠ some true)) :
    ∀ (n : Nat) (as bs : List Val) (m : Marks) (r : R3) (m' : Marks), as.length = n → bs.length = n → sloop f n m as bs = some (r, m') →
      m' = m ∧ (r = .t → ∀ k, slotLoop (g k) n as bs ≠ some false) ∧ (r = .nil → ∀ k, slotLoop (g k) n as bs ≠ some true)
  | 0, as, bs, m, r, m', _, _, h => by
    cases h
    exact ⟨rfl, fun _ k => by simp [slotLoop], fun h => (by cases h)⟩
  | n + 1, a :: as, b :: bs, m, r, m', h1, h2, h => by
    rw [sloop] at h
    cases e : f m a b with
    | none => rw [e] at h; cases h
    | some q =>
      obtain ⟨q, m1⟩ := q
      rw [e] at h
      obtain ⟨rfl, f1, f2⟩ := hf _ _ _ _ _ e
      cases q with
      | t =>
        obtain ⟨i1, i2, i3⟩ := sloop_spec hf n as bs _ r m' (by simpa using h1) (by simpa using h2) h
        refine ⟨i1, fun hr k => ?_, fun hr k => ?_⟩
        · rw [slotLoop]
          have := f1 rfl k
          cases e' : g k a b with
          | none => simp
          | some c => cases c with
            | true => exact i2 hr k
            | false => exact absurd e' this
        · rw [slotLoop]
          cases e' : g k a b with
          | none => simp
          | some c => cases c with
            | true => exact i3 hr k
            | false => simp
      | nil =>
        cases h
        refine ⟨rfl, fun hr => (by cases hr), fun _ k => ?_⟩
        rw [slotLoop]
        have := f2 rfl k
        cases e' : g k a b with
        | none => simp
        | some c => cases c with
          | true => exact absurd e' this
          | false => simp
      | unbound =>
        cases h
        exact ⟨rfl, fun hr => (by cases hr), fun hr => (by cases hr)⟩
  | n + 1, [], _, _, _, _, h1, _, _ => by simp at h1
  | n + 1, _ :: _, [], _, _, _, _, h2, _ => by simp at h2

theorem superequal_ptr (E : Env) (H : Heap) (n a b : Nat) (m : Marks) (hab : a ≠ b) :
    superequal E H (n + 1) m (.ptr a) (.ptr b) =
      if (H a).cix = (H b).cix ∧ E.issym (H a).cix = false then
        (if m a || m b then some (.unbound, m)
        else if (H a).elm ≠ (H b).elm then some (.nil, m)
        else if (H a).elm = .fixed then
          unmark a b (sloop (superequal E H n) (E.objsize (H a).cix) ((m.set a true).set b true) (H a).slots (H b).slots)
        else if (H a).elm = .pointer then
          unmark a b (if (H a).size ≠ (H b).size then some (.nil, (m.set a true).set b true)
            else sloop (superequal E H n) (H a).size ((m.set a true).set b true) (H a).slots (H b).slots)
        else if (H a).size ≠ (H b).size then some (.nil, m)
        else if wordsEq (nwords (H a).elm (H a).size) (H a).words (H b).words then some (.t, m) else some (.nil, m))
      else some (.nil, m) := by
  rw [superequal.eq_def]
  dsimp only
  rw [if_neg (by simpa using hab)]
  by_cases h1 : (H a).cix = (H b).cix
  · rw [if_neg (show ¬ (H a).cix ≠ (H b).cix by simpa using h1)]
    by_cases h2 : E.issym (H a).cix = true
    · rw [if_pos h2, if_neg (by simp [h2])]
    · have hc : (H a).cix = (H b).cix ∧ E.issym (H a).cix = false := ⟨h1, by simpa using h2⟩
      rw [if_neg h2, if_pos hc]
      cases e : (H a).elm <;> simp
  · rw [if_pos h1, if_neg (by tauto)]

theorem superequal_self (E : Env) (H : Heap) (n : Nat) (m : Marks) (x : Val) : superequal E H (n + 1) m x x = some (.t, m) := by
  rw [superequal.eq_def]; simp

theorem superequal_num (E : Env) (H : Heap) (n : Nat) (m : Marks) {x y : Val} (h : x ≠ y) (hp : ∀ a b, x = .ptr a → y = .ptr b → False) :
    superequal E H (n + 1) m x y = some (.nil, m) := by
  rw [superequal.eq_def]
  dsimp only
  rw [if_neg h]
  cases x <;> cases y <;> first | rfl | exact (hp _ _ rfl rfl).elim

theorem superequal_spec {E : Env} {H : Heap} (hw : WF E H) : ∀ (n : Nat) (m : Marks) (x y : Val) (r : R3) (m' : Marks),
    superequal E H n m x y = some (r, m') →
    m' = m ∧ (r = .t → ∀ k, equal E H k x y ≠ some false) ∧ (r = .nil → ∀ k, equal E H k x y ≠ some true) := by
  intro n
  induction n with
  | zero => intro m x y r m' h; cases h
  | succ n ih =>
    intro m x y r m' h
    by_cases hxy : x = y
    · subst hxy
      rw [superequal_self] at h
      cases h
      refine ⟨rfl, fun _ k => ?_, fun h => (by cases h)⟩
      cases k with
      | zero => simp [equal]
      | succ k => rw [equal_self]; simp
    · by_cases hp : ∀ a b, x = .ptr a → y = .ptr b → False
      · rw [superequal_num E H n m hxy hp] at h
        cases h
        refine ⟨rfl, fun h => (by cases h), fun _ k => ?_⟩
        cases k with
        | zero => simp [equal]
        | succ k => rw [equal_num E H k hxy hp]; simp
      · push Not at hp
        obtain ⟨a, b, rfl, rfl, -⟩ := hp
        have hab : a ≠ b := fun h => hxy (by rw [h])
        have nilcase : ∀ (P : Prop), (∀ k, equal E H (k + 1) (.ptr a) (.ptr b) = some false) → ∀ k, equal E H k (.ptr a) (.ptr b) ≠ some true := by
          intro _ hh k
          cases k with
          | zero => simp [equal]
          | succ k => rw [hh]; simp
        rw [superequal_ptr E H n a b m hab] at h
        by_cases hc : (H a).cix = (H b).cix ∧ E.issym (H a).cix = false
        · rw [if_pos hc] at h
          by_cases hm : (m a || m b) = true
          · rw [if_pos hm] at h; cases h
            exact ⟨rfl, fun h => (by cases h), fun h => (by cases h)⟩
          · rw [if_neg hm] at h
            simp only [Bool.not_eq_true, Bool.or_eq_false_iff] at hm
            by_cases he : (H a).elm = (H b).elm
            · rw [if_neg (show ¬ (H a).elm ≠ (H b).elm by simpa using he)] at h
              have hcc : (H a).cix = (H b).cix ∧ E.issym (H a).cix = false ∧ (H a).elm = (H b).elm := ⟨hc.1, hc.2, he⟩
              have unm : ∀ o, unmark a b o = some (r, m') → ∃ m1, o = some (r, m1) ∧ m' = (m1.set a false).set b false := by
                intro o ho
                cases o with
                | none => cases ho
                | some q => obtain ⟨q, m1⟩ := q; cases ho; exact ⟨m1, rfl, rfl⟩
              by_cases e1 : (H a).elm = .fixed
              · rw [if_pos e1] at h
                obtain ⟨m1, ho, rfl⟩ := unm _ h
                obtain ⟨i1, i2, i3⟩ := sloop_spec (g := equal E H) (fun m a b r m' => ih m a b r m') _ _ _ _ _ _ (hw.fixed a e1)
                  (by rw [hc.1]; exact hw.fixed b (by rw [← he]; exact e1)) ho
                refine ⟨by rw [i1]; exact set_set m a b hm.1 hm.2, fun hr k => ?_, fun hr k => ?_⟩
                · cases k with
                  | zero => simp [equal]
                  | succ k => rw [equal_ptr E H k a b hab, if_pos hcc, if_pos e1]; exact i2 hr k
                · cases k with
                  | zero => simp [equal]
                  | succ k => rw [equal_ptr E H k a b hab, if_pos hcc, if_pos e1]; exact i3 hr k
              · rw [if_neg e1] at h
                by_cases e2 : (H a).elm = .pointer
                · rw [if_pos e2] at h
                  obtain ⟨m1, ho, rfl⟩ := unm _ h
                  by_cases hs : (H a).size = (H b).size
                  · rw [if_neg (show ¬ (H a).size ≠ (H b).size by simpa using hs)] at ho
                    obtain ⟨i1, i2, i3⟩ := sloop_spec (g := equal E H) (fun m a b r m' => ih m a b r m') _ _ _ _ _ _ (hw.pointer a e2)
                      (by rw [hs]; exact hw.pointer b (by rw [← he]; exact e2)) ho
                    refine ⟨by rw [i1]; exact set_set m a b hm.1 hm.2, fun hr k => ?_, fun hr k => ?_⟩
                    · cases k with
                      | zero => simp [equal]
                      | succ k =>
                        rw [equal_ptr E H k a b hab, if_pos hcc, if_neg e1, if_neg (show ¬ (H a).size ≠ (H b).size by simpa using hs), if_pos e2]
                        exact i2 hr k
                    · cases k with
                      | zero => simp [equal]
                      | succ k =>
                        rw [equal_ptr E H k a b hab, if_pos hcc, if_neg e1, if_neg (show ¬ (H a).size ≠ (H b).size by simpa using hs), if_pos e2]
                        exact i3 hr k
                  · rw [if_pos hs] at ho
                    cases ho
                    refine ⟨set_set m a b hm.1 hm.2, fun h => (by cases h), fun _ => nilcase True fun k => ?_⟩
                    rw [equal_ptr E H k a b hab, if_pos hcc, if_neg e1, if_pos hs]
                · rw [if_neg e2] at h
                  by_cases hs : (H a).size = (H b).size
                  · rw [if_neg (show ¬ (H a).size ≠ (H b).size by simpa using hs)] at h
                    by_cases hwd : wordsEq (nwords (H a).elm (H a).size) (H a).words (H b).words = true
                    · rw [if_pos hwd] at h
                      cases h
                      refine ⟨rfl, fun _ k => ?_, fun h => (by cases h)⟩
                      cases k with
                      | zero => simp [equal]
                      | succ k =>
                        rw [equal_ptr E H k a b hab, if_pos hcc, if_neg e1, if_neg (show ¬ (H a).size ≠ (H b).size by simpa using hs), if_neg e2, hwd]
                        simp
                    · rw [if_neg hwd] at h
                      cases h
                      refine ⟨rfl, fun h => (by cases h), fun _ => nilcase True fun k => ?_⟩
                      rw [equal_ptr E H k a b hab, if_pos hcc, if_neg e1, if_neg (show ¬ (H a).size ≠ (H b).size by simpa using hs), if_neg e2]
                      simpa using hwd
                  · rw [if_pos hs] at h
                    cases h
                    refine ⟨rfl, fun h => (by cases h), fun _ => nilcase True fun k => ?_⟩
                    rw [equal_ptr E H k a b hab, if_pos hcc, if_neg e1, if_pos hs]
            · rw [if_pos he] at h
              cases h
              refine ⟨rfl, fun h => (by cases h), fun _ => nilcase True fun k => ?_⟩
              rw [equal_ptr E H k a b hab, if_neg (by tauto)]
        · rw [if_neg hc] at h
          cases h
          refine ⟨rfl, fun h => (by cases h), fun _ => nilcase True fun k => ?_⟩
          rw [equal_ptr E H k a b hab, if_neg (by tauto)]

/-- The number of unmarked objects. -/
def unmarked (N : Nat) (m : Marks) : Nat := (List.range N).countP fun a => !m a

theorem sloop_defined {f : Marks → Val → Val → Option (R3 × Marks)} {m : Marks} {Q : Val → Prop}
    (hf : ∀ a b, Q a → Q b → ∃ r, f m a b = some (r, m)) :
    ∀ (n : Nat) (as bs : List Val), (∀ a ∈ as, Q a) → (∀ b ∈ bs, Q b) → ∃ r, sloop f n m as bs = some (r, m)
  | 0, _, _, _, _ => ⟨.t, rfl⟩
  | n + 1, [], _, _, _ => ⟨.nil, rfl⟩
  | n + 1, _ :: _, [], _, _ => ⟨.nil, rfl⟩
  | n + 1, a :: as, b :: bs, h1, h2 => by
    obtain ⟨r, e⟩ := hf a b (h1 a (by simp)) (h2 b (by simp))
    rw [sloop, e]
    cases r with
    | t => exact sloop_defined hf n as bs (fun x hx => h1 x (by simp [hx])) (fun x hx => h2 x (by simp [hx]))
    | nil => exact ⟨_, rfl⟩
    | unbound => exact ⟨_, rfl⟩

theorem unmarked_set {N : Nat} {m : Marks} {a b : Nat} (ha : a < N) (hm : m a = false) : unmarked N ((m.set a true).set b true) < unmarked N m := by
  unfold unmarked
  rw [List.countP_eq_length_filter, List.countP_eq_length_filter]
  have hsub : (List.range N).filter (fun x => !((m.set a true).set b true) x) = ((List.range N).filter (fun x => !m x)).filter (fun x => x ≠ a ∧ x ≠ b) := by
    rw [List.filter_filter]
    apply List.filter_congr
    intro x _
    unfold Marks.set
    by_cases h1 : x = b
    · simp [h1]
    · by_cases h2 : x = a
      · simp [h2]
      · simp [h1, h2]
  rw [hsub]
  apply List.length_filter_lt_length_iff_exists.2
  exact ⟨a, by simp [ha, hm], by simp⟩

/-- `superequal` always returns: the number of objects bounds the depth. -/
theorem superequal_defined {E : Env} {H : Heap} (hw : WF E H) {N : Nat} (hN : Closed H N) : ∀ (n : Nat) (m : Marks) (x y : Val),
    unmarked N m < n → (∀ a, x = .ptr a → a < N) → (∀ b, y = .ptr b → b < N) → ∃ r, superequal E H n m x y = some (r, m) := by
  intro n
  induction n with
  | zero => intro m x y h; omega
  | succ n ih =>
    intro m x y hn hx hy
    have back : ∀ r m', superequal E H (n + 1) m x y = some (r, m') → ∃ r, superequal E H (n + 1) m x y = some (r, m) := by
      intro r m' h
      have := (superequal_spec hw _ _ _ _ _ _ h).1
      exact ⟨r, by rw [h, this]⟩
    by_cases hxy : x = y
    · subst hxy; exact ⟨.t, superequal_self ..⟩
    · by_cases hp : ∀ a b, x = .ptr a → y = .ptr b → False
      · exact ⟨.nil, superequal_num E H n m hxy hp⟩
      · push Not at hp
        obtain ⟨a, b, rfl, rfl, -⟩ := hp
        have hab : a ≠ b := fun h => hxy (by rw [h])
        have ha := hx a rfl
        have hb := hy b rfl
        suffices ∃ q, superequal E H (n + 1) m (.ptr a) (.ptr b) = some q by
          obtain ⟨⟨r, m'⟩, h⟩ := this
          exact back r m' h
        rw [superequal_ptr E H n a b m hab]
        by_cases hc : (H a).cix = (H b).cix ∧ E.issym (H a).cix = false
        · rw [if_pos hc]
          by_cases hm : (m a || m b) = true
          · rw [if_pos hm]; exact ⟨_, rfl⟩
          · rw [if_neg hm]
            simp only [Bool.not_eq_true, Bool.or_eq_false_iff] at hm
            have hlt := unmarked_set (b := b) ha hm.1
            have loop : ∀ k, ∃ r, sloop (superequal E H n) k ((m.set a true).set b true) (H a).slots (H b).slots = some (r, (m.set a true).set b true) := by
              intro k
              refine sloop_defined (Q := fun v => ∀ c, v = .ptr c → c < N) (fun u v hu hv => ih _ u v (by omega) hu hv) k _ _ ?_ ?_
              · rintro v hv c rfl; exact hN a ha c hv
              · rintro v hv c rfl; exact hN b hb c hv
            by_cases he : (H a).elm ≠ (H b).elm
            · rw [if_pos he]; exact ⟨_, rfl⟩
            · rw [if_neg he]
              by_cases e1 : (H a).elm = .fixed
              · rw [if_pos e1]
                obtain ⟨r, e⟩ := loop (E.objsize (H a).cix)
                rw [e]; exact ⟨_, rfl⟩
              · rw [if_neg e1]
                by_cases e2 : (H a).elm = .pointer
                · rw [if_pos e2]
                  by_cases hs : (H a).size ≠ (H b).size
                  · rw [if_pos hs]; exact ⟨_, rfl⟩
                  · rw [if_neg hs]
                    obtain ⟨r, e⟩ := loop (H a).size
                    rw [e]; exact ⟨_, rfl⟩
                · rw [if_neg e2]
                  by_cases hs : (H a).size ≠ (H b).size
                  · rw [if_pos hs]; exact ⟨_, rfl⟩
                  · rw [if_neg hs]
                    split
                    · exact ⟨_, rfl⟩
                    · exact ⟨_, rfl⟩
        · rw [if_neg hc]; exact ⟨_, rfl⟩

end Eus.Eql
