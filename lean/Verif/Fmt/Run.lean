import Verif.Fmt.Proofs
set_option autoImplicit false
namespace Eus.Fmt
open Eus.Num Eus.Rd
variable {F O : Type}

theorem map_value (ps : List (List Nat)) :
    (ps.map value).map Int.ofNat = ps.map fun p => (value p : Int) := by
  rw [List.map_map]; rfl

theorem toInt32_eq (z : Int) : toInt32 z = wrap32 z := by
  unfold toInt32 wrap32
  rw [BitVec.toInt_ofInt, Int.bmod_def]
  rfl

theorem joinPs_length : ∀ (ps : List (List Nat)), (∀ p ∈ ps, p ≠ []) → ps.length ≤ (joinPs ps).length := by
  intro ps
  induction ps using joinPs.induct with
  | case1 => intro _; exact Nat.le_refl _
  | case2 p =>
    intro h
    have := List.length_pos_iff.2 (h p (by simp))
    simp only [joinPs, List.length_cons, List.length_nil]; omega
  | case3 p q ps ih =>
    intro h
    have := ih (fun x hx => h x (List.mem_cons_of_mem _ hx))
    have hp := List.length_pos_iff.2 (h p (by simp))
    simp only [joinPs, List.length_append, List.length_cons] at this ⊢
    omega

/-- The parameters are read, whatever follows. -/
theorem readParams_all {ps : List (List Nat)} {comma : Bool} (hg : GoodPs ps comma) (hl : ps.length ≤ 10) {c : Nat}
    (rest : List Nat) (hc : isdigit c = false) (hcm : ps ≠ [] → comma = false → c ≠ 44) {c0 : Nat} {rest0 : List Nat}
    (h : joinPs ps ++ (if comma then [44] else []) ++ c :: rest = c0 :: rest0) :
    readParams (rest0.length + 1) [] c0 rest0 = .done (ps.map value) c rest := by
  have := readParams_run c rest comma hc ps [] (rest0.length + 1) c0 rest0 hg (by simpa using hl) hcm (by
    have h1 := joinPs_length ps (fun p hp => (hg.1 p hp).1)
    have h2 := congrArg List.length h
    simp only [List.length_append, List.length_cons] at h2
    omega) h
  simpa using this

/-- What happens next is `k`, after `x`. -/
def SimK (s : St F O) (x : Except Fail (List Nat × List (Arg F O))) (k : St F O → Res F O) (r : Res F O) : Prop :=
  match x with
  | .ok (t, as) => ∃ s', r = k s' ∧ s'.out = s.out ++ t ∧ s'.slash = s.slash ∧ s'.args = as
  | .error f => r.obs = .error (.inl f)

theorem simK_of_sim {s s0 : St F O} {x : Except Fail (List Nat × List (Arg F O))} {k : St F O → Res F O} {r : Res F O}
    (h : Sim s x r) (ho : s.out = s0.out) (hs : s.slash = s0.slash) :
    SimK s0 x k (r.andThen k) := by
  unfold Sim at h; unfold SimK
  cases x with
  | error f =>
    cases r with
    | ok s => simp [Res.obs] at h
    | err e s => exact h
    | exit s => exact h
    | ub => exact h
  | ok p =>
    obtain ⟨t, as⟩ := p
    obtain ⟨s', h1, h2, h3, h4⟩ := h
    exact ⟨s', by rw [h1]; rfl, by rw [h2, ho], by rw [h3, hs], h4⟩

theorem upper_V {c : Nat} (h : c = 86 ∨ c = 118) : upc c = 86 := by
  rcases h with rfl | rfl <;> rfl

theorem upper_not_V {c : Nat} (h : c ≠ 86) (h' : c ≠ 118) : upc c ≠ 86 := by
  unfold upc to_upper islower
  split
  · rename_i h1
    simp only [Bool.and_eq_true, decide_eq_true_eq] at h1
    omega
  · exact h

theorem directive_run (E : Env F O) (trim : List Nat → List Nat) (ht : ∀ t, Trimmed t (trim t))
    {ps : List (List Nat)} {comma : Bool} {v : Option Nat} {d : Nat} (hg : Item.Good (.dir ps comma v d))
    (rest : List Nat) (s : St F O) (k : List Nat → St F O → Res F O) :
    SimK s (Item.does E s.slash trim s.args (.dir ps comma v d)) (k rest)
      (directive E (prefixText ps comma v ++ d :: rest) s k) := by
  obtain ⟨hg, hl, hv, hd⟩ := hg
  cases v with
  | none =>
    obtain ⟨hd1, hd2, hd3, hd4⟩ := hd rfl
    have hdd : isdigit d = false := by
      rw [← Bool.not_eq_true, isdigit_iff]; exact hd3
    have hpf : prefixText ps comma none ++ d :: rest = joinPs ps ++ (if comma then [44] else []) ++ d :: rest := by
      simp [prefixText]
    rw [hpf]
    cases hh : joinPs ps ++ (if comma then [44] else []) ++ d :: rest with
    | nil => simp at hh
    | cons c0 rest0 =>
      have hr := readParams_all hg (by simpa using hl) rest hdd hd4 hh
      simp only [directive, hr, map_value]
      rw [if_neg (upper_not_V hd1 hd2)]
      exact simK_of_sim (sim_direct E trim ht (upc d) _ _ s) rfl rfl
  | some c =>
    have hc := hv c rfl
    have hdd : isdigit c = false := by rcases hc with rfl | rfl <;> rfl
    have hpf : prefixText ps comma (some c) ++ d :: rest =
        joinPs ps ++ (if comma then [44] else []) ++ c :: (d :: rest) := by
      simp [prefixText]
    rw [hpf]
    simp only [Option.toList_some, List.length_cons, List.length_nil] at hl
    cases hh : joinPs ps ++ (if comma then [44] else []) ++ c :: (d :: rest) with
    | nil => simp at hh
    | cons c0 rest0 =>
      have hr := readParams_all hg (by omega) (d :: rest) hdd
        (fun _ _ => by rcases hc with rfl | rfl <;> decide) hh
      simp only [directive, hr, map_value]
      rw [if_pos (upper_V hc)]
      simp only [nextfarg, Item.does]
      cases hs : s.args with
      | nil => simp [SimK, Res.obs]
      | cons a as =>
        dsimp only
        cases ckintval a with
        | none => simp [SimK, Res.obs]
        | some z =>
          dsimp only
          rw [if_neg (by simp only [List.length_map]; omega), toInt32_eq]
          exact simK_of_sim (s := { s with args := as }) (sim_direct E trim ht (upc d) _ _ _) rfl rfl

theorem Item.text_dir (ps : List (List Nat)) (comma : Bool) (v : Option Nat) (d : Nat) (tail : List Nat) :
    Item.text (.dir ps comma v d) ++ tail = 126 :: (prefixText ps comma v ++ d :: tail) := by
  simp [Item.text]

theorem run_items (E : Env F O) (trim : List Nat → List Nat) (ht : ∀ t, Trimmed t (trim t)) :
    ∀ (is : List Item) (tail : List Nat) (n : Nat) (s : St F O), (∀ i ∈ is, i.Good) →
    (render is ++ tail).length ≤ n → ∃ m, tail.length ≤ m ∧
    SimK s (doAll E s.slash trim is s.args) (run E m tail) (run E n (render is ++ tail) s) := by
  intro is
  induction is with
  | nil =>
    intro tail n s hg hn
    exact ⟨n, by simpa [render] using hn, s, by simp [render], by simp, rfl, rfl⟩
  | cons i is ih =>
    intro tail n s hg hn
    have hr : render (i :: is) ++ tail = i.text ++ (render is ++ tail) := by simp [render]
    rw [hr] at hn ⊢
    have hi := hg i (by simp)
    have hg' : ∀ j ∈ is, j.Good := fun j hj => hg j (List.mem_cons_of_mem _ hj)
    have step : ∃ n', (render is ++ tail).length ≤ n' ∧
        SimK s (i.does E s.slash trim s.args) (run E n' (render is ++ tail)) (run E n (i.text ++ (render is ++ tail)) s) := by
      cases i with
      | lit c =>
        cases n with
        | zero => simp [Item.text] at hn
        | succ n =>
          refine ⟨n, by simpa [Item.text] using hn, ?_⟩
          simp only [Item.text, List.cons_append, List.nil_append, run, if_neg (show c ≠ 126 from hi), Item.does]
          exact ⟨_, rfl, rfl, rfl, rfl⟩
      | dir ps comma v d =>
        cases n with
        | zero => simp [Item.text] at hn
        | succ n =>
          rw [Item.text_dir] at hn ⊢
          refine ⟨n, by simp only [List.length_cons, List.length_append] at hn ⊢; omega, ?_⟩
          rw [run, if_pos rfl]
          exact directive_run E trim ht hi (render is ++ tail) s (run E n)
    obtain ⟨n', hn', hs⟩ := step
    unfold SimK at hs
    cases hd : i.does E s.slash trim s.args with
    | error f =>
      rw [hd] at hs
      refine ⟨tail.length, Nat.le_refl _, ?_⟩
      unfold SimK
      simp only [doAll, hd, bind, Except.bind]
      exact hs
    | ok p =>
      obtain ⟨t, as⟩ := p
      rw [hd] at hs
      obtain ⟨s', h1, h2, h3, h4⟩ := hs
      obtain ⟨m, hm, hk⟩ := ih tail n' s' hg' hn'
      refine ⟨m, hm, ?_⟩
      rw [h1]
      unfold SimK at hk ⊢
      rw [h3, h4] at hk
      simp only [doAll, hd, bind, Except.bind]
      cases hq : doAll E s.slash trim is as with
      | error f => rw [hq] at hk; exact hk
      | ok q =>
        obtain ⟨u, bs⟩ := q
        rw [hq] at hk
        obtain ⟨s2, g1, g2, g3, g4⟩ := hk
        exact ⟨s2, g1, by rw [g2, h2, List.append_assoc], g3, g4⟩

end Eus.Fmt
