import Verif.Fmt.Spec
set_option autoImplicit false
namespace Eus.Fmt
open Eus.Num Eus.Rd
variable {F O : Type}

/-! ### trailing zeros -/

theorem trimRev_spec : ∀ l : List Nat, ∃ n, l = List.replicate n 48 ++ trimRev l ∧
    (∀ v, trimRev l = 48 :: v → v.length ≤ 1 ∨ v.head? = some 46) ∧
    (n = 0 ∨ ((trimRev l).length ≥ 2 ∧ (trimRev l).head? ≠ some 46)) := by
  intro l
  induction l using trimRev.induct with
  | case1 d r =>
    refine ⟨0, ?_, ?_, Or.inl rfl⟩
    · simp [trimRev]
    · intro v hv
      simp only [trimRev, if_true] at hv
      rw [← (List.cons.inj hv).2]; right; rfl
  | case2 c d r hc ih =>
    obtain ⟨n, h1, h2, h3⟩ := ih
    have ht : trimRev (48 :: c :: d :: r) = trimRev (c :: d :: r) := by
      rw [trimRev, if_neg hc]
    rw [ht]
    refine ⟨n + 1, ?_, h2, Or.inr ?_⟩
    · rw [List.replicate_succ, List.cons_append, ← h1]
    · rcases h3 with h3 | h3
      · subst h3
        simp only [List.replicate_zero, List.nil_append] at h1
        rw [← h1]
        refine ⟨by simp, ?_⟩
        simp only [List.head?_cons, ne_eq, Option.some.injEq]; exact hc
      · exact h3
  | case3 l h =>
    have ht : trimRev l = l := by
      unfold trimRev
      split
      · rename_i c d r
        exact absurd rfl (h c d r)
      · rfl
    rw [ht]
    refine ⟨0, by simp, ?_, Or.inl rfl⟩
    intro v hv
    subst hv
    match v, h with
    | [], _ => left; simp
    | [_], _ => left; simp
    | c :: d :: r, h => exact absurd rfl (h c d r)

theorem trim_ok (t : List Nat) : Trimmed t (trimRev t.reverse).reverse := by
  obtain ⟨n, h1, h2, h3⟩ := trimRev_spec t.reverse
  refine ⟨n, ?_, ?_, ?_⟩
  · have := congrArg List.reverse h1
    simpa using this
  · intro v hv
    have hv' : trimRev t.reverse = 48 :: v.reverse := by
      have := congrArg List.reverse hv
      simpa using this
    have := h2 _ hv'
    simpa using this
  · simpa using h3

theorem trimmed_unique {t u v : List Nat} (hu : Trimmed t u) (hv : Trimmed t v) : u = v := by
  have key : ∀ {u v : List Nat} {n k : Nat}, u ++ List.replicate n 48 = v ++ List.replicate (n + k) 48 →
      (∀ w, u = w ++ [48] → w.length ≤ 1 ∨ w.getLast? = some 46) →
      (n + k = 0 ∨ (v.length ≥ 2 ∧ v.getLast? ≠ some 46)) → u = v := by
    intro u v n k h hu hv
    have h' : u = v ++ List.replicate k 48 := by
      rw [Nat.add_comm n k, ← List.replicate_append_replicate, ← List.append_assoc] at h
      exact List.append_cancel_right h
    cases k with
    | zero => simpa using h'
    | succ k =>
      rcases hv with hv | ⟨hv1, hv2⟩
      · omega
      · rw [List.replicate_succ', ← List.append_assoc] at h'
        rcases hu _ h' with h | h
        · simp at h; omega
        · cases k with
          | zero => simp at h; exact absurd h hv2
          | succ k => rw [List.replicate_succ', ← List.append_assoc] at h; simp at h
  obtain ⟨n, h1, h2, h3⟩ := hu
  obtain ⟨m, g1, g2, g3⟩ := hv
  rcases Nat.le_total n m with h | h
  · obtain ⟨k, rfl⟩ := Nat.exists_eq_add_of_le h
    exact key (h1.symm.trans g1) h2 g3
  · obtain ⟨k, rfl⟩ := Nat.exists_eq_add_of_le h
    exact (key (g1.symm.trans h1) g2 h3).symm

/-! ### parameters -/

def dstep (v c : Nat) : Nat := v * 10 + (c - 48)

theorem le_foldl_dstep (p : List Nat) : ∀ v, v ≤ p.foldl dstep v := by
  induction p with
  | nil => intro v; exact Nat.le_refl _
  | cons c p ih => intro v; exact Nat.le_trans (by unfold dstep; omega) (ih (dstep v c))

theorem isdigit_iff (c : Nat) : isdigit c = true ↔ 48 ≤ c ∧ c ≤ 57 := by simp [isdigit]

theorem readDigits_run : ∀ (p : List Nat) (v c0 c : Nat) (rest : List Nat), (∀ x ∈ c0 :: p, 48 ≤ x ∧ x ≤ 57) →
    (c0 :: p).foldl dstep v < 2 ^ 31 → isdigit c = false →
    readDigits v c0 (p ++ c :: rest) = .done ((c0 :: p).foldl dstep v) c rest := by
  intro p
  induction p with
  | nil =>
    intro v c0 c rest h1 h2 h3
    have h0 := (isdigit_iff c0).2 (h1 c0 (by simp))
    have h4 : ¬ v * 10 + (c0 - 48) > intMax := by
      simp only [List.foldl, dstep] at h2; unfold intMax; omega
    cases rest <;> simp [readDigits, h0, h3, dstep] <;> omega
  | cons c1 p ih =>
    intro v c0 c rest h1 h2 h3
    have h0 := (isdigit_iff c0).2 (h1 c0 (by simp))
    have h4 : ¬ v * 10 + (c0 - 48) > intMax := by
      have := le_foldl_dstep (c1 :: p) (dstep v c0)
      simp only [List.foldl_cons] at h2 this
      unfold dstep at this h2; unfold intMax; omega
    rw [List.cons_append, readDigits, if_pos h0, if_neg h4]
    rw [List.foldl_cons] at h2 ⊢
    exact ih (dstep v c0) c1 c rest (fun x hx => h1 x (List.mem_cons_of_mem _ hx)) h2 h3

theorem value_eq (p : List Nat) : value p = p.foldl dstep 0 := rfl

theorem readParams_run (c : Nat) (rest : List Nat) (comma : Bool) (hc : isdigit c = false) :
    ∀ (ps : List (List Nat)) (acc : List Nat) (n c0 : Nat) (rest0 : List Nat), GoodPs ps comma →
    acc.length + ps.length ≤ 10 → (ps ≠ [] → comma = false → c ≠ 44) → ps.length < n →
    joinPs ps ++ (if comma then [44] else []) ++ c :: rest = c0 :: rest0 →
    readParams n acc c0 rest0 = .done (acc ++ ps.map value) c rest := by
  intro ps
  induction ps with
  | nil =>
    intro acc n c0 rest0 hg hl hcm hn h
    have hcf : comma = false := by
      cases comma
      · rfl
      · exact absurd rfl (hg.2 rfl)
    subst hcf
    simp only [joinPs, Bool.false_eq_true, if_false, List.nil_append, List.cons.injEq] at h
    obtain ⟨rfl, rfl⟩ := h
    cases n with
    | zero => exact absurd hn (by simp)
    | succ n => simp [readParams, hc]
  | cons p ps ih =>
    intro acc n c0 rest0 hg hl hcm hn h
    obtain ⟨hp1, hp2, hp3⟩ := hg.1 p (by simp)
    obtain ⟨d, p, rfl⟩ := List.exists_cons_of_ne_nil hp1
    cases n with
    | zero => exact absurd hn (by simp)
    | succ n =>
      have hlen : ¬ acc.length ≥ 10 := by simp only [List.length_cons] at hl; omega
      have hd := (isdigit_iff d).2 (hp2 d (by simp))
      cases ps with
      | nil =>
        simp only [joinPs, List.cons_append, List.cons.injEq, List.append_assoc] at h
        obtain ⟨rfl, rfl⟩ := h
        cases comma with
        | false =>
          have h44 : c ≠ 44 := hcm (by simp) rfl
          simp only [Bool.false_eq_true, if_false, List.nil_append]
          rw [readParams, if_pos hd, if_neg hlen, readDigits_run p 0 d c rest hp2 hp3 hc, ← value_eq]
          simp only [skipComma, if_neg h44]
          cases n with
          | zero => simp at hn
          | succ n => rw [readParams, hc]; simp
        | true =>
          simp only [if_true, List.cons_append, List.nil_append]
          rw [readParams, if_pos hd, if_neg hlen, readDigits_run p 0 d 44 (c :: rest) hp2 hp3 rfl, ← value_eq]
          simp only [skipComma, if_true]
          cases n with
          | zero => simp at hn
          | succ n => rw [readParams, hc]; simp
      | cons q ps =>
        obtain ⟨e, q', hq⟩ := List.exists_cons_of_ne_nil (hg.1 q (by simp)).1
        have hj : ∃ r, joinPs (q :: ps) ++ (if comma then [44] else []) ++ c :: rest = e :: r := by
          subst hq
          cases ps <;> simp [joinPs]
        obtain ⟨r, hr⟩ := hj
        simp only [joinPs, List.cons_append, List.cons.injEq, List.append_assoc] at h
        obtain ⟨rfl, rfl⟩ := h
        have hr' : joinPs (q :: ps) ++ ((if comma then [44] else []) ++ c :: rest) = e :: r := by
          rw [← List.append_assoc]; exact hr
        rw [hr', readParams, if_pos hd, if_neg hlen, readDigits_run p 0 d 44 (e :: r) hp2 hp3 rfl, ← value_eq]
        simp only [skipComma, if_true]
        rw [ih (acc ++ [value (d :: p)]) n e r ⟨fun x hx => hg.1 x (List.mem_cons_of_mem _ hx), fun _ => by simp⟩
          (by simp only [List.length_append, List.length_cons, List.length_nil] at hl ⊢; omega)
          (fun _ => hcm (by simp)) (by simp only [List.length_cons] at hn ⊢; omega) hr]
        simp

/-! ### directives -/

/-- `r` is what `x` says, in state `s`. -/
def Sim (s : St F O) (x : Except Fail (List Nat × List (Arg F O))) (r : Res F O) : Prop :=
  match x with
  | .ok (t, as) => ∃ s', r = .ok s' ∧ s'.out = s.out ++ t ∧ s'.slash = s.slash ∧ s'.args = as
  | .error f => r.obs = .error (.inl f)

theorem sim_field (E : Env F O) (w : Int) (a : Arg F O) (s : St F O) (b osf : Bool) (as : List (Arg F O)) (h : s.slash = osf) :
    Sim s ((inField E b w a).map fun t => (t, as)) (field E w a { s with args := as, slash := b } osf) := by
  unfold inField field
  by_cases hl : (E.prinx b a).leaves = true
  · simp [hl, Sim, Res.obs, Except.map]
  · simp [hl, Sim, Except.map, writestr, h]

theorem sim_number (E : Env F O) (base : Nat) (w p : Int) (s : St F O) :
    Sim s (take s.args (inBase E base w p)) (number E base w p s) := by
  unfold number nextfarg take
  cases hs : s.args with
  | nil => simp [Sim, Res.obs]
  | cons a as =>
    cases a with
    | int n =>
      simp only [inBase, printnumA]
      cases printnum base E.down n w p <;> simp [Sim, Res.obs, Except.map, writestr]
    | flt x => simp [inBase, printnumA, Sim, Except.map, writestr]
    | ratio n d =>
      simp only [inBase, printnumA]
      cases printnum base E.down n 0 0 <;> cases printnum base E.down d 0 0 <;>
        simp [Sim, Res.obs, Except.map, writestr]
    | obj o => simp [inBase, printnumA, Sim, Res.obs, Except.map]

theorem sim_float (E : Env F O) (b : Bool) (w p : Int) (s : St F O) :
    Sim s (take s.args fun a => (asFloat E a).bind fun x => buf (E.sprintf b w p x))
      (nextfarg s fun a s => match ckfltval E a with
        | none => .err .noNumber s
        | some x => float (E.sprintf b w p x) s) := by
  unfold nextfarg take
  cases hs : s.args with
  | nil => simp [Sim, Res.obs]
  | cons a as =>
    have key : ∀ x : F, Sim s ((buf (E.sprintf b w p x)).map fun t => (t, as)) (float (E.sprintf b w p x) { s with args := as }) := by
      intro x
      unfold buf float
      by_cases h : (E.sprintf b w p x).length < 256
      · have h' : ¬ (E.sprintf b w p x).length > 255 := by omega
        simp [h, h', Sim, Except.map, writestr]
      · have h' : (E.sprintf b w p x).length > 255 := by omega
        simp [h, h', Sim, Except.map, Res.obs]
    cases a with
    | obj o => simp [asFloat, ckfltval, Sim, Res.obs, Except.map, Except.bind]
    | int n => exact key _
    | flt n => exact key _
    | ratio n d => exact key _

theorem sim_general (E : Env F O) (trim : List Nat → List Nat) (ht : ∀ t, Trimmed t (trim t)) (w p : Int) (s : St F O) :
    Sim s (take s.args fun a => (asFloat E a).bind fun x =>
        if E.isZero x then .ok [48, 46, 48]
        else if E.extreme x then buf (E.sprintf true w p x)
        else (buf (E.sprintf false w p x)).map trim)
      (nextfarg s fun a s => match ckfltval E a with
        | none => .err .noNumber s
        | some x =>
          if E.isZero x then .ok (writestr s [48, 46, 48])
          else if E.extreme x then float (E.sprintf true w p x) s
          else
            let t := E.sprintf false w p x
            if t.length > 255 then .ub else .ok (writestr s (trimRev t.reverse).reverse)) := by
  unfold nextfarg take
  cases hs : s.args with
  | nil => simp [Sim, Res.obs]
  | cons a as =>
    have key : ∀ x : F, Sim s ((if E.isZero x then .ok [48, 46, 48]
        else if E.extreme x then buf (E.sprintf true w p x)
        else (buf (E.sprintf false w p x)).map trim : Except Fail (List Nat)).map fun t => (t, as))
        (if E.isZero x then .ok (writestr { s with args := as } [48, 46, 48])
          else if E.extreme x then float (E.sprintf true w p x) { s with args := as }
          else
            let t := E.sprintf false w p x
            if t.length > 255 then .ub else .ok (writestr { s with args := as } (trimRev t.reverse).reverse)) := by
      intro x
      cases E.isZero x with
      | true => simp [Sim, Except.map, writestr]
      | false =>
        simp only [Bool.false_eq_true, if_false]
        cases E.extreme x with
        | true =>
          simp only [if_true]
          unfold buf float
          by_cases h : (E.sprintf true w p x).length < 256
          · have h' : ¬ (E.sprintf true w p x).length > 255 := by omega
            simp [h, h', Sim, Except.map, writestr]
          · have h' : (E.sprintf true w p x).length > 255 := by omega
            simp [h, h', Sim, Except.map, Res.obs]
        | false =>
          simp only [Bool.false_eq_true, if_false]
          unfold buf
          by_cases h : (E.sprintf false w p x).length < 256
          · have h' : ¬ (E.sprintf false w p x).length > 255 := by omega
            have := trimmed_unique (ht (E.sprintf false w p x)) (trim_ok _)
            simp [h, h', Sim, Except.map, writestr, this]
          · have h' : (E.sprintf false w p x).length > 255 := by omega
            simp [h, h', Sim, Except.map, Res.obs]
    cases a with
    | obj o => simp [asFloat, ckfltval, Sim, Res.obs, Except.map, Except.bind]
    | int n => exact key _
    | flt n => exact key _
    | ratio n d => exact key _

theorem sim_direct (E : Env F O) (trim : List Nat → List Nat) (ht : ∀ t, Trimmed t (trim t)) (d : Nat) (w p : Int)
    (s : St F O) : Sim s (meaning E s.slash trim d w p s.args) (direct E d w p s) := by
  unfold meaning
  split
  · simp only [direct, if_true]
    unfold nextfarg take
    cases hs : s.args with
    | nil => simp [Sim, Res.obs]
    | cons a as => exact sim_field E w a s true s.slash as rfl
  · show Sim s _ (nextfarg s fun a s' => field E w a s' s'.slash)
    unfold nextfarg take
    cases hs : s.args with
    | nil => simp [Sim, Res.obs]
    | cons a as => exact sim_field E w a s s.slash s.slash as rfl
  · exact sim_number E 10 w p s
  · exact sim_number E 16 w p s
  · exact sim_number E 8 w p s
  · show Sim s _ (nextfarg s fun a s => match ckintval a with
      | none => .err .noInt s
      | some c => .ok (writestr s [(c % 256).toNat]))
    unfold nextfarg take
    cases hs : s.args with
    | nil => simp [Sim, Res.obs]
    | cons a as =>
      dsimp only
      cases ckintval a <;> simp [Sim, Res.obs, Except.map, writestr]
  · exact sim_float E false w p s
  · exact sim_float E true w p s
  · exact sim_general E trim ht w p s
  · exact ⟨_, rfl, rfl, rfl, rfl⟩
  · exact ⟨_, rfl, rfl, rfl, rfl⟩
  · exact ⟨_, rfl, rfl, rfl, rfl⟩
  · exact ⟨_, rfl, rfl, rfl, rfl⟩
  · rename_i h1 h2 h3 h4 h5 h6 h7 h8 h9 h10 h11 h12 h13
    have : direct E d w p s = .ok s := by
      unfold direct
      rw [if_neg (fun h => h1 h), if_neg (fun h => h2 h), if_neg (fun h => h3 h), if_neg (fun h => h4 h),
        if_neg (fun h => h5 h), if_neg (fun h => h6 h), if_neg (fun h => h7 h), if_neg (fun h => h8 h),
        if_neg (fun h => h9 h), if_neg (fun h => h.elim h10 h11), if_neg (fun h => h12 h),
        if_neg (fun h => h13 h)]
    rw [this]
    exact ⟨_, rfl, by simp, rfl, rfl⟩

end Eus.Fmt
