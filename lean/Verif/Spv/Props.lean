import Verif.Spv.Steps
set_option autoImplicit false
/-
C199: special variables and threads.
-/
namespace Eus.Spv

theorem plain_cell {s : Sys} {a : A} (h : Inv s a) {x : Nat} (hk : a.kind x = .plain) : s.cell x = a.common x := by
  rw [h.cell 0 x (by rw [hk]; simp) (fun u _ => has_plain h hk u), A.value, look_none (has_plain h hk 0)]
  simp [A.base, hk]

theorem not_spec {s : Sys} {a : A} (h : Inv s a) {x : Nat} (hk : a.kind x ≠ .thread) : s.vt x = .var ∨ s.vt x = .glob := by
  rw [h.kind] at hk
  cases e : s.vt x with
  | const => exact absurd e (h.noconst x)
  | var => exact Or.inl rfl
  | glob => exact Or.inr rfl
  | spec i => rw [e] at hk; exact absurd rfl hk

theorem step_eq {s : Sys} {a : A} (h : Inv s a) (t : Nat) (o : Op) (hok : a.Ok t o) :
    (step t o s).1 = (a.step t o).1 ∧ Inv (step t o s).2 (a.step t o).2 := by
  cases o with
  | defvar x v =>
    simp only [step, A.step, defvar]
    by_cases hk : a.kind x = .plain
    · have hv : s.vt x = .var := by
        rcases not_spec h (by rw [hk]; simp : a.kind x ≠ .thread) with e | e
        · exact e
        · rw [h.kind, e] at hk; cases hk
      have hc := plain_cell h hk
      have h1 : (a.assign t x (some v)) = { a with common := upd a.common x (some v) } := by
        simp [A.assign, has_plain h hk t, hk]
      have hf : a.Free t x := fun _ u _ => has_plain h hk u
      rw [if_pos hv, if_pos hk]
      simp only
      rw [hc]
      cases hcc : a.common x with
      | none =>
        have i1 := assign_shared h (some v) (by rw [hk]; simp) hf
        rw [h1] at i1
        have i2 := shared_inv (x := x) i1 (by show a.kind x ≠ _; rw [hk]; simp)
        exact ⟨rfl, i2⟩
      | some w =>
        have i2 := shared_inv (x := x) h (by rw [hk]; simp)
        refine ⟨rfl, ?_⟩
        have : upd a.common x (some w) = a.common := by
          funext y
          by_cases e : y = x
          · subst e; rw [upd_self, hcc]
          · rw [upd_ne _ _ e]
        simp only [reduceCtorEq, if_false]
        rw [this]
        exact i2
    · have hv : s.vt x ≠ .var := by
        intro e
        rw [h.kind, e] at hk
        exact hk rfl
      rw [if_neg hv, if_neg hk]
      exact ⟨rfl, h⟩
  | defparameter x v =>
    obtain ⟨hk, hf⟩ := hok
    refine ⟨rfl, ?_⟩
    have i1 := assign_shared h (some v) hk hf
    have i2 := shared_inv (x := x) i1 (by rw [(assign_kind a t x (some v)).1]; exact hk)
    rw [(assign_kind a t x (some v)).1] at i2
    exact i2
  | deflocal x v =>
    obtain ⟨hk, hc⟩ := hok
    have hv : s.vt x ≠ .const := h.noconst x
    have hn := h.next
    have hlt : s.next < maxSpecials := by unfold maxSpecials; omega
    simp only [step, deflocal, specialIndex, if_neg hv, if_pos hlt]
    exact ⟨rfl, local_inv h hk hc (by simp)⟩
  | proclaim x =>
    obtain ⟨hk, hc⟩ := hok
    have hn := h.next
    have hlt : s.next < maxSpecials := by unfold maxSpecials; omega
    simp only [step, A.step, proclaim]
    cases hkk : a.kind x with
    | plain =>
      have hv : s.vt x = .var := by
        rcases not_spec h (by rw [hkk]; simp : a.kind x ≠ .thread) with e | e
        · exact e
        · rw [h.kind, e] at hkk; cases hkk
      simp only [hv, specialIndex, if_pos hlt]
      have i := local_inv (t := t) (v := s.cell x) h hkk hc (fun e => e)
      refine ⟨by simp, ?_⟩
      rw [plain_cell h hkk] at i
      simp only [reduceCtorEq, if_false]
      rw [plain_cell h hkk]
      exact i
    | shared => exact absurd hkk hk
    | thread =>
      obtain ⟨i, hi⟩ := kind_thread h hkk
      simp only [hi]
      exact ⟨rfl, h⟩
  | get x =>
    refine ⟨?_, h⟩
    simp only [step, A.step, getval]
    cases hkk : a.kind x with
    | thread =>
      obtain ⟨i, hi⟩ := kind_thread h hkk
      simp only [hi]
      rw [h.tab t x i hi]
      cases hv : a.value t x with
      | some v => rfl
      | none => simp only; rw [h.unb t x hkk hv]
    | _ =>
      have hk : a.kind x ≠ .thread := by rw [hkk]; simp
      have hc := h.cell t x hk (hok hk)
      rcases not_spec h hk with e | e <;> simp only [e, h.lex t, lexGet, hc]
  | set x v =>
    simp only [step, A.step, setval]
    cases hkk : a.kind x with
    | thread =>
      obtain ⟨i, hi⟩ := kind_thread h hkk
      simp only [hi]
      exact ⟨trivial, assign_local h hi (by simp)⟩
    | _ =>
      have hk : a.kind x ≠ .thread := by rw [hkk]; simp
      rcases not_spec h hk with e | e <;> simp only [e, h.lex t, lexGet, reduceCtorEq, if_false] <;>
        exact ⟨trivial, assign_shared h (some v) hk hok⟩
  | symbolValue x =>
    refine ⟨?_, h⟩
    simp only [step, A.step]
    rw [h.cell t x hok.1 (hok.2 hok.1)]
  | makunbound x => exact ⟨rfl, assign_shared h none hok.1 hok.2⟩
  | boundp x =>
    refine ⟨?_, h⟩
    simp only [step, A.step, boundp]
    cases hkk : a.kind x with
    | thread =>
      obtain ⟨i, hi⟩ := kind_thread h hkk
      simp only [hi]
      rw [h.tab t x i hi]
    | _ =>
      have hk : a.kind x ≠ .thread := by rw [hkk]; simp
      have hc := h.cell t x hk (hok hk)
      rcases not_spec h hk with e | e <;> simp only [e, hc]
  | declare x => exact absurd hok id
  | bind x v =>
    obtain ⟨hk, hf⟩ := hok
    simp only [step, A.step, vbind, if_neg (h.noconst x)]
    have hb := bind_inv (v := v) h hk hf
    cases e : s.vt x with
    | const => exact absurd e (h.noconst x)
    | var => rw [h.kind, e] at hk; exact absurd rfl hk
    | glob => exact ⟨rfl, hb⟩
    | spec i => exact ⟨rfl, hb⟩
  | unwind n =>
    refine ⟨rfl, ?_⟩
    simp only [step, A.step]
    rw [sav_length (h.sav t)]
    exact unwind_inv t _ h
  | newThread =>
    refine ⟨rfl, ?_⟩
    simp only [step, A.step]
    exact table_inv (r := 0) h hok.2 (fun _ _ => rfl) (fun i hi => h.fresh 0 i hi)
  | dispatch r =>
    have hn := h.next
    have hcnt := h.count
    have hle : s.next ≤ maxSpecials := by unfold maxSpecials; omega
    simp only [step, A.step, if_pos hle]
    refine ⟨trivial, ?_⟩
    have hok' : a.stack t = [] := hok
    have hfr : (s.thr t).frames = [] := by
      have := sav_length (h.sav t)
      rw [hok'] at this
      exact List.eq_nil_of_length_eq_zero this
    rw [hfr, h.lex t]
    refine table_inv (r := r) h hok' (fun i hi => by simp [hi]) (fun i hi => ?_)
    rw [if_neg (by omega)]
    exact h.fresh t i hi

theorem run_eq : ∀ (es : List (Nat × Op)) {s : Sys} {a : A}, Inv s a → A.OkAll es a → (run es s).1 = (A.run es a).1
  | [], _, _, _, _ => rfl
  | (t, o) :: es, s, a, h, hok => by
    obtain ⟨h1, h2⟩ := step_eq h t o hok.1
    simp only [run, A.run]
    rw [h1, run_eq es h2 hok.2]

/-- In every history of threads that declare, read, assign, bind and leave special variables, keeping to `Ok`, all results are those of dynamic
binding with a stack of bindings for every thread. -/
theorem C199_dynamic_partial (es : List (Nat × Op)) (hok : A.OkAll es A.init) : (run es init).1 = (A.run es A.init).1 :=
  run_eq es init_inv hok

/-- A history of two threads; 1 is a common variable, 2 one of the threads. -/
def sample : List (Nat × Op) :=
  [(0, .defvar 1 10), (0, .deflocal 2 20), (0, .bind 1 11), (0, .bind 2 21), (1, .dispatch 0), (1, .get 2), (1, .bind 2 30), (1, .set 2 31), (0, .get 2),
   (0, .set 1 12), (0, .unwind 0), (1, .get 2), (1, .unwind 0), (1, .get 2), (0, .get 2), (1, .bind 1 50), (1, .get 1), (1, .unwind 0), (0, .get 1)]

/-- `Ok` computed, for histories of the threads `us`. -/
def okB (us : List Nat) (t : Nat) (o : Op) (a : A) : Bool :=
  let free (x : Nat) : Bool := a.kind x == .thread || us.all fun u => u == t || !has x (a.stack u)
  us.contains t && match o with
  | .defvar _ _ => true
  | .defparameter x _ => a.kind x != .thread && free x
  | .deflocal x _ => a.kind x == .plain && a.count < 509
  | .proclaim x => a.kind x != .shared && a.count < 509
  | .get x => free x
  | .set x _ => free x
  | .boundp x => free x
  | .symbolValue x => a.kind x != .thread && free x
  | .makunbound x => a.kind x != .thread && free x
  | .declare _ => false
  | .bind x _ => a.kind x != .plain && free x
  | .unwind _ => true
  | .newThread => t != 0 && a.stack t == []
  | .dispatch _ => a.stack t == []

def okAllB (us : List Nat) : List (Nat × Op) → A → Bool
  | [], _ => true
  | (t, o) :: es, a => okB us t o a && okAllB us es (a.step t o).2

theorem okB_ok {us : List Nat} {t : Nat} {o : Op} {a : A} (hu : ∀ u, u ∉ us → a.stack u = []) (h : okB us t o a = true) : t ∈ us ∧ a.Ok t o := by
  simp only [okB, Bool.and_eq_true, List.contains_iff_mem] at h
  refine ⟨h.1, ?_⟩
  have hfree : ∀ x, (a.kind x == .thread || us.all fun u => u == t || !has x (a.stack u)) = true → a.Free t x := by
    intro x hx hk u hut
    by_cases hm : u ∈ us
    · simp only [Bool.or_eq_true, beq_iff_eq, List.all_eq_true, Bool.not_eq_true'] at hx
      rcases hx with hx | hx
      · exact absurd hx hk
      · rcases hx u hm with h | h
        · exact absurd h hut
        · exact h
    · rw [hu u hm]; rfl
  have h2 := h.2
  cases o <;> simp only [A.Ok] <;> simp only [Bool.and_eq_true, bne_iff_ne, beq_iff_eq, decide_eq_true_eq] at h2
  · exact ⟨h2.1, hfree _ h2.2⟩
  · exact h2
  · exact h2
  · exact hfree _ h2
  · exact hfree _ h2
  · exact ⟨h2.1, hfree _ h2.2⟩
  · exact ⟨h2.1, hfree _ h2.2⟩
  · exact hfree _ h2
  · cases h2
  · exact ⟨h2.1, hfree _ h2.2⟩
  · exact h2
  · exact h2

theorem stack_step {t : Nat} {o : Op} {a : A} {u : Nat} (hu : u ≠ t) : ((a.step t o).2).stack u = a.stack u := by
  have ha : ∀ x v, (a.assign t x v).stack u = a.stack u := by
    intro x v
    unfold A.assign
    split
    · simp only [upd_ne _ _ hu]
    · split <;> rfl
  cases o <;> simp only [A.step]
  case defvar => split <;> rfl
  case defparameter => exact ha _ _
  case proclaim => split <;> rfl
  case set => exact ha _ _
  case makunbound => exact ha _ _
  case bind => simp only [upd_ne _ _ hu]
  case unwind => simp only [upd_ne _ _ hu]

theorem okAllB_ok (us : List Nat) : ∀ (es : List (Nat × Op)) (a : A), (∀ u, u ∉ us → a.stack u = []) → okAllB us es a = true → A.OkAll es a
  | [], _, _, _ => trivial
  | (t, o) :: es, a, hu, h => by
    simp only [okAllB, Bool.and_eq_true] at h
    obtain ⟨h1, h2⟩ := okB_ok hu h.1
    refine ⟨h2, okAllB_ok us es _ (fun u hm => ?_) h.2⟩
    rw [stack_step (t := t) (o := o) (u := u) (by rintro rfl; exact hm h1)]
    exact hu u hm

example : A.OkAll sample A.init
    ∧ (A.run sample A.init).1 = [.done, .val 20, .done, .done, .done, .val 21, .done, .val 31, .val 21, .val 12, .done, .val 31, .done, .val 21, .val 20,
      .done, .val 50, .done, .val 10] := by
  constructor
  · exact okAllB_ok [0, 1] sample A.init (fun _ _ => rfl) (by decide)
  · decide

theorem value_step (t u : Nat) (o : Op) (a : A) (x : Nat) (hk : a.kind x = .thread) (hu : u ≠ t) (hok : a.Ok t o) :
    ((a.step t o).2).value u x = a.value u x := by
  have ha : ∀ y v, (a.assign t y v).value u x = a.value u x := by
    intro y v
    by_cases e : x = y
    · subst e; exact assign_value_thread a t x v u hk hu
    · exact assign_value_ne a t y v u x e
  cases o <;> simp only [A.step]
  case defvar y v =>
    split
    · rename_i hp
      have hxy : x ≠ y := by rintro rfl; rw [hk] at hp; cases hp
      refine look_congr fun _ => ?_
      simp only [A.base, upd_ne _ _ hxy]
    · rfl
  case defparameter y v =>
    have hxy : x ≠ y := by rintro rfl; exact hok.1 hk
    rw [← ha y (some v)]
    refine look_congr fun _ => ?_
    simp only [A.base, upd_ne _ _ hxy, (assign_kind a t y (some v)).1]
  case deflocal y v =>
    have hxy : x ≠ y := by rintro rfl; have := hok.1; rw [hk] at this; cases this
    refine look_congr fun _ => ?_
    simp only [A.base, upd_ne _ _ hxy]
  case proclaim y =>
    split
    · rfl
    · rename_i hp
      have hxy : x ≠ y := by rintro rfl; exact hp hk
      refine look_congr fun _ => ?_
      simp only [A.base, upd_ne _ _ hxy]
  case set => exact ha _ _
  case makunbound => exact ha _ _
  case bind => simp only [A.value, upd_ne _ _ hu]; rfl
  case unwind => simp only [A.value, upd_ne _ _ hu]; rfl
  case newThread =>
    refine look_congr fun _ => ?_
    simp only [A.base, upd_ne _ _ hu]
  case dispatch =>
    refine look_congr fun _ => ?_
    simp only [A.base, upd_ne _ _ hu]

theorem run_inv : ∀ (es : List (Nat × Op)) {s : Sys} {a : A}, Inv s a → A.OkAll es a → Inv (run es s).2 (A.run es a).2
  | [], _, _, h, _ => h
  | (t, o) :: es, s, a, h, hok => run_inv es (step_eq h t o hok.1).2 hok.2

theorem get_value {s : Sys} {a : A} (h : Inv s a) (u x : Nat) (hk : a.kind x = .thread) : getval u x s = R.of (a.value u x) :=
  (step_eq h u (.get x) (fun h => absurd hk h)).1

theorem kind_step {t : Nat} {o : Op} {a : A} {x : Nat} (hk : a.kind x = .thread) (hok : a.Ok t o) : ((a.step t o).2).kind x = .thread := by
  have ha : ∀ y v, (a.assign t y v).kind x = .thread := fun y v => by rw [(assign_kind a t y v).1]; exact hk
  have hx : ∀ y (k : Kind), k = .thread ∨ a.kind y ≠ .thread → upd a.kind y k x = .thread := by
    intro y k h
    by_cases e : x = y
    · subst e
      rw [upd_self]
      rcases h with h | h
      · exact h
      · exact absurd hk h
    · rw [upd_ne _ _ e]; exact hk
  cases o <;> simp only [A.step]
  case defvar y v =>
    split
    · rename_i hp; exact hx y _ (Or.inr (by rw [hp]; simp))
    · exact hk
  case defparameter y v => exact hx y _ (Or.inr hok.1)
  case deflocal y v => exact hx y _ (Or.inl rfl)
  case proclaim y =>
    split
    · exact hk
    · exact hx y _ (Or.inl rfl)
  case set => exact ha _ _
  case makunbound => exact ha _ _
  all_goals exact hk

/-- A thread's own special variable: nothing another thread does after any such history is seen. -/
theorem C199_isolated (es : List (Nat × Op)) (t u : Nat) (o : Op) (x i : Nat) (hok : A.OkAll es A.init) (ho : ((A.run es A.init).2).Ok t o)
    (hx : ((run es init).2).vt x = .spec i) (hu : u ≠ t) : getval u x (step t o (run es init).2).2 = getval u x (run es init).2 := by
  have h := run_inv es init_inv hok
  have hk := spec_kind h hx
  rw [get_value h u x hk, get_value (step_eq h t o ho).2 u x (kind_step hk ho), value_step t u o _ x hk hu ho]

example : ((run (sample.take 6) init).2).vt 2 = .spec 3 ∧ okB [0, 1] 1 (.bind 2 30) (A.run (sample.take 6) A.init).2 = true := by decide

/-! ### What the conditions are for -/

/-- Two threads bind a `defvar` variable at the same time and leave: the variable keeps a value of one of the bindings for ever. -/
theorem C199_threads_wrong :
    (run [(0, .defvar 1 10), (1, .bind 1 11), (2, .bind 1 12), (1, .unwind 0), (2, .get 1), (2, .unwind 0), (0, .get 1)] init).1
      = [.done, .done, .done, .done, .val 10, .done, .val 11] := by decide

/-- `symbol-value` of a `deflocal` variable is not its value. -/
theorem C199_symbol_value_wrong :
    (run [(0, .set 1 5), (0, .deflocal 1 10), (0, .get 1), (0, .symbolValue 1)] init).1 = [.val 5, .val 10, .val 10, .val 5]
    ∧ (run [(0, .deflocal 1 10), (0, .symbolValue 1)] init).1 = [.val 10, .unbound] := by decide

/-- `makunbound` does nothing to it. -/
theorem C199_makunbound_wrong : (run [(0, .deflocal 1 10), (0, .makunbound 1), (0, .boundp 1), (0, .get 1)] init).1 = [.val 10, .yes, .yes, .val 10] := by
  decide

/-- `(let ((x 5)) (declare (special x)) x)` is an error: the value is put where nothing looks for it. -/
theorem C199_declare_wrong : (run [(0, .declare 1), (0, .bind 1 5), (0, .get 1)] init).1 = [.done, .done, .unbound] := by decide

/-- Indices are given out from 3 on. -/
def From3 (s : Sys) : Prop := 3 ≤ s.next ∧ ∀ y i, s.vt y = .spec i → 3 ≤ i

theorem From3.upd {s : Sys} (h : From3 s) (x : Nat) (k : VT) (hk : ∀ i, k = .spec i → 3 ≤ i) : ∀ y i, upd s.vt x k y = .spec i → 3 ≤ i := by
  intro y i e
  by_cases hy : y = x
  · subst hy; rw [upd_self] at e; exact hk i e
  · rw [upd_ne _ _ hy] at e; exact h.2 y i e

theorem from3_bindspecial {s : Sys} (h : From3 s) (t x : Nat) (v : Option Nat) : From3 (bindspecial t x v s) := by
  unfold bindspecial; split <;> exact h

theorem from3_vbind {s : Sys} (h : From3 s) (t x : Nat) (v : Option Nat) : From3 (vbind t x v s).2 := by
  unfold vbind
  split
  · exact h
  · split
    · exact from3_bindspecial h t x v
    · exact h
    · exact from3_bindspecial h t x v

theorem from3_unbind (t : Nat) : ∀ (n : Nat) {s : Sys}, From3 s → From3 (unbind t n s)
  | 0, _, h => h
  | n + 1, s, h => by
    refine from3_unbind t n ?_
    unfold unbind1
    split
    · exact h
    · split <;> exact h

theorem from3_step {s : Sys} (h : From3 s) (t : Nat) (o : Op) : From3 (step t o s).2 := by
  cases o with
  | defvar x v =>
    simp only [step, defvar]
    split
    · split <;> exact ⟨h.1, h.upd x .glob (by simp)⟩
    · exact h
  | defparameter x v => exact ⟨h.1, h.upd x .glob (by simp)⟩
  | deflocal x v =>
    simp only [step, deflocal, specialIndex]
    have h1 := h.1
    split
    · exact h
    · by_cases hl : s.next < maxSpecials
      · simp only [if_pos hl]
        exact ⟨by show 3 ≤ s.next + 1; omega, h.upd x (.spec s.next) (by intro i e; cases e; exact h1)⟩
      · simp only [if_neg hl]
        exact ⟨by show 3 ≤ s.next + 1; omega, h.2⟩
  | proclaim x =>
    simp only [step, proclaim, specialIndex]
    have h1 := h.1
    split
    · exact h
    · exact h
    · by_cases hl : s.next < maxSpecials
      · simp only [if_pos hl]
        exact ⟨by show 3 ≤ s.next + 1; omega, h.upd x (.spec s.next) (by intro i e; cases e; exact h1)⟩
      · simp only [if_neg hl]
        exact ⟨by show 3 ≤ s.next + 1; omega, h.2⟩
  | get x => exact h
  | set x v =>
    simp only [step, setval]
    split
    · exact h
    · split
      · exact h
      · split <;> exact h
  | symbolValue x => exact h
  | makunbound x => exact h
  | boundp x => exact h
  | declare x =>
    simp only [step, declare]
    split
    · exact h
    · exact from3_vbind h t x none
  | bind x v => exact from3_vbind h t x (some v)
  | unwind n => exact from3_unbind t _ h
  | newThread => exact h
  | dispatch r => simp only [step]; split <;> exact h

theorem from3_run : ∀ (es : List (Nat × Op)) {s : Sys}, From3 s → From3 (run es s).2
  | [], _, h => h
  | (t, o) :: es, _, h => from3_run es (from3_step h t o)

/-- Even so, after any history whatever, binding a variable that was never declared special otherwise leaves the values of the thread's special variables as
they are, in every thread. -/
theorem C199_declare_others (es : List (Nat × Op)) (t x v u y : Nat) (hx : ((run es init).2).vt x = .var) (i : Nat)
    (hy : ((run es init).2).vt y = .spec i) :
    (step u (.get y) (step t (.bind x v) (run es init).2).2).1 = (step u (.get y) (run es init).2).1 := by
  have h3 := (from3_run es (s := init) ⟨by decide, by intro y i e; cases e⟩).2 y i hy
  generalize (run es init).2 = s at *
  have hc : s.vt x ≠ .const := by rw [hx]; simp
  have key : ∀ s' : Sys, s'.vt = s.vt → s'.cell = s.cell → (s'.thr u).tab i = (s.thr u).tab i → getval u y s' = getval u y s := by
    intro s' e1 e2 e3
    simp only [getval, e1, hy, e2, e3]
  have cases' : (vbind t x (some v) s).2 = bindspecial t x (some v) s ∨
      (vbind t x (some v) s).2 = { s with thr := upd s.thr t { s.thr t with lex := (x, some v) :: (s.thr t).lex } } := by
    simp only [vbind, if_neg hc, hx]
    cases e : lexGet x (s.thr t).lex with
    | none => exact Or.inr rfl
    | some w =>
      cases w with
      | none => exact Or.inl rfl
      | some w => exact Or.inr rfl
  simp only [step]
  rcases cases' with e | e <;> rw [e]
  · refine key _ ?_ ?_ ?_ <;> simp only [bindspecial, hx, reduceCtorEq, if_false]
    · rfl
    · rfl
    · by_cases hu : u = t
      · subst hu
        rw [upd_self]
        simp only [setTab_self, VT.index]
        exact upd_ne _ _ (by omega)
      · rw [upd_ne _ _ hu, setTab_ne _ _ _ _ hu]
  · refine key _ rfl rfl ?_
    by_cases hu : u = t
    · subst hu; simp only [upd_self]
    · simp only [upd_ne _ _ hu]

/-- The case: variable 2 is a `deflocal` variable with the value 20, variable 1 is declared and bound. -/
example : ((run [(0, .deflocal 2 20), (0, .declare 1)] init).2).vt 1 = .var ∧ ((run [(0, .deflocal 2 20), (0, .declare 1)] init).2).vt 2 = .spec 3 ∧
    (step 0 (.get 2) (run [(0, .deflocal 2 20), (0, .declare 1)] init).2).1 = .val 20 := by decide

/-- So is `(let ((*x* (f *x*))) (declare (special *x*)) …)` for a variable made by `defvar`: the declaration makes it unbound. -/
theorem C199_declare_global_wrong : (run [(0, .defvar 1 10), (0, .get 1), (0, .declare 1), (0, .get 1)] init).1 = [.done, .val 10, .done, .unbound] := by
  decide

/-- Declared again while it is bound, a variable does not get its old value back: it is stored where the new value was. -/
theorem C199_redeclare_wrong :
    (run [(0, .defvar 1 10), (0, .bind 1 11), (0, .deflocal 1 12), (0, .unwind 0), (0, .get 1), (0, .symbolValue 1)] init).1
      = [.done, .done, .val 12, .done, .val 10, .val 11] := by decide

/-- A thread that exists already has NIL in a new `deflocal` variable, whatever its value and whatever the symbol had. -/
theorem C199_initial_wrong : (run [(0, .set 1 10), (1, .get 1), (0, .deflocal 1 10), (1, .get 1), (0, .get 1)] init).1
    = [.val 10, .val 10, .val 10, .val 0, .val 10] := by decide

/-- Declaring the same variable again and again. -/
def again (n : Nat) : List (Nat × Op) := List.replicate n (0, .deflocal 1 7)

theorem again_next : ∀ (n : Nat) (s : Sys), s.vt 1 ≠ .const → ((run (again n) s).2).next = s.next + n ∧ ((run (again n) s).2).vt 1 ≠ .const
  | 0, s, h => ⟨rfl, h⟩
  | n + 1, s, h => by
    have key : ((step 0 (.deflocal 1 7) s).2).next = s.next + 1 ∧ ((step 0 (.deflocal 1 7) s).2).vt 1 ≠ .const := by
      simp only [step, deflocal, if_neg h, specialIndex]
      by_cases hl : s.next < maxSpecials
      · simp [if_pos hl, Sys.setTab, upd]
      · simp [if_neg hl, h]
    have := again_next n _ key.2
    rw [key.1] at this
    simp only [again, List.replicate_succ, run] at this ⊢
    exact ⟨by rw [this.1]; omega, this.2⟩

/-- Every evaluation of a `deflocal`, also of the same variable (as when a file is loaded again), uses up a place of the table.  The first one that is
too many is an error; from then on every function given to another thread copies values from and to outside the tables. -/
theorem C199_limit_wrong (n : Nat) (hn : 510 ≤ n) (t r : Nat) :
    let s := (run (again n) init).2
    (step 0 (.deflocal 1 7) s).1 = .limit ∧ (step t (.dispatch r) s).1 = .wild := by
  obtain ⟨h1, h2⟩ := again_next n init (by decide)
  have h3 : (init).next = 3 := rfl
  intro s
  have hs : s.next = 3 + n := by rw [← h3]; exact h1
  refine ⟨?_, ?_⟩
  · have hl : ¬ s.next < maxSpecials := by unfold maxSpecials; omega
    simp only [step, deflocal, specialIndex]
    rw [if_neg h2]
    simp only [if_neg hl]
  · have hl : ¬ s.next ≤ maxSpecials := by unfold maxSpecials; omega
    simp only [step, if_neg hl]

end Eus.Spv
