import Verif.Inf.Vars
import Mathlib.Tactic.Linarith
set_option autoImplicit false
/-
The parser follows the grammar.
-/
namespace Eus.Inf

/-- From some number of steps on, the result. -/
def Ev {α : Type} (f : Nat → α) (a : α) : Prop := ∃ N, ∀ n, N ≤ n → f n = a

theorem Ev.succ {α : Type} {f : Nat → α} {a : α} (h : Ev (fun n => f (n + 1)) a) : Ev f a := by
  obtain ⟨N, h⟩ := h
  refine ⟨N + 1, fun n hn => ?_⟩
  obtain ⟨m, rfl⟩ : ∃ m, n = m + 1 := ⟨n - 1, by omega⟩
  exact h m (by omega)

theorem Ev.congr {α β : Type} {f : Nat → α} {g : Nat → β} {a : α} {b : β} (h : Ev f a) (k : ∀ n, f n = a → g n = b) : Ev g b := by
  obtain ⟨N, h⟩ := h
  exact ⟨N, fun n hn => k n (h n hn)⟩

theorem Ev.congr2 {α β δ : Type} {f : Nat → α} {f' : Nat → δ} {g : Nat → β} {a : α} {c : δ} {b : β} (h : Ev f a) (h' : Ev f' c)
    (k : ∀ n, f n = a → f' n = c → g n = b) : Ev g b := by
  obtain ⟨N, h⟩ := h
  obtain ⟨M, h'⟩ := h'
  exact ⟨max N M, fun n hn => k n (h n (by omega)) (h' n (by omega))⟩

/-- The next token is not a nonempty list. -/
def NoList : List Tok → Prop
  | .lst (_ :: _) :: _ => False
  | _ => True

section
variable {V : Type} [Ring V] (I : Interp V) (ρ : String → V)

def PrimOK (ts : List Tok) (v : V) : Prop :=
  ts ≠ [] ∧ (∀ rest, addOp (ts ++ rest) = none) ∧ (∀ rest, headIs "aref" (ts ++ rest) = false) ∧
  ∀ (lhs : Bool) (st : St), Wf st → ∃ f st', (∀ rest, NoList rest → Ev (fun n => factor1 lhs n (ts ++ rest) st) (.ok (f, rest, st'))) ∧
    Post I ρ st [f] st' ∧ f.eval I ρ (genv I ρ st') = v ∧ (∀ z, f = .atom (.int z) → Lit ts z)

def FacOK (ts : List Tok) (v : V) : Prop :=
  ts ≠ [] ∧ (∀ rest, addOp (ts ++ rest) = none) ∧ (∀ rest, headIs "aref" (ts ++ rest) = false) ∧
  ∀ (lhs : Bool) (st : St), Wf st → ∃ f st', (∀ rest, NoList rest → headIs "**" rest = false →
      Ev (fun n => factor lhs n (ts ++ rest) st) (.ok (f, rest, st'))) ∧
    Post I ρ st [f] st' ∧ f.eval I ρ (genv I ρ st') = v ∧ (∀ z, f = .atom (.int z) → Lit ts z)

/-- What `term` has made so far: nothing but a factor, or a form with an operator that may get more operands. -/
inductive TCfg where
  | plain (f : Form)
  | loop (o : String) (args : List Form)

def TCfg.form : TCfg → Form
  | .plain f => f
  | .loop o args => op o args

def TCfg.cont (lhs : Bool) (n : Nat) (rest : List Tok) (st : St) : TCfg → Res (Form × List Tok × St)
  | .plain f =>
    match mulOp rest with
    | some o => termLoop lhs n o [f] rest st
    | none => .ok (f, rest, st)
  | .loop o args => termLoop lhs n o args rest st

/-- `*`, or `/` with at least two operands. -/
def TCfg.good : TCfg → Prop
  | .plain _ => True
  | .loop o args => o = "*" ∨ (o = "/" ∧ 2 ≤ args.length)

def TermOK (ts : List Tok) (v : V) : Prop :=
  ts ≠ [] ∧ (∀ rest, addOp (ts ++ rest) = none) ∧ (∀ rest, headIs "aref" (ts ++ rest) = false) ∧
  ∀ (lhs : Bool) (st : St), Wf st → ∃ (c : TCfg) (st' : St), (∀ rest R, NoList rest → headIs "**" rest = false →
      Ev (fun n => c.cont lhs n rest st') R → Ev (fun n => term lhs n (ts ++ rest) st) R) ∧
    c.good ∧ Post I ρ st [c.form] st' ∧ c.form.eval I ρ (genv I ρ st') = v ∧ (∀ z, c.form = .atom (.int z) → Lit ts z)

/-- What `expr` has made so far. -/
inductive SCfg where
  | plain (f : Form)
  | loop (args : List Form)

def SCfg.form : SCfg → Form
  | .plain f => f
  | .loop args => op "+" args

def SCfg.cont (lhs : Bool) (n : Nat) (rest : List Tok) (st : St) : SCfg → Res (Form × List Tok × St)
  | .plain f => if (addOp rest).isSome then exprLoop lhs n [f] rest st else .ok (f, rest, st)
  | .loop args => exprLoop lhs n args rest st

def SumOK (ts : List Tok) (v : V) : Prop :=
  ts ≠ [] ∧ (∀ rest, headIs "aref" (ts ++ rest) = false) ∧
  ∀ (lhs : Bool) (st : St), Wf st → ∃ (c : SCfg) (st' : St), (∀ rest R, NoList rest → headIs "**" rest = false → mulOp rest = none →
      Ev (fun n => c.cont lhs n rest st') R → Ev (fun n => expr lhs n (ts ++ rest) st) R) ∧
    Post I ρ st [c.form] st' ∧ c.form.eval I ρ (genv I ρ st') = v ∧ (∀ z, c.form = .atom (.int z) → Lit ts z)

def ArgsOK (ts : List Tok) (vs : List V) : Prop :=
  (vs ≠ [] → ts ≠ [] ∧ ∀ rest, headIs "aref" (ts ++ rest) = false) ∧
  ∀ (lhs : Bool) (st : St), Wf st → ∃ fs st', Ev (fun n => exprList lhs n ts st) (.ok (fs, st')) ∧
    Post I ρ st fs st' ∧ evalList I ρ (genv I ρ st') fs = vs

variable {I ρ}

theorem addOp_sym (s : String) (h : s ∉ reserved) (rest : List Tok) : addOp (.sym s :: rest) = none := by
  have h1 : s ≠ "+" := by rintro rfl; exact h (by simp [reserved])
  have h2 : s ≠ "-" := by rintro rfl; exact h (by simp [reserved])
  simp [addOp, h1, h2]

theorem aref_sym (s : String) (h : s ∉ reserved) (rest : List Tok) : headIs "aref" (.sym s :: rest) = false := by
  have h1 : s ≠ "aref" := by rintro rfl; exact h (by simp [reserved])
  simp [headIs, h1]

theorem sumOK_done {ts : List Tok} {v : V} (h : SumOK I ρ ts v) (lhs : Bool) (st : St) (hw : Wf st) :
    ∃ f st', (∀ rest, NoList rest → headIs "**" rest = false → mulOp rest = none → addOp rest = none →
        Ev (fun n => expr lhs n (ts ++ rest) st) (.ok (f, rest, st'))) ∧
      Post I ρ st [f] st' ∧ f.eval I ρ (genv I ρ st') = v ∧ (∀ z, f = .atom (.int z) → Lit ts z) := by
  obtain ⟨_, _, h⟩ := h
  obtain ⟨c, st', h1, h2, h3, h4⟩ := h lhs st hw
  refine ⟨c.form, st', fun rest r1 r2 r3 r4 => h1 rest _ r1 r2 r3 ?_, h2, h3, h4⟩
  cases c with
  | plain f => exact ⟨0, fun n _ => by simp [SCfg.cont, r4, SCfg.form]⟩
  | loop args =>
    refine Ev.succ ⟨0, fun n _ => ?_⟩
    simp [SCfg.cont, exprLoop, r4, SCfg.form]

theorem termOK_done {ts : List Tok} {v : V} (h : TermOK I ρ ts v) (lhs : Bool) (st : St) (hw : Wf st) :
    ∃ f st', (∀ rest, NoList rest → headIs "**" rest = false → mulOp rest = none →
        Ev (fun n => term lhs n (ts ++ rest) st) (.ok (f, rest, st'))) ∧
      Post I ρ st [f] st' ∧ f.eval I ρ (genv I ρ st') = v ∧ (∀ z, f = .atom (.int z) → Lit ts z) := by
  obtain ⟨_, _, _, h⟩ := h
  obtain ⟨c, st', h1, hg, h2, h3, h4⟩ := h lhs st hw
  refine ⟨c.form, st', fun rest r1 r2 r3 => h1 rest _ r1 r2 ?_, h2, h3, h4⟩
  cases c with
  | plain f => exact ⟨0, fun n _ => by simp [TCfg.cont, r3, TCfg.form]⟩
  | loop o args =>
    refine Ev.succ ⟨0, fun n _ => ?_⟩
    have ho : headIs o rest = false := by
      rcases hg with rfl | ⟨rfl, _⟩ <;>
      · rcases rest with _ | ⟨t, rest⟩
        · rfl
        · cases t with
          | sym s =>
            simp only [mulOp] at r3
            split at r3
            · simp at r3
            · next hs => simp only [not_or] at hs; simp [headIs, hs.1, hs.2]
          | int z => rfl
          | lst l => rfl
    simp [TCfg.cont, termLoop, ho, r3, TCfg.form]

theorem prim_var (s : String) (h : s ∉ reserved) : PrimOK I ρ [.sym s] (ρ s) := by
  refine ⟨by simp, addOp_sym s h, aref_sym s h, fun lhs st hw => ⟨.atom (.sym s), st, fun rest hr => Ev.succ ⟨0, fun n _ => ?_⟩, ?_, ?_, by simp⟩⟩
  · simp only [List.cons_append, List.nil_append, factor1, Tok.atom?]
    rcases rest with _ | ⟨t, rest⟩
    · rfl
    · cases t with
      | sym _ => rfl
      | int _ => rfl
      | lst l =>
        cases l with
        | nil => rfl
        | cons x xs => simp [NoList] at hr
  · exact (Post.refl hw).weaken (by simp [occList, Form.occ])
  · simp [Form.eval]

theorem prim_int (hI : Lawful I) (z : Int) : PrimOK I ρ [.int z] (z : V) := by
  refine ⟨by simp, fun _ => rfl, fun _ => rfl, fun lhs st hw => ⟨.atom (.int z), st, fun rest hr => Ev.succ ⟨0, fun n _ => ?_⟩, ?_, ?_, ?_⟩⟩
  · simp only [List.cons_append, List.nil_append, factor1, Tok.atom?]
    rcases rest with _ | ⟨t, rest⟩
    · rfl
    · cases t with
      | sym _ => rfl
      | int _ => rfl
      | lst l =>
        cases l with
        | nil => rfl
        | cons x xs => simp [NoList] at hr
  · exact (Post.refl hw).weaken (by simp [occList, Form.occ])
  · simp [Form.eval, hI.int]
  · intro z' h; simp only [Form.atom.injEq, Atom.int.injEq] at h; subst h; exact Lit.int _

theorem prim_paren {ts : List Tok} {v : V} (h : SumOK I ρ ts v) : PrimOK I ρ [.lst ts] v := by
  have hne := h.1
  refine ⟨by simp, fun _ => rfl, fun _ => rfl, fun lhs st hw => ?_⟩
  obtain ⟨f, st', h1, h2, h3, h4⟩ := sumOK_done h lhs st hw
  refine ⟨f, st', fun rest hr => Ev.succ ?_, h2, h3, fun z hz => Lit.paren (h4 z hz)⟩
  refine (h1 [] trivial rfl rfl rfl).congr fun n hn => ?_
  simp only [List.append_nil] at hn
  obtain ⟨t, ts, rfl⟩ := List.exists_cons_of_ne_nil hne
  simp only [List.cons_append, List.nil_append, factor1, Tok.atom?, hn]

theorem prim_call (f : String) {ts : List Tok} {vs : List V} (hf : f ∉ reserved) (h : ArgsOK I ρ ts vs) (hv : vs ≠ []) :
    PrimOK I ρ [.sym f, .lst ts] (I.fn f vs) := by
  obtain ⟨hne, har⟩ := h.1 hv
  refine ⟨by simp, addOp_sym f hf, aref_sym f hf, fun lhs st hw => ?_⟩
  obtain ⟨fs, st', h1, h2, h3⟩ := h.2 lhs st hw
  have hl := letvar_spec h2 (.app (.sym f) fs) (by simp [Form.occ])
  refine ⟨(letvar (.app (.sym f) fs) st').1, (letvar (.app (.sym f) fs) st').2, fun rest hr => Ev.succ ?_, hl.1, ?_, ?_⟩
  · refine h1.congr fun n hn => ?_
    obtain ⟨t, ts, rfl⟩ := List.exists_cons_of_ne_nil hne
    have := har []
    simp only [List.append_nil] at this
    simp [factor1, Tok.atom?, hn, this]
  · rw [hl.2]; simp [Form.eval, h3]
  · intro z hz
    unfold letvar at hz
    split at hz <;> simp at hz

theorem prim_aref (s : String) {ts : List Tok} {vs : List V} (hs : s ∉ reserved) (h : ArgsOK I ρ ts vs) :
    PrimOK I ρ [.sym s, .lst (.sym "aref" :: ts)] (I.fn "aref" (ρ s :: vs)) := by
  refine ⟨by simp, addOp_sym s hs, aref_sym s hs, fun lhs st hw => ?_⟩
  obtain ⟨fs, st', h1, h2, h3⟩ := h.2 lhs st hw
  have hocc : ∀ v, (op "aref" (.atom (.sym s) :: fs)).occ v = true → occList v fs = true := by
    simp [Form.occ, op, occList]
  cases lhs with
  | true =>
    refine ⟨op "aref" (.atom (.sym s) :: fs), st', fun rest hr => Ev.succ ?_, ?_, ?_, by simp [op]⟩
    · refine h1.congr fun n hn => ?_
      simp [factor1, Tok.atom?, hn, headIs]
    · exact h2.weaken (by simpa [occList] using hocc)
    · simp [op, Form.eval, evalList, h3]
  | false =>
    have hl := letvar_spec h2 (op "aref" (.atom (.sym s) :: fs)) hocc
    refine ⟨_, _, fun rest hr => Ev.succ ?_, hl.1, ?_, ?_⟩
    · refine h1.congr fun n hn => ?_
      simp [factor1, Tok.atom?, hn, headIs]
    · rw [hl.2]; simp [op, Form.eval, evalList, h3]
    · intro z hz
      unfold letvar at hz
      split at hz <;> simp at hz

theorem fac_prim {ts : List Tok} {v : V} (h : PrimOK I ρ ts v) : FacOK I ρ ts v := by
  obtain ⟨a, b, b', h⟩ := h
  refine ⟨a, b, b', fun lhs st hw => ?_⟩
  obtain ⟨f, st', h1, h2⟩ := h lhs st hw
  refine ⟨f, st', fun rest hr hp => Ev.succ ?_, h2⟩
  refine (h1 rest hr).congr fun n hn => ?_
  simp [factor, hn, hp]

theorem prod_replicate (n : Nat) (x : V) : (List.replicate n x).prod = x ^ n := by simp

theorem fac_pow (hI : Lawful I) {ts us : List Tok} {v w : V} (h : PrimOK I ρ ts v) (h' : PrimOK I ρ us w) (hz : ∀ z, Lit us z → 0 ≤ z) :
    FacOK I ρ (ts ++ .sym "**" :: us) (I.fn "expt" [v, w]) := by
  obtain ⟨a, b, b', h⟩ := h
  obtain ⟨_, _, _, h'⟩ := h'
  refine ⟨by simp, fun rest => by simpa using b (.sym "**" :: us ++ rest), fun rest => by simpa using b' (.sym "**" :: us ++ rest), fun lhs st hw => ?_⟩
  obtain ⟨f, st1, h1, h2, h3, _⟩ := h lhs st hw
  obtain ⟨g, st2, k1, k2, k3, k4⟩ := h' lhs st1 h2.wf
  have hp := h2.trans k2
  have hfe : f.eval I ρ (genv I ρ st2) = v := by rw [h2.eval k2 f (by simp [occList])]; exact h3
  have hgen : Post I ρ st [(power f g st2).1] (power f g st2).2 ∧
      (power f g st2).1.eval I ρ (genv I ρ (power f g st2).2) = I.fn "expt" [v, w] ∧ ∀ z, (power f g st2).1 ≠ .atom (.int z) := by
    have hexpt : Post I ρ st [op "expt" [f, g]] st2 ∧ (op "expt" [f, g]).eval I ρ (genv I ρ st2) = I.fn "expt" [v, w] ∧
        ∀ z, op "expt" [f, g] ≠ .atom (.int z) := by
      refine ⟨hp.weaken (by simp [op, occList, Form.occ]), ?_, by simp [op]⟩
      simp [op, Form.eval, evalList, hfe, k3]
    unfold power
    split
    · next z =>
      have hz0 : 0 ≤ z := hz z (k4 z rfl)
      have hw' : w = ((z.toNat : Nat) : V) := by
        rw [← k3]; simp only [Form.eval, hI.int]
        rw [← Int.cast_natCast, Int.toNat_of_nonneg hz0]
      have hval : I.fn "expt" [v, w] = v ^ z.toNat := by rw [hw', hI.expt]
      split
      · split
        · have hocc : ∀ u, (op "*" (List.replicate z.toNat f)).occ u = true → occList u ([f] ++ [Form.atom (.int z)]) = true := by
            intro u hu
            simp only [op, Form.occ] at hu
            have := occList_replicate u _ _ hu
            simp [occList, this]
          have hl := letvar_spec hp (op "*" (List.replicate z.toNat f)) hocc
          refine ⟨hl.1, ?_, ?_⟩
          · rw [hl.2, hval]
            simp only [op, Form.eval, evalList_replicate, hfe, hI.mul, prod_replicate]
          · intro z' h
            unfold letvar at h
            split at h <;> simp at h
        · refine ⟨hp.weaken (by simp [occList, Form.occ]), ?_, by simp⟩
          simp only [Form.eval, hfe, hI.mul, prod_replicate, hval]
      · exact hexpt
    · exact hexpt
  refine ⟨(power f g st2).1, (power f g st2).2, fun rest hr hpp => Ev.succ ?_, hgen.1, hgen.2.1, fun z hz => absurd hz (hgen.2.2 z)⟩
  refine Ev.congr2 (h1 (.sym "**" :: (us ++ rest)) trivial) (k1 rest hr) fun n hn hk => ?_
  have e1 : ts ++ Tok.sym "**" :: us ++ rest = ts ++ Tok.sym "**" :: (us ++ rest) := by simp
  simp only [factor, e1, hn, List.tail_cons, hk, headIs, beq_self_eq_true, if_true]

theorem term_fac {ts : List Tok} {v : V} (h : FacOK I ρ ts v) : TermOK I ρ ts v := by
  obtain ⟨a, b, b', h⟩ := h
  refine ⟨a, b, b', fun lhs st hw => ?_⟩
  obtain ⟨f, st', h1, h2⟩ := h lhs st hw
  refine ⟨.plain f, st', fun rest R hr hp hc => Ev.succ ?_, trivial, h2⟩
  refine Ev.congr2 (h1 rest hr hp) hc fun n hn hk => ?_
  simp only [TCfg.cont] at hk
  simp only [term, hn]
  exact hk

theorem evalList_length {W : Type} (J : Interp W) (σ : String → W) (γ : Nat → W) (fs : List Form) : (evalList J σ γ fs).length = fs.length := by
  induction fs with
  | nil => rfl
  | cons f fs ih => simp [evalList, ih]

/-- One more factor, after `*` or `/`. -/
theorem term_step (o : String) (ho : o = "*" ∨ o = "/") (op2 : V → V → V)
    (h1 : ∀ x y, I.fn o [x, y] = op2 x y)
    (hmore : ∀ (l : List V) (x y : V), (o = "*" ∨ l ≠ []) → I.fn o (x :: l ++ [y]) = op2 (I.fn o (x :: l)) y)
    (hmul : o = "*" → ∀ y, I.fn o [y] = op2 (I.fn o []) y)
    {ts us : List Tok} {v w : V} (h : TermOK I ρ ts v) (h' : FacOK I ρ us w) :
    TermOK I ρ (ts ++ .sym o :: us) (op2 v w) := by
  obtain ⟨a, b, b', h⟩ := h
  obtain ⟨_, _, _, h'⟩ := h'
  refine ⟨by simp, fun rest => by simpa using b (.sym o :: us ++ rest), fun rest => by simpa using b' (.sym o :: us ++ rest), fun lhs st hw => ?_⟩
  obtain ⟨c, st1, c1, c2, c3, c4, _⟩ := h lhs st hw
  obtain ⟨g, st2, k1, k2, k3, _⟩ := h' lhs st1 c3.wf
  have hp := c3.trans k2
  have hce : c.form.eval I ρ (genv I ρ st2) = v := by rw [c3.eval k2 c.form (by simp [occList])]; exact c4
  have hmo : mulOp (.sym o :: (us : List Tok)) = some o := by simp [mulOp, ho]
  -- in every case the operand is added to a form with the operator in front
  have main : ∀ args : List Form, (∀ rest R, Ev (fun n => termLoop lhs n o args (.sym o :: (us ++ rest)) st1) R →
        Ev (fun n => c.cont lhs n (.sym o :: (us ++ rest)) st1) R) →
      (∀ u, occList u args = true → c.form.occ u = true) →
      (I.fn o (evalList I ρ (genv I ρ st2) (args ++ [g])) = op2 v w) → (o = "/" → 1 ≤ args.length) →
      ∃ (c' : TCfg) (st' : St), (∀ rest R, NoList rest → headIs "**" rest = false →
        Ev (fun n => c'.cont lhs n rest st') R → Ev (fun n => term lhs n (ts ++ .sym o :: us ++ rest) st) R) ∧
      c'.good ∧ Post I ρ st [c'.form] st' ∧ c'.form.eval I ρ (genv I ρ st') = op2 v w ∧
      (∀ z, c'.form = .atom (.int z) → Lit (ts ++ .sym o :: us) z) := by
    intro args hgo hocc hval hlen
    refine ⟨.loop o (args ++ [g]), st2, fun rest R hr hpp hR => ?_, ?_, ?_, ?_, by simp [TCfg.form, op]⟩
    · have e1 : ts ++ Tok.sym o :: us ++ rest = ts ++ Tok.sym o :: (us ++ rest) := by simp
      rw [e1]
      refine c1 _ R trivial (by rcases ho with rfl | rfl <;> simp [headIs]) (hgo rest R (Ev.succ ?_))
      refine Ev.congr2 (k1 rest hr hpp) hR fun n hn hk => ?_
      simp only [termLoop, headIs, beq_self_eq_true, if_true, List.tail_cons, hn]
      exact hk
    · rcases ho with h | h
      · exact Or.inl h
      · have := hlen h; exact Or.inr ⟨h, by simp; omega⟩
    · refine hp.weaken fun u hu => ?_
      simp only [TCfg.form, op, occList, Form.occ, Bool.or_false, occList_append, Bool.or_eq_true] at hu ⊢
      rcases hu with hu | hu
      · exact Or.inl (hocc u hu)
      · exact Or.inr hu
    · simpa [TCfg.form, op, Form.eval] using hval
  cases c with
  | plain f =>
    simp only [TCfg.form] at hce
    refine main [f] (fun rest R hR => ?_) (by simp [occList, TCfg.form]) ?_ (by simp)
    · refine hR.congr fun n hn => ?_
      have : mulOp (.sym o :: (us ++ rest)) = some o := by simp [mulOp, ho]
      simp only [TCfg.cont, this]; exact hn
    · simp [evalList, hce, k3, h1]
  | loop o' args =>
    simp only [TCfg.form, op] at hce
    by_cases hoo : o' = o
    · subst hoo
      refine main args (fun rest R hR => hR) (by simp [TCfg.form, op, Form.occ]) ?_ ?_
      · simp only [Form.eval] at hce
        rw [evalList_append]
        simp only [evalList, k3]
        cases ha : evalList I ρ (genv I ρ st2) args with
        | nil =>
          rw [ha] at hce
          have : o' = "*" := by
            rcases c2 with h | ⟨_, h⟩
            · exact h
            · cases args with
              | nil => simp at h
              | cons x xs => simp [evalList] at ha
          simp only [List.nil_append]
          rw [hmul this, hce]
        | cons x xs =>
          rw [ha] at hce
          have hc2 : o' = "*" ∨ xs ≠ [] := by
            rcases c2 with h | ⟨_, h⟩
            · exact Or.inl h
            · right
              rintro rfl
              have : (evalList I ρ (genv I ρ st2) args).length = args.length := evalList_length _ _ _ args
              rw [ha] at this; simp at this; omega
          rw [hmore xs x w hc2, hce]
      · intro ho'; rcases c2 with h | ⟨_, h⟩
        · rw [h] at ho'; simp at ho'
        · omega
    · refine main [op o' args] (fun rest R hR => Ev.succ ?_) (by simp [TCfg.form, op, Form.occ, occList]) ?_ (by simp)
      · refine hR.congr fun n hn => ?_
        have h1 : headIs o' (.sym o :: (us ++ rest)) = false := by simp [headIs, Ne.symm hoo]
        have h2 : mulOp (.sym o :: (us ++ rest)) = some o := by simp [mulOp, ho]
        simp only [TCfg.cont, termLoop, h1, h2]; exact hn
      · simp only [List.cons_append, List.nil_append, evalList, k3, h1, op]
        rw [hce]

theorem term_mul (hI : Lawful I) {ts us : List Tok} {v w : V} (h : TermOK I ρ ts v) (h' : FacOK I ρ us w) :
    TermOK I ρ (ts ++ .sym "*" :: us) (v * w) := by
  refine term_step "*" (Or.inl rfl) (fun x y => x * y) (fun x y => by simp [hI.mul]) ?_ ?_ h h'
  · intro l x y _; simp [hI.mul, mul_assoc]
  · intro _ y; simp [hI.mul]

theorem term_div (hI : Lawful I) {ts us : List Tok} {v w : V} (h : TermOK I ρ ts v) (h' : FacOK I ρ us w) :
    TermOK I ρ (ts ++ .sym "/" :: us) (I.fn "/" [v, w]) := by
  refine term_step "/" (Or.inr rfl) (fun x y => I.fn "/" [x, y]) (fun x y => rfl) ?_ (by simp) h h'
  intro l x y hl
  rcases hl with hl | hl
  · simp at hl
  · exact hI.div x y l hl

theorem sum_term {ts : List Tok} {v : V} (h : TermOK I ρ ts v) : SumOK I ρ ts v := by
  refine ⟨h.1, h.2.2.1, fun lhs st hw => ?_⟩
  obtain ⟨f, st', h1, h2, h3⟩ := termOK_done h lhs st hw
  refine ⟨.plain f, st', fun rest R r1 r2 r3 hR => Ev.succ ?_, h2, h3⟩
  refine Ev.congr2 (h1 rest r1 r2 r3) hR fun n hn hk => ?_
  simp only [SCfg.cont] at hk
  simp [expr, h.2.1 rest, hn, hk]

theorem sum_pos {ts : List Tok} {v : V} (h : TermOK I ρ ts v) : SumOK I ρ (.sym "+" :: ts) v := by
  refine ⟨by simp, fun _ => rfl, fun lhs st hw => ?_⟩
  obtain ⟨f, st', h1, h2, h3, h4⟩ := termOK_done h lhs st hw
  refine ⟨.plain f, st', fun rest R r1 r2 r3 hR => Ev.succ ?_, h2, h3, fun z hz => Lit.plus (h4 z hz)⟩
  refine Ev.congr2 (h1 rest r1 r2 r3) hR fun n hn hk => ?_
  simp only [SCfg.cont] at hk
  have ha : addOp (Tok.sym "+" :: (ts ++ rest)) = some "+" := by simp [addOp]
  have hb : ¬ (some "+" = some "-") := by simp
  simp only [List.cons_append, expr, ha, Option.isSome_some, if_true, List.tail_cons, hn, hb, if_false]
  exact hk

theorem sum_neg (hI : Lawful I) {ts : List Tok} {v : V} (h : TermOK I ρ ts v) : SumOK I ρ (.sym "-" :: ts) (-v) := by
  refine ⟨by simp, fun _ => rfl, fun lhs st hw => ?_⟩
  obtain ⟨f, st', h1, h2, h3, h4⟩ := termOK_done h lhs st hw
  refine ⟨.plain (op "-" [f]), st', fun rest R r1 r2 r3 hR => Ev.succ ?_, h2.weaken (by simp [SCfg.form, op, Form.occ, occList]), ?_, by simp [SCfg.form, op]⟩
  · refine Ev.congr2 (h1 rest r1 r2 r3) hR fun n hn hk => ?_
    simp only [SCfg.cont] at hk
    have ha : addOp (Tok.sym "-" :: (ts ++ rest)) = some "-" := by simp [addOp]
    simp only [List.cons_append, expr, ha, Option.isSome_some, if_true, List.tail_cons, hn]
    exact hk
  · simp [SCfg.form, op, Form.eval, evalList, h3, hI.neg]

theorem sum_step (hI : Lawful I) (o : String) (ho : o = "+" ∨ o = "-") {ts us : List Tok} {v w : V} (h : SumOK I ρ ts v) (h' : TermOK I ρ us w) :
    SumOK I ρ (ts ++ .sym o :: us) (v + if o = "-" then -w else w) := by
  obtain ⟨a, a', h⟩ := h
  refine ⟨by simp, fun rest => by simpa using a' (.sym o :: us ++ rest), fun lhs st hw => ?_⟩
  obtain ⟨c, st1, c1, c3, c4, _⟩ := h lhs st hw
  obtain ⟨g, st2, k1, k2, k3, _⟩ := termOK_done h' lhs st1 c3.wf
  have hp := c3.trans k2
  have hce : c.form.eval I ρ (genv I ρ st2) = v := by rw [c3.eval k2 c.form (by simp [occList])]; exact c4
  have hao : ∀ rest, addOp (.sym o :: (us ++ rest)) = some o := fun rest => by simp [addOp, ho]
  have hm : ∀ rest, mulOp (.sym o :: (us ++ rest)) = none := fun rest => by
    rcases ho with rfl | rfl <;> simp [mulOp]
  have hpw : ∀ rest, headIs "**" (.sym o :: (us ++ rest)) = false := fun rest => by
    rcases ho with rfl | rfl <;> simp [headIs]
  -- the summand is added to the list
  have main : ∀ args : List Form, (∀ rest R, Ev (fun n => exprLoop lhs n args (.sym o :: (us ++ rest)) st1) R →
        Ev (fun n => c.cont lhs n (.sym o :: (us ++ rest)) st1) R) →
      (∀ u, occList u args = true → c.form.occ u = true) →
      ((evalList I ρ (genv I ρ st2) args).sum = v) →
      ∃ (c' : SCfg) (st' : St), (∀ rest R, NoList rest → headIs "**" rest = false → mulOp rest = none →
        Ev (fun n => c'.cont lhs n rest st') R → Ev (fun n => expr lhs n (ts ++ .sym o :: us ++ rest) st) R) ∧
      Post I ρ st [c'.form] st' ∧ c'.form.eval I ρ (genv I ρ st') = (v + if o = "-" then -w else w) ∧
      (∀ z, c'.form = .atom (.int z) → Lit (ts ++ .sym o :: us) z) := by
    intro args hgo hocc hval
    refine ⟨.loop (args ++ [if o = "-" then op "-" [g] else g]), st2, fun rest R r1 r2 r3 hR => ?_, ?_, ?_, by simp [SCfg.form, op]⟩
    · have e1 : ts ++ Tok.sym o :: us ++ rest = ts ++ Tok.sym o :: (us ++ rest) := by simp
      rw [e1]
      refine c1 _ R trivial (hpw rest) (hm rest) (hgo rest R (Ev.succ ?_))
      refine Ev.congr2 (k1 rest r1 r2 r3) hR fun n hn hk => ?_
      simp only [exprLoop, hao rest, List.tail_cons, hn]
      exact hk
    · refine hp.weaken fun u hu => ?_
      simp only [SCfg.form, op, occList, Form.occ, Bool.or_false, occList_append, Bool.or_eq_true] at hu ⊢
      rcases hu with hu | hu
      · exact Or.inl (hocc u hu)
      · right
        split at hu
        · simpa [Form.occ, occList] using hu
        · exact hu
    · simp only [SCfg.form, op, Form.eval, evalList_append, hI.add, List.sum_append, hval]
      congr 1
      split
      · simp [evalList, Form.eval, k3, hI.neg]
      · simp [evalList, k3]
  cases c with
  | plain f =>
    simp only [SCfg.form] at hce
    refine main [f] (fun rest R hR => ?_) (by simp [occList, SCfg.form]) (by simp [evalList, hce])
    refine hR.congr fun n hn => ?_
    simp only [SCfg.cont, hao rest, Option.isSome_some, if_true]; exact hn
  | loop args =>
    simp only [SCfg.form, op, Form.eval, hI.add] at hce
    exact main args (fun rest R hR => hR) (by simp [SCfg.form, op, Form.occ]) hce

theorem sum_add (hI : Lawful I) {ts us : List Tok} {v w : V} (h : SumOK I ρ ts v) (h' : TermOK I ρ us w) :
    SumOK I ρ (ts ++ .sym "+" :: us) (v + w) := by
  simpa using sum_step hI "+" (Or.inl rfl) h h'

theorem sum_sub (hI : Lawful I) {ts us : List Tok} {v w : V} (h : SumOK I ρ ts v) (h' : TermOK I ρ us w) :
    SumOK I ρ (ts ++ .sym "-" :: us) (v - w) := by
  simpa [sub_eq_add_neg] using sum_step hI "-" (Or.inr rfl) h h'

theorem args_nil : ArgsOK I ρ [] [] := by
  refine ⟨by simp, fun lhs st hw => ⟨[], st, Ev.succ ⟨0, fun n _ => by simp [exprList]⟩, Post.refl hw, rfl⟩⟩

theorem sep_facts (us : List Tok) (h : Sep us) : NoList us ∧ headIs "**" us = false ∧ mulOp us = none ∧ addOp us = none := by
  rcases us with _ | ⟨t, us⟩
  · exact ⟨trivial, rfl, rfl, rfl⟩
  · cases t with
    | sym s =>
      simp only [Sep] at h
      have h1 : s ≠ "**" := by rintro rfl; exact h (by simp [reserved])
      have h2 : s ≠ "*" := by rintro rfl; exact h (by simp [reserved])
      have h3 : s ≠ "/" := by rintro rfl; exact h (by simp [reserved])
      exact ⟨trivial, by simp [headIs, h1], by simp [mulOp, h2, h3], addOp_sym s h us⟩
    | int z => exact ⟨trivial, rfl, rfl, rfl⟩
    | lst l => exact absurd h (by simp [Sep])

theorem args_cons {ts us : List Tok} {v : V} {vs : List V} (h : SumOK I ρ ts v) (h' : ArgsOK I ρ us vs) (hs : Sep us) :
    ArgsOK I ρ (ts ++ us) (v :: vs) := by
  have hne := h.1
  refine ⟨fun _ => ⟨by simp [hne], fun rest => by simpa using h.2.1 (us ++ rest)⟩, fun lhs st hw => ?_⟩
  obtain ⟨f, st1, h1, h2, h3, _⟩ := sumOK_done h lhs st hw
  obtain ⟨fs, st2, k1, k2, k3⟩ := h'.2 lhs st1 h2.wf
  obtain ⟨s1, s2, s3, s4⟩ := sep_facts us hs
  refine ⟨f :: fs, st2, Ev.succ ?_, h2.trans k2, ?_⟩
  · refine Ev.congr2 (h1 us s1 s2 s3 s4) k1 fun n hn hk => ?_
    obtain ⟨t, ts, rfl⟩ := List.exists_cons_of_ne_nil hne
    simp only [List.cons_append] at hn ⊢
    simp only [exprList, hn, hk]
  · simp only [evalList, k3, List.cons.injEq, and_true]
    rw [h2.eval k2 f (by simp [occList])]; exact h3

mutual
theorem Prim.ok (hI : Lawful I) : {ts : List Tok} → {v : V} → Prim I ρ ts v → PrimOK I ρ ts v
  | _, _, .var s h => prim_var s h
  | _, _, .int z => prim_int hI z
  | _, _, .paren h => prim_paren (Sum.ok hI h)
  | _, _, .call f hf h hv => prim_call f hf (Args.ok hI h) hv
  | _, _, .aref s hs h => prim_aref s hs (Args.ok hI h)
theorem Fac.ok (hI : Lawful I) : {ts : List Tok} → {v : V} → Fac I ρ ts v → FacOK I ρ ts v
  | _, _, .prim h => fac_prim (Prim.ok hI h)
  | _, _, .pow h h' hz => fac_pow hI (Prim.ok hI h) (Prim.ok hI h') hz
theorem Term.ok (hI : Lawful I) : {ts : List Tok} → {v : V} → Term I ρ ts v → TermOK I ρ ts v
  | _, _, .fac h => term_fac (Fac.ok hI h)
  | _, _, .mul h h' => term_mul hI (Term.ok hI h) (Fac.ok hI h')
  | _, _, .div h h' => term_div hI (Term.ok hI h) (Fac.ok hI h')
theorem Sum.ok (hI : Lawful I) : {ts : List Tok} → {v : V} → Sum I ρ ts v → SumOK I ρ ts v
  | _, _, .term h => sum_term (Term.ok hI h)
  | _, _, .pos h => sum_pos (Term.ok hI h)
  | _, _, .neg h => sum_neg hI (Term.ok hI h)
  | _, _, .add h h' => sum_add hI (Sum.ok hI h) (Term.ok hI h')
  | _, _, .sub h h' => sum_sub hI (Sum.ok hI h) (Term.ok hI h')
theorem Args.ok (hI : Lawful I) : {ts : List Tok} → {vs : List V} → Args I ρ ts vs → ArgsOK I ρ ts vs
  | _, _, .nil => args_nil
  | _, _, .cons h h' hs => args_cons (Sum.ok hI h) (Args.ok hI h') hs
end

theorem relName_facts {o f : String} (h : RelName o f) (us : List Tok) :
    NoList (.sym o :: us) ∧ headIs "**" (.sym o :: us) = false ∧ mulOp (.sym o :: us) = none ∧ addOp (.sym o :: us) = none ∧
      relOp (.sym o :: us) = some f := by
  cases h <;> simp [NoList, headIs, mulOp, addOp, relOp, relOps, List.lookup]

/-- With enough steps, a relation is read as the grammar says. -/
theorem rel_ok (hI : Lawful I) {ts : List Tok} {v : V} (h : Rel I ρ ts v) (lhs : Bool) :
    ∃ f st, Ev (fun n => relExpr lhs n ts []) (.ok (f, [], st)) ∧ Post I ρ [] [f] st ∧ f.eval I ρ (genv I ρ st) = v := by
  cases h with
  | sum h =>
    obtain ⟨f, st, h1, h2, h3, _⟩ := sumOK_done (h.ok hI) lhs [] trivial
    refine ⟨f, st, ?_, h2, h3⟩
    refine (h1 [] trivial rfl rfl rfl).congr fun n hn => ?_
    simp only [List.append_nil] at hn
    simp [relExpr, hn, relOp]
  | @rel ts us v w o f hr h h' =>
    obtain ⟨a, st1, h1, h2, h3, _⟩ := sumOK_done (h.ok hI) lhs [] trivial
    obtain ⟨b, st2, k1, k2, k3, _⟩ := sumOK_done (h'.ok hI) lhs st1 h2.wf
    obtain ⟨r1, r2, r3, r4, r5⟩ := relName_facts hr us
    refine ⟨op f [a, b], st2, ?_, (h2.trans k2).weaken (by simp [op, Form.occ, occList]), ?_⟩
    · refine Ev.congr2 (h1 _ r1 r2 r3 r4) (k1 [] trivial rfl rfl rfl) fun n hn hk => ?_
      simp only [List.append_nil] at hk
      simp [relExpr, hn, r5, hk]
    · simp only [op, Form.eval, evalList, k3]
      rw [h2.eval k2 a (by simp [occList]), h3]
end

end Eus.Inf
