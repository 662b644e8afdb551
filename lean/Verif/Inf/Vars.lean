import Verif.Inf.Spec
import Mathlib.Tactic.Ring
set_option autoImplicit false
/-
The table of forms with their symbols: what it says about values, and how often a symbol is used.
-/
namespace Eus.Inf

mutual
def Form.occ (v : Nat) : Form → Bool
  | .atom _ => false
  | .gen m => m == v
  | .app _ args => occList v args
  | .letTemp e _ => Form.occ v e
def occList (v : Nat) : List Form → Bool
  | [] => false
  | f :: fs => Form.occ v f || occList v fs
end

theorem occList_append (v : Nat) (as bs : List Form) : occList v (as ++ bs) = (occList v as || occList v bs) := by
  induction as with
  | nil => simp [occList]
  | cons a as ih => simp [occList, ih, Bool.or_assoc]

theorem occList_replicate (v n : Nat) (f : Form) (h : occList v (List.replicate n f) = true) : f.occ v = true := by
  induction n with
  | zero => simp [occList] at h
  | succ n ih =>
    simp only [List.replicate, occList, Bool.or_eq_true] at h
    rcases h with h | h
    · exact h
    · exact ih h

section
variable {V : Type} (I : Interp V) (ρ : String → V)

mutual
theorem eval_congr (γ δ : Nat → V) : (f : Form) → (∀ v, f.occ v = true → γ v = δ v) → f.eval I ρ γ = f.eval I ρ δ
  | .atom (.sym _), _ => by simp [Form.eval]
  | .atom (.int _), _ => by simp [Form.eval]
  | .atom .nil, _ => by simp [Form.eval]
  | .gen n, h => by simpa [Form.eval] using h n (by simp [Form.occ])
  | .app (.sym f) args, h => by
    simp only [Form.eval]; rw [evalList_congr γ δ args (fun v hv => h v (by simpa [Form.occ] using hv))]
  | .app (.int _) _, _ => by simp [Form.eval]
  | .app .nil _, _ => by simp [Form.eval]
  | .letTemp e n, h => by
    simp only [Form.eval]; rw [eval_congr γ δ e (fun v hv => h v (by simpa [Form.occ] using hv))]
theorem evalList_congr (γ δ : Nat → V) : (fs : List Form) → (∀ v, occList v fs = true → γ v = δ v) → evalList I ρ γ fs = evalList I ρ δ fs
  | [], _ => rfl
  | f :: fs, h => by
    simp only [evalList]
    rw [eval_congr γ δ f (fun v hv => h v (by simp [occList, hv])), evalList_congr γ δ fs (fun v hv => h v (by simp [occList, hv]))]
end

theorem evalList_append (γ : Nat → V) (as bs : List Form) : evalList I ρ γ (as ++ bs) = evalList I ρ γ as ++ evalList I ρ γ bs := by
  induction as with
  | nil => simp [evalList]
  | cons a as ih => simp [evalList, ih]

theorem evalList_replicate (γ : Nat → V) (n : Nat) (f : Form) : evalList I ρ γ (List.replicate n f) = List.replicate n (f.eval I ρ γ) := by
  induction n with
  | zero => simp [evalList]
  | succ n ih => simp [evalList, List.replicate, ih]

/-- The values of the symbols in the table. -/
def genv : St → Nat → V
  | [] => fun _ => I.nil
  | e :: st => fun m => if m = e.var then e.form.eval I ρ (genv st) else genv st m

mutual
theorem eval_subst (γ : Nat → V) (v : Nat) (g : Form) (h : γ v = g.eval I ρ γ) : (f : Form) → (Form.subst v g f).eval I ρ γ = f.eval I ρ γ
  | .atom (.sym _) => by simp [Form.subst]
  | .atom (.int _) => by simp [Form.subst]
  | .atom .nil => by simp [Form.subst]
  | .gen m => by
    by_cases hm : m = v
    · subst hm; simp [Form.subst, Form.eval, h]
    · simp [Form.subst, hm]
  | .app (.sym f) args => by simp only [Form.subst, Form.eval]; rw [evalList_subst γ v g h args]
  | .app (.int _) _ => by simp [Form.subst, Form.eval]
  | .app .nil _ => by simp [Form.subst, Form.eval]
  | .letTemp e n => by simp only [Form.subst, Form.eval]; rw [eval_subst γ v g h e]
theorem evalList_subst (γ : Nat → V) (v : Nat) (g : Form) (h : γ v = g.eval I ρ γ) : (fs : List Form) → evalList I ρ γ (substList v g fs) = evalList I ρ γ fs
  | [] => by simp [substList]
  | f :: fs => by simp only [substList, evalList]; rw [eval_subst γ v g h f, evalList_subst γ v g h fs]
end
end

mutual
theorem occ_subst (u v : Nat) (g : Form) : (f : Form) → (Form.subst v g f).occ u = true → (u ≠ v ∧ f.occ u = true) ∨ g.occ u = true
  | .atom _, h => by simp [Form.subst, Form.occ] at h
  | .gen m, h => by
    by_cases hm : m = v
    · simp [Form.subst, hm] at h; exact Or.inr h
    · simp [Form.subst, hm, Form.occ] at h; subst h; exact Or.inl ⟨hm, by simp [Form.occ]⟩
  | .app _ args, h => by
    simp only [Form.subst, Form.occ] at h ⊢; exact occList_subst u v g args h
  | .letTemp e _, h => by
    simp only [Form.subst, Form.occ] at h ⊢; exact occ_subst u v g e h
theorem occList_subst (u v : Nat) (g : Form) : (fs : List Form) → occList u (substList v g fs) = true → (u ≠ v ∧ occList u fs = true) ∨ g.occ u = true
  | [], h => by simp [substList, occList] at h
  | f :: fs, h => by
    simp only [substList, occList, Bool.or_eq_true] at h ⊢
    rcases h with h | h
    · rcases occ_subst u v g f h with h | h
      · exact Or.inl ⟨h.1, Or.inl h.2⟩
      · exact Or.inr h
    · rcases occList_subst u v g fs h with h | h
      · exact Or.inl ⟨h.1, Or.inr h.2⟩
      · exact Or.inr h
end

/-- Every entry's symbol is its number, counted from the first, and its form mentions only symbols made before. -/
def Wf : St → Prop
  | [] => True
  | e :: st => e.var = st.length ∧ (∀ v, e.form.occ v = true → v < st.length) ∧ 1 ≤ e.count ∧ Wf st

/-- How often a symbol was asked for. -/
def cnt (g : Nat) : St → Nat
  | [] => 0
  | e :: st => (if e.var = g then e.count else 0) + cnt g st

/-- How often forms that mention it were asked for. -/
def used (g : Nat) : St → Nat
  | [] => 0
  | e :: st => (if e.form.occ g then e.count else 0) + used g st

def ind (b : Bool) : Nat := if b then 1 else 0

/-- From one table to a later one, with forms made on the way. -/
structure Post {V : Type} (I : Interp V) (ρ : String → V) (st : St) (fs : List Form) (st' : St) : Prop where
  wf : Wf st'
  len : st.length ≤ st'.length
  env : ∀ m, m < st.length → genv I ρ st' m = genv I ρ st m
  bnd : ∀ v, occList v fs = true → v < st'.length
  slack : ∀ g, cnt g st + used g st' + ind (occList g fs) ≤ cnt g st' + used g st

section
variable {V : Type} {I : Interp V} {ρ : String → V}

theorem Post.refl {st : St} (h : Wf st) : Post I ρ st [] st :=
  ⟨h, le_refl _, fun _ _ => rfl, by simp [occList], by simp [occList, ind]⟩

theorem Post.weaken {st st' : St} {fs gs : List Form} (h : Post I ρ st fs st') (hg : ∀ v, occList v gs = true → occList v fs = true) :
    Post I ρ st gs st' := by
  refine ⟨h.wf, h.len, h.env, fun v hv => h.bnd v (hg v hv), fun g => ?_⟩
  have := h.slack g
  have h2 : ind (occList g gs) ≤ ind (occList g fs) := by
    unfold ind
    by_cases hh : occList g gs = true
    · simp [hh, hg g hh]
    · simp [hh]
  omega

theorem Post.trans {st st1 st2 : St} {fs gs : List Form} (h : Post I ρ st fs st1) (h' : Post I ρ st1 gs st2) :
    Post I ρ st (fs ++ gs) st2 := by
  refine ⟨h'.wf, le_trans h.len h'.len, fun m hm => ?_, fun v hv => ?_, fun g => ?_⟩
  · rw [h'.env m (lt_of_lt_of_le hm h.len), h.env m hm]
  · rw [occList_append, Bool.or_eq_true] at hv
    rcases hv with hv | hv
    · exact lt_of_lt_of_le (h.bnd v hv) h'.len
    · exact h'.bnd v hv
  · have h1 := h.slack g
    have h2 := h'.slack g
    have h3 : ind (occList g (fs ++ gs)) ≤ ind (occList g fs) + ind (occList g gs) := by
      rw [occList_append]; unfold ind
      cases occList g fs <;> cases occList g gs <;> simp
    omega

/-- Forms made before keep their values. -/
theorem Post.eval {st st1 st2 : St} {fs gs : List Form} (h : Post I ρ st fs st1) (h' : Post I ρ st1 gs st2) (f : Form)
    (hf : ∀ v, f.occ v = true → occList v fs = true) : f.eval I ρ (genv I ρ st2) = f.eval I ρ (genv I ρ st1) :=
  eval_congr I ρ _ _ f fun v hv => h'.env v (h.bnd v (hf v hv))

theorem Post.evalList {st st1 st2 : St} {fs gs : List Form} (h : Post I ρ st fs st1) (h' : Post I ρ st1 gs st2) :
    evalList I ρ (genv I ρ st2) fs = evalList I ρ (genv I ρ st1) fs :=
  evalList_congr I ρ _ _ fs fun v hv => h'.env v (h.bnd v hv)

theorem bump_spec (f : Form) (st st' : St) (v : Nat) (hw : Wf st) (h : bump f st = some (st', v)) :
    Wf st' ∧ st'.length = st.length ∧ (genv I ρ st' = genv I ρ st) ∧ v < st.length ∧ (genv I ρ st v = f.eval I ρ (genv I ρ st)) ∧
      (∀ g, cnt g st' = cnt g st + ind (g == v)) ∧ (∀ g, used g st' = used g st + ind (f.occ g)) := by
  induction st generalizing st' v with
  | nil => simp [bump] at h
  | cons e st ih =>
    obtain ⟨w1, w2, w3, w4⟩ := hw
    simp only [bump] at h
    split at h
    · next he =>
      simp only [Option.some.injEq, Prod.mk.injEq] at h
      obtain ⟨rfl, rfl⟩ := h
      refine ⟨⟨w1, w2, by simp, w4⟩, rfl, ?_, by simp [w1], ?_, fun g => ?_, fun g => ?_⟩
      · funext m; simp [genv]
      · subst he
        have : genv I ρ (e :: st) e.var = e.form.eval I ρ (genv I ρ st) := by simp [genv]
        rw [this]
        refine eval_congr I ρ _ _ _ fun v hv => ?_
        have : v ≠ e.var := by rw [w1]; exact Nat.ne_of_lt (w2 v hv)
        simp [genv, this]
      · simp only [cnt, ind, beq_iff_eq]
        by_cases hg : e.var = g
        · subst hg; simp; omega
        · simp [hg, Ne.symm hg]
      · subst he
        simp only [used, ind]
        split <;> omega
    · cases hb : bump f st with
      | none => simp [hb] at h
      | some p =>
        obtain ⟨st1, v1⟩ := p
        simp only [hb, Option.map_some, Option.some.injEq, Prod.mk.injEq] at h
        obtain ⟨rfl, rfl⟩ := h
        obtain ⟨i1, i2, i3, i4, i5, i6, i7⟩ := ih st1 v1 w4 hb
        refine ⟨⟨by rw [w1, i2], by rw [i2]; exact w2, w3, i1⟩, by simp [i2], ?_, by simp; omega, ?_, fun g => ?_, fun g => ?_⟩
        · funext m; simp [genv, i3]
        · have hne : v1 ≠ e.var := by omega
          have hb2 : ∀ u, f.occ u = true → u < st.length := by
            intro u hu
            have a7 := i7 u
            simp only [hu, ind, if_true] at a7
            -- the symbol occurs in a form of the table
            have key : ∀ (s : St), Wf s → used u s ≥ 1 → u < s.length := by
              intro s hs hge
              induction s with
              | nil => simp [used] at hge
              | cons x s ihs =>
                obtain ⟨_, x2, _, x4⟩ := hs
                simp only [used] at hge
                by_cases hx : x.form.occ u = true
                · have := x2 u hx; simp; omega
                · simp only [hx] at hge
                  have := ihs x4 (by simpa using hge); simp; omega
            have := key st1 i1 (by omega)
            omega
          have e1 : genv I ρ (e :: st) v1 = genv I ρ st v1 := by simp [genv, hne]
          rw [e1, i5]
          refine eval_congr I ρ _ _ _ fun u hu => ?_
          have := hb2 u hu
          have hu' : u ≠ e.var := by omega
          simp [genv, hu']
        · simp only [cnt, i6]; omega
        · simp only [used, i7]; omega

/-- `letvar`: the symbol has the value of the form. -/
theorem letvar_spec {st st' : St} {fs : List Form} (h : Post I ρ st fs st') (f : Form) (hf : ∀ v, f.occ v = true → occList v fs = true) :
    Post I ρ st [(letvar f st').1] (letvar f st').2 ∧ (letvar f st').1.eval I ρ (genv I ρ (letvar f st').2) = f.eval I ρ (genv I ρ st') := by
  unfold letvar
  cases hb : bump f st' with
  | some p =>
    obtain ⟨st1, v⟩ := p
    obtain ⟨i1, i2, i3, i4, i5, i6, i7⟩ := bump_spec (I := I) (ρ := ρ) f st' st1 v h.wf hb
    refine ⟨⟨i1, by rw [i2]; exact h.len, fun m hm => ?_, fun u hu => ?_, fun g => ?_⟩, ?_⟩
    · rw [i3]; exact h.env m hm
    · simp only [occList, Form.occ, Bool.or_false, beq_iff_eq] at hu; subst hu; rw [i2]; exact i4
    · have h1 := h.slack g
      have h2 : ind (f.occ g) ≤ ind (occList g fs) := by
        unfold ind
        by_cases hh : f.occ g = true
        · simp [hh, hf g hh]
        · simp [hh]
      have h3 : ind (occList g [Form.gen v]) = ind (g == v) := by
        simp only [occList, Form.occ, Bool.or_false]; rw [show (v == g) = (g == v) from Bool.beq_comm]
      simp only [i6, i7, h3]
      omega
    · simp only [Form.eval]; rw [i3]; exact i5
  | none =>
    have hbf : ∀ v, f.occ v = true → v < st'.length := fun v hv => h.bnd v (hf v hv)
    refine ⟨⟨⟨rfl, hbf, le_refl _, h.wf⟩, by have := h.len; simp; omega, fun m hm => ?_, fun u hu => ?_, fun g => ?_⟩, ?_⟩
    · have : m ≠ st'.length := by have := h.len; omega
      simp only [genv, this, if_false]; exact h.env m hm
    · simp only [occList, Form.occ, Bool.or_false, beq_iff_eq] at hu; subst hu; simp
    · have h1 := h.slack g
      have h2 : ind (f.occ g) ≤ ind (occList g fs) := by
        unfold ind
        by_cases hh : f.occ g = true
        · simp [hh, hf g hh]
        · simp [hh]
      simp only [cnt, used]
      have h3 : ind (occList g [Form.gen st'.length]) = if st'.length = g then 1 else 0 := by
        unfold ind; simp only [occList, Form.occ, Bool.or_false, beq_iff_eq]
      rw [h3]
      have h4 : (if f.occ g = true then 1 else 0) = ind (f.occ g) := rfl
      rw [h4]
      omega
    · simp [Form.eval, genv]

/-- A symbol in the form of an entry was asked for at least as often as the entry. -/
theorem cnt_le {st : St} {fs : List Form} (h : Post I ρ [] fs st) (e : Entry) (he : e ∈ st) (g : Nat) (hg : e.form.occ g = true) :
    e.count ≤ cnt g st := by
  have h1 := h.slack g
  have h2 : e.count ≤ used g st := by
    clear h1 h
    induction st with
    | nil => simp at he
    | cons x st ih =>
      rcases List.mem_cons.mp he with rfl | he
      · simp [used, hg]
      · have := ih he; simp only [used]; omega
  simp only [cnt, used] at h1
  omega

theorem wf_suffix (l st : St) (h : Wf (l ++ st)) : Wf st := by
  induction l with
  | nil => exact h
  | cons x l ih => exact ih h.2.2.2

theorem wf_head (x : Entry) (l st : St) (h : Wf (x :: (l ++ st))) : x.var = l.length + st.length := by
  have := h.1
  rw [this]; exact List.length_append

/-- `reconstruct-form` keeps the value, and leaves no symbol unbound. -/
theorem reconstruct_spec (full : St) (hfull : Wf full) (hc : ∀ e ∈ full, ∀ g, e.form.occ g = true → e.count ≤ cnt g full) :
    ∀ (l st : St) (ls : List (Nat × Form)) (body : Form), full = l ++ st →
      (∀ v, body.occ v = true → v < st.length ∨ ∃ p ∈ ls, p.1 = v) →
      (∀ p ∈ ls, ∃ e ∈ l, p.1 = e.var ∧ p.2 = e.form ∧ 1 < e.count) →
      (∀ e ∈ l, 1 < e.count → (e.var, e.form) ∈ ls) →
      (∀ p ∈ ls, st.length ≤ p.1) →
      ls.Pairwise (fun a b => a.1 < b.1) →
      ∀ γ : Nat → V, (reconstruct st ⟨ls, body⟩).eval I ρ γ = body.eval I ρ (genv I ρ full) := by
  intro l st
  induction st generalizing l with
  | nil =>
    intro ls body hl hb h1 h2 h3 hp γ
    simp only [List.append_nil] at hl
    subst hl
    -- everything the body mentions is bound by the pairs, with the right values
    simp only [reconstruct, Prog.eval]
    have key : ∀ (ls done : List (Nat × Form)) (γ : Nat → V), (done ++ ls).Pairwise (fun a b => a.1 < b.1) →
        (∀ p ∈ done ++ ls, ∃ e ∈ full, p.1 = e.var ∧ p.2 = e.form ∧ 1 < e.count) →
        (∀ e ∈ full, 1 < e.count → (e.var, e.form) ∈ done ++ ls) →
        (∀ p ∈ done, γ p.1 = genv I ρ full p.1) →
        (∀ v, body.occ v = true → ∃ p ∈ done ++ ls, p.1 = v) →
        Prog.evalFrom I ρ body γ ls = body.eval I ρ (genv I ρ full) := by
      intro ls
      induction ls with
      | nil =>
        intro done γ _ _ _ hd hb
        simp only [Prog.evalFrom]
        refine eval_congr I ρ _ _ _ fun v hv => ?_
        obtain ⟨p, hp, rfl⟩ := hb v hv
        exact hd p (by simpa using hp)
      | cons q ls ih =>
        intro done γ hpw hsrc hall hd hb
        obtain ⟨v, f⟩ := q
        simp only [Prog.evalFrom]
        have hq := hsrc (v, f) (by simp)
        obtain ⟨e, he, hev, hef, hec⟩ := hq
        simp only at hev hef
        have hval : f.eval I ρ γ = genv I ρ full v := by
          -- the form mentions only symbols bound before
          obtain ⟨a, b, hab⟩ := List.append_of_mem he
          have hwb : Wf (e :: b) := wf_suffix a (e :: b) (hab ▸ hfull)
          have hg1 : ∀ (s : St) (m : Nat), Wf (s ++ e :: b) → m < (e :: b).length → genv I ρ (s ++ e :: b) m = genv I ρ (e :: b) m := by
            intro s
            induction s with
            | nil => intros; rfl
            | cons x s ihs =>
              intro m hw hm
              have : m ≠ x.var := by rw [wf_head x s _ hw]; omega
              simp only [List.cons_append, genv, this, if_false]
              exact ihs m hw.2.2.2 hm
          have hwf2 : Wf (a ++ e :: b) := hab ▸ hfull
          have hvl : v = b.length := by rw [hev]; exact hwb.1
          have e1 : genv I ρ full v = f.eval I ρ (genv I ρ b) := by
            rw [hab, hg1 a v hwf2 (by simp [hvl])]
            simp [genv, hev, hef]
          rw [e1]
          refine eval_congr I ρ _ _ _ fun u hu => ?_
          have hub : u < b.length := hwb.2.1 u (by rw [← hef]; exact hu)
          have hcu : e.count ≤ cnt u full := hc e he u (by rw [← hef]; exact hu)
          -- the entry of u has a count above 1
          have hent : ∀ (s : St), Wf s → u < s.length → ∃ x ∈ s, x.var = u ∧ x.count = cnt u s := by
            intro s
            induction s with
            | nil => intro _ h; simp at h
            | cons x s ihs =>
              intro hw hlt
              by_cases hx : x.var = u
              · refine ⟨x, by simp, hx, ?_⟩
                have hz : ∀ (t : St), Wf t → t.length ≤ u → cnt u t = 0 := by
                  intro t
                  induction t with
                  | nil => intros; rfl
                  | cons y t iht =>
                    intro hw hle
                    have h1 : y.var ≠ u := by rw [hw.1]; simp at hle; omega
                    simp only [cnt, h1, if_false, Nat.zero_add]
                    exact iht hw.2.2.2 (by simp at hle; omega)
                simp only [cnt, hx, if_true]
                rw [hz s hw.2.2.2 (by rw [← hx, hw.1])]; omega
              · have h2 : u < s.length := by
                  have := hw.1; simp at hlt; omega
                obtain ⟨y, hy, hyu, hyc⟩ := ihs hw.2.2.2 h2
                exact ⟨y, by simp [hy], hyu, by simp [cnt, hx, hyc]⟩
          have hlen : u < full.length := by rw [hab]; simp; omega
          obtain ⟨x, hx, hxu, hxc⟩ := hent full hfull hlen
          have hin := hall x hx (by omega)
          rw [List.mem_append, List.mem_cons] at hin
          have hguf : genv I ρ full u = genv I ρ b u := by
            rw [hab, hg1 a u hwf2 (by simp; omega)]
            have : u ≠ e.var := by rw [hwb.1]; omega
            simp [genv, this]
          rcases hin with hin | hin | hin
          · have := hd _ hin
            simp only [hxu] at this
            rw [this, hguf]
          · exfalso
            have : u = v := by rw [← hxu]; exact (Prod.mk.inj hin).1
            omega
          · exfalso
            have hcons := (List.pairwise_append.mp hpw).2.1
            have := (List.pairwise_cons.mp hcons).1 _ hin
            simp only [hxu] at this
            omega
        have hre : done ++ (v, f) :: ls = (done ++ [(v, f)]) ++ ls := by simp
        refine ih (done ++ [(v, f)]) _ (hre ▸ hpw) (hre ▸ hsrc) (hre ▸ hall) ?_ (hre ▸ hb)
        intro p hp
        rw [List.mem_append, List.mem_singleton] at hp
        rcases hp with hp | rfl
        · have hlt : p.1 < v := by
            have := (List.pairwise_append.mp hpw).2.2 p hp (v, f) (by simp)
            exact this
          have : p.1 ≠ v := by omega
          simp only [this, if_false]
          exact hd p hp
        · simp [hval]
    exact key ls [] γ (by simpa using hp) (by simpa using h1) (by simpa using h2) (by simp)
      (fun v hv => by
        rcases hb v hv with h | h
        · simp at h
        · simpa using h)
  | cons e st ih =>
    intro ls body hl hb h1 h2 h3 hp γ
    have hl' : full = (l ++ [e]) ++ st := by rw [hl]; simp
    have hwe : Wf (e :: st) := wf_suffix l (e :: st) (hl ▸ hfull)
    have hevar : e.var = st.length := hwe.1
    simp only [reconstruct]
    split
    · next hcount =>
      refine ih (l ++ [e]) ((e.var, e.form) :: ls) body hl' ?_ ?_ ?_ ?_ ?_ γ
      · intro v hv
        rcases hb v hv with h | ⟨p, hp, rfl⟩
        · by_cases hve : v = e.var
          · exact Or.inr ⟨(e.var, e.form), by simp, hve.symm⟩
          · left; simp at h; omega
        · exact Or.inr ⟨p, by simp [hp], rfl⟩
      · intro p hp
        rcases List.mem_cons.mp hp with rfl | hp
        · exact ⟨e, by simp, rfl, rfl, hcount⟩
        · obtain ⟨x, hx, h⟩ := h1 p hp
          exact ⟨x, by simp [hx], h⟩
      · intro x hx hxc
        rw [List.mem_append, List.mem_singleton] at hx
        rcases hx with hx | rfl
        · exact List.mem_cons_of_mem _ (h2 x hx hxc)
        · simp
      · intro p hp
        rcases List.mem_cons.mp hp with rfl | hp
        · simp [hevar]
        · have := h3 p hp; simp at this; omega
      · rw [List.pairwise_cons]
        refine ⟨fun p hp => ?_, hp⟩
        have := h3 p hp; simp at this; simp [hevar]; omega
    · next hcount =>
      have hgen : genv I ρ full e.var = e.form.eval I ρ (genv I ρ full) := by
        have hg1 : ∀ (s : St) (m : Nat), Wf (s ++ e :: st) → m < (e :: st).length → genv I ρ (s ++ e :: st) m = genv I ρ (e :: st) m := by
          intro s
          induction s with
          | nil => intros; rfl
          | cons x s ihs =>
            intro m hw hm
            have : m ≠ x.var := by rw [wf_head x s _ hw]; omega
            simp only [List.cons_append, genv, this, if_false]
            exact ihs m hw.2.2.2 hm
        have hwf2 : Wf (l ++ e :: st) := hl ▸ hfull
        rw [hl, hg1 l e.var hwf2 (by simp [hevar])]
        have h0 : genv I ρ (e :: st) e.var = e.form.eval I ρ (genv I ρ st) := by simp [genv]
        rw [h0]
        refine eval_congr I ρ _ _ _ fun u hu => ?_
        have hu1 := hwe.2.1 u hu
        rw [hg1 l u hwf2 (by simp; omega)]
        have : u ≠ e.var := by omega
        simp [genv, this]
      rw [← eval_subst I ρ _ e.var e.form hgen body]
      refine ih (l ++ [e]) ls (Form.subst e.var e.form body) hl' ?_ ?_ ?_ ?_ hp γ
      · intro v hv
        rcases occ_subst v e.var e.form body hv with ⟨hne, h⟩ | h
        · rcases hb v h with h | h
          · left; simp at h; omega
          · exact Or.inr h
        · exact Or.inl (hwe.2.1 v h)
      · intro p hp
        obtain ⟨x, hx, h⟩ := h1 p hp
        exact ⟨x, by simp [hx], h⟩
      · intro x hx hxc
        rw [List.mem_append, List.mem_singleton] at hx
        rcases hx with hx | rfl
        · exact h2 x hx hxc
        · omega
      · intro p hp
        have := h3 p hp; simp at this; omega

theorem reconstruct_eval {st : St} {f : Form} (h : Post I ρ [] [f] st) (γ : Nat → V) :
    (reconstruct st ⟨[], f⟩).eval I ρ γ = f.eval I ρ (genv I ρ st) :=
  reconstruct_spec st h.wf (fun e he g hg => cnt_le h e he g hg) [] st [] f rfl
    (fun v hv => Or.inl (h.bnd v (by simp [occList, hv]))) (by simp) (by simp) (by simp) (by simp) γ
end

end Eus.Inf
