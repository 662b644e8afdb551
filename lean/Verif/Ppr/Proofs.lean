import Verif.Ppr.Lemmas
set_option autoImplicit false
namespace Eus.Ppr
open Eus.Rd Eus.Num

variable (L : Layout) (p : PCfg) (platen : Int)

/-- What is known of a tree. -/
structure Ok (t : T) : Prop where
  good : GoodTree p.base p.prlength t
  dep : depth t < 65536
  sized : Sized L t

theorem Ok.car {a d : T} (h : Ok L p (.cons a d)) : Ok L p a := by
  obtain ⟨h1, h2, h3⟩ := h
  refine ⟨h1.1, ?_, h3.2.1⟩
  have : depth a + 2 ≤ depth (.cons a d) := by simp [depth]
  omega

theorem Ok.cdr {a d : T} (h : Ok L p (.cons a d)) : Ok L p d := by
  obtain ⟨h1, h2, h3⟩ := h
  refine ⟨h1.2.1, ?_, h3.2.2⟩
  have : depth d ≤ depth (.cons a d) := by simp [depth]
  omega

theorem Ok.size {t : T} (h : Ok L p t) : ∃ n, size L t = .ok n := by
  have : (L.size t 256).isSome := by
    have h3 := h.sized
    cases t with
    | cons a d => exact h3.1 256
    | _ => exact h3 256
  obtain ⟨n, hn⟩ := Option.isSome_iff_exists.1 this
  exact ⟨n, by unfold Ppr.size; rw [hn]⟩

theorem Ok.fits {t : T} (h : Ok L p t) (pltn : Nat) : ∃ b, fits L platen t pltn = .ok b := by
  have : (L.size t (platen - pltn)).isSome := by
    have h3 := h.sized
    cases t with
    | cons a d => exact h3.1 _
    | _ => exact h3 _
  obtain ⟨n, hn⟩ := Option.isSome_iff_exists.1 this
  exact ⟨_, by unfold Ppr.fits; rw [hn]⟩

/-- A form is printed and read. -/
def FORM (t : T) : Prop := Ok L p t → Ppable p.base t → ∀ pltn,
  ∃ txt, pp L p platen t pltn = .ok txt ∧ Reads p.base txt t
/-- The rest of a list. -/
def REST (t : T) : Prop := Ok L p t → PpTail p.base t → ∀ pltn,
  ∃ txt, ppRest L p platen t pltn = .ok txt ∧ TailReads p.base txt t ∧ Ends txt
/-- Variables and values. -/
def PAIRS (t : T) : Prop := Ok L p t → PpTail p.base t → Pairs p.base t → ∀ pltn,
  ∃ txt, ppSet L p platen t pltn = .ok txt ∧ TailReads p.base txt t ∧ Ends txt
/-- The elements of a parameter list. -/
def LOOP (t : T) : Prop := Ok L p t → PpTail p.base t → Proper t → ∀ pltn pl,
  ∃ txt, ppargLoop L p platen t pltn pl = .ok txt ∧ TailReads p.base txt t ∧ (t = NIL → txt = [41])
/-- Parameters and body. -/
def ARGS (t : T) : Prop := Ok L p t → PpTail p.base t → ArgsBody t → ∀ indent pltn,
  ∃ txt, ppArgs L p platen t indent pltn = .ok txt ∧ TailReads p.base txt t
/-- Name, parameters and body. -/
def DEFN (t : T) : Prop := Ok L p t → PpTail p.base t → NameArgsBody p.base t → ∀ pltn,
  ∃ txt, ppDefun L p platen t pltn = .ok txt ∧ TailReads p.base txt t ∧ Ends txt

/-- Everything about a tree. -/
structure All (t : T) : Prop where
  form : FORM L p platen t
  rest : REST L p platen t
  pairs : PAIRS L p platen t
  loop : LOOP L p platen t
  args : ARGS L p platen t
  defn : DEFN L p platen t
  carForm : ∀ x d, t = .cons x d → FORM L p platen x
  cdrPairs : ∀ x d, t = .cons x d → PAIRS L p platen d

theorem nl_white (n : Nat) : ∀ c ∈ (10 :: List.replicate n 32 : List Nat), c = 32 ∨ c = 10 := by
  intro c hc
  rcases List.mem_cons.1 hc with h | h
  · exact Or.inr h
  · exact Or.inl (List.eq_of_mem_replicate h)

theorem nl_ends (n : Nat) (s : List Nat) : Ends ((10 :: List.replicate n 32) ++ s) :=
  ends_cons 10 _ (Or.inl (by decide))

theorem tail_space {base : Nat} {txt : List Nat} {t : T} (ht : TailReads base txt t) : TailReads base (32 :: txt) t :=
  tail_white (w := [32]) (by simp) ht

theorem close_ends : Ends [41] := ends_cons 41 _ (Or.inr (by decide))

/-- Atoms. -/
theorem atom_all (hb : 2 ≤ p.base) (hb' : p.base ≤ 36) (t : T) (ht : ∀ a d, t ≠ .cons a d) : All L p platen t := by
  have hpp : ∀ n, pp L p platen t n = prt p t := by
    intro n; cases t with
    | cons a d => exact absurd rfl (ht a d)
    | _ => rw [pp.eq_def]
  have hrest : ∀ n, ppRest L p platen t n =
      if t = NIL then .ok [41] else cat (nl n) (cat (.ok [46, 32]) (cat (prt p t) (.ok [41]))) := by
    intro n; cases t with
    | cons a d => exact absurd rfl (ht a d)
    | _ => rw [ppRest.eq_def]
  have hset : ∀ n, ppSet L p platen t n = if t = NIL then .ok [41] else .error .notList := by
    intro n; cases t with
    | cons a d => exact absurd rfl (ht a d)
    | _ => rw [ppSet.eq_def]
  have hloop : ∀ n m, ppargLoop L p platen t n m = if t = NIL then .ok [41] else .error .notList := by
    intro n m; cases t with
    | cons a d => exact absurd rfl (ht a d)
    | _ => rw [ppargLoop.eq_def]
  refine ⟨?_, ?_, ?_, ?_, ?_, ?_, fun x d h => absurd h (ht x d), fun x d h => absurd h (ht x d)⟩
  · intro ho _ pltn
    rw [hpp]
    exact prt_reads p hb hb' t ho.good ho.dep
  · intro ho _ pltn
    rw [hrest]
    by_cases hn : t = NIL
    · rw [if_pos hn, hn]
      exact ⟨_, rfl, tail_close _, close_ends⟩
    · rw [if_neg hn]
      obtain ⟨txt, e, hr⟩ := prt_reads p hb hb' t ho.good ho.dep
      rw [e]
      refine ⟨(10 :: List.replicate pltn 32) ++ (46 :: 32 :: (txt ++ [41])), rfl, ?_, nl_ends _ _⟩
      exact tail_white (nl_white _) (tail_dot hr)
  · intro ho _ hp pltn
    have hn : t = NIL := by
      cases t with
      | cons a d => exact absurd rfl (ht a d)
      | _ => exact hp
    rw [hset, if_pos hn, hn]
    exact ⟨_, rfl, tail_close _, close_ends⟩
  · intro ho _ hp pltn pl
    have hn : t = NIL := by
      cases t with
      | cons a d => exact absurd rfl (ht a d)
      | _ => exact hp
    rw [hloop, if_pos hn, hn]
    exact ⟨_, rfl, tail_close _, fun _ => rfl⟩
  · intro _ _ h
    cases t with
    | cons a d => exact absurd rfl (ht a d)
    | _ => exact h.elim
  · intro _ _ h
    cases t with
    | cons a d => exact absurd rfl (ht a d)
    | _ => exact h.elim

/-- The elements of a parameter list, one step. -/
theorem loop_cons {a d : T} (ha : FORM L p platen a) (hl : LOOP L p platen d) (hb : 2 ≤ p.base) (hb' : p.base ≤ 36) :
    LOOP L p platen (.cons a d) := by
  intro ho ht hp pltn pl
  have hoa := Ok.car L p ho
  have hod := Ok.cdr L p ho
  rw [PpTail] at ht
  obtain ⟨n, hn⟩ := Ok.size L p hoa
  have key : ∀ x q, Reads p.base x a → ∃ txt, cat (.ok x) (cat (sep d) (ppargLoop L p platen d pltn q)) = .ok txt ∧
      TailReads p.base txt (.cons a d) := by
    intro x q hx
    obtain ⟨y, ey, hy, hyn⟩ := hl hod ht.2 hp pltn q
    rw [ey]
    by_cases hd : d = NIL
    · refine ⟨x ++ y, by simp [cat, sep, hd], ?_⟩
      exact tail_elem hx hy (by rw [hyn hd]; exact close_ends)
    · refine ⟨x ++ (32 :: y), by simp [cat, sep, hd], ?_⟩
      exact tail_elem hx (tail_space hy) (ends_cons 32 _ (Or.inl (by decide)))
  rw [ppargLoop, hn]
  simp only
  split
  · obtain ⟨x, ex, hx⟩ := prt_reads p hb hb' a hoa.good hoa.dep
    rw [ex]
    obtain ⟨txt, e, h⟩ := key x (pl + n + 1) hx
    exact ⟨txt, e, h, fun h => T.noConfusion h⟩
  · obtain ⟨x, ex, hx⟩ := ha hoa ht.1 pltn
    rw [ex]
    obtain ⟨txt, e, h⟩ := key x pltn hx
    refine ⟨(10 :: List.replicate pltn 32) ++ txt, by rw [e]; rfl, tail_white (nl_white _) h, fun h => T.noConfusion h⟩

theorem rest_cons {a d : T} (ha : FORM L p platen a) (hd : REST L p platen d) : REST L p platen (.cons a d) := by
  intro ho ht pltn
  rw [PpTail] at ht
  obtain ⟨x, ex, hx⟩ := ha (Ok.car L p ho) ht.1 pltn
  obtain ⟨y, ey, hy, he⟩ := hd (Ok.cdr L p ho) ht.2 pltn
  rw [ppRest, ex, ey]
  exact ⟨(10 :: List.replicate pltn 32) ++ (x ++ y), rfl, tail_white (nl_white _) (tail_elem hx hy he), nl_ends _ _⟩

theorem args_cons {a d : T} (hl : LOOP L p platen a) (hd : REST L p platen d) (hb : 2 ≤ p.base) (hb' : p.base ≤ 36) :
    ARGS L p platen (.cons a d) := by
  intro ho ht hab indent pltn
  have hoa := Ok.car L p ho
  rw [PpTail] at ht
  obtain ⟨y, ey, hy, he⟩ := hd (Ok.cdr L p ho) ht.2 pltn
  obtain ⟨z, ez, hz⟩ := prt_reads p hb hb' a hoa.good hoa.dep
  have short : ∃ txt, cat (prt p a) (ppRest L p platen d pltn) = .ok txt ∧ TailReads p.base txt (.cons a d) := by
    rw [ez, ey]
    exact ⟨z ++ y, rfl, tail_elem hz hy he⟩
  cases a with
  | cons x w =>
    rw [ppArgs]
    obtain ⟨b, hbf⟩ := Ok.fits L p platen hoa indent
    rw [hbf]
    cases b with
    | true => exact short
    | false =>
      have hpt : PpTail p.base (.cons x w) := by
        have h1 := ht.1
        rw [Ppable] at h1
        rw [PpTail]
        exact ⟨h1.1, h1.2.1⟩
      obtain ⟨v, ev, hv, _⟩ := hl hoa hpt hab indent indent
      simp only
      rw [ev, ey]
      exact ⟨(40 :: v) ++ y, by simp [cat], tail_elem (reads_list hv) hy he⟩
  | _ => rw [ppArgs.eq_def]; exact short

theorem defn_cons {a d : T} (hargs : ARGS L p platen d) : DEFN L p platen (.cons a d) := by
  intro ho ht hn pltn
  have hoa := Ok.car L p ho
  rw [PpTail] at ht
  obtain ⟨n, hsz⟩ := Ok.size L p hoa
  cases a with
  | sym nme =>
    obtain ⟨hpl, hab⟩ := hn
    obtain ⟨x, ex, hx⟩ := princ_reads p nme hpl hoa.good
    obtain ⟨y, ey, hy⟩ := hargs (Ok.cdr L p ho) ht.2 hab (pltn + 3 + n) (pltn + 3)
    rw [ppDefun, hsz]
    simp only
    rw [ex, ey]
    refine ⟨32 :: (x ++ (32 :: y)), by simp [cat], ?_, ends_cons 32 _ (Or.inl (by decide))⟩
    exact tail_space (tail_elem hx (tail_space hy) (ends_cons 32 _ (Or.inl (by decide))))
  | _ => exact hn.elim

theorem pairs_cons {a d : T} (hc : ∀ x r, d = .cons x r → FORM L p platen x)
    (hp : ∀ x r, d = .cons x r → PAIRS L p platen r) : PAIRS L p platen (.cons a d) := by
  intro ho ht hprs pltn
  have hoa := Ok.car L p ho
  obtain ⟨n, hsz⟩ := Ok.size L p hoa
  cases a with
  | sym nme =>
    cases d with
    | cons x r =>
      obtain ⟨hpl, hr⟩ := hprs
      rw [PpTail, PpTail] at ht
      have hod := Ok.cdr L p ho
      obtain ⟨v, ev, hv⟩ := princ_reads p nme hpl hoa.good
      obtain ⟨z, ez, hz⟩ := hc x r rfl (Ok.car L p hod) ht.2.1 (pltn + n + 4)
      obtain ⟨y, ey, hy, he⟩ := hp x r rfl (Ok.cdr L p hod) ht.2.2 hr pltn
      rw [ppSet, hsz]
      simp only
      rw [ev, ez, ey]
      refine ⟨(10 :: List.replicate (pltn + 3) 32) ++ (v ++ (32 :: (z ++ y))), by simp [cat, nl], ?_, nl_ends _ _⟩
      exact tail_white (nl_white _) (tail_elem hv (tail_space (tail_elem hz hy he)) (ends_cons 32 _ (Or.inl (by decide))))
    | _ => exact hprs.elim
  | _ => exact hprs.elim

theorem form_cons {a d : T} (ha : FORM L p platen a) (hr : REST L p platen d) (hpr : PAIRS L p platen d)
    (harg : ARGS L p platen d) (hdf : DEFN L p platen d) (hc : ∀ x r, d = .cons x r → FORM L p platen x)
    (hb : 2 ≤ p.base) (hb' : p.base ≤ 36) : FORM L p platen (.cons a d) := by
  intro ho hp pltn
  have hoa := Ok.car L p ho
  have hod := Ok.cdr L p ho
  have hp' := hp
  rw [Ppable] at hp
  obtain ⟨hpa, hpd, hsh⟩ := hp
  rw [pp]
  obtain ⟨b, hbf⟩ := Ok.fits L p platen ho pltn
  rw [hbf]
  cases b with
  | true => exact prt_reads p hb hb' _ ho.good ho.dep
  | false =>
    simp only
    by_cases hq : a = QUOTE
    · rw [if_pos hq]
      obtain ⟨x, hx⟩ := hsh.quote hq
      subst hx
      rw [PpTail] at hpd
      obtain ⟨z, ez, hz⟩ := hc x NIL rfl (Ok.car L p hod) hpd.1 pltn
      rw [ppCar, ez, hq]
      exact ⟨39 :: z, rfl, reads_quote hz⟩
    · rw [if_neg hq]
      obtain ⟨z, ez, hz⟩ := ha hoa hpa (if listp a then pltn + 1 else pltn)
      rw [ez]
      have fin : ∀ o : Out, (∃ y, o = .ok y ∧ TailReads p.base y d ∧ Ends y) →
          ∃ txt, cat (.ok [40]) (cat (.ok z) o) = .ok txt ∧ Reads p.base txt (.cons a d) := by
        rintro o ⟨y, rfl, hy, he⟩
        exact ⟨40 :: (z ++ y), rfl, reads_list (tail_elem hz hy he)⟩
      apply fin
      by_cases h1 : a ∈ [T.sym (nm "DEFUN"), T.sym (nm "DEFCLASS"), T.sym (nm "DEFMACRO")]
      · simp only [formOf, if_pos h1]
        exact hdf hod hpd (hsh.defn h1) pltn
      by_cases h2 : a ∈ [T.sym (nm "LAMBDA"), T.sym (nm "MACRO")]
      · obtain ⟨n, hn⟩ := Ok.size L p hoa
        simp only [formOf, if_neg h1, if_pos h2, hn]
        obtain ⟨y, ey, hy⟩ := harg hod hpd (hsh.lam h2) (pltn + 3 + n) (pltn + 3)
        rw [ey]
        exact ⟨32 :: y, rfl, tail_space hy, ends_cons 32 _ (Or.inl (by decide))⟩
      by_cases h3 : a ∈ [T.sym (nm "SET"), T.sym (nm "SETQ")]
      · simp only [formOf, if_neg h1, if_neg h2, if_pos h3]
        exact hpr hod hpd (hsh.set h3) pltn
      · simp only [formOf, if_neg h1, if_neg h2, if_neg h3]
        exact hr hod hpd _

theorem all (hb : 2 ≤ p.base) (hb' : p.base ≤ 36) (t : T) : All L p platen t := by
  induction t with
  | cons a d iha ihd =>
    exact ⟨form_cons L p platen iha.form ihd.rest ihd.pairs ihd.args ihd.defn ihd.carForm hb hb',
      rest_cons L p platen iha.form ihd.rest,
      pairs_cons L p platen ihd.carForm ihd.cdrPairs,
      loop_cons L p platen iha.form ihd.loop hb hb',
      args_cons L p platen iha.loop ihd.rest hb hb',
      defn_cons L p platen ihd.args,
      fun x r h => by rw [← (T.cons.inj h).1]; exact iha.form,
      fun x r h => by rw [← (T.cons.inj h).2]; exact ihd.pairs⟩
  | _ => exact atom_all L p platen hb hb' _ (by simp)

end Eus.Ppr
