import Verif.Rd.Trees
import Verif.Ppr.Spec
set_option autoImplicit false
namespace Eus.Ppr
open Eus.Rd Eus.Num

/-! ### Texts -/

/-- The text is read as the object. -/
def Reads (base : Nat) (txt : List Nat) (t : T) : Prop :=
  Head txt ∧ ∀ rest k, Delim rest → txt.length ≤ k → read1 base k (txt ++ rest) = (.val t, rest)

/-- The text, up to the closing parenthesis, is read as the rest of a list. -/
def TailReads (base : Nat) (txt : List Nat) (t : T) : Prop :=
  txt ≠ [] ∧ ∀ rest k, txt.length ≤ k → readTail base k (txt ++ rest) = (.val t, rest)

/-- The text ends the token before it. -/
def Ends (txt : List Nat) : Prop := ∀ rest, Delim (txt ++ rest)

theorem ends_cons (c : Nat) (s : List Nat) (h : EndsToken c) : Ends (c :: s) := fun _ => delim_cons c _ h

theorem readTail_white (base n c : Nat) (s : List Nat) (h : c = 32 ∨ c = 10) :
    readTail base n (c :: s) = readTail base n s := by
  cases n with
  | zero => rw [readTail, readTail]
  | succ n =>
    have h : nextch (c :: s) = nextch s := by
      rcases h with rfl | rfl <;>
      rw [nextch, if_neg (by decide), if_neg (by decide), if_pos (by decide)]
    rw [readTail.eq_def, readTail.eq_def]
    simp only [h]

theorem readTail_whites (base n : Nat) (w s : List Nat) (h : ∀ c ∈ w, c = 32 ∨ c = 10) :
    readTail base n (w ++ s) = readTail base n s := by
  induction w with
  | nil => rfl
  | cons c w ih =>
    rw [List.cons_append, readTail_white _ _ _ _ (h c List.mem_cons_self)]
    exact ih (fun c hc => h c (List.mem_cons_of_mem _ hc))

theorem tail_white {base : Nat} {w txt : List Nat} {t : T} (h : ∀ c ∈ w, c = 32 ∨ c = 10)
    (ht : TailReads base txt t) : TailReads base (w ++ txt) t := by
  refine ⟨by simp [ht.1], ?_⟩
  intro rest k hk
  rw [List.append_assoc, readTail_whites _ _ _ _ h]
  exact ht.2 rest k (by simp at hk; omega)

theorem tail_close (base : Nat) : TailReads base [41] NIL := by
  refine ⟨by simp, ?_⟩
  intro rest k hk
  simp only [List.length_singleton] at hk
  obtain ⟨k', rfl⟩ : ∃ k', k = k' + 1 := ⟨k - 1, by omega⟩
  exact readTail_close base k' rest

theorem tail_elem {base : Nat} {x y : List Nat} {t l : T} (hx : Reads base x t) (hy : TailReads base y l)
    (he : Ends y) : TailReads base (x ++ y) (.cons t l) := by
  have hpx : 0 < x.length := by obtain ⟨c, w, h, _⟩ := hx.1; rw [h]; simp
  have hpy : 0 < y.length := List.length_pos_iff.2 hy.1
  refine ⟨by simp [hy.1], ?_⟩
  intro rest k hk
  simp only [List.length_append] at hk
  obtain ⟨k', rfl⟩ : ∃ k', k = k' + 2 := ⟨k - 2, by omega⟩
  rw [List.append_assoc]
  exact readTail_elem _ _ _ _ _ _ _ hx.1 (hx.2 _ _ (he rest) (by omega)) (hy.2 rest _ (by omega))

theorem tail_dot {base : Nat} {x : List Nat} {t : T} (hx : Reads base x t) :
    TailReads base (46 :: 32 :: (x ++ [41])) t := by
  have hpx : 0 < x.length := by obtain ⟨c, w, h, _⟩ := hx.1; rw [h]; simp
  refine ⟨by simp, ?_⟩
  intro rest k hk
  simp only [List.length_cons, List.length_append, List.length_nil] at hk
  obtain ⟨k', rfl⟩ : ∃ k', k = k' + 2 := ⟨k - 2, by omega⟩
  have e : 46 :: 32 :: (x ++ [41]) ++ rest = 46 :: 32 :: (x ++ 41 :: rest) := by simp
  rw [e]
  exact readTail_dot base k' x rest t (hx.2 _ _ (delim_cons 41 _ (Or.inr (by decide))) (by omega))

theorem reads_list {base : Nat} {y : List Nat} {l : T} (hy : TailReads base y l) : Reads base (40 :: y) l := by
  refine ⟨⟨40, _, rfl, by decide, by decide, by decide, by decide, fun h => absurd h (by decide)⟩, ?_⟩
  intro rest k _ hk
  simp only [List.length_cons] at hk
  obtain ⟨k', rfl⟩ : ∃ k', k = k' + 1 := ⟨k - 1, by omega⟩
  rw [List.cons_append, read1_paren]
  exact hy.2 rest k' (by omega)

theorem reads_quote {base : Nat} {x : List Nat} {t : T} (hx : Reads base x t) :
    Reads base (39 :: x) (.cons QUOTE (.cons t NIL)) := by
  refine ⟨⟨39, _, rfl, by decide, by decide, by decide, by decide, fun h => absurd h (by decide)⟩, ?_⟩
  intro rest k hr hk
  simp only [List.length_cons] at hk
  obtain ⟨k', rfl⟩ : ∃ k', k = k' + 1 := ⟨k - 1, by omega⟩
  exact read1_quote _ _ _ _ _ (hx.2 rest k' hr (by omega))

/-! ### Atoms, names, short forms -/

theorem prt_reads (p : PCfg) (hb : 2 ≤ p.base) (hb' : p.base ≤ 36) (t : T) (hg : GoodTree p.base p.prlength t)
    (hd : depth t < 65536) : ∃ txt, prt p t = .ok txt ∧ Reads p.base txt t := by
  obtain ⟨h, _, _⟩ := tree_read p hb hb' t hg
  obtain ⟨txt, e, hh, hr⟩ := h 65536 (by omega)
  exact ⟨txt, by unfold prt prinx; rw [e], hh, hr⟩

theorem plainChar_facts (c : Nat) (h : PlainChar c) : chartype c = .constituent ∧ islower c = false ∧ c ≠ 58 ∧ c ≠ 96 ∧
    hasMacro c = false := by
  have hc : c < 128 := by
    rcases h with h | h | h
    · omega
    · omega
    · simp only [List.mem_cons, List.not_mem_nil, or_false] at h; omega
  unfold PlainChar at h
  revert h
  revert c
  decide

theorem plain_needs (base : Nat) (n : List Nat) (h : PlainName base n) : needEscape base n = false := by
  unfold needEscape
  rw [Bool.or_eq_false_iff]
  constructor
  · rw [List.any_eq_false]
    intro c hc
    obtain ⟨h1, h2, h3, h4, h5⟩ := plainChar_facts c (h.1 c hc)
    simp [h1, h2, h3, h4, h5]
  · rw [← Bool.not_eq_true]
    intro hall
    apply h.2
    intro c hc
    rw [List.all_eq_true] at hall
    have hdig := hall c hc
    have hpl := h.1 c hc
    unfold PlainChar at hpl
    unfold is_digit at hdig
    simp only [List.mem_cons, List.not_mem_nil, or_false] at hpl
    split_ifs at hdig with h1 h2 h3 h4
    · have h5 : c < 48 + base := of_decide_eq_true hdig
      omega
    · omega
    · omega

theorem princ_reads (p : PCfg) (n : List Nat) (hn : PlainName p.base n)
    (hg : GoodName p.base n ∧ n ≠ [46] ∧ ∀ c w, n = 46 :: c :: w → c < 128) :
    ∃ txt, princ p (.sym n) = .ok txt ∧ Reads p.base txt (.sym n) := by
  have hp := printname_plain p n hg.1.bars (plain_needs _ _ hn)
  obtain ⟨txt, e, _, hr⟩ := sym_read p n hg.1
  have hh := sym_head p n hg.1 hg.2.1 hg.2.2 txt e
  rw [hp] at e
  refine ⟨txt, by rw [princ, Option.some.inj e], hh, ?_⟩
  intro rest k hd hk
  obtain ⟨c, w, h, _⟩ := hh
  have : 0 < txt.length := by rw [h]; simp
  obtain ⟨k', rfl⟩ : ∃ k', k = k' + 1 := ⟨k - 1, by omega⟩
  exact hr rest k' hd

end Eus.Ppr
