import Verif.Kna.Model
import Verif.Kna.Spec
import Mathlib.Data.Nat.Bitwise
import Mathlib.Tactic.Linarith
set_option autoImplicit false
/-
C205: conversions between Japanese character codes.
-/
namespace Eus.Kna

theorem or80 (x : Nat) (h : x < 128) : 0x80 ||| x = 128 + x := by
  have := Nat.two_pow_add_eq_or_of_lt (i := 7) (b := x) h 1
  simpa using this.symm

theorem and7f (x : Nat) : 0x7f &&& x = x % 128 := by
  rw [Nat.and_comm]
  exact Nat.and_two_pow_sub_one_eq_mod x 7

theorem sjisLead_iff (c : Nat) : sjisLead c = true ↔ (128 < c ∧ c < 160) ∨ (224 ≤ c ∧ c ≤ 239) := by simp [sjisLead]
theorem sjisTrail_iff (c : Nat) : sjisTrail c = true ↔ 64 ≤ c ∧ c ≤ 252 ∧ c ≠ 127 := by simp [sjisTrail]

/-- even rows from 66 on -/
def Broken : Ch → Prop
  | .kj r _ => r % 2 = 0 ∧ 66 ≤ r
  | _ => False

theorem char_sjis (r c : Nat) (hr : 1 ≤ r ∧ r ≤ 80) (hc : 1 ≤ c ∧ c ≤ 94) : euc2sjisChar (160 + r) (160 + c) = Ch.sjis (.kj r c) := by
  unfold euc2sjisChar Ch.sjis
  rw [and7f, and7f]
  have e1 : (160 + r) % 128 = 32 + r := by omega
  have e2 : (160 + c) % 128 = 32 + c := by omega
  simp only [e1, e2, List.cons.injEq, and_true]
  constructor
  · split_ifs <;> omega
  · split_ifs <;> omega

theorem char_euc (r c a b : Nat) (hr : 1 ≤ r ∧ r ≤ 94) (hc : 1 ≤ c ∧ c ≤ 94) (hb : ¬ (r % 2 = 0 ∧ 66 ≤ r)) (h : Ch.sjis (.kj r c) = [a, b]) :
    sjisLead a = true ∧ sjisTrail b = true ∧ ¬ a < 0x80 ∧ sjis2eucChar a b = [160 + r, 160 + c] := by
  simp only [Ch.sjis, List.cons.injEq, and_true] at h
  obtain ⟨ha, hb'⟩ := h
  have hlow : sjisLow b = 32 + c := by
    unfold sjisLow
    rw [← hb']
    split_ifs <;> omega
  have hb9 : b < 159 ↔ r % 2 = 1 := by
    rw [← hb']
    split_ifs <;> omega
  have hhi : (0x80 : Nat) ||| sjisHi a b = 160 + r := by
    unfold sjisHi
    by_cases h62 : r ≤ 62
    · rw [if_pos h62] at ha
      rw [if_pos (by omega)]
      by_cases ho : r % 2 = 1
      · rw [if_pos (hb9.2 ho), or80 _ (by omega)]; omega
      · rw [if_neg (by rw [hb9]; exact ho), or80 _ (by omega)]; omega
    · rw [if_neg h62] at ha
      rw [if_neg (by omega)]
      by_cases ho : r % 2 = 1
      · rw [if_pos (hb9.2 ho), if_pos (hb9.2 ho), or80 _ (by omega)]; omega
      · rw [if_neg (by rw [hb9]; exact ho)]
        have : r = 64 := by omega
        subst this
        have : a = 224 := by omega
        subst this
        decide
  refine ⟨?_, ?_, ?_, ?_⟩
  · rw [sjisLead_iff, ← ha]; split_ifs <;> omega
  · rw [sjisTrail_iff, ← hb']; split_ifs <;> omega
  · rw [← ha]; split_ifs <;> omega
  · unfold sjis2eucChar
    rw [hhi, hlow, or80 _ (by omega)]
    congr 2
    omega

theorem sjis_pair (r c : Nat) : ∃ a b, Ch.sjis (.kj r c) = [a, b] := ⟨_, _, rfl⟩

theorem sjis_asc (e : Bool) (c : Nat) (h : c < 128) (rest : List Nat) : sjis2euc e (c :: rest) = c :: sjis2euc e rest := by
  cases rest with
  | nil => simp [sjis2euc, h]
  | cons a r => rw [sjis2euc, if_pos (.inr h)]

theorem euc_asc (c : Nat) (h : c < 128) (rest : List Nat) : euc2sjis (c :: rest) = c :: euc2sjis rest := by
  cases rest with
  | nil => simp [euc2sjis]
  | cons a r => rw [euc2sjis, if_neg (by omega)]

/-- C205: EUC to Shift-JIS, rows 1 to 80 -/
theorem C205_euc2sjis_partial : ∀ (t : List Ch), (∀ x ∈ t, x.Ok ∧ ∀ r c, x = .kj r c → r ≤ 80) → euc2sjis (euc t) = sjis t
  | [], _ => rfl
  | x :: t, h => by
    have ih := C205_euc2sjis_partial t (fun y hy => h y (List.mem_cons_of_mem _ hy))
    have hx := h x (by simp)
    simp only [euc, sjis, List.flatMap_cons] at ih ⊢
    cases x with
    | asc c =>
      simp only [Ch.euc, Ch.sjis, List.cons_append, List.nil_append]
      rw [euc_asc c hx.1, ih]
    | kj r c =>
      have hr := hx.2 r c rfl
      obtain ⟨⟨h1, _⟩, h2⟩ : (1 ≤ r ∧ r ≤ 94) ∧ 1 ≤ c ∧ c ≤ 94 := hx.1
      simp only [Ch.euc, List.cons_append, List.nil_append]
      rw [euc2sjis, if_pos (by omega), if_pos (by omega), char_sjis r c ⟨h1, hr⟩ h2, ih]

/-- C205: Shift-JIS to EUC, without the even rows from 66 on -/
theorem C205_sjis2euc_partial : ∀ (t : List Ch), (∀ x ∈ t, x.Ok ∧ ∀ r c, x = .kj r c → ¬ (r % 2 = 0 ∧ 66 ≤ r)) → sjis2euc false (sjis t) = euc t
  | [], _ => rfl
  | x :: t, h => by
    have ih := C205_sjis2euc_partial t (fun y hy => h y (List.mem_cons_of_mem _ hy))
    have hx := h x (by simp)
    simp only [euc, sjis, List.flatMap_cons] at ih ⊢
    cases x with
    | asc c =>
      simp only [Ch.euc, Ch.sjis, List.cons_append, List.nil_append]
      rw [sjis_asc false c hx.1, ih]
    | kj r c =>
      obtain ⟨a, b, e⟩ := sjis_pair r c
      obtain ⟨g1, g2, g3, g4⟩ := char_euc r c a b hx.1.1 hx.1.2 (hx.2 r c rfl) e
      rw [e]
      simp only [Ch.euc, List.cons_append, List.nil_append]
      rw [sjis2euc, if_neg (by simpa using g3), if_pos g1, if_pos g2, g4, ih]
      rfl

/-- C205: from EUC to Shift-JIS and back -/
theorem C205_roundtrip_partial (t : List Ch) (h : ∀ x ∈ t, x.Ok ∧ ∀ r c, x = .kj r c → r ≤ 80 ∧ ¬ (r % 2 = 0 ∧ 66 ≤ r)) :
    sjis2euc false (euc2sjis (euc t)) = euc t := by
  rw [C205_euc2sjis_partial t (fun x hx => ⟨(h x hx).1, fun r c e => ((h x hx).2 r c e).1⟩)]
  exact C205_sjis2euc_partial t (fun x hx => ⟨(h x hx).1, fun r c e => ((h x hx).2 r c e).2⟩)

theorem euc_stop : ∀ l : List Nat, sjis2euc true l = l
  | [] => rfl
  | [c] => by simp [sjis2euc]
  | c :: d :: l => by rw [sjis2euc, if_pos (.inl rfl), euc_stop (d :: l)]

/-- C205: a text in EUC is left alone if its first Japanese character is in one of the rows 1 to 63 -/
theorem C205_euc_kept (s : List Nat) (r c : Nat) (t : List Ch) (hs : ∀ x ∈ s, x < 128) (hr : 1 ≤ r ∧ r ≤ 63) :
    sjis2euc false (euc (s.map .asc ++ .kj r c :: t)) = euc (s.map .asc ++ .kj r c :: t) := by
  induction s with
  | nil =>
    simp only [List.map_nil, List.nil_append, euc, List.flatMap_cons, Ch.euc, List.cons_append]
    rw [sjis2euc, if_neg (by simp; omega), if_neg (by rw [sjisLead_iff]; omega), euc_stop]
  | cons x s ih =>
    have ih := ih (fun y hy => hs y (List.mem_cons_of_mem _ hy))
    simp only [List.map_cons, List.cons_append, euc, List.flatMap_cons, Ch.euc, List.nil_append] at ih ⊢
    rw [sjis_asc false x (hs x (by simp)), ih]

/-! JIS -/

theorem jloop_append (n : Nat) : ∀ (l m : List Nat) (s : J), jloop n s (l ++ m) = (jloop n s l).bind fun s => jloop n s m
  | [], m, s => rfl
  | c :: l, m, s => by
    simp only [List.cons_append, jloop]
    cases jstep n s c with
    | none => rfl
    | some s' => simp only [Option.bind_some]; exact jloop_append n l m s'

theorem jloop_ascii (n e : Nat) : ∀ (l : List Nat) (o : List Nat), (∀ c ∈ l, c < 128 ∧ c ≠ 27) → o.length + l.length ≤ n →
    jloop n ⟨o, false, 0, e⟩ l = some ⟨o ++ l, false, 0, e⟩
  | [], o, _, _ => by simp [jloop]
  | c :: l, o, h, hn => by
    have hc := h c (by simp)
    simp only [List.length_cons] at hn
    have e1 : jstep n ⟨o, false, 0, e⟩ c = some ⟨o ++ [c], false, 0, e⟩ := by
      simp only [jstep, if_true, if_neg hc.2, put]
      rw [if_pos (by omega)]
      simp
    rw [jloop, e1, Option.bind_some, jloop_ascii n e l (o ++ [c]) (fun x hx => h x (List.mem_cons_of_mem _ hx)) (by simp; omega)]
    simp

theorem jloop_kanji (n e : Nat) : ∀ (l : List (Nat × Nat)) (o : List Nat), (∀ p ∈ l, (1 ≤ p.1 ∧ p.1 ≤ 94) ∧ 1 ≤ p.2 ∧ p.2 ≤ 94) → o.length + 2 * l.length ≤ n →
    jloop n ⟨o, true, 0, e⟩ (l.flatMap fun p => [32 + p.1, 32 + p.2]) = some ⟨o ++ euc (l.map fun p => .kj p.1 p.2), true, 0, e⟩
  | [], o, _, _ => by simp [jloop, euc]
  | p :: l, o, h, hn => by
    have hp := h p (by simp)
    simp only [List.length_cons] at hn
    have e1 : ∀ (o : List Nat) (x : Nat), o.length < n → x ≤ 94 → jstep n ⟨o, true, 0, e⟩ (32 + x) = some ⟨o ++ [160 + x], true, 0, e⟩ := by
      intro o x ho hx
      simp only [jstep, if_true, put]
      by_cases hb : 32 + x = 27
      · omega
      · rw [if_neg hb, if_pos ho, or80 _ (by omega), show 128 + (32 + x) = 160 + x by omega]
    simp only [List.flatMap_cons, List.cons_append, List.nil_append, jloop]
    rw [e1 o p.1 (by omega) (by omega), Option.bind_some, e1 _ p.2 (by simp; omega) (by omega), Option.bind_some,
      jloop_kanji n e l _ (fun x hx => h x (List.mem_cons_of_mem _ hx)) (by simp; omega)]
    simp [euc, Ch.euc]

theorem jloop_seg (n e : Nat) (g : Seg) (hg : g.Ok) (o : List Nat) (hn : o.length + 2 * g.kanji.length + g.ascii.length ≤ n) :
    ∃ e', jloop n ⟨o, false, 0, e⟩ g.jis = some ⟨o ++ euc g.text, false, 0, e'⟩ := by
  have hesc : ∀ o, jloop n ⟨o, false, 0, e⟩ [27, 36, if g.old then 64 else 66] = some ⟨o, true, 0, 36⟩ := by
    intro o
    cases g.old <;> simp [jloop, jstep]
  have hback : ∀ o, jloop n ⟨o, true, 0, 36⟩ [27, 40, 74] = some ⟨o, false, 0, 40⟩ := by
    intro o
    simp [jloop, jstep]
  refine ⟨40, ?_⟩
  have hl : (euc (g.kanji.map fun p => Ch.kj p.1 p.2)).length = 2 * g.kanji.length := by
    generalize g.kanji = l
    induction l with
    | nil => rfl
    | cons p l ih =>
      simp only [euc, List.map_cons, List.flatMap_cons, Ch.euc, List.length_append, List.length_cons, List.length_nil] at ih ⊢
      omega
  have ha : euc (g.ascii.map Ch.asc) = g.ascii := by
    generalize g.ascii = l
    induction l with
    | nil => rfl
    | cons p l ih =>
      simp only [euc, List.map_cons, List.flatMap_cons, Ch.euc] at ih ⊢
      rw [ih]; rfl
  unfold Seg.jis
  rw [jloop_append, jloop_append, jloop_append, hesc, Option.bind_some, jloop_kanji n 36 _ o hg.1 (by omega), Option.bind_some, hback, Option.bind_some,
    jloop_ascii n 40 _ _ hg.2 (by rw [List.length_append, hl]; omega)]
  have ht : euc g.text = euc (g.kanji.map fun p => Ch.kj p.1 p.2) ++ euc (g.ascii.map Ch.asc) := by
    simp [euc, Seg.text]
  rw [ht, ha, List.append_assoc]

theorem jis_len (g : Seg) : 2 * g.kanji.length + g.ascii.length + 6 = g.jis.length := by
  have : (g.kanji.flatMap fun p => [32 + p.1, 32 + p.2]).length = 2 * g.kanji.length := by
    generalize g.kanji = l
    induction l with
    | nil => rfl
    | cons p l ih => simp only [List.flatMap_cons, List.length_append, List.length_cons, List.length_nil] at ih ⊢; omega
  simp only [Seg.jis, List.length_append, this, List.length_cons, List.length_nil]
  omega

theorem text_len (g : Seg) : (euc g.text).length = 2 * g.kanji.length + g.ascii.length := by
  have h1 : ∀ l : List (Nat × Nat), (euc (l.map fun p => Ch.kj p.1 p.2)).length = 2 * l.length := by
    intro l
    induction l with
    | nil => rfl
    | cons p l ih => simp only [euc, List.map_cons, List.flatMap_cons, Ch.euc, List.length_append, List.length_cons, List.length_nil] at ih ⊢; omega
  have h2 : ∀ l : List Nat, (euc (l.map Ch.asc)).length = l.length := by
    intro l
    induction l with
    | nil => rfl
    | cons p l ih => simp only [euc, List.map_cons, List.flatMap_cons, Ch.euc, List.length_append, List.length_cons, List.length_nil] at ih ⊢; omega
  have ht : euc g.text = euc (g.kanji.map fun p => Ch.kj p.1 p.2) ++ euc (g.ascii.map Ch.asc) := by
    simp [euc, Seg.text]
  rw [ht, List.length_append, h1, h2]

theorem jloop_segs (n : Nat) : ∀ (gs : List Seg) (o : List Nat) (e : Nat), (∀ g ∈ gs, g.Ok) → o.length + (gs.flatMap Seg.jis).length ≤ n →
    ∃ e', jloop n ⟨o, false, 0, e⟩ (gs.flatMap Seg.jis) = some ⟨o ++ euc (gs.flatMap Seg.text), false, 0, e'⟩
  | [], o, e, _, _ => ⟨e, by simp [jloop, euc]⟩
  | g :: gs, o, e, h, hn => by
    simp only [List.flatMap_cons, List.length_append] at hn
    have hj := jis_len g
    have ht := text_len g
    obtain ⟨e1, h1⟩ := jloop_seg n e g (h g (by simp)) o (by omega)
    obtain ⟨e2, h2⟩ := jloop_segs n gs (o ++ euc g.text) e1 (fun x hx => h x (List.mem_cons_of_mem _ hx)) (by rw [List.length_append]; omega)
    refine ⟨e2, ?_⟩
    rw [List.flatMap_cons, jloop_append, h1, Option.bind_some, h2]
    simp [euc]

/-- C205: JIS to EUC, for texts that go back to ASCII by ESC ( J -/
theorem C205_jis_partial (pre : List Nat) (gs : List Seg) (hp : ∀ c ∈ pre, c < 128 ∧ c ≠ 27) (hg : ∀ g ∈ gs, g.Ok) :
    jis2euc (pre ++ gs.flatMap Seg.jis) = some (pre ++ euc (gs.flatMap Seg.text)) := by
  unfold jis2euc
  rw [jloop_append, jloop_ascii _ 0 pre [] hp (by simp), Option.bind_some]
  obtain ⟨e, h⟩ := jloop_segs (pre ++ gs.flatMap Seg.jis).length gs ([] ++ pre) 0 hg (by simp)
  rw [h]
  simp

/-! Cases that meet the hypotheses. -/

def sample : List Ch := [.asc 65, .kj 4 2, .kj 16 1, .asc 66, .kj 63 94, .kj 64 1, .kj 79 94]

example : ∀ x ∈ sample, x.Ok ∧ ∀ r c, x = .kj r c → r ≤ 80 ∧ ¬ (r % 2 = 0 ∧ 66 ≤ r) := by
  intro x hx
  simp only [sample, List.mem_cons, List.not_mem_nil, or_false] at hx
  rcases hx with rfl | rfl | rfl | rfl | rfl | rfl | rfl <;> exact ⟨by decide, by intro r c h; cases h <;> decide⟩

example : sjis sample = [65, 0x82, 0xa0, 0x88, 0x9f, 66, 0xe0, 0x9e, 0xe0, 0x9f, 0xe8, 0x9e] := by decide

example : jis2euc [65, 27, 36, 66, 0x24, 0x22, 27, 40, 74, 66] = some [65, 0xa4, 0xa2, 66] := by decide

/-! What goes wrong outside. -/

/-- C205: every character of every even row from 66 on becomes one of another row. -/
theorem C205_even_wrong (r c : Nat) (hr : 66 ≤ r ∧ r ≤ 94) (he : r % 2 = 0) (hc : 1 ≤ c ∧ c ≤ 94) :
    sjis2euc false (sjis [.kj r c]) = euc [.kj (r / 2 + 32) c] ∧ r / 2 + 32 ≠ r := by
  refine ⟨?_, by omega⟩
  have e : sjis [.kj r c] = [193 + (r - 1) / 2, 158 + c] := by
    simp only [sjis, List.flatMap_cons, Ch.sjis, List.flatMap_nil, List.append_nil, List.cons.injEq, and_true]
    constructor
    · rw [if_neg (by omega)]
    · rw [if_neg (by omega)]
  rw [e, sjis2euc, if_neg (by simp; omega), if_pos (by rw [sjisLead_iff]; omega), if_pos (by rw [sjisTrail_iff]; omega)]
  have h1 : sjisHi (193 + (r - 1) / 2) (158 + c) = 128 + (r / 2 + 64) := by
    unfold sjisHi
    rw [if_neg (by omega), if_neg (by omega)]
    omega
  have h2 : sjisLow (158 + c) = 32 + c := by
    unfold sjisLow
    rw [if_neg (by omega), if_neg (by omega)]
    omega
  have h3 : (0x80 : Nat) ||| (128 + (r / 2 + 64)) = 128 + (r / 2 + 64) := by
    rw [← or80 (r / 2 + 64) (by omega), ← Nat.or_assoc, Nat.or_self]
  unfold sjis2eucChar
  rw [h1, h2, h3, or80 _ (by omega)]
  simp only [sjis2euc, euc, List.flatMap_cons, Ch.euc, List.flatMap_nil, List.append_nil, List.cons.injEq, and_true]
  constructor <;> omega

/-- C205: a character of row 81 is not converted, and the one after it is taken apart. -/
theorem C205_row81_wrong : euc2sjis (euc [.kj 81 1, .kj 16 1]) = [0xf1, 0x81, 0x4f, 0xa1] ∧ sjis [.kj 81 1, .kj 16 1] = [0xe9, 0x40, 0x88, 0x9f] := by decide

/-- C205: half-width katakana (two bytes in EUC, the first 0x8e) become a letter and something else. -/
theorem C205_half_wrong : euc2sjis [0x8e, 0xb1] = [119, 0xaf] := by decide

/-- C205: an EUC text that begins with a character of a row above 63 is not recognized. -/
theorem C205_euc_wrong : sjis2euc false (euc [.kj 65 1]) ≠ euc [.kj 65 1] := by decide

/-- C205: ESC ( B, the usual way back to ASCII, is not known: it appears in the text, is repeated before every character after it, and soon the string is full. -/
theorem C205_jis_wrong :
    jis2euc [27, 36, 66, 0x24, 0x22, 27, 40, 66, 65] = some [0xa4, 0xa2, 27, 40, 66, 27, 40, 65] ∧
    jis2euc [27, 36, 66, 0x24, 0x22, 27, 40, 66, 65, 66] = none := by decide

end Eus.Kna
