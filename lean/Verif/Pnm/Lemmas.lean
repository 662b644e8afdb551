import Verif.Io.Proofs
import Verif.Pnm.Spec
set_option autoImplicit false
namespace Eus.Pnm
open Eus.Io

/-- A stream with these bytes to come; `w`: and no single bytes from the system. -/
def Rw (w : Prop) (i : In) (s : List Nat) : Prop := Reads i s ∧ (w → Wide i)

theorem read_wide (n : Nat) (o : Os) (h : ∀ g ∈ o.grants, 1 ≤ g) : ∀ g ∈ (o.read n).2.grants, 1 ≤ g := by
  unfold Os.read
  cases hg : o.grants with
  | nil => simp
  | cons a l => simp only; intro g hm; exact h g (by rw [hg]; exact List.mem_cons_of_mem _ hm)

theorem fill_wide (i : In) (h : Wide i) : Wide (fillstream i).2 := by
  unfold fillstream
  cases i.kind with
  | string => exact h
  | file =>
    simp only
    split
    · exact read_wide _ _ h
    · exact read_wide _ _ h

theorem readch_wide {i i' : In} {c : Nat} (h : Wide i) (hr : readch i = .ch c i') : Wide i' := by
  unfold readch at hr
  simp only at hr
  split at hr
  · split at hr
    · split at hr
      · cases hr; exact fill_wide i h
      · cases hr
    · cases hr
  · split at hr
    · cases hr; exact h
    · cases hr

theorem readch_rw {w : Prop} {i : In} {c : Nat} {s : List Nat} (h : Rw w i (c :: s)) :
    ∃ i', readch i = .ch c i' ∧ Rw w i' s ∧ i'.count ≠ 0 := by
  obtain ⟨⟨h1, h2, h3⟩, h4⟩ := h
  rcases readch_eq i h1 with ⟨e, _⟩ | ⟨c', s', i', a1, a2, a3, a4, a5, _, a6, _⟩
  · rw [h3] at e; cases e
  · rw [h3] at a1
    cases a1
    exact ⟨i', a2, ⟨⟨a3, a6.trans h2, a4⟩, fun hw => readch_wide (h4 hw) a2⟩, a5⟩

theorem readch_end {w : Prop} {i : In} (h : Rw w i []) : ∃ i', readch i = .eof i' ∧ Reads i' [] := by
  obtain ⟨⟨h1, h2, h3⟩, h4⟩ := h
  rcases readch_eq i h1 with ⟨_, i', a, b, c, _, d⟩ | ⟨c', s', i', a1, _⟩
  · exact ⟨i', a, b, d.trans h2, c⟩
  · rw [h3] at a1; cases a1

theorem unread_rw {w : Prop} {i : In} {s : List Nat} (c : Nat) (h : Rw w i s) (hc : i.count ≠ 0) : Rw w (unreadch c i) (c :: s) := by
  obtain ⟨⟨h1, h2, h3⟩, h4⟩ := h
  obtain ⟨a, b, d⟩ := unread_eq c i h1 hc
  refine ⟨⟨a, d.trans h2, by rw [b, h3]⟩, fun hw => ?_⟩
  unfold unreadch
  rw [if_pos hc]
  exact h4 hw

theorem readline_rw {w : Prop} (l : List Nat) : ∀ (k : Nat) (cb : List Nat) (i : In) (s : List Nat), 10 ∉ l → l.length < k →
    Rw w i (l ++ 10 :: s) → ∃ r i', readlineLoop k cb i = .line r i' ∧ Rw w i' s := by
  induction l with
  | nil =>
    intro k cb i s _ hk h
    obtain ⟨k, rfl⟩ : ∃ m, k = m + 1 := ⟨k - 1, by simp at hk; omega⟩
    obtain ⟨i', a, b, _⟩ := readch_rw h
    exact ⟨_, i', by rw [readlineLoop, a]; exact if_pos rfl, b⟩
  | cons c l ih =>
    intro k cb i s hn hk h
    obtain ⟨k, rfl⟩ : ∃ m, k = m + 1 := ⟨k - 1, by simp at hk; omega⟩
    obtain ⟨i', a, b, _⟩ := readch_rw h
    obtain ⟨r, j, d, e⟩ := ih k (cb ++ [c]) i' s (fun hm => hn (List.mem_cons_of_mem _ hm)) (by simp at hk; omega) b
    refine ⟨r, j, ?_, e⟩
    rw [readlineLoop, a]
    simp only
    rw [if_neg (by rintro rfl; exact hn (List.mem_cons_self ..)), d]

theorem ended_white {t : List Nat} (h : Ended t) : t = [] ∨ ∃ c r, t = c :: r ∧ white c = true ∧ digit c = false := by
  rcases h with h | ⟨c, r, h, hc⟩
  · exact Or.inl h
  · refine Or.inr ⟨c, r, h, ?_⟩
    rcases hc with rfl | rfl | rfl | rfl | rfl <;> decide

theorem digit_of {c : Nat} (h : 48 ≤ c ∧ c ≤ 57) : digit c = true := by simp [digit, h.1, h.2]

theorem digit_white {c : Nat} (h : 48 ≤ c ∧ c ≤ 57) : white c = false := by
  have : c ≠ 9 ∧ c ≠ 10 ∧ c ≠ 12 ∧ c ≠ 13 ∧ c ≠ 32 := by omega
  simp [white, this]

theorem digit_blank {c : Nat} (h : 48 ≤ c ∧ c ≤ 57) : blank c = false := by
  have : c ≠ 9 ∧ c ≠ 10 ∧ c ≠ 32 := by omega
  simp [blank, this]

theorem digits_rw {w : Prop} (d : List Nat) : ∀ (k acc : Nat) (i : In) (t : List Nat), (∀ c ∈ d, 48 ≤ c ∧ c ≤ 57) → d.length < k → Ended t →
    Rw w i (d ++ t) → ∃ i', digits k acc i = .num (d.foldl (fun v c => v * 10 + (c - 48)) acc) i' ∧ Rw w i' t := by
  induction d with
  | nil =>
    intro k acc i t _ hk ht h
    obtain ⟨k, rfl⟩ : ∃ m, k = m + 1 := ⟨k - 1, by simp at hk; omega⟩
    rcases ended_white ht with rfl | ⟨c, r, rfl, hw, hd⟩
    · obtain ⟨⟨h1, h2, h3⟩, h4⟩ := h
      -- at the end of the file the stream stays as it is, but for what the system has still to say
      rcases readch_eq i h1 with ⟨_, i', a, b, c, _, d⟩ | ⟨c', s', i', a1, _⟩
      · refine ⟨i', by rw [digits, a]; rfl, ⟨b, d.trans h2, c⟩, fun hw => ?_⟩
        have hi := h4 hw
        unfold readch at a
        simp only at a
        split at a
        · split at a
          · split at a <;> cases a
          · cases a; exact fill_wide i hi
        · split at a <;> cases a
      · simp only [h3, List.nil_append] at a1; cases a1
    · obtain ⟨i', a, b, e⟩ := readch_rw h
      refine ⟨unreadch c i', ?_, unread_rw c b e⟩
      rw [digits, a]
      simp [hw, hd]
  | cons c d ih =>
    intro k acc i t hd hk ht h
    obtain ⟨k, rfl⟩ : ∃ m, k = m + 1 := ⟨k - 1, by simp at hk; omega⟩
    obtain ⟨i', a, b, _⟩ := readch_rw h
    obtain ⟨j, e, f⟩ := ih k (acc * 10 + (c - 48)) i' t (fun x hx => hd x (List.mem_cons_of_mem _ hx)) (by simp at hk; omega) ht b
    refine ⟨j, ?_, f⟩
    rw [digits, a]
    simp only [digit_of (hd c (List.mem_cons_self ..)), if_true]
    exact e

theorem lispRead_rw {w : Prop} {n k : Nat} {i : In} {d t : List Nat} (hd : Numeral n d) (hk : d.length < k) (ht : Ended t) (h : Rw w i (d ++ t)) :
    ∃ i', lispRead k i = .num n i' ∧ Rw w i' t := by
  obtain ⟨h1, h2, h3⟩ := hd
  obtain ⟨k, rfl⟩ : ∃ m, k = m + 1 := ⟨k - 1, by omega⟩
  cases d with
  | nil => exact absurd rfl h1
  | cons c d =>
    obtain ⟨i', a, b, e⟩ := readch_rw h
    obtain ⟨j, f, g⟩ := digits_rw (c :: d) (k + 1) 0 (unreadch c i') t h2 hk ht (unread_rw c b e)
    refine ⟨j, ?_, g⟩
    have hc := h2 c (List.mem_cons_self ..)
    rw [lispRead, a]
    simp only [digit_of hc, digit_white hc, if_true]
    rw [h3] at f
    exact f

/-- `read-pbm-token` after the blanks. -/
def tokAfter (k : Nat) (r : C) : Tok :=
  match r with
  | .ub => .ub
  | .eof _ => .err
  | .ch c i =>
    let i := unreadch c i
    if c = 35 then
      match readline (k + 1) i with
      | .line _ i => pbmToken k i
      | .eof _ => .err
      | .ub => .ub
    else lispRead (k + 1) i

theorem pbmToken_succ (k : Nat) (i : In) : pbmToken (k + 1) i = tokAfter k (skipBlanks (k + 1) i) := by
  rw [pbmToken]
  rfl

theorem tokAfter_rw {w : Prop} {n : Nat} {d t : List Nat} (hd : Numeral n d) (ht : Ended t) (g : List Gap) :
    ∀ (m k : Nat) (i : In), (gaps g ++ d).length < m → (gaps g ++ d).length ≤ k → Rw w i (gaps g ++ d ++ t) →
      ∃ i', tokAfter k (skipBlanks m i) = .num n i' ∧ Rw w i' t := by
  induction g with
  | nil =>
    intro m k i hm hk h
    obtain ⟨m, rfl⟩ : ∃ x, m = x + 1 := ⟨m - 1, by omega⟩
    simp only [gaps, List.map_nil, List.flatten_nil, List.nil_append] at hm hk h
    obtain ⟨c, d', rfl⟩ : ∃ c d', d = c :: d' := by
      cases d with
      | nil => exact absurd rfl hd.1
      | cons c d => exact ⟨c, d, rfl⟩
    have hc := hd.2.1 c (List.mem_cons_self ..)
    obtain ⟨i', a, b, e⟩ := readch_rw h
    obtain ⟨j, f, g⟩ := lispRead_rw (k := k + 1) hd (by omega) ht (unread_rw c b e)
    refine ⟨j, ?_, g⟩
    rw [skipBlanks, a]
    simp only [digit_blank hc, Bool.false_eq_true, if_false, tokAfter]
    rw [if_neg (by omega)]
    exact f
  | cons x g ih =>
    intro m k i hm hk h
    obtain ⟨m, rfl⟩ : ∃ x, m = x + 1 := ⟨m - 1, by omega⟩
    cases x with
    | blank c hc =>
      have e1 : gaps (Gap.blank c hc :: g) = c :: gaps g := rfl
      rw [e1] at hm hk h
      simp only [List.cons_append, List.length_cons] at hm hk h
      obtain ⟨i', a, b, _⟩ := readch_rw h
      obtain ⟨j, f, g'⟩ := ih m k i' (by omega) (by omega) b
      refine ⟨j, ?_, g'⟩
      rw [skipBlanks, a]
      have : blank c = true := by rcases hc with rfl | rfl | rfl <;> rfl
      simp only [this, if_true]
      exact f
    | comment l hl =>
      have e1 : gaps (Gap.comment l hl :: g) = 35 :: (l ++ 10 :: gaps g) := by simp [gaps, Gap.bytes]
      rw [e1] at hm hk h
      simp only [List.cons_append, List.append_assoc] at h
      simp only [List.cons_append, List.append_assoc, List.length_cons, List.length_append] at hm hk
      obtain ⟨i', a, b, e⟩ := readch_rw h
      have hu := unread_rw 35 b e
      rw [← List.cons_append] at hu
      obtain ⟨r, j, f1, f2⟩ := readline_rw (35 :: l) (k + 1) [] _ _ (by simp [hl]) (by simp; omega) hu
      obtain ⟨k, rfl⟩ : ∃ x, k = x + 1 := ⟨k - 1, by omega⟩
      obtain ⟨j', g1, g2⟩ := ih (k + 1) k j (by simp; omega) (by simp; omega) (by simpa using f2)
      refine ⟨j', ?_, g2⟩
      rw [skipBlanks, a]
      have : blank 35 = false := rfl
      simp only [this, Bool.false_eq_true, if_false, tokAfter, if_true]
      rw [readline, f1]
      simp only
      rw [pbmToken_succ]
      exact g1

theorem token_rw {w : Prop} {n k : Nat} {i : In} {s t : List Nat} (hs : Field n s) (ht : Ended t) (hk : s.length < k) (h : Rw w i (s ++ t)) :
    ∃ i', pbmToken k i = .num n i' ∧ Rw w i' t := by
  obtain ⟨c, hc, g, d, rfl, hd⟩ := hs
  obtain ⟨k, rfl⟩ : ∃ m, k = m + 1 := ⟨k - 1, by omega⟩
  rw [pbmToken_succ]
  exact tokAfter_rw hd ht _ (k + 1) k i hk (by omega) h

theorem field_ended {n : Nat} {s t : List Nat} (h : Field n s) : Ended (s ++ t) := by
  obtain ⟨c, hc, g, d, rfl, _⟩ := h
  refine Or.inr ⟨c, gaps g ++ d ++ t, by simp [gaps, Gap.bytes], ?_⟩
  omega

/-- The head is read. -/
theorem head_rw {w : Prop} {k magic x y : Nat} {i : In} {s t : List Nat} (buf0 : Option (List Nat)) (hs : Head magic x y s)
    (hk : s.length < k) (h : Rw w i (s ++ t)) :
    ∃ i' c, Field 255 c ∧ c.length < k ∧ Rw w i' (c ++ t)
      ∧ readPnm k buf0 i = if x * y > 4096 * 4096 then .err else readBody k magic x y (buf0.getD (newBuf magic (x * y))) i' := by
  obtain ⟨a, b, c, rfl, ha, hb, hc⟩ := hs
  simp only [List.length_append, List.length_cons, List.length_nil] at hk
  simp only [List.append_assoc, List.cons_append, List.nil_append] at h
  obtain ⟨i1, a1, b1, _⟩ := readch_rw h
  obtain ⟨i2, a2, b2, _⟩ := readch_rw b1
  obtain ⟨i3, a3, b3⟩ := token_rw (k := k) ha (field_ended hb) (by omega) b2
  obtain ⟨i4, a4, b4⟩ := token_rw (k := k) hb (field_ended hc) (by omega) b3
  refine ⟨i4, c, hc, by omega, b4, ?_⟩
  simp only [readPnm, a1, a2, a3, a4]
  rfl

/-! ### The pixels -/

theorem pgmLoop_eq (k : Nat) : ∀ (n off : Nat) (buf : List Nat) (i : In), buf.length = n → n - off < k → off ≤ n →
    (i.os.data.length < n - off → pgmLoop k n off buf i = some none)
    ∧ (n - off ≤ i.os.data.length → ∃ i', pgmLoop k n off buf i = some (some (buf.take off ++ i.os.data.take (n - off), i'))) := by
  induction k with
  | zero => intro n off buf i _ h; cases h
  | succ k ih =>
    intro n off buf i hb hk ho
    unfold pgmLoop
    by_cases hlt : off < n
    · rw [if_pos hlt]
      have hmin : min buf.length (n - off) = n - off := by omega
      unfold uread
      simp only [hmin]
      clear hmin
      have hd := read_data (n - off) i.os
      have hl := read_len (n - off) i.os
      rw [if_pos (Or.inl (by omega))]
      simp only
      by_cases hz : (i.os.read (n - off)).1.length = 0
      · rw [if_pos hz]
        have hnil := read_nil _ _ (by omega) (List.length_eq_zero_iff.mp hz)
        exact ⟨fun _ => rfl, fun h => by rw [hnil] at h; simp at h; omega⟩
      · rw [if_neg hz]
        generalize hr : (i.os.read (n - off)).1 = r at hd hl hz
        generalize (i.os.read (n - off)).2 = os' at hd
        obtain ⟨ih1, ih2⟩ := ih n (off + r.length) (buf.take off ++ (r ++ buf.drop (off + r.length))) { i with os := os' } (by simp; omega) (by omega) (by omega)
        have hlen : i.os.data.length = r.length + os'.data.length := by rw [← hd]; simp
        refine ⟨fun h => ih1 (by simp only; clear ih1 ih2 ih; omega), fun h => ?_⟩
        obtain ⟨i', a⟩ := ih2 (by simp only; clear ih1 ih2 ih; omega)
        clear ih1 ih2 ih
        refine ⟨i', ?_⟩
        rw [a]
        congr 3
        rw [← List.append_assoc, List.take_append_of_le_length (by simp; omega), List.take_of_length_le (by simp; omega), ← hd,
          List.take_append (i := n - off), List.take_of_length_le hl, List.append_assoc, Nat.sub_sub]
    · rw [if_neg hlt]
      have : n - off = 0 := by omega
      rw [this]
      refine ⟨fun h => absurd h (Nat.not_lt_zero _), fun _ => ⟨i, ?_⟩⟩
      simp
      rw [List.take_of_length_le (by omega)]

theorem rest_split {i : In} {s : List Nat} (h : Reads i s) : tailString i ++ i.os.data = s := by
  obtain ⟨_, h2, h3⟩ := h
  rw [← h3]
  simp [In.rest, tailString, h2]

theorem binaryPgm_eq {w : Prop} {k x y : Nat} {i : In} {c s : List Nat} {e : Nat} (hc : Field 255 c) (he : Ended [e]) (hk : c.length < k)
    (h : Rw w i (c ++ e :: s)) :
    (s.length < x * y → binaryPgm k x y i = .err) ∧ (x * y ≤ s.length → ∃ i', binaryPgm k x y i = .gray x y (s.take (x * y)) i') := by
  have het : Ended (e :: s) := by
    rcases he with he | ⟨c, r, he, hh⟩
    · cases he
    · cases he; exact Or.inr ⟨_, _, rfl, hh⟩
  obtain ⟨i1, a1, b1⟩ := token_rw hc het hk h
  obtain ⟨i2, a2, b2, _⟩ := readch_rw b1
  have hr := rest_split b2.1
  simp only [binaryPgm, a1, a2, ne_eq, not_true_eq_false, if_false]
  generalize x * y = n
  generalize tailString i2 = l at hr ⊢
  subst hr
  have hd : (discard i2).os = i2.os := rfl
  by_cases hl : n ≤ l.length
  · rw [pgmLoop, if_neg (by omega)]
    simp only
    refine ⟨fun h => by simp at h; omega, fun _ => ⟨discard i2, ?_⟩⟩
    simp only [replace, List.length_replicate, List.drop_replicate, Nat.sub_eq_zero_of_le hl, List.replicate_zero, List.append_nil]
    rw [List.take_append_of_le_length hl]
  · have hlen : (replace (List.replicate n 0) l).length = n := by simp [replace]; omega
    obtain ⟨q1, q2⟩ := pgmLoop_eq (n + 1) n l.length _ (discard i2) hlen (by omega) (by omega)
    rw [hd] at q1 q2
    refine ⟨fun h => ?_, fun h => ?_⟩
    · rw [q1 (by simp at h; omega)]
    · obtain ⟨i', q⟩ := q2 (by simp at h; omega)
      refine ⟨i', ?_⟩
      rw [q]
      simp only
      congr 1
      have e1 : (replace (List.replicate n 0) l).take l.length = l := by
        simp only [replace, List.length_replicate, List.take_of_length_le (show l.length ≤ n by omega)]
        exact List.take_left
      rw [e1, List.take_append, List.take_of_length_le (show l.length ≤ n by omega)]

theorem ppmLoop_eq (k : Nat) : ∀ (n off : Nat) (buf : List Nat) (i : In), buf.length = n → n - off + 1 < k → off ≤ n → i.os.data.length = n - off →
    ∃ i', ppmLoop k n off buf i = some (buf.take off ++ i.os.data, i') := by
  induction k with
  | zero => intro n off buf i _ h; cases h
  | succ k ih =>
    intro n off buf i hb hk ho hn
    unfold ppmLoop
    rw [if_neg (by omega)]
    have hmin : min buf.length (n - off) = n - off := by omega
    unfold uread
    simp only [hmin]
    clear hmin
    have hd := read_data (n - off) i.os
    have hl := read_len (n - off) i.os
    rw [if_pos (Or.inl (by omega))]
    simp only
    by_cases hz : (i.os.read (n - off)).1.length = 0
    · rw [if_neg (by omega)]
      have hnil : (i.os.read (n - off)).1 = [] := List.length_eq_zero_iff.mp hz
      have h0 : i.os.data = [] := by
        by_cases h0 : n - off = 0
        · exact List.length_eq_zero_iff.mp (by omega)
        · exact read_nil _ _ (by omega) hnil
      refine ⟨{ i with os := (i.os.read (n - off)).2 }, ?_⟩
      rw [hnil, h0]
      rw [h0] at hn
      simp at hn
      simp
      rw [List.take_of_length_le (by omega)]
    · rw [if_pos (by omega)]
      generalize hr : (i.os.read (n - off)).1 = r at hd hl hz
      generalize (i.os.read (n - off)).2 = os' at hd
      have hlen : i.os.data.length = r.length + os'.data.length := by rw [← hd]; simp
      obtain ⟨i', a⟩ := ih n (off + r.length) (buf.take off ++ (r ++ buf.drop (off + r.length))) { i with os := os' } (by simp; omega) (by omega) (by omega)
        (by simp only; omega)
      refine ⟨i', ?_⟩
      rw [a, ← hd, ← List.append_assoc, List.take_append_of_le_length (by simp; omega), List.take_of_length_le (by simp; omega), List.append_assoc]

/-- A wide enough read returns what it is asked for. -/
theorem read_all {n : Nat} {o : Os} (hn : n ≤ 2) (h : ∀ g ∈ o.grants, 1 ≤ g) (hd : n ≤ o.data.length) : (o.read n).1.length = n := by
  unfold Os.read
  cases hg : o.grants with
  | nil => simp; omega
  | cons a l =>
    have := h a (by rw [hg]; exact List.mem_cons_self ..)
    simp
    omega

theorem binaryPpm_eq {k x y : Nat} {i : In} {c s : List Nat} {e : Nat} (hc : Field 255 c) (he : Ended [e]) (hk : c.length < k)
    (h : Rw True i (c ++ e :: s)) (hs : s.length = x * y * 3) :
    ∃ i', binaryPpm k (List.replicate (x * y * 3) 0) x y i = .color x y s i' := by
  have het : Ended (e :: s) := by
    rcases he with he | ⟨c, r, he, hh⟩
    · cases he
    · cases he; exact Or.inr ⟨_, _, rfl, hh⟩
  obtain ⟨i1, a1, b1⟩ := token_rw hc het hk h
  obtain ⟨i2, a2, b2, _⟩ := readch_rw b1
  have hr := rest_split b2.1
  have hw := b2.2 trivial
  simp only [binaryPpm, a1, a2, ne_eq, not_true_eq_false, if_false]
  obtain ⟨m, hm⟩ : ∃ m, x * y = m := ⟨_, rfl⟩
  rw [hm] at hs ⊢
  generalize tailString i2 = l at hr ⊢
  subst hr
  rw [List.length_append] at hs
  have hll : (replace (List.replicate (m * 3) 0) l).length = m * 3 := by simp [replace]; omega
  have e1 : (replace (List.replicate (m * 3) 0) l).take l.length = l := by
    simp only [replace, List.length_replicate, List.take_of_length_le (show l.length ≤ m * 3 by omega)]
    exact List.take_left
  generalize replace (List.replicate (m * 3) 0) l = buf at hll e1
  unfold align
  by_cases h3 : l.length % 3 > 0
  · rw [if_pos h3]
    obtain ⟨rd, hrd⟩ : ∃ rd, 3 - l.length % 3 = rd := ⟨_, rfl⟩
    rw [hrd]
    have hb1 : rd ≤ 2 := by omega
    have hb2 : rd ≤ i2.os.data.length := by omega
    have hmin : min buf.length rd = rd := by omega
    unfold uread
    simp only [hmin]
    have hd := read_data rd i2.os
    have hl := read_all hb1 hw hb2
    rw [if_pos (Or.inl (by omega))]
    simp only
    generalize (i2.os.read rd).1 = r at hd hl
    generalize (i2.os.read rd).2 = os' at hd
    have hlen : i2.os.data.length = r.length + os'.data.length := by rw [← hd]; simp
    obtain ⟨i', q⟩ := ppmLoop_eq (m * 3 + 2) (m * 3) (l.length + rd) (buf.take l.length ++ (r ++ buf.drop (l.length + r.length))) { i2 with os := os' }
      (by simp; omega) (by omega) (by omega) (by simp only; omega)
    refine ⟨i', ?_⟩
    rw [q]
    simp only
    congr 1
    rw [← List.append_assoc, List.take_append_of_le_length (by simp; omega), List.take_of_length_le (by simp; omega), e1, ← hd, List.append_assoc]
  · rw [if_neg h3]
    simp only
    obtain ⟨i', q⟩ := ppmLoop_eq (m * 3 + 2) (m * 3) l.length buf i2 hll (by omega) (by omega) (by omega)
    exact ⟨i', by rw [q, e1]⟩

theorem asciiLoop_eq {w : Prop} {k : Nat} {vs s : List Nat} (hn : Numbers vs s) : ∀ (j : Nat) (buf : List Nat) (i : In) (t : List Nat),
    j + vs.length ≤ buf.length → s.length < k → Ended t → Rw w i (s ++ t) →
      ∃ i', asciiLoop k vs.length j buf i = .inl (some (buf.take j ++ vs ++ buf.drop (j + vs.length), i')) ∧ Rw w i' t := by
  induction hn with
  | nil =>
    intro j buf i t _ _ _ h
    exact ⟨i, by simp [asciiLoop], h⟩
  | @cons v vs a s hv ha hs ih =>
    intro j buf i t hj hk ht h
    simp only [List.length_cons, List.length_append, List.append_assoc] at hj hk h
    have he : Ended (s ++ t) := by
      cases hs with
      | nil => exact ht
      | cons _ hf _ => rw [List.append_assoc]; exact field_ended hf
    obtain ⟨i1, a1, b1⟩ := token_rw ha he (show a.length < k by omega) h
    obtain ⟨i2, a2, b2⟩ := ih (j + 1) (buf.set j (v % 256)) i1 t (by simp; omega) (by omega) ht b1
    refine ⟨i2, ?_, b2⟩
    simp only [List.length_cons, asciiLoop, a1]
    rw [if_pos (by omega), a2]
    have hm : v % 256 = v := Nat.mod_eq_of_lt (by omega)
    congr 3
    rw [hm, List.take_add_one, List.take_set, List.set_eq_of_length_le (by simp; omega), List.getElem?_set_self (by omega),
      List.drop_set_of_lt (by omega)]
    simp
    omega

/-! ### Writing -/

theorem dec_numeral (n : Nat) : Numeral n (dec n) := by
  induction n using Nat.strongRecOn with
  | _ n ih =>
    rw [dec]
    by_cases h : n < 10
    · rw [if_pos h]
      refine ⟨by simp, ?_, by simp⟩
      intro c hc
      simp at hc
      omega
    · rw [if_neg h]
      obtain ⟨_, h2, h3⟩ := ih (n / 10) (by omega)
      refine ⟨by simp, ?_, ?_⟩
      · intro c hc
        rcases List.mem_append.mp hc with hc | hc
        · exact h2 c hc
        · simp at hc; omega
      · rw [List.foldl_append, h3]
        simp
        omega

theorem dec_field (n : Nat) : Field n (32 :: dec n) := ⟨32, Or.inl rfl, [], dec n, rfl, dec_numeral n⟩

theorem flush_sys {o o' : Out} (h : o.sys = []) (hf : flushstream o = .ok o') : o'.sys = [] := by
  unfold flushstream at hf
  rw [h] at hf
  split at hf
  · cases hf; exact h
  · split at hf
    · cases hf; rfl
    · split at hf
      · split at hf
        · cases hf
        · cases hf; rfl
      · cases hf; exact h

theorem writestr_sys (k : Nat) : ∀ (s : List Nat) (o o' : Out), o.sys = [] → writestr k s o = .ok o' → o'.sys = [] := by
  induction k with
  | zero => intro s o o' _ h; cases h
  | succ k ih =>
    intro s o o' hs h
    unfold writestr at h
    split at h
    · cases h; exact hs
    · split at h
      next o1 h1 =>
        have hs1 : o1.sys = [] := by
          split at h1
          · exact flush_sys hs h1
          · cases h1; exact hs
        split at h
        · cases h
        · simp only at h
          split at h
          · cases h
          · refine ih _ _ _ ?_ h
            exact hs1
      next r hr => exact absurd h (hr o')

theorem header_eq {magic x y : Nat} {o : Out} (ho : Opened o) :
    ∃ o' s, header magic x y 255 o = .ok o' ∧ Head magic x y s ∧ o'.file = s ++ [10] ∧ o'.sys = [] ∧ o'.count = 0 := by
  obtain ⟨h1, h2, h3, h4, h5⟩ := ho
  have hh : o.Healthy := by intro r hr; rw [h5] at hr; cases hr
  unfold header
  simp only
  generalize hs : [80, magic, 32] ++ dec x ++ [32] ++ dec y ++ [32] ++ dec 255 ++ [10] = s
  obtain ⟨o1, a1, b1, _⟩ := writestr_step (s.length + 1) s o (Nat.lt_succ_self _) h1 (fun _ => hh) (fun h => by rw [h2] at h; cases h)
  have s1 := writestr_sys _ _ _ _ h5 a1
  rw [a1]
  simp only
  obtain ⟨o2, a2, b2, c2⟩ := flush_file o1 b1.good (b1.kind.trans h2) (b1.healthy h2)
  have s2 := flush_sys s1 a2
  rw [a2]
  refine ⟨o2, [80, magic] ++ (32 :: dec x) ++ (32 :: dec y) ++ (32 :: dec 255), rfl, ⟨_, _, _, rfl, dec_field _, dec_field _, dec_field _⟩, ?_, s2, c2⟩
  have := b2.written
  rw [b1.written] at this
  simp only [Out.written, c2, List.take_zero, List.append_nil, h3, h4, List.nil_append] at this
  rw [this, ← hs]
  simp

end Eus.Pnm
