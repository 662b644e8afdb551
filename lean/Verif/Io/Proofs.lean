import Verif.Io.Spec
set_option autoImplicit false
namespace Eus.Io

/-! ### Output -/

/-- What one operation on a healthy stream preserves. -/
structure Step (o o' : Out) (bs : List Nat) : Prop where
  good : o'.Good
  healthy : o.kind = .file → o'.Healthy
  kind : o'.kind = o.kind
  written : o'.written = o.written ++ bs
  size : o.kind = .file → o'.buf.length = o.buf.length
  file : o.kind = .string → o'.file = o.file

theorem Step.refl {o : Out} (hg : o.Good) (hh : o.kind = .file → o.Healthy) : Step o o [] :=
  ⟨hg, hh, rfl, (List.append_nil _).symm, fun _ => rfl, fun _ => rfl⟩

theorem Step.trans {o p q : Out} {a b : List Nat} (h1 : Step o p a) (h2 : Step p q b) : Step o q (a ++ b) :=
  ⟨h2.good, fun h => h2.healthy (h1.kind.trans h), h2.kind.trans h1.kind, by rw [h2.written, h1.written, List.append_assoc],
   fun h => (h2.size (h1.kind.trans h)).trans (h1.size h), fun h => (h2.file (h1.kind.trans h)).trans (h1.file h)⟩

theorem flush_file (o : Out) (hg : o.Good) (hk : o.kind = .file) (hh : o.Healthy) :
    ∃ o', flushstream o = .ok o' ∧ Step o o' [] ∧ o'.count = 0 := by
  obtain ⟨kind, buf, count, file, sys⟩ := o
  cases hk
  unfold flushstream
  by_cases hc : count = 0
  · exact ⟨_, if_pos hc, Step.refl hg fun _ => hh, hc⟩
  · simp only [hc, if_false]
    cases sys with
    | nil => exact ⟨_, rfl, ⟨⟨hg.1, Nat.zero_le _⟩, fun _ r h => (by cases h), rfl, (by simp [Out.written]), fun _ => rfl, fun h => (by cases h)⟩, rfl⟩
    | cons r s =>
      obtain ⟨k, rfl, hk⟩ := hh r List.mem_cons_self
      have h2 := hg.2
      refine ⟨_, rfl, ⟨⟨hg.1, Nat.zero_le _⟩, fun _ r h => hh r (List.mem_cons_of_mem _ h), rfl, ?_, fun _ => rfl, fun h => (by cases h)⟩, rfl⟩
      have : min k count = count := Nat.min_eq_right (Nat.le_trans h2 hk)
      simp [Out.written, this]

theorem flush_string (o : Out) (hg : o.Good) (hk : o.kind = .string) (hl : o.count < 1000000) :
    ∃ o', flushstream o = .ok o' ∧ Step o o' [] ∧ o'.count < o'.buf.length ∧ o'.count = o.count := by
  obtain ⟨kind, buf, count, file, sys⟩ := o
  cases hk
  obtain ⟨h1, h2⟩ := hg
  simp only at h1 h2 hl
  unfold flushstream
  by_cases hc : count = 0
  · exact ⟨_, if_pos hc, Step.refl ⟨h1, h2⟩ fun h => (by cases h), by simp only; omega, rfl⟩
  · simp only [hc, if_false]
    by_cases hb : buf.length = count
    · rw [if_pos hb, if_neg (by omega)]
      refine ⟨_, rfl, ⟨⟨?_, ?_⟩, fun h => (by cases h), rfl, ?_, fun h => (by cases h), fun _ => rfl⟩, ?_, rfl⟩
      · simp; omega
      · simp
      · simp [Out.written, hb]
      · simp; omega
    · rw [if_neg hb]
      exact ⟨_, rfl, Step.refl ⟨h1, h2⟩ fun h => (by cases h), by simp only; omega, rfl⟩

/-- Making room. -/
theorem room (o : Out) (hg : o.Good) (hh : o.kind = .file → o.Healthy) (hl : o.kind = .string → o.count < 1000000) :
    ∃ o', (if o.count ≥ o.buf.length then flushstream o else .ok o) = .ok o' ∧ Step o o' [] ∧ o'.count < o'.buf.length
      ∧ (o.kind = .string → o'.count = o.count) := by
  by_cases hc : o.count ≥ o.buf.length
  · rw [if_pos hc]
    cases hk : o.kind with
    | file =>
      obtain ⟨o', h1, h2, h3⟩ := flush_file o hg hk (hh hk)
      exact ⟨o', h1, h2, by rw [h3]; exact h2.good.1, fun h => (by cases h)⟩
    | string =>
      obtain ⟨o', h1, h2, h3, h4⟩ := flush_string o hg hk (hl hk)
      exact ⟨o', h1, h2, h3, fun _ => h4⟩
  · rw [if_neg hc]
    exact ⟨o, rfl, Step.refl hg hh, by omega, fun _ => rfl⟩

theorem put_step (c : Nat) (o : Out) (hg : o.Good) (hh : o.kind = .file → o.Healthy) (hc : o.count < o.buf.length) :
    ∃ o', put c o = .ok o' ∧ Step o o' [c] := by
  refine ⟨_, if_pos hc, ⟨⟨?_, ?_⟩, ?_, rfl, ?_, ?_, fun _ => rfl⟩⟩
  · simpa using hg.1
  · simp only [List.length_set]; exact hc
  · intro h
    simpa [Out.Healthy] using hh h
  · simp only [Out.written, List.append_assoc]
    congr 1
    rw [List.take_add_one, List.take_set_of_le (Nat.le_refl _)]
    simp [hc]
  · intro _
    simp

theorem writech_step (c : Nat) (o : Out) (hg : o.Good) (hh : o.kind = .file → o.Healthy) (hl : o.kind = .string → o.count < 1000000) :
    ∃ o', writech c o = .ok o' ∧ Step o o' [c] := by
  obtain ⟨o1, h1, h2, h3, _⟩ := room o hg hh hl
  obtain ⟨o2, h4, h5⟩ := put_step c o1 h2.good (fun h => h2.healthy (h2.kind ▸ h)) h3
  refine ⟨o2, ?_, by simpa using h2.trans h5⟩
  unfold writech
  by_cases hc : o.count ≥ o.buf.length
  · rw [if_pos hc] at h1 ⊢
    rw [h1]
    exact h4
  · rw [if_neg hc] at h1 ⊢
    cases h1
    exact h4

theorem copy_step (mes : List Nat) (n : Nat) (o : Out) (hg : o.Good) (hh : o.kind = .file → o.Healthy) (hn : n ≤ mes.length)
    (hr : o.count + n ≤ o.buf.length) :
    Step o { o with buf := o.buf.take o.count ++ (mes.take n ++ o.buf.drop (o.count + n)), count := o.count + n } (mes.take n) := by
  have hlen : (o.buf.take o.count ++ (mes.take n ++ o.buf.drop (o.count + n))).length = o.buf.length := by
    simp; omega
  refine ⟨⟨?_, ?_⟩, ?_, rfl, ?_, ?_, fun _ => rfl⟩
  · simp only [hlen]; exact hg.1
  · simp only [hlen]; exact hr
  · intro h r hr
    simp only [hlen]
    exact hh h r hr
  · simp only [Out.written, List.append_assoc]
    congr 1
    have e : (o.buf.take o.count).length = o.count := by simp; omega
    have e2 : (mes.take n).length = n := by simp; omega
    rw [← List.append_assoc, List.take_append_of_le_length (by simp; omega), List.take_of_length_le (by simp; omega)]
  · intro _
    exact hlen

theorem writestr_step (k : Nat) : ∀ (mes : List Nat) (o : Out), mes.length < k → o.Good → (o.kind = .file → o.Healthy)
    → (o.kind = .string → o.count + mes.length ≤ 1000000) → ∃ o', writestr k mes o = .ok o' ∧ Step o o' mes
      ∧ (o.kind = .string → o'.count = o.count + mes.length) := by
  induction k with
  | zero => intro mes o h; cases h
  | succ k ih =>
    intro mes o hk hg hh hl
    unfold writestr
    by_cases hm : mes = []
    · rw [if_pos hm]
      subst hm
      exact ⟨o, rfl, Step.refl hg hh, fun _ => rfl⟩
    · rw [if_neg hm]
      have hpos : 0 < mes.length := List.length_pos_iff.mpr hm
      obtain ⟨o1, h1, h2, h3, h4⟩ := room o hg hh (fun h => by have := hl h; omega)
      rw [h1]
      simp only
      rw [if_neg (by omega), if_neg (by omega)]
      have hs := copy_step mes (min mes.length (o1.buf.length - o1.count)) o1 h2.good (fun h => h2.healthy (h2.kind ▸ h)) (by omega) (by omega)
      obtain ⟨o2, h5, h6, h7⟩ := ih (mes.drop (min mes.length (o1.buf.length - o1.count))) _ (by simp; omega) hs.good
        (fun h => hs.healthy (hs.kind ▸ h)) (by
          intro h
          have hk : o.kind = .string := h2.kind ▸ h
          have := hl hk
          have := h4 hk
          simp
          omega)
      refine ⟨o2, h5, ?_, ?_⟩
      · have := (h2.trans hs).trans h6
        simpa using this
      · intro h
        rw [h7 (h2.kind.trans h)]
        simp [h4 h]
        omega

theorem run_file (ops : List Op) : ∀ o : Out, o.Good → o.kind = .file → o.Healthy →
    ∃ o', run ops o = .ok o' ∧ Step o o' (ops.map Op.bytes).flatten := by
  induction ops with
  | nil => intro o hg hk hh; exact ⟨o, rfl, Step.refl hg fun _ => hh⟩
  | cons p ps ih =>
    intro o hg hk hh
    have h1 : ∃ o', op p o = .ok o' ∧ Step o o' p.bytes := by
      cases p with
      | byte c => exact writech_step c o hg (fun _ => hh) (fun h => by rw [hk] at h; cases h)
      | str s =>
        obtain ⟨o', a, b, _⟩ := writestr_step (s.length + 1) s o (Nat.lt_succ_self _) hg (fun _ => hh) (fun h => by rw [hk] at h; cases h)
        exact ⟨o', a, b⟩
      | finish =>
        obtain ⟨o', a, b, _⟩ := flush_file o hg hk hh
        exact ⟨o', a, b⟩
    obtain ⟨o1, h2, h3⟩ := h1
    obtain ⟨o2, h4, h5⟩ := ih o1 h3.good (h3.kind.trans hk) (h3.healthy hk)
    exact ⟨o2, by simp only [run, h2, h4], by simpa using h3.trans h5⟩

theorem count_of_written {o : Out} (hg : o.Good) : o.count = o.written.length - o.file.length := by
  have := hg.2
  simp [Out.written]
  omega

theorem run_string (ops : List Op) : ∀ o : Out, o.Good → o.kind = .string → o.count + (ops.map Op.bytes).flatten.length < 1000000 →
    ∃ o', run ops o = .ok o' ∧ Step o o' (ops.map Op.bytes).flatten := by
  induction ops with
  | nil => intro o hg hk hl; exact ⟨o, rfl, Step.refl hg fun h => by rw [hk] at h; cases h⟩
  | cons p ps ih =>
    intro o hg hk hl
    have hf : o.kind = .file → o.Healthy := fun h => by rw [hk] at h; cases h
    rw [List.map_cons, List.flatten_cons, List.length_append] at hl
    have h1 : ∃ o', op p o = .ok o' ∧ Step o o' p.bytes := by
      cases p with
      | byte c => exact writech_step c o hg hf (fun _ => by omega)
      | str s =>
        have e : (Op.str s).bytes.length = s.length := rfl
        obtain ⟨o', a, b, _⟩ := writestr_step (s.length + 1) s o (Nat.lt_succ_self _) hg hf (fun _ => by omega)
        exact ⟨o', a, b⟩
      | finish =>
        obtain ⟨o', a, b, _⟩ := flush_string o hg hk (by omega)
        exact ⟨o', a, b⟩
    obtain ⟨o1, h2, h3⟩ := h1
    have hc : o1.count = o.count + p.bytes.length := by
      rw [count_of_written h3.good, h3.written, h3.file hk]
      have := count_of_written hg
      have h2 := hg.2
      simp [Out.written]
      omega
    obtain ⟨o2, h4, h5⟩ := ih o1 h3.good (h3.kind.trans hk) (by rw [hc]; omega)
    exact ⟨o2, by simp only [run, h2, h4], by simpa using h3.trans h5⟩

/-! ### Input -/

theorem read_data (n : Nat) (o : Os) : (o.read n).1 ++ (o.read n).2.data = o.data := by
  unfold Os.read
  cases o.grants <;> simp

theorem read_len (n : Nat) (o : Os) : (o.read n).1.length ≤ n := by
  unfold Os.read
  cases o.grants <;> simp <;> omega

theorem read_nil (n : Nat) (o : Os) (hn : 0 < n) (h : (o.read n).1 = []) : o.data = [] := by
  unfold Os.read at h
  cases hg : o.grants <;> rw [hg] at h <;> simp at h
  · rcases h with h | h
    · omega
    · exact h
  · rcases h with h | h
    · omega
    · exact h

theorem read_end (n : Nat) (o : Os) (h : o.data = []) : (o.read n).1 = [] := by
  unfold Os.read
  cases o.grants <;> simp [h]

theorem buffered {i : In} {b : Nat} (hb : i.buf[i.count]? = some b) (hc : i.count < i.tail) (ht : i.tail ≤ i.buf.length) :
    (i.buf.take i.tail).drop i.count = b :: (i.buf.take i.tail).drop (i.count + 1) := by
  obtain ⟨hl, rfl⟩ := List.getElem?_eq_some_iff.mp hb
  rw [List.drop_eq_getElem_cons (by simp; omega)]
  simp

theorem fill_file (i : In) (hg : i.Good) (hk : i.kind = .file) :
    (i.os.data = [] ∧ ∃ o, fillstream i = (false, { i with os := o }) ∧ o.data = [])
    ∨ (∃ b bs i', (b :: bs) ++ i'.os.data = i.os.data ∧ fillstream i = (true, i') ∧ i'.buf.take i'.tail = b :: bs ∧ i'.tail ≤ i'.buf.length
        ∧ i'.buf.length = i.buf.length ∧ i'.kind = .file ∧ i'.buf[0]? = some b ∧ 0 < i'.tail) := by
  have hn := hg.2.2 hk
  have hd := read_data i.buf.length i.os
  have hl := read_len i.buf.length i.os
  unfold fillstream
  rw [hk]
  simp only
  cases hr : (i.os.read i.buf.length).1 with
  | nil =>
    have := read_nil _ _ hn hr
    exact Or.inl ⟨this, _, if_pos rfl, by rw [hr] at hd; rw [List.nil_append] at hd; rw [hd, this]⟩
  | cons b bs =>
    rw [hr] at hd hl
    simp only [List.length_cons] at hl
    refine Or.inr ⟨b, bs, _, hd, if_neg (by simp), ?_, ?_, ?_, rfl, rfl, Nat.succ_pos _⟩
    · simp
    · simp
    · simp; omega

/-- Reading a character delivers the next byte. -/
theorem readch_eq (i : In) (hg : i.Good) :
    (i.rest = [] ∧ ∃ i', readch i = .eof i' ∧ i'.Good ∧ i'.rest = [] ∧ i'.buf = i.buf ∧ i'.kind = i.kind)
    ∨ (∃ c s i', i.rest = c :: s ∧ readch i = .ch c i' ∧ i'.Good ∧ i'.rest = s ∧ i'.count ≠ 0 ∧ i'.buf[i'.count - 1]? = some c
        ∧ i'.kind = i.kind ∧ (i.kind = .string → i'.buf = i.buf)) := by
  obtain ⟨h1, h2, h3⟩ := hg
  unfold readch
  simp only
  by_cases hc : i.count ≥ i.tail
  · rw [if_pos hc]
    have hd : (i.buf.take i.tail).drop i.count = [] := by
      rw [List.drop_eq_nil_iff]; simp; omega
    cases hk : i.kind with
    | string =>
      have hr : i.rest = [] := by simp [In.rest, hd, hk]
      refine Or.inl ⟨hr, i, ?_, ⟨h1, h2, h3⟩, hr, rfl, hk⟩
      simp [fillstream, hk]
    | file =>
      rcases fill_file i ⟨h1, h2, h3⟩ hk with ⟨he, o, hf, ho⟩ | ⟨b, bs, i', he, hf, ht, hl, hb, hk', h0, htp⟩
      · refine Or.inl ⟨by simp [In.rest, hd, he], { i with os := o }, by rw [hf]; rfl, ⟨h1, h2, h3⟩, by simp [In.rest, hd, ho], rfl, hk⟩
      · refine Or.inr ⟨b, bs ++ i'.os.data, { i' with count := 1 }, ?_, ?_, ?_, ?_, ?_, h0, hk', fun h => (by cases h)⟩
        · simp only [In.rest, hd, hk, if_true, List.nil_append, ← he, List.cons_append]
        · rw [hf]
          simp only [if_true, h0]
        · exact ⟨htp, hl, fun h => by simp only [hb]; exact h3 hk⟩
        · simp only [In.rest, ht, hk', if_true]
          rfl
        · simp
  · rw [if_neg hc]
    have hlt : i.count < i.buf.length := by omega
    have hb : i.buf[i.count]? = some i.buf[i.count] := List.getElem?_eq_getElem hlt
    refine Or.inr ⟨i.buf[i.count], (i.buf.take i.tail).drop (i.count + 1) ++ (if i.kind = .file then i.os.data else []), { i with count := i.count + 1 }, ?_, ?_, ?_, rfl, ?_, ?_, rfl,
      fun _ => rfl⟩
    · unfold In.rest
      rw [buffered hb (by omega) h2]
      rfl
    · rw [hb]
    · exact ⟨by simp only; omega, h2, h3⟩
    · simp
    · simp

/-- Taking back a character. -/
theorem unread_eq (c : Nat) (i : In) (hg : i.Good) (hc : i.count ≠ 0) : (unreadch c i).Good ∧ (unreadch c i).rest = c :: i.rest ∧ (unreadch c i).kind = i.kind := by
  obtain ⟨h1, h2, h3⟩ := hg
  unfold unreadch
  rw [if_pos hc]
  refine ⟨⟨by simp only; omega, by simpa using h2, by simpa using h3⟩, ?_, rfl⟩
  unfold In.rest
  simp only
  have hb : (i.buf.set (i.count - 1) c)[i.count - 1]? = some c := by
    rw [List.getElem?_set_self]; omega
  have := buffered (i := { i with buf := i.buf.set (i.count - 1) c, count := i.count - 1 }) hb (by simp only; omega) (by simpa using h2)
  simp only at this
  rw [this]
  have e : i.count - 1 + 1 = i.count := by omega
  rw [e, List.cons_append]
  congr 2
  rw [List.take_set, List.drop_set_of_lt (by omega)]

theorem unread_same (c : Nat) (i : In) (h : i.buf[i.count - 1]? = some c) : (unreadch c i).buf = i.buf := by
  unfold unreadch
  split
  · simp only
    obtain ⟨hl, rfl⟩ := List.getElem?_eq_some_iff.mp h
    exact List.set_getElem_self hl
  · rfl

theorem peek_eq (i : In) (hg : i.Good) :
    (i.rest = [] ∧ ∃ i', peekch i = .eof i' ∧ i'.Good ∧ i'.rest = [] ∧ i'.buf = i.buf ∧ i'.kind = i.kind)
    ∨ (∃ c s i', i.rest = c :: s ∧ peekch i = .ch c i' ∧ i'.Good ∧ i'.rest = c :: s ∧ i'.kind = i.kind ∧ (i.kind = .string → i'.buf = i.buf)) := by
  unfold peekch
  rcases readch_eq i hg with ⟨h1, i', h2, h3⟩ | ⟨c, s, i', h1, h2, h3, h4, h5, h6, h7, h8⟩
  · exact Or.inl ⟨h1, i', by rw [h2], h3⟩
  · obtain ⟨u1, u2, u3⟩ := unread_eq c i' h3 h5
    exact Or.inr ⟨c, s, unreadch c i', h1, by rw [h2], u1, by rw [u2, h4], u3.trans h7, fun h => (unread_same c i' h6).trans (h8 h)⟩

theorem actual_eq (ops : List Rop) : ∀ (i : In) (l : Option Nat), i.Good → (∀ c, l = some c → i.count ≠ 0 ∧ i.buf[i.count - 1]? = some c) →
    ∃ i', actual ops i l = some ((ideal ops i.rest l).1, i') ∧ i'.Good ∧ i'.rest = (ideal ops i.rest l).2 ∧ (i.kind = .string → i'.buf = i.buf) := by
  induction ops with
  | nil => intro i l hg _; exact ⟨i, rfl, hg, rfl, fun _ => rfl⟩
  | cons p ps ih =>
    intro i l hg hl
    cases p with
    | read =>
      rcases readch_eq i hg with ⟨h1, i', h2, h3, h4, h5, h6⟩ | ⟨c, s, i', h1, h2, h3, h4, h5, h6, h7, h8⟩
      · obtain ⟨j, a, b, d, e⟩ := ih i' none h3 (fun c h => by cases h)
        refine ⟨j, ?_, b, ?_, fun h => (e (h6.trans h)).trans h5⟩
        · simp only [actual, h2, a, h1, h4, ideal, Option.map_some]
        · simp only [d, h1, h4, ideal]
      · obtain ⟨j, a, b, d, e⟩ := ih i' (some c) h3 (fun c' h => by cases h; exact ⟨h5, h6⟩)
        refine ⟨j, ?_, b, ?_, fun h => (e (h7.trans h)).trans (h8 h)⟩
        · simp only [actual, h2, a, h1, h4, ideal, Option.map_some]
        · simp only [d, h1, h4, ideal]
    | peek =>
      rcases peek_eq i hg with ⟨h1, i', h2, h3, h4, h5, h6⟩ | ⟨c, s, i', h1, h2, h3, h4, h7, h8⟩
      · obtain ⟨j, a, b, d, e⟩ := ih i' none h3 (fun c h => by cases h)
        refine ⟨j, ?_, b, ?_, fun h => (e (h6.trans h)).trans h5⟩
        · simp only [actual, h2, a, h1, h4, ideal, Option.map_some]
        · simp only [d, h1, h4, ideal]
      · obtain ⟨j, a, b, d, e⟩ := ih i' none h3 (fun c' h => by cases h)
        refine ⟨j, ?_, b, ?_, fun h => (e (h7.trans h)).trans (h8 h)⟩
        · simp only [actual, h2, a, h1, h4, ideal, Option.map_some]
        · simp only [d, h1, h4, ideal]
    | unread =>
      cases l with
      | none =>
        obtain ⟨j, a, b, d, e⟩ := ih i none hg (fun c h => by cases h)
        refine ⟨j, ?_, b, ?_, e⟩
        · simp only [actual, a, Option.map_some]
          cases i.rest <;> rfl
        · rw [d]
          cases i.rest <;> rfl
      | some c =>
        obtain ⟨h1, h2⟩ := hl c rfl
        obtain ⟨u1, u2, u3⟩ := unread_eq c i hg h1
        obtain ⟨j, a, b, d, e⟩ := ih (unreadch c i) none u1 (fun c h => by cases h)
        refine ⟨j, ?_, b, ?_, fun h => (e (u3.trans h)).trans (unread_same c i h2)⟩
        · simp only [actual, a, u2, Option.map_some]
          cases i.rest <;> rfl
        · rw [d, u2]
          cases i.rest <;> rfl

/-! ### Lines -/

theorem firstLine_cons {c : Nat} {s : List Nat} (h : c ≠ 10) : firstLine (c :: s) = c :: firstLine s := by
  simp [firstLine, h]

theorem afterLine_cons {c : Nat} {s : List Nat} (h : c ≠ 10) : afterLine (c :: s) = afterLine s := by
  simp [afterLine, h]

theorem readlineLoop_eq (k : Nat) : ∀ (cb : List Nat) (i : In), i.Good → i.rest.length < k →
    (cb = [] ∧ i.rest = [] ∧ ∃ i', readlineLoop k cb i = .eof i' ∧ i'.Good ∧ i'.rest = [])
    ∨ ((cb ≠ [] ∨ i.rest ≠ []) ∧ ∃ i', readlineLoop k cb i = .line (dropReturn (cb ++ firstLine i.rest)) i' ∧ i'.Good ∧ i'.rest = afterLine i.rest) := by
  induction k with
  | zero => intro cb i _ h; cases h
  | succ k ih =>
    intro cb i hg hk
    unfold readlineLoop
    rcases readch_eq i hg with ⟨h1, i', h2, h3, h4, -⟩ | ⟨c, s, i', h1, h2, h3, h4, -⟩
    · rw [h2]
      simp only
      by_cases hc : cb = []
      · exact Or.inl ⟨hc, h1, i', by rw [if_neg (not_not_intro hc)], h3, h4⟩
      · refine Or.inr ⟨Or.inl hc, i', ?_, h3, ?_⟩
        · rw [if_pos hc, h1]
          simp [firstLine]
        · rw [h4, h1]; rfl
    · rw [h2]
      simp only
      by_cases hc : c = 10
      · refine Or.inr ⟨Or.inr (by rw [h1]; exact List.cons_ne_nil _ _), i', ?_, h3, ?_⟩
        · rw [if_pos hc, h1, hc]
          simp [firstLine]
        · rw [h4, h1, hc]
          simp [afterLine]
      · rw [if_neg hc]
        rcases ih (cb ++ [c]) i' h3 (by rw [h4]; rw [h1] at hk; simp at hk; omega) with ⟨e, _⟩ | ⟨_, j, a, b, d⟩
        · simp at e
        · refine Or.inr ⟨Or.inr (by rw [h1]; exact List.cons_ne_nil _ _), j, ?_, b, ?_⟩
          · rw [a, h4, h1, firstLine_cons hc]
            simp
          · rw [d, h4, h1, afterLine_cons hc]

theorem firstLine_append {l s : List Nat} (h : 10 ∉ l) : firstLine (l ++ 10 :: s) = l ∧ afterLine (l ++ 10 :: s) = s := by
  induction l with
  | nil => simp [firstLine, afterLine]
  | cons a l ih =>
    have ha : a ≠ 10 := fun e => h (e ▸ List.mem_cons_self)
    have := ih fun e => h (List.mem_cons_of_mem _ e)
    rw [List.cons_append, firstLine_cons ha, afterLine_cons ha, this.1, this.2]
    exact ⟨rfl, rfl⟩

theorem readLines_eq (ls : List (List Nat)) : ∀ (k m : Nat) (i : In), i.Good → i.rest = unlines ls → ls.length < k → (unlines ls).length < m →
    (∀ l ∈ ls, 10 ∉ l ∧ l.getLast? ≠ some 13) → ∃ i', readLines k m i = some (ls, i') ∧ i'.Good ∧ i'.rest = [] := by
  induction ls with
  | nil =>
    intro k m i hg hr hk hm hl
    cases k with
    | zero => cases hk
    | succ k =>
      rcases readlineLoop_eq m [] i hg (by rw [hr]; exact hm) with ⟨_, _, i', a, b, c⟩ | ⟨h, _⟩
      · exact ⟨i', by simp only [readLines, readline, a], b, c⟩
      · rcases h with h | h
        · exact absurd rfl h
        · exact absurd hr h
  | cons l ls ih =>
    intro k m i hg hr hk hm hl
    have hu : unlines (l :: ls) = l ++ 10 :: unlines ls := by simp [unlines]
    cases k with
    | zero => cases hk
    | succ k =>
      obtain ⟨hn, hc⟩ := hl l List.mem_cons_self
      rcases readlineLoop_eq m [] i hg (by rw [hr]; exact hm) with ⟨_, h, _⟩ | ⟨_, i', a, b, c⟩
      · rw [hr, hu] at h
        simp at h
      · rw [hr, hu, (firstLine_append hn).1, List.nil_append] at a
        rw [hr, hu, (firstLine_append hn).2] at c
        have hd : dropReturn l = l := if_neg hc
        rw [hd] at a
        obtain ⟨j, d, e, f⟩ := ih k m i' b c (by simpa using hk) (by rw [hu] at hm; simp at hm; omega) (fun l h => hl l (List.mem_cons_of_mem _ h))
        exact ⟨j, by simp only [readLines, readline, a, d, Option.map_some], e, f⟩

/-! ### Bytes -/

theorem readBytesLoop_eq (k : Nat) : ∀ (n off : Nat) (buf : List Nat) (i : In), buf.length = n → n - off < k → off ≤ n →
    (i.os.data.length < n - off → readBytesLoop k n off buf i = .err)
    ∧ (n - off ≤ i.os.data.length → ∃ os, readBytesLoop k n off buf i = .ok (buf.take off ++ i.os.data.take (n - off)) { i with os := os }
        ∧ os.data = i.os.data.drop (n - off)) := by
  induction k with
  | zero => intro n off buf i _ h; cases h
  | succ k ih =>
    intro n off buf i hb hk ho
    unfold readBytesLoop
    by_cases hlt : off < n
    · rw [if_pos hlt]
      have hmin : min buf.length (n - off) = n - off := by omega
      unfold uread
      simp only [hmin]
      clear hmin
      have hd := read_data (n - off) i.os
      have hl := read_len (n - off) i.os
      rw [if_pos (Or.inl (by omega))]
      simp only
      by_cases hz : (i.os.read (n - off)).1.length = 0
      · rw [if_pos hz]
        have hnil := read_nil _ _ (by omega) (List.length_eq_zero_iff.mp hz)
        exact ⟨fun _ => rfl, fun h => by rw [hnil] at h; simp at h; omega⟩
      · rw [if_neg hz]
        generalize hr : (i.os.read (n - off)).1 = r at hd hl hz
        generalize (i.os.read (n - off)).2 = os' at hd
        obtain ⟨ih1, ih2⟩ := ih n (off + r.length) (buf.take off ++ (r ++ buf.drop (off + r.length))) { i with os := os' } (by simp; omega) (by omega) (by omega)
        have hlen : i.os.data.length = r.length + os'.data.length := by rw [← hd]; simp
        refine ⟨fun h => ih1 (by simp only; clear ih1 ih2 ih; omega), fun h => ?_⟩
        obtain ⟨os, a, b⟩ := ih2 (by simp only; clear ih1 ih2 ih; omega)
        clear ih1 ih2 ih
        refine ⟨os, ?_, ?_⟩
        · rw [a]
          congr 1
          rw [← List.append_assoc, List.take_append_of_le_length (by simp; omega), List.take_of_length_le (by simp; omega), ← hd,
            List.take_append (i := n - off), List.take_of_length_le hl, List.append_assoc, Nat.sub_sub]
        · rw [b, ← hd, List.drop_append, List.drop_eq_nil_of_le hl, List.nil_append]
          congr 1
          omega
    · rw [if_neg hlt]
      have : n - off = 0 := by omega
      rw [this]
      refine ⟨fun h => absurd h (Nat.not_lt_zero _), fun _ => ⟨i.os, ?_, rfl⟩⟩
      simp
      rw [List.take_of_length_le (by omega)]

theorem readBytes_eq (n : Nat) (buf : List Nat) (i : In) (hg : i.Good) (hk : i.kind = .file) (hb : buf.length = n) :
    (i.rest.length < n → readBytes n buf 0 i = .err)
    ∧ (n ≤ i.rest.length → ∃ i', readBytes n buf 0 i = .ok (i.rest.take n) i' ∧ i'.Good ∧ i'.rest = i.rest.drop n) := by
  obtain ⟨h1, h2, h3⟩ := hg
  have hlen : ((i.buf.take i.tail).drop i.count).length = i.tail - i.count := by simp; omega
  have hrest : i.rest = (i.buf.take i.tail).drop i.count ++ i.os.data := by simp [In.rest, hk]
  have hrl : i.rest.length = i.tail - i.count + i.os.data.length := by rw [hrest, List.length_append, hlen]
  unfold readBytes
  simp only
  by_cases hl : i.tail - i.count > 0
  · rw [if_pos hl]
    have hm : min (min n buf.length) (i.tail - i.count) = min n (i.tail - i.count) := by omega
    rw [hm, Nat.zero_add]
    have hbl : (((i.buf.take i.tail).drop i.count).take (min n (i.tail - i.count)) ++ buf.drop (min n (i.tail - i.count))).length = n := by
      rw [List.length_append, List.length_take, hlen, List.length_drop]; omega
    obtain ⟨l1, l2⟩ := readBytesLoop_eq (n + 1) n (min n (i.tail - i.count)) _ { i with count := i.count + min n (i.tail - i.count) } hbl (by omega) (by omega)
    refine ⟨fun h => l1 (by simp only; clear l1 l2; omega), fun h => ?_⟩
    obtain ⟨os, a, b⟩ := l2 (by simp only; clear l1 l2; omega)
    simp only at a b
    clear l1 l2
    refine ⟨{ i with count := i.count + min n (i.tail - i.count), os := os }, ?_, ⟨by simp only; omega, h2, h3⟩, ?_⟩
    · rw [a]
      congr 1
      rw [List.take_append_of_le_length (by rw [List.length_take, hlen]; omega), List.take_take, Nat.min_self, hrest, List.take_append]
      congr 1
      · rw [List.take_eq_take_iff]
        rw [hlen]; omega
      · congr 1
        rw [hlen]; omega
    · rw [hrest, List.drop_append, List.drop_drop, hlen]
      simp only [In.rest, hk, if_true, b]
      congr 1
      · by_cases hc : n ≤ i.tail - i.count
        · rw [Nat.min_eq_left hc]
        · rw [List.drop_eq_nil_of_le (by simp; omega), List.drop_eq_nil_of_le (by simp; omega)]
      · congr 1
        omega
  · rw [if_neg hl]
    have hnil : (i.buf.take i.tail).drop i.count = [] := by rw [← List.length_eq_zero_iff, hlen]; omega
    rw [hnil, List.nil_append] at hrest
    obtain ⟨l1, l2⟩ := readBytesLoop_eq (n + 1) n 0 buf i hb (by omega) (Nat.zero_le _)
    rw [hrest]
    refine ⟨fun h => l1 (by simpa using h), fun h => ?_⟩
    obtain ⟨os, a, b⟩ := l2 (by simpa using h)
    refine ⟨{ i with os := os }, by simpa using a, ⟨h1, h2, h3⟩, ?_⟩
    simp only [In.rest, hnil, hk, if_true, b, List.nil_append, Nat.sub_zero]

theorem readEofLoop_eq (k : Nat) : ∀ (acc : List Nat) (i : In), 0 < i.buf.length → i.os.data.length < k →
    ∃ buf os, readEofLoop k acc i = (acc ++ i.os.data, { i with buf := buf, os := os }) ∧ buf.length = i.buf.length ∧ os.data = [] := by
  induction k with
  | zero => intro acc i _ h; cases h
  | succ k ih =>
    intro acc i hb hk
    have hd := read_data i.buf.length i.os
    have hl := read_len i.buf.length i.os
    unfold readEofLoop uread
    simp only [Nat.min_self, Nat.zero_add]
    rw [if_pos (Or.inl hl)]
    simp only [List.take_zero, List.nil_append]
    by_cases hz : (i.os.read i.buf.length).1.length = 0
    · rw [if_pos hz]
      have hn := List.length_eq_zero_iff.mp hz
      have hnil := read_nil _ _ hb hn
      refine ⟨_, _, by rw [hnil, List.append_nil], ?_, ?_⟩
      · simp [hn]
      · rw [hn, List.nil_append] at hd
        rw [hd, hnil]
    · rw [if_neg hz]
      obtain ⟨buf, os, a, b, c⟩ := ih (acc ++ (i.os.read i.buf.length).1) { i with buf := (i.os.read i.buf.length).1 ++ i.buf.drop (i.os.read i.buf.length).1.length, os := (i.os.read i.buf.length).2 }
        (by simp; omega) (by
          have := congrArg List.length hd
          rw [List.length_append] at this
          simp only
          omega)
      refine ⟨buf, os, ?_, by rw [b]; simp; omega, c⟩
      simp only [List.append_assoc, hd] at a
      rw [← a]
      simp

theorem readBytesEof_eq (k : Nat) (i : In) (hg : i.Good) (hk : i.kind = .file) (hd : i.os.data.length < k) :
    ∃ i', readBytesEof k i = (i.rest, i') ∧ i'.Good ∧ i'.rest = [] := by
  obtain ⟨h1, h2, h3⟩ := hg
  have hlen : ((i.buf.take i.tail).drop i.count).length = i.tail - i.count := by simp; omega
  have hrest : i.rest = (i.buf.take i.tail).drop i.count ++ i.os.data := by simp [In.rest, hk]
  unfold readBytesEof
  by_cases hl : i.tail - i.count > 0
  · rw [if_pos hl]
    obtain ⟨buf, os, a, b, c⟩ := readEofLoop_eq k ((i.buf.take i.tail).drop i.count) { i with count := max i.tail (i.count + 1) } (h3 hk) hd
    simp only at a b
    have hmax : max i.tail (i.count + 1) = i.tail := by omega
    refine ⟨{ i with count := max i.tail (i.count + 1), buf := buf, os := os }, by rw [a, hrest], ⟨?_, ?_, fun _ => ?_⟩, ?_⟩
    · simp only [hmax]; exact Nat.le_refl _
    · simp only [b]; exact h2
    · simp only [b]; exact h3 hk
    · simp only [In.rest, hmax, c]
      simp
  · rw [if_neg hl]
    have hnil : (i.buf.take i.tail).drop i.count = [] := by rw [← List.length_eq_zero_iff, hlen]; omega
    obtain ⟨buf, os, a, b, c⟩ := readEofLoop_eq k [] i (h3 hk) hd
    refine ⟨{ i with buf := buf, os := os }, by rw [a, hrest, hnil], ⟨h1, ?_, fun _ => ?_⟩, ?_⟩
    · simp only [b]; exact h2
    · simp only [b]; exact h3 hk
    · simp only [In.rest, c]
      simp
      omega

end Eus.Io
