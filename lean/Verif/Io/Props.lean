import Verif.Io.Proofs
set_option autoImplicit false
/-
C56, C57, C90, C91: streams.
-/
namespace Eus.Io

/-- C56 (partial: every `write` takes all it is offered): whatever is written, in pieces of whatever size, with flushing in between, the file followed by the
buffer is what was there before followed by everything written, in order; nothing hangs, fails or leaves the buffer; and after `finish-output`
all of it is in the file. -/
theorem C56_file_partial (ops : List Op) (o : Out) (hg : o.Good) (hk : o.kind = .file) (hh : o.Healthy) :
    (∃ o', run ops o = .ok o' ∧ o'.Good ∧ o'.file ++ o'.buf.take o'.count = o.file ++ o.buf.take o.count ++ (ops.map Op.bytes).flatten)
    ∧ ∃ o', run (ops ++ [.finish]) o = .ok o' ∧ o'.file = o.file ++ o.buf.take o.count ++ (ops.map Op.bytes).flatten ∧ o'.count = 0 := by
  obtain ⟨o1, h1, h2⟩ := run_file ops o hg hk hh
  refine ⟨⟨o1, h1, h2.good, h2.written⟩, ?_⟩
  obtain ⟨o2, h3, h4, h5⟩ := flush_file o1 h2.good (h2.kind.trans hk) (h2.healthy hk)
  have happ : ∀ (l : List Op) (p : Out), run l p = .ok o1 → run (l ++ [.finish]) p = .ok o2 := by
    intro l
    induction l with
    | nil =>
      intro p h
      cases h
      show (match op .finish o1 with | .ok o => run [] o | .fail o => run [] o | r => r) = _
      rw [show op .finish o1 = .ok o2 from h3]
      rfl
    | cons a l ih =>
      intro p h
      rw [List.cons_append]
      unfold run at h ⊢
      cases ha : op a p with
      | ok q => rw [ha] at h; exact ih q h
      | fail q => rw [ha] at h; exact ih q h
      | err => rw [ha] at h; cases h
      | ub => rw [ha] at h; cases h
      | hang => rw [ha] at h; cases h
  refine ⟨o2, happ ops o h1, ?_, h5⟩
  have := h4.written.trans (by rw [List.append_nil, h2.written])
  rw [Out.written, h5, List.take_zero, List.append_nil] at this
  exact this

/-- `(open "f" :direction :output)` with a buffer of four bytes, the first two calls of `write` already known. -/
example : (∃ o', run [.str [1, 2, 3, 4, 5, 6], .byte 7, .finish, .str [8], .byte 9, .finish] ⟨.file, [0, 0, 0, 0], 0, [100], [some 4, some 9]⟩ = .ok o'
    ∧ o'.file = [100, 1, 2, 3, 4, 5, 6, 7, 8, 9]) := ⟨_, rfl, by decide⟩

example : (⟨.file, [0, 0, 0, 0], 0, [100], [some 4, some 9]⟩ : Out).Good ∧ (⟨.file, [0, 0, 0, 0], 0, [100], [some 4, some 9]⟩ : Out).Healthy := by
  refine ⟨by unfold Out.Good; decide, fun r h => ?_⟩
  simp at h
  rcases h with h | h
  · exact ⟨4, h, by decide⟩
  · exact ⟨9, h, by decide⟩

/-- C56: a string stream collects everything written, up to a million bytes. -/
theorem C56_string_partial (ops : List Op) (o : Out) (hg : o.Good) (hk : o.kind = .string) (hf : o.file = [])
    (hl : o.count + (ops.map Op.bytes).flatten.length < 1000000) :
    ∃ o', run ops o = .ok o' ∧ o'.Good ∧ collected o' = collected o ++ (ops.map Op.bytes).flatten ∧ o'.file = [] := by
  obtain ⟨o1, h1, h2⟩ := run_string ops o hg hk hl
  refine ⟨o1, h1, h2.good, ?_, (h2.file hk).trans hf⟩
  have := h2.written
  rw [Out.written, Out.written, h2.file hk, hf] at this
  exact this

example : (∃ o', run [.str [1, 2, 3], .byte 7, .finish, .str [8, 9]] ⟨.string, [0, 0], 0, [], []⟩ = .ok o' ∧ collected o' = [1, 2, 3, 7, 8, 9]) := ⟨_, rfl, by decide⟩

/-- C56 fails when `write` takes only a part: the rest of the buffer is forgotten, and nobody is told. -/
theorem C56_short_wrong :
    run [.str [1, 2, 3, 4], .finish, .byte 5, .finish] ⟨.file, [0, 0, 0, 0], 0, [], [some 2]⟩ = .ok ⟨.file, [5, 2, 3, 4], 0, [1, 2, 5], []⟩ := by
  decide

/-- C56 fails when `write` fails once: what is in the buffer stays there, but the characters being written are lost, and nobody is told. -/
theorem C56_error_wrong :
    run [.str [1, 2], .byte 3, .byte 4, .finish] ⟨.file, [0, 0], 0, [], [none]⟩ = .ok ⟨.file, [4, 2], 0, [1, 2, 4], []⟩ := by
  decide

/-- C56 fails for a stream without a buffer, `(make-string-output-stream 0)`: writing a string does not end, writing a character stores it
outside the buffer. -/
theorem C56_size_wrong (f : Kind) (s : List Nat) (hs : s ≠ []) (c : Nat) :
    run [.str s] ⟨f, [], 0, [], []⟩ = .hang ∧ run [.byte c] ⟨f, [], 0, [], []⟩ = .ub := by
  refine ⟨?_, rfl⟩
  simp [run, op, writestr, hs, flushstream]

/-- C57: whatever the buffer holds and however many bytes each `read` returns, reading, peeking and taking back the character
just read give the same characters as they do on the sequence of the bytes still to come, and leave the same bytes to come.  Reading from a string does not change it. -/
theorem C57_input (ops : List Rop) (i : In) (hg : i.Good) :
    ∃ i', actual ops i none = some ((ideal ops i.rest none).1, i') ∧ i'.Good ∧ i'.rest = (ideal ops i.rest none).2 ∧ (i.kind = .string → i'.buf = i.buf) :=
  actual_eq ops i none hg (fun c h => by cases h)

/-- A file of five bytes, a buffer of two, and `read` returning a single byte first. -/
example : (actual [.read, .unread, .read, .peek, .read, .read, .unread, .read, .read, .read, .read] ⟨.file, [0, 0], 0, 0, ⟨[1, 2, 3, 4, 5], [0]⟩⟩ none).map Prod.fst
    = some [some 1, some 1, some 1, some 2, some 2, some 3, some 3, some 3, some 4, some 5, none] := by decide

example : (⟨.file, [0, 0], 0, 0, ⟨[1, 2, 3, 4, 5], [0]⟩⟩ : In).Good := by unfold In.Good; decide

/-- C57: reading to the end gives all the bytes to come, then nothing any more. -/
theorem C57_all (i : In) (hg : i.Good) (k : Nat) :
    ∃ i', actual (List.replicate (i.rest.length + k) .read) i none = some (i.rest.map some ++ List.replicate k none, i') ∧ i'.rest = [] := by
  obtain ⟨i', h1, _, h2, _⟩ := C57_input (List.replicate (i.rest.length + k) .read) i hg
  have : ∀ (s : List Nat) (l : Option Nat), ideal (List.replicate (s.length + k) .read) s l = (s.map some ++ List.replicate k none, []) := by
    intro s
    induction s with
    | nil =>
      have : ∀ (k : Nat) (l : Option Nat), ideal (List.replicate k .read) [] l = (List.replicate k none, []) := by
        intro k
        induction k with
        | zero => intro l; rfl
        | succ k ih => intro l; simp only [List.replicate_succ, ideal, ih]
      intro l
      simpa using this k l
    | cons c s ih =>
      intro l
      have e : (c :: s).length + k = (s.length + k) + 1 := by simp; omega
      rw [e, List.replicate_succ]
      simp only [ideal, ih, List.map_cons, List.cons_append]
  rw [this] at h1 h2
  exact ⟨i', h1, h2⟩

/-- C57: any character can be pushed back after a read, and the next read returns it. -/
theorem C57_unread (i i' : In) (hg : i.Good) (c d : Nat) (h : readch i = .ch c i') :
    ∃ i'', readch (unreadch d i') = .ch d i'' ∧ i''.rest = i.rest.drop 1 := by
  rcases readch_eq i hg with ⟨_, j, h1, _⟩ | ⟨c', s, j, h1, h2, h3, h4, h5, _⟩
  · rw [h] at h1; cases h1
  · rw [h] at h2
    cases h2
    obtain ⟨u1, u2, _⟩ := unread_eq d i' h3 h5
    rcases readch_eq (unreadch d i') u1 with ⟨a, _⟩ | ⟨e, t, k, a, b, _, f, _⟩
    · rw [u2] at a; cases a
    · rw [u2] at a
      cases a
      exact ⟨k, b, by rw [f, h4, h1]; rfl⟩

/-- C57 fails for a second character pushed back, and for one pushed back before anything is read: it is silently dropped when the buffer
has just been filled, and kept when it has not. -/
theorem C57_unread_wrong :
    (let i : In := ⟨.file, [1, 2], 2, 2, ⟨[3, 4], []⟩⟩
     ∃ j, readch i = .ch 3 j ∧ (unreadch 2 (unreadch 3 j)).rest = [3, 4])
    ∧ (let i : In := ⟨.file, [1, 2, 3], 1, 3, ⟨[], []⟩⟩
       ∃ j, readch i = .ch 2 j ∧ (unreadch 1 (unreadch 2 j)).rest = [1, 2, 3])
    ∧ (unreadch 9 ⟨.string, [1, 2, 3], 0, 3, ⟨[], []⟩⟩).rest = [1, 2, 3] := by
  refine ⟨⟨_, rfl, ?_⟩, ⟨_, rfl, ?_⟩, ?_⟩ <;> decide

/-- C57 fails for strings when another character is pushed back: the string given to `make-string-input-stream` itself is changed. -/
theorem C57_string_wrong (c : Nat) (s : List Nat) (d : Nat) (hd : d ≠ c) :
    ∃ j, readch ⟨.string, c :: s, 0, s.length + 1, ⟨[], []⟩⟩ = .ch c j ∧ (unreadch d j).buf = d :: s ∧ (unreadch d j).buf ≠ c :: s := by
  refine ⟨⟨.string, c :: s, 1, s.length + 1, ⟨[], []⟩⟩, ?_, rfl, ?_⟩
  · simp [readch]
  · intro h
    simp [unreadch] at h
    exact hd h

/-- C90: `read-line` delivers the bytes up to the next Newline, without it and without a Return before it, and leaves what follows;
at the end of the input the bytes that are left, and only when there are none, the end. -/
theorem C90_readline (i : In) (hg : i.Good) (k : Nat) (hk : i.rest.length < k) :
    (i.rest = [] → ∃ i', readline k i = .eof i' ∧ i'.Good ∧ i'.rest = [])
    ∧ (i.rest ≠ [] → ∃ i', readline k i = .line (dropReturn (i.rest.takeWhile (· ≠ 10))) i' ∧ i'.Good ∧ i'.rest = (i.rest.dropWhile (· ≠ 10)).drop 1) := by
  rcases readlineLoop_eq k [] i hg hk with ⟨_, h1, h2⟩ | ⟨h1, h2⟩
  · exact ⟨fun _ => h2, fun h => absurd h1 h⟩
  · refine ⟨fun h => ?_, fun _ => h2⟩
    rcases h1 with h1 | h1
    · exact absurd rfl h1
    · exact absurd h h1

/-- What the Return means: dropped from the end of a line, and nothing else. -/
theorem C90_return (l : List Nat) : dropReturn (l ++ [13]) = l ∧ ∀ c, c ≠ 13 → dropReturn (l ++ [c]) = l ++ [c] := by
  constructor
  · simp [dropReturn]
  · intro c hc
    simp [dropReturn, hc]

example : (readline 9 ⟨.file, [0, 0], 0, 0, ⟨[65, 66, 13, 10, 67], [0]⟩⟩) = .line [65, 66] ⟨.file, [10, 67], 1, 2, ⟨[], []⟩⟩ := by decide

/-- C90: reading the lines of a text gives back the lines it was made of, if none of them contains a Newline or ends with a Return. -/
theorem C90_lines_partial (ls : List (List Nat)) (i : In) (hg : i.Good) (hr : i.rest = unlines ls) (hl : ∀ l ∈ ls, 10 ∉ l ∧ l.getLast? ≠ some 13)
    (k m : Nat) (hk : ls.length < k) (hm : (unlines ls).length < m) :
    ∃ i', readLines k m i = some (ls, i') ∧ i'.Good ∧ i'.rest = [] :=
  readLines_eq ls k m i hg hr hk hm hl

example : (readLines 9 9 ⟨.file, [0, 0], 0, 0, ⟨unlines [[65, 66], [], [67]], [0]⟩⟩).map Prod.fst = some [[65, 66], [], [67]] := by decide

/-- C90 fails for a line that ends with a Return: it comes back without it. -/
theorem C90_return_wrong (i : In) (hg : i.Good) (l s : List Nat) (hl : 10 ∉ l) (hr : i.rest = (l ++ [13]) ++ 10 :: s) :
    ∃ k i', readline k i = .line l i' := by
  obtain ⟨i', h, _⟩ := (C90_readline i hg (i.rest.length + 1) (Nat.lt_succ_self _)).2 (by rw [hr]; simp)
  have hn : 10 ∉ l ++ [13] := by simp [hl]
  have e : i.rest.takeWhile (· ≠ 10) = l ++ [13] := by rw [hr]; exact (firstLine_append hn).1
  rw [e, (C90_return l).1] at h
  exact ⟨_, i', h⟩

/-- C90: what is printed line by line to a file and read line by line is the same. -/
theorem C90_file_partial (ls : List (List Nat)) (hl : ∀ l ∈ ls, 10 ∉ l ∧ l.getLast? ≠ some 13) (o : Out) (hg : o.Good) (hk : o.kind = .file)
    (hh : o.Healthy) (hn : o.file = [] ∧ o.count = 0) (b : List Nat) (hb : b ≠ []) (gs : List Nat) (k m : Nat) (hkk : ls.length < k) (hm : (unlines ls).length < m) :
    ∃ o' i', run ((ls.map fun l => [Op.str l, Op.byte 10]).flatten ++ [.finish]) o = .ok o'
      ∧ readLines k m ⟨.file, b, 0, 0, ⟨o'.file, gs⟩⟩ = some (ls, i') := by
  obtain ⟨_, o', h1, h2, _⟩ := C56_file_partial (ls.map fun l => [Op.str l, Op.byte 10]).flatten o hg hk hh
  have e : ∀ ls : List (List Nat), ((ls.map fun l => [Op.str l, Op.byte 10]).flatten.map Op.bytes).flatten = unlines ls := by
    intro ls
    induction ls with
    | nil => rfl
    | cons l ls ih => simp [unlines, Op.bytes] at ih ⊢; exact ih
  rw [hn.1, hn.2, e] at h2
  simp at h2
  obtain ⟨i', h3, _⟩ := C90_lines_partial ls ⟨.file, b, 0, 0, ⟨o'.file, gs⟩⟩ ⟨Nat.le_refl _, Nat.zero_le _, fun _ => List.length_pos_iff.mpr hb⟩ (by simp [In.rest, h2])
    hl k m hkk hm
  exact ⟨o', i', h1, h3⟩

/-- C91 (partial: no offset): `(send s :read-bytes n)` delivers the next n bytes, those in the buffer first, and the stream goes on
behind them; it is an error only if there are fewer. -/
theorem C91_bytes_partial (n : Nat) (buf : List Nat) (i : In) (hg : i.Good) (hk : i.kind = .file) (hb : buf.length = n) :
    (i.rest.length < n → readBytes n buf 0 i = .err)
    ∧ (n ≤ i.rest.length → ∃ i', readBytes n buf 0 i = .ok (i.rest.take n) i' ∧ i'.Good ∧ i'.rest = i.rest.drop n) :=
  readBytes_eq n buf i hg hk hb

example : readBytes 4 [0, 0, 0, 0] 0 ⟨.file, [1, 2, 3], 1, 3, ⟨[4, 5, 6], [0]⟩⟩ = .ok [2, 3, 4, 5] ⟨.file, [1, 2, 3], 3, 3, ⟨[6], []⟩⟩ := by decide

/-- C91: `(send s :read-bytes-eof)` delivers everything to come. -/
theorem C91_eof (k : Nat) (i : In) (hg : i.Good) (hk : i.kind = .file) (hd : i.os.data.length < k) :
    ∃ i', readBytesEof k i = (i.rest, i') ∧ i'.Good ∧ i'.rest = [] :=
  readBytesEof_eq k i hg hk hd

example : (readBytesEof 9 ⟨.file, [1, 2, 3], 1, 3, ⟨[4, 5, 6, 7], [0]⟩⟩).1 = [2, 3, 4, 5, 6, 7] := by decide

/-- C91 fails with an offset: bytes that are in the stream's buffer are put at the start of the string instead of at the offset; and without a string
of the right size nothing stops the bytes from being stored behind it. -/
theorem C91_offset_wrong :
    readBytes 4 [9, 9, 9, 9] 2 ⟨.file, [1, 2, 3], 1, 3, ⟨[4, 5, 6], []⟩⟩ = .ok [2, 3, 9, 9] ⟨.file, [1, 2, 3], 3, 3, ⟨[4, 5, 6], []⟩⟩
    ∧ readBytes 4 [9, 9, 9, 9] 2 ⟨.file, [1, 2, 3], 3, 3, ⟨[4, 5, 6], []⟩⟩ = .ok [9, 9, 4, 5] ⟨.file, [1, 2, 3], 3, 3, ⟨[6], []⟩⟩
    ∧ readBytes 4 [9, 9] 0 ⟨.file, [1, 2, 3], 3, 3, ⟨[4, 5, 6, 7], []⟩⟩ = .ub := by
  refine ⟨?_, ?_, ?_⟩ <;> decide

end Eus.Io
