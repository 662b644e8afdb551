import Verif.Pnm.Lemmas
set_option autoImplicit false
/-
C197: reading and writing picture files (lisp/image/pbmfile.l).
-/
namespace Eus.Pnm
open Eus.Io

/-! ### Examples of files -/

/-- `P5⏎# by hand⏎3 2⏎255⏎` without the last newline, for the format's digit `m`. -/
def sampleHead (m : Nat) : List Nat :=
  [80, m] ++ ([10] ++ (35 :: ([32, 98, 121, 32, 104, 97, 110, 100] ++ [10])) ++ [51]) ++ [32, 50] ++ [10, 50, 53, 53]

theorem sampleHead_ok (m : Nat) : Head m 3 2 (sampleHead m) :=
  ⟨_, _, _, rfl, ⟨10, by decide, [Gap.comment [32, 98, 121, 32, 104, 97, 110, 100] (by decide)], [51], rfl, by simp [Numeral]⟩,
    ⟨32, by decide, [], [50], rfl, by simp [Numeral]⟩, ⟨10, by decide, [], [50, 53, 53], rfl, by simp [Numeral]⟩⟩

/-- A stream on a file with these contents, with a buffer of `n` bytes. -/
def opened (n : Nat) (data grants : List Nat) : In := ⟨.file, List.replicate n 0, 0, 0, ⟨data, grants⟩⟩

theorem opened_reads (n : Nat) (hn : 0 < n) (data grants : List Nat) : Reads (opened n data grants) data :=
  ⟨⟨Nat.le_refl _, Nat.zero_le _, fun _ => by simpa [opened] using hn⟩, rfl, by simp [In.rest, opened]⟩

/-! ### Reading -/

/-- A binary gray picture is read as it stands in the file, wherever its bytes are — in the stream's buffer, of any size, or still with the
system, which may hand them out in pieces of any size — whatever comments the head has and whatever follows the picture. -/
theorem C197_pgm (k w h e : Nat) (s pix more : List Nat) (i : In) (buf0 : Option (List Nat)) (hs : Head 53 w h s) (he : Ended [e])
    (hp : pix.length = w * h) (hm : w * h ≤ 4096 * 4096) (hi : Reads i (s ++ e :: (pix ++ more))) (hk : s.length < k) :
    ∃ i', readPnm k buf0 i = .gray w h pix i' := by
  obtain ⟨i1, c, hc, hl, h1, h2⟩ := head_rw (w := False) buf0 hs hk ⟨hi, fun h => h.elim⟩
  rw [h2, if_neg (by omega)]
  obtain ⟨i', h3⟩ := (binaryPgm_eq (x := w) (y := h) hc he hl h1).2 (by simp; omega)
  refine ⟨i', ?_⟩
  rw [← hp] at h3
  rw [List.take_left] at h3
  exact h3

/-- Met by a picture of 3 by 2 pixels with a comment in the head, a buffer of 16 bytes, and a system that hands out four bytes, then one, then
three; another byte follows. -/
example : Head 53 3 2 (sampleHead 53) ∧ Ended [10] ∧ Reads (opened 16 (sampleHead 53 ++ 10 :: ([1, 2, 3, 4, 5, 6] ++ [7])) [3, 0, 2]) (sampleHead 53 ++ 10 :: ([1, 2, 3, 4, 5, 6] ++ [7]))
    ∧ (∃ i', readPnm 100 none (opened 16 (sampleHead 53 ++ 10 :: ([1, 2, 3, 4, 5, 6] ++ [7])) [3, 0, 2]) = .gray 3 2 [1, 2, 3, 4, 5, 6] i') :=
  have h1 := sampleHead_ok 53
  have h2 : Ended [10] := Or.inr ⟨10, [], rfl, by decide⟩
  have h3 := opened_reads 16 (by decide) (sampleHead 53 ++ 10 :: ([1, 2, 3, 4, 5, 6] ++ [7])) [3, 0, 2]
  ⟨h1, h2, h3, C197_pgm 100 3 2 10 _ [1, 2, 3, 4, 5, 6] [7] _ none h1 h2 rfl (by decide) h3 (by decide)⟩

/-- A file that ends too early is an error. -/
theorem C197_pgm_short (k w h e : Nat) (s pix : List Nat) (i : In) (buf0 : Option (List Nat)) (hs : Head 53 w h s) (he : Ended [e])
    (hp : pix.length < w * h) (hi : Reads i (s ++ e :: pix)) (hk : s.length < k) : readPnm k buf0 i = .err := by
  obtain ⟨i1, c, hc, hl, h1, h2⟩ := head_rw (w := False) buf0 hs hk ⟨hi, fun h => h.elim⟩
  rw [h2]
  split
  · rfl
  · exact (binaryPgm_eq (x := w) (y := h) hc he hl h1).1 hp

example : readPnm 100 none (opened 16 (sampleHead 53 ++ 10 :: [1, 2, 3, 4, 5]) [3, 0, 2]) = .err :=
  C197_pgm_short 100 3 2 10 _ [1, 2, 3, 4, 5] _ none (sampleHead_ok 53) (Or.inr ⟨10, [], rfl, by decide⟩) (by decide) (opened_reads 16 (by decide) _ _) (by decide)

/-- A picture of more than 4096 · 4096 pixels is an error, in every format. -/
theorem C197_size (k magic w h : Nat) (s t : List Nat) (i : In) (buf0 : Option (List Nat)) (hs : Head magic w h s) (hm : w * h > 4096 * 4096)
    (hi : Reads i (s ++ t)) (hk : s.length < k) : readPnm k buf0 i = .err := by
  obtain ⟨i1, c, hc, hl, h1, h2⟩ := head_rw (w := False) buf0 hs hk ⟨hi, fun h => h.elim⟩
  rw [h2, if_pos hm]

example : Head 53 5000 5000 ([80, 53] ++ (32 :: [53, 48, 48, 48]) ++ (32 :: [53, 48, 48, 48]) ++ (32 :: [50, 53, 53])) ∧ 5000 * 5000 > 4096 * 4096 :=
  ⟨⟨_, _, _, rfl, ⟨32, by decide, [], [53, 48, 48, 48], rfl, by simp [Numeral]⟩, ⟨32, by decide, [], [53, 48, 48, 48], rfl, by simp [Numeral]⟩,
    ⟨32, by decide, [], [50, 53, 53], rfl, by simp [Numeral]⟩⟩, by decide⟩

/-- A gray picture written as numbers is read, and what follows it is left in the stream. -/
theorem C197_ascii_pgm (k w h : Nat) (s body pix t : List Nat) (i : In) (hs : Head 50 w h s) (hb : Numbers pix body) (ht : Ended t)
    (hp : pix.length = w * h) (hm : w * h ≤ 4096 * 4096) (hi : Reads i (s ++ body ++ t)) (hk : (s ++ body).length < k) :
    ∃ i', readPnm k none i = .gray w h pix i' ∧ Reads i' t := by
  rw [List.append_assoc] at hi
  rw [List.length_append] at hk
  obtain ⟨i1, c, hc, hl, h1, h2⟩ := head_rw (w := False) (k := k) none hs (by omega) ⟨hi, fun h => h.elim⟩
  have he : Ended (body ++ t) := by
    cases hb with
    | nil => exact ht
    | cons _ hf _ => rw [List.append_assoc]; exact field_ended hf
  obtain ⟨i2, h3, h4⟩ := token_rw hc he hl h1
  obtain ⟨i3, h5, h6⟩ := asciiLoop_eq hb 0 (List.replicate (w * h) 0) i2 t (by simp; omega) (show body.length < k by omega) ht h4
  refine ⟨i3, ?_, h6.1⟩
  rw [h2, if_neg (by omega)]
  simp [readBody, newBuf, asciiPgm, h3]
  rw [hp] at h5
  rw [h5]
  simp [hp]

/-- So is a color picture. -/
theorem C197_ascii_ppm (k w h : Nat) (s body pix t : List Nat) (i : In) (hs : Head 51 w h s) (hb : Numbers pix body) (ht : Ended t)
    (hp : pix.length = 3 * (w * h)) (hm : w * h ≤ 4096 * 4096) (hi : Reads i (s ++ body ++ t)) (hk : (s ++ body).length < k) :
    ∃ i', readPnm k none i = .color w h pix i' ∧ Reads i' t := by
  rw [List.append_assoc] at hi
  rw [List.length_append] at hk
  obtain ⟨i1, c, hc, hl, h1, h2⟩ := head_rw (w := False) (k := k) none hs (by omega) ⟨hi, fun h => h.elim⟩
  have he : Ended (body ++ t) := by
    cases hb with
    | nil => exact ht
    | cons _ hf _ => rw [List.append_assoc]; exact field_ended hf
  obtain ⟨i2, h3, h4⟩ := token_rw hc he hl h1
  obtain ⟨i3, h5, h6⟩ := asciiLoop_eq hb 0 (List.replicate (w * h * 3) 0) i2 t (by simp; omega) (show body.length < k by omega) ht h4
  refine ⟨i3, ?_, h6.1⟩
  rw [h2, if_neg (by omega)]
  simp [readBody, newBuf, asciiPpm, h3]
  rw [← hp, h5]
  simp [hp, Nat.mul_comm]

example : Numbers [7, 200] ([32, 55] ++ ([10, 50, 48, 48] ++ [])) :=
  .cons (by decide) ⟨32, by decide, [], [55], rfl, by simp [Numeral]⟩
    (.cons (by decide) ⟨10, by decide, [], [50, 48, 48], rfl, by simp [Numeral]⟩ .nil)

/-- A binary color picture is read as it stands in the file if nothing follows it and the system never hands out a single byte when two are asked
for and there (it does not, for a regular file).  Without that it is not: see below. -/
theorem C197_ppm_partial (k w h e : Nat) (s pix : List Nat) (i : In) (hs : Head 54 w h s) (he : Ended [e])
    (hp : pix.length = 3 * (w * h)) (hm : w * h ≤ 4096 * 4096) (hi : Reads i (s ++ e :: pix)) (hw : Wide i) (hk : s.length < k) :
    ∃ i', readPnm k none i = .color w h pix i' := by
  obtain ⟨i1, c, hc, hl, h1, h2⟩ := head_rw (w := True) none hs hk ⟨hi, fun _ => hw⟩
  rw [h2, if_neg (by omega)]
  exact binaryPpm_eq (x := w) (y := h) hc he hl h1 (by omega)

/-- Two color pixels. -/
def ppmHead : List Nat := [80, 54] ++ (32 :: [50]) ++ (32 :: [49]) ++ (32 :: [50, 53, 53])

theorem ppmHead_ok : Head 54 2 1 ppmHead :=
  ⟨_, _, _, rfl, ⟨32, by decide, [], [50], rfl, by simp [Numeral]⟩, ⟨32, by decide, [], [49], rfl, by simp [Numeral]⟩,
    ⟨32, by decide, [], [50, 53, 53], rfl, by simp [Numeral]⟩⟩

example : Wide (opened 11 (ppmHead ++ 10 :: [1, 2, 3, 4, 5, 6]) [])
    ∧ ∃ i', readPnm 100 none (opened 11 (ppmHead ++ 10 :: [1, 2, 3, 4, 5, 6]) []) = .color 2 1 [1, 2, 3, 4, 5, 6] i' :=
  have hw : Wide (opened 11 (ppmHead ++ 10 :: [1, 2, 3, 4, 5, 6]) []) := fun g hg => by cases hg
  ⟨hw, C197_ppm_partial 100 2 1 10 _ [1, 2, 3, 4, 5, 6] _ ppmHead_ok (Or.inr ⟨10, [], rfl, by decide⟩) rfl (by decide) (opened_reads 11 (by decide) _ _) hw (by decide)⟩

/-- The picture that was read, if one was. -/
def Res.pixels : Res → Option (List Nat)
  | .gray _ _ p _ => some p
  | .color _ _ p _ => some p
  | _ => none

/-- When the buffer holds one byte of the picture and the next `read` returns one byte of the two asked for (a pipe, a terminal, a socket), the
rest of the picture is moved by one byte and its last byte is missing. -/
theorem C197_ppm_read_wrong :
    Reads (opened 12 (ppmHead ++ 10 :: [1, 2, 3, 4, 5, 6]) [11, 0]) (ppmHead ++ 10 :: [1, 2, 3, 4, 5, 6])
    ∧ (readPnm 100 none (opened 12 (ppmHead ++ 10 :: [1, 2, 3, 4, 5, 6]) [11, 0])).pixels = some [1, 2, 0, 3, 4, 5] :=
  ⟨opened_reads 12 (by decide) _ _, by decide +kernel⟩

/-- A color picture that ends too early is no error: the missing bytes are zero. -/
theorem C197_ppm_short_wrong :
    (readPnm 100 none (opened 128 (ppmHead ++ 10 :: [1, 2, 3, 4]) [])).pixels = some [1, 2, 3, 4, 0, 0] := by decide +kernel

/-- With two color pictures in one file, bytes of the second one are stored outside the first one's array: the buffer holds a part of the
second picture, and the bytes to the next multiple of three are read behind the array's end. -/
theorem C197_ppm_more_wrong :
    readPnm 100 none (opened 21 (ppmHead ++ 10 :: ([1, 2, 3, 4, 5, 6] ++ ppmHead ++ 10 :: [1, 2, 3, 4, 5, 6])) []) = .ub := by decide +kernel

/-- The array that `read-pnm` may be given is written beyond its end if it is too short. -/
theorem C197_ppm_buffer_wrong :
    readPnm 100 (some [0, 0, 0]) (opened 12 (ppmHead ++ 10 :: [1, 2, 3, 4, 5, 6]) []) = .ub := by decide +kernel

/-- The stream after the picture. -/
def Res.stream : Res → Option In
  | .gray _ _ _ i => some i
  | .color _ _ _ i => some i
  | _ => none

/-- Of two gray pictures in one stream the second cannot be read: what the buffer held of it is thrown away. -/
theorem C197_next_wrong :
    ((readPnm 100 none (opened 128 (sampleHead 53 ++ 10 :: ([1, 2, 3, 4, 5, 6] ++ (sampleHead 53 ++ 10 :: [1, 2, 3, 4, 5, 6]))) [])).stream.map
      (readPnm 100 none)) = some .err := by decide +kernel

/-- A comment that follows a number without a blank is not accepted. -/
theorem C197_comment_wrong :
    readPnm 100 none (opened 128 ([80, 53, 10] ++ [51, 35, 120, 10] ++ [50, 10] ++ [50, 53, 53, 10] ++ [1, 2, 3, 4, 5, 6]) []) = .odd := by decide +kernel

/-! ### Writing, and reading again -/

/-- Writing a gray or a color picture to a file that takes all it is given and reading that file, with any buffer, gives the picture back (for a
color picture, with the same proviso as above). -/
theorem C197_round (w h : Nat) (pix : List Nat) (o : Out) (ho : Opened o) (hm : w * h ≤ 4096 * 4096) :
    (pix.length = w * h → ∃ o', writePnm (.gray w h pix) o = .ok o' ∧ ∀ i k, Reads i o'.file → o'.file.length ≤ k → ∃ i', readPnm k none i = .gray w h pix i')
    ∧ (pix.length = 3 * (w * h) → ∃ o', writePnm (.color w h pix) o = .ok o'
        ∧ ∀ i k, Reads i o'.file → Wide i → o'.file.length ≤ k → ∃ i', readPnm k none i = .color w h pix i') := by
  have he : Ended [10] := Or.inr ⟨10, [], rfl, by decide⟩
  constructor
  · intro hp
    obtain ⟨o1, s, a, b, c, d, _⟩ := header_eq (magic := 53) (x := w) (y := h) ho
    have hf : (unixWrite pix o1).file = s ++ 10 :: pix := by simp [unixWrite, d, c]
    refine ⟨unixWrite pix o1, by simp only [writePnm, writePgm, a], fun i k hi hk => ?_⟩
    rw [hf] at hi hk
    refine C197_pgm k w h 10 s pix [] i none b he hp hm (by simpa using hi) ?_
    rw [List.length_append, List.length_cons] at hk
    omega
  · intro hp
    obtain ⟨o1, s, a, b, c, d, _⟩ := header_eq (magic := 54) (x := w) (y := h) ho
    have hf : (unixWrite pix o1).file = s ++ 10 :: pix := by simp [unixWrite, d, c]
    refine ⟨unixWrite pix o1, by simp only [writePnm, writePpm, a], fun i k hi hw hk => ?_⟩
    rw [hf] at hi hk
    refine C197_ppm_partial k w h 10 s pix i b he hp hm hi hw ?_
    rw [List.length_append, List.length_cons] at hk
    omega

/-- What is in the file is a picture file: a head, a newline and the pixels. -/
theorem C197_write (w h : Nat) (pix : List Nat) (o : Out) (ho : Opened o) :
    (∃ o' s, writePnm (.gray w h pix) o = .ok o' ∧ Head 53 w h s ∧ o'.file = s ++ 10 :: pix ∧ o'.count = 0)
    ∧ ∃ o' s, writePnm (.color w h pix) o = .ok o' ∧ Head 54 w h s ∧ o'.file = s ++ 10 :: pix ∧ o'.count = 0 := by
  constructor
  · obtain ⟨o1, s, a, b, c, d, e⟩ := header_eq (magic := 53) (x := w) (y := h) ho
    exact ⟨unixWrite pix o1, s, by simp only [writePnm, writePgm, a], b, by simp [unixWrite, d, c], by simp [unixWrite, d, e]⟩
  · obtain ⟨o1, s, a, b, c, d, e⟩ := header_eq (magic := 54) (x := w) (y := h) ho
    exact ⟨unixWrite pix o1, s, by simp only [writePnm, writePpm, a], b, by simp [unixWrite, d, c], by simp [unixWrite, d, e]⟩

/-- A stream just opened for output, with a buffer of four bytes. -/
def out (sys : List (Option Nat)) : Out := ⟨.file, List.replicate 4 0, 0, [], sys⟩

example : Opened (out []) := ⟨⟨by decide, by decide⟩, rfl, rfl, rfl, rfl⟩

/-- The bytes in the file. -/
def fileOf : W → Option (List Nat)
  | .ok o => some o.file
  | _ => none

/-- When the system takes only a part of the pixels, the rest is lost and no error is signalled. -/
theorem C197_write_wrong :
    (fileOf (writePnm (.gray 3 2 [1, 2, 3, 4, 5, 6]) (out [some 4, some 4, some 4, some 4])))
      = some [80, 53, 32, 51, 32, 50, 32, 50, 53, 53, 10, 1, 2, 3, 4] := by
  simp [writePnm, writePgm, header, dec, out, writestr, flushstream, unixWrite, fileOf]

/-- Of a bitmap or a picture with a color table nothing is written, and no error is signalled. -/
theorem C197_single_wrong (w h : Nat) (pix : List Nat) (o : Out) (ho : Opened o) : ∃ o', writePnm (.single w h pix) o = .ok o' ∧ o'.written = [] :=
  ⟨o, rfl, by simp [Out.written, ho.2.2.1, ho.2.2.2.1]⟩

/-- A gray picture written with another largest value than 255, which `write-pgm` offers, is not read again. -/
theorem C197_depth_wrong :
    fileOf (writePgm 1 1 [9] 15 (out [])) = some [80, 53, 32, 49, 32, 49, 32, 49, 53, 10, 9]
    ∧ readPnm 100 none (opened 128 [80, 53, 32, 49, 32, 49, 32, 49, 53, 10, 9] []) = .err :=
  ⟨by simp [writePgm, header, dec, out, writestr, flushstream, unixWrite, fileOf], by decide +kernel⟩

end Eus.Pnm
