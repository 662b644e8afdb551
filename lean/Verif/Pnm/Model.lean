import Verif.Io.Model
set_option autoImplicit false
/-
Picture files: lisp/image/pbmfile.l:27-209 (`read-pnm`, `write-pnm`), on the streams of Verif/Io (lisp/c/eusstream.c) and the reader's numbers
(lisp/c/reader.c:198-219, 870-935, 1014-1028).

Bytes are natural numbers.  A token that is not a row of decimal digits ended by a blank or the end of the file is the outcome `odd`: what `read`
makes of it is in Verif/Rd and is not followed here.  `MAXTOKENLENGTH` is left out.
-/
namespace Eus.Pnm
open Eus.Io

/-! ### Tokens -/

/-- Outcome of reading a token: a number; an error; something else than a number; undefined behaviour. -/
inductive Tok where
  | num (n : Nat) (i : In)
  | err
  | odd
  | ub
deriving DecidableEq, Repr

/-- reader.c:49-76: the characters of the syntax type white. -/
def white (c : Nat) : Bool := c == 9 || c == 10 || c == 12 || c == 13 || c == 32

def digit (c : Nat) : Bool := 48 ≤ c && c ≤ 57

/-- reader.c:884-903 steps 8 and 10 for digits: `acc` is the value of those read.  The character that ends the token is taken back.  (The first
argument bounds the number of characters, here and below.) -/
def digits : Nat → Nat → In → Tok
  | 0, _, _ => .ub
  | k + 1, acc, i =>
    match readch i with
    | .ub => .ub
    | .eof i => .num acc i
    | .ch c i =>
      if digit c then digits k (acc * 10 + (c - 48)) i
      else if white c then .num acc (unreadch c i)
      else .odd

/-- reader.c:198-219, 1014-1028 `read`: blanks are skipped, the next character is taken back, and a token is read.  At the end of the file `read`
is an error. -/
def lispRead : Nat → In → Tok
  | 0, _ => .ub
  | k + 1, i =>
    match readch i with
    | .ub => .ub
    | .eof _ => .err
    | .ch c i =>
      if white c then lispRead k i
      else if digit c then digits (k + 1) 0 (unreadch c i)
      else .odd

/-- pbmfile.l:32-33: the characters that `read-pbm-token` skips. -/
def blank (c : Nat) : Bool := c == 32 || c == 9 || c == 10

/-- pbmfile.l:32-33: the loop over blanks: the first other character. -/
def skipBlanks : Nat → In → C
  | 0, _ => .ub
  | k + 1, i =>
    match readch i with
    | .ch c i => if blank c then skipBlanks k i else .ch c i
    | r => r

/-- pbmfile.l:29-37 `read-pbm-token`.  At the end of the file the value given to `unread-char` is not a character, which is an error
(lispio.c:273). -/
def pbmToken : Nat → In → Tok
  | 0, _ => .ub
  | k + 1, i =>
    match skipBlanks (k + 1) i with
    | .ub => .ub
    | .eof _ => .err
    | .ch c i =>
      let i := unreadch c i
      if c = 35 then
        match readline (k + 1) i with
        | .line _ i => pbmToken k i
        | .eof _ => .err
        | .ub => .ub
      else lispRead (k + 1) i

/-! ### Pictures -/

/-- Outcome of `read-pnm`: a picture of one byte per pixel; one of three; an error; an odd token; a store outside an array (or another undefined
behaviour). -/
inductive Res where
  | gray (w h : Nat) (pix : List Nat) (i : In)
  | color (w h : Nat) (pix : List Nat) (i : In)
  | err
  | odd
  | ub
deriving DecidableEq, Repr

/-- `(replace a b)` -/
def replace (a b : List Nat) : List Nat := b.take a.length ++ a.drop b.length

/-- stream.l:59 `:tail-string` -/
def tailString (i : In) : List Nat := (i.buf.take i.tail).drop i.count

/-- stream.l:54-55 `:discard` -/
def discard (i : In) : In := { i with count := max i.tail (i.count + 1) }

/-- pbmfile.l:64-67, 123-134: the loop of `read-ascii-pgm` and `read-ascii-ppm`: `n` numbers are still to come, the next one goes to place `j`. -/
def asciiLoop (k : Nat) : Nat → Nat → List Nat → In → Option (List Nat × In) ⊕ Tok
  | 0, _, buf, i => .inl (some (buf, i))
  | n + 1, j, buf, i =>
    match pbmToken k i with
    | .num v i => if j < buf.length then asciiLoop k n (j + 1) (buf.set j (v % 256)) i else .inl none
    | t => .inr t

/-- The error, the odd token or the undefined behaviour of reading a token. -/
def Tok.res : Tok → Res
  | .err => .err
  | .odd => .odd
  | _ => .ub

/-- pbmfile.l:57-70 `read-ascii-pgm` -/
def asciiPgm (k : Nat) (buf : List Nat) (w h : Nat) (i : In) : Res :=
  match pbmToken k i with
  | .num m i =>
    if m ≠ 255 then .err
    else match asciiLoop k (w * h) 0 buf i with
    | .inl (some (buf, i)) => .gray w h buf i
    | .inl none => .err
    | .inr t => t.res
  | t => t.res

/-- pbmfile.l:114-138 `read-ascii-ppm` -/
def asciiPpm (k : Nat) (buf : List Nat) (w h : Nat) (i : In) : Res :=
  match pbmToken k i with
  | .num m i =>
    if m ≠ 255 then .err
    else match asciiLoop k (3 * (w * h)) 0 buf i with
    | .inl (some (buf, i)) => .color w h buf i
    | .inl none => .err
    | .inr t => t.res
  | t => t.res

/-- pbmfile.l:84-91: the loop of `read-binary-pgm` -/
def pgmLoop : Nat → Nat → Nat → List Nat → In → Option (Option (List Nat × In))
  | 0, _, _, _, _ => none
  | k + 1, size, offset, img, i =>
    if offset < size then
      match uread img (size - offset) offset i.os with
      | none => none
      | some (img, u, os) => if u = 0 then some none else pgmLoop k size (offset + u) img { i with os := os }
    else some (some (img, i))

/-- pbmfile.l:72-95 `read-binary-pgm`: the buffer given is not used. -/
def binaryPgm (k : Nat) (w h : Nat) (i : In) : Res :=
  let size := w * h
  match pbmToken k i with
  | .num m i =>
    if m ≠ 255 then .err
    else
      let img := List.replicate size 0
      match readch i with
      | .ub => .ub
      | .eof _ => .err
      | .ch _ i =>
        let img1 := tailString i
        match pgmLoop (size + 1) size img1.length (replace img img1) (discard i) with
        | none => .ub
        | some none => .err
        | some (some (img, i)) => .gray w h img i
  | t => t.res

/-- pbmfile.l:110-111: the loop of `read-binary-ppm`.  With a negative size the system call fails (EINVAL). -/
def ppmLoop : Nat → Nat → Nat → List Nat → In → Option (List Nat × In)
  | 0, _, _, _, _ => none
  | k + 1, buflen, offset, rgb, i =>
    if buflen < offset then some (rgb, i)
    else match uread rgb (buflen - offset) offset i.os with
    | none => none
    | some (rgb, u, os) => if u > 0 then ppmLoop k buflen (offset + u) rgb { i with os := os } else some (rgb, { i with os := os })

/-- pbmfile.l:105-109: bytes are read up to a pixel's end.  What `uread` returns is not looked at. -/
def align (offset : Nat) (rgb : List Nat) (i : In) : Option (Nat × List Nat × In) :=
  if offset % 3 > 0 then
    let rdlen := 3 - offset % 3
    match uread rgb rdlen offset i.os with
    | none => none
    | some (rgb, _, os) => some (offset + rdlen, rgb, { i with os := os })
  else some (offset, rgb, i)

/-- pbmfile.l:99-112 `read-binary-ppm`: the buffered rest is not discarded. -/
def binaryPpm (k : Nat) (rgb : List Nat) (w h : Nat) (i : In) : Res :=
  let buflen := w * h * 3
  match pbmToken k i with
  | .num m i =>
    if m ≠ 255 then .err
    else match readch i with
    | .ub => .ub
    | .eof _ => .err
    | .ch _ i =>
      let sbuf := tailString i
      match align sbuf.length (replace rgb sbuf) i with
      | none => .ub
      | some (offset, rgb, i) =>
        match ppmLoop (buflen + 2) buflen offset rgb i with
        | none => .ub
        | some (rgb, i) => .color w h rgb i
  | t => t.res

/-- pbmfile.l:158-162: the buffer when none is given. -/
def newBuf (ch size : Nat) : List Nat :=
  if ch = 49 ∨ ch = 52 then List.replicate ((size + 7) / 8) 0
  else if ch = 50 ∨ ch = 53 then List.replicate size 0
  else if ch = 51 ∨ ch = 54 then List.replicate (size * 3) 0
  else []

/-- pbmfile.l:151-171 `read-pnm` once the size is known.  `read-ascii-pbm` and `read-binary-pbm` are errors (39-42). -/
def readBody (k ch w h : Nat) (buf : List Nat) (i : In) : Res :=
  if ch = 50 then asciiPgm k buf w h i
  else if ch = 51 then asciiPpm k buf w h i
  else if ch = 53 then binaryPgm k w h i
  else if ch = 54 then binaryPpm k buf w h i
  else .err

/-- pbmfile.l:144-171 `read-pnm` -/
def readPnm (k : Nat) (buf0 : Option (List Nat)) (i : In) : Res :=
  match readch i with
  | .ub => .ub
  | .eof _ => .err
  | .ch p i =>
    if p ≠ 80 ∧ p ≠ 112 then .err
    else match readch i with
    | .ub => .ub
    | .eof _ => .err
    | .ch ch i =>
      match pbmToken k i with
      | .num w i =>
        match pbmToken k i with
        | .num h i =>
          if w * h > 4096 * 4096 then .err
          else readBody k ch w h (buf0.getD (newBuf ch (w * h))) i
        | t => t.res
      | t => t.res

/-! ### Writing -/

/-- `~d` of a size. -/
def dec (n : Nat) : List Nat := if n < 10 then [48 + n] else dec (n / 10) ++ [48 + n % 10]
termination_by n
decreasing_by omega

/-- unixcall.c:769-795 `(unix:write fd string)`: the file takes what the next call of `write` takes; the number is not looked at. -/
def unixWrite (pix : List Nat) (o : Out) : Out :=
  match o.sys with
  | [] => { o with file := o.file ++ pix }
  | some n :: s => { o with file := o.file ++ pix.take n, sys := s }
  | none :: s => { o with sys := s }

/-- `(format f "P5 ~d ~d ~d~%" …)`: the text goes to the stream, and `~%` empties the buffer or is an error (lispio.c:545-548). -/
def header (magic w h depth : Nat) (o : Out) : W :=
  let s := [80, magic, 32] ++ dec w ++ [32] ++ dec h ++ [32] ++ dec depth ++ [10]
  match writestr (s.length + 1) s o with
  | .ok o =>
    match flushstream o with
    | .fail _ => .err
    | r => r
  | r => r

/-- pbmfile.l:46-51 `write-pgm` -/
def writePgm (w h : Nat) (pix : List Nat) (depth : Nat) (o : Out) : W :=
  match header 53 w h depth o with
  | .ok o => .ok (unixWrite pix o)
  | r => r

/-- pbmfile.l:140-146 `write-ppm` of a picture of three bytes per pixel. -/
def writePpm (w h : Nat) (rgb : List Nat) (o : Out) : W :=
  match header 54 w h 255 o with
  | .ok o => .ok (unixWrite rgb o)
  | r => r

/-- piximage.l:122-147: the pictures that `write-pnm` tells apart: `color-image24`; `grayscale-image`; `bitmap-image` and `index-color-image`.
(The other ones are first made into a `color-image24`.) -/
inductive Pic where
  | color (w h : Nat) (rgb : List Nat)
  | gray (w h : Nat) (pix : List Nat)
  | single (w h : Nat) (pix : List Nat)
deriving DecidableEq, Repr

/-- pbmfile.l:196-202 `write-pnm` -/
def writePnm (p : Pic) (o : Out) : W :=
  match p with
  | .color w h rgb => writePpm w h rgb o
  | .gray w h pix => writePgm w h pix 255 o
  | .single _ _ _ => .ok o

end Eus.Pnm
