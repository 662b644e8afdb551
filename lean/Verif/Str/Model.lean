import Verif.Rd.Model
set_option autoImplicit false
/-
Strings: the comparisons of lisp/c/charstring.c and the functions of lisp/l/string.l.

A string is the list of its bytes.  Foreign strings and symbols given for strings are left out.  The
functions of string.l are taken as compiled: `char` and `setchar` are then compiled to accesses without
a check of the index (comp/trans.l:378-389).
-/
namespace Eus.Str

/-- Outcome: a value, an error signalled to the program, or undefined behaviour (an access outside the
string). -/
inductive Out (α : Type) where
  | ok (a : α)
  | err
  | ub
deriving DecidableEq, Repr

/-- Sequencing. -/
def Out.bind {α β : Type} : Out α → (α → Out β) → Out β
  | .ok a, f => f a
  | .err, _ => .err
  | .ub, _ => .ub

/-- `chars[i]`: the bytes of the string, the terminating zero (makes.c:152, 426), and at -1 the top byte
of the length (zero). -/
def chars (s : List Nat) (i : Int) : Out Nat :=
  if i = -1 then .ok 0
  else if i < 0 then .ub
  else if i < s.length then .ok (s.getD i.toNat 0)
  else if i = s.length then .ok 0
  else .ub

/-! ### charstring.c -/

/-- C's `strcmp` on the two strings with their terminating zeros. -/
def strcmp : List Nat → List Nat → Int
  | [], [] => 0
  | [], b :: _ => 0 - (b : Int)
  | a :: _, [] => (a : Int) - 0
  | a :: s, b :: t => if a ≠ b then (a : Int) - b else if a = 0 then 0 else strcmp s t

/-- charstring.c:138-144 `string<` -/
def STR_LT (s t : List Nat) : Bool := decide (strcmp s t < 0)
/-- charstring.c:146-152 `string<=` -/
def STR_LE (s t : List Nat) : Bool := decide (strcmp s t ≤ 0)
/-- charstring.c:162-168 `string>` -/
def STR_GT (s t : List Nat) : Bool := decide (strcmp s t > 0)
/-- charstring.c:170-176 `string>=` -/
def STR_GE (s t : List Nat) : Bool := decide (strcmp s t ≥ 0)

/-- charstring.c:107, 124-128: the loop of `STRINGEQ` and `STRINGEQUAL`; `f` is applied to the
characters before they are compared. -/
def eqLoop (f : Nat → Nat) (s t : List Nat) : Nat → Int → Int → Out Bool
  | 0, _, _ => .ok true
  | n + 1, i, j => (chars s i).bind fun a => (chars t j).bind fun b =>
    if f a ≠ f b then .ok false else eqLoop f s t n (i + 1) (j + 1)

/-- charstring.c:91-130; the positions are within the range of `int`, and so are their differences. -/
def STRINGEQ (f : Nat → Nat) (s t : List Nat) (start1 end1 start2 end2 : Int) : Out Bool :=
  let end1 := min end1 s.length
  let end2 := min end2 t.length
  let len := end1 - start1
  if len ≠ end2 - start2 then .ok false else eqLoop f s t len.toNat start1 start2

/-- string.l:118-120 `string=` -/
def string_eq (s t : List Nat) (start1 : Int := 0) (end1 : Int := 100000000) (start2 : Int := 0) (end2 : Int := 100000000) : Out Bool :=
  STRINGEQ id s t start1 end1 start2 end2

/-- charstring.c:125: `if (islower(ch1)) ch1=toupper(ch1);` -/
def fold (c : Nat) : Nat := if Rd.islower c then Rd.to_upper c else c

/-- string.l:122-124 `string-equal` -/
def string_equal (s t : List Nat) (start1 : Int := 0) (end1 : Int := 100000000) (start2 : Int := 0) (end2 : Int := 100000000) : Out Bool :=
  STRINGEQ fold s t start1 end1 start2 end2

/-- string.l:125-131: the loop of `substringp`; at most `n` rounds. -/
def subLoop (sub str : List Nat) (i : Int) (l : Int) : Nat → Int → Out Bool
  | 0, _ => .ub
  | n + 1, j =>
    if j > i then .ok false
    else (string_equal sub str 0 100000000 j (j + l)).bind fun r =>
      if r then .ok true else subLoop sub str i l n (j + 1)

/-- string.l:125-131 `substringp` -/
def substringp (sub str : List Nat) : Out Bool :=
  subLoop sub str ((str.length : Int) - sub.length) sub.length (str.length + 2) 0

/-! ### trimming -/

/-- string.l:80 `(while (position (char str n) bag) (inc n))`; `ub` when it leaves the string. -/
def leftLoop (bag str : List Nat) : Nat → Int → Out Int
  | 0, _ => .ub
  | k + 1, n => (chars str n).bind fun c => if c ∈ bag then leftLoop bag str k (n + 1) else .ok n

/-- string.l:75-81 `string-left-trim`; `subseq` is `(subseq str n (length str))`. -/
def string_left_trim (bag str : List Nat) : Out (List Nat) :=
  (leftLoop bag str (str.length + 2) 0).bind fun n => .ok (str.drop n.toNat)

/-- string.l:87 `(while (position (char str (1- leng)) bag) (dec leng))` -/
def rightLoop (bag str : List Nat) : Nat → Int → Out Int
  | 0, _ => .ub
  | k + 1, leng => (chars str (leng - 1)).bind fun c => if c ∈ bag then rightLoop bag str k (leng - 1) else .ok leng

/-- string.l:83-88 `string-right-trim`; a negative end is an error of `subseq`. -/
def string_right_trim (bag str : List Nat) : Out (List Nat) :=
  (rightLoop bag str (str.length + 2) str.length).bind fun leng => if leng < 0 then .err else .ok (str.take leng.toNat)

/-- string.l:90-91 `string-trim` -/
def string_trim (bag str : List Nat) : Out (List Nat) :=
  (string_right_trim bag str).bind fun r => string_left_trim bag r

/-! ### case -/

/-- charstring.c:76-81 `char-upcase` -/
def char_upcase (c : Nat) : Nat := if Rd.islower c then Rd.to_upper c else c
/-- charstring.c:83-88 `char-downcase` -/
def char_downcase (c : Nat) : Nat := if Rd.isupper c then Rd.to_lower c else c

/-- string.l:96-98, 104-106: the loop of `nstring-downcase` and `nstring-upcase`; storing outside the string
is undefined (the terminator included: it no longer ends the string). -/
def caseLoop (f : Nat → Nat) : Nat → Int → Int → List Nat → Out (List Nat)
  | 0, start, end_, str => if start < end_ then .ub else .ok str
  | k + 1, start, end_, str =>
    if start < end_ then
      if 0 ≤ start ∧ start < str.length then caseLoop f k (start + 1) end_ (str.set start.toNat (f (str.getD start.toNat 0))) else .ub
    else .ok str

/-- string.l:109-112 `string-upcase`, 93-107 `nstring-upcase` -/
def string_upcase (str : List Nat) (start : Int := 0) (end_ : Option Int := none) : Out (List Nat) :=
  caseLoop char_upcase str.length start (end_.getD str.length) str

/-- string.l:113-116 `string-downcase` -/
def string_downcase (str : List Nat) (start : Int := 0) (end_ : Option Int := none) : Out (List Nat) :=
  caseLoop char_downcase str.length start (end_.getD str.length) str

/-! ### URL escapes -/

/-- string.l:431-436 `url-escape-unreserved-char-p`, with `*url-escape-unreserved-characters*`
(string.l:427) "-_.~:/=?&". -/
def unreserved (c : Nat) : Bool :=
  (65 ≤ c && c ≤ 90) || (97 ≤ c && c ≤ 122) || (48 ≤ c && c ≤ 57) || c ∈ [45, 95, 46, 126, 58, 47, 61, 63, 38]

/-- string.l:437-442, 452-453 `(zero-padding (format nil "~X" c) 2)`; `down` is the case of digits the
printer uses. -/
def hex2 (down : Bool) (c : Nat) : List Nat :=
  let t := (Rd.printnum 16 down (.fix (BitVec.ofNat 64 c)) 0 0).getD []
  List.replicate (2 - t.length) 48 ++ t

/-- string.l:429-453 `escape-url` -/
def escape_url (down queryp : Bool) (s : List Nat) : List Nat :=
  s.flatMap fun c =>
    if unreserved c then [c]
    else if c = 13 then [10]
    else if queryp && c = 32 then [43]
    else 37 :: hex2 down c

/-- string.l:466-472: `(read-from-string (coerce (list #\# #\x a b) string))`, and what `write-byte` does
with it; a value that is no integer is an error. -/
def readHex (base a b : Nat) : Option Nat :=
  match (Rd.reader base [35, 120, a, b]).1 with
  | .val (.int (.fix w)) => some (w.toNat % 256)
  | _ => none

/-- string.l:460-480 `unescape-url`, on bytes below 128 (larger ones are signed characters to
`peek-char`, 255 the end of the text). -/
def unescape_url (base : Nat) (queryp : Bool) : List Nat → Out (List Nat)
  | [] => .ok []
  | c :: r =>
    if c ≥ 128 then .err
    else if c = 37 then
      match r with
      | a :: b :: r' =>
        match readHex base a b with
        | some v => (unescape_url base queryp r').bind fun t => .ok (v :: t)
        | none => .err
      | _ => .err
    else if c = 43 ∧ queryp = true then (unescape_url base queryp r).bind fun t => .ok (32 :: t)
    else (unescape_url base queryp r).bind fun t => .ok (c :: t)

/-! ### file names -/

/-- string.l:491-497 `digits-string`; the recursive calls leave `base` to its default 10.  The numbers are
integers of any size, `/` truncates; the remainder is printed in base 10. -/
def digits_string (down : Bool) : Nat → (n : Int) → (base : Int) → Option (List Nat)
  | 0, n, base => Rd.printnum 10 down (.fix (BitVec.ofInt 64 (n - n.tdiv base * base))) 0 0
  | 1, n, base => Rd.printnum 10 down (.fix (BitVec.ofInt 64 (n - n.tdiv base * base))) 0 0
  | d + 2, n, base =>
    match digits_string down (d + 1) (n.tdiv base) 10, Rd.printnum 10 down (.fix (BitVec.ofInt 64 (n - n.tdiv 10 * 10))) 0 0 with
    | some a, some b => some (a ++ b)
    | _, _ => none

/-- string.l:519-520 `sequential-file-name`: `~a` writes the strings as they are. -/
def sequential_file_name (down : Bool) (head : List Nat) (num : Int) (ext : List Nat) (digits : Nat := 4) : Option (List Nat) :=
  (digits_string down digits num 10).map fun d => head ++ d ++ 46 :: ext

/-! ### pathnames -/

/-- An entry of the directory list. -/
inductive Dir where
  | root
  | name (s : List Nat)
deriving DecidableEq, Repr

/-- A pathname; `none` is nil. -/
structure Path where
  host : Option (List Nat) := none
  device : Option (List Nat) := none
  directory : List Dir := []
  name : Option (List Nat) := none
  type : Option (List Nat) := none
  version : Option (List Nat) := none
deriving DecidableEq, Repr

/-- `(position c s :start i)` -/
def position (c : Nat) (s : List Nat) (i : Nat) : Option Nat := ((s.drop i).findIdx? (· = c)).map (· + i)

/-- `(subseq s i j)`, for positions in order. -/
def subseq (s : List Nat) (i j : Nat) : List Nat := (s.take j).drop i

/-- string.l:203-206: the loop over the directory names; the list is reversed.  At most `n` rounds. -/
def dirLoop (pn : List Nat) : Nat → Nat → List Dir → List Dir × Nat
  | 0, slash, ds => (ds, slash)
  | n + 1, slash, ds =>
    match position 47 pn slash with
    | some s =>
      let dirstr := subseq pn slash s
      dirLoop pn n (s + 1) (if dirstr.length > 0 then .name dirstr :: ds else ds)
    | none => (ds, slash)

/-- string.l:217-219: the last period. -/
def periodLoop (pn : List Nat) : Nat → Nat → Nat
  | 0, period => period
  | n + 1, period =>
    match position 46 pn period with
    | some s => periodLoop pn n (s + 1)
    | none => period

/-- string.l:182-223 `:parse-namestring` on a fresh pathname; a name starting with `~` (which looks up HOME)
is left out (`ub` here). -/
def parse (pn : List Nat) : Out Path :=
  if pn.length = 0 then .ok { host := some [], device := some [] }
  else
    let (host, slash) := match position 58 pn 0 with
      | some s => (some (subseq pn 0 s), s + 1)
      | none => (none, 0)
    if slash ≥ pn.length then .err
    else if pn.getD slash 0 = 126 then .ub
    else
      let (d0, slash) := if pn.getD slash 0 = 47 then ([Dir.root], slash + 1) else ([], slash)
      let (ds, slash) := dirLoop pn (pn.length + 1) slash d0
      let directory := ds.reverse
      let namestr := subseq pn slash pn.length
      if namestr = [46, 46] then .ok { host, directory, name := some namestr }
      else
        match position 46 pn slash with
        | none => .ok { host, directory, name := if pn.length > slash then some namestr else none }
        | some p =>
          let period := periodLoop pn (pn.length + 1) (p + 1)
          let name := subseq pn slash (period - 1)
          .ok { host, directory, name := if name = [] then none else some name, type := some (subseq pn period pn.length) }

/-- string.l:227: the names, each followed by a slash. -/
def dirNames : List Dir → List Nat
  | [] => []
  | .root :: ds => dirNames ds
  | .name s :: ds => s ++ 47 :: dirNames ds

/-- string.l:224-229 `:directory-string` -/
def directory_string (p : Path) : List Nat :=
  match p.directory with
  | .root :: ds => 47 :: dirNames ds
  | ds => dirNames ds

/-- string.l:232 `(if type (concatenate string "." type))` -/
def ftype : Option (List Nat) → List Nat
  | some t => 46 :: t
  | none => []

/-- string.l:230-235 `:namestring` -/
def namestring (p : Path) : List Nat :=
  p.host.getD [] ++ p.device.getD [] ++ directory_string p ++ p.name.getD [] ++ ftype p.type

/-- string.l:249-256 `:merge` -/
def merge (p defaults : Path) : Path where
  host := p.host.or defaults.host
  device := p.device.or defaults.device
  directory := if p.directory = [] then defaults.directory else p.directory
  name := p.name.or defaults.name
  type := p.type.or defaults.type
  version := p.version.or defaults.version

end Eus.Str
