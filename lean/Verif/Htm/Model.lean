set_option autoImplicit false
/-
HTML: lib/llib/http.l:98-107 (skip), 204-218 (extract-html), 220-221 (remove-html-tags); lib/llib/httpcgi.l:63-74 (escape-tilda), 131-135 (transpose-list).
-/
namespace Eus.Htm

/-- http.l:101-106 the loop of `skip`: the rest of the stream after the characters `all`; `left` is `skip-list` -/
def skipLoop (all : List Char) : List Char → List Char → List Char
  | [], s => s
  | _, [] => []
  | c :: left, ch :: s => if ch = c then skipLoop all left s else skipLoop all all s
termination_by _ s => s.length

/-- http.l:125 `(skip strm #\- #\- #\>)` after `<!--` -/
def skipComment (s : List Char) : List Char := skipLoop ['-', '-', '>'] ['-', '-', '>'] s

/-- an element of what read-html returns: a tag with its arguments, or text -/
inductive Item where
  | tag (name : String) (args : List String)
  | text (s : String)
deriving DecidableEq, Repr

/-- http.l:207-217 the loop of extract-html; `tag` and `end-tag` -/
def extractLoop (tag : String) : List Item → Bool → List Item → List (List Item) → List (List Item)
  | [], _, _, result => result.reverse
  | h :: l, extract, res, result =>
    match h with
    | .tag n _ =>
      if n = tag then extractLoop tag l true res result
      else if n = "/" ++ tag then extractLoop tag l false [] (res.reverse :: result)
      else if extract then extractLoop tag l extract (h :: res) result else extractLoop tag l extract res result
    | .text _ => if extract then extractLoop tag l extract (h :: res) result else extractLoop tag l extract res result

/-- http.l:204-218 -/
def extractHtml (tag : String) (l : List Item) : List (List Item) := extractLoop tag l false [] []

/-- http.l:220-221 -/
def removeTags (l : List Item) : List Item := l.filter (fun i => match i with | .tag _ _ => false | .text _ => true)

/-- httpcgi.l:63-74 escape-tilda -/
def escapeTilda : List Char → List Char
  | [] => []
  | ch :: l => if ch = '~' then '~' :: ch :: escapeTilda l else ch :: escapeTilda l

/-- httpcgi.l:131-135 transpose-list; `none` is nil -/
def transposeList {α : Type} (s : List (List (Option α))) : List (List (Option α)) :=
  (List.range (s.headD []).length).map (fun i => s.map (fun row => (row[i]?).join))

end Eus.Htm
