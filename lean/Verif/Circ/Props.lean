import Verif.Circ.Sim
import Verif.Circ.Unmark
set_option autoImplicit false
/-
C162, C163: shared and circular structure is printed so that reading gives it back; printing leaves it as it was.
-/
namespace Eus.Circ
open Spec

theorem img_nil {S : List Nat} {f : Nat → Nat} (c : Cell) : imgCell S [] f c = mapCell f c := by
  have h : ∀ v, img S [] f v = mapVal f v := by intro v; cases v <;> simp [img, mapVal]
  have hf : img S [] f = mapVal f := funext h
  cases c <;> simp [imgCell, mapCell, hf]

/-- Everything at once: the printer ends, leaves the heap as it was and no marks, and the reader, whatever is in its heap, gives the same graph, made of new objects. -/
theorem round_trip {G : Heap} {v : Val} (hG : GoodHeap G) (hv : GoodVal G v) (hQ : NoQuote G) (len lev n : Nat) (hlen : G.length ≤ len)
    (hlen0 : 0 < len) (hlev : G.length < lev) (hn : 3 * G.length < n) :
    ∃ (ts : List Tok) (st : PSt) (N : Nat), prinx n len lev G v = some (ts, st) ∧ st.heap = G ∧ st.pm = [] ∧ st.sm = [] ∧
      ∀ H : Heap, (∀ c ∈ H, ∀ k, Val.hole k ∉ parts c) → ∃ (v' : Val) (H' : Heap), (∀ m ≥ N, readx m H ts = some (v', H')) ∧ Same G v H' v' ∧
        H.length ≤ H'.length ∧ (∀ i, i < H.length → H'[i]? = H[i]?) ∧ ∀ a, v' = .ptr a → H.length ≤ a := by
  obtain ⟨st, hm, hM⟩ := mark_done hG hv n (by omega)
  obtain ⟨t, X, pm, hp, ok, hX, hpnd, hpm⟩ := print_done hG hv hQ hM len lev n hlen hlen0 hlev (by omega)
  obtain ⟨st', hu, hh, h1, h2⟩ := unmark_done hG hv hM pm hpnd hpm n (by omega)
  refine ⟨tok t, st', sz t, by simp [prinx, hm, hp, hu], hh, h1, h2, ?_⟩
  intro H hH
  have hL : Labs st.sm [] [] id H [] := by
    refine ⟨by intro j a _; simp [findlabel], ?_⟩
    intro c hc k hk; exact absurd hk (hH c hc k)
  obtain ⟨f, H', labs, post, vok, hr⟩ := (read_ok hG hM.smnd ok).1 [] id H [] (by simp) hL
  have hraw : raw st.sm [] f v = mapVal f v := by cases v <;> simp [raw, mapVal]
  refine ⟨mapVal f v, H', ?_, ⟨f, ?_, rfl, ?_⟩, post.len, post.pre, ?_⟩
  · intro m hm'
    have := hr m [] hm'
    rw [List.append_nil, hraw] at this
    simp [readx, this]
  · intro a b ha hb hab
    exact post.inj a ((hX a).2 ha) (by simp) b ((hX b).2 hb) (by simp) hab
  · intro a c ha hc
    obtain ⟨c', hc', _, h, _⟩ := post.new a ((hX a).2 ha) (by simp)
    rw [hc] at hc'; cases hc'
    rw [h, img_nil]
  · intro a ha
    cases v with
    | ptr b =>
      simp only [mapVal, Val.ptr.injEq] at ha
      obtain ⟨_, _, h, _⟩ := post.new b (vok b rfl).1 (by simp)
      exact ha ▸ h
    | _ => simp [mapVal] at ha

/-- C162.  With `*print-circle*` every finite graph of conses, vectors and strings, shared or circular in any way, is printed, and `read` gives the same graph again: the same objects shared, the same circles, made of new objects, with what was in memory before left alone; when no form `(quote x)` is in it and `*print-length*` and `*print-level*` are not reached. -/
theorem C162_print_circle_partial (G : Heap) (v : Val) (hG : GoodHeap G) (hv : GoodVal G v) (hQ : NoQuote G) (len lev n : Nat) (hlen : G.length ≤ len)
    (hlen0 : 0 < len) (hlev : G.length < lev) (hn : 3 * G.length < n) :
    ∃ (ts : List Tok) (st : PSt) (N : Nat), prinx n len lev G v = some (ts, st) ∧
      ∀ H : Heap, (∀ c ∈ H, ∀ k, Val.hole k ∉ parts c) → ∃ (v' : Val) (H' : Heap), (∀ m ≥ N, readx m H ts = some (v', H')) ∧ Same G v H' v' ∧
        (∀ i, i < H.length → H'[i]? = H[i]?) ∧ ∀ a, v' = .ptr a → H.length ≤ a := by
  obtain ⟨ts, st, N, h1, _, _, _, h2⟩ := round_trip hG hv hQ len lev n hlen hlen0 hlev hn
  refine ⟨ts, st, N, h1, fun H hH => ?_⟩
  obtain ⟨v', H', h3, h4, _, h5, h6⟩ := h2 H hH
  exact ⟨v', H', h3, h4, h5, h6⟩

/-- C163.  Printing with `*print-circle*` leaves what is printed as it was, and can be done again: the heap is the same and no mark is left; under the same conditions. -/
theorem C163_restored_partial (G : Heap) (v : Val) (hG : GoodHeap G) (hv : GoodVal G v) (hQ : NoQuote G) (len lev n : Nat) (hlen : G.length ≤ len)
    (hlen0 : 0 < len) (hlev : G.length < lev) (hn : 3 * G.length < n) :
    ∃ (ts : List Tok) (st : PSt), prinx n len lev G v = some (ts, st) ∧ st.heap = G ∧ st.pm = [] ∧ st.sm = [] := by
  obtain ⟨ts, st, N, h1, h2, h3, h4, _⟩ := round_trip hG hv hQ len lev n hlen hlen0 hlev hn
  exact ⟨ts, st, h1, h2, h3, h4⟩

/-- A vector of a circular list and of that list's own tail, twice the same string in it. -/
def demo : Heap := [.vec 2 [.ptr 1, .ptr 2], .cons (.ptr 3) (.ptr 2), .cons (.ptr 3) (.ptr 1), .str 5 0]

theorem demo_good : GoodHeap demo ∧ GoodVal demo (.ptr 0) ∧ NoQuote demo := by
  refine ⟨?_, by simp [GoodVal, demo], ?_⟩
  · intro c hc
    simp only [demo, List.mem_cons, List.not_mem_nil, or_false] at hc
    rcases hc with rfl | rfl | rfl | rfl <;> simp [parts, GoodVal, demo]
  · intro b e h
    simp [demo] at h

/-- `#(#2=(#1="hello" . #3=(#1# . #2#)) #3#)`; the numbers are given in the order in which objects are met again. -/
example : (prinx 20 100 100 demo (.ptr 0)).map Prod.fst =
    some [.vp, .lab 2, .lp, .lab 1, .str 5 0, .dot, .lab 3, .lp, .ref 1, .dot, .ref 2, .rp, .rp, .ref 3, .rp] := by decide +kernel

/-- Restored: the same heap, and printing again gives the same text. -/
example : (prinx 20 100 100 demo (.ptr 0)).map (fun r => r.2.heap) = some demo := by decide +kernel

/-- C163, what is wrong: with `*print-length*` 2 the list `(x x #1=(y) #1#)` is printed as `(x x ...)`, and afterwards the list `(y)` is `(1)`, for its number was never taken out again. -/
theorem C163_length_cut_wrong :
    let G : Heap := [.cons (.sym 0) (.ptr 1), .cons (.sym 0) (.ptr 2), .cons (.ptr 4) (.ptr 3), .cons (.ptr 4) .nil, .cons (.sym 1) .nil]
    (prinx 20 2 100 G (.ptr 0)).map (fun r => (r.1, r.2.heap[4]?)) =
      some ([.lp, .atom (.sym 0), .atom (.sym 0), .dots, .rp], some (.cons (.num 1) .nil)) := by
  decide +kernel

/-- C163, what is wrong: with `*print-level*` 2 a shared object that is too deep to be printed loses its first element too. -/
theorem C163_level_cut_wrong :
    let G : Heap := [.cons (.ptr 1) .nil, .cons (.ptr 3) (.ptr 2), .cons (.ptr 3) .nil, .cons (.sym 1) .nil]
    (prinx 20 100 2 G (.ptr 0)).map (fun r => (r.1, r.2.heap[3]?)) =
      some ([.lp, .lp, .sharp, .sharp, .rp, .rp], some (.cons (.num 1) .nil)) := by
  decide +kernel

/-- C162, what is wrong: the list `((quote . #1=(y)) #1#)` is printed as `('1 #1=(y))`. -/
theorem C162_quote_shared_wrong :
    let G : Heap := [.cons (.ptr 1) (.ptr 2), .cons .quote (.ptr 3), .cons (.ptr 3) .nil, .cons (.sym 1) .nil]
    (prinx 20 100 100 G (.ptr 0)).map Prod.fst = some [.lp, .quo, .atom (.num 1), .lab 1, .lp, .atom (.sym 1), .rp, .rp] := by
  decide +kernel

/-- C163, what is wrong: printed as `('1 '1)`, the list `((quote . #1=(y)) (quote . #1#))` is left with `(1)` in the place of `(y)`. -/
theorem C163_quote_shared_wrong :
    let G : Heap := [.cons (.ptr 1) (.ptr 2), .cons .quote (.ptr 3), .cons (.ptr 4) .nil, .cons (.sym 1) .nil, .cons .quote (.ptr 3)]
    (prinx 20 100 100 G (.ptr 0)).map (fun r => (r.1, r.2.heap[3]?)) =
      some ([.lp, .quo, .atom (.num 1), .quo, .atom (.num 1), .rp], some (.cons (.num 1) .nil)) := by
  decide +kernel

/-- C162, what is wrong: in `#1=(a '#1#)` the quoted object is not the list but the reader's own label object. -/
theorem C162_quoted_label_wrong :
    ∃ h, readx 20 [] [.lab 1, .lp, .atom (.sym 0), .quo, .ref 1, .rp] = some (.ptr 3, h) ∧ h[0]? = some (.cons (.lab 1) .nil) ∧
      h[1]? = some (.cons .quote (.ptr 0)) := by
  refine ⟨_, by rfl, by rfl, by rfl⟩

end Eus.Circ
