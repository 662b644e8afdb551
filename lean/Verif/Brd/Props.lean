import Verif.Brd.Spec
import Mathlib.Data.List.Basic
set_option autoImplicit false
/-
C210: broadcast streams.
-/
namespace Eus.Brd

/-- the destinations of `s` are there in `t`, in the same places from the end, and have got, with what is buffered, `w` more -/
def More (s t : BS) (w : List Nat) : Prop :=
  ∀ (i : Nat) (o : List Nat), s.outs.reverse[i]? = some o → ∃ o', t.outs.reverse[i]? = some o' ∧ o' ++ t.buf = o ++ s.buf ++ w

theorem More.trans {s t u : BS} {w v : List Nat} (h1 : More s t w) (h2 : More t u v) : More s u (w ++ v) := by
  intro i o ho
  obtain ⟨o', a, b⟩ := h1 i o ho
  obtain ⟨o2, c, d⟩ := h2 i o' a
  exact ⟨o2, c, by rw [d, b, List.append_assoc]⟩

theorem more_flush (s : BS) : More s (flush s) [] := by
  intro i o ho
  unfold flush
  split
  · exact ⟨o, ho, by simp⟩
  · refine ⟨o ++ s.buf, ?_, by simp⟩
    simp only [← List.map_reverse, List.getElem?_map, ho, Option.map_some]

theorem flush_empty (s : BS) : (flush s).buf = [] := by
  unfold flush
  split
  · rename_i h; exact List.length_eq_zero_iff.1 h
  · rfl

theorem more_room (s : BS) : More s (room s) [] := by
  unfold room
  split
  · exact more_flush s
  · intro i o ho; exact ⟨o, ho, by simp⟩

theorem room_lt (s : BS) : (room s).buf.length < cap := by
  unfold room
  split
  · rw [flush_empty]; decide
  · omega

theorem more_append (s : BS) (w : List Nat) : More s { s with buf := s.buf ++ w } w := by
  intro i o ho
  exact ⟨o, ho, by simp⟩

theorem wloop_spec : ∀ (n : Nat) (s : BS) (mes : List Nat), mes.length ≤ n → s.buf.length ≤ cap →
    More s (wloop n s mes).1 mes ∧ (wloop n s mes).2 = [] ∧ (wloop n s mes).1.buf.length ≤ cap
  | 0, s, mes, h, hs => by
    have : mes = [] := List.length_eq_zero_iff.1 (by omega)
    subst this
    exact ⟨fun i o ho => ⟨o, ho, by simp [wloop]⟩, rfl, hs⟩
  | n + 1, s, mes, h, hs => by
    unfold wloop
    split
    · rename_i hpos
      have hr := room_lt s
      obtain ⟨a, b, c⟩ := wloop_spec n (wstep s mes).1 (wstep s mes).2 (by simp only [wstep, List.length_drop]; omega)
        (by simp only [wstep, List.length_append, List.length_take]; omega)
      refine ⟨?_, b, c⟩
      have h1 : More s (wstep s mes).1 (mes.take (min mes.length (cap - (room s).buf.length))) := by
        have := (more_room s).trans (more_append (room s) (mes.take (min mes.length (cap - (room s).buf.length))))
        simpa [wstep] using this
      have := h1.trans a
      simp only [wstep, List.take_append_drop] at this
      exact this
    · have : mes = [] := List.length_eq_zero_iff.1 (by omega)
      subst this
      exact ⟨fun i o ho => ⟨o, ho, by simp⟩, rfl, hs⟩

theorem step_spec (s : BS) (o : Op) (hs : s.buf.length ≤ cap) : More s (step s o) o.written ∧ (step s o).buf.length ≤ cap := by
  cases o with
  | byte c =>
    refine ⟨?_, ?_⟩
    · have := (more_room s).trans (more_append (room s) [c])
      exact this
    · have := room_lt s
      simp only [step, writech, List.length_append, List.length_singleton]; omega
  | text mes =>
    obtain ⟨a, -, c⟩ := wloop_spec mes.length s mes (Nat.le_refl _) hs
    exact ⟨a, c⟩
  | finish => exact ⟨more_flush s, by simp only [step, flush_empty]; decide⟩
  | add t =>
    refine ⟨?_, hs⟩
    intro i o ho
    refine ⟨o, ?_, by simp [step, Op.written]⟩
    simp only [step, List.reverse_cons]
    obtain ⟨hi, -⟩ := List.getElem?_eq_some_iff.1 ho
    rw [List.getElem?_append_left hi]; exact ho

/-- C210.  Whatever is written, in whatever pieces, with destinations added in between: every destination there at the beginning has got, with
what is still in the buffer, exactly what was written, in order; the buffer never holds more than 256 bytes. -/
theorem C210_every (s : BS) (hs : s.buf.length ≤ 256) (l : List Op) :
    (run s l).buf.length ≤ 256 ∧ ∀ (i : Nat) (o : List Nat), s.outs.reverse[i]? = some o →
      ∃ o', (run s l).outs.reverse[i]? = some o' ∧ o' ++ (run s l).buf = o ++ s.buf ++ written l := by
  induction l generalizing s with
  | nil => exact ⟨hs, fun i o ho => ⟨o, ho, by simp [run, written]⟩⟩
  | cons p l ih =>
    obtain ⟨a, b⟩ := step_spec s p hs
    obtain ⟨c, d⟩ := ih (step s p) b
    refine ⟨c, ?_⟩
    have h2 : More (step s p) (run (step s p) l) (written l) := d
    have := a.trans h2
    intro i o ho
    obtain ⟨o', e1, e2⟩ := this i o ho
    exact ⟨o', e1, by simpa [written, run] using e2⟩

/-- C210.  After `finish-output` every destination has got all that was written since the stream was made, and nothing else. -/
theorem C210_finish (dests : List (List Nat)) (l : List Op) (i : Nat) (o : List Nat) (h : dests[i]? = some o) :
    (run (make dests) (l ++ [.finish])).outs.reverse[i]? = some (o ++ written l) := by
  have hm : (make dests).outs.reverse = dests := by
    have : ∀ (d acc : List (List Nat)), d.foldl (fun l d => d :: l) acc = d.reverse ++ acc := by
      intro d
      induction d with
      | nil => intro acc; rfl
      | cons x d ih => intro acc; simp [ih]
    simp [make, this]
  obtain ⟨-, h1⟩ := C210_every (make dests) (by simp [make]) (l ++ [.finish])
  obtain ⟨o', a, b⟩ := h1 i o (by rw [hm]; exact h)
  have e : (run (make dests) (l ++ [.finish])).buf = [] := by
    simp only [run, List.foldl_append, List.foldl_cons, List.foldl_nil, step, flush_empty]
  rw [e] at b
  rw [a]
  simpa [written, make, Op.written] using b

example : (run (make [[1], []]) [.text (List.replicate 300 7), .byte 8]).outs = [List.replicate 256 7, 1 :: List.replicate 256 7] := by decide +kernel

/-- C210 fails for destinations added later: they get what was written before and is still in the buffer. -/
theorem C210_added_wrong : (run (make [[]]) [.text [1, 2, 3], .add [], .text [4], .finish]).outs = [[1, 2, 3, 4], [1, 2, 3, 4]] := by decide

/-- C210 fails for `:close`: it does not flush, and what is in the buffer, up to 256 bytes, is lost. -/
theorem C210_close_wrong (dests : List (List Nat)) (mes : List Nat) (h : mes.length ≤ 256) : close (run (make dests) [.text mes]) = (make dests).outs := by
  match mes with
  | [] => rfl
  | c :: mes =>
    have e : (wstep (make dests) (c :: mes)).2 = [] := by
      simp only [wstep, List.drop_eq_nil_iff]
      have : (room (make dests)).buf = [] := by simp [room, make, cap]
      rw [this]
      simp only [List.length_nil, cap] at *
      omega
    have e1 : ∀ n s, (wloop n s []).1 = s := by intro n s; cases n <;> simp [wloop]
    simp only [close, run, List.foldl_cons, List.foldl_nil, step, writestr, List.length_cons]
    rw [wloop, if_pos (by simp), e, e1]
    simp [wstep, room, make, cap]

end Eus.Brd
