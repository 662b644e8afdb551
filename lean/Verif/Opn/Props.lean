import Verif.Opn.Spec
set_option autoImplicit false
namespace Eus.Opn

/-! ### the buffer -/

/-- What the file will be when the buffer is written out, for a stream that writes from the start
of `old` (`app = false`) or after it; `done` is everything written so far. -/
structure Inv (app : Bool) (old done : List Nat) (o : Out) : Prop where
  opn : o.fd.isOpen = true
  mode : o.fd.append = app
  split : ∃ a, done = a ++ o.buf ∧ (app = false → o.fd.pos = a.length) ∧
    o.file = if app then old ++ a else a ++ old.drop a.length

theorem place_end (c b : List Nat) : place c c.length b = c ++ b := by
  simp [place]

theorem place_mid (a old b : List Nat) :
    place (a ++ old.drop a.length) a.length b = (a ++ b) ++ old.drop (a ++ b).length := by
  unfold place
  rw [List.take_left' rfl]
  have h1 : a.length - (a ++ old.drop a.length).length = 0 := by simp
  rw [h1, List.drop_append]
  have h2 : a.drop (a.length + b.length) = [] := List.drop_eq_nil_of_le (by omega)
  have h3 : a.length + b.length - a.length = b.length := by omega
  rw [h2, h3, List.drop_drop]
  simp

theorem Inv.flush {app : Bool} {old done : List Nat} {o : Out} (h : Inv app old done o) :
    Inv app old done (flush o) ∧ (Opn.flush o).buf = [] ∧ (Opn.flush o).size = o.size := by
  obtain ⟨h1, h2, a, h3, h4, h5⟩ := h
  unfold Opn.flush
  by_cases hb : o.buf = []
  · rw [if_pos hb]; exact ⟨⟨h1, h2, a, h3, h4, h5⟩, hb, rfl⟩
  · rw [if_neg hb]
    simp only [kwrite, h1, Bool.not_true, Bool.false_eq_true, if_false]
    refine ⟨⟨rfl, h2, done, by simp, ?_, ?_⟩, trivial, trivial⟩
    · intro ha
      simp only [h2, ha, Bool.false_eq_true, if_false, h4 ha, h3, List.length_append]
    · cases app with
      | true =>
        simp only [h2, if_true] at h5 ⊢
        rw [place_end, h5, h3]; simp
      | false =>
        simp only [h2, Bool.false_eq_true, if_false, h4 rfl] at h5 ⊢
        rw [h5, place_mid, h3]

theorem Inv.writech {app : Bool} {old done : List Nat} {o : Out} (c : Nat) (h : Inv app old done o) :
    Inv app old (done ++ [c]) (writech o c) := by
  unfold Opn.writech
  have put : ∀ o' : Out, Inv app old done o' → Inv app old (done ++ [c]) { o' with buf := o'.buf ++ [c] } := by
    rintro o' ⟨h1, h2, a, h3, h4, h5⟩
    exact ⟨h1, h2, a, by simp [h3], h4, h5⟩
  simp only
  split
  · exact put _ h.flush.1
  · exact put _ h

theorem Inv.write {app : Bool} {old : List Nat} (l : List Nat) : ∀ {done : List Nat} {o : Out},
    Inv app old done o → Inv app old (done ++ l) (write o l) := by
  induction l with
  | nil => intro done o h; simpa [Opn.write] using h
  | cons c l ih =>
    intro done o h
    have := ih (h.writech c)
    simpa [Opn.write] using this

theorem Inv.pieces {app : Bool} {old : List Nat} (ps : List (List Nat × Bool)) : ∀ {done : List Nat} {o : Out},
    Inv app old done o → Inv app old (done ++ allBytes ps)
      (ps.foldl (fun o p => if p.2 then Opn.flush (Opn.write o p.1) else Opn.write o p.1) o) := by
  induction ps with
  | nil => intro done o h; simpa [allBytes] using h
  | cons p ps ih =>
    intro done o h
    have h1 := h.write p.1
    have h2 : Inv app old (done ++ p.1) (if p.2 then Opn.flush (Opn.write o p.1) else Opn.write o p.1) := by
      split
      · exact h1.flush.1
      · exact h1
    have := ih h2
    simpa [allBytes] using this

theorem closeOut_inv {app : Bool} {old done : List Nat} {o : Out} (h : Inv app old done o) :
    (closeOut o).1 = true ∧
    (closeOut o).2.file = if app then old ++ done else done ++ old.drop done.length := by
  have hf := h.flush
  obtain ⟨⟨h1, h2, a, h3, h4, h5⟩, hb, -⟩ := hf
  simp only [closeOut]
  rw [hb, List.append_nil] at h3
  exact ⟨h1, by rw [h5, h3]⟩

/-- A session that gets a stream. -/
theorem session_stream (ifx : IfX) (dne : Dne) (size : Nat) (file : Option (List Nat))
    (ps : List (List Nat × Bool)) (app : Bool) (old : List Nat)
    (h : open_ .output ifx dne file = (.stream ⟨0, app, true⟩, some old)) :
    session .output ifx dne size file ps =
      (.closed true, some (if app then old ++ allBytes ps else allBytes ps ++ old.drop (allBytes ps).length)) := by
  have i0 : Inv app old [] (⟨[], size, ⟨0, app, true⟩, old⟩ : Out) :=
    ⟨rfl, rfl, [], rfl, fun _ => rfl, by cases app <;> simp⟩
  have i1 := i0.pieces ps
  rw [List.nil_append] at i1
  have := closeOut_inv i1
  simp only [session, h, Option.getD_some, close]
  rw [this.1, this.2]

/-! ### C184 -/

/-- C184.  Opening for output, writing and closing does what the options say: the old bytes are kept
and added to (`:append`), overwritten from the start (`:overwrite`), dropped (`:new-version`,
`:supersede`, `:rename`) or protected (`:error`, nil); a missing file is made or not.  For every file,
everything written, in pieces of any size with or without `finish-output`, every buffer size.
Partial: except for the combinations in `Bad`, for all of which it is false (next theorem). -/
theorem C184_output_partial (ifx : IfX) (dne : Dne) (size : Nat) (file : Option (List Nat))
    (ps : List (List Nat × Bool)) (h : ¬ Bad ifx dne file.isSome) :
    session .output ifx dne size file ps = Expected ifx dne file (allBytes ps) := by
  cases file with
  | some old =>
    cases ifx <;> cases dne <;>
      first
      | (simp [Bad] at h; done)
      | (rw [session_stream _ _ size _ ps true old rfl]; rfl)
      | (rw [session_stream _ _ size _ ps false old rfl]; rfl)
      | (rw [session_stream _ _ size _ ps false [] rfl]; simp [Expected]; done)
      | rfl
  | none =>
    cases ifx <;> cases dne <;>
      first
      | (simp [Bad] at h; done)
      | (rw [session_stream _ _ size _ ps true [] rfl]; simp [Expected]; done)
      | (rw [session_stream _ _ size _ ps false [] rfl]; simp [Expected]; done)
      | rfl

example : ¬ Bad .append .create (some [1, 2]).isSome ∧
    session .output .append .create 2 (some [1, 2]) [([3, 4, 5], false), ([6], true)] =
      (.closed true, some [1, 2, 3, 4, 5, 6]) := by
  constructor
  · simp [Bad]
  · decide +kernel

example : session .output .overwrite .error 2 (some [1, 2, 3, 4, 5]) [([7, 8, 9], false)] =
    (.closed true, some [7, 8, 9, 4, 5]) := by decide +kernel

/-- For every combination in `Bad` the session ends in another way than it should, whatever the file
and the bytes. -/
theorem C184_wrong (ifx : IfX) (dne : Dne) (size : Nat) (file : Option (List Nat))
    (ps : List (List Nat × Bool)) (h : Bad ifx dne file.isSome) :
    (session .output ifx dne size file ps).1 ≠ (Expected ifx dne file (allBytes ps)).1 := by
  cases file with
  | some old =>
    cases ifx <;> cases dne <;>
      first
      | (simp [Bad] at h; done)
      | (rw [session_stream _ _ size _ ps false old rfl]; simp [Expected]; done)
      | (simp [session, open_, kopen, mode, Expected]; done)
  | none =>
    cases ifx <;> cases dne <;>
      first
      | (simp [Bad] at h; done)
      | (rw [session_stream _ _ size _ ps false [] rfl]; simp [Expected]; done)

/-- The worst of them: `:if-exists :error :if-does-not-exist :error` overwrites the file it should
protect; and with `:if-does-not-exist nil` a missing file is made. -/
example : session .output .error .error 512 (some [1, 2, 3]) [([9], false)] = (.closed true, some [9, 2, 3]) ∧
    session .output .newVersion .nil 512 none [] = (.closed true, some []) ∧
    Bad .error .error true ∧ Bad .newVersion .nil false := by
  refine ⟨by decide +kernel, by decide +kernel, ?_, ?_⟩ <;> simp [Bad]

/-- C184.  For input: the file is left as it is, whatever `:if-exists` says; a missing file is an
error, or nil, or made empty. -/
theorem C184_input (ifx : IfX) (dne : Dne) (file : Option (List Nat)) :
    (∀ c, file = some c → open_ .input ifx dne file = (.stream ⟨0, false, true⟩, some c)) ∧
    (file = none → open_ .input ifx dne file =
      match dne with
      | .create => (.stream ⟨0, false, true⟩, some [])
      | .nil => (.nil, none)
      | .error | .default => (.err, none)) := by
  constructor
  · rintro c rfl; cases dne <;> rfl
  · rintro rfl; cases dne <;> rfl

/-! ### C185 -/

/-- C185.  When a stream opened for output is closed, `close` says T and everything written to it is in
the file, in order.  (Partial: for streams opened with `:direction :output`.) -/
theorem C185_output_partial (app : Bool) (old : List Nat) (size : Nat) (ps : List (List Nat × Bool)) :
    let o := ps.foldl (fun o p => if p.2 then flush (write o p.1) else write o p.1)
      (⟨[], size, ⟨0, app, true⟩, old⟩ : Out)
    (close .output o).1 = true ∧ (close .output o).2.file =
      if app then old ++ allBytes ps else allBytes ps ++ old.drop (allBytes ps).length := by
  have i0 : Inv app old [] (⟨[], size, ⟨0, app, true⟩, old⟩ : Out) :=
    ⟨rfl, rfl, [], rfl, fun _ => rfl, by cases app <;> simp⟩
  have i1 := i0.pieces ps
  rw [List.nil_append] at i1
  exact closeOut_inv i1

example : allBytes [([1, 2], true), ([], false), ([3], false)] = [1, 2, 3] := rfl

/-- With `:direction :io` `close` closes the descriptor before the buffer is written out: it says nil,
and what was written after the last `finish-output` (up to the size of the buffer) is lost. -/
theorem C185_io_wrong (size : Nat) (data : List Nat) (h : data.length ≤ size) (old : List Nat) :
    session .io .newVersion .default size (some old) [(data, false)] = (.closed false, some []) := by
  have hw : ∀ (l : List Nat) (b : List Nat), b.length + l.length ≤ size →
      write (⟨b, size, ⟨0, false, true⟩, []⟩ : Out) l = ⟨b ++ l, size, ⟨0, false, true⟩, []⟩ := by
    intro l
    induction l with
    | nil => intro b _; simp [write]
    | cons c l ih =>
      intro b hb
      simp only [List.length_cons] at hb
      have := ih (b ++ [c]) (by simp; omega)
      simp only [write, List.foldl_cons] at this ⊢
      rw [show writech (⟨b, size, ⟨0, false, true⟩, []⟩ : Out) c = ⟨b ++ [c], size, ⟨0, false, true⟩, []⟩ by
        simp only [writech]; rw [if_neg (by omega)]]
      rw [this]; simp
  have := hw data [] (by simpa using h)
  simp only [session, open_, kopen, mode]
  simp only [List.foldl_cons, List.foldl_nil]
  simp [this, close, closeIn, closeOut, flush, kwrite]

example : session .io .newVersion .default 512 (some []) [([1, 2, 3], false)] = (.closed false, some []) ∧
    session .output .newVersion .default 512 (some []) [([1, 2, 3], false)] = (.closed true, some [1, 2, 3]) := by
  constructor <;> decide +kernel

/-- With `finish-output` as the last thing before it, `close` of a stream opened with `:io` loses
nothing, though it still says nil. -/
theorem C185_io_partial (ifx : IfX) (dne : Dne) (size : Nat) (file : Option (List Nat)) (ps : List (List Nat × Bool))
    (data : List Nat) (h : ¬ Bad ifx dne file.isSome) (e : (Expected ifx dne file []).1 = .closed true) :
    session .io ifx dne size file (ps ++ [(data, true)]) =
      (.closed false, (Expected ifx dne file (allBytes ps ++ data)).2) := by
  have key : ∀ app old, open_ .io ifx dne file = (.stream ⟨0, app, true⟩, some old) →
      session .io ifx dne size file (ps ++ [(data, true)]) = (.closed false, some (if app then old ++ (allBytes ps ++ data)
        else (allBytes ps ++ data) ++ old.drop (allBytes ps ++ data).length)) := by
    intro app old ho
    have i0 : Inv app old [] (⟨[], size, ⟨0, app, true⟩, old⟩ : Out) :=
      ⟨rfl, rfl, [], rfl, fun _ => rfl, by cases app <;> simp⟩
    have i1 := (i0.pieces ps).write data
    rw [List.nil_append] at i1
    have i2 := i1.flush
    obtain ⟨⟨h1, h2, a, h3, h4, h5⟩, hb, -⟩ := i2
    rw [hb, List.append_nil] at h3
    simp only [session, ho, Option.getD_some, List.foldl_append, List.foldl_cons, List.foldl_nil, if_true]
    simp only [close, closeIn, h1, if_true, closeOut]
    have hfl : ∀ o : Out, o.buf = [] → flush o = o := fun o hq => by unfold Opn.flush; rw [if_pos hq]
    rw [hfl _ (by exact hb)]
    rw [h3, ← h5]
  cases file with
  | some old =>
    cases ifx <;> cases dne <;>
      first
      | (simp [Bad] at h; done)
      | (simp [Expected] at e; done)
      | (rw [key true old rfl]; rfl)
      | (rw [key false old rfl]; rfl)
      | (rw [key false [] rfl]; simp [Expected]; done)
  | none =>
    cases ifx <;> cases dne <;>
      first
      | (simp [Bad] at h; done)
      | (simp [Expected] at e; done)
      | (rw [key true [] rfl]; simp [Expected]; done)
      | (rw [key false [] rfl]; simp [Expected]; done)

example : ¬ Bad .append .default (some [1]).isSome ∧ (Expected .append .default (some [1]) []).1 = .closed true ∧
    session .io .append .default 2 (some [1]) [([2, 3, 4], false), ([5], true)] = (.closed false, some [1, 2, 3, 4, 5]) := by
  refine ⟨by simp [Bad], rfl, by decide +kernel⟩

end Eus.Opn
