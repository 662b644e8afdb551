import Verif.Prc.Lemmas
set_option autoImplicit false
/-
C198: programs on pipes (lisp/l/process.l `piped-fork`, `popen`, `xfork`).
-/
namespace Eus.Prc

/-! ### The connection -/

/-- When the standard streams are on descriptors 0 and 1, a program that is started reads what the Lisp writes to the stream and the Lisp reads
what the program writes; every other descriptor of the Lisp is handed on to the program, and all of them stay as they are in the Lisp. -/
theorem C198_connect_partial (how : How) (s s' : Sys) (h0 : s.si = 0) (h1 : s.so = 1) (e0 : s.tab 0 ≠ none) (e1 : s.tab 1 ≠ none)
    (h : start how true s = .ok s') :
    ∃ (k : Kid) (c : Conn) (p q : Nat), s'.kids = s.kids ++ [k] ∧ s'.conns = s.conns ++ [c] ∧ p ≠ q
      ∧ s'.tab c.outfd = some (.wr p) ∧ k.tab 0 = some (.rd p)
      ∧ k.tab 1 = some (.wr q) ∧ s'.tab c.infd = some (.rd q)
      ∧ (∀ fd, 2 ≤ fd → s.tab fd ≠ none → k.tab fd = s.tab fd)
      ∧ ∀ fd, s.tab fd ≠ none → s'.tab fd = s.tab fd := by
  unfold start at h
  split at h
  · cases h
  next r1 w1 t1 hp1 =>
    split at h
    · cases h
    next r2 w2 t2 hp2 =>
      simp only at h
      cases h
      have q1 := pipe_some hp1
      have q2 := pipe_some hp2
      have hp := places q1 q2
      have hnt := newTab hp
      obtain ⟨f1, f2, f3, f4⟩ := hp.free
      obtain ⟨o0, o0'⟩ := Option.ne_none_iff_exists'.mp e0
      obtain ⟨o1, o1'⟩ := Option.ne_none_iff_exists'.mp e1
      obtain ⟨x, y, hxy, hh⟩ := childTab_eq (si := s.si) (so := s.so) q1 q2 (by rw [h0]; exact ⟨_, o0'⟩) (by rw [h1]; exact ⟨_, o1'⟩)
      obtain ⟨⟨hx, hx'⟩, ⟨hy, hy'⟩, he⟩ := hh _ rfl
      rw [h0, h1] at hx hx' hy hy' he
      generalize htt : close (close (close (close t2 0) 1) w1) r2 = tt at hx hx' hy hy' he
      have g0 : tt 0 = none := by
        rw [← htt]
        simp [close, set]
      have g1 : tt 1 = none := by
        rw [← htt]
        simp [close, set]
      have hx0 : x = 0 := by
        rcases Nat.eq_zero_or_pos x with h | h
        · exact h
        · exact absurd g0 (hx' 0 h)
      subst hx0
      have hy1 : y = 1 := by
        rcases Nat.lt_or_ge 1 y with h | h
        · rcases hy' 1 h with h | h
          · omega
          · exact absurd g1 h
        · omega
      subst hy1
      refine ⟨_, _, s.next, s.next + 1, rfl, rfl, by omega, (hnt _ _).2 (Or.inr (Or.inl ⟨rfl, rfl⟩)), ?_, ?_, (hnt _ _).2 (Or.inr (Or.inr ⟨rfl, rfl⟩)), ?_, ?_⟩
      · simp only [h0, h1, he]; rfl
      · simp only [h0, h1, he]; rfl
      · intro fd hfd hne
        simp only [h0, h1, he]
        rw [set_ne _ _ _ (by omega), set_ne _ _ _ (by omega), ← htt, close, set_ne _ _ _ (by rintro rfl; exact hne f3), close,
          set_ne _ _ _ (by rintro rfl; exact hne f2), close, set_ne _ _ _ (by omega), close, set_ne _ _ _ (by omega),
          hp.other fd (by rintro rfl; exact hne f1) (by rintro rfl; exact hne f2) (by rintro rfl; exact hne f3) (by rintro rfl; exact hne f4)]
      · intro fd hne
        obtain ⟨e, he⟩ := Option.ne_none_iff_exists'.mp hne
        rw [he]
        exact (hnt _ _).2 (Or.inl he)

/-- Whether it works: the Lisp at its start, with 16 descriptors. -/
def Res.isOk : Res → Bool
  | .ok _ => true
  | _ => false

example : (start .pipedFork true (init 16)).isOk = true ∧ (init 16).tab 0 ≠ none ∧ (init 16).tab 1 ≠ none := by
  refine ⟨by decide +kernel, by decide, by decide⟩

theorem free_left {lim : Nat} {t : Nat → Option End} {n : Nat} {L : List Nat} (hn : L.Nodup) (hl : n + 1 ≤ L.length)
    (hf : ∀ x ∈ L, x < lim ∧ t x = none) (e : End) :
    ∃ r, lowest lim t = some r ∧ ∃ L' : List Nat, L'.Nodup ∧ n ≤ L'.length ∧ ∀ x ∈ L', x < lim ∧ set t r (some e) x = none := by
  cases h : lowest lim t with
  | none =>
    cases L with
    | nil => simp at hl
    | cons a L =>
      have := List.find?_eq_none.1 h a (List.mem_range.2 (hf a (by simp)).1)
      rw [(hf a (by simp)).2] at this
      simp at this
  | some r =>
    refine ⟨r, rfl, L.erase r, hn.erase r, ?_, fun x hx => ?_⟩
    · have := List.length_erase (a := r) (l := L)
      split at this <;> omega
    · have hxr : x ≠ r := fun hh => by
        rw [hh] at hx
        exact (List.Nodup.not_mem_erase hn) hx
      rw [set_ne _ _ _ hxr]
      exact hf x (List.mem_of_mem_erase hx)

/-- Four free descriptors are enough. -/
theorem C198_enough (how : How) (forks : Bool) (s : Sys) (L : List Nat) (hn : L.Nodup) (hl : L.length = 4)
    (hf : ∀ x ∈ L, x < s.lim ∧ s.tab x = none) : (start how forks s).isOk = true := by
  obtain ⟨r1, e1, L1, n1, l1, f1⟩ := free_left (n := 3) hn (by omega) hf (.rd s.next)
  obtain ⟨w1, e2, L2, n2, l2, f2⟩ := free_left (n := 2) n1 l1 f1 (.wr s.next)
  obtain ⟨r2, e3, L3, n3, l3, f3⟩ := free_left (n := 1) n2 l2 f2 (.rd (s.next + 1))
  obtain ⟨w2, e4, _⟩ := free_left (n := 0) n3 l3 f3 (.wr (s.next + 1))
  have p1 : pipe s.lim s.tab s.next = some (r1, w1, set (set s.tab r1 (some (.rd s.next))) w1 (some (.wr s.next))) := by
    simp only [pipe, e1, e2]
  unfold start
  rw [p1]
  have p2 : pipe s.lim (set (set s.tab r1 (some (.rd s.next))) w1 (some (.wr s.next))) (s.next + 1)
      = some (r2, w2, set (set (set (set s.tab r1 (some (.rd s.next))) w1 (some (.wr s.next))) r2 (some (.rd (s.next + 1)))) w2 (some (.wr (s.next + 1)))) := by
    simp only [pipe, e3, e4]
  simp only [p2]
  cases forks <;> rfl

example : [3, 4, 5, 6].Nodup ∧ ∀ x ∈ [3, 4, 5, 6], x < (init 7).lim ∧ (init 7).tab x = none := by decide

/-- The Lisp after an outcome. -/
def Res.sys : Res → Sys
  | .ok s => s
  | .err s => s
  | .both s => s

/-- With `*standard-output*` bound to a stream on a file (descriptor 3), the program's output goes to the terminal instead of the pipe: the
Lisp closes its file's descriptor in the child, and the pipe gets that number. -/
theorem C198_rebound_wrong :
    ((start .pipedFork true { init 16 with tab := set (init 16).tab 3 (some (.file 7)), so := 3 }).sys.kids.map fun k => (k.tab 0, k.tab 1, k.tab 3))
      = [(some (.rd 0), some (.file 0), some (.wr 1))] := by decide +kernel

/-! ### Histories -/

/-- The children are connected as in `C198_connect_partial`, for ever. -/
structure Wired (s : Sys) : Prop where
  std : s.si = 0 ∧ s.so = 1
  kids : ∀ (j : Nat) (k : Kid), s.kids[j]? = some k → k.alive = true → k.tab 0 = some (.rd (toChild j)) ∧ k.tab 1 = some (.wr (fromChild j))

theorem wired_step {s s' : Sys} {a : List Link} {e : Ev} (h : Inv s a) (hw : Wired s) (hs : step e s = some s') : Wired s' := by
  cases e with
  | start how forks =>
    simp only [step] at hs
    split at hs
    next s1 h1 =>
      cases hs
      cases forks with
      | true =>
        obtain ⟨n0, i0⟩ := h.si
        obtain ⟨n1, i1⟩ := h.so
        rw [hw.std.1] at i0
        rw [hw.std.2] at i1
        obtain ⟨k, c, p, q, b1, b2, b3, b4, b5, b6, b7, _⟩ := C198_connect_partial how s s' hw.std.1 hw.std.2 (by rw [i0]; simp) (by rw [i1]; simp) h1
        have hi := start_inv h h1
        have hstd : s'.si = s.si ∧ s'.so = s.so := by
          unfold start at h1
          split at h1
          · cases h1
          · split at h1
            · cases h1
            · cases h1; exact ⟨rfl, rfl⟩
        refine ⟨by rw [hstd.1, hstd.2]; exact hw.std, fun j x hj hal => ?_⟩
        rw [b1] at hj
        rcases get_append hj with ⟨_, hj⟩ | ⟨hjl, hxk⟩
        · exact hw.kids j x hj hal
        · subst hxk
          have hc : s'.conns[j]? = some c := by rw [b2, hjl, h.kids, ← h.conns]; simp
          have hl : j = a.length := by rw [hjl, h.kids]
          obtain ⟨k1, c1, l1, g1, g2, g3, g4, g5⟩ := (hi.wr c.outfd p).1 b4
          obtain ⟨k2, c2, l2, g1', g2', g3', g4', g5'⟩ := (hi.rd c.infd q).1 b7
          have u1 := (hi.wr c.outfd (2 * j)).2 ⟨j, c, _, hc, by rw [hl]; exact map_append_last _ _, rfl, rfl, rfl⟩
          have u2 := (hi.rd c.infd (2 * j + 1)).2 ⟨j, c, _, hc, by rw [hl]; exact map_append_last _ _, rfl, rfl, rfl⟩
          rw [b4] at u1
          rw [b7] at u2
          cases u1
          cases u2
          exact ⟨b5, b6⟩
      | false =>
        unfold start at h1
        split at h1
        · cases h1
        · split at h1
          · cases h1
          · cases h1
            refine ⟨hw.std, fun j x hj hal => ?_⟩
            rcases get_append hj with ⟨_, hj⟩ | ⟨hj, rfl⟩
            · exact hw.kids j x hj hal
            · cases hal
    next => cases hs
  | closeOut k =>
    simp only [step, Option.map_eq_some_iff] at hs
    obtain ⟨c, _, rfl⟩ := hs
    exact ⟨hw.std, hw.kids⟩
  | closeIn k =>
    simp only [step, Option.map_eq_some_iff] at hs
    obtain ⟨c, _, rfl⟩ := hs
    exact ⟨hw.std, hw.kids⟩
  | ends k =>
    simp only [step, Option.map_eq_some_iff] at hs
    obtain ⟨x, hx, rfl⟩ := hs
    refine ⟨hw.std, fun j y hj hal => ?_⟩
    rcases get_set hj with ⟨rfl, rfl, _⟩ | ⟨_, hj⟩
    · simp only [Kid.ends, Bool.and_eq_true] at hal
      exact hw.kids j x hx hal.1
    · exact hw.kids j y hj hal
  | open_ n =>
    simp only [step, Option.map_eq_some_iff] at hs
    obtain ⟨c, _, rfl⟩ := hs
    exact ⟨hw.std, hw.kids⟩
  | print t => cases hs; exact ⟨hw.std, hw.kids⟩
  | flush => cases hs; exact ⟨hw.std, hw.kids⟩

theorem wired_run (es : List Ev) : ∀ (s s' : Sys) (a a' : List Link), Inv s a → Wired s → run es s = some s' → followAll es a = some a' → Wired s' := by
  induction es with
  | nil => intro s s' a a' _ hw hs _; cases hs; exact hw
  | cons e es ih =>
    intro s s' a a' h hw hs ha
    simp only [run] at hs
    split at hs
    next s1 h1 =>
      simp only [followAll, Option.bind_eq_some_iff] at ha
      obtain ⟨a1, h2, ha⟩ := ha
      exact ih s1 s' a1 a' (step_inv h h1 h2) (wired_step h hw h1) hs ha
    next => cases hs

/-- In every history in which streams are closed once: as long as a stream is open its descriptors are the ends of its own two pipes, and a child
that lives reads from the one and writes to the other. -/
theorem C198_routing (es : List Ev) (lim : Nat) (s : Sys) (a : List Link) (hs : run es (init lim) = some s) (ha : followAll es [] = some a)
    (k : Nat) (l : Link) (hl : a[k]? = some l) :
    ∃ (c : Conn) (x : Kid), s.conns[k]? = some c ∧ s.kids[k]? = some x
      ∧ (l.out = true → s.tab c.outfd = some (.wr (toChild k))) ∧ (l.inp = true → s.tab c.infd = some (.rd (fromChild k)))
      ∧ (l.gone = false → x.alive = true ∧ x.tab 0 = some (.rd (toChild k)) ∧ x.tab 1 = some (.wr (fromChild k))) := by
  have h := run_inv es _ _ _ _ (init_inv lim) hs ha
  have hw := wired_run es _ _ _ _ (init_inv lim) ⟨⟨rfl, rfl⟩, fun j k h => by simp [init] at h⟩ hs ha
  have hk := get_lt hl
  have hc : k < s.conns.length := by rw [h.conns]; exact hk
  have hx : k < s.kids.length := by rw [h.kids]; exact hk
  have gc : s.conns[k]? = some s.conns[k] := List.getElem?_eq_getElem hc
  have gx : s.kids[k]? = some s.kids[k] := List.getElem?_eq_getElem hx
  refine ⟨_, _, gc, gx, fun ho => (h.wr _ _).2 ⟨k, _, l, gc, hl, ho, rfl, rfl⟩, fun ho => (h.rd _ _).2 ⟨k, _, l, gc, hl, ho, rfl, rfl⟩, fun hg => ?_⟩
  have hal := (h.alive k _ l gx hl).1
  rw [hg] at hal
  exact ⟨hal, hw.kids k _ gx hal⟩

/-- In every such history the `k`-th child sees the end of its input exactly when the stream to it has been closed for output and all the children
started in the meantime are gone. -/
theorem C198_input_end (es : List Ev) (lim : Nat) (s : Sys) (a : List Link) (hs : run es (init lim) = some s) (ha : followAll es [] = some a)
    (k : Nat) (l : Link) (hl : a[k]? = some l) :
    Ended s (toChild k) ↔ l.out = false ∧ ∀ j ∈ l.heirs, ∀ m, a[j]? = some m → m.gone = true := by
  have h := run_inv es _ _ _ _ (init_inv lim) hs ha
  have hc : k < s.conns.length := by rw [h.conns]; exact get_lt hl
  have gc : s.conns[k]? = some s.conns[k] := List.getElem?_eq_getElem hc
  constructor
  · rintro ⟨h1, h2⟩
    constructor
    · cases ho : l.out with
      | false => rfl
      | true => exact absurd ((h.wr _ _).2 ⟨k, _, l, gc, hl, ho, rfl, rfl⟩) (h1 _)
    · intro j hj m hm
      have hx : j < s.kids.length := by rw [h.kids]; exact get_lt hm
      have gx : s.kids[j]? = some s.kids[j] := List.getElem?_eq_getElem hx
      obtain ⟨fd, hfd⟩ := (h.hold j _ (toChild k) gx).2 (Or.inr ⟨k, l, hl, rfl, hj⟩)
      have hal := (h.alive j _ m gx hm).1
      cases hg : m.gone with
      | true => rfl
      | false => rw [hg] at hal; exact absurd hfd (h2 j _ gx hal fd)
  · rintro ⟨h1, h2⟩
    constructor
    · intro fd hfd
      obtain ⟨k', c', l', _, g2, g3, _, g5⟩ := (h.wr _ _).1 hfd
      have : k' = k := by simp only [toChild] at g5; omega
      subst this
      rw [hl] at g2
      cases g2
      rw [h1] at g3
      cases g3
    · intro j x hx hal fd hfd
      rcases (h.hold j x _ hx).1 ⟨fd, hfd⟩ with e | ⟨k', l', g1, g2, g3⟩
      · simp only [toChild] at e; omega
      · have : k' = k := by simp only [toChild] at g2; omega
        subst this
        rw [hl] at g1
        cases g1
        have hj := h.heirs _ _ _ hl g3
        have hm := List.getElem?_eq_getElem hj
        have hg := h2 j g3 _ hm
        have := (h.alive j x _ hx hm).1
        rw [hal, hg] at this
        cases this

/-- In every such history the Lisp sees the end of what the `k`-th child writes exactly when that child is gone. -/
theorem C198_output_end (es : List Ev) (lim : Nat) (s : Sys) (a : List Link) (hs : run es (init lim) = some s) (ha : followAll es [] = some a)
    (k : Nat) (l : Link) (hl : a[k]? = some l) : Ended s (fromChild k) ↔ l.gone = true := by
  have h := run_inv es _ _ _ _ (init_inv lim) hs ha
  have hx : k < s.kids.length := by rw [h.kids]; exact get_lt hl
  have gx : s.kids[k]? = some s.kids[k] := List.getElem?_eq_getElem hx
  have hal := (h.alive k _ l gx hl).1
  constructor
  · rintro ⟨_, h2⟩
    cases hg : l.gone with
    | true => rfl
    | false =>
      rw [hg] at hal
      obtain ⟨fd, hfd⟩ := (h.hold k _ (fromChild k) gx).2 (Or.inl rfl)
      exact absurd hfd (h2 k _ gx hal fd)
  · intro hg
    constructor
    · intro fd hfd
      obtain ⟨k', _, _, _, _, _, _, g5⟩ := (h.wr _ _).1 hfd
      simp only [fromChild] at g5
      omega
    · intro j x hj hal' fd hfd
      rcases (h.hold j x _ hj).1 ⟨fd, hfd⟩ with e | ⟨k', l', g1, g2, g3⟩
      · have : j = k := by simp only [fromChild] at e; omega
        subst this
        rw [gx] at hj
        cases hj
        rw [hg, hal'] at hal
        cases hal
      · simp only [fromChild] at g2; omega

/-- Three programs; streams closed in between; a file opened; an end: such a history. -/
def sample : List Ev :=
  [.start .pipedFork true, .start (.popen false) true, .closeOut 0, .open_ 5, .ends 1, .start .pipedFork true, .closeIn 0, .closeOut 2]

example : (run sample (init 32)).isSome = true
    ∧ followAll sample [] = some [⟨false, false, [1], false, false⟩, ⟨true, true, [2], true, false⟩, ⟨false, true, [], false, false⟩] := by
  exact ⟨by decide +kernel, by decide⟩

/-- Closing a stream for output ends the child's input if no other child was started while it was open. -/
theorem C198_close_partial (es : List Ev) (lim : Nat) (s : Sys) (a : List Link) (hs : run es (init lim) = some s) (ha : followAll es [] = some a)
    (k : Nat) (l : Link) (hl : a[k]? = some l) (hh : l.heirs = []) : Ended s (toChild k) ↔ l.out = false := by
  rw [C198_input_end es lim s a hs ha k l hl, hh]
  simp

/-- It does not if one was: that child has inherited the descriptor. -/
theorem C198_inherit_wrong : ∃ s, run [.start .pipedFork true, .start .pipedFork true, .closeOut 0] (init 32) = some s ∧ ¬ Ended s (toChild 0) := by
  cases hs : run [.start .pipedFork true, .start .pipedFork true, .closeOut 0] (init 32) with
  | none =>
    have : (run [.start .pipedFork true, .start .pipedFork true, .closeOut 0] (init 32)).isSome = true := by decide +kernel
    rw [hs] at this
    cases this
  | some s =>
    refine ⟨s, rfl, fun h => ?_⟩
    have := (C198_input_end _ 32 s [⟨false, true, [1], false, false⟩, ⟨true, true, [], false, false⟩] hs (by decide) 0 _ rfl).1 h
    exact absurd (this.2 1 (by decide) _ rfl) (by decide)

/-- After `popen` of a command with a space the Lisp never sees the end of the command's output: the child goes on as a second Lisp when the
command has ended. -/
theorem C198_popen_wrong : ∃ s, run [.start (.popen true) true, .ends 0] (init 32) = some s ∧ ¬ Ended s (fromChild 0) := by
  cases hs : run [.start (.popen true) true, .ends 0] (init 32) with
  | none =>
    have : (run [.start (.popen true) true, .ends 0] (init 32)).isSome = true := by decide +kernel
    rw [hs] at this
    cases this
  | some s =>
    refine ⟨s, rfl, fun h => ?_⟩
    have := (C198_output_end _ 32 s [⟨true, true, [], false, true⟩] hs (by decide) 0 _ rfl).1 h
    cases this

/-- A stream closed twice closes the file that has got its descriptor. -/
theorem C198_twice_wrong :
    ((run [.start .pipedFork true, .closeOut 0, .open_ 8, .open_ 9] (init 32)).map fun s => s.tab 4) = some (some (.file 9))
    ∧ ((run [.start .pipedFork true, .closeOut 0, .open_ 8, .open_ 9, .closeOut 0] (init 32)).map fun s => s.tab 4) = some none :=
  ⟨by decide +kernel, by decide +kernel⟩

/-! ### Failures, and text that waits -/

/-- Starting a program writes nothing to `*standard-output*` if no text waits there. -/
theorem C198_quiet_partial (how : How) (forks : Bool) (s : Sys) (h : s.buf = []) : (start how forks s).sys.out = s.out := by
  unfold start
  split
  · cases forks <;> rfl
  · split
    · cases forks <;> rfl
    · cases forks <;> simp [Res.sys, h]

/-- If some does it is written twice: by the child, which closes its copy of the stream, and by the Lisp. -/
theorem C198_flush_wrong : ((run [.print [104], .flush, .print [105], .start .pipedFork true, .flush] (init 32)).map fun s => s.out) = some [104, 105, 105] := by
  decide +kernel

/-- Whether the error is signalled in two processes. -/
def Res.isBoth : Res → Bool
  | .both _ => true
  | _ => false

/-- When only three descriptors are left, the error is signalled in the Lisp and in a copy of it, both of which go on, and the two descriptors of
the first pipe stay in use. -/
theorem C198_limit_wrong : (start .pipedFork true (init 6)).isBoth = true ∧ (start .pipedFork true (init 6)).sys.tab 3 = some (.rd 0)
    ∧ (start .pipedFork true (init 6)).sys.tab 4 = some (.wr 0) := ⟨by decide +kernel, by decide +kernel, by decide +kernel⟩

/-- When `fork` fails, a stream is returned as if it had not: it is at its end at once. -/
theorem C198_fork_wrong : ∃ s, run [.start .pipedFork false] (init 32) = some s ∧ s.conns ≠ [] ∧ Ended s (fromChild 0) := by
  cases hs : run [.start .pipedFork false] (init 32) with
  | none =>
    have : (run [.start .pipedFork false] (init 32)).isSome = true := by decide +kernel
    rw [hs] at this
    cases this
  | some s =>
    refine ⟨s, rfl, ?_, (C198_output_end _ 32 s [⟨true, true, [], true, false⟩] hs (by decide) 0 _ rfl).2 rfl⟩
    have := run_inv _ _ _ _ _ (init_inv 32) hs (show followAll _ [] = some [⟨true, true, [], true, false⟩] by decide)
    intro e
    have h2 := this.conns
    rw [e] at h2
    cases h2

/-! ### `xfork` -/

/-- `xfork` gives the child the three files asked for on descriptors 0, 1 and 2, and the rest as it is, if no stream's descriptor is overwritten
before it is copied. -/
theorem C198_xfork_partial (t : Nat → Option End) (i o e : Nat) (hi : t i ≠ none) (ho : t o ≠ none) (he : t e ≠ none)
    (h1 : i = 0 ∨ (o ≠ 0 ∧ e ≠ 0)) (h2 : o = 1 ∨ e ≠ 1) :
    xforkTab t i o e 0 = t i ∧ xforkTab t i o e 1 = t o ∧ xforkTab t i o e 2 = t e ∧ ∀ fd, 3 ≤ fd → xforkTab t i o e fd = t fd := by
  have d : ∀ (u : Nat → Option End) (old new : Nat), u old ≠ none → dup2 u old new = set u new (u old) := by
    intro u old new h
    obtain ⟨x, hx⟩ := Option.ne_none_iff_exists'.mp h
    simp only [dup2, hx]
  -- the three tables
  have ha : ∀ fd, (if i = 0 then t else dup2 t i 0) fd = if fd = 0 then t i else t fd := by
    intro fd
    by_cases h : i = 0
    · subst h; simp; intro h; rw [h]
    · rw [if_neg h, d t i 0 hi]; rfl
  generalize hA : (if i = 0 then t else dup2 t i 0) = A at ha
  have ho' : A o = t o := by
    rw [ha]
    by_cases h : o = 0
    · rcases h1 with h1 | h1
      · rw [h, h1]; rfl
      · exact absurd h h1.1
    · rw [if_neg h]
  have he' : A e = t e := by
    rw [ha]
    by_cases h : e = 0
    · rcases h1 with h1 | h1
      · rw [h, h1]; rfl
      · exact absurd h h1.2
    · rw [if_neg h]
  have hb : ∀ fd, (if o = 1 then A else dup2 A o 1) fd = if fd = 1 then t o else A fd := by
    intro fd
    by_cases h : o = 1
    · subst h; simp; intro h; rw [h, ho']
    · rw [if_neg h, d A o 1 (by rw [ho']; exact ho), ← ho']; rfl
  generalize hB : (if o = 1 then A else dup2 A o 1) = B at hb
  have he'' : B e = t e := by
    rw [hb]
    by_cases h : e = 1
    · rcases h2 with h2 | h2
      · rw [h2, h]; rfl
      · exact absurd h h2
    · rw [if_neg h, he']
  have hc : ∀ fd, xforkTab t i o e fd = if fd = 2 then t e else B fd := by
    intro fd
    simp only [xforkTab, hA, hB]
    by_cases h : e = 2
    · subst h; simp; intro h; rw [h, he'']
    · rw [if_neg h, d B e 2 (by rw [he'']; exact he), ← he'']; rfl
  refine ⟨?_, ?_, hc 2, fun fd hfd => ?_⟩
  · rw [hc, if_neg (by omega), hb, if_neg (by omega), ha, if_pos rfl]
  · rw [hc, if_neg (by omega), hb, if_pos rfl]
  · rw [hc, if_neg (by omega), hb, if_neg (by omega), ha, if_neg (by omega)]

example : xforkTab (fun n => some (.file n)) 5 6 2 0 = some (.file 5) := by decide

/-- Otherwise it is not: with the standard error stream given as standard output and the other way round, both go to the same file. -/
theorem C198_xfork_wrong :
    xforkTab (fun n => some (.file n)) 0 2 1 1 = some (.file 2) ∧ xforkTab (fun n => some (.file n)) 0 2 1 2 = some (.file 2) := by decide

end Eus.Prc
