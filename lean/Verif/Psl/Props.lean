import Verif.Psl.Spec
import Mathlib.Data.List.Range
set_option autoImplicit false
/-
C209: port selectors.
-/
namespace Eus.Psl

structure Rep (s : Sel) (f : Nat → Option Nat) : Prop where
  lb : s.bits.length = maxFd
  ls : s.streams.length = maxFd
  hs : ∀ fd, fd < maxFd → s.streams[fd]? = some (f fd)
  hb : ∀ fd, fd < maxFd → s.bits[fd]? = some (f fd).isSome

def upd (f : Nat → Option Nat) (fd : Nat) (v : Option Nat) : Nat → Option Nat := fun k => if k = fd then v else f k

def Op.apply (f : Nat → Option Nat) : Op → Nat → Option Nat
  | .add fd h => upd f fd (some h)
  | .remove fd => upd f fd none

theorem Rep.op {s : Sel} {f : Nat → Option Nat} (r : Rep s f) (o : Op) (h : o.fd < maxFd) :
    ∃ s', op s o = some s' ∧ Rep s' (o.apply f) := by
  have aux : ∀ (fd : Nat) (b : Bool) (v : Option Nat), fd < maxFd → b = v.isSome →
      Rep ⟨s.bits.set fd b, s.streams.set fd v⟩ (upd f fd v) := by
    intro fd b v hfd hb
    refine ⟨by simp [r.lb], by simp [r.ls], ?_, ?_⟩
    · intro k hk
      unfold upd
      by_cases e : k = fd
      · subst e; rw [if_pos rfl, List.getElem?_set_self (by rw [r.ls]; exact hk)]
      · rw [if_neg e, List.getElem?_set_ne (fun h => e h.symm)]; exact r.hs k hk
    · intro k hk
      unfold upd
      by_cases e : k = fd
      · subst e; rw [if_pos rfl, List.getElem?_set_self (by rw [r.lb]; exact hk), hb]
      · rw [if_neg e, List.getElem?_set_ne (fun h => e h.symm)]; exact r.hb k hk
  cases o with
  | add fd v => exact ⟨_, by simp only [Psl.op]; rw [if_neg (by simp only [Op.fd] at h; omega)], aux fd true (some v) h rfl⟩
  | remove fd => exact ⟨_, by simp only [Psl.op]; rw [if_neg (by simp only [Op.fd] at h; omega)], aux fd false none h rfl⟩

theorem op_none (s : Sel) (o : Op) (h : maxFd ≤ o.fd) : op s o = none := by
  cases o <;> (simp only [op, Op.fd] at *; rw [if_pos h])

theorem handlerOf_snoc (l : List Op) (o : Op) (fd : Nat) : handlerOf (l ++ [o]) fd = o.apply (handlerOf l) fd := by
  unfold handlerOf
  rw [List.filter_append]
  cases o with
  | add k v =>
    simp only [Op.apply, upd]
    by_cases e : fd = k
    · subst e; simp [Op.fd]
    · have : ((k == fd) = false) := by simp; exact fun h => e h.symm
      simp [Op.fd, this, e]
  | remove k =>
    simp only [Op.apply, upd]
    by_cases e : fd = k
    · subst e; simp [Op.fd]
    · have : ((k == fd) = false) := by simp; exact fun h => e h.symm
      simp [Op.fd, this, e]

theorem rep_history (l : List Op) : Rep (history init l) (handlerOf l) := by
  induction l using List.reverseRecOn with
  | nil =>
    refine ⟨by simp [history, init], by simp [history, init], ?_, ?_⟩
    · intro fd h; simp [history, init, handlerOf, h]
    · intro fd h; simp [history, init, handlerOf, h]
  | append_singleton l o ih =>
    have e : history init (l ++ [o]) = (op (history init l) o).getD (history init l) := by simp [history]
    rw [e]
    by_cases h : o.fd < maxFd
    · obtain ⟨s', h1, h2⟩ := ih.op o h
      rw [h1, Option.getD_some]
      have : handlerOf (l ++ [o]) = o.apply (handlerOf l) := funext fun fd => handlerOf_snoc l o fd
      rw [this]; exact h2
    · rw [op_none _ _ (by omega), Option.getD_none]
      have same : ∀ fd, fd < maxFd → handlerOf (l ++ [o]) fd = handlerOf l fd := by
        intro fd hfd
        rw [handlerOf_snoc]
        cases o <;> (simp only [Op.apply, upd, Op.fd] at *; rw [if_neg (by omega)])
      exact ⟨ih.lb, ih.ls, fun fd hfd => by rw [same fd hfd]; exact ih.hs fd hfd, fun fd hfd => by rw [same fd hfd]; exact ih.hb fd hfd⟩

/-- C209.  After every history of `:add-port` and `:remove-port`, `:fds` lists, in ascending order, exactly the ports below 64 whose last
operation added them. -/
theorem C209_fds (l : List Op) : (fds (history init l)).Pairwise (· < ·) ∧
    ∀ fd, fd ∈ fds (history init l) ↔ fd < 64 ∧ ∃ h, handlerOf l fd = some h := by
  refine ⟨List.Pairwise.filter _ List.pairwise_lt_range, ?_⟩
  intro fd
  have r := rep_history l
  simp only [fds, List.mem_filter, List.mem_range, List.getD_eq_getElem?_getD]
  constructor
  · rintro ⟨h1, h2⟩
    rw [r.hb fd h1, Option.getD_some] at h2
    exact ⟨h1, Option.isSome_iff_exists.1 h2⟩
  · rintro ⟨h1, h2⟩
    have h1 : fd < maxFd := h1
    refine ⟨h1, ?_⟩
    rw [r.hb fd h1, Option.getD_some]
    exact Option.isSome_iff_exists.2 h2

theorem rep_ops : ∀ (l : List Op) (s : Sel) (f : Nat → Option Nat), Rep s f → (∀ o ∈ l, o.fd < maxFd) →
    ∃ s' g, ops s l = some s' ∧ Rep s' g ∧ ∀ fd, (∀ o ∈ l, o.fd ≠ fd) → g fd = f fd
  | [], s, f, r, _ => ⟨s, f, rfl, r, fun _ _ => rfl⟩
  | o :: l, s, f, r, h => by
    obtain ⟨s1, h1, h2⟩ := r.op o (h o (by simp))
    obtain ⟨s2, g, h3, h4, h5⟩ := rep_ops l s1 _ h2 (fun o' h' => h o' (List.mem_cons_of_mem _ h'))
    refine ⟨s2, g, by simp only [ops, h1, Option.bind_some, h3], h4, ?_⟩
    intro fd hfd
    rw [h5 fd (fun o' h' => hfd o' (List.mem_cons_of_mem _ h'))]
    have := hfd o (by simp)
    cases o <;> (simp only [Op.apply, upd, Op.fd] at *; rw [if_neg (fun e => this e.symm)])

theorem selLoop_spec (prog : Nat → List Op) (ready : List Bool) : ∀ (l : List Nat) (s : Sel) (f f0 : Nat → Option Nat), Rep s f →
    l.Pairwise (· < ·) → (∀ j ∈ l, j < maxFd) →
    (∀ j ∈ l, ready.getD j false = true → f j = f0 j ∧ ∃ h, f0 j = some h ∧ ∀ o ∈ prog h, o.fd < maxFd ∧ ¬ (ready.getD o.fd false = true ∧ j < o.fd)) →
    (∃ s', (selLoop prog ready l s).2 = some s') ∧ (selLoop prog ready l s).1.map (fun c => (c.1, some c.2)) =
      (l.filter fun j => ready.getD j false).map fun j => (j, f0 j)
  | [], s, f, f0, _, _, _, _ => ⟨⟨s, rfl⟩, rfl⟩
  | j :: l, s, f, f0, r, hp, hl, hr => by
    have hp' := List.pairwise_cons.1 hp
    by_cases hj : ready.getD j false = true
    · obtain ⟨e1, h, e2, hops⟩ := hr j (by simp) hj
      have hst : s.streams.getD j none = some h := by
        rw [List.getD_eq_getElem?_getD, r.hs j (hl j (by simp)), Option.getD_some, e1, e2]
      obtain ⟨s', g, g1, g2, g3⟩ := rep_ops (prog h) s f r (fun o ho => (hops o ho).1)
      obtain ⟨⟨s2, a1⟩, a2⟩ := selLoop_spec prog ready l s' g f0 g2 hp'.2 (fun k hk => hl k (List.mem_cons_of_mem _ hk))
        (by
          intro k hk hkr
          obtain ⟨b1, b2⟩ := hr k (List.mem_cons_of_mem _ hk) hkr
          refine ⟨?_, b2⟩
          rw [← b1]
          apply g3
          intro o ho e
          apply (hops o ho).2
          rw [e]
          exact ⟨hkr, hp'.1 k hk⟩)
      simp only [selLoop]
      rw [if_pos hj, hst]
      simp only [g1]
      refine ⟨⟨s2, a1⟩, ?_⟩
      rw [List.filter_cons_of_pos (by exact hj)]
      simp only [List.map_cons, a2, e2]
    · simp only [selLoop]
      rw [if_neg hj, List.filter_cons_of_neg (by exact hj)]
      exact selLoop_spec prog ready l s f f0 r hp'.2 (fun k hk => hl k (List.mem_cons_of_mem _ hk)) (fun k hk => hr k (List.mem_cons_of_mem _ hk))

/-- C209.  After every history, `:select` calls for every port that was added and has something to read the handler added last, once, in
ascending order of the ports, and no other; it is t exactly if there is one.  Handlers may add and remove ports, but not a port with something
to read that comes later. -/
theorem C209_select_partial (prog : Nat → List Op) (avail : Nat → Bool) (l : List Op)
    (hsafe : ∀ j h, j < 64 → avail j = true → handlerOf l j = some h →
      ∀ o ∈ prog h, o.fd < 64 ∧ ¬ (avail o.fd = true ∧ handlerOf l o.fd ≠ none ∧ j < o.fd)) :
    ∃ calls s', select prog avail (history init l) = (calls, some s', decide (calls ≠ [])) ∧
      calls.map (fun c => (c.1, some c.2)) =
        ((List.range 64).filter fun j => avail j && (handlerOf l j).isSome).map fun j => (j, handlerOf l j) := by
  have r := rep_history l
  have hready : ∀ j, j < maxFd → ((List.range maxFd).map fun j => (history init l).bits.getD j false && avail j).getD j false = (avail j && (handlerOf l j).isSome) := by
    intro j hj
    rw [List.getD_eq_getElem?_getD, List.getElem?_map, List.getElem?_range hj]
    simp only [Option.map_some, Option.getD_some, List.getD_eq_getElem?_getD]
    rw [r.hb j hj, Option.getD_some, Bool.and_comm]
  have hbig : ∀ j, maxFd ≤ j → ((List.range maxFd).map fun j => (history init l).bits.getD j false && avail j).getD j false = false := by
    intro j hj
    rw [List.getD_eq_getElem?_getD, List.getElem?_eq_none (by simpa using hj)]; rfl
  have hcount : (((List.range maxFd).map fun j => (history init l).bits.getD j false && avail j).count true > 0) ↔ ((List.range maxFd).filter fun j => avail j && (handlerOf l j).isSome) ≠ [] := by
    constructor
    · intro h he
      have := List.count_pos_iff.1 h
      obtain ⟨j, hj, e⟩ := List.mem_map.1 this
      have hj := List.mem_range.1 hj
      have hr := hready j hj
      rw [List.getD_eq_getElem?_getD, List.getElem?_map, List.getElem?_range hj] at hr
      simp only [Option.map_some, Option.getD_some, e] at hr
      have : j ∈ ((List.range maxFd).filter fun j => avail j && (handlerOf l j).isSome) := List.mem_filter.2 ⟨List.mem_range.2 hj, hr.symm⟩
      rw [he] at this
      simp at this
    · intro h
      obtain ⟨j, hj⟩ := List.exists_mem_of_ne_nil _ h
      obtain ⟨h1, h2⟩ := List.mem_filter.1 hj
      have h1 := List.mem_range.1 h1
      apply List.count_pos_iff.2
      apply List.mem_map.2
      refine ⟨j, List.mem_range.2 h1, ?_⟩
      have hr := hready j h1
      rw [List.getD_eq_getElem?_getD, List.getElem?_map, List.getElem?_range h1] at hr
      simp only [Option.map_some, Option.getD_some] at hr
      rw [hr]; exact h2
  obtain ⟨⟨s', a1⟩, a2⟩ := selLoop_spec prog ((List.range maxFd).map fun j => (history init l).bits.getD j false && avail j) (List.range maxFd) (history init l) (handlerOf l) (handlerOf l) r
    List.pairwise_lt_range (fun j hj => List.mem_range.1 hj)
    (by
      intro j hj hjr
      have hj := List.mem_range.1 hj
      rw [hready j hj, Bool.and_eq_true] at hjr
      obtain ⟨h, e⟩ := Option.isSome_iff_exists.1 hjr.2
      refine ⟨rfl, h, e, ?_⟩
      intro o ho
      obtain ⟨b1, b2⟩ := hsafe j h hj hjr.1 e o ho
      refine ⟨b1, ?_⟩
      rintro ⟨c1, c2⟩
      rw [hready o.fd b1, Bool.and_eq_true] at c1
      apply b2
      refine ⟨c1.1, ?_, c2⟩
      intro e
      rw [e] at c1
      simp at c1)
  have hfil : ((List.range maxFd).filter fun j => ((List.range maxFd).map fun j => (history init l).bits.getD j false && avail j).getD j false) = (List.range maxFd).filter fun j => avail j && (handlerOf l j).isSome := by
    apply List.filter_congr
    intro j hj
    exact hready j (List.mem_range.1 hj)
  rw [hfil] at a2
  by_cases hc : ((List.range maxFd).map fun j => (history init l).bits.getD j false && avail j).count true > 0
  · refine ⟨_, s', ?_, a2⟩
    simp only [select]
    rw [if_pos hc, a1]
    have hne : (selLoop prog ((List.range maxFd).map fun j => (history init l).bits.getD j false && avail j) (List.range maxFd) (history init l)).1 ≠ [] := by
      intro e
      rw [e] at a2
      exact hcount.1 hc (List.map_eq_nil_iff.1 a2.symm)
    rw [decide_eq_true hne]
  · refine ⟨[], history init l, ?_, ?_⟩
    · simp only [select]
      rw [if_neg hc]; rfl
    · have : ((List.range maxFd).filter fun j => avail j && (handlerOf l j).isSome) = [] := by
        by_contra h
        exact hc (hcount.2 h)
      show _ = List.map _ ((List.range maxFd).filter fun j => avail j && (handlerOf l j).isSome)
      rw [this]; rfl

example : (select (fun h => if h = 1 then [.remove 3, .add 9 4] else []) (fun j => j = 3 || j = 5) (history init [.add 5 2, .add 3 7, .add 3 1, .add 8 3])).1 = [(3, 1), (5, 2)] := by
  decide +kernel

/-- C209 fails for handlers that remove a port with something to read that comes later: the loop goes on to the port removed, sends a message to
nil, which is an error, and the ports behind are not served. -/
theorem C209_removed_wrong : select (fun h => if h = 1 then [.remove 5] else []) (fun _ => true) (history init [.add 3 1, .add 5 2, .add 6 3]) =
    ([(3, 1)], none, true) := by decide +kernel

/-- C209.  A descriptor of 64 or more is refused and changes nothing. -/
theorem C209_refused (s : Sel) (fd h : Nat) (hfd : 64 ≤ fd) : op s (.add fd h) = none ∧ op s (.remove fd) = none :=
  ⟨op_none s _ hfd, op_none s _ hfd⟩

end Eus.Psl
