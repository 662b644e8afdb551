import Verif.Mem.Lemmas
set_option autoImplicit false
set_option maxRecDepth 20000
/-
C17 - C21: the memory manager.
-/
namespace Eus.Mem

/-! ### a concrete history, for the examples -/

/-- `*gc-margin*` 0.25 and merging from the start; one cell fetched at a time. -/
def env0 : Env := ⟨fun _ _ => true, fun f t => decide (4 * f < t), fun _ => 0, fun _ => 1⟩

theorem env0_ok : EnvOk env0 := by intro i _ _; exact Int.le_refl 1

/-- The state after a computation. -/
def Res.get : Res Heap → Heap
  | .ok H => H
  | _ => empty

/-- The computation ended normally. -/
def Res.isOk {α : Type} : Res α → Bool
  | .ok _ => true
  | _ => false

theorem Res.ok_get {r : Res Heap} (h : r.isOk = true) : r = .ok r.get := by
  cases r with
  | ok a => rfl
  | err => cases h
  | ub => cases h
  | fuel => cases h

/-- A list cell held by the stack and a vector, referring to each other (a cycle); then an object of 60
words to which nothing refers after a fourth allocation. -/
def h0 : Heap := (initmemory env0).get
def h1 : Heap := (step env0 100 h0 (.alloc 0 2 .fixed)).get
def h2 : Heap := (step env0 100 h1 (.setstk 0 [(1, 12537)])).get
def h3 : Heap := (step env0 100 h2 (.alloc 0 40 .vector)).get
def h4 : Heap := (step env0 100 h3 (.store (1, 12537) 1 (some (1, 12378)))).get
def h5 : Heap := (step env0 100 h4 (.store (1, 12378) 3 (some (1, 12537)))).get
def h6 : Heap := (step env0 100 h5 (.alloc 0 60 .fixed)).get
def h7 : Heap := (step env0 100 h6 (.alloc 0 2 .fixed)).get
def h8 : Heap := (step env0 100 h7 .collect).get

theorem by_last {H : Heap} {x : Cell} (h : H.last 0 = some x) : Accessible H x :=
  .root x (Or.inr (Or.inl ⟨0, by decide, Or.inr (Or.inr h)⟩))

theorem by_stk {H : Heap} {x : Cell} (h : x ∈ H.stk 0) : Accessible H x :=
  .root x (Or.inr (Or.inl ⟨0, by decide, Or.inl h⟩))

theorem hist5 : Hist env0 h5 := by
  have e0 : Hist env0 h0 := .init _ (Res.ok_get (by decide +kernel))
  have e1 : Hist env0 h1 := .step h0 _ 100 (.alloc 0 2 .fixed) e0 ⟨by decide, by decide +kernel, by decide⟩ (Res.ok_get (by decide +kernel))
  have e2 : Hist env0 h2 := .step h1 _ 100 (.setstk 0 [(1, 12537)]) e1 (by
    intro x hx
    rw [List.mem_singleton] at hx
    rw [hx]
    exact by_last (by decide +kernel)) (Res.ok_get (by decide +kernel))
  have e3 : Hist env0 h3 := .step h2 _ 100 (.alloc 0 40 .vector) e2 ⟨by decide, by decide +kernel, by decide⟩ (Res.ok_get (by decide +kernel))
  have e4 : Hist env0 h4 := .step h3 _ 100 (.store (1, 12537) 1 (some (1, 12378))) e3
    ⟨by_stk (by decide +kernel), fun d hd => by
      cases hd
      exact by_last (by decide +kernel)⟩ (Res.ok_get (by decide +kernel))
  exact .step h4 _ 100 (.store (1, 12378) 3 (some (1, 12537))) e4
    ⟨by_last (by decide +kernel), fun d hd => by
      cases hd
      exact by_stk (by decide +kernel)⟩ (Res.ok_get (by decide +kernel))

theorem hist6 : Hist env0 h6 :=
  .step h5 _ 100 (.alloc 0 60 .fixed) hist5 ⟨by decide, by decide +kernel, by decide⟩ (Res.ok_get (by decide +kernel))

theorem hist7 : Hist env0 h7 :=
  .step h6 _ 100 (.alloc 0 2 .fixed) hist6 ⟨by decide, by decide +kernel, by decide⟩ (Res.ok_get (by decide +kernel))

theorem collect7 : step env0 100 h7 .collect = .ok h8 := Res.ok_get (by decide +kernel)

/-! ### C17: blocks handed out do not overlap -/

/-- C17.  After any history, the blocks handed out and not freed are pairwise disjoint, lie inside the
heap, are as large as requested (with the header), and share nothing with the blocks on free lists; the
blocks on free lists are disjoint too.  Every object the program can get at is among the blocks handed
out.  Missing: requests of more than `buddysize[38]` words (`C17_huge_wrong`), closures. -/
theorem C17_disjoint_partial (env : Env) (he : EnvOk env) (H : Heap) (h : Hist env H) :
    H.used.Pairwise (fun u v => Apart H u.1 v.1) ∧
    (∀ u ∈ H.used, Inside H u.1 ∧ u.2 + 1 ≤ size H u.1) ∧
    (∀ u ∈ H.used, ∀ y, OnFreeList H y → Apart H u.1 y) ∧
    (∀ x y, OnFreeList H x → OnFreeList H y → x ≠ y → Apart H x y ∧ Inside H x) ∧
    (∀ x, Accessible H x → ∃ s, (x, s) ∈ H.used) := by
  obtain ⟨⟨hg, lv, i⟩, hn⟩ := hist_st he h
  have hu : ∀ u ∈ H.used, u.1 ∈ usedL H := fun u hu => List.mem_map.2 ⟨u, hu, rfl⟩
  have huc : ∀ u ∈ H.used, u.1 ∈ cellsOf H.chunks lv := fun u h => i.cell _ (Or.inr (Or.inr (hu u h)))
  have hfc : ∀ y, OnFreeList H y → y ∈ cellsOf H.chunks lv := by
    intro y hy
    rcases i.onFree.1 hy with h | h
    · exact i.cell _ (Or.inl h)
    · exact i.cell _ (Or.inr (Or.inl h))
  refine ⟨?_, fun u hu => ⟨i.inside (huc u hu), i.fits u hu⟩, ?_, ?_, ?_⟩
  · have nd : (usedL H).Nodup := by
      rw [List.nodup_iff_count_le_one]
      intro x
      have := i.occ x
      omega
    rw [usedL, List.Nodup, List.pairwise_map] at nd
    exact nd.imp_of_mem fun ha hb hne => i.apart (huc _ ha) (huc _ hb) hne
  · intro u hum y hy
    refine i.apart (huc u hum) (hfc y hy) ?_
    rintro rfl
    have h1 := i.occ u.1
    have h2 := count_pos.2 (hu u hum)
    rcases i.onFree.1 hy with h | h
    · have := count_pos.2 h; omega
    · have := count_pos.2 h; omega
  · intro x y hx hy hne
    exact ⟨i.apart (hfc x hx) (hfc y hy) hne, i.inside (hfc x hx)⟩
  · intro x hx
    have := hg x ((acc_iff hg hn x).1 hx)
    obtain ⟨u, hu, rfl⟩ := List.mem_map.1 this
    exact ⟨u.2, hu⟩

/-- Four blocks after a history; the hypotheses of the theorem hold. -/
example : Hist env0 h7 ∧ h7.used = [((1, 12534), 2), ((1, 12276), 60), ((1, 12378), 40), ((1, 12537), 2)] :=
  ⟨hist7, by decide +kernel⟩

/-- C17.  A block handed out is disjoint from every object the program can get at, lies inside the
heap, is as large as requested, and is filled with `NIL`; no object the program can get at changes its
size or contents, whether or not a collection was needed.  What is accessible afterwards is the new
block and what was accessible before; only the previous "latest allocation" of the thread may get lost. -/
theorem C17_fresh_partial (env : Env) (he : EnvOk env) (H : Heap) (h : Hist env H) (n t s : Nat) (kind : Kind)
    (ha : Allowed H (.alloc t s kind)) (H' : Heap) (b : Cell) (hr : gc_alloc env n t s kind H = .ok (H', b)) :
    Inside H' b ∧ s + 1 ≤ size H' b ∧
    (∀ x, Accessible H x → Apart H' b x ∧ Inside H' x ∧ size H' x = size H x ∧ H'.obj x = H.obj x) ∧
    (∀ y, OnFreeList H' y → Apart H' b y) ∧
    (H'.obj b).kind = kind ∧ (∀ w ∈ (H'.obj b).words, w = none) ∧ s ≤ (H'.obj b).words.length ∧
    Accessible H' b ∧ (∀ x, Accessible H' x → x = b ∨ Accessible H x) ∧
    (∀ x, Accessible { H with last := upd H.last t none } x → Accessible H' x) := by
  obtain ⟨hS, hn⟩ := hist_st he h
  have hal := (gc_alloc_safe env n t s kind H hS ha.1 ha.2.1 he).of hr
  obtain ⟨hS', a⟩ := hal
  have hh : Hist env H' := .step H H' n (.alloc t s kind) h ha (by show Res.bind _ _ = _; rw [hr]; rfl)
  obtain ⟨_, hn'⟩ := hist_st he hh
  obtain ⟨p1, p2, p3, _, _⟩ := C17_disjoint_partial env he H' hh
  obtain ⟨U, hU, hsub, hcov⟩ := a.used
  obtain ⟨m, hm, hobj⟩ := a.obj
  have hb : (b, s) ∈ H'.used := by rw [hU]; simp
  have hacc : ∀ x, Accessible H x → ReachFrom H.obj (rootsL H) x := fun x => (acc_iff hS.1 hn x).1
  rw [hU, List.pairwise_cons] at p1
  have hap : ∀ x, Accessible H x → ∃ u ∈ H'.used, u.1 = x ∧ Apart H' b x := by
    intro x hx
    obtain ⟨u, hu, hux⟩ := List.mem_map.1 (hcov x (hacc x hx))
    refine ⟨u, by rw [hU]; simp [hu], hux, ?_⟩
    have := p1.1 u hu
    simp only at this
    rw [hux] at this
    exact this
  have hne : ∀ x, Accessible H x → x ≠ b := by
    rintro x hx rfl
    obtain ⟨_, _, _, this⟩ := hap x hx
    have hp := (size_pos (H'.hdr x).bix).1
    unfold Apart size at this
    omega
  have hobj' : ∀ x, x ≠ b → H'.obj x = H.obj x := by
    intro x hx; rw [hobj]; simp [upd, hx]
  have hobb : H'.obj b = ⟨kind, List.replicate m none⟩ := by rw [hobj]; simp [upd]
  have hsup : ∀ x, Accessible { H with last := upd H.last t none } x → Accessible H x := by
    intro x hx
    induction hx with
    | root x hx =>
      rcases hx with h | ⟨t', ht', h⟩ | h
      · exact .root x (Or.inl h)
      · refine .root x (Or.inr (Or.inl ⟨t', ht', ?_⟩))
        rcases h with h | h | h
        · exact Or.inl h
        · exact Or.inr (Or.inl h)
        · have h : upd H.last t none t' = some x := h
          by_cases htt : t' = t
          · subst htt; simp [upd] at h
          · simp only [upd, htt, if_false] at h; exact Or.inr (Or.inr h)
      · exact .root x (Or.inr (Or.inr h))
    | ref x y _ hy ih => exact .ref x y ih hy
  refine ⟨(p2 _ hb).1, (p2 _ hb).2, fun x hx => ?_, p3 _ hb, by rw [hobb], ?_, ?_, ?_, ?_, ?_⟩
  · obtain ⟨u, hu, rfl, hA⟩ := hap x hx
    refine ⟨hA, (p2 u hu).1, ?_, hobj' _ (hne _ hx)⟩
    unfold size
    rw [a.bix u.1 (List.mem_map.2 ⟨u, hu, rfl⟩) (hne _ hx)]
  · rw [hobb]; intro w hw; exact (List.mem_replicate.1 hw).2
  · rw [hobb]; simpa using hm
  · exact .root b (Or.inr (Or.inl ⟨t, ha.1, Or.inr (Or.inr (by rw [a.last]; simp [upd]))⟩))
  · intro x hx
    rcases reach_alloc hobj a.sys a.stk a.spec a.cls a.last ((acc_iff hS'.1 hn' x).1 hx) with h | h
    · exact Or.inl h
    · exact Or.inr ((acc_iff hS.1 hn x).2 h)
  · intro x hx
    induction hx with
    | root x hx =>
      rcases hx with h | ⟨t', ht', h⟩ | h
      · exact .root x (Or.inl (by rw [a.sys]; exact h))
      · refine .root x (Or.inr (Or.inl ⟨t', ht', ?_⟩))
        rcases h with h | h | h
        · exact Or.inl (by rw [a.stk]; exact h)
        · exact Or.inr (Or.inl (by rw [a.spec]; exact h))
        · have h : upd H.last t none t' = some x := h
          by_cases htt : t' = t
          · subst htt; simp [upd] at h
          · simp only [upd, htt, if_false] at h
            exact Or.inr (Or.inr (by rw [a.last]; simp [upd, htt, h]))
      · exact .root x (Or.inr (Or.inr (by rw [a.cls]; exact h)))
    | ref x y hx hy ih => exact .ref x y ih (by rw [hobj' x (hne x (hsup x hx))]; exact hy)

/-- An allocation in a reachable state. -/
example : Hist env0 h6 ∧ Allowed h6 (.alloc 0 2 .fixed) ∧
    ∃ H', gc_alloc env0 100 0 2 .fixed h6 = .ok (H', (1, 12534)) := by
  refine ⟨hist6, ⟨by decide, by decide +kernel, by decide⟩, ?_⟩
  have h : (match gc_alloc env0 100 0 2 .fixed h6 with | .ok r => decide (r.2 = (1, 12534)) | _ => false) = true := by
    decide +kernel
  cases e : gc_alloc env0 100 0 2 .fixed h6 with
  | ok r =>
    rw [e] at h
    exact ⟨r.1, by rw [← of_decide_eq_true h]⟩
  | err => rw [e] at h; cases h
  | ub => rw [e] at h; cases h
  | fuel => rw [e] at h; cases h

/-- C17.  No operation of a program runs into undefined behaviour of the allocator or the collector
(an empty list popped, a chunk overrun). -/
theorem C17_no_ub_partial (env : Env) (he : EnvOk env) (H : Heap) (h : Hist env H) (n : Nat) (op : Op)
    (ha : Allowed H op) : step env n H op ≠ .ub := by
  obtain ⟨hS, hn⟩ := hist_st he h
  have := step_safe env he n H op hS hn ha
  intro e
  rw [e] at this
  exact this

example : Hist env0 h7 ∧ Allowed h7 .collect := ⟨hist7, trivial⟩

/-- A malloc that fails after the first two chunks; `*gc-margin*` above 1. -/
def envFull : Env := ⟨fun n _ => decide (n < 2), fun _ _ => true, fun _ => 0, fun _ => 1⟩

/-- The whole heap taken by two objects held by the stack. -/
def fullOps : List Op := [.alloc 0 (buddysize 18 - 1) .other, .setstk 0 [(1, 0)], .alloc 0 (buddysize 20 - 1) .other]

def full : Heap := (run envFull 100 (initmemory envFull).get fullOps).get

theorem full_hist : Hist envFull full := by
  have e0 : Hist envFull (initmemory envFull).get := .init _ (Res.ok_get (by decide +kernel))
  have e1 := Hist.step _ _ 100 (.alloc 0 (buddysize 18 - 1) .other) e0 ⟨by decide, by decide +kernel, by decide⟩
    (Res.ok_get (by decide +kernel))
  have e2 := Hist.step _ _ 100 (.setstk 0 [(1, 0)]) e1 (by
    intro x hx
    rw [List.mem_singleton] at hx
    rw [hx]
    exact by_last (by decide +kernel)) (Res.ok_get (by decide +kernel))
  exact Hist.step _ _ 100 (.alloc 0 (buddysize 20 - 1) .other) e2 ⟨by decide, by decide +kernel, by decide⟩
    (Res.ok_get (by decide +kernel))

theorem markLoop_ne_err : ∀ (n : Nat) (H : Heap) (st : List Cell), markLoop n H st ≠ .err := by
  intro n
  induction n with
  | zero => intro H st h; cases h
  | succ n ih =>
    intro H st
    cases st with
    | nil => intro h; cases h
    | cons p st =>
      unfold markLoop
      split
      · exact ih _ _
      · exact ih _ _

theorem markRoots_ne_err (n : Nat) : ∀ (rs : List Cell) (H : Heap), markRoots n rs H ≠ .err
  | [], H, h => by cases h
  | r :: rs, H, h => by
    unfold markRoots at h
    cases e : markLoop n H [r] with
    | ok H1 => rw [e] at h; exact markRoots_ne_err n rs H1 h
    | err => exact markLoop_ne_err _ _ _ e
    | ub => rw [e] at h; cases h
    | fuel => rw [e] at h; cases h

theorem markThreads_ne_err (n : Nat) : ∀ (ts : List Nat) (H : Heap), markThreads n ts H ≠ .err
  | [], H, h => by cases h
  | t :: ts, H, h => by
    unfold markThreads at h
    cases e : markRoots n (H.stk t) H with
    | ok H1 =>
      rw [e] at h
      simp only [Res.bind] at h
      cases e2 : markRoots n (H1.spec t ++ (H1.last t).toList) (markLocal t H1) with
      | ok H2 => rw [e2] at h; exact markThreads_ne_err n ts H2 h
      | err => exact markRoots_ne_err _ _ _ e2
      | ub => rw [e2] at h; cases h
      | fuel => rw [e2] at h; cases h
    | err => exact markRoots_ne_err _ _ _ e
    | ub => rw [e] at h; cases h
    | fuel => rw [e] at h; cases h

theorem markall_ne_err (n : Nat) (H : Heap) : markall n H ≠ .err := by
  intro h
  unfold markall at h
  cases e : markRoots n H.sys H with
  | ok H1 =>
    rw [e] at h
    simp only [Res.bind] at h
    cases e2 : markThreads n (List.range MAXTHREAD) H1 with
    | ok H2 => rw [e2] at h; exact markRoots_ne_err _ _ _ h
    | err => exact markThreads_ne_err _ _ _ e2
    | ub => rw [e2] at h; cases h
    | fuel => rw [e2] at h; cases h
  | err => exact markRoots_ne_err _ _ _ e
  | ub => rw [e] at h; cases h
  | fuel => rw [e] at h; cases h

theorem growLoop_stuck {env : Env} {k : Nat} (h1 : ∀ f t, env.low f t = true) :
    ∀ (n : Nat) (H : Heap) (j : Option Nat), (∀ k, env.mallocOk H.chunks.length k = false) → k < MAXBUDDY →
      growLoop env k false n H j = .fuel := by
  intro n
  induction n with
  | zero => intros; rfl
  | succ n ih =>
    intro H j hm hk
    unfold growLoop
    have hn : newchunk env k H = .ok (H, none) := by
      unfold newchunk
      simp only
      have h16 : DEFAULTCHUNKINDEX < MAXBUDDY := by decide
      by_cases hd : k < DEFAULTCHUNKINDEX
      · rw [if_pos hd, if_neg (by omega), hm]; rfl
      · rw [if_neg hd, if_neg (by omega), hm]; rfl
    rw [h1, if_pos rfl, hn]
    simp only [Res.bind]
    exact ih H j hm hk

/-- C17 fails when memory runs out: the loop of memory.c:234 ignores that `malloc` failed, so that an
allocation never returns, neither with a block nor with an error.  In every reachable state without a
free block of the needed size, if `malloc` fails from then on, a request of moderate size runs for ever. -/
theorem C17_out_of_memory_wrong (env : Env) (he : EnvOk env) (H : Heap) (h : Hist env H) (req t : Nat)
    (hr : req ≤ 38) (hfull : ∀ k, req ≤ k → k < 40 → H.free k = []) (hs : (buddysize req : Int) < H.totalheap / 8)
    (hl : ∀ f t, env.low f t = true) (hm : ∀ k, env.mallocOk H.chunks.length k = false) :
    ∀ n, root_alloc_big env n t req H = .fuel := by
  intro n
  obtain ⟨⟨hg, lv, i⟩, hn⟩ := hist_st he h
  have hff : ∀ m k, req ≤ k → k + m = 40 → findFrom H m k = 40 := by
    intro m
    induction m with
    | zero => intro k _ hk; unfold findFrom; omega
    | succ m ih =>
      intro k h1 h2
      unfold findFrom
      rw [if_pos (hfull k h1 (by omega))]
      exact ih (k + 1) (by omega) (by omega)
  have hfind : find H req = 40 := hff _ req (Nat.le_refl _) (by show req + (40 - req) = 40; omega)
  unfold root_alloc_big bigFind
  simp only
  rw [hfind, if_pos (by decide), if_pos hs]
  cases hc : gc env n H with
  | ok H1 =>
    obtain ⟨H0, hm0, _⟩ := bind_ok hc
    obtain ⟨H'', lv', e, g', i', k, ec, _⟩ := gc_spec env n H hg lv i H0 hm0
    rw [hc] at e
    cases e
    simp only [Res.bind]
    rw [growLoop_stuck hl n H1 none (by rw [ec]; exact hm) (by have : MAXBUDDY = 40 := rfl; omega)]
  | err =>
    cases hm1 : markall n H with
    | ok H1 =>
      obtain ⟨_, _, e, _⟩ := gc_spec env n H hg lv i H1 hm1
      rw [hc] at e
      cases e
    | err => exact absurd hm1 (markall_ne_err n H)
    | ub => unfold gc at hc; rw [hm1] at hc; cases hc
    | fuel => unfold gc at hc; rw [hm1] at hc; cases hc
  | ub => have := gc_safe env n H ⟨hg, lv, i⟩; rw [hc] at this; exact this.elim
  | fuel => rfl

/-- The theorem applies: a heap taken entirely by two objects. -/
example : Hist envFull full ∧ (∀ k, 12 ≤ k → k < 40 → full.free k = []) ∧ (buddysize 12 : Int) < full.totalheap / 8 ∧
    ∀ k, envFull.mallocOk full.chunks.length k = false := by
  refine ⟨full_hist, by decide +kernel, by decide +kernel, ?_⟩
  have : full.chunks.length = 2 := by decide +kernel
  rw [this]
  intro k
  rfl

/-- C17 fails for requests of more than `buddysize[39]` words: a chunk of the wrong size is allocated
and overrun. -/
theorem C17_overrun_wrong : Hist env0 h0 ∧ gc_alloc env0 100 0 (buddysize 39) .other h0 = .ub := by
  refine ⟨.init _ (Res.ok_get (by decide +kernel)), ?_⟩
  have h : (match gc_alloc env0 100 0 (buddysize 39) .other h0 with | .ub => true | _ => false) = true := by decide +kernel
  cases e : gc_alloc env0 100 0 (buddysize 39) .other h0 with
  | ub => rfl
  | ok r => rw [e] at h; cases h
  | err => rw [e] at h; cases h
  | fuel => rw [e] at h; cases h

/-- Two requests of index 39, the first dropped, two collections. -/
def hugeOps : List Op := [.alloc 0 (buddysize 38) .other, .alloc 0 60 .other, .collect, .collect]

/-- C17 fails for requests of more than `buddysize[38]` words (over 1.5 GB): a collection does not purge
the free list of that size (memory.c:734), so a free block gets on it once per collection, and the same
block is handed out twice in a row. -/
theorem C17_huge_wrong : (match run env0 100 h0 hugeOps with
    | .ok H => match gc_alloc env0 100 0 (buddysize 38) .other H with
      | .ok r => match gc_alloc env0 100 1 (buddysize 38) .other r.1 with
        | .ok r' => decide (r.2 = r'.2)
        | _ => false
      | _ => false
    | _ => false) = true := by decide +kernel

/-! ### C18: merging undoes splitting -/

/-- C18.  Splitting a cell and merging the two parts gives back the header of the cell. -/
theorem C18_split_merge (env : Env) (he : EnvOk env) (H : Heap) (h : Hist env H) (k : Nat) (b : Cell) (l : List Cell)
    (hb : H.free k = b :: l) (H' : Heap) (hs : splitheap k H = .ok H') :
    ((absorb H' b (b.1, b.2 + size H' b)).hdr b).bix = (H.hdr b).bix ∧
    ((absorb H' b (b.1, b.2 + size H' b)).hdr b).b = (H.hdr b).b ∧
    ((absorb H' b (b.1, b.2 + size H' b)).hdr b).m = (H.hdr b).m ∧
    size H' b + size H' (b.1, b.2 + size H' b) = size H b := by
  obtain ⟨⟨hg, lv, i⟩, hn⟩ := hist_st he h
  have hk := i.freeix k b (by rw [hb]; simp)
  unfold splitheap at hs
  by_cases h2 : k < 2
  · rw [if_pos h2] at hs; cases hs
  · rw [if_neg h2, hb] at hs
    simp only [Res.ok.injEq] at hs
    obtain ⟨j, rfl⟩ : ∃ j, k = j + 2 := ⟨k - 2, by omega⟩
    have hsz : size H' b = buddysize (j + 1) := by unfold size; rw [← hs]; simp [upd]
    have hp := (size_pos (j + 1)).1
    have hne : (b.1, b.2 + buddysize (j + 1)) ≠ b := by
      intro e
      have := congrArg Prod.snd e
      simp at this
      omega
    rw [hsz]
    have h1 : H'.hdr b = ⟨j + 1, false, (H.hdr b).b, (H.hdr b).mark, false⟩ := by rw [← hs]; simp [upd]
    have h2' : H'.hdr (b.1, b.2 + buddysize (j + 1)) =
        ⟨if j + 2 = 2 then 1 else j, true, (H.hdr b).m, false, false⟩ := by
      rw [← hs]
      simp [upd, hne]
    refine ⟨?_, ?_, ?_, ?_⟩
    · simp [absorb, upd, h1, hk]
    · simp [absorb, upd, h1]
    · simp [absorb, upd, h2']
    · have e : size H' (b.1, b.2 + buddysize (j + 1)) = buddysize j := by
        unfold size
        rw [h2']
        by_cases hj : j = 0
        · subst hj; rfl
        · simp [hj]
      rw [e]
      unfold size
      rw [hk, size_two]

/-- The history above has split cells: the free cell of index 16 can be split again. -/
example : Hist env0 h7 ∧ (h7.free 17 ≠ [] ∨ h7.free 16 ≠ []) ∧
    ((splitheap 17 h7).isOk || (splitheap 16 h7).isOk) = true := ⟨hist7, by decide +kernel, by decide +kernel⟩

/-- The facts about a collection in the terms of the specification. -/
theorem collect_facts {env : Env} (he : EnvOk env) {H : Heap} (h : Hist env H) {n : Nat} {H' : Heap}
    (hc : gc env n H = .ok H') :
    ∃ H1 lv lv', markall n H = .ok H1 ∧ Inv H lv ∧ Good H' ∧ Inv H' lv' ∧ Keep H H' ∧ H'.chunks = H.chunks ∧
      (∀ x, live H1 x = true ↔ Accessible H x ∨ (∃ t j, x ∈ H.tb t j) ∨ (H.hdr x).nodispose = true) ∧
      H'.used = H.used.filter (fun u => live H1 u.1) ∧
      (∀ x, x ∈ cellsOf H'.chunks lv' → (x ∈ freeL H' ↔ live H1 x = false)) ∧
      (∀ x, x ∈ tbL H ∨ x ∈ usedL H' → (H'.hdr x).bix = (H.hdr x).bix) ∧
      (∀ pre ck post, H.chunks = pre ++ ck :: post → env.gcmerge H.totalheap ≤
          (((freeL H').filter fun x => decide (x.1 ∈ pre.map Prod.fst)).map fun x => buddysize (H'.hdr x).bix).sum →
        (lv' ck.1).IsChain (Coarse (fun q => (H'.hdr (ck.1, q)).b) fun q => live H1 (ck.1, q))) ∧
      H'.freeheap = (((freeL H').map fun x => buddysize (H'.hdr x).bix).sum : Nat) ∧
      (∀ x, x ∈ H'.disposed ↔ x ∈ cellsOf H.chunks lv ∧ (H.hdr x).nodispose = true ∧ ¬ Accessible H x ∧ x ∉ tbL H) := by
  obtain ⟨⟨hg, lv, i⟩, hn⟩ := hist_st he h
  obtain ⟨H1, hm, _⟩ := bind_ok hc
  obtain ⟨H'', lv', e, g', i', k, ec, hmk, hu, hf, _, hbx, hco, hfr, hd⟩ := gc_spec env n H hg lv i H1 hm
  rw [hc] at e
  cases e
  have mo := (markall_spec n H H1 hm).only
  have hnd : ∀ x, (H1.hdr x).nodispose = (H.hdr x).nodispose := by intro x; rw [mo.bits x]
  have htb : ∀ x, x ∈ tbL H ↔ ∃ t j, x ∈ H.tb t j := by
    intro x
    rw [mem_tbL]
    constructor
    · rintro ⟨t, _, j, _, _, h⟩; exact ⟨t, j, h⟩
    · rintro ⟨t, j, h⟩
      by_contra hc
      rw [i.tbout t j (fun hh => hc ⟨t, hh.1, j, hh.2.1, hh.2.2, h⟩)] at h
      cases h
  refine ⟨H1, lv, lv', hm, i, g', i', k, ec, ?_, hu, hf, hbx, hco, hfr, ?_⟩
  · intro x
    unfold live
    rw [Bool.or_eq_true, hmk, hnd, ← acc_iff hg hn, htb, or_assoc]
  · intro x
    rw [hd, List.mem_filter, Bool.and_eq_true, hnd, Bool.not_eq_true', ← Bool.not_eq_true, hmk, ← acc_iff hg hn]
    tauto

/-- C18.  Merging.  A collection sweeps the chunks from the latest to the oldest, and merges as soon as
the free cells found reach the limit `gcmerge`.  If the limit is reached before a chunk, and nothing in
the chunk is accessible, hooked or in a local list of a thread, then the chunk is one free block of its
full size afterwards, and no other block lies in it.  Missing: chunks swept before the limit is reached
(`C18_unmerged_wrong`). -/
theorem C18_merge_partial (env : Env) (he : EnvOk env) (H : Heap) (h : Hist env H) (n : Nat) (H' : Heap)
    (hs : step env n H .collect = .ok H') (pre post : List (Nat × Nat)) (c k : Nat)
    (hch : H.chunks = pre ++ (c, k) :: post)
    (hlim : ∀ L : List Cell, L.Nodup → (∀ x, x ∈ L ↔ (∃ j, x ∈ H'.free j) ∧ x.1 ∈ pre.map Prod.fst) →
      env.gcmerge H.totalheap ≤ ((L.map (size H')).sum : Nat))
    (hfree : ∀ p, ¬ Accessible H (c, p) ∧ (H.hdr (c, p)).nodispose = false ∧ ∀ t j, (c, p) ∉ H.tb t j) :
    (c, 0) ∈ H'.free k ∧ size H' (c, 0) = buddysize k ∧
    ∀ p, (OnFreeList H' (c, p) ∨ ∃ s, ((c, p), s) ∈ H'.used) → p = 0 := by
  obtain ⟨H1, lv, lv', hm, i, g', i', kk, ec, hl, hu, hf, hbx, hco, hfr, _⟩ := collect_facts he h hs
  have hnd : (freeL H').Nodup := by
    rw [List.nodup_iff_count_le_one]
    intro x
    have := i'.occ x
    omega
  have hlim' := hlim ((freeL H').filter fun x => decide (x.1 ∈ pre.map Prod.fst)) (hnd.filter _) (by
    intro x
    rw [List.mem_filter, decide_eq_true_eq]
    refine and_congr_left fun _ => ?_
    rw [mem_freeL]
    constructor
    · rintro ⟨j, _, hj⟩; exact ⟨j, hj⟩
    · rintro ⟨j, hj⟩
      refine ⟨j, ?_, hj⟩
      by_contra hlt
      rw [i'.freeout j (by have : MAXBUDDY = 40 := rfl; omega)] at hj
      cases hj)
  have hck : (c, k) ∈ H'.chunks := by rw [ec, hch]; simp
  have hL : ∀ x ∈ lv' c, live H1 (c, x) = false := by
    intro x _
    rw [← Bool.not_eq_true, hl]
    have := hfree x
    rintro (h | ⟨t, j, h⟩ | h)
    · exact this.1 h
    · exact this.2.2 t j h
    · rw [this.2.1] at h; cases h
  obtain ⟨e1, e2⟩ := Tiled.single (lv := fun q => live H1 (c, q)) (i'.tiled (c, k) hck) hL (hco pre (c, k) post hch hlim')
  have hcell : ∀ p, (c, p) ∈ cellsOf H'.chunks lv' ↔ p = 0 := by
    intro p
    rw [mem_cellsOf]
    constructor
    · intro hp
      have := hp.2
      simp only at this
      rw [e1] at this
      simpa using this
    · rintro rfl
      exact ⟨List.mem_map.2 ⟨(c, k), hck, rfl⟩, by simp only; rw [e1]; simp⟩
  have h0 : (c, 0) ∈ freeL H' := (hf _ ((hcell 0).2 rfl)).2 (hL 0 (by rw [e1]; simp))
  obtain ⟨j, _, hj⟩ := mem_freeL.1 h0
  have hbk : (H'.hdr (c, 0)).bix = k := e2
  refine ⟨?_, ?_, ?_⟩
  · have := i'.freeix j _ hj
    rw [hbk] at this
    rw [this]
    exact hj
  · unfold size; rw [hbk]
  · intro p hp
    rw [← hcell]
    rcases hp with hp | ⟨s, hp⟩
    · rcases i'.onFree.1 hp with h | h
      · exact i'.cell _ (Or.inl h)
      · exact i'.cell _ (Or.inr (Or.inl h))
    · exact i'.cell _ (Or.inr (Or.inr (List.mem_map.2 ⟨_, hp, rfl⟩)))

/-- An object of 40 words taken from the second chunk, then one that fills the first. -/
def gone (env : Env) : Heap :=
  (step env 100 (step env 100 (initmemory env).get (.alloc 0 40 .other)).get (.alloc 0 (buddysize 20 - 1) .other)).get

theorem gone_hist : Hist env0 (gone env0) := by
  have e0 : Hist env0 (initmemory env0).get := .init _ (Res.ok_get (by decide +kernel))
  have e1 := Hist.step _ _ 100 (.alloc 0 40 .other) e0 ⟨by decide, by decide +kernel, by decide⟩
    (Res.ok_get (by decide +kernel))
  exact Hist.step _ _ 100 (.alloc 0 (buddysize 20 - 1) .other) e1 ⟨by decide, by decide +kernel, by decide⟩
    (Res.ok_get (by decide +kernel))

/-- The hypotheses of the theorem hold for the second chunk, which is split into 7 cells. -/
example : Hist env0 (gone env0) ∧ (gone env0).chunks = [] ++ (1, 18) :: [(0, 20)] ∧
    (∃ H', step env0 100 (gone env0) .collect = .ok H') ∧ (∀ t, env0.gcmerge t ≤ 0) ∧
    size (gone env0) (1, 0) ≠ buddysize 18 ∧
    ∀ p, ¬ Accessible (gone env0) (1, p) ∧ ((gone env0).hdr (1, p)).nodispose = false ∧ ∀ t j, (1, p) ∉ (gone env0).tb t j := by
  refine ⟨gone_hist, by decide +kernel, ⟨_, Res.ok_get (by decide +kernel)⟩, fun _ => Int.le_refl 0, by decide +kernel, ?_⟩
  have hacc : ∀ x, Accessible (gone env0) x → x = (0, 0) := by
    intro x hx
    induction hx with
    | root x hx =>
      have h1 : (gone env0).sys = [] := by decide +kernel
      have h2 : ∀ t < 64, (gone env0).stk t = [] ∧ (gone env0).spec t = [] ∧
          ((gone env0).last t = none ∨ (gone env0).last t = some (0, 0)) := by decide +kernel
      have h3 : (gone env0).cls = [] := by decide +kernel
      rcases hx with h | ⟨t, ht, h⟩ | h
      · rw [h1] at h; cases h
      · obtain ⟨a, b, c⟩ := h2 t ht
        rw [a, b] at h
        rcases h with h | h | h
        · cases h
        · cases h
        · rcases c with c | c
          · rw [c] at h; cases h
          · rw [c] at h; cases h; rfl
      · rw [h3] at h; cases h
    | ref x y _ hy ih =>
      subst ih
      have : ((gone env0).obj (0, 0)).kind = .other := by decide +kernel
      unfold refs at hy
      rw [this] at hy
      cases hy
  obtain ⟨⟨_, lv, i⟩, _⟩ := hist_st env0_ok gone_hist
  intro p
  refine ⟨fun h => ?_, ?_, fun t j h => ?_⟩
  · have := hacc _ h; cases this
  · cases hn : ((gone env0).hdr (1, p)).nodispose with
    | false => rfl
    | true =>
      exfalso
      have hu := i.nod _ hn
      have h1 : ∀ x ∈ usedL (gone env0), ((gone env0).hdr x).nodispose = false := by decide +kernel
      rw [h1 _ hu] at hn
      cases hn
  · have h1 : ∀ t < 64, ∀ j < 6, (gone env0).tb t j = [] := by decide +kernel
    by_cases hc : t < MAXTHREAD ∧ 1 ≤ j ∧ j ≤ 5
    · rw [h1 t hc.1 j (by omega)] at h; cases h
    · rw [i.tbout t j hc] at h; cases h

/-- The default parameters `*gc-margin*` 0.4 and `*gc-merge*` 0.2. -/
def env1 : Env := { env0 with gcmerge := fun t => t * 8 / 100 }

/-- C18 fails with the default parameters: the same history, nothing accessible in the second chunk,
but after a collection it is not one free block (its first cell is smaller); even the next collections
do not merge it. -/
theorem C18_unmerged_wrong :
    (run env1 100 (gone env1) [.collect, .collect, .collect]).isOk = true ∧
    size (run env1 100 (gone env1) [.collect, .collect, .collect]).get (1, 0) ≠ buddysize 18 ∧
    (run env1 100 (gone env1) [.collect, .collect, .collect]).get.used.map Prod.fst = [(0, 0)] := by
  decide +kernel

/-- C18.  No merge absorbs a live block: after a collection every accessible object, every hooked one
and every block in the local list of a thread has the size it had, and shares nothing with the blocks on
the free lists of the root. -/
theorem C18_live_partial (env : Env) (he : EnvOk env) (H : Heap) (h : Hist env H) (n : Nat) (H' : Heap)
    (hs : step env n H .collect = .ok H') (x : Cell)
    (hx : Accessible H x ∨ (∃ t j, x ∈ H.tb t j) ∨ (H.hdr x).nodispose = true) :
    size H' x = size H x ∧ Inside H' x ∧ ∀ k, ∀ y ∈ H'.free k, Apart H' x y := by
  obtain ⟨H1, lv, lv', hm, i, g', i', kk, ec, hl, hu, hf, hbx, hco, hfr, _⟩ := collect_facts he h hs
  obtain ⟨⟨hg, _⟩, hn⟩ := hist_st he h
  have hlx := (hl x).2 hx
  have htb : tbL H' = tbL H := tbL_congr kk.tb
  have hin : x ∈ tbL H ∨ x ∈ usedL H' := by
    have hh : x ∈ tbL H ∨ x ∈ usedL H := by
      rcases hx with h | ⟨t, j, h⟩ | h
      · exact Or.inr (hg x ((acc_iff hg hn x).1 h))
      · left
        rcases i.onFree.1 (Or.inr ⟨t, j, h⟩) with h' | h'
        · exfalso
          have := i.tb_mem h
          have := i.occ x
          have := count_pos.2 h'
          have hc := count_pos.2 (show x ∈ tbL H from (by
            rw [mem_tbL]
            by_contra hc
            rw [i.tbout t j (fun hh => hc ⟨t, hh.1, j, hh.2.1, hh.2.2, h⟩)] at h
            cases h))
          omega
        · exact h'
      · exact Or.inr (i.nod x h)
    rcases hh with hh | hh
    · exact Or.inl hh
    · right
      obtain ⟨u, hu', rfl⟩ := List.mem_map.1 hh
      exact List.mem_map.2 ⟨u, by rw [hu, List.mem_filter]; exact ⟨hu', hlx⟩, rfl⟩
  have hcx : x ∈ cellsOf H'.chunks lv' := by
    rcases hin with h | h
    · exact i'.cell _ (Or.inr (Or.inl (by rw [htb]; exact h)))
    · exact i'.cell _ (Or.inr (Or.inr h))
  refine ⟨by unfold size; rw [hbx x hin], i'.inside hcx, ?_⟩
  intro k y hy
  have hyf : y ∈ freeL H' := by
    rcases i'.onFree.1 (Or.inl ⟨k, hy⟩) with h | h
    · exact h
    · have := i'.free_mem hy
      tauto
  have hcy := i'.cell _ (Or.inl hyf)
  refine i'.apart hcx hcy ?_
  rintro rfl
  have := (hf x hcx).1 hyf
  rw [hlx] at this
  cases this

/-- Live blocks and free ones. -/
example : Hist env0 h7 ∧ step env0 100 h7 .collect = .ok h8 ∧ Accessible h7 (1, 12537) ∧ h8.free 18 ++ h8.free 20 ≠ [] :=
  ⟨hist7, collect7, by_stk (by decide +kernel), by decide +kernel⟩

/-! ### C19: the figures -/

/-- C19.  After any history the total is the size of the chunks obtained from the operating system, and
the free figure, what is in use, and what the threads hold in their local lists add up to it; the free
lists never hold more than the free figure says. -/
theorem C19_figures_partial (env : Env) (he : EnvOk env) (H : Heap) (h : Hist env H) :
    H.totalheap = chunkTotal H ∧ H.freeheap + localTotal H + usedTotal H = H.totalheap ∧
    (freeTotal H : Int) ≤ H.freeheap := by
  obtain ⟨⟨hg, lv, i⟩, hn⟩ := hist_st he h
  have h1 := i.total
  have h2 := i.acc
  have h3 : H.totalheap = chunkTotal H := i.tot
  have e1 : localTotal H = ((tbL H).map fun x => buddysize (H.hdr x).bix).sum := localTotal_eq H
  have e2 : usedTotal H = ((usedL H).map fun x => buddysize (H.hdr x).bix).sum := usedTotal_eq H
  rw [← e1, ← e2] at h2
  refine ⟨h3, h2, ?_⟩
  omega

example : Hist env0 h7 ∧ h7.totalheap = 45381 ∧ localTotal h7 ≠ 0 ∧ usedTotal h7 ≠ 0 :=
  ⟨hist7, by decide +kernel, by decide +kernel, by decide +kernel⟩

/-- The heap full, then a request that needs new chunks. -/
def lostOps : List Op := [.alloc 0 (buddysize 18 - 1) .other, .setstk 0 [(1, 0)], .alloc 0 (buddysize 20 - 1) .other,
  .setstk 0 [(1, 0), (0, 0)], .alloc 0 100 .other]

/-- C19 fails between collections: the loop of memory.c:234 adds chunks of the same size until enough is
free, but each overwrites the free list of that size (memory.c:135, 154), so all but the last are lost until
the next collection: the free figure says more than twice what the free lists hold. -/
theorem C19_lost_wrong : (run env0 100 h0 lostOps).isOk = true ∧
    2 * (freeTotal (run env0 100 h0 lostOps).get : Int) < (run env0 100 h0 lostOps).get.freeheap := by
  decide +kernel

/-- C19.  Right after a collection the free figure is exactly what the free lists hold.  Missing: the
time after a chunk was added while the free list of its size was not empty (`C19_lost_wrong`). -/
theorem C19_collected_partial (env : Env) (he : EnvOk env) (H : Heap) (h : Hist env H) (n : Nat) (H' : Heap)
    (hs : step env n H .collect = .ok H') : H'.freeheap = freeTotal H' := by
  obtain ⟨H1, lv, lv', hm, i, g', i', kk, ec, hl, hu, hf, hbx, hco, hfr, _⟩ := collect_facts he h hs
  rw [hfr, freeTotal_eq]
  rfl

example : Hist env0 h7 ∧ step env0 100 h7 .collect = .ok h8 ∧ freeTotal h8 ≠ 0 := ⟨hist7, collect7, by decide +kernel⟩

/-! ### C20: marking -/

/-- C20.  The mark phase marks exactly the objects the program can get at, besides the blocks in the
local free lists, and changes nothing but marks.  Missing: closures (`C20_closure_wrong`). -/
theorem C20_mark_partial (env : Env) (he : EnvOk env) (H : Heap) (h : Hist env H) (n : Nat) (H1 : Heap)
    (hm : markall n H = .ok H1) :
    (∀ x, (H1.hdr x).mark = true ↔ Accessible H x ∨ ∃ t j, x ∈ H.tb t j) ∧ H1 = { H with hdr := H1.hdr } ∧
    ∀ x, { H1.hdr x with mark := false } = H.hdr x := by
  obtain ⟨⟨hg, lv, i⟩, hn⟩ := hist_st he h
  obtain ⟨H'', lv', e, g', i', k, ec, hmk, hu, hf, _, hbx, hco, hfr, hd⟩ := gc_spec env n H hg lv i H1 hm
  have mo := (markall_spec n H H1 hm).only
  refine ⟨fun x => ?_, mo.rest, fun x => ?_⟩
  · rw [hmk, acc_iff hg hn, mem_tbL]
    refine or_congr_right ?_
    constructor
    · rintro ⟨t, _, j, _, _, h⟩; exact ⟨t, j, h⟩
    · rintro ⟨t, j, h⟩
      by_contra hc
      rw [i.tbout t j (fun hh => hc ⟨t, hh.1, j, hh.2.1, hh.2.2, h⟩)] at h
      cases h
  · rw [mo.bits x, ← i.mark x]

/-- Marking a cycle: three objects are marked, the object of 60 words is not. -/
example : Hist env0 h7 ∧ (markall 100 h7).isOk = true ∧ ((markall 100 h7).get.hdr (1, 12378)).mark = true ∧
    ((markall 100 h7).get.hdr (1, 12276)).mark = false :=
  ⟨hist7, by decide +kernel, by decide +kernel, by decide +kernel⟩

/-- A closure that refers to a list cell; the closure is on the stack. -/
def cloOps : List Op := [.alloc 0 2 .closure, .setstk 0 [(1, 12537)], .alloc 0 2 .fixed, .store (1, 12537) 0 (some (1, 12534)),
  .alloc 0 2 .fixed, .collect]

/-- C20 fails for closures: the collector does not follow what they hold (memory.c:470-491), so an
object the program can get at is freed. -/
theorem C20_closure_wrong : ∃ H, run env0 100 h0 cloOps = .ok H ∧ Accessible H (1, 12534) ∧ OnFreeList H (1, 12534) := by
  refine ⟨_, Res.ok_get (by decide +kernel), .ref (1, 12537) _ (by_stk (by decide +kernel)) (by decide +kernel),
    Or.inl ⟨1, by decide +kernel⟩⟩

/-- C20.  Marking, and the whole collection, always end normally, whatever the shape of the data (cycles
included): there is a number of rounds that suffices. -/
theorem C20_terminates_partial (env : Env) (he : EnvOk env) (H : Heap) (h : Hist env H) :
    ∃ N, ∀ n ≥ N, (∃ H1, markall n H = .ok H1) ∧ ∃ H', step env n H .collect = .ok H' := by
  obtain ⟨⟨hg, lv, i⟩, hn⟩ := hist_st he h
  obtain ⟨N, hN⟩ := markall_total hg
  refine ⟨N, fun n hn' => ?_⟩
  obtain ⟨H1, hm⟩ := hN n hn'
  obtain ⟨H', lv', e, _⟩ := gc_spec env n H hg lv i H1 hm
  exact ⟨⟨H1, hm⟩, H', e⟩

example : Hist env0 h7 := hist7

/-- C20.  A collection keeps, of the blocks handed out, exactly those the program can get at and those
with a disposal hook. -/
theorem C20_kept_partial (env : Env) (he : EnvOk env) (H : Heap) (h : Hist env H) (n : Nat) (H' : Heap)
    (hs : step env n H .collect = .ok H') (x : Cell) (s : Nat) :
    (x, s) ∈ H'.used ↔ (x, s) ∈ H.used ∧ (Accessible H x ∨ (H.hdr x).nodispose = true) := by
  obtain ⟨H1, lv, lv', hm, i, g', i', kk, ec, hl, hu, hf, hbx, hco, hfr, _⟩ := collect_facts he h hs
  rw [hu, List.mem_filter, hl]
  refine and_congr_right fun hxs => ?_
  constructor
  · rintro (h | ⟨t, j, h⟩ | h)
    · exact Or.inl h
    · exfalso
      have h1 := count_pos.2 (show x ∈ usedL H from List.mem_map.2 ⟨_, hxs, rfl⟩)
      have h2 := i.occ x
      have h3 := count_pos.2 (show x ∈ tbL H from (by
        rw [mem_tbL]
        by_contra hc
        rw [i.tbout t j (fun hh => hc ⟨t, hh.1, j, hh.2.1, hh.2.2, h⟩)] at h
        cases h))
      omega
    · exact Or.inr h
  · rintro (h | h)
    · exact Or.inl h
    · exact Or.inr (Or.inr h)

/-- Kept and dropped. -/
example : Hist env0 h7 ∧ step env0 100 h7 .collect = .ok h8 ∧ ((1, 12276), 60) ∈ h7.used ∧ ((1, 12276), 60) ∉ h8.used ∧
    ((1, 12378), 40) ∈ h8.used := ⟨hist7, collect7, by decide +kernel, by decide +kernel, by decide +kernel⟩

/-! ### C21: collections are invisible -/

/-- C21.  A collection changes no root and no contents; the same objects are accessible, with the same
size and hook. -/
theorem C21_invisible_partial (env : Env) (he : EnvOk env) (H : Heap) (h : Hist env H) (n : Nat) (H' : Heap)
    (hs : step env n H .collect = .ok H') :
    (∀ x, Root H' x ↔ Root H x) ∧ (∀ x, Accessible H' x ↔ Accessible H x) ∧
    ∀ x, Accessible H x → H'.obj x = H.obj x ∧ size H' x = size H x ∧ (H'.hdr x).nodispose = (H.hdr x).nodispose ∧
      ∀ s, (x, s) ∈ H.used → (x, s) ∈ H'.used := by
  obtain ⟨⟨hg, _⟩, hn⟩ := hist_st he h
  obtain ⟨H1, lv, lv', hm, i, g', i', kk, ec, hl, hu, hf, hbx, hco, hfr, _⟩ := collect_facts he h hs
  refine ⟨fun x => ?_, fun x => ⟨?_, ?_⟩, fun x hx => ⟨by rw [kk.obj], ?_, ?_, fun s hxs => ?_⟩⟩
  · rw [root_iff, root_iff, kk.roots]
  · exact Accessible.congr kk.obj.symm kk.sys.symm kk.stk.symm kk.spec.symm kk.last.symm kk.cls.symm
  · exact Accessible.congr kk.obj kk.sys kk.stk kk.spec kk.last kk.cls
  · exact (C18_live_partial env he H h n H' hs x (Or.inl hx)).1
  · exact kk.hook x ((acc_iff hg hn x).1 hx)
  · exact (C20_kept_partial env he H h n H' hs x s).2 ⟨hxs, Or.inl hx⟩

example : Hist env0 h7 ∧ step env0 100 h7 .collect = .ok h8 ∧ Accessible h7 (1, 12378) :=
  ⟨hist7, collect7, .ref (1, 12537) _ (by_stk (by decide +kernel)) (by decide +kernel)⟩

/-- C21.  A block freed by a collection is never accessible again before it is handed out by a new
allocation, in any execution; and an accessible object is never on a free list.  Missing: the `:dispose`
method of an unreachable object (`C21_dispose_wrong`). -/
theorem C21_freed_partial (env : Env) (he : EnvOk env) (H : Heap) (h : Hist env H) (n : Nat) (H1 : Heap)
    (hs : step env n H .collect = .ok H1) (x : Cell) (s : Nat) (hx : (x, s) ∈ H.used) (hx' : (x, s) ∉ H1.used)
    (H' : Heap) (hw : Without env x H1 H') : ¬ Accessible H' x ∧ ∀ y, Accessible H' y → ¬ OnFreeList H' y := by
  have hh1 : Hist env H1 := .step H H1 n .collect h trivial hs
  have hall : Hist env H' ∧ x ∉ usedL H' := by
    induction hw with
    | refl =>
      refine ⟨hh1, fun hc => ?_⟩
      obtain ⟨u, hu, hux⟩ := List.mem_map.1 hc
      obtain ⟨y, s'⟩ := u
      simp only at hux
      subst hux
      have h2 := (C20_kept_partial env he H h n H1 hs y s').1 hu
      exact hx' ((C20_kept_partial env he H h n H1 hs y s).2 ⟨hx, h2.2⟩)
    | step H2 H3 n' op _ ha hs' hne ih =>
      obtain ⟨hH2, hxu⟩ := ih
      refine ⟨.step H2 H3 n' op hH2 ha hs', ?_⟩
      obtain ⟨hS2, hn2⟩ := hist_st he hH2
      cases op with
      | alloc t s' kind =>
        obtain ⟨⟨H4, b⟩, e1, e2⟩ := bind_ok hs'
        simp only [Res.ok.injEq] at e2
        subst e2
        have hb := hne t s' kind rfl
        have a := ((gc_alloc_safe env n' t s' kind H2 hS2 ha.1 ha.2.1 he).of e1).2
        obtain ⟨U, hU, hsub, _⟩ := a.used
        simp only at hU
        unfold usedL
        rw [hU, List.map_cons, List.mem_cons]
        rintro (h | h)
        · exact hb (by rw [e1, h])
        · exact hxu ((hsub.map Prod.fst).subset h)
      | collect =>
        have := ((gc_safe env n' H2 hS2).of hs').2.used
        exact fun h => hxu ((this.map Prod.fst).subset h)
      | store c i v => cases hs'; exact hxu
      | setsys l => cases hs'; exact hxu
      | setstk t l => cases hs'; exact hxu
      | setspec t l => cases hs'; exact hxu
      | setcls l => cases hs'; exact hxu
      | hook c on => cases hs'; exact hxu
  obtain ⟨⟨hg, lv, i⟩, hn⟩ := hist_st he hall.1
  refine ⟨fun ha => hall.2 (hg x ((acc_iff hg hn x).1 ha)), fun y hy hf => ?_⟩
  have h1 := count_pos.2 (hg y ((acc_iff hg hn y).1 hy))
  have h2 := i.occ y
  rcases i.onFree.1 hf with h | h
  · have := count_pos.2 h; omega
  · have := count_pos.2 h; omega

/-- A freed block, and an execution that goes on. -/
example : Hist env0 h7 ∧ step env0 100 h7 .collect = .ok h8 ∧ ((1, 12276), 60) ∈ h7.used ∧ ((1, 12276), 60) ∉ h8.used ∧
    Without env0 (1, 12276) h8 (step env0 100 h8 (.setsys [])).get :=
  ⟨hist7, collect7, by decide +kernel, by decide +kernel,
    .step h8 _ 100 (.setsys []) .refl (fun _ h => by cases h) rfl (fun _ _ _ h => by cases h)⟩

/-- An object with a disposal hook that refers to another; nothing refers to it any more. -/
def dispOps : List Op := [.alloc 0 2 .fixed, .setstk 0 [(1, 12537)], .alloc 0 2 .fixed, .store (1, 12537) 0 (some (1, 12534)),
  .hook (1, 12537) true, .setstk 0 [], .alloc 0 2 .fixed, .collect]

/-- C21 fails for disposal hooks: an object with a hook survives the collection, to be sent `:dispose`,
but what it refers to is freed first: the method sees a freed block. -/
theorem C21_dispose_wrong : ∃ H, run env0 100 h0 dispOps = .ok H ∧ (1, 12537) ∈ H.disposed ∧
    (1, 12534) ∈ refs (H.obj (1, 12537)) ∧ OnFreeList H (1, 12534) :=
  ⟨_, Res.ok_get (by decide +kernel), by decide +kernel, by decide +kernel, Or.inl ⟨1, by decide +kernel⟩⟩

end Eus.Mem
