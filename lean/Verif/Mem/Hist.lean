import Verif.Mem.Alloc
import Verif.Mem.Spec
set_option autoImplicit false
/-
Every history keeps the invariant.
-/
namespace Eus.Mem

/-- No closure among the objects handed out. -/
def NoClo (H : Heap) : Prop := ∀ x ∈ usedL H, (H.obj x).kind ≠ .closure

theorem root_iff {H : Heap} {x : Cell} : Root H x ↔ x ∈ rootsL H := mem_roots.symm

theorem refs_eq {o : Obj} (h : o.kind ≠ .closure) : refs o = children o := by
  unfold refs children
  cases hk : o.kind with
  | closure => exact absurd hk h
  | _ => rfl

theorem acc_iff {H : Heap} (hg : Good H) (hn : NoClo H) (x : Cell) :
    Accessible H x ↔ ReachFrom H.obj (rootsL H) x := by
  constructor
  · intro h
    induction h with
    | root x hx => exact .root x (root_iff.1 hx)
    | ref x y _ hy ih => exact .step x y ih (by rw [← refs_eq (hn x (hg x ih))]; exact hy)
  · intro h
    induction h with
    | root x hx => exact .root x (root_iff.2 hx)
    | step x y hx hy ih => exact .ref x y ih (by rw [refs_eq (hn x (hg x hx))]; exact hy)

theorem empty_st : St empty := by
  refine ⟨?_, fun _ => [], ?_⟩
  · intro x hx
    have hr : ∀ y, y ∉ rootsL empty := by
      intro y hy
      rw [mem_roots] at hy
      simp [empty] at hy
    induction hx with
    | root x hx => exact absurd hx (hr x)
    | step x y _ _ ih => simp [usedL, empty] at ih
  · have hf : freeL empty = [] := by
      apply List.eq_nil_iff_forall_not_mem.2
      intro x hx
      obtain ⟨k, _, hx⟩ := mem_freeL.1 hx
      simp [empty] at hx
    have ht : tbL empty = [] := by
      apply List.eq_nil_iff_forall_not_mem.2
      intro x hx
      obtain ⟨t, _, j, _, _, hx⟩ := mem_tbL.1 hx
      simp [empty] at hx
    have hu : usedL empty = [] := rfl
    constructor
    · intro c; simp [empty]
    · simp [empty]
    · simp [empty]
    · simp [empty]
    · intro x; rw [hf, ht, hu]; simp
    · intro x; rw [hf, ht, hu]; simp
    · intro k x hx; simp [empty] at hx
    · intro k _; rfl
    · intro t j x hx; simp [empty] at hx
    · intro t j _; rfl
    · rw [ht, hu]; rfl
    · rfl
    · intro k _; rfl
    · intro t j; rfl
    · intro x; rfl
    · intro x hx; simp [empty] at hx
    · simp [empty]

theorem init_st {env : Env} {H : Heap} (h : initmemory env = .ok H) : St H ∧ NoClo H := by
  unfold initmemory at h
  obtain ⟨H1, r, e, s1, k1, _⟩ := newchunk_spec env 20 empty empty_st (by decide)
  rw [e] at h
  obtain ⟨H2, r', e', s2, k2, _⟩ := newchunk_spec env 18 H1 s1 (by decide)
  simp only [Res.bind] at h
  rw [e'] at h
  simp only [Res.ok.injEq] at h
  subst h
  refine ⟨s2, ?_⟩
  intro x hx
  have := ((k1.trans k2).used.map Prod.fst).subset hx
  simp [empty] at this

/-- Smaller roots. -/
theorem st_roots {H H' : Heap} (hS : St H) (ho : H'.obj = H.obj)
    (hr : ∀ x ∈ rootsL H', ReachFrom H.obj (rootsL H) x) (hu : H'.used = H.used)
    (hi : ∀ lv, Inv H lv → Inv H' lv) : St H' := by
  obtain ⟨hg, lv, i⟩ := hS
  refine ⟨?_, lv, hi lv i⟩
  intro x hx
  rw [ho] at hx
  rw [usedL_congr hu]
  exact hg x (hx.mono hr)

theorem Inv.congr {H H' : Heap} {lv : Nat → List Nat} (i : Inv H lv) (h1 : H'.chunks = H.chunks) (h2 : H'.hdr = H.hdr)
    (h3 : H'.free = H.free) (h4 : H'.tb = H.tb) (h5 : H'.used = H.used) (h6 : H'.freeheap = H.freeheap)
    (h7 : H'.totalheap = H.totalheap) (h8 : H'.count = H.count) (h9 : H'.tcount = H.tcount) : Inv H' lv := by
  have ef : freeL H' = freeL H := by unfold freeL; rw [h3]
  have et := tbL_congr h4
  have eu := usedL_congr h5
  constructor
  · rw [h1]; exact i.num
  · rw [h1]; exact i.nodup
  · rw [h1]; exact i.ix
  · rw [h1]; unfold hc; rw [h2]; exact i.tiled
  · rw [ef, et, eu]; exact i.occ
  · rw [ef, et, eu, h1]; exact i.cell
  · rw [h3, h2]; exact i.freeix
  · rw [h3]; exact i.freeout
  · rw [h4, h2]; exact i.tbix
  · rw [h4]; exact i.tbout
  · rw [h6, h7, et, eu, h2]; exact i.acc
  · rw [h7, h1]; exact i.tot
  · rw [h8, h3]; exact i.count
  · rw [h9, h4]; exact i.tcount
  · rw [h2]; exact i.mark
  · rw [h2, eu]; exact i.nod
  · rw [h5, h2]; exact i.fits

theorem mem_children_set {o : Obj} {i : Nat} {v : Option Cell} {y : Cell}
    (h : y ∈ children { o with words := o.words.set i v }) : y ∈ children o ∨ v = some y := by
  have hs : ∀ (l : List (Option Cell)) (i : Nat), y ∈ (l.set i v).filterMap id → y ∈ l.filterMap id ∨ v = some y := by
    intro l i h
    simp only [List.mem_filterMap, id] at h ⊢
    obtain ⟨a, ha, rfl⟩ := h
    rcases List.mem_or_eq_of_mem_set ha with h | h
    · exact Or.inl ⟨_, h, rfl⟩
    · exact Or.inr h.symm
  unfold children at h ⊢
  cases hk : o.kind with
  | fixed => rw [hk] at h; exact hs _ _ h
  | vector =>
    rw [hk] at h
    simp only at h ⊢
    cases hw : o.words with
    | nil => rw [hw] at h; simp at h
    | cons a l =>
      rw [hw] at h
      cases i with
      | zero => simp only [List.set_cons_zero, List.tail_cons] at h; exact Or.inl h
      | succ i =>
        simp only [List.set_cons_succ, List.tail_cons] at h
        exact hs l i h
  | other => rw [hk] at h; cases h
  | closure => rw [hk] at h; cases h

theorem step_safe (env : Env) (he : EnvOk env) (n : Nat) (H : Heap) (op : Op) (hS : St H) (hn : NoClo H)
    (ha : Allowed H op) : (step env n H op).Safe fun H' => St H' ∧ NoClo H' := by
  have hacc : ∀ x, Accessible H x → ReachFrom H.obj (rootsL H) x := fun x => (acc_iff hS.1 hn x).1
  cases op with
  | alloc t s kind =>
    refine (gc_alloc_safe env n t s kind H hS ha.1 ha.2.1 he).bind fun r _ hr => ?_
    refine ⟨hr.1, ?_⟩
    obtain ⟨U, hU, hsub, _⟩ := hr.2.used
    obtain ⟨m, _, hm⟩ := hr.2.obj
    intro x hx
    show (r.1.obj x).kind ≠ _
    rw [hm]
    by_cases hb : x = r.2
    · subst hb; simpa [upd] using ha.2.2
    · rw [show ∀ v, upd H.obj r.2 v x = H.obj x by intro v; simp [upd, hb]]
      apply hn
      have hx : x ∈ r.1.used.map Prod.fst := hx
      rw [hU] at hx
      exact (hsub.map Prod.fst).subset ((List.mem_cons.1 hx).resolve_left hb)
  | store c i v =>
    refine ⟨⟨?_, ?_⟩, ?_⟩
    · intro x hx
      show x ∈ usedL H
      apply hS.1
      induction hx with
      | root x hx => exact .root x hx
      | step x y _ hy ih =>
        by_cases hc : x = c
        · subst hc
          have hy : y ∈ children (upd H.obj x { H.obj x with words := (H.obj x).words.set i v } x) := hy
          rw [show ∀ w, upd H.obj x w x = w by intro w; simp [upd]] at hy
          rcases mem_children_set hy with h | h
          · exact .step x y ih h
          · exact hacc y (ha.2 y h)
        · have hy : y ∈ children (upd H.obj c _ x) := hy
          rw [show ∀ w, upd H.obj c w x = H.obj x by intro w; simp [upd, hc]] at hy
          exact .step x y ih hy
    · obtain ⟨_, lv, i⟩ := hS
      exact ⟨lv, i.congr rfl rfl rfl rfl rfl rfl rfl rfl rfl⟩
    · intro x hx
      show (upd H.obj c _ x).kind ≠ _
      by_cases hc : x = c
      · subst hc
        rw [show ∀ w, upd H.obj x w x = w by intro w; simp [upd]]
        exact hn x hx
      · rw [show ∀ w, upd H.obj c w x = H.obj x by intro w; simp [upd, hc]]
        exact hn x hx
  | setsys l =>
    refine ⟨st_roots hS rfl ?_ rfl fun lv i => i.congr rfl rfl rfl rfl rfl rfl rfl rfl rfl, hn⟩
    intro x hx
    rw [mem_roots] at hx
    rcases hx with h | h | h
    · exact hacc x (ha x h)
    · exact .root x (mem_roots.2 (Or.inr (Or.inl h)))
    · exact .root x (mem_roots.2 (Or.inr (Or.inr h)))
  | setstk t l =>
    refine ⟨st_roots hS rfl ?_ rfl fun lv i => i.congr rfl rfl rfl rfl rfl rfl rfl rfl rfl, hn⟩
    intro x hx
    rw [mem_roots] at hx
    rcases hx with h | ⟨t', ht', h⟩ | h
    · exact .root x (mem_roots.2 (Or.inl h))
    · by_cases htt : t' = t
      · subst htt
        rcases h with h | h
        · have h : x ∈ upd H.stk t' l t' := h
          simp only [upd, if_true] at h
          exact hacc x (ha x h)
        · exact .root x (mem_roots.2 (Or.inr (Or.inl ⟨t', ht', Or.inr h⟩)))
      · rcases h with h | h
        · have h : x ∈ upd H.stk t l t' := h
          simp only [upd, htt, if_false] at h
          exact .root x (mem_roots.2 (Or.inr (Or.inl ⟨t', ht', Or.inl h⟩)))
        · exact .root x (mem_roots.2 (Or.inr (Or.inl ⟨t', ht', Or.inr h⟩)))
    · exact .root x (mem_roots.2 (Or.inr (Or.inr h)))
  | setspec t l =>
    refine ⟨st_roots hS rfl ?_ rfl fun lv i => i.congr rfl rfl rfl rfl rfl rfl rfl rfl rfl, hn⟩
    intro x hx
    rw [mem_roots] at hx
    rcases hx with h | ⟨t', ht', h⟩ | h
    · exact .root x (mem_roots.2 (Or.inl h))
    · rcases h with h | h | h
      · exact .root x (mem_roots.2 (Or.inr (Or.inl ⟨t', ht', Or.inl h⟩)))
      · have h : x ∈ upd H.spec t l t' := h
        by_cases htt : t' = t
        · subst htt
          simp only [upd, if_true] at h
          exact hacc x (ha x h)
        · simp only [upd, htt, if_false] at h
          exact .root x (mem_roots.2 (Or.inr (Or.inl ⟨t', ht', Or.inr (Or.inl h)⟩)))
      · exact .root x (mem_roots.2 (Or.inr (Or.inl ⟨t', ht', Or.inr (Or.inr h)⟩)))
    · exact .root x (mem_roots.2 (Or.inr (Or.inr h)))
  | setcls l =>
    refine ⟨st_roots hS rfl ?_ rfl fun lv i => i.congr rfl rfl rfl rfl rfl rfl rfl rfl rfl, hn⟩
    intro x hx
    rw [mem_roots] at hx
    rcases hx with h | h | h
    · exact .root x (mem_roots.2 (Or.inl h))
    · exact .root x (mem_roots.2 (Or.inr (Or.inl h)))
    · exact hacc x (ha x h)
  | hook c on =>
    obtain ⟨hg, lv, i⟩ := hS
    have hcu : c ∈ usedL H := hg c (hacc c ha)
    have hh : ∀ x, (upd H.hdr c { H.hdr c with nodispose := on } x).bix = (H.hdr x).bix ∧
        (upd H.hdr c { H.hdr c with nodispose := on } x).b = (H.hdr x).b ∧
        (upd H.hdr c { H.hdr c with nodispose := on } x).m = (H.hdr x).m ∧
        (upd H.hdr c { H.hdr c with nodispose := on } x).mark = (H.hdr x).mark := by
      intro x
      by_cases hx : x = c
      · subst hx; simp [upd]
      · simp [upd, hx]
    refine ⟨⟨hg, lv, ?_⟩, hn⟩
    constructor
    · exact i.num
    · exact i.nodup
    · exact i.ix
    · intro ck hck
      refine (i.tiled ck hck).frame fun x _ => ?_
      have := hh (ck.1, x)
      exact ⟨this.1, this.2.1, this.2.2.1⟩
    · exact i.occ
    · exact i.cell
    · intro k x hx; exact ((hh x).1).trans (i.freeix k x hx)
    · exact i.freeout
    · intro t j x hx; exact ((hh x).1).trans (i.tbix t j x hx)
    · exact i.tbout
    · have e : (fun x => buddysize (upd H.hdr c { H.hdr c with nodispose := on } x).bix) =
          fun x => buddysize (H.hdr x).bix := by funext x; rw [(hh x).1]
      show H.freeheap + (((tbL H).map fun x => buddysize (upd H.hdr c { H.hdr c with nodispose := on } x).bix).sum : Nat) +
        (((usedL H).map fun x => buddysize (upd H.hdr c { H.hdr c with nodispose := on } x).bix).sum : Nat) = H.totalheap
      rw [e]
      exact i.acc
    · exact i.tot
    · exact i.count
    · exact i.tcount
    · intro x; exact ((hh x).2.2.2).trans (i.mark x)
    · intro x hx
      show x ∈ usedL H
      by_cases hxc : x = c
      · rw [hxc]; exact hcu
      · have hx : (upd H.hdr c { H.hdr c with nodispose := on } x).nodispose = true := hx
        simp only [upd, hxc, if_false] at hx
        exact i.nod x hx
    · intro u hu
      have := i.fits u hu
      show u.2 + 1 ≤ buddysize (upd H.hdr c { H.hdr c with nodispose := on } u.1).bix
      rw [(hh u.1).1]
      exact this
  | collect =>
    refine (gc_safe env n H hS).imp fun H' h => ⟨h.1, ?_⟩
    intro x hx
    rw [h.2.obj]
    exact hn x ((h.2.used.map Prod.fst).subset hx)

theorem hist_st {env : Env} (he : EnvOk env) {H : Heap} (h : Hist env H) : St H ∧ NoClo H := by
  induction h with
  | init H h => exact init_st h
  | step H H' n op _ ha hs ih => exact (step_safe env he n H op ih.1 ih.2 ha).of hs

end Eus.Mem
