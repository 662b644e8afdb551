import Verif.Cmp.Clear
set_option autoImplicit false
/-
What the translator's methods change.
-/
namespace Eus.Cmp
open Eus.Lex (Sym Expr)
open Comp

/-- Code is added, whose labels are among ls, and nothing else is changed but what is to be pushed. -/
structure Op (ls : List Nat) (c c' : Comp) : Prop where
  code : ∃ new, c'.code = c.code ++ new ∧ ∀ l, Instr.label l ∈ new → l ∈ ls
  lab : c'.lab = c.lab
  frames : c'.frames = c.frames
  scope : c'.scope = c.scope
  cl : c'.cl = c.cl
  flets : c'.flets = c.flets
  cnt : c'.cnt = c.cnt
  tasks : c'.tasks = c.tasks

theorem Op.refl (ls : List Nat) (c : Comp) : Op ls c c := ⟨⟨[], by simp, by simp⟩, rfl, rfl, rfl, rfl, rfl, rfl, rfl⟩

theorem Op.trans {ls : List Nat} {a b c : Comp} (h : Op ls a b) (h' : Op ls b c) : Op ls a c := by
  obtain ⟨n1, e1, f1⟩ := h.code
  obtain ⟨n2, e2, f2⟩ := h'.code
  refine ⟨⟨n1 ++ n2, by rw [e2, e1, List.append_assoc], ?_⟩, h'.lab.trans h.lab, h'.frames.trans h.frames, h'.scope.trans h.scope, h'.cl.trans h.cl, h'.flets.trans h.flets, h'.cnt.trans h.cnt, h'.tasks.trans h.tasks⟩
  intro l hl
  rcases List.mem_append.mp hl with h | h
  · exact f1 l h
  · exact f2 l h

theorem op_emit {ls : List Nat} (i : Instr) (c : Comp) (h : ∀ l, i = .label l → l ∈ ls) : Op ls c (c.emit i) :=
  ⟨⟨[i], rfl, fun l hl => h l (List.mem_singleton.mp hl).symm⟩, rfl, rfl, rfl, rfl, rfl, rfl, rfl⟩

theorem op_clear (ls : List Nat) (c : Comp) : Op ls c c.clear := by
  unfold clear
  split
  · exact Op.refl ls c
  · exact ⟨⟨_, rfl, by simp⟩, rfl, rfl, rfl, rfl, rfl, rfl, rfl⟩

theorem op_pushx (ls : List Nat) (x : CX) (c : Comp) : Op ls c (c.pushx x) :=
  (op_clear ls c).trans ⟨⟨[], by simp [pushx], by simp⟩, rfl, rfl, rfl, rfl, rfl, rfl, rfl⟩

theorem op_popx (ls : List Nat) (c : Comp) : Op ls c c.popx.2 := by
  unfold popx
  split <;> exact ⟨⟨[], by simp, by simp⟩, rfl, rfl, rfl, rfl, rfl, rfl, rfl⟩

theorem op_store (ls : List Nat) (d : Dst) (c : Comp) : Op ls c (c.store d) := by
  unfold store
  split
  · exact ⟨⟨[], by simp, by simp⟩, rfl, rfl, rfl, rfl, rfl, rfl, rfl⟩
  · exact (op_popx ls c).trans (op_emit _ _ (by simp))

theorem op_dupe (ls : List Nat) (c : Comp) : Op ls c c.dupe := by
  unfold dupe
  split
  · exact op_pushx ls _ c
  · exact (op_clear ls c).trans (op_pushx ls _ _)

theorem op_discard (ls : List Nat) (n : Nat) (c : Comp) : Op ls c (c.discard n) := by
  unfold Comp.discard
  split <;> exact ⟨⟨[], by simp, by simp⟩, rfl, rfl, rfl, rfl, rfl, rfl, rfl⟩

theorem op_adjust (ls : List Nat) (n : Nat) (c : Comp) : Op ls c (c.adjust n) := ⟨⟨[], by simp [adjust], by simp⟩, rfl, rfl, rfl, rfl, rfl, rfl, rfl⟩

theorem op_label {ls : List Nat} (l : Nat) (c : Comp) (h : l ∈ ls) : Op ls c (c.label l) :=
  (op_clear ls c).trans (op_emit _ _ (by intro l' e; cases e; exact h))

theorem op_vsp (ls : List Nat) (c : Comp) : Op ls c c.resetVsp := op_emit _ _ (by simp)

theorem op_bindSpecial (ls : List Nat) (x : Sym) (c : Comp) : Op ls c (c.bindSpecial x) :=
  ((op_store ls .w c).trans (op_vsp ls _)).trans ((op_emit (.bindspecial x) _ (by simp)).trans ⟨⟨[], by simp [bindSpecial], by simp⟩, rfl, rfl, rfl, rfl, rfl, rfl, rfl⟩)

theorem op_unbindSpecial (ls : List Nat) (n : Nat) (c : Comp) : Op ls c (c.unbindSpecial n) :=
  ((op_clear ls c).trans (op_vsp ls _)).trans (op_emit _ _ (by simp))

theorem op_call (ls : List Nat) (i : Nat → Instr) (n : Nat) (c : Comp) (h : ∀ k l, i k ≠ .label l) : Op ls c (c.call i n) :=
  ((((op_clear ls c).trans (op_vsp ls _)).trans (op_emit _ _ (fun l e => absurd e (h _ l)))).trans (op_discard ls n _)).trans (op_pushx ls _ _)

theorem op_callClosure (ls : List Nat) (en n : Nat) (c : Comp) : Op ls c (c.callClosure en n) :=
  ((((op_store ls _ c).trans (op_vsp ls _)).trans (op_emit _ _ (by simp))).trans (op_discard ls n _)).trans (op_pushx ls _ _)

theorem op_delFrame (ls : List Nat) (s l : Nat) (c : Comp) : Op ls c (c.delFrame s l) :=
  ((op_store ls _ c).trans (op_discard ls _ _)).trans (op_pushx ls _ _)

theorem op_closure (ls : List Nat) (en : Nat) (c : Comp) : Op ls c (c.closure en) :=
  ((op_clear ls c).trans (op_vsp ls _)).trans (op_pushx ls _ _)

theorem op_jump (ls : List Nat) (l : Nat) (c : Comp) : Op ls c (c.jump l) := (op_clear ls c).trans (op_emit _ _ (by simp))
theorem op_ifNil (ls : List Nat) (l : Nat) (c : Comp) : Op ls c (c.ifNil l) := (op_popx ls c).trans (op_emit _ _ (by simp))
theorem op_ifT (ls : List Nat) (l : Nat) (c : Comp) : Op ls c (c.ifT l) := (op_popx ls c).trans (op_emit _ _ (by simp))
theorem op_return (ls : List Nat) (c : Comp) : Op ls c c.return_ := (op_clear ls c).trans (op_emit _ _ (by simp))
theorem op_nullx (ls : List Nat) (c : Comp) : Op ls c c.nullx := (op_popx ls c).trans (op_pushx ls _ _)

/-! ### How high the stack is -/

def ht (c : Comp) : Nat := c.pc + if c.push.isSome then 1 else 0

theorem ht_none {c : Comp} (h : c.push = none) : ht c = c.pc := by simp [ht, h]

theorem clear_pc (c : Comp) : c.clear.pc = ht c := by
  unfold clear ht; cases h : c.push <;> simp
theorem ht_clear (c : Comp) : ht c.clear = ht c := by rw [ht_none (clear_push c), clear_pc]
theorem pushx_push (x : CX) (c : Comp) : (c.pushx x).push = some x := rfl
theorem pushx_pc (x : CX) (c : Comp) : (c.pushx x).pc = ht c := by simp [pushx, clear_pc]
theorem ht_pushx (x : CX) (c : Comp) : ht (c.pushx x) = ht c + 1 := by simp [ht, pushx_push, pushx_pc]
theorem popx_push (c : Comp) : c.popx.2.push = none := by
  unfold popx; split
  · rfl
  · assumption
theorem popx_pc (c : Comp) : c.popx.2.pc = ht c - 1 := by unfold popx ht; cases h : c.push <;> simp
theorem ht_popx (c : Comp) : ht c.popx.2 = ht c - 1 := by rw [ht_none (popx_push c), popx_pc]
theorem store_push (d : Dst) (c : Comp) : (c.store d).push = none := by
  unfold store; split
  · rfl
  · exact popx_push c
theorem store_pc (d : Dst) (c : Comp) : (c.store d).pc = ht c - 1 := by
  unfold store; split
  next h => simp [ht, h]
  next h => exact popx_pc c
theorem ht_store (d : Dst) (c : Comp) : ht (c.store d) = ht c - 1 := by rw [ht_none (store_push d c), store_pc]
theorem ht_dupe (c : Comp) : ht c.dupe = ht c + 1 := by
  unfold dupe; split
  · exact ht_pushx _ c
  · rw [ht_pushx, ht_clear]
theorem discard_push (n : Nat) (c : Comp) : (c.discard n).push = none := by
  unfold Comp.discard; split
  · rfl
  · assumption
theorem discard_pc (n : Nat) (c : Comp) (h : c.push = none ∨ 1 ≤ n) : (c.discard n).pc = ht c - n := by
  unfold Comp.discard ht; cases hp : c.push with
  | none => simp
  | some x =>
    have : 1 ≤ n := by rcases h with h | h; (· rw [hp] at h; cases h); exact h
    simp; omega
theorem ht_discard (n : Nat) (c : Comp) (h : c.push = none ∨ 1 ≤ n) : ht (c.discard n) = ht c - n := by rw [ht_none (discard_push n c), discard_pc n c h]
theorem label_push (l : Nat) (c : Comp) : (c.label l).push = none := clear_push c
theorem label_pc (l : Nat) (c : Comp) : (c.label l).pc = ht c := clear_pc c
theorem ht_label (l : Nat) (c : Comp) : ht (c.label l) = ht c := ht_clear c
theorem jump_push (l : Nat) (c : Comp) : (c.jump l).push = none := clear_push c
theorem jump_pc (l : Nat) (c : Comp) : (c.jump l).pc = ht c := clear_pc c
theorem ht_jump (l : Nat) (c : Comp) : ht (c.jump l) = ht c := ht_clear c
theorem ifNil_push (l : Nat) (c : Comp) : (c.ifNil l).push = none := popx_push c
theorem ifNil_pc (l : Nat) (c : Comp) : (c.ifNil l).pc = ht c - 1 := popx_pc c
theorem ht_ifNil (l : Nat) (c : Comp) : ht (c.ifNil l) = ht c - 1 := ht_popx c
theorem ifT_push (l : Nat) (c : Comp) : (c.ifT l).push = none := popx_push c
theorem ifT_pc (l : Nat) (c : Comp) : (c.ifT l).pc = ht c - 1 := popx_pc c
theorem ht_ifT (l : Nat) (c : Comp) : ht (c.ifT l) = ht c - 1 := ht_popx c
theorem ht_nullx (c : Comp) : ht c.nullx = ht c - 1 + 1 := by simp [nullx, ht_pushx, ht_popx]
theorem ht_call (i : Nat → Instr) (n : Nat) (c : Comp) : ht (c.call i n) = ht c - n + 1 := by
  unfold call
  simp only
  rw [ht_pushx, ht_discard n _ (.inl (show (c.clear.resetVsp.emit _).push = none from clear_push c))]
  show ht c.clear - n + 1 = _
  rw [ht_clear]
theorem ht_callClosure (en n : Nat) (c : Comp) : ht (c.callClosure en n) = ht c - 1 - n + 1 := by
  unfold callClosure
  simp only
  rw [ht_pushx, ht_discard n _ (.inl (show ((c.store .w).resetVsp.emit _).push = none from store_push .w c))]
  show ht (c.store .w) - n + 1 = _
  rw [ht_store]
theorem ht_delFrame (s l : Nat) (c : Comp) : ht (c.delFrame s l) = ht c - 1 - (3 * s + l) + 1 := by
  unfold delFrame
  rw [ht_pushx, ht_discard _ _ (.inl (store_push .w c)), ht_store]
theorem ht_closure (en : Nat) (c : Comp) : ht (c.closure en) = ht c + 1 := by
  unfold closure
  rw [ht_pushx]
  show ht c.clear + 1 = _
  rw [ht_clear]
theorem unbindSpecial_push (n : Nat) (c : Comp) : (c.unbindSpecial n).push = none := clear_push c
theorem ht_unbindSpecial (n : Nat) (c : Comp) : ht (c.unbindSpecial n) = ht c := ht_clear c
theorem bindSpecial_push (x : Sym) (c : Comp) : (c.bindSpecial x).push = none := store_push .w c
theorem bindSpecial_pc (x : Sym) (c : Comp) : (c.bindSpecial x).pc = ht c - 1 + 3 := by
  show (c.store .w).pc + 3 = _
  rw [store_pc]

end Eus.Cmp
