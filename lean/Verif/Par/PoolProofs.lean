import Verif.Par.PoolModel
import Verif.Par.Proofs
import Mathlib.Data.List.Nodup
set_option autoImplicit false
namespace Eus.Par

/-- The call has sent its request to port p and has not seen `donesem`. -/
def Sent (w : Bool) (p : Nat) (pc : CPc) : Prop :=
  pc = .a6 p ∨ (w = true ∧ (pc = .h p ∨ pc = .w0 p ∨ pc = .w1 p)) ∨ (w = false ∧ pc = .fin none)

/-- A port that serves nobody. -/
def Idle (t : TPc) (req done : Nat) (infree : Prop) : Prop :=
  req = 0 ∧ done = 0 ∧ ((t = .t0 ∧ ¬ infree) ∨ ((t = .t1 ∨ t = .t2) ∧ infree))

/-- A port that serves call c, which is at pc. -/
def Serve (w : Bool) (ran : List (Nat × Nat)) (c p : Nat) (pc : CPc) (t : TPc) (req done func : Nat) (wait : Bool) (result : Nat) : Prop :=
  ((t = .t1 ∨ t = .t2) ∧ req = 0 ∧ done = 0 ∧ (∀ v, (c, v) ∉ ran)
      ∧ (pc = .a2 p ∨ pc = .a3 p ∨ (pc = .a4 p ∧ func = c) ∨ (pc = .a5 p ∧ func = c ∧ wait = w)))
  ∨ ((t = .t1 ∨ t = .t2) ∧ req = 1 ∧ done = 0 ∧ (∀ v, (c, v) ∉ ran) ∧ func = c ∧ wait = w ∧ Sent w p pc)
  ∨ ((t = .t3 ∨ t = .t4 ∨ t = .t5 ∨ t = .t6 c) ∧ req = 0 ∧ done = 0 ∧ (∀ v, (c, v) ∉ ran) ∧ func = c ∧ wait = w ∧ Sent w p pc)
  ∨ ((∃ v, t = .t7 v ∧ (c, v) ∈ ran) ∧ req = 0 ∧ done = 0 ∧ wait = w ∧ Sent w p pc)
  ∨ ((t = .t8 ∨ (t = .t9 ∧ w = true)) ∧ (c, result) ∈ ran ∧ req = 0 ∧ done = 0 ∧ wait = w ∧ Sent w p pc)
  ∨ (t = .t10 ∧ w = true ∧ (c, result) ∈ ran ∧ wait = true ∧
      ((done = 1 ∧ req = 0 ∧ Sent w p pc) ∨ (done = 0 ∧ req = 0 ∧ (pc = .w2 p ∨ pc = .w3 p result)) ∨ (done = 0 ∧ req = 1 ∧ pc = .fin (some result))))
  ∨ (t = .t0 ∧ req = 0 ∧ done = 0 ∧ (∃ v, (c, v) ∈ ran ∧ ((w = true ∧ pc = .fin (some v)) ∨ (w = false ∧ Sent w p pc))))

/-- What holds of a call wherever its port is. -/
def CallOk (w : Bool) (ran : List (Nat × Nat)) (owner : Nat → Option Nat) (c : Nat) : CPc → Prop
  | .new | .a0 | .a1 => ∀ v, (c, v) ∉ ran
  | .a2 p | .a3 p | .a4 p | .a5 p => owner p = some c
  | .a6 p => w = true → owner p = some c
  | .h p | .w0 p | .w1 p | .w2 p | .w3 p _ => owner p = some c ∧ w = true
  | .fin (some v) => (c, v) ∈ ran ∧ w = true
  | .fin none => w = false
  | .err => False

structure Pool.Inv (waits : Nat → Bool) (s : Pool) : Prop where
  idle : ∀ p, s.owner p = none → Idle (s.tpc p) (s.req p) (s.done p) (p ∈ s.free)
  serve : ∀ p c, s.owner p = some c → p ∉ s.free ∧ Serve (waits c) s.ran c p (s.cpc c) (s.tpc p) (s.req p) (s.done p) (s.func p) (s.wait p) (s.result p)
  call : ∀ c, CallOk (waits c) s.ran s.owner c (s.cpc c)
  inj : ∀ p q c, s.owner p = some c → s.owner q = some c → p = q
  nodup : s.free.Nodup
  pnodup : s.poppers.Nodup
  pops : ∀ c, c ∈ s.poppers ↔ s.cpc c = .a1
  qnodup : s.posters.Nodup
  posts : ∀ p, p ∈ s.posters ↔ s.tpc p = .t1
  enough : s.freeSem + s.poppers.length + s.posters.length = s.free.length
  ok : s.bad = false
  once : (s.ran.map Prod.fst).Nodup

theorem Pool.inv_init (waits : Nat → Bool) : Pool.Inv waits Pool.init where
  idle p _ := ⟨rfl, rfl, Or.inl ⟨rfl, by simp [Pool.init]⟩⟩
  serve p c h := by cases h
  call c := by simp [Pool.init, CallOk]
  inj p q c h := by cases h
  nodup := List.nodup_nil
  pnodup := List.nodup_nil
  pops c := by simp [Pool.init]
  qnodup := List.nodup_nil
  posts c := by simp [Pool.init]
  enough := rfl
  ok := rfl
  once := List.nodup_nil

theorem Serve.early {w : Bool} {ran : List (Nat × Nat)} {c p : Nat} {pc : CPc} {t : TPc} {req done func result : Nat} {wait : Bool}
    (h : Serve w ran c p pc t req done func wait result) : pc ≠ .new ∧ pc ≠ .a0 ∧ pc ≠ .a1 := by
  unfold Serve Sent at h
  rcases h with ⟨_, _, _, _, h⟩ | ⟨_, _, _, _, _, _, h⟩ | ⟨_, _, _, _, _, _, h⟩ | ⟨_, _, _, _, h⟩ | ⟨_, _, _, _, _, h⟩ | ⟨_, _, _, _, h⟩ | ⟨_, _, _, v, _, h⟩
  · rcases h with h | h | ⟨h, _⟩ | ⟨h, _⟩ <;> rw [h] <;> simp
  · rcases h with h | ⟨_, h | h | h⟩ | ⟨_, h⟩ <;> rw [h] <;> simp
  · rcases h with h | ⟨_, h | h | h⟩ | ⟨_, h⟩ <;> rw [h] <;> simp
  · rcases h with h | ⟨_, h | h | h⟩ | ⟨_, h⟩ <;> rw [h] <;> simp
  · rcases h with h | ⟨_, h | h | h⟩ | ⟨_, h⟩ <;> rw [h] <;> simp
  · rcases h with ⟨_, _, h | ⟨_, h | h | h⟩ | ⟨_, h⟩⟩ | ⟨_, _, h | h⟩ | ⟨_, _, h⟩ <;> rw [h] <;> simp
  · rcases h with ⟨_, h⟩ | ⟨_, h | ⟨_, h | h | h⟩ | ⟨_, h⟩⟩ <;> rw [h] <;> simp

/-- A change of one call's place that keeps everything else: what has to be shown. -/
theorem Pool.inv_cpc {waits : Nat → Bool} {s : Pool} {c : Nat} {x : CPc} (h : s.Inv waits) (ha : s.cpc c ≠ .a1) (hx : x ≠ .a1)
    (hc : CallOk (waits c) s.ran s.owner c x)
    (hs : ∀ p, s.owner p = some c → Serve (waits c) s.ran c p x (s.tpc p) (s.req p) (s.done p) (s.func p) (s.wait p) (s.result p)) :
    Pool.Inv waits { s with cpc := upd s.cpc c x } where
  idle := h.idle
  serve p d hd := by
    refine ⟨(h.serve p d hd).1, ?_⟩
    by_cases e : d = c
    · subst e; simp only [upd_self]; exact hs p hd
    · simp only [upd_ne _ _ e]; exact (h.serve p d hd).2
  call d := by
    by_cases e : d = c
    · subst e; simp only [upd_self]; exact hc
    · simp only [upd_ne _ _ e]; exact h.call d
  inj := h.inj
  nodup := h.nodup
  pnodup := h.pnodup
  pops d := by
    by_cases e : d = c
    · subst e; simp only [upd_self]; rw [h.pops]; exact ⟨fun e => absurd e ha, fun e => absurd e hx⟩
    · simp only [upd_ne _ _ e]; exact h.pops d
  qnodup := h.qnodup
  posts := h.posts
  enough := h.enough
  ok := h.ok
  once := h.once

/-- A change of one port that belongs to call c, and of c's place. -/
theorem Pool.inv_port {waits : Nat → Bool} {s s' : Pool} {c p : Nat} (h : s.Inv waits) (ho : s.owner p = some c)
    (hfs : s'.freeSem = s.freeSem) (hf : s'.free = s.free) (how : s'.owner = s.owner) (hpo : s'.poppers = s.poppers) (hb : s'.bad = s.bad) (hqo : s'.posters = s.posters)
    (hran : s'.ran = s.ran)
    (hreq : ∀ q, q ≠ p → s'.req q = s.req q) (hdone : ∀ q, q ≠ p → s'.done q = s.done q) (hfunc : ∀ q, q ≠ p → s'.func q = s.func q)
    (hwait : ∀ q, q ≠ p → s'.wait q = s.wait q) (hres : ∀ q, q ≠ p → s'.result q = s.result q) (htpc : ∀ q, q ≠ p → s'.tpc q = s.tpc q)
    (hcpc : ∀ d, d ≠ c → s'.cpc d = s.cpc d) (ha : s.cpc c ≠ .a1) (hx : s'.cpc c ≠ .a1)
    (ht : s.tpc p = .t1 ↔ s'.tpc p = .t1) (hc : CallOk (waits c) s.ran s.owner c (s'.cpc c))
    (hs : Serve (waits c) s.ran c p (s'.cpc c) (s'.tpc p) (s'.req p) (s'.done p) (s'.func p) (s'.wait p) (s'.result p)) : s'.Inv waits where
  idle q hq := by
    rw [how] at hq
    have e : q ≠ p := fun e => by rw [e, ho] at hq; cases hq
    rw [htpc q e, hreq q e, hdone q e, hf]
    exact h.idle q hq
  serve q d hq := by
    rw [how] at hq
    rw [hf, hran]
    by_cases e : q = p
    · subst e
      rw [ho] at hq
      cases hq
      exact ⟨(h.serve q c ho).1, hs⟩
    · have ed : d ≠ c := fun ed => e (h.inj q p c (ed ▸ hq) ho)
      rw [htpc q e, hreq q e, hdone q e, hfunc q e, hwait q e, hres q e, hcpc d ed]
      exact h.serve q d hq
  call d := by
    rw [hran, how]
    by_cases e : d = c
    · subst e; exact hc
    · rw [hcpc d e]; exact h.call d
  inj := by rw [how]; exact h.inj
  nodup := by rw [hf]; exact h.nodup
  pnodup := by rw [hpo]; exact h.pnodup
  pops d := by
    rw [hpo]
    by_cases e : d = c
    · subst e; rw [h.pops]; exact ⟨fun e => absurd e ha, fun e => absurd e hx⟩
    · rw [hcpc d e]; exact h.pops d
  qnodup := by rw [hqo]; exact h.qnodup
  posts q := by
    rw [hqo, h.posts]
    by_cases e : q = p
    · rw [e]; exact ht
    · rw [htpc q e]
  enough := by rw [hfs, hpo, hf, hqo]; exact h.enough
  ok := by rw [hb]; exact h.ok
  once := by rw [hran]; exact h.once

theorem CallOk.owner {w : Bool} {ran : List (Nat × Nat)} {o o' : Nat → Option Nat} {d : Nat} {pc : CPc} (h : CallOk w ran o d pc)
    (k : ∀ q, (w = true ∨ ∀ q', pc ≠ .a6 q') → o q = some d → o' q = some d) : CallOk w ran o' d pc := by
  cases pc with
  | fin v => cases v <;> exact h
  | new => exact h
  | a0 => exact h
  | a1 => exact h
  | err => exact h
  | a2 p => exact k p (Or.inr (by simp)) h
  | a3 p => exact k p (Or.inr (by simp)) h
  | a4 p => exact k p (Or.inr (by simp)) h
  | a5 p => exact k p (Or.inr (by simp)) h
  | a6 p => exact fun hw => k p (Or.inl hw) (h hw)
  | h p => exact ⟨k p (Or.inl h.2) h.1, h.2⟩
  | w0 p => exact ⟨k p (Or.inl h.2) h.1, h.2⟩
  | w1 p => exact ⟨k p (Or.inl h.2) h.1, h.2⟩
  | w2 p => exact ⟨k p (Or.inl h.2) h.1, h.2⟩
  | w3 p v => exact ⟨k p (Or.inl h.2) h.1, h.2⟩

theorem CallOk.ran {w : Bool} {ran ran' : List (Nat × Nat)} {o : Nat → Option Nat} {d : Nat} {pc : CPc} (h : CallOk w ran o d pc)
    (k : ∀ v, (d, v) ∈ ran → (d, v) ∈ ran') (k' : (pc = .new ∨ pc = .a0 ∨ pc = .a1) → ∀ v, (d, v) ∉ ran → (d, v) ∉ ran') : CallOk w ran' o d pc := by
  cases pc with
  | fin v =>
    cases v with
    | none => exact h
    | some v => exact ⟨k v h.1, h.2⟩
  | new => exact fun v => k' (Or.inl rfl) v (h v)
  | a0 => exact fun v => k' (Or.inr (Or.inl rfl)) v (h v)
  | a1 => exact fun v => k' (Or.inr (Or.inr rfl)) v (h v)
  | err => exact h
  | a2 p => exact h
  | a3 p => exact h
  | a4 p => exact h
  | a5 p => exact h
  | a6 p => exact h
  | h p => exact h
  | w0 p => exact h
  | w1 p => exact h
  | w2 p => exact h
  | w3 p v => exact h

theorem sent_call {waits : Nat → Bool} {s : Pool} {c p : Nat} {x : CPc} (ho : s.owner p = some c) (hx : Sent (waits c) p x) :
    CallOk (waits c) s.ran s.owner c x := by
  rcases hx with e | ⟨hw, e | e | e⟩ | ⟨hw, e⟩ <;> rw [e]
  · exact fun _ => ho
  · exact ⟨ho, hw⟩
  · exact ⟨ho, hw⟩
  · exact ⟨ho, hw⟩
  · exact hw

/-- Replacing one place by another after the request has been sent. -/
theorem Serve.sent {w : Bool} {ran : List (Nat × Nat)} {c p : Nat} {pc pc' : CPc} {t : TPc} {req done func result : Nat} {wait : Bool}
    (h : Serve w ran c p pc t req done func wait result) (hpc : Sent w p pc) (hpc' : Sent w p pc')
    : Serve w ran c p pc' t req done func wait result := by
  unfold Serve at h ⊢
  have hnot : ¬ (pc = .a2 p ∨ pc = .a3 p ∨ (pc = .a4 p ∧ func = c) ∨ (pc = .a5 p ∧ func = c ∧ wait = w)) := by
    rcases hpc with e | ⟨_, e | e | e⟩ | ⟨_, e⟩ <;> rw [e] <;> simp
  rcases h with ⟨a1, a2, a3, a4, h⟩ | ⟨a1, a2, a3, a4, a5, a6, h⟩ | ⟨a1, a2, a3, a4, a5, a6, h⟩ | ⟨a1, a2, a3, a4, h⟩ | ⟨a1, a2, a3, a4, a5, h⟩ | ⟨a1, a2, a3, a4, h⟩ | ⟨a1, a2, a3, v, a4, h⟩
  · exact absurd h hnot
  · exact Or.inr (Or.inl ⟨a1, a2, a3, a4, a5, a6, hpc'⟩)
  · exact Or.inr (Or.inr (Or.inl ⟨a1, a2, a3, a4, a5, a6, hpc'⟩))
  · exact Or.inr (Or.inr (Or.inr (Or.inl ⟨a1, a2, a3, a4, hpc'⟩)))
  · exact Or.inr (Or.inr (Or.inr (Or.inr (Or.inl ⟨a1, a2, a3, a4, a5, hpc'⟩))))
  · refine Or.inr (Or.inr (Or.inr (Or.inr (Or.inr (Or.inl ⟨a1, a2, a3, a4, ?_⟩)))))
    rcases h with ⟨b1, b2, _⟩ | ⟨_, _, h⟩ | ⟨_, _, h⟩
    · exact Or.inl ⟨b1, b2, hpc'⟩
    · exfalso
      rcases hpc with e | ⟨_, e | e | e⟩ | ⟨_, e⟩ <;> rw [e] at h <;> simp at h
    · exfalso
      rcases hpc with e | ⟨_, e | e | e⟩ | ⟨_, e⟩ <;> rw [e] at h <;> simp at h
  · refine Or.inr (Or.inr (Or.inr (Or.inr (Or.inr (Or.inr ⟨a1, a2, a3, v, a4, ?_⟩)))))
    rcases h with ⟨_, h⟩ | ⟨b, _⟩
    · exfalso
      rcases hpc with e | ⟨_, e | e | e⟩ | ⟨_, e⟩ <;> rw [e] at h <;> simp at h
    · exact Or.inr ⟨b, hpc'⟩

theorem Pool.inv_call {waits : Nat → Bool} {s s' : Pool} {c : Nat} (h : s.Inv waits) (hs : s.callStep waits c = some s') : s'.Inv waits := by
  have hcall := h.call c
  unfold Pool.callStep at hs
  cases hp : s.cpc c with
  | new => rw [hp] at hs; cases hs
  | h p => rw [hp] at hs; cases hs
  | fin v => rw [hp] at hs; cases hs
  | err => rw [hp] at hs; cases hs
  | a0 =>
    rw [hp] at hs hcall
    simp only at hs
    split at hs
    · next hf =>
      cases hs
      have hnp : c ∉ s.poppers := fun e => by
        have := (h.pops c).mp e
        rw [hp] at this; cases this
      have hown : ∀ p, s.owner p ≠ some c := fun p e => ((h.serve p c e).2.early).2.1 hp
      exact
      { idle := h.idle
        serve := fun p d hd => by
          have e : d ≠ c := fun e => hown p (e ▸ hd)
          simp only [upd_ne _ _ e]
          exact h.serve p d hd
        call := fun d => by
          by_cases e : d = c
          · subst e; simp only [upd_self]; exact hcall
          · simp only [upd_ne _ _ e]; exact h.call d
        inj := h.inj
        nodup := h.nodup
        pnodup := List.nodup_cons.mpr ⟨hnp, h.pnodup⟩
        pops := fun d => by
          by_cases e : d = c
          · subst e; simp [upd_self]
          · simp only [upd_ne _ _ e, List.mem_cons, e, false_or]; exact h.pops d
        qnodup := h.qnodup
        posts := h.posts
        enough := by
          have := h.enough
          simp only [List.length_cons]
          omega
        ok := h.ok
        once := h.once }
    · cases hs
  | a1 =>
    rw [hp] at hs hcall
    simp only at hs
    have hmem : c ∈ s.poppers := (h.pops c).mpr hp
    have hlen : 0 < s.poppers.length := List.length_pos_of_mem hmem
    have henough := h.enough
    cases hfr : s.free with
    | nil =>
      rw [hfr] at henough
      simp only [List.length_nil] at henough
      omega
    | cons p ps =>
      rw [hfr] at hs
      cases hs
      have hnod := h.nodup
      rw [hfr, List.nodup_cons] at hnod
      have hpf : p ∈ s.free := by rw [hfr]; exact List.mem_cons_self
      have hpn : s.owner p = none := by
        cases ho : s.owner p with
        | none => rfl
        | some d => exact absurd hpf (h.serve p d ho).1
      have hown : ∀ q, s.owner q ≠ some c := fun q e => ((h.serve q c e).2.early).2.2 hp
      exact
      { idle := fun q hq => by
          simp only at hq ⊢
          have e : q ≠ p := fun e => by rw [e, upd_self] at hq; cases hq
          rw [upd_ne _ _ e] at hq
          have := h.idle q hq
          rw [hfr] at this
          unfold Idle at this ⊢
          simpa [e] using this
        serve := fun q d hd => by
          simp only at hd ⊢
          by_cases e : q = p
          · subst e
            rw [upd_self] at hd
            cases hd
            refine ⟨hnod.1, ?_⟩
            rw [upd_self]
            have hid := h.idle q hpn
            rcases hid with ⟨i1, i2, ⟨_, i3⟩ | ⟨i3, _⟩⟩
            · exact absurd hpf i3
            · exact Or.inl ⟨i3, i1, i2, hcall, Or.inl rfl⟩
          · rw [upd_ne _ _ e] at hd
            have ed : d ≠ c := fun ed => hown q (ed ▸ hd)
            rw [upd_ne _ _ ed]
            have := h.serve q d hd
            rw [hfr] at this
            exact ⟨fun hm => this.1 (List.mem_cons_of_mem _ hm), this.2⟩
        call := fun d => by
          simp only
          by_cases e : d = c
          · subst e; rw [upd_self]; exact upd_self _ _ _
          · rw [upd_ne _ _ e]
            have hk := h.call d
            have key : ∀ q, s.owner q = some d → upd s.owner p (some c) q = some d := fun q hq => by
              have : q ≠ p := fun e => by rw [e, hpn] at hq; cases hq
              rw [upd_ne _ _ this]; exact hq
            exact hk.owner fun q _ hq => key q hq
        inj := fun q r d hq hr => by
          simp only at hq hr
          rcases upd_cases hq with ⟨e1, e2⟩ | ⟨e1, e2⟩
          · rcases upd_cases hr with ⟨e3, _⟩ | ⟨_, e4⟩
            · rw [e1, e3]
            · cases e2; exact absurd e4 (hown r)
          · rcases upd_cases hr with ⟨_, e4⟩ | ⟨_, e4⟩
            · cases e4; exact absurd e2 (hown q)
            · exact h.inj q r d e2 e4
        nodup := hnod.2
        pnodup := h.pnodup.erase c
        pops := fun d => by
          simp only
          rw [h.pnodup.mem_erase_iff]
          by_cases e : d = c
          · subst e; rw [upd_self]; simp
          · rw [upd_ne _ _ e, h.pops]; simp [e]
        qnodup := h.qnodup
        posts := h.posts
        enough := by
          simp only
          rw [List.length_erase_of_mem hmem]
          rw [hfr, List.length_cons] at henough
          omega
        ok := h.ok
        once := h.once }
  | a2 p =>
    rw [hp] at hs hcall
    cases hs
    have hv := (h.serve p c hcall).2
    rw [hp] at hv
    refine Pool.inv_port (c := c) (p := p) h hcall rfl rfl rfl rfl rfl rfl rfl (fun _ _ => rfl) (fun _ _ => rfl) (fun _ _ => rfl) (fun _ _ => rfl) (fun _ _ => rfl) (fun _ _ => rfl)
      (fun d e => upd_ne _ _ e) (by rw [hp]; simp) (by simp [upd_self]) Iff.rfl (by simp only [upd_self]; exact hcall) ?_
    simp only [upd_self]
    rcases hv with ⟨a1, a2, a3, a4, _⟩ | hv
    · exact Or.inl ⟨a1, a2, a3, a4, Or.inr (Or.inl rfl)⟩
    · simp [Sent] at hv
  | a3 p =>
    rw [hp] at hs hcall
    cases hs
    have hv := (h.serve p c hcall).2
    rw [hp] at hv
    refine Pool.inv_port (c := c) (p := p) h hcall rfl rfl rfl rfl rfl rfl rfl (fun _ _ => rfl) (fun _ _ => rfl) (fun q e => upd_ne _ _ e) (fun _ _ => rfl) (fun _ _ => rfl) (fun _ _ => rfl)
      (fun d e => upd_ne _ _ e) (by rw [hp]; simp) (by simp [upd_self]) Iff.rfl (by simp only [upd_self]; exact hcall) ?_
    simp only [upd_self]
    rcases hv with ⟨a1, a2, a3, a4, _⟩ | hv
    · exact Or.inl ⟨a1, a2, a3, a4, Or.inr (Or.inr (Or.inl ⟨rfl, rfl⟩))⟩
    · simp [Sent] at hv
  | a4 p =>
    rw [hp] at hs hcall
    cases hs
    have hv := (h.serve p c hcall).2
    rw [hp] at hv
    refine Pool.inv_port (c := c) (p := p) h hcall rfl rfl rfl rfl rfl rfl rfl (fun _ _ => rfl) (fun _ _ => rfl) (fun _ _ => rfl) (fun q e => upd_ne _ _ e) (fun _ _ => rfl) (fun _ _ => rfl)
      (fun d e => upd_ne _ _ e) (by rw [hp]; simp) (by simp [upd_self]) Iff.rfl (by simp only [upd_self]; exact hcall) ?_
    simp only [upd_self]
    rcases hv with ⟨a1, a2, a3, a4, hv⟩ | hv
    · simp at hv
      exact Or.inl ⟨a1, a2, a3, a4, Or.inr (Or.inr (Or.inr ⟨rfl, hv, rfl⟩))⟩
    · simp [Sent] at hv
  | a5 p =>
    rw [hp] at hs hcall
    cases hs
    have hv := (h.serve p c hcall).2
    rw [hp] at hv
    refine Pool.inv_port (c := c) (p := p) h hcall rfl rfl rfl rfl rfl rfl rfl (fun q e => upd_ne _ _ e) (fun _ _ => rfl) (fun _ _ => rfl) (fun _ _ => rfl) (fun _ _ => rfl) (fun _ _ => rfl)
      (fun d e => upd_ne _ _ e) (by rw [hp]; simp) (by simp [upd_self]) Iff.rfl (by simp only [upd_self]; exact fun _ => hcall) ?_
    simp only [upd_self]
    rcases hv with ⟨a1, a2, a3, a4, hv⟩ | hv
    · simp at hv
      exact Or.inr (Or.inl ⟨a1, by rw [a2], a3, a4, hv.1, hv.2, Or.inl rfl⟩)
    · simp [Sent] at hv
  | a6 p =>
    rw [hp] at hs hcall
    simp only at hs
    split at hs
    · cases hs
      have hnew : Sent (waits c) p (if waits c = true then CPc.h p else CPc.fin none) := by
        cases hw : waits c
        · exact Or.inr (Or.inr ⟨rfl, rfl⟩)
        · exact Or.inr (Or.inl ⟨rfl, Or.inl rfl⟩)
      have hcc : CallOk (waits c) s.ran s.owner c (if waits c = true then CPc.h p else CPc.fin none) := by
        cases hw : waits c
        · rfl
        · exact ⟨hcall hw, rfl⟩
      have hsv : ∀ q, s.owner q = some c → Serve (waits c) s.ran c q (if waits c = true then CPc.h p else CPc.fin none) (s.tpc q) (s.req q) (s.done q) (s.func q) (s.wait q) (s.result q) := by
        intro q hq
        have hv := (h.serve q c hq).2
        rw [hp] at hv
        have hqp : q = p := by
          unfold Serve Sent at hv
          rcases hv with ⟨_, _, _, _, h⟩ | ⟨_, _, _, _, _, _, h⟩ | ⟨_, _, _, _, _, _, h⟩ | ⟨_, _, _, _, h⟩ | ⟨_, _, _, _, _, h⟩ | ⟨_, _, _, _, h⟩ | ⟨_, _, _, v, _, h⟩ <;> simp at h
          · exact h.symm
          · exact h.symm
          · exact h.symm
          · exact h.symm
          · exact h.2.2.symm
          · exact h.2.symm
        subst hqp
        exact hv.sent (Or.inl rfl) hnew
      have := Pool.inv_cpc (x := if waits c = true then CPc.h p else CPc.fin none) h (by rw [hp]; simp) (by split <;> simp) hcc hsv
      exact ⟨this.idle, this.serve, this.call, this.inj, this.nodup, this.pnodup, this.pops, this.qnodup, this.posts, this.enough, this.ok, this.once⟩
    · cases hs
  | w0 p =>
    rw [hp] at hs hcall
    cases hs
    obtain ⟨ho, hw⟩ := hcall
    have hv := (h.serve p c ho).2
    rw [hp] at hv
    have hwait : s.wait p = true := by
      unfold Serve at hv
      rcases hv with ⟨_, _, _, _, h⟩ | ⟨_, _, _, _, _, h, _⟩ | ⟨_, _, _, _, _, h, _⟩ | ⟨_, _, _, h, _⟩ | ⟨_, _, _, _, h, _⟩ | ⟨_, _, _, h, _⟩ | ⟨_, _, _, v, _, h⟩
      · simp at h
      · rw [h, hw]
      · rw [h, hw]
      · rw [h, hw]
      · rw [h, hw]
      · exact h
      · simp [hw] at h
    rw [if_pos hwait]
    have hnew : Sent (waits c) p (.w1 p) := Or.inr (Or.inl ⟨hw, Or.inr (Or.inr rfl)⟩)
    refine Pool.inv_cpc h (by rw [hp]; simp) (by simp) ⟨ho, hw⟩ ?_
    intro q hq
    have := h.inj q p c hq ho
    subst this
    exact hv.sent (Or.inr (Or.inl ⟨hw, Or.inr (Or.inl rfl)⟩)) hnew
  | w1 p =>
    rw [hp] at hs hcall
    simp only at hs
    obtain ⟨ho, hw⟩ := hcall
    split at hs
    · next hd =>
      cases hs
      have hv := (h.serve p c ho).2
      rw [hp] at hv
      refine Pool.inv_port (c := c) (p := p) h ho rfl rfl rfl rfl rfl rfl rfl (fun _ _ => rfl) (fun q e => upd_ne _ _ e) (fun _ _ => rfl) (fun _ _ => rfl) (fun _ _ => rfl) (fun _ _ => rfl)
        (fun d e => upd_ne _ _ e) (by rw [hp]; simp) (by simp [upd_self]) Iff.rfl (by simp only [upd_self]; exact ⟨ho, hw⟩) ?_
      simp only [upd_self]
      unfold Serve at hv
      rcases hv with ⟨_, _, h, _, _⟩ | ⟨_, _, h, _⟩ | ⟨_, _, h, _⟩ | ⟨_, _, h, _⟩ | ⟨_, _, _, h, _⟩ | ⟨a1, a2, a3, a4, h⟩ | ⟨_, _, h, _⟩
      · omega
      · omega
      · omega
      · omega
      · omega
      · rcases h with ⟨h1, h2, _⟩ | ⟨h1, _⟩ | ⟨h1, _⟩
        · exact Or.inr (Or.inr (Or.inr (Or.inr (Or.inr (Or.inl ⟨a1, a2, a3, a4, Or.inr (Or.inl ⟨by omega, h2, Or.inl rfl⟩)⟩)))))
        · omega
        · omega
      · omega
    · cases hs
  | w2 p =>
    rw [hp] at hs hcall
    cases hs
    obtain ⟨ho, hw⟩ := hcall
    have hv := (h.serve p c ho).2
    rw [hp] at hv
    refine Pool.inv_cpc h (by rw [hp]; simp) (by simp) ⟨ho, hw⟩ ?_
    intro q hq
    have := h.inj q p c hq ho
    subst this
    rcases hv with hv | hv | hv | hv | hv | ⟨a1, a2, a3, a4, h⟩ | hv
    · simp at hv
    · simp [Sent] at hv
    · simp [Sent] at hv
    · simp [Sent] at hv
    · simp [Sent] at hv
    · rcases h with ⟨_, _, h⟩ | ⟨h1, h2, _⟩ | ⟨_, _, h⟩
      · simp [Sent] at h
      · exact Or.inr (Or.inr (Or.inr (Or.inr (Or.inr (Or.inl ⟨a1, a2, a3, a4, Or.inr (Or.inl ⟨h1, h2, Or.inr rfl⟩)⟩)))))
      · cases h
    · simp [Sent] at hv
  | w3 p v =>
    rw [hp] at hs hcall
    cases hs
    obtain ⟨ho, hw⟩ := hcall
    have hv := (h.serve p c ho).2
    rw [hp] at hv
    rcases hv with hv | hv | hv | hv | hv | ⟨a1, a2, a3, a4, hh⟩ | hv
    · simp at hv
    · simp [Sent] at hv
    · simp [Sent] at hv
    · simp [Sent] at hv
    · simp [Sent] at hv
    · rcases hh with ⟨_, _, hh⟩ | ⟨h1, h2, hh⟩ | ⟨_, _, hh⟩
      · simp [Sent] at hh
      · have hres : v = s.result p := by simpa using hh
        subst hres
        refine Pool.inv_port (c := c) (p := p) h ho rfl rfl rfl rfl rfl rfl rfl (fun q e => upd_ne _ _ e) (fun _ _ => rfl) (fun _ _ => rfl) (fun _ _ => rfl) (fun _ _ => rfl) (fun _ _ => rfl)
          (fun d e => upd_ne _ _ e) (by rw [hp]; simp) (by simp [upd_self]) Iff.rfl (by simp only [upd_self]; exact ⟨a3, hw⟩) ?_
        simp only [upd_self]
        exact Or.inr (Or.inr (Or.inr (Or.inr (Or.inr (Or.inl ⟨a1, a2, a3, a4, Or.inr (Or.inr ⟨h1, by rw [h2], rfl⟩)⟩)))))
      · cases hh
    · simp [Sent] at hv

/-- A step of a port's thread that changes only the port, while it serves call c. -/
theorem Pool.inv_thread {waits : Nat → Bool} {s s' : Pool} {c p : Nat} (h : s.Inv waits) (ho : s.owner p = some c)
    (hfs : s'.freeSem = s.freeSem) (hf : s'.free = s.free) (how : s'.owner = s.owner) (hpo : s'.poppers = s.poppers) (hb : s'.bad = s.bad) (hqo : s'.posters = s.posters)
    (hran : s'.ran = s.ran)
    (hreq : ∀ q, q ≠ p → s'.req q = s.req q) (hdone : ∀ q, q ≠ p → s'.done q = s.done q) (hfunc : s'.func = s.func)
    (hwait : s'.wait = s.wait) (hres : ∀ q, q ≠ p → s'.result q = s.result q) (htpc : ∀ q, q ≠ p → s'.tpc q = s.tpc q)
    (hcpc : s'.cpc = s.cpc) (ht : s.tpc p = .t1 ↔ s'.tpc p = .t1)
    (hs : Serve (waits c) s.ran c p (s.cpc c) (s'.tpc p) (s'.req p) (s'.done p) (s.func p) (s.wait p) (s'.result p)) : s'.Inv waits := by
  refine Pool.inv_port h ho hfs hf how hpo hb hqo hran hreq hdone (fun q _ => by rw [hfunc]) (fun q _ => by rw [hwait]) hres htpc (fun d _ => by rw [hcpc]) ?_ ?_ ht ?_ ?_
  · exact (hs.early).2.2
  · rw [hcpc]; exact (hs.early).2.2
  · rw [hcpc]; exact h.call c
  · rw [hcpc, hfunc, hwait]; exact hs

theorem Pool.inv_thr {waits : Nat → Bool} {s s' : Pool} {p v : Nat} (h : s.Inv waits) (hs : s.thrStep p v = some s') : s'.Inv waits := by
  have own : (s.tpc p ≠ .t0 → s.tpc p ≠ .t1 → s.tpc p ≠ .t2 → ∃ c, s.owner p = some c) := by
    intro h0 h1 h2
    cases ho : s.owner p with
    | some c => exact ⟨c, rfl⟩
    | none =>
      rcases h.idle p ho with ⟨_, _, ⟨e, _⟩ | ⟨e | e, _⟩⟩
      · exact absurd e h0
      · exact absurd e h1
      · exact absurd e h2
  unfold Pool.thrStep at hs
  cases hp : s.tpc p with
  | t0 =>
    rw [hp] at hs
    cases hs
    have key : p ∉ s.free ∧ s.req p = 0 ∧ s.done p = 0 ∧ ∀ c, s.owner p = some c → CallOk (waits c) s.ran (upd s.owner p none) c (s.cpc c) := by
      cases ho : s.owner p with
      | none =>
        rcases h.idle p ho with ⟨a, b, ⟨_, e⟩ | ⟨e, _⟩⟩
        · exact ⟨e, a, b, fun c h => by cases h⟩
        · rw [hp] at e; simp at e
      | some c =>
        obtain ⟨a, hv⟩ := h.serve p c ho
        rw [hp] at hv
        rcases hv with hv | hv | hv | hv | hv | hv | hv
        · simp at hv
        · simp at hv
        · simp at hv
        · simp at hv
        · simp at hv
        · simp at hv
        · obtain ⟨_, b, d, w, hw, e⟩ := hv
          refine ⟨a, b, d, fun c' hc' => ?_⟩
          cases hc'
          rcases e with ⟨e1, e2⟩ | ⟨e1, e2⟩
          · rw [e2]; exact ⟨hw, e1⟩
          · rcases e2 with e2 | ⟨e2, _⟩ | ⟨_, e2⟩
            · rw [e2]; intro e; rw [e1] at e; cases e
            · rw [e1] at e2; cases e2
            · rw [e2]; exact e1
    obtain ⟨k1, k2, k3, k4⟩ := key
    have hpn : p ∉ s.posters := fun e => by
      have := (h.posts p).mp e
      rw [hp] at this; cases this
    exact
    { idle := fun q hq => by
        simp only at hq ⊢
        by_cases e : q = p
        · subst e
          rw [upd_self]
          exact ⟨k2, k3, Or.inr ⟨Or.inl rfl, List.mem_cons_self⟩⟩
        · rw [upd_ne _ _ e] at hq ⊢
          have := h.idle q hq
          unfold Idle at this ⊢
          simpa [e] using this
      serve := fun q d hq => by
        simp only at hq ⊢
        rcases upd_cases hq with ⟨_, e⟩ | ⟨e, hq⟩
        · cases e
        · rw [upd_ne _ _ e]
          have := h.serve q d hq
          exact ⟨by simp [e, this.1], this.2⟩
      call := fun d => by
        simp only
        by_cases e : s.owner p = some d
        · exact k4 d e
        · exact (h.call d).owner fun q _ hq => by
            have : q ≠ p := fun e' => e (e' ▸ hq)
            rw [upd_ne _ _ this]; exact hq
      inj := fun q r d hq hr => by
        rcases upd_cases hq with ⟨_, e⟩ | ⟨_, hq⟩
        · cases e
        · rcases upd_cases hr with ⟨_, e⟩ | ⟨_, hr⟩
          · cases e
          · exact h.inj q r d hq hr
      nodup := List.nodup_cons.mpr ⟨k1, h.nodup⟩
      pnodup := h.pnodup
      pops := h.pops
      qnodup := List.nodup_cons.mpr ⟨hpn, h.qnodup⟩
      posts := fun q => by
        simp only [List.mem_cons]
        by_cases e : q = p
        · subst e; rw [upd_self]; simp
        · rw [upd_ne _ _ e, ← h.posts]; simp [e]
      enough := by
        have := h.enough
        simp only [List.length_cons]
        omega
      ok := h.ok
      once := h.once }
  | t1 =>
    rw [hp] at hs
    cases hs
    have hmem : p ∈ s.posters := (h.posts p).mpr hp
    have hlen : 0 < s.posters.length := List.length_pos_of_mem hmem
    exact
    { idle := fun q hq => by
        simp only
        by_cases e : q = p
        · subst e
          rw [upd_self]
          rcases h.idle q hq with ⟨a, b, ⟨e, _⟩ | ⟨_, e⟩⟩
          · rw [hp] at e; cases e
          · exact ⟨a, b, Or.inr ⟨Or.inr rfl, e⟩⟩
        · rw [upd_ne _ _ e]
          exact h.idle q hq
      serve := fun q d hq => by
        simp only
        have := h.serve q d hq
        refine ⟨this.1, ?_⟩
        by_cases e : q = p
        · subst e
          rw [upd_self]
          have hv := this.2
          rw [hp] at hv
          rcases hv with ⟨_, hv⟩ | ⟨_, hv⟩ | hv | hv | hv | hv | hv
          · exact Or.inl ⟨Or.inr rfl, hv⟩
          · exact Or.inr (Or.inl ⟨Or.inr rfl, hv⟩)
          · simp at hv
          · simp at hv
          · simp at hv
          · simp at hv
          · simp at hv
        · rw [upd_ne _ _ e]
          exact this.2
      call := h.call
      inj := h.inj
      nodup := h.nodup
      pnodup := h.pnodup
      pops := h.pops
      qnodup := h.qnodup.erase p
      posts := fun q => by
        simp only
        rw [h.qnodup.mem_erase_iff]
        by_cases e : q = p
        · subst e; rw [upd_self]; simp
        · rw [upd_ne _ _ e, ← h.posts]; simp [e]
      enough := by
        have := h.enough
        simp only
        rw [List.length_erase_of_mem hmem]
        omega
      ok := h.ok
      once := h.once }
  | t2 =>
    rw [hp] at hs
    simp only at hs
    split at hs
    · next hr =>
      cases hs
      cases ho : s.owner p with
      | none =>
        rcases h.idle p ho with ⟨a, _⟩
        omega
      | some c =>
        have hv := (h.serve p c ho).2
        rw [hp] at hv
        rcases hv with ⟨_, hv, _⟩ | ⟨_, a2, a3, a4, a5, a6, a7⟩ | hv | hv | hv | hv | hv
        · omega
        · refine Pool.inv_thread h ho rfl rfl rfl rfl rfl rfl rfl (fun q e => upd_ne _ _ e) (fun _ _ => rfl) rfl rfl (fun _ _ => rfl) (fun q e => upd_ne _ _ e) rfl (by rw [hp]; simp [upd_self]) ?_
          simp only [upd_self]
          exact Or.inr (Or.inr (Or.inl ⟨Or.inl rfl, by omega, a3, a4, a5, a6, a7⟩))
        · simp at hv
        · simp at hv
        · simp at hv
        · simp at hv
        · simp at hv
    · cases hs
  | t3 =>
    obtain ⟨c, ho⟩ := own (by rw [hp]; simp) (by rw [hp]; simp) (by rw [hp]; simp)
    rw [hp] at hs
    cases hs
    have hv := (h.serve p c ho).2
    rw [hp] at hv
    rcases hv with hv | hv | ⟨_, hv⟩ | hv | hv | hv | hv
    · simp at hv
    · simp at hv
    · refine Pool.inv_thread h ho rfl rfl rfl rfl rfl rfl rfl (fun _ _ => rfl) (fun _ _ => rfl) rfl rfl (fun _ _ => rfl) (fun q e => upd_ne _ _ e) rfl (by rw [hp]; simp [upd_self]) ?_
      simp only [upd_self]
      exact Or.inr (Or.inr (Or.inl ⟨Or.inr (Or.inl rfl), hv⟩))
    · simp at hv
    · simp at hv
    · simp at hv
    · simp at hv
  | t4 =>
    obtain ⟨c, ho⟩ := own (by rw [hp]; simp) (by rw [hp]; simp) (by rw [hp]; simp)
    rw [hp] at hs
    cases hs
    have hv := (h.serve p c ho).2
    rw [hp] at hv
    rcases hv with hv | hv | ⟨_, hv⟩ | hv | hv | hv | hv
    · simp at hv
    · simp at hv
    · refine Pool.inv_thread h ho rfl rfl rfl rfl rfl rfl rfl (fun _ _ => rfl) (fun _ _ => rfl) rfl rfl (fun _ _ => rfl) (fun q e => upd_ne _ _ e) rfl (by rw [hp]; simp [upd_self]) ?_
      simp only [upd_self]
      exact Or.inr (Or.inr (Or.inl ⟨Or.inr (Or.inr (Or.inl rfl)), hv⟩))
    · simp at hv
    · simp at hv
    · simp at hv
    · simp at hv
  | t5 =>
    obtain ⟨c, ho⟩ := own (by rw [hp]; simp) (by rw [hp]; simp) (by rw [hp]; simp)
    rw [hp] at hs
    cases hs
    have hv := (h.serve p c ho).2
    rw [hp] at hv
    rcases hv with hv | hv | ⟨_, hv⟩ | hv | hv | hv | hv
    · simp at hv
    · simp at hv
    · refine Pool.inv_thread h ho rfl rfl rfl rfl rfl rfl rfl (fun _ _ => rfl) (fun _ _ => rfl) rfl rfl (fun _ _ => rfl) (fun q e => upd_ne _ _ e) rfl (by rw [hp]; simp [upd_self]) ?_
      simp only [upd_self]
      exact Or.inr (Or.inr (Or.inl ⟨Or.inr (Or.inr (Or.inr (by rw [hv.2.2.2.1]))), hv⟩))
    · simp at hv
    · simp at hv
    · simp at hv
    · simp at hv
  | t6 c' =>
    obtain ⟨c, ho⟩ := own (by rw [hp]; simp) (by rw [hp]; simp) (by rw [hp]; simp)
    rw [hp] at hs
    cases hs
    have hv := (h.serve p c ho).2
    rw [hp] at hv
    rcases hv with hv | hv | ⟨hc, a2, a3, a4, a5, a6, a7⟩ | hv | hv | hv | hv
    · simp at hv
    · simp at hv
    · have hcc : c' = c := by simpa using hc
      subst hcc
      have hnot : c' ∉ s.ran.map Prod.fst := fun hm => by
        obtain ⟨⟨x, y⟩, hx, e⟩ := List.mem_map.mp hm
        simp only at e
        subst e
        exact a4 y hx
      exact
      { idle := fun q hq => by
          simp only at hq ⊢
          have e : q ≠ p := fun e => by rw [e, ho] at hq; cases hq
          rw [upd_ne _ _ e]
          exact h.idle q hq
        serve := fun q d hq => by
          simp only at hq ⊢
          by_cases e : q = p
          · subst e
            rw [ho] at hq
            cases hq
            rw [upd_self]
            exact ⟨(h.serve q c' ho).1, Or.inr (Or.inr (Or.inr (Or.inl ⟨⟨v, rfl, by simp⟩, a2, a3, a6, a7⟩)))⟩
          · rw [upd_ne _ _ e]
            have hd : d ≠ c' := fun e' => e (h.inj q p c' (e' ▸ hq) ho)
            refine ⟨(h.serve q d hq).1, ?_⟩
            have hv := (h.serve q d hq).2
            have in1 : ∀ w, (d, w) ∈ s.ran → (d, w) ∈ s.ran ++ [(c', v)] := fun w hw => List.mem_append_left _ hw
            have out1 : (∀ w, (d, w) ∉ s.ran) → ∀ w, (d, w) ∉ s.ran ++ [(c', v)] := fun hw w hm => by
              rcases List.mem_append.mp hm with hm | hm
              · exact hw w hm
              · simp at hm; exact hd hm.1
            rcases hv with ⟨b1, b2, b3, b4, b5⟩ | ⟨b1, b2, b3, b4, b5⟩ | ⟨b1, b2, b3, b4, b5⟩ | ⟨⟨w, b1, b2⟩, b3⟩ | ⟨b1, b2, b3⟩ | ⟨b1, b2, b3, b4⟩ | ⟨b1, b2, b3, w, b4, b5⟩
            · exact Or.inl ⟨b1, b2, b3, out1 b4, b5⟩
            · exact Or.inr (Or.inl ⟨b1, b2, b3, out1 b4, b5⟩)
            · exact Or.inr (Or.inr (Or.inl ⟨b1, b2, b3, out1 b4, b5⟩))
            · exact Or.inr (Or.inr (Or.inr (Or.inl ⟨⟨w, b1, in1 w b2⟩, b3⟩)))
            · exact Or.inr (Or.inr (Or.inr (Or.inr (Or.inl ⟨b1, in1 _ b2, b3⟩))))
            · exact Or.inr (Or.inr (Or.inr (Or.inr (Or.inr (Or.inl ⟨b1, b2, in1 _ b3, b4⟩)))))
            · exact Or.inr (Or.inr (Or.inr (Or.inr (Or.inr (Or.inr ⟨b1, b2, b3, w, in1 w b4, b5⟩)))))
        call := fun d => by
          simp only
          refine (h.call d).ran (fun w hw => List.mem_append_left _ hw) fun hpc w hw hm => ?_
          rcases List.mem_append.mp hm with hm | hm
          · exact hw hm
          · simp at hm
            have e := ((h.serve p c' ho).2.early)
            rw [← hm.1] at e
            rcases hpc with hpc | hpc | hpc
            · exact e.1 hpc
            · exact e.2.1 hpc
            · exact e.2.2 hpc
        inj := h.inj
        nodup := h.nodup
        pnodup := h.pnodup
        pops := h.pops
        qnodup := h.qnodup
        posts := fun q => by
          simp only
          by_cases e : q = p
          · subst e; rw [upd_self, h.posts, hp]; simp
          · rw [upd_ne _ _ e]; exact h.posts q
        enough := h.enough
        ok := h.ok
        once := by
          simp only [List.map_append, List.map_cons, List.map_nil]
          exact List.nodup_append.mpr ⟨h.once, List.nodup_singleton _, fun a ha b hb => by
            rw [List.mem_singleton] at hb
            rw [hb]
            exact fun e => hnot (e ▸ ha)⟩ }
    · simp at hv
    · simp at hv
    · simp at hv
    · simp at hv
  | t7 w =>
    obtain ⟨c, ho⟩ := own (by rw [hp]; simp) (by rw [hp]; simp) (by rw [hp]; simp)
    rw [hp] at hs
    cases hs
    have hv := (h.serve p c ho).2
    rw [hp] at hv
    rcases hv with hv | hv | hv | ⟨⟨w', e, hw⟩, a2, a3, a4, a5⟩ | hv | hv | hv
    · simp at hv
    · simp at hv
    · simp at hv
    · cases e
      refine Pool.inv_thread h ho rfl rfl rfl rfl rfl rfl rfl (fun _ _ => rfl) (fun _ _ => rfl) rfl rfl (fun q e => upd_ne _ _ e) (fun q e => upd_ne _ _ e) rfl (by rw [hp]; simp [upd_self]) ?_
      simp only [upd_self]
      exact Or.inr (Or.inr (Or.inr (Or.inr (Or.inl ⟨Or.inl rfl, hw, a2, a3, a4, a5⟩))))
    · simp at hv
    · simp at hv
    · simp at hv
  | t8 =>
    obtain ⟨c, ho⟩ := own (by rw [hp]; simp) (by rw [hp]; simp) (by rw [hp]; simp)
    rw [hp] at hs
    cases hs
    have hv := (h.serve p c ho).2
    rw [hp] at hv
    rcases hv with hv | hv | hv | hv | ⟨_, hw, a2, a3, a4, a5⟩ | hv | hv
    · simp at hv
    · simp at hv
    · simp at hv
    · simp at hv
    · refine Pool.inv_thread h ho rfl rfl rfl rfl rfl rfl rfl (fun _ _ => rfl) (fun _ _ => rfl) rfl rfl (fun _ _ => rfl) (fun q e => upd_ne _ _ e) rfl (by
        rw [hp]; simp only [upd_self]; split <;> simp) ?_
      simp only [upd_self]
      by_cases hwt : s.wait p = true
      · rw [if_pos hwt]
        exact Or.inr (Or.inr (Or.inr (Or.inr (Or.inl ⟨Or.inr ⟨rfl, by rw [← a4, hwt]⟩, hw, a2, a3, a4, a5⟩))))
      · rw [if_neg hwt]
        have hwf : waits c = false := by rw [← a4]; simpa using hwt
        exact Or.inr (Or.inr (Or.inr (Or.inr (Or.inr (Or.inr ⟨rfl, a2, a3, _, hw, Or.inr ⟨hwf, a5⟩⟩)))))
    · simp at hv
    · simp at hv
  | t9 =>
    obtain ⟨c, ho⟩ := own (by rw [hp]; simp) (by rw [hp]; simp) (by rw [hp]; simp)
    rw [hp] at hs
    cases hs
    have hv := (h.serve p c ho).2
    rw [hp] at hv
    rcases hv with hv | hv | hv | hv | ⟨hwt, hw, a2, a3, a4, a5⟩ | hv | hv
    · simp at hv
    · simp at hv
    · simp at hv
    · simp at hv
    · have hwt : waits c = true := by simpa using hwt
      refine Pool.inv_thread h ho rfl rfl rfl rfl rfl rfl rfl (fun _ _ => rfl) (fun q e => upd_ne _ _ e) rfl rfl (fun _ _ => rfl) (fun q e => upd_ne _ _ e) rfl (by rw [hp]; simp [upd_self]) ?_
      simp only [upd_self]
      exact Or.inr (Or.inr (Or.inr (Or.inr (Or.inr (Or.inl ⟨rfl, hwt, hw, by rw [a4, hwt], Or.inl ⟨by omega, a2, a5⟩⟩)))))
    · simp at hv
    · simp at hv
  | t10 =>
    obtain ⟨c, ho⟩ := own (by rw [hp]; simp) (by rw [hp]; simp) (by rw [hp]; simp)
    rw [hp] at hs
    simp only at hs
    split at hs
    · next hr =>
      cases hs
      have hv := (h.serve p c ho).2
      rw [hp] at hv
      rcases hv with hv | hv | hv | hv | hv | ⟨_, hwt, hw, a4, a5⟩ | hv
      · simp at hv
      · simp at hv
      · simp at hv
      · simp at hv
      · simp at hv
      · rcases a5 with ⟨_, b, _⟩ | ⟨_, b, _⟩ | ⟨b1, b2, b3⟩
        · omega
        · omega
        · refine Pool.inv_thread h ho rfl rfl rfl rfl rfl rfl rfl (fun q e => upd_ne _ _ e) (fun _ _ => rfl) rfl rfl (fun _ _ => rfl) (fun q e => upd_ne _ _ e) rfl (by rw [hp]; simp [upd_self]) ?_
          simp only [upd_self]
          exact Or.inr (Or.inr (Or.inr (Or.inr (Or.inr (Or.inr ⟨rfl, by omega, b1, _, hw, Or.inl ⟨hwt, b3⟩⟩)))))
      · simp at hv
    · cases hs

theorem Pool.inv_step {waits : Nat → Bool} {s s' : Pool} {e : Ev} (h : s.Inv waits) (he : ∀ c p, e ≠ .again c p) (hs : s.step waits e = some s') : s'.Inv waits := by
  cases e with
  | call c =>
    simp only [Pool.step] at hs
    split at hs
    · next hp =>
      cases hs
      have hc := h.call c
      rw [hp] at hc
      exact Pool.inv_cpc h (by rw [hp]; simp) (by simp) hc fun p hq => absurd hp ((h.serve p c hq).2.early).1
    · cases hs
  | go c => exact Pool.inv_call h hs
  | thr p v => exact Pool.inv_thr h hs
  | wait c =>
    cases hp : s.cpc c with
    | h p =>
      simp only [Pool.step, hp] at hs
      cases hs
      have hc := h.call c
      rw [hp] at hc
      refine Pool.inv_cpc h (by rw [hp]; simp) (by simp) hc fun q hq => ?_
      have hq' := h.inj q p c hq hc.1
      subst hq'
      have hv := (h.serve q c hq).2
      rw [hp] at hv
      exact hv.sent (Or.inr (Or.inl ⟨hc.2, Or.inl rfl⟩)) (Or.inr (Or.inl ⟨hc.2, Or.inr (Or.inl rfl)⟩))
    | _ => simp only [Pool.step, hp] at hs; cases hs
  | again c p => exact absurd rfl (he c p)

theorem Pool.inv_exec {waits : Nat → Bool} (es : List Ev) : ∀ s s' : Pool, s.Inv waits → Proper es → Pool.exec waits es s = some s' → s'.Inv waits := by
  induction es with
  | nil => intro s s' h _ e; cases e; exact h
  | cons e es ih =>
    intro s s' h hh hr
    simp only [Pool.exec] at hr
    cases hs : s.step waits e with
    | none => rw [hs] at hr; cases hr
    | some q =>
      rw [hs] at hr
      exact ih q s' (Pool.inv_step h (hh e List.mem_cons_self) hs) (fun x hx => hh x (List.mem_cons_of_mem _ hx)) hr

end Eus.Par
