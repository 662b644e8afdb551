import Verif.Spv.Lemmas
set_option autoImplicit false
namespace Eus.Spv

def A.pop (a : A) (t : Nat) : A := { a with stack := upd a.stack t (a.stack t).tail }

theorem pop_has (a : A) (t u y : Nat) (h : has y ((a.pop t).stack u) = true) : has y (a.stack u) = true := by
  by_cases hu : u = t
  · subst hu
    simp only [A.pop, upd_self] at h
    cases e : a.stack u with
    | nil => rw [e] at h; cases h
    | cons p l =>
      rw [e] at h
      obtain ⟨z, w⟩ := p
      simp only [has]
      split
      · rfl
      · exact h
  · simp only [A.pop, upd_ne _ _ hu] at h; exact h

theorem pop_has_false (a : A) (t u y : Nat) {x : Nat} {w : Option Nat} {l : List (Nat × Option Nat)} (e : a.stack t = (x, w) :: l)
    (h : has y ((a.pop t).stack u) = false) (hn : u ≠ t ∨ y ≠ x) : has y (a.stack u) = false := by
  by_cases hu : u = t
  · subst hu
    have hy : y ≠ x := by rcases hn with h | h; exact absurd rfl h; exact h
    simp only [A.pop, upd_self, e, List.tail] at h
    rw [e]
    simp only [has, if_neg hy]
    exact h
  · simp only [A.pop, upd_ne _ _ hu] at h; exact h

theorem pop_value_ne (a : A) (t u y : Nat) {x : Nat} {w : Option Nat} {l : List (Nat × Option Nat)} (e : a.stack t = (x, w) :: l)
    (h : u ≠ t ∨ y ≠ x) : (a.pop t).value u y = a.value u y := by
  by_cases hu : u = t
  · subst hu
    have hy : y ≠ x := by rcases h with h | h; exact absurd rfl h; exact h
    simp only [A.pop, A.value, upd_self, e, List.tail, look, if_neg hy]
    rfl
  · simp only [A.pop, A.value, upd_ne _ _ hu]
    rfl

theorem pop_value_self (a : A) (t : Nat) {x : Nat} {w : Option Nat} {l : List (Nat × Option Nat)} (e : a.stack t = (x, w) :: l) :
    (a.pop t).value t x = look x (a.base t) l := by
  simp only [A.pop, A.value, upd_self, e, List.tail]
  rfl

theorem unbind_inv {s : Sys} {a : A} (h : Inv s a) (t : Nat) : Inv (unbind1 t s) (a.pop t) := by
  have hs := h.sav t
  cases e : a.stack t with
  | nil =>
    have hf : (s.thr t).frames = [] := by
      have := sav_length hs
      rw [e] at this
      exact List.eq_nil_of_length_eq_zero this
    have hp : a.pop t = a := by
      unfold A.pop
      have : upd a.stack t (a.stack t).tail = a.stack := by
        funext u
        by_cases hu : u = t
        · subst hu; rw [upd_self, e]; rfl
        · rw [upd_ne _ _ hu]
      rw [this]
    rw [hp]
    simp only [unbind1, hf]
    exact h
  | cons p l =>
    obtain ⟨x, w⟩ := p
    rw [e] at hs
    cases ef : (s.thr t).frames with
    | nil => rw [ef] at hs; cases hs
    | cons q fs =>
      obtain ⟨x', o⟩ := q
      rw [ef] at hs
      obtain ⟨rfl, ho, hs⟩ := hs
      have hasx : has x' (a.stack t) = true := by rw [e]; simp [has]
      have hk := h.plain t x' hasx
      have hpl : ∀ u y, has y ((a.pop t).stack u) = true → a.kind y ≠ .plain := fun u y hy => h.plain u y (pop_has a t u y hy)
      have hun : ∀ u v y, a.kind y = .shared → has y ((a.pop t).stack u) = true → has y ((a.pop t).stack v) = true → u = v :=
        fun u v y hy h1 h2 => h.uniq u v y hy (pop_has a t u y h1) (pop_has a t v y h2)
      have hst : ∀ u y, a.kind y = .thread → (y, none) ∉ (a.pop t).stack u := by
        intro u y hy hm
        by_cases hu : u = t
        · subst hu
          simp only [A.pop, upd_self] at hm
          exact h.stk u y hy (List.mem_of_mem_tail hm)
        · simp only [A.pop, upd_ne _ _ hu] at hm; exact h.stk u y hy hm
      by_cases hg : s.vt x' = .glob
      · have hks : a.kind x' = .shared := by rw [h.kind, hg]; rfl
        have hkt : a.kind x' ≠ .thread := by rw [hks]; simp
        simp only [unbind1, ef, hg, if_true]
        constructor
        · exact h.kind
        · exact h.noconst
        · exact h.range
        · exact h.inj
        · exact h.next
        · exact h.count
        · intro u j hj
          by_cases hu : u = t
          · subst hu; simp only [upd_self]; exact h.fresh u j hj
          · simp only [upd_ne _ _ hu]; exact h.fresh u j hj
        · intro u
          by_cases hu : u = t
          · subst hu; simp only [upd_self]; exact h.lex u
          · simp only [upd_ne _ _ hu]; exact h.lex u
        · exact hpl
        · exact hun
        · intro u
          by_cases hu : u = t
          · subst hu
            simp only [A.pop, upd_self, e, List.tail]
            exact hs
          · simp only [A.pop, upd_ne _ _ hu]; exact h.sav u
        · intro u y j hj
          have hy : y ≠ x' := by rintro rfl; exact hkt (spec_kind h hj)
          rw [pop_value_ne a t u y e (Or.inr hy), ← h.tab u y j hj]
          by_cases hu : u = t
          · subst hu; simp only [upd_self]; rfl
          · simp only [upd_ne _ _ hu]; rfl
        · intro u y hy hh
          by_cases hyx : y = x'
          · subst hyx
            simp only [Sys.setCell, upd_self]
            by_cases hu : u = t
            · subst hu; rw [pop_value_self a u e]; exact ho
            · have h1 := hh t (fun e => hu e.symm)
              simp only [A.pop, upd_self, e, List.tail] at h1
              rw [look_none h1] at ho
              have h2 : has y (a.stack u) = false := by
                cases hb : has y (a.stack u) with
                | false => rfl
                | true => exact absurd (h.uniq u t y hks hb hasx) hu
              rw [pop_value_ne a t u y e (Or.inl hu), A.value, look_none h2, ho]
              simp only [A.base, if_neg hkt]
          · simp only [Sys.setCell, upd_ne _ _ hyx]
            rw [pop_value_ne a t u y e (Or.inr hyx)]
            exact h.cell u y hy (fun v hv => pop_has_false a t v y e (hh v hv) (Or.inr hyx))
        · exact hst
        · intro u y hy ho
          have hyx : y ≠ x' := by rintro rfl; exact hkt hy
          simp only [Sys.setCell, upd_ne _ _ hyx]
          exact h.own u y hy ho
      · have hkt : a.kind x' = .thread := by
          rw [h.kind] at hk ⊢
          cases e : s.vt x' with
          | const => rw [e] at hk; exact absurd rfl hk
          | var => rw [e] at hk; exact absurd rfl hk
          | glob => exact absurd e hg
          | spec i => rfl
        obtain ⟨i, hi⟩ := kind_thread h hkt
        simp only [unbind1, ef, hi, VT.index]
        rw [if_neg (by simp)]
        have hr := h.range x' i hi
        constructor
        · exact h.kind
        · exact h.noconst
        · exact h.range
        · exact h.inj
        · exact h.next
        · exact h.count
        · intro u j hj
          have hj' : s.next ≤ j := hj
          by_cases hu : u = t
          · subst hu; simp only [upd_self, setTab_self]; rw [upd_ne _ _ (by omega)]; exact h.fresh u j hj
          · simp only [upd_ne _ _ hu, setTab_ne _ _ _ _ hu]; exact h.fresh u j hj
        · intro u
          by_cases hu : u = t
          · subst hu; simp only [upd_self]; rw [(setTab_frames s u i _ u).2]; exact h.lex u
          · simp only [upd_ne _ _ hu, setTab_ne _ _ _ _ hu]; exact h.lex u
        · exact hpl
        · exact hun
        · intro u
          by_cases hu : u = t
          · subst hu
            simp only [A.pop, upd_self, e, List.tail]
            exact hs
          · simp only [A.pop, upd_ne _ _ hu, setTab_ne _ _ _ _ hu]; exact h.sav u
        · intro u y j hj
          have hj' : s.vt y = .spec j := hj
          by_cases hu : u = t
          · subst hu
            simp only [upd_self, setTab_self]
            by_cases hy : y = x'
            · subst hy
              rw [hi] at hj'
              cases hj'
              rw [upd_self, pop_value_self a u e]
              exact ho
            · rw [upd_ne _ _ (fun e => hy (by subst e; exact h.inj y x' _ hj hi)), pop_value_ne a u u y e (Or.inr hy)]
              exact h.tab u y j hj
          · simp only [upd_ne _ _ hu, setTab_ne _ _ _ _ hu]
            rw [pop_value_ne a t u y e (Or.inl hu)]
            exact h.tab u y j hj
        · intro u y hy hh
          have hyx : y ≠ x' := by rintro rfl; exact hy hkt
          rw [pop_value_ne a t u y e (Or.inr hyx)]
          exact h.cell u y hy (fun v hv => pop_has_false a t v y e (hh v hv) (Or.inr hyx))
        · exact hst
        · exact h.own

theorem pop_drop (a : A) (t n : Nat) : ({ a with stack := upd a.stack t ((a.stack t).drop (n + 1)) } : A)
    = { (a.pop t) with stack := upd (a.pop t).stack t (((a.pop t).stack t).drop n) } := by
  have : upd a.stack t ((a.stack t).drop (n + 1)) = upd (a.pop t).stack t (((a.pop t).stack t).drop n) := by
    funext u
    by_cases hu : u = t
    · subst hu
      simp only [upd_self, A.pop]
      cases a.stack u <;> simp
    · simp only [upd_ne _ _ hu, A.pop]
  rw [this]
  rfl

theorem unwind_inv (t : Nat) : ∀ (n : Nat) {s : Sys} {a : A}, Inv s a → Inv (unbind t n s) { a with stack := upd a.stack t ((a.stack t).drop n) }
  | 0, s, a, h => by
    have : upd a.stack t ((a.stack t).drop 0) = a.stack := by
      funext u
      by_cases hu : u = t
      · subst hu; simp [upd_self]
      · rw [upd_ne _ _ hu]
    rw [this]
    exact h
  | n + 1, s, a, h => by
    rw [pop_drop]
    exact unwind_inv t n (unbind_inv h t)

/-! a variable becomes special -/

def A.local (a : A) (t x : Nat) (v : Option Nat) : A :=
  { a with kind := upd a.kind x .thread, own := fun u => upd (a.own u) x (if u = t then v else some 0), count := a.count + 1 }

theorem local_base (a : A) (t x : Nat) (v : Option Nat) (u y : Nat) (h : y ≠ x) : (a.local t x v).base u y = a.base u y := by
  simp only [A.base, A.local, upd_ne _ _ h]

theorem local_value (a : A) (t x : Nat) (v : Option Nat) (u y : Nat) (h : y ≠ x) : (a.local t x v).value u y = a.value u y :=
  look_congr fun _ => local_base a t x v u y h

theorem has_plain {s : Sys} {a : A} (h : Inv s a) {x : Nat} (hk : a.kind x = .plain) (u : Nat) : has x (a.stack u) = false := by
  cases hb : has x (a.stack u) with
  | false => rfl
  | true => exact absurd hk (h.plain u x hb)

theorem has_mem {x : Nat} {v : Option Nat} : ∀ {l : List (Nat × Option Nat)}, (x, v) ∈ l → has x l = true
  | [], h => by cases h
  | (y, w) :: l, h => by
    simp only [has]
    split
    · rfl
    · rename_i e
      rcases List.mem_cons.1 h with h | h
      · cases h; exact absurd rfl e
      · exact has_mem h

theorem local_inv {s : Sys} {a : A} (h : Inv s a) {t x : Nat} {v : Option Nat} (hk : a.kind x = .plain) (hc : a.count < 509)
    (hv : v = none → s.cell x = none) :
    Inv (({ s with next := s.next + 1, vt := upd s.vt x (.spec s.next) } : Sys).setTab t s.next v) (a.local t x v) := by
  have hn : ∀ y i, upd s.vt x (.spec s.next) y = .spec i → (y = x ∧ i = s.next) ∨ (y ≠ x ∧ s.vt y = .spec i) := by
    intro y i hy
    by_cases e : y = x
    · subst e; rw [upd_self] at hy; cases hy; exact Or.inl ⟨rfl, rfl⟩
    · rw [upd_ne _ _ e] at hy; exact Or.inr ⟨e, hy⟩
  constructor
  · intro y
    by_cases e : y = x
    · subst e; simp only [A.local, Sys.setTab, upd_self]; rfl
    · simp only [A.local, Sys.setTab, upd_ne _ _ e]; exact h.kind y
  · intro y hy
    by_cases e : y = x
    · subst e; simp only [Sys.setTab, upd_self] at hy; cases hy
    · simp only [Sys.setTab, upd_ne _ _ e] at hy; exact h.noconst y hy
  · intro y i hy
    rcases hn y i hy with ⟨_, rfl⟩ | ⟨_, hy⟩
    · exact Nat.lt_succ_self _
    · exact Nat.lt_succ_of_lt (h.range y i hy)
  · intro y z i hy hz
    rcases hn y i hy with ⟨e1, e2⟩ | ⟨_, hy⟩
    · rcases hn z i hz with ⟨e3, _⟩ | ⟨_, hz⟩
      · rw [e1, e3]
      · have := h.range z i hz; omega
    · rcases hn z i hz with ⟨_, e4⟩ | ⟨_, hz⟩
      · have := h.range y i hy; omega
      · exact h.inj y z i hy hz
  · have := h.next
    show s.next + 1 = 3 + (a.count + 1)
    omega
  · exact hc
  · intro u i hi
    have hi' : s.next + 1 ≤ i := hi
    by_cases hu : u = t
    · subst hu; rw [setTab_self, upd_ne _ _ (by omega)]; exact h.fresh u i (by omega)
    · rw [setTab_ne _ _ _ _ hu]; exact h.fresh u i (by omega)
  · intro u; rw [(setTab_frames _ t _ v u).2]; exact h.lex u
  · intro u y hy
    by_cases e : y = x
    · subst e; simp only [A.local, upd_self]; simp
    · simp only [A.local, upd_ne _ _ e]; exact h.plain u y hy
  · intro u w y hy h1 h2
    by_cases e : y = x
    · subst e; simp only [A.local, upd_self] at hy; cases hy
    · simp only [A.local, upd_ne _ _ e] at hy; exact h.uniq u w y hy h1 h2
  · intro u
    rw [(setTab_frames _ t _ v u).1]
    refine sav_congr (fun y hy => ?_) (h.sav u)
    refine (local_base a t x v u y ?_).symm
    rintro rfl
    have hy' : has y (a.stack u) = true := hy
    rw [has_plain h hk u] at hy'
    cases hy'
  · intro u y i hy
    rcases hn y i hy with ⟨e1, e2⟩ | ⟨e1, hy2⟩
    · subst e1
      have hval : (a.local t y v).value u y = if u = t then v else some 0 := by
        have : has y (a.stack u) = false := has_plain h hk u
        unfold A.value
        rw [show (a.local t y v).stack u = a.stack u from rfl, look_none this]
        simp only [A.base, A.local, upd_self, if_true]
      rw [hval, e2]
      by_cases hu : u = t
      · subst hu; rw [setTab_self, upd_self]; simp
      · rw [setTab_ne _ _ _ _ hu, if_neg hu]; exact h.fresh u s.next (Nat.le_refl _)
    · rw [local_value _ _ _ _ _ _ e1]
      have := h.range y i hy2
      by_cases hu : u = t
      · subst hu; rw [setTab_self, upd_ne _ _ (by omega)]; exact h.tab u y i hy2
      · rw [setTab_ne _ _ _ _ hu]; exact h.tab u y i hy2
  · intro u y hy hh
    by_cases e : y = x
    · subst e; simp only [A.local, upd_self] at hy; exact absurd rfl hy
    · rw [local_value _ _ _ _ _ _ e]
      simp only [A.local, upd_ne _ _ e] at hy
      exact h.cell u y hy hh
  · intro u y hy hm
    by_cases e : y = x
    · subst e
      have := has_mem hm
      have h2 : has y (a.stack u) = true := this
      rw [has_plain h hk u] at h2
      cases h2
    · simp only [A.local, upd_ne _ _ e] at hy; exact h.stk u y hy hm
  · intro u y hy ho
    by_cases e : y = x
    · subst e
      simp only [A.local, upd_self] at ho
      split at ho
      · exact hv ho
      · cases ho
    · simp only [A.local, upd_ne _ _ e] at hy ho; exact h.own u y hy ho

/-! a variable becomes common -/

theorem shared_inv {s : Sys} {a : A} (h : Inv s a) {x : Nat} (hk : a.kind x ≠ .thread) :
    Inv { s with vt := upd s.vt x .glob } { a with kind := upd a.kind x .shared } := by
  have hn : ∀ y i, upd s.vt x .glob y = .spec i → s.vt y = .spec i := by
    intro y i hy
    by_cases e : y = x
    · subst e; rw [upd_self] at hy; cases hy
    · rw [upd_ne _ _ e] at hy; exact hy
  have hth : ∀ y, upd a.kind x .shared y = .thread → a.kind y = .thread := by
    intro y hy
    by_cases e : y = x
    · subst e; rw [upd_self] at hy; cases hy
    · rw [upd_ne _ _ e] at hy; exact hy
  have hb : ∀ u, ({ a with kind := upd a.kind x .shared } : A).base u = a.base u := by
    intro u
    funext y
    by_cases e : y = x
    · subst e; simp [A.base, upd_self, hk]
    · simp only [A.base, upd_ne _ _ e]
  constructor
  · intro y
    by_cases e : y = x
    · subst e; simp only [upd_self]; rfl
    · simp only [upd_ne _ _ e]; exact h.kind y
  · intro y hy
    by_cases e : y = x
    · subst e; simp only [upd_self] at hy; cases hy
    · simp only [upd_ne _ _ e] at hy; exact h.noconst y hy
  · exact fun y i hy => h.range y i (hn y i hy)
  · exact fun y z i hy hz => h.inj y z i (hn y i hy) (hn z i hz)
  · exact h.next
  · exact h.count
  · exact h.fresh
  · exact h.lex
  · intro u y hy
    by_cases e : y = x
    · subst e; simp [upd_self]
    · simp only [upd_ne _ _ e]; exact h.plain u y hy
  · intro u w y hy h1 h2
    by_cases e : y = x
    · subst e
      have hp := h.plain u y h1
      cases hkk : a.kind y with
      | plain => exact absurd hkk hp
      | shared => exact h.uniq u w y hkk h1 h2
      | thread => exact absurd hkk hk
    · simp only [upd_ne _ _ e] at hy; exact h.uniq u w y hy h1 h2
  · intro u; rw [hb]; exact h.sav u
  · intro u y i hy
    simp only [A.value, hb]
    exact h.tab u y i (hn y i hy)
  · intro u y hy hh
    simp only [A.value, hb]
    refine h.cell u y (fun e => hy ?_) hh
    have : y ≠ x := by rintro rfl; exact hk e
    simp only [upd_ne _ _ this]; exact e
  · exact fun u y hy => h.stk u y (hth y hy)
  · exact fun u y hy => h.own u y (hth y hy)

/-! a thread gets a table -/

theorem table_inv {s : Sys} {a : A} (h : Inv s a) {t r : Nat} {tab : Nat → Option Nat} (hi : a.stack t = [])
    (h1 : ∀ i, i < s.next → tab i = (s.thr r).tab i) (h2 : ∀ i, s.next ≤ i → tab i = some 0) :
    Inv { s with thr := upd s.thr t { tab := tab, frames := [], lex := [] } } { a with own := upd a.own t (fun x => a.value r x) } := by
  have hval : ∀ u y, u ≠ t → ({ a with own := upd a.own t (fun x => a.value r x) } : A).value u y = a.value u y := by
    intro u y hu
    refine look_congr fun _ => ?_
    simp only [A.base, upd_ne _ _ hu]
  constructor
  · exact h.kind
  · exact h.noconst
  · exact h.range
  · exact h.inj
  · exact h.next
  · exact h.count
  · intro u i hi
    by_cases hu : u = t
    · subst hu; simp only [upd_self]; exact h2 i hi
    · simp only [upd_ne _ _ hu]; exact h.fresh u i hi
  · intro u
    by_cases hu : u = t
    · subst hu; simp only [upd_self]
    · simp only [upd_ne _ _ hu]; exact h.lex u
  · exact h.plain
  · exact h.uniq
  · intro u
    by_cases hu : u = t
    · subst hu; simp only [upd_self, hi]; trivial
    · simp only [upd_ne _ _ hu]
      refine sav_congr (fun y _ => ?_) (h.sav u)
      simp only [A.base, upd_ne _ _ hu]
  · intro u y i hy
    by_cases hu : u = t
    · subst hu
      simp only [upd_self]
      rw [h1 i (h.range y i hy), h.tab r y i hy]
      have hk := spec_kind h hy
      show a.value r y = look y _ (a.stack u)
      rw [hi]
      simp only [look, A.base, hk, if_true, upd_self]
    · rw [hval u y hu]; simp only [upd_ne _ _ hu]; exact h.tab u y i hy
  · intro u y hy hh
    by_cases hu : u = t
    · subst hu
      rw [h.cell u y hy hh]
      refine look_congr fun _ => ?_
      have hy' : ¬ a.kind y = .thread := hy
      simp only [A.base, if_neg hy']
    · rw [hval u y hu]; exact h.cell u y hy hh
  · exact h.stk
  · intro u y hy ho
    by_cases hu : u = t
    · subst hu
      simp only [upd_self] at ho
      exact h.unb r y hy ho
    · simp only [upd_ne _ _ hu] at ho; exact h.own u y hy ho

end Eus.Spv
