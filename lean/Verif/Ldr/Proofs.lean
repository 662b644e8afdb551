import Verif.Ldr.Spec
set_option autoImplicit false
namespace Eus.Ldr

theorem starts_append (a b : List Ev) : starts (a ++ b) = starts a ++ starts b := by
  induction a with
  | nil => rfl
  | cons x a ih => cases x <;> simp [starts, ih]

/-! ### which file -/

theorem mem_foldl (l : List Dir) : ∀ (r : List Dir) (x : Dir), x ∈ l.foldl unionStep r ↔ x ∈ r ∨ x ∈ l := by
  induction l with
  | nil => simp
  | cons a l ih =>
    intro r x
    simp only [List.foldl_cons, ih, unionStep]
    by_cases h : a ∈ r
    · simp only [if_pos h, List.mem_cons]
      constructor
      · rintro (h' | h') <;> simp [h']
      · rintro (h' | rfl | h')
        · exact .inl h'
        · exact .inl h
        · exact .inr h'
    · simp only [if_neg h, List.mem_cons]
      constructor
      · rintro ((h' | h') | h') <;> simp [h']
      · rintro (h' | h' | h') <;> simp [h']

theorem search_append (W : World) (f : FName) (a b : List Dir) :
    search W f (a ++ b) = (search W f a).or (search W f b) := by
  induction a with
  | nil => simp [search]
  | cons x a ih =>
    simp only [List.cons_append, search]
    cases tryLoad W (x ++ f.sub) f.base with
    | none => exact ih
    | some y => rfl

theorem search_mem_none (W : World) (f : FName) (a : List Dir) (h : search W f a = none) (x : Dir) (hx : x ∈ a) :
    tryLoad W (x ++ f.sub) f.base = none := by
  induction a with
  | nil => simp at hx
  | cons y a ih =>
    simp only [search] at h
    cases hy : tryLoad W (y ++ f.sub) f.base with
    | some z => rw [hy] at h; simp at h
    | none =>
      rw [hy] at h
      rcases List.mem_cons.mp hx with rfl | hx
      · exact hy
      · exact ih h hx

/-- Leaving out directories seen before does not change what is found. -/
theorem search_foldl (W : World) (f : FName) (l : List Dir) : ∀ r : List Dir,
    search W f (l.foldl unionStep r).reverse = search W f (r.reverse ++ l) := by
  induction l with
  | nil => simp
  | cons a l ih =>
    intro r
    simp only [List.foldl_cons, ih]
    unfold unionStep
    by_cases h : a ∈ r
    · rw [if_pos h, search_append, search_append]
      cases hs : search W f r.reverse with
      | some x => rfl
      | none =>
        have := search_mem_none W f r.reverse hs a (by simpa using h)
        simp [search, this]
    · rw [if_neg h]; simp

theorem search_union (W : World) (f : FName) (a b : List Dir) :
    search W f (union a b) = search W f (a ++ b) := by
  unfold union
  rw [search_foldl, search_append, search_foldl, search_append, search_append]
  simp [search]

theorem tryLoad_iff (W : World) (d : Dir) (b : Nat) (d' : Dir) (e : Ext) (st : List Stmt) :
    tryLoad W d b = some (d', e, st) ↔ d' = d ∧ Takes W d b e st := by
  rw [show (d' = d) = (d = d') from propext eq_comm]
  unfold tryLoad Takes
  simp only [tryExts]
  have key : (∀ e' : Ext, e'.num < e.num → W.file d b e' = none) ↔
      ((Ext.asis.num < e.num → W.file d b .asis = none) ∧ (Ext.dll.num < e.num → W.file d b .dll = none) ∧
       (Ext.dylib.num < e.num → W.file d b .dylib = none) ∧ (Ext.so.num < e.num → W.file d b .so = none) ∧
       (Ext.o.num < e.num → W.file d b .o = none) ∧ (Ext.l.num < e.num → W.file d b .l = none)) := by
    constructor
    · intro h; exact ⟨h _, h _, h _, h _, h _, h _⟩
    · rintro ⟨h1, h2, h3, h4, h5, h6⟩ e' he
      cases e'
      · exact h1 he
      · exact h2 he
      · exact h3 he
      · exact h4 he
      · exact h5 he
      · exact h6 he
  rw [key]
  cases h0 : W.file d b .asis <;> cases h1 : W.file d b .dll <;> cases h2 : W.file d b .dylib <;>
    cases h3 : W.file d b .so <;> cases h4 : W.file d b .o <;> cases h5 : W.file d b .l <;>
    cases e <;> simp_all [Ext.num]

theorem tryLoad_none (W : World) (d : Dir) (b : Nat) : tryLoad W d b = none ↔ ¬ Exists W d b := by
  unfold tryLoad Exists
  simp only [tryExts]
  constructor
  · rintro h ⟨e, st, he⟩
    cases h0 : W.file d b .asis <;> cases h1 : W.file d b .dll <;> cases h2 : W.file d b .dylib <;>
      cases h3 : W.file d b .so <;> cases h4 : W.file d b .o <;> cases h5 : W.file d b .l <;>
      cases e <;> simp_all
  · intro h
    have h' : ∀ e, W.file d b e = none := by
      intro e
      cases he : W.file d b e with
      | none => rfl
      | some st => exact absurd ⟨e, st, he⟩ h
    simp [h']

theorem search_iff (W : World) (f : FName) (l : List Dir) (x : Dir × Ext × List Stmt) :
    search W f l = some x ↔ ∃ a p c, l = a ++ p :: c ∧ (∀ q ∈ a, tryLoad W (q ++ f.sub) f.base = none) ∧
      tryLoad W (p ++ f.sub) f.base = some x := by
  induction l with
  | nil => simp [search]
  | cons y l ih =>
    simp only [search]
    cases hy : tryLoad W (y ++ f.sub) f.base with
    | some z =>
      constructor
      · rintro h; injection h with h; subst h
        exact ⟨[], y, l, rfl, by simp, hy⟩
      · rintro ⟨a, p, c, hl, ha, hp⟩
        cases a with
        | nil => simp at hl; obtain ⟨rfl, rfl⟩ := hl; rw [hy] at hp; exact hp
        | cons q a => simp at hl; obtain ⟨rfl, rfl⟩ := hl
                      have := ha y (by simp); rw [hy] at this; simp at this
    | none =>
      simp only [ih]
      constructor
      · rintro ⟨a, p, c, rfl, ha, hp⟩
        exact ⟨y :: a, p, c, rfl, by simpa [hy] using ha, hp⟩
      · rintro ⟨a, p, c, hl, ha, hp⟩
        cases a with
        | nil => simp at hl; obtain ⟨rfl, rfl⟩ := hl; rw [hy] at hp; simp at hp
        | cons q a => simp at hl; obtain ⟨rfl, rfl⟩ := hl
                      exact ⟨a, p, c, rfl, fun q hq => ha q (by simp [hq]), hp⟩

theorem search_none (W : World) (f : FName) (l : List Dir) :
    search W f l = none ↔ ∀ q ∈ l, tryLoad W (q ++ f.sub) f.base = none := by
  constructor
  · intro h q hq; exact search_mem_none W f l h q hq
  · intro h
    cases hs : search W f l with
    | none => rfl
    | some x =>
      obtain ⟨a, p, c, rfl, -, hp⟩ := (search_iff W f l x).mp hs
      rw [h p (by simp)] at hp; simp at hp

theorem resolve_file (W : World) (dirs : List Dir) (f : FName) (d : Dir) (e : Ext) (st : List Stmt)
    (h : resolve W dirs f = some (d, e, st)) : W.file d f.base e = some st := by
  unfold resolve at h
  split at h
  · obtain ⟨rfl, h2⟩ := (tryLoad_iff W _ _ _ _ _).mp h; exact h2.1
  · obtain ⟨a, p, c, -, -, h⟩ := (search_iff W f _ _).mp h
    obtain ⟨rfl, h2⟩ := (tryLoad_iff W _ _ _ _ _).mp h; exact h2.1

/-! ### what happened -/

/-- The relation between the states before and after that every run keeps. -/
structure Ext1 (s s' : St) : Prop where
  mods : ∃ l, s'.mods = s.mods ++ l
  trace : ∃ l, s'.trace = s.trace ++ l
  nodup : s.mods.Nodup → s'.mods.Nodup

theorem Ext1.refl (s : St) : Ext1 s s := ⟨⟨[], by simp⟩, ⟨[], by simp⟩, id⟩

theorem Ext1.trans {a b c : St} (h : Ext1 a b) (k : Ext1 b c) : Ext1 a c := by
  obtain ⟨⟨l, hl⟩, ⟨t, ht⟩, hn⟩ := h
  obtain ⟨⟨l', hl'⟩, ⟨t', ht'⟩, hn'⟩ := k
  exact ⟨⟨l ++ l', by rw [hl', hl]; simp⟩, ⟨t ++ t', by rw [ht', ht]; simp⟩, fun h => hn' (hn h)⟩

theorem Ext1.log (s : St) (e : Ev) : Ext1 s (s.log e) := ⟨⟨[], by simp [St.log]⟩, ⟨[e], rfl⟩, id⟩

theorem Ext1.provide (s : St) (m : Nat) : Ext1 s (provide m s) := by
  unfold Ldr.provide
  split
  · exact .refl s
  · rename_i h
    refine ⟨⟨[m], rfl⟩, ⟨[], by simp⟩, fun hn => ?_⟩
    simp only [List.nodup_append, hn, true_and]
    simp
    intro a ha hh; exact h (hh ▸ ha)

theorem ext_all (W : World) : ∀ n,
    (∀ dirs l s s', (run W n dirs l s).state = some s' → Ext1 s s') ∧
    (∀ dirs st s s', (exec W n dirs st s).state = some s' → Ext1 s s') ∧
    (∀ dirs f s s', (load W n dirs f s).state = some s' → Ext1 s s') := by
  intro n
  induction n with
  | zero => simp [run, exec, load, Out.state]
  | succ n ih =>
    obtain ⟨ihr, ihe, ihl⟩ := ih
    refine ⟨?_, ?_, ?_⟩
    · intro dirs l s s' h
      cases l with
      | nil => simp [run, Out.state] at h; subst h; exact .refl s
      | cons st r =>
        simp only [run] at h
        cases he : exec W n dirs st s with
        | ok s1 => rw [he] at h
                   exact (ihe dirs st s s1 (by rw [he]; rfl)).trans (ihr dirs r s1 s' h)
        | err s1 => rw [he] at h; simp [Out.state] at h; subst h
                    exact ihe dirs st s s1 (by rw [he]; rfl)
        | fuel => rw [he] at h; simp [Out.state] at h
    · intro dirs st s s' h
      cases st with
      | prov m => simp [exec, Out.state] at h; subst h; exact .provide s m
      | eff k => simp [exec, Out.state] at h; subst h; exact .log s _
      | fail => simp [exec, Out.state] at h; subst h; exact .refl s
      | load f => simp only [exec] at h; exact ihl dirs f s s' h
      | req m f =>
        simp only [exec] at h
        by_cases hm : m ∈ s.mods
        · rw [if_pos hm] at h; simp [Out.state] at h; subst h; exact .refl s
        · rw [if_neg hm] at h
          cases he : load W n dirs f (s.log (.start m)) with
          | ok s1 => rw [he] at h; simp [Out.state] at h; subst h
                     exact ((Ext1.log s _).trans (ihl dirs f _ s1 (by rw [he]; rfl))).trans (.provide s1 m)
          | err s1 => rw [he] at h; simp [Out.state] at h; subst h
                      exact (Ext1.log s _).trans (ihl dirs f _ s1 (by rw [he]; rfl))
          | fuel => rw [he] at h; simp [Out.state] at h
    · intro dirs f s s' h
      simp only [load] at h
      cases hr : resolve W dirs f with
      | none => rw [hr] at h; simp [Out.state] at h; subst h; exact .refl s
      | some x => obtain ⟨d, e, st⟩ := x
                  rw [hr] at h
                  exact (Ext1.log s _).trans (ihr _ _ _ _ h)

/-! ### each module once -/

/-- What is claimed of the modules begun between two states. -/
structure Once (rm : Nat → Nat) (n : Nat) (s : St) (o : Out) : Prop where
  out : ∀ s', o.state = some s' → ∃ evs, Since s s' evs ∧ (starts evs).Nodup ∧
    ∀ m ∈ starts evs, rm m < n ∧ m ∉ s.mods
  done : ∀ s', o = .ok s' → ∀ evs, Since s s' evs → ∀ m ∈ starts evs, m ∈ s'.mods

theorem since_unique {s s' : St} {a b : List Ev} (h : Since s s' a) (k : Since s s' b) : a = b := by
  unfold Since at h k; rw [h] at k; exact List.append_cancel_left k

theorem Since.nil (s : St) : Since s s [] := by simp [Since]

theorem Since.append {a b c : St} {x y : List Ev} (h : Since a b x) (k : Since b c y) : Since a c (x ++ y) := by
  unfold Since at *; rw [k, h]; simp

/-- Nothing begun. -/
theorem Once.quiet (rm : Nat → Nat) (n : Nat) (s s' : St) (evs : List Ev) (o : Out)
    (ho : o.state = some s') (h : Since s s' evs) (hs : starts evs = []) : Once rm n s o := by
  constructor
  · intro s1 h1; rw [ho] at h1; injection h1 with h1; subst h1
    exact ⟨evs, h, by simp [hs], by simp [hs]⟩
  · intro s1 h1 e1 hs1
    rw [h1] at ho; injection ho with ho; subst ho
    rw [since_unique hs1 h, hs]; simp

theorem provide_trace (m : Nat) (s : St) : (provide m s).trace = s.trace := by
  unfold provide; split <;> rfl

theorem mem_provide (m : Nat) (s : St) : m ∈ (provide m s).mods ∧ ∀ x ∈ s.mods, x ∈ (provide m s).mods := by
  unfold provide; split
  · rename_i h; exact ⟨h, fun x hx => hx⟩
  · simp; intro x hx; exact .inl hx

theorem Once.seq {rm : Nat → Nat} {n : Nat} {s s1 : St} {o1 o2 : Out} (h1 : Once rm n s o1) (e1 : o1 = .ok s1)
    (hm : ∀ x ∈ s.mods, x ∈ s1.mods) (hx : ∀ s', o2 = .ok s' → ∀ x ∈ s1.mods, x ∈ s'.mods)
    (h2 : Once rm n s1 o2) : Once rm n s o2 := by
  subst e1
  obtain ⟨ev1, hs1, hn1, hp1⟩ := h1.out s1 rfl
  have hd1 := h1.done s1 rfl ev1 hs1
  constructor
  · intro s' h
    obtain ⟨ev2, hs2, hn2, hp2⟩ := h2.out s' h
    refine ⟨ev1 ++ ev2, hs1.append hs2, ?_, ?_⟩
    · rw [starts_append]
      refine List.nodup_append.mpr ⟨hn1, hn2, ?_⟩
      rintro a ha b hb rfl
      exact (hp2 a hb).2 (hd1 a ha)
    · rw [starts_append]
      intro m hm'
      rcases List.mem_append.mp hm' with h' | h'
      · exact hp1 m h'
      · exact ⟨(hp2 m h').1, fun hh => (hp2 m h').2 (hm m hh)⟩
  · intro s' h evs he m hm'
    obtain ⟨ev2, hs2, -, -⟩ := h2.out s' (by rw [h]; rfl)
    rw [since_unique he (hs1.append hs2), starts_append] at hm'
    rcases List.mem_append.mp hm' with h' | h'
    · exact hx s' h m (hd1 m h')
    · exact h2.done s' h ev2 hs2 m h'

theorem ok_mods (W : World) (n : Nat) (dirs : List Dir) (l : List Stmt) (s s' : St)
    (h : run W n dirs l s = .ok s') : ∀ x ∈ s.mods, x ∈ s'.mods := by
  obtain ⟨⟨t, ht⟩, -, -⟩ := (ext_all W n).1 dirs l s s' (by rw [h]; rfl)
  intro x hx; rw [ht]; simp [hx]

theorem ok_mods_exec (W : World) (n : Nat) (dirs : List Dir) (l : Stmt) (s s' : St)
    (h : exec W n dirs l s = .ok s') : ∀ x ∈ s.mods, x ∈ s'.mods := by
  obtain ⟨⟨t, ht⟩, -, -⟩ := (ext_all W n).2.1 dirs l s s' (by rw [h]; rfl)
  intro x hx; rw [ht]; simp [hx]

theorem Once.mono {rm : Nat → Nat} {a b : Nat} {s : St} {o : Out} (h : Once rm a s o) (hab : a ≤ b) :
    Once rm b s o := by
  refine ⟨fun s' hs => ?_, h.done⟩
  obtain ⟨evs, h1, h2, h3⟩ := h.out s' hs
  exact ⟨evs, h1, h2, fun m hm => ⟨Nat.lt_of_lt_of_le (h3 m hm).1 hab, (h3 m hm).2⟩⟩

/-- An event first that begins no module. -/
theorem Once.logged {rm : Nat → Nat} {n : Nat} {s : St} {e : Ev} {o : Out} (he : starts [e] = [])
    (h : Once rm n (s.log e) o) : Once rm n s o := by
  have hs : Since s (s.log e) [e] := rfl
  constructor
  · intro s' ho
    obtain ⟨evs, h1, h2, h3⟩ := h.out s' ho
    refine ⟨[e] ++ evs, hs.append h1, ?_, ?_⟩
    · rw [starts_append, he]; simpa using h2
    · rw [starts_append, he]; exact h3
  · intro s' ho evs hev m hm
    obtain ⟨evs', h1, -, -⟩ := h.out s' (by rw [ho]; rfl)
    rw [since_unique hev (hs.append h1), starts_append, he] at hm
    exact h.done s' ho evs' h1 m (by simpa using hm)

theorem once_all (W : World) (rm : Nat → Nat) (rf : Dir → Nat → Ext → Nat) (hW : Layered W rm rf) : ∀ n,
    (∀ k dirs l s, LayeredIn W rm rf k l → Once rm k s (run W n dirs l s)) ∧
    (∀ k dirs st s, LayeredIn W rm rf k [st] → Once rm k s (exec W n dirs st s)) ∧
    (∀ k dirs f s, (∀ d e st, resolve W dirs f = some (d, e, st) → rf d f.base e ≤ k) →
      Once rm k s (load W n dirs f s)) := by
  intro n
  induction n with
  | zero =>
    refine ⟨?_, ?_, ?_⟩ <;> intros <;> constructor <;> simp [run, exec, load, Out.state]
  | succ n ih =>
    obtain ⟨ihr, ihe, ihl⟩ := ih
    refine ⟨?_, ?_, ?_⟩
    · intro k dirs l s hl
      cases l with
      | nil => simp only [run]; exact .quiet rm k s s [] _ rfl (.nil s) rfl
      | cons st r =>
        have hst : LayeredIn W rm rf k [st] := by
          refine ⟨fun m f hm => hl.1 m f ?_, fun f hm => hl.2 f ?_⟩ <;> simp at hm <;> simp [hm]
        have hr : LayeredIn W rm rf k r :=
          ⟨fun m f hm => hl.1 m f (by simp [hm]), fun f hm => hl.2 f (by simp [hm])⟩
        have h1 := ihe k dirs st s hst
        simp only [run]
        cases he : exec W n dirs st s with
        | ok s1 =>
          exact h1.seq he (ok_mods_exec W n dirs st s s1 he) (fun s' h => ok_mods W n dirs r s1 s' h)
            (ihr k dirs r s1 hr)
        | err s1 => rw [he] at h1; exact h1
        | fuel => rw [he] at h1; exact h1
    · intro k dirs st s hl
      cases st with
      | prov m =>
        simp only [exec]
        exact .quiet rm k s _ [] _ rfl (by simp [Since, provide_trace]) rfl
      | eff j => simp only [exec]; exact .quiet rm k s _ [.eff j] _ rfl rfl rfl
      | fail => simp only [exec]; exact .quiet rm k s s [] _ rfl (.nil s) rfl
      | load f =>
        simp only [exec]
        refine ihl k dirs f s ?_
        intro d e st h; exact Nat.le_of_lt (hl.2 f (by simp) dirs d e st h)
      | req m f =>
        simp only [exec]
        by_cases hm : m ∈ s.mods
        · rw [if_pos hm]; exact .quiet rm k s s [] _ rfl (.nil s) rfl
        · rw [if_neg hm]
          obtain ⟨hk, hf⟩ := hl.1 m f (by simp)
          have h1 := ihl (rm m) dirs f (s.log (.start m)) (fun d e st h => hf dirs d e st h)
          have hs0 : Since s (s.log (.start m)) [.start m] := rfl
          have fin : ∀ s1, (load W n dirs f (s.log (.start m))).state = some s1 →
              ∃ evs, Since s s1 evs ∧ (starts evs).Nodup ∧ ∀ x ∈ starts evs, rm x < k ∧ x ∉ s.mods := by
            intro s1 h
            obtain ⟨evs, a, b, c⟩ := h1.out s1 h
            refine ⟨[.start m] ++ evs, hs0.append a, ?_, ?_⟩
            · simp only [List.singleton_append, starts, List.nodup_cons]
              exact ⟨fun hh => absurd (c m hh).1 (Nat.lt_irrefl _), b⟩
            · simp only [List.singleton_append, starts, List.mem_cons]
              rintro x (rfl | hx)
              · exact ⟨hk, hm⟩
              · exact ⟨Nat.lt_trans (c x hx).1 hk, (c x hx).2⟩
          cases he : load W n dirs f (s.log (.start m)) with
          | ok s1 =>
            constructor
            · intro s' h
              simp [Out.state] at h; subst h
              obtain ⟨evs, a, b, c⟩ := fin s1 (by rw [he]; rfl)
              exact ⟨evs, by unfold Since at *; rw [provide_trace]; exact a, b, c⟩
            · intro s' h evs hev x hx
              injection h with h; subst h
              obtain ⟨evs1, a, b, c⟩ := h1.out s1 (by rw [he]; rfl)
              have hev' : Since s s1 evs := by unfold Since at *; rw [provide_trace] at hev; exact hev
              rw [since_unique hev' (hs0.append a)] at hx
              simp only [List.singleton_append, starts, List.mem_cons] at hx
              rcases hx with rfl | hx
              · exact (mem_provide x s1).1
              · exact (mem_provide m s1).2 x (h1.done s1 he evs1 a x hx)
          | err s1 =>
            constructor
            · intro s' h; simp [Out.state] at h; subst h; exact fin s1 (by rw [he]; rfl)
            · intro s' h; simp at h
          | fuel => constructor <;> simp [Out.state]
    · intro k dirs f s hf
      simp only [load]
      cases hr : resolve W dirs f with
      | none => exact .quiet rm k s s [] _ rfl (.nil s) rfl
      | some x =>
        obtain ⟨d, e, st⟩ := x
        exact Once.logged rfl ((ihr (rf d f.base e) (d :: dirs) st _ (hW _ _ _ _ (resolve_file W dirs f d e st hr))).mono
          (hf d e st hr))

/-! ### it ends -/

/-- From some nesting bound on, the outcome is one and the same, and not the bound. -/
def Ends (F : Nat → Out) : Prop := ∃ r, r ≠ .fuel ∧ ∃ n, ∀ k, n ≤ k → F k = r

theorem ends_run (W : World) (rm : Nat → Nat) (rf : Dir → Nat → Ext → Nat) (hW : Layered W rm rf) :
    ∀ (N : Nat) (l : List Stmt) (dirs : List Dir) (s : St), LayeredIn W rm rf N l →
      Ends fun n => run W n dirs l s := by
  intro N
  induction N using Nat.strongRecOn with
  | ind N IH =>
    -- load of a file below N
    have hload : ∀ (dirs : List Dir) (f : FName) (s : St),
        (∀ d e st, resolve W dirs f = some (d, e, st) → rf d f.base e < N) →
        Ends fun n => load W n dirs f s := by
      intro dirs f s hf
      cases hr : resolve W dirs f with
      | none => exact ⟨.err s, by simp, 1, fun k hk => by
          obtain ⟨m, rfl⟩ : ∃ m, k = m + 1 := ⟨k - 1, by omega⟩
          simp [load, hr]⟩
      | some x =>
        obtain ⟨d, e, st⟩ := x
        obtain ⟨r, hr1, n, hn⟩ := IH (rf d f.base e) (hf d e st hr) st (d :: dirs) (s.log (.file d f.base e))
          (hW _ _ _ _ (resolve_file W dirs f d e st hr))
        refine ⟨r, hr1, n + 1, fun k hk => ?_⟩
        obtain ⟨m, rfl⟩ : ∃ m, k = m + 1 := ⟨k - 1, by omega⟩
        simp only [load, hr]; exact hn m (by omega)
    intro l
    induction l with
    | nil => intro dirs s _
             exact ⟨.ok s, by simp, 1, fun k hk => by
               obtain ⟨m, rfl⟩ : ∃ m, k = m + 1 := ⟨k - 1, by omega⟩
               simp [run]⟩
    | cons st l ihl =>
      intro dirs s hl
      have hr : LayeredIn W rm rf N l :=
        ⟨fun m f hm => hl.1 m f (by simp [hm]), fun f hm => hl.2 f (by simp [hm])⟩
      have hst : Ends fun n => exec W n dirs st s := by
        have one : ∀ o, o ≠ Out.fuel → (∀ m, exec W (m + 1) dirs st s = o) → Ends fun n => exec W n dirs st s := by
          intro o ho h
          refine ⟨o, ho, 1, fun k hk => ?_⟩
          obtain ⟨m, rfl⟩ : ∃ m, k = m + 1 := ⟨k - 1, by omega⟩
          exact h m
        cases st with
        | prov m => exact one (.ok (provide m s)) (by simp) (fun n => by simp [exec])
        | eff j => exact one (.ok (s.log (.eff j))) (by simp) (fun n => by simp [exec])
        | fail => exact one (.err s) (by simp) (fun n => by simp [exec])
        | load f =>
          obtain ⟨r, h1, n, hn⟩ := hload dirs f s (fun d e st h => hl.2 f (by simp) dirs d e st h)
          refine ⟨r, h1, n + 1, fun k hk => ?_⟩
          obtain ⟨m, rfl⟩ : ∃ m, k = m + 1 := ⟨k - 1, by omega⟩
          simp only [exec]; exact hn m (by omega)
        | req m f =>
          by_cases hm : m ∈ s.mods
          · exact one (.ok s) (by simp) (fun n => by simp [exec, hm])
          · obtain ⟨hk, hf⟩ := hl.1 m f (by simp)
            obtain ⟨r, h1, n, hn⟩ := hload dirs f (s.log (.start m))
              (fun d e st h => Nat.lt_of_le_of_lt (hf dirs d e st h) hk)
            cases r with
            | ok s1 =>
              refine ⟨.ok (provide m s1), by simp, n + 1, fun k hk => ?_⟩
              obtain ⟨j, rfl⟩ : ∃ m, k = m + 1 := ⟨k - 1, by omega⟩
              have := hn j (by omega)
              simp only at this
              simp only [exec, if_neg hm, this]
            | err s1 =>
              refine ⟨.err s1, by simp, n + 1, fun k hk => ?_⟩
              obtain ⟨j, rfl⟩ : ∃ m, k = m + 1 := ⟨k - 1, by omega⟩
              have := hn j (by omega)
              simp only at this
              simp only [exec, if_neg hm, this]
            | fuel => exact absurd rfl h1
      obtain ⟨r, h1, n, hn⟩ := hst
      simp only at hn
      cases r with
      | ok s1 =>
        obtain ⟨r2, h2, n2, hn2⟩ := ihl dirs s1 hr
        simp only at hn2
        refine ⟨r2, h2, max n n2 + 1, fun k hk => ?_⟩
        obtain ⟨j, rfl⟩ : ∃ m, k = m + 1 := ⟨k - 1, by omega⟩
        simp only [run, hn j (by omega)]
        exact hn2 j (by omega)
      | err s1 =>
        refine ⟨.err s1, by simp, n + 1, fun k hk => ?_⟩
        obtain ⟨j, rfl⟩ : ∃ m, k = m + 1 := ⟨k - 1, by omega⟩
        simp only [run, hn j (by omega)]
      | fuel => exact absurd rfl h1

/-! ### files that provide first -/

theorem run_prov (W : World) (n : Nat) (dirs : List Dir) (m : Nat) (r : List Stmt) (s : St) :
    run W n dirs (.prov m :: r) s = .fuel ∨ ∃ j, j < n ∧ run W n dirs (.prov m :: r) s = run W j dirs r (provide m s) := by
  match n with
  | 0 => left; simp [run]
  | 1 => left; simp [run, exec]
  | n + 2 => right; exact ⟨n + 1, by omega, by simp [run, exec]⟩

theorem once_first (W : World) (hW : First W) : ∀ n,
    (∀ dirs l s, FirstIn W l → Once (fun _ => 0) 1 s (run W n dirs l s)) ∧
    (∀ dirs st s, FirstIn W [st] → Once (fun _ => 0) 1 s (exec W n dirs st s)) ∧
    (∀ dirs f s, Once (fun _ => 0) 1 s (load W n dirs f s)) := by
  intro n
  induction n using Nat.strongRecOn with
  | ind n ih =>
    match n with
    | 0 => refine ⟨?_, ?_, ?_⟩ <;> intros <;> constructor <;> simp [run, exec, load, Out.state]
    | n + 1 =>
      obtain ⟨ihr, ihe, ihl⟩ := ih n (by omega)
      refine ⟨?_, ?_, ?_⟩
      · intro dirs l s hl
        cases l with
        | nil => simp only [run]; exact .quiet _ 1 s s [] _ rfl (.nil s) rfl
        | cons st r =>
          have hst : FirstIn W [st] := by
            intro m f hm; simp at hm; exact hl m f (by simp [hm])
          have hr : FirstIn W r := fun m f hm => hl m f (by simp [hm])
          have h1 := ihe dirs st s hst
          simp only [run]
          cases he : exec W n dirs st s with
          | ok s1 =>
            exact h1.seq he (ok_mods_exec W n dirs st s s1 he) (fun s' h => ok_mods W n dirs r s1 s' h)
              (ihr dirs r s1 hr)
          | err s1 => rw [he] at h1; exact h1
          | fuel => rw [he] at h1; exact h1
      · intro dirs st s hl
        cases st with
        | prov m =>
          simp only [exec]
          exact .quiet _ 1 s _ [] _ rfl (by simp [Since, provide_trace]) rfl
        | eff j => simp only [exec]; exact .quiet _ 1 s _ [.eff j] _ rfl rfl rfl
        | fail => simp only [exec]; exact .quiet _ 1 s s [] _ rfl (.nil s) rfl
        | load f => simp only [exec]; exact ihl dirs f s
        | req m f =>
          simp only [exec]
          by_cases hm : m ∈ s.mods
          · rw [if_pos hm]; exact .quiet _ 1 s s [] _ rfl (.nil s) rfl
          · rw [if_neg hm]
            have hf := hl m f (by simp)
            have hs0 : Since s (s.log (.start m)) [.start m] := rfl
            -- what the load does: the start of m is not repeated
            have key : ∀ s1, (load W n dirs f (s.log (.start m))).state = some s1 →
                ∃ evs, Since (s.log (.start m)) s1 evs ∧ (starts evs).Nodup ∧
                  (∀ x ∈ starts evs, x ≠ m ∧ x ∉ s.mods) ∧
                  (load W n dirs f (s.log (.start m)) = .ok s1 → ∀ x ∈ starts evs, x ∈ s1.mods) := by
              intro s1 h
              match n, ih, h with
              | 0, _, h => simp [load, Out.state] at h
              | j + 1, ih, h =>
                simp only [load] at h ⊢
                cases hr : resolve W dirs f with
                | none =>
                  rw [hr] at h; simp [Out.state] at h; subst h
                  exact ⟨[], .nil _, by simp [starts], by simp [starts], by simp⟩
                | some x =>
                  obtain ⟨d, e, st⟩ := x
                  obtain ⟨r, rfl⟩ := hf dirs d e st hr
                  rw [hr] at h
                  simp only at h ⊢
                  rcases run_prov W j (d :: dirs) m r ((s.log (.start m)).log (.file d f.base e)) with hp | ⟨i, hi, hp⟩
                  · rw [hp] at h; simp [Out.state] at h
                  · rw [hp] at h ⊢
                    have hfile := hW _ _ _ _ (resolve_file W dirs f d e _ hr)
                    have o := (ih i (by omega)).1 (d :: dirs) r
                      (provide m ((s.log (.start m)).log (.file d f.base e)))
                      (fun m' f' hm' => hfile m' f' (by simp [hm']))
                    obtain ⟨evs, a, b, c⟩ := o.out s1 h
                    have hsf : Since (s.log (.start m))
                        (provide m ((s.log (.start m)).log (.file d f.base e))) [.file d f.base e] := by
                      simp [Since, provide_trace, St.log]
                    refine ⟨[.file d f.base e] ++ evs, hsf.append a, ?_, ?_, ?_⟩
                    · simpa [starts] using b
                    · simp only [List.singleton_append, starts]
                      intro x hx
                      have hx' := (c x hx).2
                      refine ⟨?_, fun hh => hx' ((mem_provide m _).2 x hh)⟩
                      rintro rfl
                      exact hx' (mem_provide x _).1
                    · intro ho x hx
                      simp only [List.singleton_append, starts] at hx
                      exact o.done s1 ho evs a x hx
            have fin : ∀ s1, (load W n dirs f (s.log (.start m))).state = some s1 →
                ∃ evs, Since s s1 evs ∧ (starts evs).Nodup ∧ ∀ x ∈ starts evs, (0 : Nat) < 1 ∧ x ∉ s.mods := by
              intro s1 h
              obtain ⟨evs, a, b, c, -⟩ := key s1 h
              refine ⟨[.start m] ++ evs, hs0.append a, ?_, ?_⟩
              · simp only [List.singleton_append, starts, List.nodup_cons]
                exact ⟨fun hh => (c m hh).1 rfl, b⟩
              · simp only [List.singleton_append, starts, List.mem_cons]
                rintro x (rfl | hx)
                · exact ⟨by omega, hm⟩
                · exact ⟨by omega, (c x hx).2⟩
            cases he : load W n dirs f (s.log (.start m)) with
            | ok s1 =>
              constructor
              · intro s' h
                simp [Out.state] at h; subst h
                obtain ⟨evs, a, b, c⟩ := fin s1 (by rw [he]; rfl)
                exact ⟨evs, by unfold Since at *; rw [provide_trace]; exact a, b, c⟩
              · intro s' h evs hev x hx
                injection h with h; subst h
                obtain ⟨evs1, a, b, c, hd⟩ := key s1 (by rw [he]; rfl)
                have hev' : Since s s1 evs := by unfold Since at *; rw [provide_trace] at hev; exact hev
                rw [since_unique hev' (hs0.append a)] at hx
                simp only [List.singleton_append, starts, List.mem_cons] at hx
                rcases hx with rfl | hx
                · exact (mem_provide x s1).1
                · exact (mem_provide m s1).2 x (hd he x hx)
            | err s1 =>
              constructor
              · intro s' h; simp [Out.state] at h; subst h; exact fin s1 (by rw [he]; rfl)
              · intro s' h; simp at h
            | fuel => constructor <;> simp [Out.state]
      · intro dirs f s
        simp only [load]
        cases hr : resolve W dirs f with
        | none => exact .quiet _ 1 s s [] _ rfl (.nil s) rfl
        | some x =>
          obtain ⟨d, e, st⟩ := x
          exact Once.logged rfl (ihr (d :: dirs) st _ (hW _ _ _ _ (resolve_file W dirs f d e st hr)))

end Eus.Ldr
