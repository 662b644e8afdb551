import Verif.Ldr.Proofs
set_option autoImplicit false
namespace Eus.Ldr

/-- Files for the examples: module 1 is file `./1.l`, which requires module 2 and then has an effect;
module 2 is `./lib/2.l`, found on the load path, which loads its neighbour `3`. -/
def W1 : World where
  file := fun d b e =>
    if e = .l then
      if d = [0] ∧ b = 1 then some [.req 2 ⟨false, [], 2⟩, .eff 10]
      else if d = [7] ∧ b = 2 then some [.load ⟨false, [], 3⟩, .eff 20]
      else if d = [7] ∧ b = 3 then some [.eff 30]
      else none
    else none
  loadPath := [[0], [7]]

/-- C182.  When `require` returns, the module is in `*modules*`; when it is there before, `require`
does nothing at all. -/
theorem C182_required (W : World) (n : Nat) (dirs : List Dir) (m : Nat) (f : FName) (s : St) :
    (∀ s', exec W n dirs (.req m f) s = .ok s' → m ∈ s'.mods) ∧
    (m ∈ s.mods → exec W (n + 1) dirs (.req m f) s = .ok s) := by
  constructor
  · intro s' h
    cases n with
    | zero => simp [exec] at h
    | succ n =>
      simp only [exec] at h
      by_cases hm : m ∈ s.mods
      · rw [if_pos hm] at h; injection h with h; subst h; exact hm
      · rw [if_neg hm] at h
        cases he : load W n dirs f (s.log (.start m)) with
        | ok s1 => rw [he] at h; injection h with h; subst h; exact (mem_provide m s1).1
        | err s1 => rw [he] at h; simp at h
        | fuel => rw [he] at h; simp at h
  · intro hm; simp [exec, hm]

example : exec W1 20 [[0]] (.req 1 ⟨false, [], 1⟩) ⟨[], []⟩ =
    .ok ⟨[2, 1], [.start 1, .file [0] 1 .l, .start 2, .file [7] 2 .l, .file [7] 3 .l, .eff 30, .eff 20, .eff 10]⟩ := by
  decide +kernel

/-- C182.  Whatever is loaded and however it ends, modules are only added to `*modules*`, at its end,
and none is there twice. -/
theorem C182_kept (W : World) (n : Nat) (dirs : List Dir) (l : List Stmt) (s s' : St)
    (h : (run W n dirs l s).state = some s') :
    (∃ new, s'.mods = s.mods ++ new) ∧ (s.mods.Nodup → s'.mods.Nodup) :=
  ⟨((ext_all W n).1 dirs l s s' h).mods, ((ext_all W n).1 dirs l s s' h).nodup⟩

example : ∃ s', (run W1 20 [[0]] [.prov 5, .req 1 ⟨false, [], 1⟩, .fail] ⟨[], []⟩).state = some s' ∧
    s'.mods = [5, 2, 1] := ⟨_, rfl, by decide +kernel⟩

/-- C182.  Each module is loaded at most once: if the dependencies have no cycles, any sequence of
forms ends, begins to load no module twice and none that was there before, and if no error ends it
every module begun is there.
Partial: the dependencies must have no cycles, or (next theorem) every module file must begin with
`provide`. -/
theorem C182_once_partial (W : World) (rm : Nat → Nat) (rf : Dir → Nat → Ext → Nat) (hW : Layered W rm rf)
    (N : Nat) (dirs : List Dir) (l : List Stmt) (s : St) (hl : LayeredIn W rm rf N l) :
    (∃ r, r ≠ .fuel ∧ ∃ n, ∀ k, n ≤ k → run W k dirs l s = r) ∧
    ∀ n s', (run W n dirs l s).state = some s' → ∃ evs, Since s s' evs ∧ (starts evs).Nodup ∧
      (∀ m ∈ starts evs, m ∉ s.mods) ∧ (run W n dirs l s = .ok s' → ∀ m ∈ starts evs, m ∈ s'.mods) := by
  refine ⟨ends_run W rm rf hW N l dirs s hl, fun n s' h => ?_⟩
  have o := (once_all W rm rf hW n).1 N dirs l s hl
  obtain ⟨evs, a, b, c⟩ := o.out s' h
  exact ⟨evs, a, b, fun m hm => (c m hm).2, fun ho m hm => o.done s' ho evs a m hm⟩

theorem W1_layered : Layered W1 (fun m => if m = 1 then 3 else 1)
    (fun _ b _ => if b = 1 then 3 else if b = 2 then 1 else 0) := by
  intro d b e st h
  simp only [W1] at h
  split at h
  · split at h
    · rename_i he hb; obtain ⟨-, rfl⟩ := hb; injection h with h; subst h
      constructor
      · intro m f hm; simp at hm; obtain ⟨rfl, rfl⟩ := hm; simp
      · intro f hm; simp at hm
    · split at h
      · rename_i he _ hb; obtain ⟨-, rfl⟩ := hb; injection h with h; subst h
        constructor
        · intro m f hm; simp at hm
        · intro f hm; simp at hm; subst hm; simp
      · split at h
        · rename_i hb; injection h with h; subst h
          constructor <;> (intros; simp_all)
        · simp at h
  · simp at h

example : Layered W1 (fun m => if m = 1 then 3 else 1) (fun _ b _ => if b = 1 then 3 else if b = 2 then 1 else 0) ∧
    LayeredIn W1 (fun m => if m = 1 then 3 else 1) (fun _ b _ => if b = 1 then 3 else if b = 2 then 1 else 0) 4
      [.req 2 ⟨false, [], 2⟩, .req 1 ⟨false, [], 1⟩] := by
  refine ⟨W1_layered, ?_, ?_⟩
  · intro m f hm; simp at hm
    rcases hm with ⟨rfl, rfl⟩ | ⟨rfl, rfl⟩ <;> simp
  · intro f hm; simp at hm

/-- C182.  The same, cycles or not, when every module file begins with `provide` for its module:
no module is begun twice in whatever has happened when the forms end, normally or with an error. -/
theorem C182_first_partial (W : World) (hW : First W) (n : Nat) (dirs : List Dir) (l : List Stmt) (s s' : St)
    (hl : FirstIn W l) (h : (run W n dirs l s).state = some s') :
    ∃ evs, Since s s' evs ∧ (starts evs).Nodup ∧ (∀ m ∈ starts evs, m ∉ s.mods) ∧
      (run W n dirs l s = .ok s' → ∀ m ∈ starts evs, m ∈ s'.mods) := by
  have o := (once_first W hW n).1 dirs l s hl
  obtain ⟨evs, a, b, c⟩ := o.out s' h
  exact ⟨evs, a, b, fun m hm => (c m hm).2, fun ho m hm => o.done s' ho evs a m hm⟩

/-- Two modules that require each other and provide themselves first. -/
def W2 : World where
  file := fun d b e =>
    if e = .l ∧ d = [0] then
      if b = 1 then some [.prov 1, .req 2 ⟨false, [], 2⟩]
      else if b = 2 then some [.prov 2, .req 1 ⟨false, [], 1⟩]
      else none
    else none
  loadPath := [[0]]

theorem W2_file (d : Dir) (b : Nat) (e : Ext) (st : List Stmt) (h : W2.file d b e = some st) :
    ((b = 1 ∧ st = [.prov 1, .req 2 ⟨false, [], 2⟩]) ∨ (b = 2 ∧ st = [.prov 2, .req 1 ⟨false, [], 1⟩])) := by
  simp only [W2] at h
  split at h
  · split at h
    · rename_i hb; injection h with h; exact .inl ⟨hb, h.symm⟩
    · split at h
      · rename_i hb; injection h with h; exact .inr ⟨hb, h.symm⟩
      · simp at h
  · simp at h

example : First W2 ∧ FirstIn W2 [.req 1 ⟨false, [], 1⟩] ∧
    run W2 20 [[0]] [.req 1 ⟨false, [], 1⟩] ⟨[], []⟩ =
      .ok ⟨[1, 2], [.start 1, .file [0] 1 .l, .start 2, .file [0] 2 .l]⟩ := by
  have key : ∀ dirs (f : FName) d e st, resolve W2 dirs f = some (d, e, st) →
      (f.base = 1 → ∃ r, st = .prov 1 :: r) ∧ (f.base = 2 → ∃ r, st = .prov 2 :: r) := by
    intro dirs f d e st h
    rcases W2_file d f.base e st (resolve_file W2 dirs f d e st h) with ⟨hb, rfl⟩ | ⟨hb, rfl⟩
    · exact ⟨fun _ => ⟨_, rfl⟩, fun h => by omega⟩
    · exact ⟨fun h => by omega, fun _ => ⟨_, rfl⟩⟩
  refine ⟨?_, ?_, by decide +kernel⟩
  · intro d b e st h m f hm dirs d' e' st' hr
    rcases W2_file d b e st h with ⟨-, rfl⟩ | ⟨-, rfl⟩ <;> simp at hm <;> obtain ⟨rfl, rfl⟩ := hm
    · exact (key dirs _ d' e' st' hr).2 rfl
    · exact (key dirs _ d' e' st' hr).1 rfl
  · intro m f hm dirs d' e' st' hr
    simp at hm; obtain ⟨rfl, rfl⟩ := hm
    exact (key dirs _ d' e' st' hr).1 rfl

/-- Modules 1 and 2 require each other; module 2 provides itself first, module 1 does not. -/
def W3 : World where
  file := fun d b e =>
    if e = .l ∧ d = [0] then
      if b = 1 then some [.req 2 ⟨false, [], 2⟩, .eff 10]
      else if b = 2 then some [.prov 2, .req 1 ⟨false, [], 1⟩]
      else none
    else none
  loadPath := [[0]]

/-- The claim without conditions is wrong: in a cycle a module is loaded twice, with its effects. -/
theorem C182_cycle_wrong :
    run W3 20 [[0]] [.req 1 ⟨false, [], 1⟩] ⟨[], []⟩ =
      .ok ⟨[2, 1], [.start 1, .file [0] 1 .l, .start 2, .file [0] 2 .l, .start 1, .file [0] 1 .l, .eff 10, .eff 10]⟩ := by
  decide +kernel

/-- A module whose file requires the module itself. -/
def W4 : World where
  file := fun d b e => if e = .l ∧ d = [0] ∧ b = 1 then some [.req 1 ⟨false, [], 1⟩] else none
  loadPath := [[0]]

theorem foldl_unionStep_zero : ∀ k : Nat, (List.replicate k ([0] : Dir)).foldl unionStep [[0]] = [[0]]
  | 0 => rfl
  | k + 1 => by
    simp only [List.replicate_succ, List.foldl_cons]
    rw [show unionStep [[0]] [0] = [[0]] from rfl]
    exact foldl_unionStep_zero k

theorem W4_resolve (k : Nat) : resolve W4 (List.replicate (k + 1) [0]) ⟨false, [], 1⟩ =
    some ([0], .l, [.req 1 ⟨false, [], 1⟩]) := by
  simp only [resolve, union, List.replicate_succ, List.foldl_cons]
  rw [show unionStep [] ([0] : Dir) = [[0]] from rfl, foldl_unionStep_zero]
  decide +kernel

/-- And when no file of the cycle provides itself first, `require` never returns. -/
theorem C182_diverges_wrong (n : Nat) (k : Nat) (tr : List Ev) :
    run W4 n (List.replicate (k + 1) [0]) [.req 1 ⟨false, [], 1⟩] ⟨[], tr⟩ = .fuel := by
  induction n using Nat.strongRecOn generalizing k tr with
  | ind n ih =>
    match n with
    | 0 => rfl
    | 1 => rfl
    | 2 => simp [run, exec, load]
    | n + 3 =>
      have := ih n (by omega) (k + 1) (tr ++ [.start 1, .file [0] 1 .l])
      rw [List.replicate_succ] at this
      simp only [run, exec, load, W4_resolve, St.log]
      simp [this]

/-- A module whose loading fails is not provided: the next `require` loads it again. -/
theorem C182_failed (W : World) (n : Nat) (dirs : List Dir) (m : Nat) (f : FName) (s s' : St)
    (hm : m ∉ s.mods) (h : load W n dirs f (s.log (.start m)) = .err s') :
    exec W (n + 1) dirs (.req m f) s = .err s' := by
  simp [exec, hm, h]

example : load W1 5 [[0]] ⟨false, [], 9⟩ ((⟨[], []⟩ : St).log (.start 9)) = .err ⟨[], [.start 9]⟩ := by
  decide +kernel

/-- C183.  `load` takes the file from the first directory that has it: an absolute name is taken as it
is; another one is looked for in the directories of the files being loaded, innermost first, and then
in those of `*load-path*`; in the directory, the name as it is goes before the name with an extension,
and the extensions have an order. -/
theorem C183_search (W : World) (dirs : List Dir) (f : FName) (d : Dir) (e : Ext) (st : List Stmt) :
    resolve W dirs f = some (d, e, st) ↔
      ∃ before after, Looked W dirs f = before ++ d :: after ∧ (∀ q ∈ before, ¬ Exists W q f.base) ∧
        Takes W d f.base e st := by
  unfold resolve Looked
  by_cases ha : f.abs = true
  · rw [if_pos ha, if_pos ha, tryLoad_iff]
    constructor
    · rintro ⟨rfl, h⟩; exact ⟨[], [], rfl, by simp, h⟩
    · rintro ⟨b, a, h1, -, h3⟩
      cases b with
      | nil => simp at h1; obtain ⟨rfl, -⟩ := h1; exact ⟨rfl, h3⟩
      | cons x b => simp at h1
  · rw [if_neg ha, if_neg ha, search_union, search_iff]
    constructor
    · rintro ⟨a, p, c, h1, h2, h3⟩
      obtain ⟨rfl, h4⟩ := (tryLoad_iff W _ _ _ _ _).mp h3
      refine ⟨a.map (· ++ f.sub), c.map (· ++ f.sub), by rw [h1]; simp, ?_, h4⟩
      intro q hq
      obtain ⟨q', hq', rfl⟩ := List.mem_map.mp hq
      exact (tryLoad_none W _ _).mp (h2 q' hq')
    · rintro ⟨b, a, h1, h2, h3⟩
      obtain ⟨l1, l2, hl, rfl, h4⟩ := List.map_eq_append_iff.mp h1
      obtain ⟨p, c, rfl, rfl, rfl⟩ := List.map_eq_cons_iff.mp h4
      refine ⟨l1, p, c, hl, ?_, (tryLoad_iff W _ _ _ _ _).mpr ⟨rfl, h3⟩⟩
      intro q hq
      exact (tryLoad_none W _ _).mpr (h2 _ (List.mem_map.mpr ⟨q, hq, rfl⟩))

/-- C183.  `load` fails for want of a file exactly when none of the directories has it. -/
theorem C183_none (W : World) (dirs : List Dir) (f : FName) :
    resolve W dirs f = none ↔ ∀ q ∈ Looked W dirs f, ¬ Exists W q f.base := by
  unfold resolve Looked
  by_cases ha : f.abs = true
  · rw [if_pos ha, if_pos ha, tryLoad_none]; simp
  · rw [if_neg ha, if_neg ha, search_union, search_none]
    constructor
    · intro h q hq
      obtain ⟨q', hq', rfl⟩ := List.mem_map.mp hq
      exact (tryLoad_none W _ _).mp (h q' hq')
    · intro h q hq
      exact (tryLoad_none W _ _).mpr (h _ (List.mem_map.mpr ⟨q, hq, rfl⟩))

/-- C183.  A file that loads its neighbour by its bare name gets the neighbour, whatever the load path
has under that name. -/
theorem C183_neighbour (W : World) (n : Nat) (dirs : List Dir) (d : Dir) (b : Nat) (e : Ext) (st : List Stmt) (s : St)
    (h : Takes W d b e st) :
    load W (n + 1) (d :: dirs) ⟨false, [], b⟩ s = run W n (d :: d :: dirs) st (s.log (.file d b e)) := by
  have := (C183_search W (d :: dirs) ⟨false, [], b⟩ d e st).mpr
    ⟨[], (dirs ++ W.loadPath).map (· ++ []), by simp [Looked], by simp, h⟩
  simp only [load, this]

example : Takes W1 [7] 3 .l [.eff 30] := by
  constructor
  · decide +kernel
  · intro e' he; cases e' <;> first | (simp [Ext.num] at he; done) | decide +kernel

example : Looked W1 [[7], [0]] ⟨false, [], 3⟩ = [[7], [0], [0], [7]] := by decide +kernel

end Eus.Ldr
