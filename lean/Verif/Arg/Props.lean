import Verif.Arg.Proofs
set_option autoImplicit false
/-
C176: what a command line gives each argument, and when it is rejected.  C177: which sets of arguments can be declared.
-/
namespace Eus.Arg

theorem readOk_of (a : Argument) (h : ReadFits a) : ReadOk a := by
  intro h1 h2
  obtain ⟨k1, k2, k3, k4⟩ := h h1
  cases ha : a.action <;> simp_all [flagp, isFn]

/-- C177: declaring arguments succeeds exactly when the flags are well formed and no flag and no symbol comes twice, in one
call or in several. -/
theorem C177_declare (cs : List Call) (ds : List Decl) (h : List.Forall₂ Makes cs ds) :
    (∃ p, build {} cs = .ok p) ↔ Consistent ds := by
  constructor
  · rintro ⟨p, hp⟩; exact ((build_empty_iff cs ds p h).1 hp).1
  · intro hc; exact ⟨_, (build_empty_iff cs ds _ h).2 ⟨hc, rfl⟩⟩

/-- C177: before parsing every declared argument has its first value. -/
theorem C177_default (cs : List Call) (ds : List Decl) (h : List.Forall₂ Makes cs ds) (p : Parser) (hp : build {} cs = .ok p)
    (d : Decl) (hd : d ∈ ds) : value p d.dest = some d.arg.value := by
  obtain ⟨hc, rfl⟩ := (build_empty_iff cs ds p h).1 hp
  rw [value, look_dest ds hc d hd]; rfl

/-- C176: parsing succeeds and gives the arguments the values `val` exactly when every flag is declared, the uses of each
argument in turn take its first value to `val`, and required arguments are used. -/
theorem C176_parse (rd : Str → Option V) (cs : List Call) (ds : List Decl) (h : List.Forall₂ Makes cs ds) (p : Parser)
    (hp : build {} cs = .ok p) (hr : ∀ d ∈ ds, ReadFits d.arg) (argv : List Str) (val : Decl → V) :
    (∃ p', parse_args rd p argv = .ok p' ∧ ∀ d ∈ ds, value p' d.dest = some (val d)) ↔
      Known ds argv ∧ ∀ d ∈ ds, ∃ u, Uses d argv u ∧ Steps rd d.arg u d.arg.value (val d) ∧ (d.arg.required = true → u ≠ []) := by
  obtain ⟨hc, rfl⟩ := (build_empty_iff cs ds p h).1 hp
  exact parse_iff rd ds hc (fun d hd => readOk_of _ (hr d hd)) val argv

/-- C176: when it succeeds, every argument has a value; so `C176_parse` says when it fails. -/
theorem C176_valued (rd : Str → Option V) (cs : List Call) (ds : List Decl) (h : List.Forall₂ Makes cs ds) (p : Parser)
    (hp : build {} cs = .ok p) (hr : ∀ d ∈ ds, ReadFits d.arg) (argv : List Str) (p' : Parser) (hp' : parse_args rd p argv = .ok p') :
    ∀ d ∈ ds, ∃ v, value p' d.dest = some v := by
  obtain ⟨hc, rfl⟩ := (build_empty_iff cs ds p h).1 hp
  intro d hd
  unfold parse_args at hp'
  simp only at hp'
  split at hp'
  · simp at hp'
  · rename_i pl req hlo
    split at hp'
    · simp at hp'
    · simp only [Except.ok.injEq] at hp'
      obtain ⟨w, hw⟩ := loop_values rd _ d.arg d.dest (readOk_of _ (hr d hd)) _ _ _ _ _ d.arg.value hlo
        (by rw [look_dest ds hc d hd]; rfl)
      subst hp'
      exact ⟨w, by simp only [value, hw]; rfl⟩

/-- A use of a flag has one effect at most. -/
theorem C176_one (rd : Str → Option V) (a : Argument) (o : Option Str) (v w w' : V) (hr : ReadFits a)
    (h : Step rd a o v w) (h' : Step rd a o v w') : w = w' := by
  have k := (act_iff rd (setv a v) (setv a w) [] o (readOk_of a hr)).2 ⟨w, (step_setv _ _ _ _ _ _).2 h, rfl⟩
  have k' := (act_iff rd (setv a v) (setv a w') [] o (readOk_of a hr)).2 ⟨w', (step_setv _ _ _ _ _ _).2 h', rfl⟩
  rw [k] at k'
  simp only [Except.ok.injEq] at k'
  simpa [setv] using congrArg Argument.value k'

/-! ### Cases -/

/-- `-v` counts -/
def cCount : Call where
  flags := [[45, 45, 118, 101, 114], [45, 118]]
  dest := .first
  arg := { action := .count, const := .nil, choices := [], check := none, read := false, required := false, value := .nil }

/-- `--n=` takes a value, is required and is read -/
def cNum : Call where
  flags := [[45, 45, 110]]
  dest := .name [78, 85, 77]
  arg := { action := .store, const := .nil, choices := [.int 1, .int 2], check := none, read := true, required := true,
           value := .nil }

def dCount : Decl := ⟨cCount.flags, .key [86, 69, 82], cCount.arg⟩
def dNum : Decl := ⟨cNum.flags, .key [78, 85, 77], cNum.arg⟩

/-- A reader of one digit. -/
def rd1 : Str → Option V
  | [c] => if 48 ≤ c ∧ c ≤ 57 then some (.int ((c : Int) - 48)) else none
  | _ => none

example : List.Forall₂ Makes [cCount, cNum] [dCount, dNum] :=
  .cons ⟨rfl, ⟨.nil, .inr (.inr ⟨by simp [cCount], by simp [cCount], rfl⟩), rfl⟩, _, _, rfl, 2, [118, 101, 114], rfl, by simp, rfl⟩
    (.cons ⟨rfl, ⟨.nil, .inr (.inr ⟨by simp [cNum], by simp [cNum], rfl⟩), rfl⟩, 0, [78, 85, 77], rfl, by simp, rfl⟩ .nil)

example : ∃ p, build {} [cCount, cNum] = .ok p := ⟨_, rfl⟩

example : ∀ d ∈ [dCount, dNum], ReadFits d.arg := by
  intro d hd
  simp only [List.mem_cons, List.not_mem_nil, or_false] at hd
  rcases hd with rfl | rfl
  · intro h; cases h
  · intro _; exact ⟨by simp [dNum, cNum], by simp [dNum, cNum], by simp [dNum, cNum], by simp [dNum, cNum]⟩

/-- `-v x --n=2 --ver` -/
example : (match build {} [cCount, cNum] with
    | .ok p => match parse_args rd1 p [[45, 118], [120], [45, 45, 110, 61, 50], [45, 45, 118, 101, 114]] with
      | .ok q => [value q dCount.dest, value q dNum.dest]
      | _ => []
    | _ => []) = [some (.int 2), some (.int 2)] := by decide +kernel

/-- The outcome, without the parser. -/
def outcome (rd : Str → Option V) (cs : List Call) (argv : List Str) : Option Err :=
  match build {} cs with
  | .ok p => match parse_args rd p argv with
    | .ok _ => none
    | .error e => some e
  | .error e => some e

/-- Left out, not one of the choices, not declared, with a value too many and one too few. -/
example : [outcome rd1 [cCount, cNum] [], outcome rd1 [cCount, cNum] [[45, 45, 110, 61, 51]], outcome rd1 [cCount, cNum] [[45, 119]],
      outcome rd1 [cCount, cNum] [[45, 118, 61]], outcome rd1 [cCount, cNum] [[45, 45, 110]]] =
    [some (.required dNum.dest), some (.choice (.int 3)), some (.unknown [45, 119]), some (.noArg [45, 118, 61]),
      some (.noValue [45, 45, 110])] := by decide +kernel

/-- Twice the same flag. -/
example : outcome rd1 [cCount, { cCount with dest := .gensym 0 }] [] = some .twice := by decide +kernel

/-- With `:read` and `:count` (or `:store-true`, ...) the flag cannot be used: the value it stores is read. -/
theorem C176_read_wrong (rd : Str → Option V) (a : Argument) (hr : a.read = true) (ha : a.action = .count ∨ a.action = .storeTrue)
    (hv : a.value = .nil) (flag : Str) : act rd a flag none = .error .lisp := by
  rcases ha with ha | ha <;> simp [act, ha, flagp, store, readVal, isFn, hr, hv, plus1]

example : outcome rd1 [{ cCount with arg := { cCount.arg with read := true } }] [[45, 118]] = some .lisp := by decide +kernel

/-- A negative number on its own is taken for a flag. -/
theorem C176_negative_wrong (cs : List Call) (ds : List Decl) (h : List.Forall₂ Makes cs ds) (p : Parser)
    (hp : build {} cs = .ok p) (hr : ∀ d ∈ ds, ReadFits d.arg) (hn : ∀ d ∈ ds, [45, 53] ∉ d.flags) (rd : Str → Option V)
    (argv : List Str) (hm : [45, 53] ∈ argv) : ∃ e, parse_args rd p argv = .error e := by
  cases hx : parse_args rd p argv with
  | error e => exact ⟨e, rfl⟩
  | ok q =>
    have hv := C176_valued rd cs ds h p hp hr argv q hx
    have hk := ((C176_parse rd cs ds h p hp hr argv (fun d => (value q d.dest).getD .nil)).1
      ⟨q, hx, fun d hd => by obtain ⟨v, hv⟩ := hv d hd; rw [hv]; rfl⟩).1
    obtain ⟨d, hd, n, v, hs, hnd⟩ := hk _ hm ⟨⟨_, rfl⟩, 53, by simp, by simp⟩
    obtain ⟨rfl, rfl⟩ := splits_unique hs (show Splits [45, 53] [45, 53] none from ⟨by simp, .inl ⟨rfl, rfl⟩⟩)
    exact absurd hnd (hn d hd)

example : ∀ d ∈ [dCount, dNum], [45, 53] ∉ d.flags := by
  intro d hd
  simp only [List.mem_cons, List.not_mem_nil, or_false] at hd
  rcases hd with rfl | rfl <;> decide

end Eus.Arg
