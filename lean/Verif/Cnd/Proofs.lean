import Verif.Cnd.Spec
set_option autoImplicit false
namespace Eus.Cnd

variable {σ : Type}

/-- The outcome for a meaning. -/
def res (m : Option (O × σ)) (rest : List Tok) : R σ :=
  match m with
  | some (o, s') => .ok o rest s'
  | none => .err

mutual
def FE.obj : FE → O
  | .sym k => .sym k
  | .not f => .cons QNOT (.cons f.obj NIL)
  | .and l => .cons QAND l.obj
  | .or l => .cons QOR l.obj
def FEs.obj : FEs → O
  | .nil => NIL
  | .cons f l => .cons f.obj l.obj
end

theorem FE.obj_ne (f : FE) : f.obj ≠ .unb ∧ f.obj ≠ .eof := by
  cases f <;> simp [FE.obj]

def yn (b : Bool) : C := if b then .yes else .no

mutual
theorem evalCond_obj (fs : List Nat) : ∀ f : FE, evalCond fs f.obj = yn (f.holds fs)
  | .sym k => by
    by_cases h : k ∈ fs <;> simp [FE.obj, evalCond, FE.holds, yn, h]
  | .not f => by
    have := evalCond_obj fs f
    simp only [FE.obj, QNOT, evalCond, evalNot, FE.holds, this]
    cases f.holds fs <;> simp [yn]
  | .and l => by
    simp only [FE.obj, QAND, evalCond, FE.holds]; exact evalAnd_obj fs l
  | .or l => by
    simp only [FE.obj, QOR, evalCond, FE.holds]; exact evalOr_obj fs l
theorem evalAnd_obj (fs : List Nat) : ∀ l : FEs, evalAnd fs l.obj = yn (l.all fs)
  | .nil => by simp [FEs.obj, NIL, evalAnd, FEs.all, yn]
  | .cons f l => by
    have h1 := evalCond_obj fs f
    have h2 := evalAnd_obj fs l
    simp only [FEs.obj, evalAnd, FEs.all, h1, h2]
    cases f.holds fs <;> simp [yn]
theorem evalOr_obj (fs : List Nat) : ∀ l : FEs, evalOr fs l.obj = yn (l.any fs)
  | .nil => by simp [FEs.obj, NIL, evalOr, FEs.any, yn]
  | .cons f l => by
    have h1 := evalCond_obj fs f
    have h2 := evalOr_obj fs l
    simp only [FEs.obj, evalOr, FEs.any, h1, h2]
    cases f.holds fs <;> simp [yn]
end

/-- A token an expression can begin with. -/
def Tok.starts : Tok → Bool
  | .lineC | .rp | .dot => false
  | _ => true

theorem readList_el (W : World σ) (n : Nat) (hd : Tok) (t : List Tok) (s : σ) (h : hd.starts = true) :
    readList W (n + 1) (hd :: t) s =
      match read1 W n (hd :: t) s with
      | .ok e t'' s' => match readList W n t'' s' with
        | .ok l t3 s'' => .ok (if e = .unb ∨ e = .eof then l else .cons e l) t3 s''
        | r => r
      | r => r := by
  cases hd <;> first | (simp [Tok.starts] at h; done) | (simp only [readList, nextch]; rfl) | rfl

theorem readVec_el (W : World σ) (n : Nat) (hd : Tok) (t : List Tok) (s : σ) (h : hd.starts = true) :
    readVec W (n + 1) (hd :: t) s =
      match read1 W n (hd :: t) s with
      | .ok e t'' s' => match readVec W n t'' s' with
        | .ok l t3 s'' => .ok (.cons e l) t3 s''
        | r => r
      | r => r := by
  cases hd <;> first | (simp [Tok.starts] at h; done) | (simp only [readVec, nextch]; rfl) | rfl

theorem FE.text_starts (f : FE) : ∃ hd tl, f.text = hd :: tl ∧ hd.starts = true := by
  cases f <;> simp [FE.text, Tok.starts]

theorem Src.text_starts (x : Src) : ∃ hd tl, x.text = hd :: tl ∧ hd.starts = true := by
  cases x <;> simp [Src.text, Tok.starts]

/-- One element at the front of a list. -/
theorem readList_app (W : World σ) (n : Nat) (a b : List Tok) (s : σ)
    (h : ∃ hd tl, a = hd :: tl ∧ hd.starts = true) :
    readList W (n + 1) (a ++ b) s =
      match read1 W n (a ++ b) s with
      | .ok e t'' s' => match readList W n t'' s' with
        | .ok l t3 s'' => .ok (if e = .unb ∨ e = .eof then l else .cons e l) t3 s''
        | r => r
      | r => r := by
  obtain ⟨hd, tl, rfl, h⟩ := h
  exact readList_el W n hd (tl ++ b) s h

theorem readVec_app (W : World σ) (n : Nat) (a b : List Tok) (s : σ)
    (h : ∃ hd tl, a = hd :: tl ∧ hd.starts = true) :
    readVec W (n + 1) (a ++ b) s =
      match read1 W n (a ++ b) s with
      | .ok e t'' s' => match readVec W n t'' s' with
        | .ok l t3 s'' => .ok (.cons e l) t3 s''
        | r => r
      | r => r := by
  obtain ⟨hd, tl, rfl, h⟩ := h
  exact readVec_el W n hd (tl ++ b) s h

mutual
theorem read1_fe (W : World σ) : ∀ (f : FE) (n : Nat) (rest : List Tok) (s : σ),
    2 * f.text.length ≤ n → read1 W n (f.text ++ rest) s = .ok f.obj rest s
  | .sym k, 0, rest, s, h => by simp [FE.text] at h
  | .sym k, n + 1, rest, s, h => by simp [FE.text, read1, FE.obj]
  | .not f, n, rest, s, h => by
    simp only [FE.text, List.length_append, List.length_cons, List.length_nil] at h
    obtain ⟨m, rfl⟩ : ∃ m, n = m + 4 := ⟨n - 4, by omega⟩
    have ih := read1_fe W f (m + 1) (.rp :: rest) s (by omega)
    simp only [FE.text, List.append_assoc, List.cons_append, List.nil_append, read1]
    rw [readList_el W (m + 2) _ _ s rfl]
    simp only [read1]
    rw [readList_app W (m + 1) f.text (.rp :: rest) s f.text_starts, ih]
    simp [readList, nextch, FE.obj, QNOT, f.obj_ne]
  | .and l, n, rest, s, h => by
    simp only [FE.text, List.length_append, List.length_cons, List.length_nil] at h
    obtain ⟨m, rfl⟩ : ∃ m, n = m + 4 := ⟨n - 4, by omega⟩
    have ih := readList_fe W l (m + 2) rest s (by omega)
    simp only [FE.text, List.append_assoc, List.cons_append, List.nil_append, read1]
    rw [readList_el W (m + 2) _ _ s rfl]
    simp only [read1, ih, FE.obj, QAND]
    simp
  | .or l, n, rest, s, h => by
    simp only [FE.text, List.length_append, List.length_cons, List.length_nil] at h
    obtain ⟨m, rfl⟩ : ∃ m, n = m + 4 := ⟨n - 4, by omega⟩
    have ih := readList_fe W l (m + 2) rest s (by omega)
    simp only [FE.text, List.append_assoc, List.cons_append, List.nil_append, read1]
    rw [readList_el W (m + 2) _ _ s rfl]
    simp only [read1, ih, FE.obj, QOR]
    simp
theorem readList_fe (W : World σ) : ∀ (l : FEs) (n : Nat) (rest : List Tok) (s : σ),
    2 * l.text.length + 1 ≤ n → readList W n (l.text ++ .rp :: rest) s = .ok l.obj rest s
  | .nil, 0, rest, s, h => by simp at h
  | .nil, n + 1, rest, s, h => by simp [FEs.text, readList, nextch, FEs.obj]
  | .cons f l, n, rest, s, h => by
    obtain ⟨hd, tl, hf, -⟩ := f.text_starts
    have hp : 1 ≤ f.text.length := by rw [hf]; simp
    simp only [FEs.text, List.length_append] at h
    obtain ⟨m, rfl⟩ : ∃ m, n = m + 1 := ⟨n - 1, by omega⟩
    have ih := read1_fe W f m (l.text ++ .rp :: rest) s (by omega)
    have ih2 := readList_fe W l m rest s (by omega)
    simp only [FEs.text, List.append_assoc]
    rw [readList_app W m f.text _ s f.text_starts, ih]
    simp only [ih2, FEs.obj]
    simp [f.obj_ne]
end

mutual
theorem Src.mean_ok (W : World σ) (hW : Steady W) : ∀ (x : Src) (s s' : σ) (o : O),
    x.mean W s = some (o, s') → W.features s' = W.features s ∧ o ≠ .unb ∧ o ≠ .eof
  | .sym k, s, s', o, h => by simp [Src.mean] at h; obtain ⟨rfl, rfl⟩ := h; simp
  | .oth k, s, s', o, h => by simp [Src.mean] at h; obtain ⟨rfl, rfl⟩ := h; simp
  | .quote x, s, s', o, h => by
    simp only [Src.mean] at h
    cases hx : x.mean W s with
    | none => simp [hx] at h
    | some p => obtain ⟨o1, s1⟩ := p
                have := Src.mean_ok W hW x s s1 o1 hx
                simp [hx] at h; obtain ⟨rfl, rfl⟩ := h; simp [this.1]
  | .fn x, s, s', o, h => by
    simp only [Src.mean] at h
    cases hx : x.mean W s with
    | none => simp [hx] at h
    | some p => obtain ⟨o1, s1⟩ := p
                have := Src.mean_ok W hW x s s1 o1 hx
                simp [hx] at h; obtain ⟨rfl, rfl⟩ := h; simp [this.1]
  | .ev x, s, s', o, h => by
    simp only [Src.mean] at h
    cases hx : x.mean W s with
    | none => simp [hx] at h
    | some p => obtain ⟨o1, s1⟩ := p
                have := Src.mean_ok W hW x s s1 o1 hx
                simp only [hx] at h
                exact ⟨by rw [hW.features _ _ _ _ h, this.1], hW.value _ _ _ _ h⟩
  | .list l, s, s', o, h => by
    simp only [Src.mean] at h; exact Items.mean_ok W hW l s s' o h
  | .vec l, s, s', o, h => by
    simp only [Src.mean] at h
    cases hx : l.mean W s with
    | none => simp [hx] at h
    | some p => obtain ⟨o1, s1⟩ := p
                have := Els.mean_ok W hW l s s1 o1 hx
                simp [hx] at h; obtain ⟨rfl, rfl⟩ := h; simp [this]
theorem Items.mean_ok (W : World σ) (hW : Steady W) : ∀ (l : Items) (s s' : σ) (o : O),
    l.mean W s = some (o, s') → W.features s' = W.features s ∧ o ≠ .unb ∧ o ≠ .eof
  | .nil, s, s', o, h => by simp [Items.mean] at h; obtain ⟨rfl, rfl⟩ := h; simp
  | .tail x c, s, s', o, h => by simp only [Items.mean] at h; exact Src.mean_ok W hW x s s' o h
  | .el x l, s, s', o, h => by
    simp only [Items.mean] at h
    cases hx : x.mean W s with
    | none => simp [hx] at h
    | some p => obtain ⟨o1, s1⟩ := p
                have i1 := Src.mean_ok W hW x s s1 o1 hx
                simp only [hx] at h
                cases hl : l.mean W s1 with
                | none => simp [hl] at h
                | some p => obtain ⟨o2, s2⟩ := p
                            have i2 := Items.mean_ok W hW l s1 s2 o2 hl
                            simp [hl] at h; obtain ⟨rfl, rfl⟩ := h; simp [i2.1, i1.1]
  | .lineC l, s, s', o, h => by simp only [Items.mean] at h; exact Items.mean_ok W hW l s s' o h
  | .blockC l, s, s', o, h => by simp only [Items.mean] at h; exact Items.mean_ok W hW l s s' o h
  | .cond p f x l, s, s', o, h => by
    simp only [Items.mean] at h
    by_cases hc : f.holds (W.features s) = p
    · rw [if_pos hc] at h
      cases hx : x.mean W s with
      | none => simp [hx] at h
      | some q => obtain ⟨o1, s1⟩ := q
                  have i1 := Src.mean_ok W hW x s s1 o1 hx
                  simp only [hx] at h
                  cases hl : l.mean W s1 with
                  | none => simp [hl] at h
                  | some q => obtain ⟨o2, s2⟩ := q
                              have i2 := Items.mean_ok W hW l s1 s2 o2 hl
                              simp [hl] at h; obtain ⟨rfl, rfl⟩ := h; simp [i2.1, i1.1]
    · rw [if_neg hc] at h; exact Items.mean_ok W hW l s s' o h
theorem Els.mean_ok (W : World σ) (hW : Steady W) : ∀ (l : Els) (s s' : σ) (o : O),
    l.mean W s = some (o, s') → W.features s' = W.features s
  | .nil, s, s', o, h => by simp [Els.mean] at h; obtain ⟨rfl, rfl⟩ := h; simp
  | .el x l, s, s', o, h => by
    simp only [Els.mean] at h
    cases hx : x.mean W s with
    | none => simp [hx] at h
    | some p => obtain ⟨o1, s1⟩ := p
                have i1 := Src.mean_ok W hW x s s1 o1 hx
                simp only [hx] at h
                cases hl : l.mean W s1 with
                | none => simp [hl] at h
                | some p => obtain ⟨o2, s2⟩ := p
                            have i2 := Els.mean_ok W hW l s1 s2 o2 hl
                            simp [hl] at h; obtain ⟨rfl, rfl⟩ := h; simp [i2, i1.1]
  | .lineC l, s, s', o, h => by simp only [Els.mean] at h; exact Els.mean_ok W hW l s s' o h
end

mutual
theorem Src.plain_ok (W : World σ) (s : σ) : ∀ (x : Src), x.plain →
    (∃ o, x.mean W s = some (o, s)) ∧ ∀ fs, x.quiet fs
  | .sym k, _ => by simp [Src.mean, Src.quiet]
  | .oth k, _ => by simp [Src.mean, Src.quiet]
  | .quote x, h => by
    obtain ⟨⟨o, e⟩, q⟩ := Src.plain_ok W s x (by simpa [Src.plain] using h)
    exact ⟨⟨_, by simp only [Src.mean, e]; rfl⟩, fun fs => by simpa [Src.quiet] using q fs⟩
  | .fn x, h => by
    obtain ⟨⟨o, e⟩, q⟩ := Src.plain_ok W s x (by simpa [Src.plain] using h)
    exact ⟨⟨_, by simp only [Src.mean, e]; rfl⟩, fun fs => by simpa [Src.quiet] using q fs⟩
  | .ev x, h => by simp [Src.plain] at h
  | .list l, h => by
    obtain ⟨⟨o, e⟩, q⟩ := Items.plain_ok W s l (by simpa [Src.plain] using h)
    exact ⟨⟨o, by simp only [Src.mean, e]⟩, fun fs => by simpa [Src.quiet] using q fs⟩
  | .vec l, h => by
    obtain ⟨⟨o, e⟩, q⟩ := Els.plain_ok W s l (by simpa [Src.plain] using h)
    exact ⟨⟨_, by simp only [Src.mean, e]; rfl⟩, fun fs => by simpa [Src.quiet] using q fs⟩
theorem Items.plain_ok (W : World σ) (s : σ) : ∀ (x : Items), x.plain →
    (∃ o, x.mean W s = some (o, s)) ∧ ∀ fs, x.quiet fs
  | .nil, _ => by simp [Items.mean, Items.quiet]
  | .tail x c, h => by
    obtain ⟨⟨o, e⟩, q⟩ := Src.plain_ok W s x (by simpa [Items.plain] using h)
    exact ⟨⟨o, by simp only [Items.mean, e]⟩, fun fs => by simpa [Items.quiet] using q fs⟩
  | .el x l, h => by
    simp only [Items.plain] at h
    obtain ⟨⟨o, e⟩, q⟩ := Src.plain_ok W s x h.1
    obtain ⟨⟨o2, e2⟩, q2⟩ := Items.plain_ok W s l h.2
    exact ⟨⟨_, by simp only [Items.mean, e, e2]; rfl⟩, fun fs => by simpa [Items.quiet] using ⟨q fs, q2 fs⟩⟩
  | .lineC l, h => by
    obtain ⟨⟨o, e⟩, q⟩ := Items.plain_ok W s l (by simpa [Items.plain] using h)
    exact ⟨⟨o, by simp only [Items.mean, e]⟩, fun fs => by simpa [Items.quiet] using q fs⟩
  | .blockC l, h => by
    obtain ⟨⟨o, e⟩, q⟩ := Items.plain_ok W s l (by simpa [Items.plain] using h)
    exact ⟨⟨o, by simp only [Items.mean, e]⟩, fun fs => by simpa [Items.quiet] using q fs⟩
  | .cond p f x l, h => by
    simp only [Items.plain] at h
    obtain ⟨⟨o, e⟩, q⟩ := Src.plain_ok W s x h.1
    obtain ⟨⟨o2, e2⟩, q2⟩ := Items.plain_ok W s l h.2
    refine ⟨?_, fun fs => ?_⟩
    · by_cases hc : f.holds (W.features s) = p
      · exact ⟨_, by simp only [Items.mean, if_pos hc, e, e2]; rfl⟩
      · exact ⟨o2, by simp only [Items.mean, if_neg hc, e2]⟩
    · simp only [Items.quiet]
      refine ⟨?_, q2 fs⟩
      by_cases hc : f.holds fs = p
      · rw [if_pos hc]; exact q fs
      · rw [if_neg hc]; exact h.1
theorem Els.plain_ok (W : World σ) (s : σ) : ∀ (x : Els), x.plain →
    (∃ o, x.mean W s = some (o, s)) ∧ ∀ fs, x.quiet fs
  | .nil, _ => by simp [Els.mean, Els.quiet]
  | .el x l, h => by
    simp only [Els.plain] at h
    obtain ⟨⟨o, e⟩, q⟩ := Src.plain_ok W s x h.1
    obtain ⟨⟨o2, e2⟩, q2⟩ := Els.plain_ok W s l h.2
    exact ⟨⟨_, by simp only [Els.mean, e, e2]; rfl⟩, fun fs => by simpa [Els.quiet] using ⟨q fs, q2 fs⟩⟩
  | .lineC l, h => by
    obtain ⟨⟨o, e⟩, q⟩ := Els.plain_ok W s l (by simpa [Els.plain] using h)
    exact ⟨⟨o, by simp only [Els.mean, e]⟩, fun fs => by simpa [Els.quiet] using q fs⟩
end

theorem nextch_lines (c : Nat) (t : List Tok) :
    nextch (List.replicate c .lineC ++ t) = nextch t := by
  induction c with
  | zero => rfl
  | succ c ih => simpa [List.replicate_succ, nextch] using ih

theorem readList_line (W : World σ) (n : Nat) (t : List Tok) (s : σ) :
    readList W n (.lineC :: t) s = readList W n t s := by
  cases n with
  | zero => simp [readList]
  | succ n => simp only [readList, nextch]

theorem readVec_line (W : World σ) (n : Nat) (t : List Tok) (s : σ) :
    readVec W n (.lineC :: t) s = readVec W n t s := by
  cases n with
  | zero => simp [readVec]
  | succ n => simp only [readVec, nextch]

/-- A list without a dotted end. -/
def Items.noTail : Items → Prop
  | .nil => True
  | .tail _ _ => False
  | .el _ l | .lineC l | .blockC l | .cond _ _ _ l => l.noTail

theorem condEnd_fe (W : World σ) (p : Bool) (f : FE) (o : O) (rest : List Tok) (s : σ) :
    condEnd W p f.obj o rest s = .ok (if f.holds (W.features s) = p then o else .unb) rest s := by
  simp only [condEnd, evalCond_obj]
  cases f.holds (W.features s) <;> cases p <;> simp [yn]

theorem Src.len_pos (x : Src) : 1 ≤ x.text.length := by
  obtain ⟨hd, tl, h, -⟩ := x.text_starts; rw [h]; simp

theorem FE.len_pos (x : FE) : 1 ≤ x.text.length := by
  obtain ⟨hd, tl, h, -⟩ := x.text_starts; rw [h]; simp

mutual
theorem read1_src (W : World σ) (hW : Steady W) : ∀ (x : Src) (n : Nat) (rest : List Tok) (s : σ),
    2 * x.text.length ≤ n → x.quiet (W.features s) →
    read1 W n (x.text ++ rest) s = res (x.mean W s) rest
  | .sym k, n, rest, s, h, _ => by
    obtain ⟨m, rfl⟩ : ∃ m, n = m + 1 := ⟨n - 1, by simp [Src.text] at h; omega⟩
    simp [Src.text, read1, Src.mean, res]
  | .oth k, n, rest, s, h, _ => by
    obtain ⟨m, rfl⟩ : ∃ m, n = m + 1 := ⟨n - 1, by simp [Src.text] at h; omega⟩
    simp [Src.text, read1, Src.mean, res]
  | .quote x, n, rest, s, h, q => by
    simp only [Src.text, List.length_cons] at h
    simp only [Src.quiet] at q
    obtain ⟨m, rfl⟩ : ∃ m, n = m + 1 := ⟨n - 1, by omega⟩
    have ih := read1_src W hW x m rest s (by omega) q
    simp only [Src.text, List.cons_append, read1, ih, Src.mean]
    cases hx : x.mean W s with
    | none => simp [res]
    | some p => obtain ⟨o, s'⟩ := p
                have := Src.mean_ok W hW x s s' o hx
                simp [res, this.2.2, QUOTE, NIL]
  | .fn x, n, rest, s, h, q => by
    simp only [Src.text, List.length_cons] at h
    simp only [Src.quiet] at q
    obtain ⟨m, rfl⟩ : ∃ m, n = m + 1 := ⟨n - 1, by omega⟩
    have ih := read1_src W hW x m rest s (by omega) q
    simp only [Src.text, List.cons_append, read1, ih, Src.mean]
    cases hx : x.mean W s with
    | none => simp [res]
    | some p => simp [res, FUNCTION, NIL]
  | .ev x, n, rest, s, h, q => by
    simp only [Src.text, List.length_cons] at h
    simp only [Src.quiet] at q
    obtain ⟨m, rfl⟩ : ∃ m, n = m + 1 := ⟨n - 1, by omega⟩
    have ih := read1_src W hW x m rest s (by omega) q
    simp only [Src.text, List.cons_append, read1, ih, Src.mean]
    cases hx : x.mean W s with
    | none => simp [res]
    | some p => obtain ⟨o, s'⟩ := p
                have := Src.mean_ok W hW x s s' o hx
                simp only [res, evEnd, if_neg this.2.1]
                cases W.eval o s' <;> rfl
  | .list l, n, rest, s, h, q => by
    simp only [Src.text, List.length_cons, List.length_append, List.length_nil] at h
    simp only [Src.quiet] at q
    obtain ⟨m, rfl⟩ : ∃ m, n = m + 1 := ⟨n - 1, by omega⟩
    have ih := readList_items W hW l m (.rp :: rest) rest s (by omega) q (.inl rfl)
    simp only [Src.text, List.cons_append, List.append_assoc, List.nil_append, read1, ih, Src.mean]
  | .vec l, n, rest, s, h, q => by
    simp only [Src.text, List.length_cons, List.length_append, List.length_nil] at h
    simp only [Src.quiet] at q
    obtain ⟨m, rfl⟩ : ∃ m, n = m + 1 := ⟨n - 1, by omega⟩
    have ih := readVec_els W hW l m rest s (by omega) q
    simp only [Src.text, List.cons_append, List.append_assoc, List.nil_append, read1, ih, Src.mean]
    cases l.mean W s <;> rfl
theorem readList_items (W : World σ) (hW : Steady W) : ∀ (l : Items) (n : Nat) (cl rest : List Tok) (s : σ),
    2 * l.text.length + 1 ≤ n → l.quiet (W.features s) →
    (cl = .rp :: rest ∨ (cl = [] ∧ rest = [] ∧ l.noTail)) →
    readList W n (l.text ++ cl) s = res (l.mean W s) rest
  | .nil, n, cl, rest, s, h, _, hc => by
    obtain ⟨m, rfl⟩ : ∃ m, n = m + 1 := ⟨n - 1, by omega⟩
    rcases hc with rfl | ⟨rfl, rfl, -⟩ <;> simp [Items.text, readList, nextch, Items.mean, res, NIL]
  | .tail x c, n, cl, rest, s, h, q, hc => by
    rcases hc with rfl | ⟨-, -, hc⟩
    · simp only [Items.text, List.length_cons, List.length_append] at h
      simp only [Items.quiet] at q
      obtain ⟨m, rfl⟩ : ∃ m, n = m + 1 := ⟨n - 1, by omega⟩
      have ih := read1_src W hW x m (List.replicate c .lineC ++ .rp :: rest) s (by omega) q
      simp only [Items.text, List.cons_append, List.append_assoc, readList, nextch, ih, Items.mean]
      cases hx : x.mean W s with
      | none => simp [res]
      | some p => simp [res, nextch_lines, nextch]
    · exact hc.elim
  | .el x l, n, cl, rest, s, h, q, hc => by
    have hp := x.len_pos
    simp only [Items.text, List.length_append] at h
    simp only [Items.quiet] at q
    obtain ⟨m, rfl⟩ : ∃ m, n = m + 1 := ⟨n - 1, by omega⟩
    have ih := read1_src W hW x m (l.text ++ cl) s (by omega) q.1
    simp only [Items.text, List.append_assoc, Items.mean]
    rw [readList_app W m x.text _ s x.text_starts, ih]
    cases hx : x.mean W s with
    | none => simp [res]
    | some p =>
      obtain ⟨o, s'⟩ := p
      have hk := Src.mean_ok W hW x s s' o hx
      have ih2 := readList_items W hW l m cl rest s' (by omega) (by rw [hk.1]; exact q.2)
        (by simpa [Items.noTail] using hc)
      simp only [res, ih2]
      cases l.mean W s' with
      | none => rfl
      | some p => simp [res, hk.2]
  | .lineC l, n, cl, rest, s, h, q, hc => by
    simp only [Items.text, List.length_cons] at h
    simp only [Items.quiet] at q
    simp only [Items.text, List.cons_append, Items.mean, readList_line]
    exact readList_items W hW l n cl rest s (by omega) q (by simpa [Items.noTail] using hc)
  | .blockC l, n, cl, rest, s, h, q, hc => by
    simp only [Items.text, List.length_cons] at h
    simp only [Items.quiet] at q
    obtain ⟨m, rfl⟩ : ∃ m, n = m + 2 := ⟨n - 2, by omega⟩
    have ih := readList_items W hW l (m + 1) cl rest s (by omega) q (by simpa [Items.noTail] using hc)
    simp only [Items.text, List.cons_append, Items.mean]
    rw [readList_el W (m + 1) _ _ s rfl]
    simp only [read1, ih]
    cases l.mean W s <;> simp [res]
  | .cond p f x l, n, cl, rest, s, h, q, hc => by
    have hp := x.len_pos
    have hf := f.len_pos
    simp only [Items.text, List.length_cons, List.length_append] at h
    simp only [Items.quiet] at q
    obtain ⟨m, rfl⟩ : ∃ m, n = m + 2 := ⟨n - 2, by omega⟩
    have i1 := read1_fe W f m (x.text ++ (l.text ++ cl)) s (by omega)
    have qx : x.quiet (W.features s) := by
      by_cases hc : f.holds (W.features s) = p
      · have := q.1; rwa [if_pos hc] at this
      · have := q.1; rw [if_neg hc] at this; exact (Src.plain_ok W s x this).2 _
    have i2 := read1_src W hW x m (l.text ++ cl) s (by omega) qx
    have key : read1 W (m + 1) ((if p then Tok.plus else Tok.minus) :: (f.text ++ (x.text ++ (l.text ++ cl)))) s =
        match x.mean W s with
        | none => .err
        | some (o, s') => .ok (if f.holds (W.features s) = p then o else .unb) (l.text ++ cl) s' := by
      cases p <;> simp only [read1, i1, i2, if_true] <;> (
        cases hx : x.mean W s with
        | none => simp [res, read1, i1, i2, hx]
        | some q => obtain ⟨o, s'⟩ := q
                    have hk := Src.mean_ok W hW x s s' o hx
                    simp [res, read1, i1, i2, hx, condEnd_fe, hk.1])
    have hst : (if p then Tok.plus else Tok.minus).starts = true := by cases p <;> rfl
    simp only [Items.text, List.cons_append, List.append_assoc, Items.mean]
    rw [readList_el W (m + 1) _ _ s hst, key]
    by_cases hh : f.holds (W.features s) = p
    · simp only [if_pos hh]
      cases hx : x.mean W s with
      | none => simp [res]
      | some q1 =>
        obtain ⟨o, s'⟩ := q1
        have hk := Src.mean_ok W hW x s s' o hx
        have ih2 := readList_items W hW l (m + 1) cl rest s' (by omega) (by rw [hk.1]; exact q.2)
          (by simpa [Items.noTail] using hc)
        simp only [ih2]
        cases l.mean W s' with
        | none => rfl
        | some p => simp [res, hk.2]
    · have hpl := q.1
      rw [if_neg hh] at hpl
      obtain ⟨⟨o, ho⟩, -⟩ := Src.plain_ok W s x hpl
      have ih2 := readList_items W hW l (m + 1) cl rest s (by omega) q.2 (by simpa [Items.noTail] using hc)
      simp only [if_neg hh, ho, ih2]
      cases l.mean W s <;> simp [res]
theorem readVec_els (W : World σ) (hW : Steady W) : ∀ (l : Els) (n : Nat) (rest : List Tok) (s : σ),
    2 * l.text.length + 1 ≤ n → l.quiet (W.features s) →
    readVec W n (l.text ++ .rp :: rest) s = res (l.mean W s) rest
  | .nil, n, rest, s, h, _ => by
    obtain ⟨m, rfl⟩ : ∃ m, n = m + 1 := ⟨n - 1, by omega⟩
    simp [Els.text, readVec, nextch, Els.mean, res, NIL]
  | .el x l, n, rest, s, h, q => by
    have hp := x.len_pos
    simp only [Els.text, List.length_append] at h
    simp only [Els.quiet] at q
    obtain ⟨m, rfl⟩ : ∃ m, n = m + 1 := ⟨n - 1, by omega⟩
    have ih := read1_src W hW x m (l.text ++ .rp :: rest) s (by omega) q.1
    simp only [Els.text, List.append_assoc, Els.mean]
    rw [readVec_app W m x.text _ s x.text_starts, ih]
    cases hx : x.mean W s with
    | none => simp [res]
    | some p =>
      obtain ⟨o, s'⟩ := p
      have hk := Src.mean_ok W hW x s s' o hx
      have ih2 := readVec_els W hW l m rest s' (by omega) (by rw [hk.1]; exact q.2)
      simp only [res, ih2]
      cases l.mean W s' with
      | none => rfl
      | some p => simp [res]
  | .lineC l, n, rest, s, h, q => by
    simp only [Els.text, List.length_cons] at h
    simp only [Els.quiet] at q
    simp only [Els.text, List.cons_append, Els.mean, readVec_line]
    exact readVec_els W hW l n rest s (by omega) q
end

theorem skipTop_starts (a b : List Tok) (h : ∃ hd tl, a = hd :: tl ∧ (hd.starts = true ∨ hd = .dot)) :
    skipTop (a ++ b) = a ++ b := by
  obtain ⟨hd, tl, rfl, h⟩ := h
  cases hd <;> simp_all [Tok.starts, skipTop]

end Eus.Cnd
