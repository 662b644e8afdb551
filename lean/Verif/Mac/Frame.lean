import Verif.Mac.Eval
set_option autoImplicit false
/-! A form that does not mention a variable neither depends on it nor changes it. -/
namespace Eus.Mac

mutual
/-- The symbol `y` does not occur in the form (neither as a variable nor as a tag). -/
def Fr (y : Name) : Tm → Prop
  | .const _ => True
  | .var x => x ≠ y
  | .setq x e => x ≠ y ∧ Fr y e
  | .call1 _ e => Fr y e
  | .call2 _ a b => Fr y a ∧ Fr y b
  | .ext _ e => Fr y e
  | .progn a b => Fr y a ∧ Fr y b
  | .ite c a b => Fr y c ∧ Fr y a ∧ Fr y b
  | .letp bs b => FrB y bs ∧ Fr y b
  | .lets bs b => FrB y bs ∧ Fr y b
  | .block _ b => Fr y b
  | .ret _ e => Fr y e
  | .loop c b => Fr y c ∧ Fr y b
  | .tagfrom all cur => FrS y all ∧ FrS y cur
  | .go t => t ≠ y
def FrB (y : Name) : Binds → Prop
  | .nil => True
  | .cons x e rest => x ≠ y ∧ Fr y e ∧ FrB y rest
def FrS (y : Name) : Stmts → Prop
  | .nil => True
  | .tag t rest => t ≠ y ∧ FrS y rest
  | .form e rest => Fr y e ∧ FrS y rest
end

theorem St.ext' {s s' : St} (h : ∀ y, s.vars y = s'.vars y) (hw : s.w = s'.w) : s = s' := by
  obtain ⟨a, b⟩ := s
  obtain ⟨a', b'⟩ := s'
  simp only at h hw
  rw [show a = a' from funext h, hw]

@[simp] theorem set_vars (s : St) (x y : Name) (v : V) : (s.set x v).vars y = if y = x then v else s.vars y := rfl
@[simp] theorem set_w (s : St) (x : Name) (v : V) : (s.set x v).w = s.w := rfl
@[simp] theorem restore_vars (s o : St) (xs : List Name) (y : Name) :
    (s.restore o xs).vars y = if y ∈ xs then o.vars y else s.vars y := rfl
@[simp] theorem restore_w (s o : St) (xs : List Name) : (s.restore o xs).w = s.w := rfl

theorem set_comm (s : St) {x y : Name} (h : x ≠ y) (v u : V) : (s.set y v).set x u = (s.set x u).set y v := by
  refine St.ext' (fun z => ?_) rfl
  simp only [set_vars]
  by_cases h1 : z = x <;> by_cases h2 : z = y <;> simp_all

theorem set_self (s : St) (x : Name) : s.set x (s.vars x) = s := by
  refine St.ext' (fun z => ?_) rfl
  simp only [set_vars]; split
  · next h => rw [h]
  · rfl

theorem set_set (s : St) (x : Name) (u v : V) : (s.set x u).set x v = s.set x v := by
  refine St.ext' (fun z => ?_) rfl
  simp only [set_vars]; split <;> rfl

theorem restore_set (s o : St) {xs : List Name} {y : Name} (h : y ∉ xs) (v : V) :
    (s.set y v).restore (o.set y v) xs = (s.restore o xs).set y v := by
  refine St.ext' (fun z => ?_) rfl
  simp only [set_vars, restore_vars]
  by_cases h1 : z ∈ xs
  · rw [if_pos h1, if_pos h1, if_neg (by rintro rfl; exact h h1)]
  · rw [if_neg h1, if_neg h1]

theorem bindAll_set {y : Name} (v : V) : ∀ (xs : List Name) (vs : List V) (s : St), y ∉ xs →
    bindAll xs vs (s.set y v) = (bindAll xs vs s).set y v
  | [], _, _, _ => rfl
  | x :: xs, [], _, _ => rfl
  | x :: xs, u :: vs, s, h => by
    simp only [List.mem_cons, not_or] at h
    simp only [bindAll]
    rw [set_comm s (Ne.symm h.1), bindAll_set v xs vs _ h.2]

theorem names_free {y : Name} : ∀ {bs : Binds}, FrB y bs → y ∉ bs.names
  | .nil, _ => by simp [Binds.names]
  | .cons x e rest, h => by
    simp only [Binds.names, List.mem_cons, not_or]
    exact ⟨Ne.symm h.1, names_free h.2.2⟩

/-- The interpreter commutes with setting `y`. -/
def Comm (y : Name) (v : V) (rec : Tm → St → Res) : Prop :=
  ∀ t s, Fr y t → rec t (s.set y v) = (rec t s).mapSt (·.set y v)

theorem bind_frame {y : Name} {v : V} {rec : Tm → St → Res} (hr : Comm y v rec) {e : Tm} (he : Fr y e) (s : St)
    {f : V → St → Res} (hf : ∀ u s, f u (s.set y v) = (f u s).mapSt (·.set y v)) :
    (rec e (s.set y v)).bind f = ((rec e s).bind f).mapSt (·.set y v) := by
  rw [hr e s he]
  cases rec e s with
  | val u s1 => exact hf u s1
  | ret => rfl
  | go => rfl
  | exit => rfl
  | timeout => rfl

theorem evBinds_frame {y : Name} {v : V} {rec : Tm → St → Res} (hr : Comm y v rec) :
    ∀ (bs : Binds) (s : St) (k : List V → St → Res), FrB y bs → (∀ us s, k us (s.set y v) = (k us s).mapSt (·.set y v)) →
    evBinds rec bs (s.set y v) k = (evBinds rec bs s k).mapSt (·.set y v)
  | .nil, s, k, _, hk => hk [] s
  | .cons x e rest, s, k, hb, hk =>
    bind_frame hr hb.2.1 s fun u s => evBinds_frame hr rest s _ hb.2.2 fun us s => hk (u :: us) s

theorem mapSt_mapSt (r : Res) (f g : St → St) : (r.mapSt f).mapSt g = r.mapSt fun s => g (f s) := by
  cases r <;> rfl

theorem mapSt_congr {r : Res} {f g : St → St} (h : ∀ s, f s = g s) : r.mapSt f = r.mapSt g := by
  rw [funext h]

theorem evSeq_frame {y : Name} {v : V} {rec : Tm → St → Res} (hr : Comm y v rec) {body : Tm} (hb : Fr y body) :
    ∀ (bs : Binds) (s : St), FrB y bs → evSeq rec bs body (s.set y v) = (evSeq rec bs body s).mapSt (·.set y v)
  | .nil, s, _ => hr body s hb
  | .cons x e rest, s, hf => by
    refine bind_frame hr hf.2.1 s fun u s => ?_
    rw [set_comm s hf.1, evSeq_frame hr hb rest _ hf.2.2, mapSt_mapSt, mapSt_mapSt]
    refine mapSt_congr fun s' => ?_
    rw [restore_set]
    simp [Ne.symm hf.1]

theorem find_free {y : Name} {tag : Name} : ∀ {b r : Stmts}, FrS y b → b.find tag = some r → FrS y r
  | .nil, r, _, h => by simp [Stmts.find] at h
  | .form e rest, r, hb, h => find_free hb.2 h
  | .tag t rest, r, hb, h => by
    simp only [Stmts.find] at h
    cases hf : rest.find tag with
    | some r' => rw [hf] at h; cases h; exact find_free (b := rest) hb.2 hf
    | none =>
      rw [hf] at h
      simp only at h
      split at h
      · cases h; exact hb.2
      · cases h

theorem set_world (s : St) (y : Name) (v : V) (w : World) :
    ({ s.set y v with w := w } : St) = ({ s with w := w } : St).set y v := rfl

theorem eval_frame (G : Ext) (y : Name) (v : V) : ∀ k, Comm y v (eval G k) := by
  intro k
  induction k with
  | zero => intro t s _; rfl
  | succ k ih =>
    intro t s ht
    rw [eval.eq_def G (k + 1) t (s.set y v), eval.eq_def G (k + 1) t s]
    cases t with
    | const u => rfl
    | var x => simp only [Res.mapSt, set_vars, if_neg ht]
    | setq x e =>
      refine bind_frame ih ht.2 s fun u s => ?_
      simp only [Res.mapSt, set_comm s ht.1]
    | call1 f e =>
      refine bind_frame ih (e := e) ht s fun u s => ?_
      rw [set_w]; cases f.run u s.w <;> rfl
    | call2 f a b =>
      refine bind_frame ih ht.1 s fun u s => bind_frame ih ht.2 s fun u' s => ?_
      rw [set_w]; cases f.run u u' s.w <;> rfl
    | ext f e =>
      refine bind_frame ih (e := e) ht s fun u s => ?_
      rw [set_w]
      cases G f u s.w with
      | none => rfl
      | some q => simp only [Option.elim]; split <;> rfl
    | progn a b => exact bind_frame ih ht.1 s fun u s => ih b s ht.2
    | ite c a b =>
      refine bind_frame ih ht.1 s fun u s => ?_
      split
      · exact ih b s ht.2.2
      · exact ih a s ht.2.1
    | letp bs body =>
      refine evBinds_frame ih bs s _ ht.1 fun us s => ?_
      have hn := names_free ht.1
      rw [bindAll_set v _ _ _ hn, ih body _ ht.2, mapSt_mapSt, mapSt_mapSt]
      exact mapSt_congr fun s' => restore_set _ _ hn v
    | lets bs body => exact evSeq_frame ih ht.2 bs s ht.1
    | block n body =>
      dsimp only
      rw [ih body s ht]
      cases eval G k body s with
      | ret m u s1 => simp only [Res.mapSt, Res.arrive]; split <;> rfl
      | val => rfl
      | go => rfl
      | exit => rfl
      | timeout => rfl
    | ret n e => exact bind_frame ih (e := e) ht s fun u s => rfl
    | loop c body =>
      refine bind_frame ih ht.1 s fun u s => ?_
      split
      · rfl
      · exact bind_frame ih ht.2 s fun u s => ih _ s ht
    | tagfrom all cur =>
      cases cur with
      | nil => rfl
      | tag t rest => exact ih _ s ⟨ht.1, ht.2.2⟩
      | form e rest =>
        dsimp only
        rw [ih e s ht.2.1]
        cases eval G k e s with
        | val u s1 => exact ih (.tagfrom all rest) s1 ⟨ht.1, ht.2.2⟩
        | go tag s1 =>
          simp only [Res.mapSt]
          cases hf : all.find tag with
          | none => rfl
          | some r => exact ih (.tagfrom all r) s1 ⟨ht.1, find_free ht.1 hf⟩
        | ret => rfl
        | exit => rfl
        | timeout => rfl
    | go tag => rfl

/-- A form that does not mention `y` does the same whatever `y` is. -/
theorem ev_frame {G : Ext} {y : Name} {t : Tm} (ht : Fr y t) {s : St} {v : V} {r : Res} :
    Ev G t (s.set y v) r ↔ ∃ r', Ev G t s r' ∧ r = r'.mapSt (·.set y v) := by
  rw [← ev_mapSt, ev_iff]
  simp only [eval_frame G y v _ t s ht]

/-- The state that a form is left in. -/
def Res.st : Res → Option St
  | .val _ s | .ret _ _ s | .go _ s | .exit _ s => some s
  | .timeout => none

/-- A form that does not mention `y` leaves it alone. -/
theorem ev_keeps {G : Ext} {y : Name} {t : Tm} (ht : Fr y t) {s : St} {r : Res} (h : Ev G t s r) :
    ∀ s' ∈ r.st, s'.vars y = s.vars y := by
  have h1 : Ev G t (s.set y (s.vars y)) r := by rw [set_self]; exact h
  obtain ⟨r', _, rfl⟩ := (ev_frame ht).1 h1
  cases r' <;> simp [Res.mapSt, Res.st]

end Eus.Mac
