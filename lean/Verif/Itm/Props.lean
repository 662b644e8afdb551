import Verif.Itm.Model
import Mathlib.Tactic.Linarith
import Mathlib.Tactic.FieldSimp
import Mathlib.Tactic.Ring
import Mathlib.Tactic.NormNum
set_option autoImplicit false
/-
C224.
-/
namespace Eus.Itm

theorem clump_range (lo v hi : ℚ) (h : lo ≤ hi) : lo ≤ clump lo v hi ∧ clump lo v hi ≤ hi :=
  ⟨le_max_left _ _, max_le h (min_le_right _ _)⟩

/-- C224.  Whatever the pointer does, the value of a slider and all values its receiver is sent stay between the limits. -/
theorem C224_slider_range (s : Slider) (h : s.lo ≤ s.hi) (hv : s.lo ≤ s.value ∧ s.value ≤ s.hi) (hl : ∀ v ∈ s.log, s.lo ≤ v ∧ v ≤ s.hi) (evs : List Ev) :
    let r := evs.foldl Slider.step s
    (s.lo ≤ r.value ∧ r.value ≤ s.hi) ∧ ∀ v ∈ r.log, s.lo ≤ v ∧ v ≤ s.hi := by
  suffices H : ∀ (evs : List Ev) (r : Slider), r.lo = s.lo → r.hi = s.hi → (s.lo ≤ r.value ∧ r.value ≤ s.hi) → (∀ v ∈ r.log, s.lo ≤ v ∧ v ≤ s.hi) →
      (s.lo ≤ (evs.foldl Slider.step r).value ∧ (evs.foldl Slider.step r).value ≤ s.hi) ∧
        ∀ v ∈ (evs.foldl Slider.step r).log, s.lo ≤ v ∧ v ≤ s.hi from H evs s rfl rfl hv hl
  intro evs
  induction evs with
  | nil => intro r _ _ h1 h2; exact ⟨h1, h2⟩
  | cons e evs ih =>
    intro r e1 e2 h1 h2
    have hc : ∀ x, s.lo ≤ computeValue r x ∧ computeValue r x ≤ s.hi := by
      intro x
      unfold computeValue
      rw [e1, e2]
      exact clump_range _ _ _ h
    have hset : ∀ (q : Slider) (b : Bool) (x : ℚ), q.log = r.log → ∀ v ∈ (setValue q (computeValue r x) b).log, s.lo ≤ v ∧ v ≤ s.hi := by
      intro q b x hq v hv
      simp only [setValue, hq] at hv
      split at hv
      · rcases List.mem_cons.1 hv with e | e
        · subst e; exact hc x
        · exact h2 v e
      · exact h2 v hv
    rw [List.foldl_cons]
    cases e with
    | press x y =>
      simp only [Slider.step]
      split
      · exact ih _ e1 e2 h1 h2
      · exact ih _ e1 e2 h1 h2
    | motion x y =>
      simp only [Slider.step]
      split
      · exact ih _ e1 e2 (hc x) (hset r _ x rfl)
      · exact ih _ e1 e2 h1 h2
    | release x y =>
      simp only [Slider.step]
      split
      · exact ih _ e1 e2 (hc x) (hset _ _ x rfl)
      · exact ih _ e1 e2 h1 h2

/-- C224.  While the knob is dragged along the bar it stays under the pointer: its middle is where the pointer is. -/
theorem C224_slider_follow (s : Slider) (x y : ℚ) (hm : s.moving = true) (hr : s.lo < s.hi) (hw : 0 < s.barW)
    (h1 : s.barX + 3 ≤ x) (h2 : x ≤ s.barX + 3 + s.barW) : (s.step (.motion x y)).nobX = x - 3 := by
  have h3 : 0 < s.hi - s.lo := by linarith
  have hq0 : 0 ≤ (x - s.barX - 3) / s.barW := div_nonneg (by linarith) hw.le
  have hq1 : (x - s.barX - 3) / s.barW ≤ 1 := (div_le_one hw).2 (by linarith)
  have hc : computeValue s x = s.lo + ((x - s.barX - 3) / s.barW) * (s.hi - s.lo) := by
    unfold computeValue clump
    rw [min_eq_left, max_eq_right]
    · have := mul_nonneg hq0 h3.le
      linarith
    · have := mul_le_mul_of_nonneg_right hq1 h3.le
      linarith
  simp only [Slider.step, hm, if_true, setValue, nobAt, hc]
  have h3' : s.hi - s.lo ≠ 0 := h3.ne'
  have hw' : s.barW ≠ 0 := hw.ne'
  field_simp
  ring

/-- the pointer only moves -/
def moves (l : List (ℚ × ℚ)) : List Ev := l.map fun p => .motion p.1 p.2

theorem moves_eq (l : List (ℚ × ℚ)) : ∀ (s : Slider), s.moving = true →
    ((moves l).foldl Slider.step s).moving = true ∧ (∀ x, computeValue ((moves l).foldl Slider.step s) x = computeValue s x) ∧
      ((moves l).foldl Slider.step s).log = (if s.cont then (l.map fun p => computeValue s p.1).reverse else []) ++ s.log ∧
      ((moves l).foldl Slider.step s).cont = s.cont := by
  induction l with
  | nil => intro s h; simp [moves, h]
  | cons p l ih =>
    intro s h
    have hstep : s.step (.motion p.1 p.2) = setValue s (computeValue s p.1) s.cont := by simp [Slider.step, h]
    have hcv : ∀ x, computeValue (setValue s (computeValue s p.1) s.cont) x = computeValue s x := fun x => rfl
    obtain ⟨a, b, c, d⟩ := ih (s.step (.motion p.1 p.2)) (by rw [hstep]; exact h)
    simp only [moves, List.map_cons, List.foldl_cons] at *
    refine ⟨a, fun x => (b x).trans (by rw [hstep]; rfl), ?_, d.trans (by rw [hstep]; rfl)⟩
    rw [c, hstep]
    have e : (setValue s (computeValue s p.1) s.cont).cont = s.cont := rfl
    simp only [e, hcv]
    cases hcont : s.cont <;> simp [setValue]

theorem step_release (r : Slider) (h : r.moving = true) (x y : ℚ) :
    r.step (.release x y) = setValue { r with moving := false } (computeValue r x) true := by simp [Slider.step, h]

/-- C224.  A drag: the button is pressed on the knob, the pointer moves in any way, and the button is released at (x, y).  The value is the one of x, the
receiver is sent it once at the end, and before it the values on the way if and only if it wants to be told of every change. -/
theorem C224_slider_drag (s : Slider) (px py x y : ℚ) (l : List (ℚ × ℚ)) (hp : s.nobX ≤ px ∧ px ≤ s.nobX + 7 ∧ s.barY - 5 ≤ py ∧ py ≤ s.barY + 5) :
    let r := (.press px py :: (moves l ++ [.release x y])).foldl Slider.step s
    let at' := fun q => max s.lo (min (s.lo + ((q - s.barX - 3) / s.barW) * (s.hi - s.lo)) s.hi)
    r.value = at' x ∧ r.moving = false ∧ r.log = at' x :: ((if s.cont then (l.map fun p => at' p.1).reverse else []) ++ s.log) := by
  have hi : insideNob s px py = true := by simpa [insideNob] using hp
  simp only [List.foldl_cons, List.foldl_append, List.foldl_nil]
  have hs : s.step (.press px py) = { s with moving := true } := by simp [Slider.step, hi]
  obtain ⟨a, b, c, _⟩ := moves_eq l (s.step (.press px py)) (by rw [hs])
  have hb : ∀ q, computeValue ((moves l).foldl Slider.step (s.step (.press px py))) q = max s.lo (min (s.lo + ((q - s.barX - 3) / s.barW) * (s.hi - s.lo)) s.hi) := by
    intro q; rw [b q, hs]; rfl
  refine ⟨?_, ?_, ?_⟩
  · rw [step_release _ a]; exact hb x
  · rw [step_release _ a]; rfl
  · rw [step_release _ a]
    show computeValue _ x :: _ = _
    rw [hb x]
    congr 1
    show ((moves l).foldl Slider.step (s.step (.press px py))).log = _
    rw [c, hs]
    rfl

/-- C224.  Without a press on the knob, moving and releasing change nothing. -/
theorem C224_slider_idle (s : Slider) (hm : s.moving = false) (x y : ℚ) : s.step (.motion x y) = s ∧ s.step (.release x y) = s := by
  simp [Slider.step, hm]

/-- C224 fails.  A value set by the program is not kept between the limits; the number shown beside the slider then differs from the value. -/
theorem C224_slider_set_wrong (s : Slider) (h : s.lo ≤ s.hi) (v : ℚ) (hv : s.hi < v) (b : Bool) :
    s.hi < (setValue s v b).value ∧ shown s false v = s.hi := by
  refine ⟨hv, ?_⟩
  simp only [shown, Bool.false_eq_true, if_false]
  rw [min_eq_left hv.le, max_eq_right h]

/-- C224 fails.  A slider between integers shows an integer, but its value, and what the receiver is sent, need not be one. -/
theorem C224_slider_integer_wrong : ∃ (s : Slider) (x : ℚ), s.lo = 0 ∧ s.hi = 10 ∧
    (s.step (.motion x 0)).value = 25 / 10 ∧ shown s true (s.step (.motion x 0)).value = 3 ∧ (s.step (.motion x 0)).log = [25 / 10] := by
  refine ⟨⟨0, 10, 50, 10, 100, true, 0, 50, true, []⟩, 78, rfl, rfl, ?_, ?_, ?_⟩
  · norm_num [Slider.step, setValue, computeValue, clump]
  · norm_num [Slider.step, setValue, computeValue, clump, shown]
  · norm_num [Slider.step, setValue, computeValue, clump]

/-- a real drag -/
example : (List.foldl Slider.step ⟨0, 1, 50, 10, 100, false, 0, 50, false, []⟩ [.press 52 10, .motion 70 11, .release 78 30]).value = 1 / 4 := by
  norm_num [Slider.step, setValue, computeValue, clump, insideNob]

theorem place_mono (size : Int) : ∀ (ds : List Int) (p : Int), (∀ d ∈ ds, size ≤ d + 4) → 0 ≤ size → ∀ q ∈ placeFrom size p ds, p + size / 2 - size / 2 ≤ q := by
  intro ds
  induction ds with
  | nil => intro p _ _ q hq; exact absurd hq (by simp [placeFrom])
  | cons d ds ih =>
    intro p hd hs q hq
    have h1 := hd d (by simp)
    rcases List.mem_cons.1 hq with e | e
    · subst e; omega
    · have := ih (p + (d + 4)) (fun x hx => hd x (by simp [hx])) hs q e
      omega

/-- C224.  If no label of a choice is narrower than a button (less 4 dots), a click on any dot of the button i finds the choice i. -/
theorem C224_choice_partial (size p : Int) (hs : 0 < size) : ∀ (ds : List Int), (∀ d ∈ ds, size ≤ d + 4) → ∀ (i : Nat) (q x : Int),
    (placeFrom size p ds)[i]? = some q → q ≤ x → x < q + size → choiceAt size x (placeFrom size p ds) = some i := by
  intro ds
  induction ds generalizing p with
  | nil => intro _ i q x h; exact absurd h (by simp [placeFrom])
  | cons d ds ih =>
    intro hd i q x h h1 h2
    unfold placeFrom at h ⊢
    cases i with
    | zero =>
      simp only [List.getElem?_cons_zero, Option.some.injEq] at h
      subst h
      unfold choiceAt
      rw [if_pos]
      rw [abs_lt]
      constructor <;> omega
    | succ i =>
      simp only [List.getElem?_cons_succ] at h
      have hd0 := hd d (by simp)
      have hfar : (d + 4) / 2 + p - size / 2 + size ≤ q := by
        cases ds with
        | nil => exact absurd h (by simp [placeFrom])
        | cons d' ds' =>
          have hd1 := hd d' (by simp)
          unfold placeFrom at h
          cases i with
          | zero =>
            simp only [List.getElem?_cons_zero, Option.some.injEq] at h
            omega
          | succ i =>
            simp only [List.getElem?_cons_succ] at h
            have := place_mono size ds' _ (fun x hx => hd x (by simp [hx])) hs.le q (List.mem_of_getElem? h)
            omega
      unfold choiceAt
      rw [if_neg, ih (p + (d + 4)) (fun x hx => hd x (by simp [hx])) i q x h h1 h2]
      · rfl
      · rw [abs_lt]
        omega

/-- C224.  A choice changes, and the receiver is told, exactly if the button is pressed and released at the same choice. -/
theorem C224_choice_click (c : Choice) (x y : Int) :
    let r := (c.press x).release y
    (∀ i, choiceAt c.size x c.lefts = some i → choiceAt c.size y c.lefts = some i → r.active = i ∧ r.log = i :: c.log) ∧
    (choiceAt c.size x c.lefts ≠ choiceAt c.size y c.lefts ∨ choiceAt c.size y c.lefts = none → r.active = c.active ∧ r.log = c.log) := by
  constructor
  · intro i h1 h2
    simp [Choice.press, Choice.release, h1, h2]
  · intro h
    cases hy : choiceAt c.size y c.lefts with
    | none => simp [Choice.press, Choice.release, hy]
    | some i =>
      rw [hy] at h
      have : choiceAt c.size x c.lefts ≠ some i := by rcases h with h | h <;> simp_all
      simp [Choice.press, Choice.release, hy, this]

/-- C224 fails for narrow labels, as the default "0" and "1" in a font of 6 dots: a click on the left end of the second button finds the first choice. -/
theorem C224_choice_wrong : (placeFrom 13 20 [6, 6])[1]? = some 29 ∧ choiceAt 13 29 (placeFrom 13 20 [6, 6]) = some 0 := by decide

example : placeFrom 13 20 [30, 20] = [31, 60] ∧ choiceAt 13 65 (placeFrom 13 20 [30, 20]) = some 1 := by decide

theorem stick_set_range (s : Stick) (hx : s.loX ≤ s.hiX) (hy : s.loY ≤ s.hiY) (x y : ℚ) (b : Bool) :
    (s.loX ≤ (s.set x y b).valX ∧ (s.set x y b).valX ≤ s.hiX) ∧ (s.loY ≤ (s.set x y b).valY ∧ (s.set x y b).valY ≤ s.hiY) :=
  ⟨⟨le_max_left _ _, max_le hx (min_le_left _ _)⟩, ⟨le_max_left _ _, max_le hy (min_le_left _ _)⟩⟩

/-- C224.  The values of a joystick stay between the limits, whatever the pointer does and whatever the program sets; so do those the receiver is sent. -/
theorem C224_stick_range (s : Stick) (hx : s.loX ≤ s.hiX) (hy : s.loY ≤ s.hiY)
    (evs : List (JEv ⊕ (ℚ × ℚ × Bool)))
    (hv : (s.loX ≤ s.valX ∧ s.valX ≤ s.hiX) ∧ (s.loY ≤ s.valY ∧ s.valY ≤ s.hiY))
    (hl : ∀ v ∈ s.log, (s.loX ≤ v.1 ∧ v.1 ≤ s.hiX) ∧ (s.loY ≤ v.2 ∧ v.2 ≤ s.hiY)) :
    let r := evs.foldl (fun s e => match e with
      | .inl e => s.step e
      | .inr (x, y, b) => s.set x y b) s
    ((s.loX ≤ r.valX ∧ r.valX ≤ s.hiX) ∧ (s.loY ≤ r.valY ∧ r.valY ≤ s.hiY)) ∧
      ∀ v ∈ r.log, (s.loX ≤ v.1 ∧ v.1 ≤ s.hiX) ∧ (s.loY ≤ v.2 ∧ v.2 ≤ s.hiY) := by
  let Ok : Stick → Prop := fun r => (r.loX = s.loX ∧ r.hiX = s.hiX ∧ r.loY = s.loY ∧ r.hiY = s.hiY) ∧
    ((s.loX ≤ r.valX ∧ r.valX ≤ s.hiX) ∧ (s.loY ≤ r.valY ∧ r.valY ≤ s.hiY)) ∧
      ∀ v ∈ r.log, (s.loX ≤ v.1 ∧ v.1 ≤ s.hiX) ∧ (s.loY ≤ v.2 ∧ v.2 ≤ s.hiY)
  have hset : ∀ (r : Stick) (x y : ℚ) (b : Bool), Ok r → Ok (r.set x y b) := by
    intro r x y b ⟨⟨e1, e2, e3, e4⟩, _, h2⟩
    have hr := stick_set_range r (by rw [e1, e2]; exact hx) (by rw [e3, e4]; exact hy) x y b
    rw [e1, e2, e3, e4] at hr
    refine ⟨⟨e1, e2, e3, e4⟩, hr, ?_⟩
    intro v hv
    simp only [Stick.set] at hv
    split at hv
    · rcases List.mem_cons.1 hv with e | e
      · rw [e]; exact hr
      · exact h2 v e
    · exact h2 v hv
  have hstep : ∀ (r : Stick) (e : JEv), Ok r → Ok (r.step e) := by
    intro r e h
    cases e with
    | press x y => simp only [Stick.step]; split <;> exact h
    | motion x y =>
      simp only [Stick.step]
      split
      · exact hset r _ _ _ h
      · exact h
    | release x y =>
      simp only [Stick.step]
      split
      · split
        · exact hset _ _ _ _ h
        · split
          · exact h
          · exact hset _ _ _ _ h
      · exact h
  suffices H : ∀ (evs : List (JEv ⊕ (ℚ × ℚ × Bool))) (r : Stick), Ok r → Ok (evs.foldl (fun s e => match e with
      | .inl e => s.step e
      | .inr (x, y, b) => s.set x y b) r) from (H evs s ⟨⟨rfl, rfl, rfl, rfl⟩, hv, hl⟩).2
  intro evs
  induction evs with
  | nil => intro r h; exact h
  | cons e evs ih =>
    intro r h
    rw [List.foldl_cons]
    apply ih
    rcases e with e | ⟨x, y, b⟩
    · exact hstep r e h
    · exact hset r x y b h

theorem rnd_near (x : Int) (e : ℚ) (h1 : -(1 / 2) < e) (h2 : e < 1 / 2) : rnd (x + e) = x := by
  unfold rnd
  rw [Int.floor_eq_iff]
  constructor <;> linarith

/-- C224.  While the stick is dragged inside the window it stays under the pointer, although its place is rounded: the rounding error does not grow. -/
theorem C224_stick_follow (s : Stick) (x y : Int) (hg : s.grabbed = true) (hX : s.loX < s.hiX) (hY : s.loY < s.hiY)
    (hx : 1 ≤ x ∧ x + 1 ≤ s.width) (hy : 1 ≤ y ∧ y + 1 ≤ s.height)
    (ex : |(s.width : ℚ) * ((s.valX - s.loX) / (s.hiX - s.loX)) - s.stickX| < 1 / 2)
    (ey : |(s.height : ℚ) - s.height * ((s.valY - s.loY) / (s.hiY - s.loY)) - s.stickY| < 1 / 2) :
    let r := s.step (.motion x y)
    r.stickX = x ∧ r.stickY = y ∧
    (r.width : ℚ) * ((r.valX - r.loX) / (r.hiX - r.loX)) - r.stickX = (s.width : ℚ) * ((s.valX - s.loX) / (s.hiX - s.loX)) - s.stickX ∧
    (r.height : ℚ) - r.height * ((r.valY - r.loY) / (r.hiY - r.loY)) - r.stickY =
      (s.height : ℚ) - s.height * ((s.valY - s.loY) / (s.hiY - s.loY)) - s.stickY := by
  have hX' : 0 < s.hiX - s.loX := by linarith
  have hY' : 0 < s.hiY - s.loY := by linarith
  have hw : (0 : ℚ) < s.width := by exact_mod_cast (by omega : (0 : Int) < s.width)
  have hh : (0 : ℚ) < s.height := by exact_mod_cast (by omega : (0 : Int) < s.height)
  have hx1 : (1 : ℚ) ≤ x := by exact_mod_cast hx.1
  have hx2 : (x : ℚ) + 1 ≤ s.width := by exact_mod_cast hx.2
  have hy1 : (1 : ℚ) ≤ y := by exact_mod_cast hy.1
  have hy2 : (y : ℚ) + 1 ≤ s.height := by exact_mod_cast hy.2
  rw [abs_lt] at ex ey
  -- the values in units of dots
  generalize hA : (s.width : ℚ) * ((s.valX - s.loX) / (s.hiX - s.loX)) = A at *
  generalize hB : (s.height : ℚ) - s.height * ((s.valY - s.loY) / (s.hiY - s.loY)) = B at *
  have hvx : s.valX = s.loX + A * ((s.hiX - s.loX) / s.width) := by
    rw [← hA]; field_simp; ring
  have hvy : s.valY = s.hiY - B * ((s.hiY - s.loY) / s.height) := by
    rw [← hB]; field_simp; ring
  have hux : 0 < (s.hiX - s.loX) / s.width := div_pos hX' hw
  have huy : 0 < (s.hiY - s.loY) / s.height := div_pos hY' hh
  have hwx : (s.hiX - s.loX) / s.width * s.width = s.hiX - s.loX := div_mul_cancel₀ _ hw.ne'
  have hwy : (s.hiY - s.loY) / s.height * s.height = s.hiY - s.loY := div_mul_cancel₀ _ hh.ne'
  have hnx : max s.loX (min s.hiX (s.valX + ((x - s.stickX : Int) : ℚ) * ((s.hiX - s.loX) / s.width))) =
      s.loX + (x + (A - s.stickX)) * ((s.hiX - s.loX) / s.width) := by
    have e : s.valX + ((x - s.stickX : Int) : ℚ) * ((s.hiX - s.loX) / s.width) = s.loX + (x + (A - s.stickX)) * ((s.hiX - s.loX) / s.width) := by
      rw [hvx]; push_cast; ring
    rw [e, min_eq_right, max_eq_right]
    · have := mul_nonneg (show (0 : ℚ) ≤ x + (A - s.stickX) by linarith) hux.le
      linarith
    · have := mul_le_mul_of_nonneg_right (show (x + (A - s.stickX) : ℚ) ≤ s.width by linarith) hux.le
      linarith
  have hny : max s.loY (min s.hiY (s.valY + ((s.stickY - y : Int) : ℚ) * ((s.hiY - s.loY) / s.height))) =
      s.hiY - (y + (B - s.stickY)) * ((s.hiY - s.loY) / s.height) := by
    have e : s.valY + ((s.stickY - y : Int) : ℚ) * ((s.hiY - s.loY) / s.height) = s.hiY - (y + (B - s.stickY)) * ((s.hiY - s.loY) / s.height) := by
      rw [hvy]; push_cast; ring
    rw [e, min_eq_right, max_eq_right]
    · have := mul_le_mul_of_nonneg_right (show (y + (B - s.stickY) : ℚ) ≤ s.height by linarith) huy.le
      linarith
    · have := mul_nonneg (show (0 : ℚ) ≤ y + (B - s.stickY) by linarith) huy.le
      linarith
  have px : (s.width : ℚ) * ((s.loX + (x + (A - s.stickX)) * ((s.hiX - s.loX) / s.width) - s.loX) / (s.hiX - s.loX)) = x + (A - s.stickX) := by
    field_simp; ring
  have py : (s.height : ℚ) - s.height * ((s.hiY - (y + (B - s.stickY)) * ((s.hiY - s.loY) / s.height) - s.loY) / (s.hiY - s.loY)) = y + (B - s.stickY) := by
    field_simp; ring
  have rx : rnd ((x : ℚ) + (A - s.stickX)) = x := rnd_near x _ (by linarith) (by linarith)
  have ry : rnd ((y : ℚ) + (B - s.stickY)) = y := rnd_near y _ (by linarith) (by linarith)
  simp only [Stick.step, hg, if_true, Stick.fromEvent, Stick.set, hnx, hny, px, py, rx, ry]
  refine ⟨trivial, trivial, ?_, ?_⟩ <;> ring

/-- C224.  A stick that returns is in the middle after the release, and the receiver is told. -/
theorem C224_stick_return (s : Stick) (hx : s.loX ≤ s.hiX) (hy : s.loY ≤ s.hiY) (hg : s.grabbed = true) (hb : s.back = true) (x y : Int) :
    let r := s.step (.release x y)
    r.valX = (s.loX + s.hiX) / 2 ∧ r.valY = (s.loY + s.hiY) / 2 ∧ r.grabbed = false ∧ r.log = ((s.loX + s.hiX) / 2, (s.loY + s.hiY) / 2) :: s.log := by
  have a : max s.loX (min s.hiX ((s.loX + s.hiX) / 2)) = (s.loX + s.hiX) / 2 := by
    rw [min_eq_right (by linarith), max_eq_right (by linarith)]
  have b : max s.loY (min s.hiY ((s.loY + s.hiY) / 2)) = (s.loY + s.hiY) / 2 := by
    rw [min_eq_right (by linarith), max_eq_right (by linarith)]
  simp [Stick.step, hg, hb, Stick.set, a, b]

/-- a joystick of 100 dots that has been grabbed -/
example : ((⟨100, 100, -1, 1, -1, 1, 5, false, true, 0, 0, 50, 50, true, []⟩ : Stick).step (.motion 60 30)).valX = 1 / 5 ∧
    ((⟨100, 100, -1, 1, -1, 1, 5, false, true, 0, 0, 50, 50, true, []⟩ : Stick).step (.motion 60 30)).valY = 2 / 5 := by
  constructor <;> norm_num [Stick.step, Stick.fromEvent, Stick.set]

end Eus.Itm
