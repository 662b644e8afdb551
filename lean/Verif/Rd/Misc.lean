import Verif.Rd.Trees
set_option autoImplicit false
namespace Eus.Rd
open Eus.Num

/-! ### comments -/

theorem afterComment_suffix : ∀ (l : List Nat) (d : Nat) (rest : List Nat),
    afterComment d l = some rest → ∃ body, body ≠ [] ∧ l = body ++ rest := by
  intro l
  induction hn : l.length using Nat.strong_induction_on generalizing l with
  | _ n ih =>
    intro d rest h
    rw [afterComment.eq_def] at h
    cases l with
    | nil => simp at h
    | cons a l =>
      cases l with
      | nil => simp at h
      | cons b s =>
        simp only [List.length_cons] at hn
        simp only at h
        split_ifs at h with h1 h2
        · cases d with
          | zero => exact ⟨[a, b], by simp, by simpa using h⟩
          | succ d =>
            obtain ⟨body, _, e⟩ := ih s.length (by omega) s rfl d rest h
            exact ⟨a :: b :: body, by simp, by rw [e]; rfl⟩
        · obtain ⟨body, _, e⟩ := ih s.length (by omega) s rfl (d + 1) rest h
          exact ⟨a :: b :: body, by simp, by rw [e]; rfl⟩
        · obtain ⟨body, _, e⟩ := ih (s.length + 1) (by omega) (b :: s) rfl d rest h
          exact ⟨a :: body, by simp, by rw [e]; rfl⟩

theorem comment_closed : ∀ (n : Nat) (l : List Nat) (d : Nat) (body rest : List Nat),
    l.length < n → afterComment d l = some rest → l = body ++ rest → 255 ∉ body →
    ¬ [124, 35, 124] <:+: body →
    commentLoop n d l.head? l.tail = some (true, rest) := by
  intro n
  induction n using Nat.strong_induction_on with
  | _ n0 ih =>
    intro l d body rest hn h hl h255 hov
    obtain ⟨n, rfl⟩ : ∃ n, n0 = n + 1 := ⟨n0 - 1, by omega⟩
    obtain ⟨body0, hb0, e0⟩ := afterComment_suffix l d rest h
    have hbb : body0 = body := List.append_cancel_right (e0.symm.trans hl)
    subst hbb
    -- the recursive uses
    have sub : ∀ (pre s : List Nat) (d' m : Nat), l = pre ++ s → m ≤ n ∧ n + 1 ≤ m + pre.length → pre ≠ [] →
        afterComment d' s = some rest →
        commentLoop m d' s.head? s.tail = some (true, rest) := by
      intro pre s d' m hp hm0 hpre hs
      obtain ⟨b', _, e'⟩ := afterComment_suffix s d' rest hs
      have hbb : body0 = pre ++ b' := by
        apply List.append_cancel_right (bs := rest)
        rw [← hl, hp, e', List.append_assoc]
      have hpos : 0 < pre.length := List.length_pos_iff.2 hpre
      refine ih m (by omega) s d' b' rest (by rw [hp] at hn; simp at hn; omega) hs e' ?_ ?_
      · intro hm; apply h255; rw [hbb]; simp [hm]
      · intro hm; apply hov; rw [hbb]; exact hm.trans (List.suffix_append _ _).isInfix
    rw [afterComment.eq_def] at h
    cases l with
    | nil => simp at h
    | cons a l =>
      cases l with
      | nil => simp at h
      | cons b s =>
        have ha : a ≠ 255 := by
          intro ha; subst ha
          cases body0 with
          | nil => exact hb0 rfl
          | cons x y => apply h255; rw [(List.cons.inj hl).1]; simp
        simp only at h
        rw [List.head?_cons, List.tail_cons, commentLoop]
        rw [if_neg ha]
        by_cases h1 : a = 124
        · subst h1
          rw [if_pos rfl]
          by_cases h2 : b = 35
          · subst h2
            simp only [and_self, if_true] at h ⊢
            cases d with
            | zero =>
              simp only [Option.some.injEq] at h
              subst h
              rw [if_pos (by omega)]
            | succ d =>
              simp only at h
              rw [if_neg (by omega)]
              have hd : (((d + 1 : Nat) : Int) - 1) = (d : Nat) := by omega
              rw [hd]
              -- the loop looks at the `#` again
              obtain ⟨n', rfl⟩ : ∃ n', n = n' + 1 := ⟨n - 1, by simp at hn; omega⟩
              obtain ⟨b', hb', e'⟩ := afterComment_suffix s d rest h
              rw [commentLoop.eq_def]
              simp only
              rw [if_neg (by decide), if_neg (by decide), if_pos (by trivial)]
              cases s with
              | nil => simp [afterComment] at h
              | cons c s =>
                have hc : c ≠ 124 := by
                  rintro rfl
                  apply hov
                  cases b' with
                  | nil => exact absurd rfl hb'
                  | cons x y =>
                    have hx : x = 124 := (List.cons.inj e').1.symm
                    subst hx
                    have : body0 = [124, 35, 124] ++ y := by
                      apply List.append_cancel_right (bs := rest)
                      rw [← hl, e']; rfl
                    rw [this]; exact (List.prefix_append _ _).isInfix
                simp only
                rw [if_neg hc]
                exact sub [124, 35] (c :: s) d n' rfl (by simp) (by simp) h
          · rw [if_neg (by simp [h2]), if_neg (by simp)] at h
            rw [if_neg h2]
            exact sub [124] (b :: s) d n rfl (by simp) (by simp) h
        · rw [if_neg (by simp [h1])] at h
          rw [if_neg h1]
          by_cases h2 : a = 35
          · subst h2
            rw [if_pos rfl]
            by_cases h3 : b = 124
            · subst h3
              simp only [and_self, if_true] at h ⊢
              have := sub [35, 124] s (d + 1) n rfl (by simp) (by simp) h
              push_cast at this
              exact this
            · rw [if_neg (by simp [h3])] at h
              rw [if_neg h3]
              exact sub [35] (b :: s) d n rfl (by simp) (by simp) h
          · rw [if_neg (by simp [h2])] at h
            rw [if_neg h2]
            exact sub [a] (b :: s) d n rfl (by simp) (by simp) h

theorem comment_open : ∀ (n : Nat) (l : List Nat) (d : Nat), l.length < n →
    afterComment d l = none → 255 ∉ l → ¬ [124, 35, 124] <:+: l →
    commentLoop n d l.head? l.tail = some (false, []) := by
  intro n
  induction n using Nat.strong_induction_on with
  | _ n0 ih =>
    intro l d hn h h255 hov
    obtain ⟨n, rfl⟩ : ∃ n, n0 = n + 1 := ⟨n0 - 1, by omega⟩
    have sub : ∀ (pre s : List Nat) (d' m : Nat), l = pre ++ s → m ≤ n ∧ n + 1 ≤ m + pre.length →
        afterComment d' s = none → commentLoop m d' s.head? s.tail = some (false, []) := by
      intro pre s d' m hp hm0 hs
      refine ih m (by omega) s d' (by rw [hp] at hn; simp at hn; omega) hs ?_ ?_
      · intro hm; apply h255; rw [hp]; simp [hm]
      · intro hm; apply hov; rw [hp]; exact hm.trans (List.suffix_append _ _).isInfix
    rw [afterComment.eq_def] at h
    cases l with
    | nil => rw [List.head?_nil, commentLoop.eq_def]; rfl
    | cons a l =>
      have ha : a ≠ 255 := by rintro rfl; simp at h255
      cases l with
      | nil =>
        obtain ⟨n', rfl⟩ : ∃ n', n = n' + 1 := ⟨n - 1, by simp at hn; omega⟩
        have hnil : commentLoop (n' + 1) d none [] = some (false, []) := by rw [commentLoop]
        rw [List.head?_cons, List.tail_cons, commentLoop.eq_def]
        simp only
        rw [if_neg ha]
        split_ifs
        · exact hnil
        · exact hnil
        · exact hnil
      | cons b s =>
        simp only at h
        rw [List.head?_cons, List.tail_cons, commentLoop]
        rw [if_neg ha]
        by_cases h1 : a = 124
        · subst h1
          rw [if_pos rfl]
          by_cases h2 : b = 35
          · subst h2
            simp only [and_self, if_true] at h ⊢
            cases d with
            | zero => simp at h
            | succ d =>
              simp only at h
              rw [if_neg (by omega)]
              have hd : (((d + 1 : Nat) : Int) - 1) = (d : Nat) := by omega
              rw [hd]
              obtain ⟨n', rfl⟩ : ∃ n', n = n' + 1 := ⟨n - 1, by simp at hn; omega⟩
              rw [commentLoop.eq_def]
              simp only
              rw [if_neg (by decide), if_neg (by decide), if_pos (by trivial)]
              cases s with
              | nil =>
                simp only
                exact sub [124, 35] [] d n' rfl (by simp) h
              | cons c s =>
                have hc : c ≠ 124 := by
                  rintro rfl
                  apply hov
                  exact (List.prefix_append [124, 35, 124] s).isInfix
                simp only
                rw [if_neg hc]
                exact sub [124, 35] (c :: s) d n' rfl (by simp) h
          · rw [if_neg (by simp [h2]), if_neg (by simp)] at h
            rw [if_neg h2]
            exact sub [124] (b :: s) d n rfl (by simp) h
        · rw [if_neg (by simp [h1])] at h
          rw [if_neg h1]
          by_cases h2 : a = 35
          · subst h2
            rw [if_pos rfl]
            by_cases h3 : b = 124
            · subst h3
              simp only [and_self, if_true] at h ⊢
              have := sub [35, 124] s (d + 1) n rfl (by simp) h
              push_cast at this
              exact this
            · rw [if_neg (by simp [h3])] at h
              rw [if_neg h3]
              exact sub [35] (b :: s) d n rfl (by simp) h
          · rw [if_neg (by simp [h2])] at h
            rw [if_neg h2]
            exact sub [a] (b :: s) d n rfl (by simp) h

/-! ### hexadecimal literals -/

/-- the value of digits, least significant first -/
def lsv : List Nat → Nat
  | [] => 0
  | c :: s => xval c + 16 * lsv s

theorem lsv_snoc (l : List Nat) (c : Nat) : lsv (l ++ [c]) = lsv l + 16 ^ l.length * xval c := by
  induction l with
  | nil => simp [lsv]
  | cons a l ih => simp only [List.cons_append, lsv, ih, List.length_cons, pow_succ]; ring

theorem xcode (c d : Nat) (h : DigitCode c d) (hd : d < 16) :
    isxdigit c = true ∧ xval c = d := by
  have hu : to_upper c = if d < 10 then 48 + d else 65 + (d - 10) := by
    unfold to_upper islower
    rcases h with ⟨h1, rfl⟩ | ⟨h1, h2, rfl | rfl⟩
    · rw [if_neg (by simp; omega), if_pos h1]
    · rw [if_neg (by simp; omega), if_neg (by omega)]
    · rw [if_pos (by simp; omega), if_neg (by omega)]; omega
  constructor
  · unfold isxdigit
    simp only [Bool.or_eq_true, Bool.and_eq_true, decide_eq_true_eq]
    rcases h with ⟨h1, rfl⟩ | ⟨h1, h2, rfl | rfl⟩ <;> omega
  · unfold xval
    rw [hu]
    by_cases h10 : d < 10
    · simp only [if_pos h10]; rw [if_pos (by omega)]; omega
    · simp only [if_neg h10]; rw [if_neg (by omega)]; omega

theorem xdigit_iff (c : Nat) : isxdigit c = true ↔ ∃ d, d < 16 ∧ DigitCode c d := by
  constructor
  · intro h
    unfold isxdigit at h
    simp only [Bool.or_eq_true, Bool.and_eq_true, decide_eq_true_eq] at h
    rcases h with (h | h) | h
    · exact ⟨c - 48, by omega, Or.inl ⟨by omega, by omega⟩⟩
    · exact ⟨c - 65 + 10, by omega, Or.inr ⟨by omega, by omega, Or.inl (by omega)⟩⟩
    · exact ⟨c - 97 + 10, by omega, Or.inr ⟨by omega, by omega, Or.inr (by omega)⟩⟩
  · rintro ⟨d, hd, h⟩; exact (xcode c d h hd).1

theorem uval_set : ∀ (v : List Word) (i : Nat) (w : Word), i < v.length →
    uval (v.set i w) + (v.getD i 0).toNat * (2 ^ 63) ^ i = uval v + w.toNat * (2 ^ 63) ^ i
  | [], i, w, h => by simp at h
  | a :: v, 0, w, _ => by simp [uval]; ring
  | a :: v, i + 1, w, h => by
    have ih := uval_set v i w (by simpa using h)
    simp only [List.set_cons_succ, uval, List.getD_cons_succ]
    rw [pow_succ (2 ^ 63) i]
    nlinarith

theorem uval_ge : ∀ (v : List Word) (i : Nat), i < v.length →
    (v.getD i 0).toNat * (2 ^ 63) ^ i ≤ uval v
  | [], i, h => by simp at h
  | a :: v, 0, _ => by simp [uval]
  | a :: v, i + 1, h => by
    have ih := uval_ge v i (by simpa using h)
    simp only [uval, List.getD_cons_succ]
    rw [pow_succ (2 ^ 63) i]
    nlinarith

theorem small_set (v : List Word) (i : Nat) (w : Word) (hv : Small v) (hw : w.toNat < 2 ^ 63) :
    Small (v.set i w) := by
  intro x hx
  rcases List.mem_or_eq_of_mem_set hx with h | h
  · exact hv x h
  · rw [h]; exact hw

theorem hexLoop_spec : ∀ (ds : List Nat) (p : Nat) (bv : List Word), Small bv → uval bv < 2 ^ p →
    (∀ c ∈ ds, xval c < 16) → (ds ≠ [] → p + 4 * ds.length < 63 * bv.length + 4) →
    uval bv + 2 ^ p * lsv ds < (2 ^ 63) ^ bv.length →
    ∃ bv', hexLoop ds p (p % 63) bv = some bv' ∧ bv'.length = bv.length ∧ Small bv' ∧
      uval bv' = uval bv + 2 ^ p * lsv ds
  | [], p, bv, hs, _, _, _, _ => ⟨bv, rfl, rfl, hs, by simp [lsv]⟩
  | c :: ds, p, bv, hs, hp, hx, hl, hN => by
    have hxc := hx c (by simp)
    have hl' := hl (by simp)
    simp only [List.length_cons] at hl'
    rw [hexLoop]
    simp only [lsv] at hN ⊢
    generalize xval c = x at hxc hN ⊢
    obtain ⟨i, q, hi, hq, hq63⟩ : ∃ i q, p / 63 = i ∧ p % 63 = q ∧ q < 63 :=
      ⟨_, _, rfl, rfl, Nat.mod_lt _ (by omega)⟩
    have hpq : p = 63 * i + q := by omega
    have hpow : 2 ^ p = 2 ^ q * (2 ^ 63) ^ i := by
      rw [hpq, pow_add, pow_mul, Nat.mul_comm]
    have hBi : 0 < (2 ^ 63) ^ i := Nat.pow_pos (by omega)
    have h2q : 0 < 2 ^ q := Nat.pow_pos (by omega)
    have hil : i < bv.length := by omega
    have hq1 : (p + 4) % 63 = (q + 4) % 63 := by omega
    rw [hi, hq]
    have hw : (bv.getD i 0).toNat < 2 ^ q := by
      have h1 := uval_ge bv i hil
      rw [hpow] at hp
      exact Nat.lt_of_mul_lt_mul_right (Nat.lt_of_le_of_lt h1 hp)
    have hsplit : 2 ^ q * 2 ^ (63 - q) = 2 ^ 63 := by rw [← pow_add]; congr 1; omega
    have hxn : (BitVec.ofNat 64 x : Word).toNat = x := by rw [BitVec.toNat_ofNat]; omega
    have hm : (((BitVec.ofNat 64 x : Word) <<< q) &&& MASK).toNat = 2 ^ q * (x % 2 ^ (63 - q)) := by
      rw [and_mask, BitVec.toNat_shiftLeft, hxn, Nat.shiftLeft_eq]
      have h63 : (9223372036854775808 : Nat) = 2 ^ 63 := by norm_num
      rw [h63, Nat.mod_mod_of_dvd _ (by exact ⟨2, by norm_num⟩), ← hsplit, Nat.mul_comm x,
        Nat.mul_mod_mul_left]
    have hhi : ((BitVec.ofNat 64 x : Word) >>> (63 - q)).toNat = x / 2 ^ (63 - q) := by
      rw [BitVec.toNat_ushiftRight, hxn, Nat.shiftRight_eq_div_pow]
    have hor : (bv.getD i 0 ||| (((BitVec.ofNat 64 x : Word) <<< q) &&& MASK)).toNat =
        (bv.getD i 0).toNat + 2 ^ q * (x % 2 ^ (63 - q)) := by
      rw [BitVec.toNat_or, hm, Nat.or_comm, ← Nat.two_pow_add_eq_or_of_lt hw]; omega
    have hxdm := Nat.mod_add_div x (2 ^ (63 - q))
    have hmlt : 2 ^ q * (x % 2 ^ (63 - q)) + 2 ^ q ≤ 2 ^ 63 := by
      rw [← hsplit]
      have : x % 2 ^ (63 - q) < 2 ^ (63 - q) := Nat.mod_lt _ (Nat.pow_pos (by omega))
      nlinarith
    have hset := uval_set bv i (bv.getD i 0 ||| (((BitVec.ofNat 64 x : Word) <<< q) &&& MASK)) hil
    rw [hor] at hset
    have hs1 := small_set bv i (bv.getD i 0 ||| (((BitVec.ofNat 64 x : Word) <<< q) &&& MASK)) hs
      (by rw [hor]; omega)
    have hg1 : (bv.set i (bv.getD i 0 ||| (((BitVec.ofNat 64 x : Word) <<< q) &&& MASK))).getD (i + 1) 0
        = bv.getD (i + 1) 0 := by
      rw [List.getD_eq_getElem?_getD, List.getElem?_set_ne (by omega), ← List.getD_eq_getElem?_getD]
    have hlen1 : (bv.set i (bv.getD i 0 ||| (((BitVec.ofNat 64 x : Word) <<< q) &&& MASK))).length
        = bv.length := List.length_set
    generalize bv.set i (bv.getD i 0 ||| (((BitVec.ofNat 64 x : Word) <<< q) &&& MASK)) = bv1
      at hset hs1 hg1 hlen1 ⊢
    generalize hhw : (BitVec.ofNat 64 x : Word) >>> (63 - q) = hw' at hhi ⊢
    have hx2 : x * 2 ^ q = 2 ^ q * (x % 2 ^ (63 - q)) + 2 ^ 63 * (x / 2 ^ (63 - q)) := by
      rw [← hsplit]
      calc x * 2 ^ q = (x % 2 ^ (63 - q) + 2 ^ (63 - q) * (x / 2 ^ (63 - q))) * 2 ^ q := by rw [hxdm]
        _ = _ := by ring
    generalize 2 ^ q * (x % 2 ^ (63 - q)) = m at hset hx2 hmlt
    rw [if_neg (by omega)]
    have hset' : uval bv1 = uval bv + m * (2 ^ 63) ^ i := by
      rw [Nat.add_mul] at hset; omega
    -- the rest of the loop
    have fin : ∀ bv2 : List Word, bv2.length = bv.length → Small bv2 →
        uval bv2 = uval bv + x * 2 ^ p →
        ∃ bv', hexLoop ds (p + 4) ((q + 4) % 63) bv2 = some bv' ∧ bv'.length = bv.length ∧ Small bv' ∧
          uval bv' = uval bv + 2 ^ p * (x + 16 * lsv ds) := by
      intro bv2 f1 f2 f3
      have hp4 : 2 ^ (p + 4) = 16 * 2 ^ p := by rw [pow_add]; ring
      have f4 : uval bv2 + 2 ^ (p + 4) * lsv ds = uval bv + 2 ^ p * (x + 16 * lsv ds) := by
        rw [f3, hp4]; ring
      obtain ⟨bv', r1, r2, r3, r4⟩ := hexLoop_spec ds (p + 4) bv2 f2
        (by rw [f3, hp4]; have := Nat.mul_le_mul_right (2 ^ p) (show x ≤ 15 by omega); omega) (fun c hc => hx c (by simp [hc]))
        (fun _ => by rw [f1]; omega) (by rw [f4, f1]; exact hN)
      rw [hq1] at r1
      exact ⟨bv', r1, by rw [r2, f1], r3, by rw [r4, f4]⟩
    by_cases hc : q ≥ 60 ∧ hw' ≠ 0
    · rw [if_pos hc]
      have hne : 1 ≤ x / 2 ^ (63 - q) := by
        rw [← hhi]
        by_contra h0
        apply hc.2
        apply BitVec.eq_of_toNat_eq
        simp only [BitVec.toNat_zero, BitVec.ofNat_eq_ofNat]; omega
      have hBig : (2 ^ 63) ^ (i + 1) ≤ 2 ^ p * (x + 16 * lsv ds) := by
        rw [hpow, pow_succ (2 ^ 63) i]
        have h1 : 2 ^ 63 ≤ x * 2 ^ q := by rw [hx2]; omega
        calc (2 ^ 63) ^ i * 2 ^ 63 ≤ (2 ^ 63) ^ i * (x * 2 ^ q) := Nat.mul_le_mul_left _ h1
          _ = 2 ^ q * (2 ^ 63) ^ i * x := by ring
          _ ≤ _ := Nat.mul_le_mul_left _ (by omega)
      have hi1 : i + 1 < bv.length := by
        by_contra hcon
        have : (2 ^ 63) ^ bv.length ≤ (2 ^ 63) ^ (i + 1) := Nat.pow_le_pow_right (by omega) (by omega)
        omega
      rw [if_neg (by omega)]
      have hz : (bv.getD (i + 1) 0).toNat = 0 := by
        have h1 := uval_ge bv (i + 1) hi1
        have h2 : 2 ^ p ≤ (2 ^ 63) ^ (i + 1) := by
          rw [hpow, pow_succ (2 ^ 63) i, Nat.mul_comm]
          exact Nat.mul_le_mul_left _ (Nat.pow_le_pow_right (by omega) (by omega))
        by_contra h0
        have : 1 * (2 ^ 63) ^ (i + 1) ≤ (bv.getD (i + 1) 0).toNat * (2 ^ 63) ^ (i + 1) :=
          Nat.mul_le_mul_right _ (by omega)
        omega
      have hset2 := uval_set bv1 (i + 1) hw' (by omega)
      rw [hg1, hz, hhi] at hset2
      refine fin _ (by rw [List.length_set, hlen1]) (small_set _ _ _ hs1 (by
        rw [hhi]
        have := Nat.div_le_self x (2 ^ (63 - q))
        omega)) ?_
      rw [hpow, ← Nat.mul_assoc, hx2, Nat.add_mul]
      have e1 : x / 2 ^ (63 - q) * (2 ^ 63) ^ (i + 1) = 2 ^ 63 * (x / 2 ^ (63 - q)) * (2 ^ 63) ^ i := by
        rw [pow_succ (2 ^ 63) i]; ring
      omega
    · rw [if_neg hc]
      have h0 : x / 2 ^ (63 - q) = 0 := by
        by_cases h60 : q ≥ 60
        · have : hw' = 0 := by
            by_contra hh; exact hc ⟨h60, hh⟩
          rw [← hhi, this]; rfl
        · apply Nat.div_eq_of_lt
          have : 2 ^ 4 ≤ 2 ^ (63 - q) := Nat.pow_le_pow_right (by omega) (by omega)
          omega
      refine fin bv1 hlen1 hs1 ?_
      rw [hset', hpow, ← Nat.mul_assoc, hx2, h0]
      ring


theorem hexTake_spec : ∀ (n : Nat) (buf rest : List Nat), buf.length ≤ n → (∀ c ∈ buf, isxdigit c = true) →
    (∀ c ∈ rest.head?, isxdigit c = false) → hexTake n (buf ++ rest) = (buf, rest)
  | 0, [], rest, _, _, _ => by rw [hexTake]; rfl
  | n + 1, [], rest, _, _, hr => by
    cases rest with
    | nil => rfl
    | cons c s =>
      have := hr c (by simp)
      rw [List.nil_append, hexTake, this]; rfl
  | 0, c :: buf, rest, h, _, _ => by simp at h
  | n + 1, c :: buf, rest, h, hb, hr => by
    simp only [List.length_cons] at h
    rw [List.cons_append, hexTake, hb c (by simp), if_pos rfl,
      hexTake_spec n buf rest (by omega) (fun x hx => hb x (by simp [hx])) hr]

theorem sscanfHex_spec (cs ds : List Nat) (acc : Nat) (h : List.Forall₂ DigitCode cs ds)
    (hd : ∀ d ∈ ds, d < 16) : sscanfHex cs acc = acc * 16 ^ ds.length + posVal 16 ds := by
  induction h generalizing acc with
  | nil => simp [sscanfHex, posVal]
  | @cons c d cs ds hc _ ih =>
    rw [sscanfHex, (xcode c d hc (hd d (by simp))).2, ih _ (fun x hx => hd x (by simp [hx]))]
    simp only [posVal, List.length_cons, pow_succ]
    ring

theorem lsv_reverse (cs ds : List Nat) (h : List.Forall₂ DigitCode cs ds)
    (hd : ∀ d ∈ ds, d < 16) : lsv cs.reverse = posVal 16 ds := by
  induction h with
  | nil => rfl
  | @cons c d cs ds hc hr ih =>
    rw [List.reverse_cons, lsv_snoc, (xcode c d hc (hd d (by simp))).2,
      ih (fun x hx => hd x (by simp [hx])), List.length_reverse, hr.length_eq]
    simp only [posVal]; ring

theorem uval_zeros (n : Nat) : uval (List.replicate n 0) = 0 := by
  induction n with
  | zero => rfl
  | succ n ih => rw [List.replicate_succ, uval, ih]; rfl

theorem small_zeros (n : Nat) : Small (List.replicate n 0) := by
  intro w hw
  rw [List.eq_of_mem_replicate hw]; decide

theorem hex_spec (buf rest : List Nat) (N val : Nat) (h : Digits 16 buf N) (hl : buf.length ≤ 64)
    (hr : ∀ c ∈ rest.head?, isxdigit c = false) :
    ∃ m, read_sharp_hex val (buf ++ rest) = some (m, rest) ∧ m.Canonical ∧ m.val = N := by
  obtain ⟨ds, hne, hd, hc, hv⟩ := h
  have hlen := hc.length_eq
  have hpos : 0 < ds.length := List.length_pos_iff.2 hne
  have hx : ∀ c ∈ buf, isxdigit c = true ∧ xval c < 16 := by
    clear hlen hl hne hv hpos hr
    induction hc with
    | nil => simp
    | @cons c d cs ds hcd _ ih =>
      intro x hx
      rcases List.mem_cons.1 hx with rfl | hx
      · have := xcode x d hcd (hd d (by simp))
        exact ⟨this.1, by rw [this.2]; exact hd d (by simp)⟩
      · exact ih (fun y hy => hd y (by simp [hy])) x hx
  unfold read_sharp_hex
  rw [hexTake_spec 64 buf rest hl (fun c hc => (hx c hc).1) hr]
  simp only
  -- the number of bits
  generalize hb0 : buf.headD 0 = b0
  obtain ⟨adj, hadj, hadj3, hN⟩ : ∃ adj : Nat, (adj : Int) = (if b0 < 50 then 3 else
      if b0 < 52 then 2 else if b0 < 56 then 1 else (0 : Int)) ∧ adj ≤ 3 ∧
      N < 2 ^ (4 * buf.length - adj) := by
    cases hc with
    | nil => exact absurd rfl hne
    | @cons c d cs ds hcd hrest =>
      have hd16 := hd d (by simp)
      have hb0' : c = b0 := hb0
      subst hb0'
      simp only [List.length_cons]
      have hpl := posVal_lt 16 ds (fun x hx => hd x (by simp [hx]))
      have hlt : posVal 16 ds < 16 ^ ds.length := by
        rcases hpl with h | ⟨rfl, h⟩
        · exact h
        · rw [h]; simp
      have h16 : 16 ^ ds.length = 2 ^ (4 * ds.length) := by rw [pow_mul]; norm_num
      have hl2 := hrest.length_eq
      have key : ∀ a : Nat, a ≤ 3 → d < 2 ^ (4 - a) → N < 2 ^ (4 * (cs.length + 1) - a) := by
        intro a ha hda
        rw [← hv]
        simp only [posVal]
        have e : 4 * (cs.length + 1) - a = (4 - a) + 4 * ds.length := by omega
        rw [e, pow_add, ← h16]
        calc d * 16 ^ ds.length + posVal 16 ds < (d + 1) * 16 ^ ds.length := by
              rw [Nat.add_mul]; omega
          _ ≤ _ := Nat.mul_le_mul_right _ hda
      have hcd' : (c < 50 → d < 2) ∧ (c < 52 → d < 4) ∧ (c < 56 → d < 8) := by
        rcases hcd with ⟨h1, rfl⟩ | ⟨h1, h2, rfl | rfl⟩ <;> omega
      by_cases h1 : c < 50
      · exact ⟨3, by rw [if_pos h1]; rfl, by omega, key 3 (by omega) (hcd'.1 h1)⟩
      · by_cases h2 : c < 52
        · exact ⟨2, by rw [if_neg h1, if_pos h2]; rfl, by omega, key 2 (by omega) (hcd'.2.1 h2)⟩
        · by_cases h3 : c < 56
          · exact ⟨1, by rw [if_neg h1, if_neg h2, if_pos h3]; rfl, by omega, key 1 (by omega) (hcd'.2.2 h3)⟩
          · exact ⟨0, by rw [if_neg h1, if_neg h2, if_neg h3]; rfl, by omega, key 0 (by omega) (by omega)⟩
  rw [← hadj]
  have hj : (4 * (buf.length : Int) - adj) = ((4 * buf.length - adj : Nat) : Int) := by omega
  rw [hj]
  generalize hjj : 4 * buf.length - adj = j at hN
  by_cases hsm : ((j : Nat) : Int) < 62
  · rw [if_pos hsm, if_neg (by omega), sscanfHex_spec buf ds 0 hc hd, hv]
    have hj61 : 2 ^ j ≤ 2 ^ 61 := Nat.pow_le_pow_right (by omega) (by omega)
    have e : (0 * 16 ^ ds.length + N) = N := by omega
    rw [e]
    have h2 := ofNat_toInt N (by omega)
    have := makeint_canonical (BitVec.ofNat 64 N) (by rw [h2]; unfold InFix; omega)
    exact ⟨_, rfl, this.1, by rw [this.2, h2]⟩
  · rw [if_neg hsm]
    have hL : j ≤ 63 * ((((j : Nat) : Int).toNat + 62) / 63) := by
      rw [Int.toNat_natCast]; omega
    generalize hLL : (((j : Nat) : Int).toNat + 62) / 63 = L at hL
    have hLpos : 0 < L := by omega
    have hNL : N < (2 ^ 63) ^ L := by
      rw [← pow_mul]
      exact Nat.lt_of_lt_of_le hN (Nat.pow_le_pow_right (by omega) hL)
    have hrev := lsv_reverse buf ds hc hd
    obtain ⟨bv', r1, r2, r3, r4⟩ := hexLoop_spec buf.reverse 0 (List.replicate L 0) (small_zeros L)
      (by rw [uval_zeros]; decide) (fun c hc => (hx c (by simpa using hc)).2)
      (fun _ => by simp only [List.length_reverse, List.length_replicate]; omega)
      (by rw [uval_zeros, hrev, hv, List.length_replicate]; simpa using hNL)
    rw [show (0 : Nat) % 63 = 0 from rfl] at r1
    rw [r1]
    rw [uval_zeros, hrev, hv] at r4
    rw [List.length_replicate] at r2
    obtain ⟨w1, w2⟩ := limbsVal_of_small bv' r3 (by
      intro hh; rw [hh] at r2; simp at r2; omega)
    obtain ⟨n1, n2, n3⟩ := normalize_bignum_spec bv' w1
    refine ⟨_, rfl, n3 (fun h => by omega), ?_⟩
    rw [n2, w2, r4]; simp

/-! ### octal literals -/

theorem octcode (c d : Nat) (h : DigitCode c d) (hd : d < 8) : 48 ≤ c ∧ c < 56 ∧ c - 48 = d := by
  rcases h with ⟨h1, rfl⟩ | ⟨h1, h2, rfl | rfl⟩ <;> omega

theorem octTake_spec : ∀ (n : Nat) (buf rest : List Nat), buf.length ≤ n → (∀ c ∈ buf, 48 ≤ c ∧ c < 56) →
    (∀ c ∈ rest.head?, ¬ (48 ≤ c ∧ c < 56)) → octTake n (buf ++ rest) = (buf, rest)
  | 0, [], rest, _, _, _ => by rw [octTake]; rfl
  | n + 1, [], rest, _, _, hr => by
    cases rest with
    | nil => rfl
    | cons c s =>
      have := hr c (by simp)
      rw [List.nil_append, octTake, if_neg this]
  | 0, c :: buf, rest, h, _, _ => by simp at h
  | n + 1, c :: buf, rest, h, hb, hr => by
    simp only [List.length_cons] at h
    rw [List.cons_append, octTake, if_pos (hb c (by simp)),
      octTake_spec n buf rest (by omega) (fun x hx => hb x (by simp [hx])) hr]

theorem octVal_spec (cs ds : List Nat) (acc : Nat) (h : List.Forall₂ DigitCode cs ds)
    (hd : ∀ d ∈ ds, d < 8) : octVal cs acc = acc * 8 ^ ds.length + posVal 8 ds := by
  induction h generalizing acc with
  | nil => simp [octVal, posVal]
  | @cons c d cs ds hc _ ih =>
    rw [octVal, (octcode c d hc (hd d (by simp))).2.2, ih _ (fun x hx => hd x (by simp [hx]))]
    simp only [posVal, List.length_cons, pow_succ]
    ring

theorem oct_spec (buf rest : List Nat) (N : Nat) (h : Digits 8 buf N) (hl : buf.length ≤ 31)
    (hN : N < 2 ^ 61) (hr : ∀ c ∈ rest.head?, ¬ (48 ≤ c ∧ c < 56)) :
    ∃ m, read_sharp_octal (buf ++ rest) = some (m, rest) ∧ m.Canonical ∧ m.val = N := by
  obtain ⟨ds, hne, hd, hc, hv⟩ := h
  have hx : ∀ c ∈ buf, 48 ≤ c ∧ c < 56 := by
    clear hl hne hv hr hN
    induction hc with
    | nil => simp
    | @cons c d cs ds hcd _ ih =>
      intro x hx
      rcases List.mem_cons.1 hx with rfl | hx
      · have := octcode x d hcd (hd d (by simp))
        exact ⟨this.1, this.2.1⟩
      · exact ih (fun y hy => hd y (by simp [hy])) x hx
  unfold read_sharp_octal
  rw [octTake_spec 32 buf rest (by omega) hx hr]
  simp only
  rw [if_neg (by omega), octVal_spec buf ds 0 hc hd, hv]
  have e : min (0 * 8 ^ ds.length + N) (2 ^ 64 - 1) = N := by omega
  rw [e]
  have h2 := ofNat_toInt N (by omega)
  have := makeint_canonical (BitVec.ofNat 64 N) (by rw [h2]; unfold InFix; omega)
  exact ⟨_, rfl, this.1, by rw [this.2, h2]⟩

/-! ### field widths -/

theorem pad_len (j : Int) (c : Nat) : (pad j c).length = j.toNat := by simp [pad]

/-- Printing in a field. -/
theorem printnum_field (base : Nat) (down : Bool) (hb : 2 ≤ base) (hb' : base ≤ 36) (n : Num)
    (hn : n.WF) (h0 : ∀ v, n = .big v → limbsVal v ≠ 0) (f1 f2 : Nat) :
    ∃ ds : List Nat, printnum base down n 0 0 = some ((if n.val < 0 then [45] else []) ++ ds) ∧
      ((∀ v, n = .big v → limbsVal v < 0 → f2 ≤ ds.length) →
      printnum base down n f1 f2 = some (
        let w := (if n.val < 0 then 1 else 0) + ds.length
        List.replicate (f1 - max f2 w) 32 ++ (if n.val < 0 then [45] else []) ++
          List.replicate (f2 - w) 48 ++ ds)) := by
  have hrep : ∀ (j : Int) (k c : Nat), (j ≤ 0 ∧ k = 0 ∨ j = k) → pad j c = List.replicate k c := by
    intro j k c h
    unfold pad
    congr 1
    omega
  cases n with
  | fix w =>
    have hp0 := printnum_spec base down hb hb' (.fix w) hn h0
    obtain ⟨ds, h1, h2, h3, h5, h4⟩ := hp0
    refine ⟨_, h4, fun _ => ?_⟩
    simp only [printnum, printint] at h4 ⊢
    rw [if_neg (by omega)] at h4 ⊢
    cases hw : workLoop base down 65
        (if decide (w.toInt < 0) = true then -w else w).toNat [] with
    | none => rw [hw] at h4; simp at h4
    | some es =>
      rw [hw] at h4
      simp only [Option.some.injEq] at h4 ⊢
      have hv : (Num.fix w).val = w.toInt := rfl
      rw [hv] at h4 ⊢
      by_cases h : w.toInt < 0
      · simp only [h, decide_true, if_true] at h4 ⊢
        rw [if_neg (by omega), pad_neg _ _ (by omega), pad_neg _ _ (by omega)] at h4
        simp only [List.nil_append, List.append_nil, List.append_cancel_left_eq] at h4
        rw [h4]
        congr 2
        · congr 1
          apply hrep
          by_cases hf : (f2 : Int) > (ds.map (digitChar down)).length + 1
          · rw [if_pos hf]; omega
          · rw [if_neg hf]; omega
        · apply hrep; omega
      · simp only [h, decide_false, Bool.false_eq_true, if_false] at h4 ⊢
        rw [if_neg (by omega), pad_neg _ _ (by omega), pad_neg _ _ (by omega)] at h4
        simp only [List.nil_append] at h4
        rw [h4]
        congr 2
        · congr 1
          apply hrep
          by_cases hf : (f2 : Int) > (ds.map (digitChar down)).length
          · rw [if_pos hf]; omega
          · rw [if_neg hf]; omega
        · apply hrep; omega
  | big v =>
    have hp0 := printnum_spec base down hb hb' (.big v) hn h0
    obtain ⟨ds, h1, h2, h3, h5, h4⟩ := hp0
    refine ⟨_, h4, fun hneg => ?_⟩
    have hneg' := hneg v rfl
    have hsg := sign_iff v hn
    simp only [printnum, printbig] at h4 ⊢
    generalize hbb : (if decide ((big_sign v).toInt < 0) = true then big_minus v else v) = b at h4 ⊢
    cases hw : bigLoop base down (64 * b.length + 1) b [] with
    | none => rw [hw] at h4; simp at h4
    | some es =>
      rw [hw] at h4
      simp only [Option.some.injEq] at h4 ⊢
      have hv : (Num.big v).val = limbsVal v := rfl
      rw [hv] at h4 ⊢
      have hdl : ds.length ≥ 1 := List.length_pos_iff.2 h1
      by_cases h : limbsVal v < 0
      · have hs : (big_sign v).toInt < 0 := hsg.2 h
        simp only [h, hs, decide_true, if_true] at h4 ⊢
        have hlen := hneg' h
        have hes : es = ds.map (digitChar down) := by
          by_cases he : (0 : Int) < es.length
          · rw [if_pos he, pad_neg _ _ (by omega), pad_neg _ _ (by omega)] at h4
            simpa using h4
          · rw [if_neg he, pad_neg _ _ (by omega), pad_neg _ _ (by omega)] at h4
            simpa using h4
        rw [hes]
        congr 2
        · congr 1
          apply hrep
          by_cases hf : (f2 : Int) < (ds.map (digitChar down)).length
          · rw [if_pos hf]; omega
          · rw [if_neg hf]; omega
        · apply hrep; omega
      · have hs : ¬ (big_sign v).toInt < 0 := fun hh => h (hsg.1 hh)
        simp only [h, hs, decide_false, Bool.false_eq_true, if_false] at h4 ⊢
        have hes : es = ds.map (digitChar down) := by
          by_cases he : (0 : Int) < es.length
          · rw [if_pos he, pad_neg _ _ (by omega), pad_neg _ _ (by omega)] at h4
            simpa using h4
          · rw [if_neg he, pad_neg _ _ (by omega), pad_neg _ _ (by omega)] at h4
            simpa using h4
        rw [hes]
        congr 2
        · congr 1
          apply hrep
          by_cases hf : (f2 : Int) < (ds.map (digitChar down)).length
          · rw [if_pos hf]; omega
          · rw [if_neg hf]; omega
        · apply hrep; omega

/-! ### tokens that are too long -/

theorem step8_long : ∀ (w : List Nat) (t : Tok) (rest : List Nat),
    (∀ c ∈ w, syntaxtype c = .constituent ∧ c ≠ 58) → t.tok.length + w.length ≥ 1024 →
    step8 t (w ++ rest) = .err
  | [], t, rest, _, hl => by
    rw [step8.eq_def]
    cases rest <;> simp only [List.nil_append] <;> rw [if_pos (by simpa using hl)]
  | c :: w, t, rest, h, hl => by
    by_cases hc : t.tok.length < 1024
    · rw [List.cons_append, step8_put t c _ hc (Or.inl (h c (by simp)).1)]
      apply step8_long w _ rest (fun x hx => h x (by simp [hx]))
      simp only [Tok.put, List.length_append, List.length_cons] at hl ⊢
      omega
    · rw [List.cons_append, step8.eq_def]
      simp only
      rw [if_pos (by omega)]

end Eus.Rd
