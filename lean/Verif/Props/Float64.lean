import Verif.Lemmas.Float64
/-!
# C124: floating point does not change a decision

Percentages, shares, the similarity of descriptions and the number of eviction attempts are computed with `float64`. The theorems say that the results are those of exact
arithmetic, up to sizes far beyond real fleets, and what happens beyond them.
-/
namespace MCM.Float64
open MCM

/-! ## Specification, in exact arithmetic -/

/-- the integer nearest to `x`, half away from zero -/
def HalfAway (x : ℚ) (n : ℤ) : Prop := (0 ≤ x ∧ (n : ℚ) ≤ x + 1 / 2 ∧ x + 1 / 2 < n + 1) ∨ (x < 0 ∧ x - 1 / 2 ≤ n ∧ (n : ℚ) - 1 < x - 1 / 2)

/-- the integer nearest to `x`; of two equally near ones the even one -/
def HalfEven (x : ℚ) (n : ℤ) : Prop := ∀ m : ℤ, m ≠ n → |x - n| < |x - m| ∨ (|x - n| = |x - m| ∧ 2 ∣ n)

/-- **C124**: the rounding is that of IEEE 754, and there is only one such integer -/
theorem C124_rounding (x : ℚ) : HalfEven x (nearest x) ∧ ∀ n, HalfEven x n → n = nearest x := by
  have key : HalfEven x (nearest x) := by
    have h0 := Int.floor_le x
    have h1 := Int.lt_floor_add_one x
    have down : ∀ m : ℤ, m ≠ ⌊x⌋ → x - ⌊x⌋ ≤ 1 / 2 → |x - ⌊x⌋| ≤ 1 / 2 ∧ 1 / 2 ≤ |x - m| ∧ (x - ⌊x⌋ < 1 / 2 → |x - (⌊x⌋ : ℚ)| < |x - m|) := by
      intro m hm hx
      have ha : |x - (⌊x⌋ : ℚ)| = x - ⌊x⌋ := abs_of_nonneg (by linarith)
      rw [ha]
      rcases lt_or_gt_of_ne hm with h | h
      · have : (m : ℚ) + 1 ≤ ⌊x⌋ := by exact_mod_cast h
        rw [abs_of_nonneg (by linarith)]
        exact ⟨hx, by linarith, fun _ => by linarith⟩
      · have : (⌊x⌋ : ℚ) + 1 ≤ m := by exact_mod_cast h
        rw [abs_sub_comm, abs_of_nonneg (by linarith)]
        exact ⟨hx, by linarith, fun _ => by linarith⟩
    have up : ∀ m : ℤ, m ≠ ⌊x⌋ + 1 → 1 / 2 ≤ x - ⌊x⌋ → |x - ((⌊x⌋ + 1 : ℤ) : ℚ)| ≤ 1 / 2 ∧ 1 / 2 ≤ |x - m| ∧ (1 / 2 < x - ⌊x⌋ → |x - ((⌊x⌋ + 1 : ℤ) : ℚ)| < |x - m|) := by
      intro m hm hx
      have ha : |x - ((⌊x⌋ + 1 : ℤ) : ℚ)| = ⌊x⌋ + 1 - x := by push_cast; rw [abs_sub_comm, abs_of_nonneg (by linarith)]
      rw [ha]
      rcases lt_or_gt_of_ne hm with h | h
      · have : (m : ℚ) ≤ ⌊x⌋ := by exact_mod_cast Int.lt_add_one_iff.1 h
        rw [abs_of_nonneg (by linarith)]
        exact ⟨by linarith, by linarith, fun _ => by linarith⟩
      · have : (⌊x⌋ : ℚ) + 1 + 1 ≤ m := by exact_mod_cast h
        rw [abs_sub_comm, abs_of_nonneg (by linarith)]
        exact ⟨by linarith, by linarith, fun _ => by linarith⟩
    intro m hm
    unfold nearest at hm ⊢
    split at hm
    · rename_i h
      rw [if_pos h]
      exact .inl ((down m hm h.le).2.2 h)
    · rename_i h
      rw [if_neg h]
      split at hm
      · rename_i h'
        rw [if_pos h']
        exact .inl ((up m hm h'.le).2.2 h')
      · rename_i h'
        rw [if_neg h']
        have hx : x - ⌊x⌋ = 1 / 2 := le_antisymm (not_lt.1 h') (not_lt.1 h)
        split at hm
        · rename_i he
          rw [if_pos he]
          obtain ⟨h2, h3, _⟩ := down m hm hx.le
          rcases lt_or_eq_of_le (h2.trans h3) with h4 | h4
          · exact .inl h4
          · exact .inr ⟨h4, Int.dvd_of_emod_eq_zero he⟩
        · rename_i he
          rw [if_neg he]
          obtain ⟨h2, h3, _⟩ := up m hm hx.ge
          rcases lt_or_eq_of_le (h2.trans h3) with h4 | h4
          · exact .inl h4
          · exact .inr ⟨h4, by omega⟩
  refine ⟨key, fun n hn => ?_⟩
  by_contra hne
  have key' := key
  rcases key n hne with h1 | ⟨h1, h2⟩ <;> rcases hn (nearest x) (Ne.symm hne) with h3 | ⟨h3, h4⟩
  · linarith
  · linarith
  · linarith
  · -- both even and equally near: they lie on both sides of `x`, and the number between is nearer
    obtain ⟨a, ha⟩ := h2
    obtain ⟨b, hb⟩ := h4
    have hab : a + b ≠ nearest x := by omega
    have hsum : ((a + b : ℤ) : ℚ) = x := by
      have hs : x - (nearest x : ℚ) = -(x - n) := by
        rcases abs_eq_abs.1 h1 with h | h
        · exact absurd (by exact_mod_cast (by linarith : (n : ℚ) = nearest x)) hne
        · exact h
      have : (nearest x : ℚ) + n = 2 * x := by linarith
      rw [ha, hb] at this
      push_cast at this ⊢
      linarith
    rcases key' (a + b) hab with h5 | ⟨h5, _⟩
    · rw [hsum, sub_self, abs_zero] at h5
      exact absurd h5 (not_lt.2 (abs_nonneg _))
    · rw [hsum, sub_self, abs_zero, abs_eq_zero, sub_eq_zero] at h5
      exact hab (by exact_mod_cast hsum.trans h5)

/-! ## Percentages -/

theorem pct_err (v t : ℤ) (hv : |v| < 2 ^ 53) (ht : |t| < 2 ^ 53) (h : |v * t| < 2 ^ 53) :
    ⌊pct v t⌋ = ⌊((v * t : ℤ) : ℚ) / 100⌋ ∧ ⌈pct v t⌉ = ⌈((v * t : ℤ) : ℚ) / 100⌉ := by
  have e : pct v t = fl (((v * t : ℤ) : ℚ) / 100) := by
    unfold pct
    rw [fl_int v hv, fl_int t ht]
    have := fl_int (v * t) h
    push_cast at this ⊢
    rw [this]
  have hs := stable (v * t) 100 (by norm_num) (pct v t) ?_ ?_
  · push_cast at hs ⊢; exact hs
  · rw [e]
    have := fl_err (((v * t : ℤ) : ℚ) / 100)
    push_cast at this ⊢
    refine lt_of_le_of_lt this ?_
    rw [abs_div]
    have hh : |(v : ℚ) * t| < 2 ^ 53 := by exact_mod_cast h
    rw [abs_of_pos (by norm_num : (0 : ℚ) < 100), div_lt_iff₀ (by norm_num), div_lt_iff₀ (by norm_num)]
    linarith
  · intro k hk
    rw [e]
    have hk' : ((v * t : ℤ) : ℚ) / 100 = k := by push_cast at hk ⊢; exact hk
    rw [hk']
    refine fl_int k ?_
    have h1 : (v * t : ℤ) = k * 100 := by
      have : ((v * t : ℤ) : ℚ) = k * 100 := by rw [← hk']; ring
      exact_mod_cast this
    rw [h1, abs_mul] at h
    have : |k| ≤ |k| * |(100 : ℤ)| := le_mul_of_one_le_right (abs_nonneg k) (by decide)
    exact lt_of_le_of_lt this h

/-- **C124, percentages.** `maxSurge` and `maxUnavailable` given in percent are rounded up and down as exact arithmetic rounds them. -/
theorem C124_percent (v t : ℤ) (hv : |v| < 2 ^ 53) (ht : |t| < 2 ^ 53) (h : |v * t| < 2 ^ 53) :
    ⌈pct v t⌉ = ⌈(v * t : ℚ) / 100⌉ ∧ ⌊pct v t⌋ = ⌊(v * t : ℚ) / 100⌋ ∧ ⌈pct v t⌉ = Rolling.ceilPct v t ∧ ⌊pct v t⌋ = Rolling.floorPct v t := by
  obtain ⟨h1, h2⟩ := pct_err v t hv ht h
  have c := ceil_div (v * t) 100 (by norm_num)
  have f := floor_div (v * t) 100 (by norm_num)
  refine ⟨?_, ?_, ?_, ?_⟩
  · rw [h2]; push_cast; rfl
  · rw [h1]; push_cast; rfl
  · rw [h2]; exact_mod_cast c
  · rw [h1]; exact_mod_cast f

/-- 25 % of 2 147 483 647 machines -/
example : ⌈pct 25 2147483647⌉ = 536870912 := by
  rw [(C124_percent 25 2147483647 (by norm_num) (by norm_num) (by norm_num)).2.2.1]; decide

/-! ## Shares in a scale-in -/

theorem round_pos (x y : ℤ) (hx : 0 ≤ x) (hy : 0 < y) (hxb : x < 2 ^ 31) (hyb : y < 2 ^ 31) :
    roundToInt32 (fl ((x : ℚ) / y)) = (2 * x + y) / (2 * y) := by
  have hyq : (0 : ℚ) < y := by exact_mod_cast hy
  have hxq : (0 : ℚ) ≤ x := by exact_mod_cast hx
  have hx1 : (x : ℚ) ≤ 2 ^ 31 := by exact_mod_cast hxb.le
  have hy1 : (y : ℚ) ≤ 2 ^ 31 := by exact_mod_cast hyb.le
  have hv : 0 ≤ (x : ℚ) / y := by positivity
  have e1 := fl_err ((x : ℚ) / y)
  have ha := fl_nonneg hv
  have e2 := fl_err (fl ((x : ℚ) / y) + 1 / 2)
  generalize hA : fl ((x : ℚ) / y) = A at *
  have hs : 0 ≤ fl (A + 1 / 2) := fl_nonneg (by linarith)
  unfold roundToInt32 trunc
  rw [if_neg (not_lt.2 ha), if_pos hs, ← floor_div (2 * x + y) (2 * y) (by omega)]
  refine (stable (2 * x + y) (2 * y) (by omega) _ ?_ ?_).1
  · have hq : ((2 * x + y : ℤ) : ℚ) / (2 * y : ℤ) = x / y + 1 / 2 := by push_cast; field_simp
    rw [hq]
    push_cast
    rw [abs_of_nonneg hv] at e1
    rw [abs_of_nonneg (by linarith : 0 ≤ A + 1 / 2)] at e2
    have hx2 : (x : ℚ) / y ≤ 2 ^ 31 / y := by gcongr
    have hAle : A ≤ 2 * (x / y) := by
      have := (abs_le.1 e1).2
      have h2 : (x : ℚ) / y / 2 ^ 53 ≤ x / y := div_le_self hv (by norm_num)
      linarith
    have htri : |fl (A + 1 / 2) - (x / y + 1 / 2)| ≤ |fl (A + 1 / 2) - (A + 1 / 2)| + |A - x / y| := by
      have : fl (A + 1 / 2) - ((x : ℚ) / y + 1 / 2) = (fl (A + 1 / 2) - (A + 1 / 2)) + (A - x / y) := by ring
      rw [this]; exact abs_add_le _ _
    have hfin : (3 * ((x : ℚ) / y) + 1 / 2) / 2 ^ 53 < 1 / (2 * y) := by
      have h1 : (3 * ((x : ℚ) / y) + 1 / 2) / 2 ^ 53 ≤ (3 * (2 ^ 31 / y) + 2 ^ 31 / y) / 2 ^ 53 := by
        have : (1 : ℚ) / 2 ≤ 2 ^ 31 / y := by rw [le_div_iff₀ hyq]; linarith
        gcongr
      have h2 : (3 * ((2 : ℚ) ^ 31 / y) + 2 ^ 31 / y) / 2 ^ 53 = 1 / (2 * y) * (2 / 2 ^ 20) := by
        field_simp; norm_num
      have h3 : (0 : ℚ) < 1 / (2 * y) := by positivity
      rw [h2] at h1
      refine lt_of_le_of_lt h1 ?_
      refine mul_lt_of_lt_one_right h3 (by norm_num)
    have : (A + 1 / 2) / 2 ^ 53 + x / y / 2 ^ 53 ≤ (3 * ((x : ℚ) / y) + 1 / 2) / 2 ^ 53 := by
      rw [← add_div]; refine div_le_div_of_nonneg_right ?_ (by norm_num); linarith
    linarith
  · intro k hk
    have hq : ((2 * x + y : ℤ) : ℚ) / (2 * y : ℤ) = x / y + 1 / 2 := by push_cast; field_simp
    rw [hq] at hk
    have hxk : (x : ℚ) / y = (2 * k - 1) / 2 := by linarith
    have hub : (x : ℚ) / y ≤ 2 ^ 31 := by
      refine le_trans (div_le_self hxq ?_) hx1
      exact_mod_cast hy
    have hex : A = x / y := by
      rw [← hA]
      refine fl_exact _ 1 (2 * k - 1) (by rw [hxk]; push_cast; ring) ?_
      rw [abs_of_nonneg hv]
      calc (x : ℚ) / y * 2 ^ 1 ≤ 2 ^ 31 * 2 ^ 1 := by gcongr
        _ < 2 ^ 53 := by norm_num
    have hAk : A + 1 / 2 = k := by rw [hex, hk]
    rw [hAk]
    refine fl_int k ?_
    have h1 : (k : ℚ) ≤ 2 ^ 31 + 1 := by rw [← hk]; linarith
    have h0 : (0 : ℚ) ≤ k := by rw [← hk]; linarith
    have h1' : k ≤ 2 ^ 31 + 1 := by exact_mod_cast h1
    have h0' : 0 ≤ k := by exact_mod_cast h0
    rw [abs_of_nonneg h0']
    omega

theorem round_neg (x y : ℤ) (hx : x < 0) (hy : 0 < y) (hxb : -2 ^ 31 ≤ x) (hyb : y < 2 ^ 31) :
    roundToInt32 (fl ((x : ℚ) / y)) = -((2 * -x + y) / (2 * y)) := by
  have hyq : (0 : ℚ) < y := by exact_mod_cast hy
  have hxq : (x : ℚ) < 0 := by exact_mod_cast hx
  have hx1 : -(x : ℚ) ≤ 2 ^ 31 := by exact_mod_cast (by omega : -x ≤ 2 ^ 31)
  have hy1 : (y : ℚ) ≤ 2 ^ 31 := by exact_mod_cast hyb.le
  have hv : (x : ℚ) / y < 0 := div_neg_of_neg_of_pos hxq hyq
  have e1 := fl_err ((x : ℚ) / y)
  have ha := fl_neg hv
  have e2 := fl_err (fl ((x : ℚ) / y) - 1 / 2)
  generalize hA : fl ((x : ℚ) / y) = A at *
  have hs : fl (A - 1 / 2) < 0 := fl_neg (by linarith)
  unfold roundToInt32 trunc
  have hce : -((2 * -x + y) / (2 * y)) = ⌈((2 * x - y : ℤ) : ℚ) / (2 * y : ℤ)⌉ := by
    rw [ceil_div (2 * x - y) (2 * y) (by omega)]
    congr 2; ring
  rw [if_pos ha, if_neg (not_le.2 hs), hce]
  refine (stable (2 * x - y) (2 * y) (by omega) _ ?_ ?_).2
  · have hq : ((2 * x - y : ℤ) : ℚ) / (2 * y : ℤ) = x / y - 1 / 2 := by push_cast; field_simp
    rw [hq]
    push_cast
    rw [abs_of_neg hv] at e1
    rw [abs_of_neg (by linarith : A - 1 / 2 < 0)] at e2
    have hx2 : -((x : ℚ) / y) ≤ 2 ^ 31 / y := by rw [← neg_div]; gcongr
    have hAle : -A ≤ 2 * -((x : ℚ) / y) := by
      have := (abs_le.1 e1).1
      have h2 : -((x : ℚ) / y) / 2 ^ 53 ≤ -(x / y) := div_le_self (by linarith) (by norm_num)
      linarith
    have htri : |fl (A - 1 / 2) - (x / y - 1 / 2)| ≤ |fl (A - 1 / 2) - (A - 1 / 2)| + |A - x / y| := by
      have : fl (A - 1 / 2) - ((x : ℚ) / y - 1 / 2) = (fl (A - 1 / 2) - (A - 1 / 2)) + (A - x / y) := by ring
      rw [this]; exact abs_add_le _ _
    have hfin : (3 * -((x : ℚ) / y) + 1 / 2) / 2 ^ 53 < 1 / (2 * y) := by
      have h1 : (3 * -((x : ℚ) / y) + 1 / 2) / 2 ^ 53 ≤ (3 * (2 ^ 31 / y) + 2 ^ 31 / y) / 2 ^ 53 := by
        have : (1 : ℚ) / 2 ≤ 2 ^ 31 / y := by rw [le_div_iff₀ hyq]; linarith
        gcongr
      have h2 : (3 * ((2 : ℚ) ^ 31 / y) + 2 ^ 31 / y) / 2 ^ 53 = 1 / (2 * y) * (2 / 2 ^ 20) := by
        field_simp; norm_num
      have h3 : (0 : ℚ) < 1 / (2 * y) := by positivity
      rw [h2] at h1
      refine lt_of_le_of_lt h1 ?_
      refine mul_lt_of_lt_one_right h3 (by norm_num)
    have : -(A - 1 / 2) / 2 ^ 53 + -(x / y) / 2 ^ 53 ≤ (3 * -((x : ℚ) / y) + 1 / 2) / 2 ^ 53 := by
      rw [← add_div]; refine div_le_div_of_nonneg_right ?_ (by norm_num); linarith
    linarith
  · intro k hk
    have hq : ((2 * x - y : ℤ) : ℚ) / (2 * y : ℤ) = x / y - 1 / 2 := by push_cast; field_simp
    rw [hq] at hk
    have hxk : (x : ℚ) / y = (2 * k + 1) / 2 := by linarith
    have hub : -((x : ℚ) / y) ≤ 2 ^ 31 := by
      rw [← neg_div]
      refine le_trans (div_le_self (by linarith) ?_) hx1
      exact_mod_cast hy
    have hex : A = x / y := by
      rw [← hA]
      refine fl_exact _ 1 (2 * k + 1) (by rw [hxk]; push_cast; ring) ?_
      rw [abs_of_neg hv]
      calc -((x : ℚ) / y) * 2 ^ 1 ≤ 2 ^ 31 * 2 ^ 1 := by gcongr
        _ < 2 ^ 53 := by norm_num
    have hAk : A - 1 / 2 = k := by rw [hex, hk]
    rw [hAk]
    refine fl_int k ?_
    have h1 : -(k : ℚ) ≤ 2 ^ 31 + 1 := by rw [← hk]; linarith
    have h0 : (k : ℚ) ≤ 0 := by rw [← hk]; linarith
    have h1' : -k ≤ 2 ^ 31 + 1 := by exact_mod_cast h1
    have h0' : k ≤ 0 := by exact_mod_cast h0
    rw [abs_of_nonpos h0']
    omega

/-- a number of 32 bits -/
def Fits (x : ℤ) : Prop := -2 ^ 31 < x ∧ x < 2 ^ 31

theorem wrap32_fits {x : ℤ} (h : Fits x) : wrap32 x = x := by
  obtain ⟨h1, h2⟩ := h
  unfold wrap32
  omega

theorem fl_fits {x : ℤ} (h : Fits x) : fl x = x := by
  obtain ⟨h1, h2⟩ := h
  refine fl_int x ?_
  rw [abs_lt]; constructor <;> omega

/-- **C124, shares.** A product that fits into 32 bits, divided and rounded in floating point: the nearest integer to the exact quotient, half away from zero; this is what
`Scale.roundDiv` computes. -/
theorem C124_share (junk x y z : ℤ) (hp : Fits (x * y)) (hz : Fits z) (hz0 : z ≠ 0) :
    share x y z = Scale.roundDiv junk (x * y) z ∧ HalfAway (((x * y : ℤ) : ℚ) / z) (share x y z) := by
  have key : share x y z = Scale.roundDiv junk (x * y) z := by
    unfold share
    rw [wrap32_fits hp, fl_fits hp, fl_fits hz]
    generalize x * y = p at hp
    obtain ⟨h1, h2⟩ := hp
    obtain ⟨h3, h4⟩ := hz
    unfold Scale.roundDiv
    dsimp only
    rw [if_neg hz0]
    by_cases hzp : z > 0
    · rw [if_pos hzp]
      by_cases hpp : p ≥ 0
      · rw [if_pos hpp]; exact round_pos p z hpp hzp h2 h4
      · rw [if_neg hpp]; exact round_neg p z (by omega) hzp (by omega) h4
    · rw [if_neg hzp]
      have hdiv : (p : ℚ) / z = ((-p : ℤ) : ℚ) / ((-z : ℤ) : ℚ) := by push_cast; rw [neg_div_neg_eq]
      rw [hdiv]
      by_cases hpp : -p ≥ 0
      · rw [if_pos hpp]; exact round_pos (-p) (-z) hpp (by omega) (by omega) (by omega)
      · rw [if_neg hpp]; exact round_neg (-p) (-z) (by omega) (by omega) (by omega) (by omega)
  refine ⟨key, ?_⟩
  rw [key]
  generalize x * y = p
  have main : ∀ p z : ℤ, 0 < z → HalfAway ((p : ℚ) / z) (if p ≥ 0 then (2 * p + z) / (2 * z) else -((2 * -p + z) / (2 * z))) := by
    intro p z hz
    have hzq : (0 : ℚ) < z := by exact_mod_cast hz
    by_cases hp : p ≥ 0
    · have hpq : (0 : ℚ) ≤ p := by exact_mod_cast hp
      rw [if_pos hp]
      left
      have hq : ((2 * p + z : ℤ) : ℚ) / (2 * z : ℤ) = p / z + 1 / 2 := by push_cast; field_simp
      rw [← floor_div (2 * p + z) (2 * z) (by omega), hq]
      exact ⟨by positivity, Int.floor_le _, Int.lt_floor_add_one _⟩
    · have hpq : (p : ℚ) < 0 := by exact_mod_cast (by omega : p < 0)
      rw [if_neg hp]
      right
      have hq : ((2 * p - z : ℤ) : ℚ) / (2 * z : ℤ) = p / z - 1 / 2 := by push_cast; field_simp
      have hce : -((2 * -p + z) / (2 * z)) = ⌈((2 * p - z : ℤ) : ℚ) / (2 * z : ℤ)⌉ := by
        rw [ceil_div (2 * p - z) (2 * z) (by omega)]
        congr 2; ring
      rw [hce, hq]
      exact ⟨div_neg_of_neg_of_pos hpq hzq, Int.le_ceil _, by linarith [Int.ceil_lt_add_one ((p : ℚ) / z - 1 / 2)]⟩
  unfold Scale.roundDiv
  dsimp only
  rw [if_neg hz0]
  by_cases hzp : z > 0
  · rw [if_pos hzp]; exact main p z hzp
  · rw [if_neg hzp]
    have hdiv : (p : ℚ) / z = ((-p : ℤ) : ℚ) / ((-z : ℤ) : ℚ) := by push_cast; rw [neg_div_neg_eq]
    rw [hdiv]
    exact main (-p) (-z) (by omega)

/-- **C124, scale-in.** As long as the size of the set times the size of the deployment fits into 32 bits, the share of a set is what the model `Scale` says. -/
theorem C124_fraction_partial (d : Rolling.Dep) (sr junk : ℤ) (s : Scale.MSet) (h0 : 0 ≤ s.spec) (hs : s.spec < 2 ^ 31) (hr : 0 ≤ d.replicas)
    (hm : 0 ≤ Rolling.maxSurge d) (hd : d.replicas + Rolling.maxSurge d < 2 ^ 31) (hp : s.spec * (d.replicas + Rolling.maxSurge d) < 2 ^ 31)
    (ha : 0 < (s.maxR.bind atoi).getD sr) (hab : (s.maxR.bind atoi).getD sr < 2 ^ 31) :
    fraction d sr s = Scale.fraction d sr junk s := by
  unfold fraction Scale.fraction
  by_cases hz : d.replicas = 0
  · rw [if_pos hz, if_pos hz, wrap32_fits ⟨by omega, by omega⟩]
  · rw [if_neg hz, if_neg hz]
    dsimp only
    have hprod : 0 ≤ s.spec * (d.replicas + Rolling.maxSurge d) := mul_nonneg h0 (by omega)
    have hsh := C124_share junk s.spec (d.replicas + Rolling.maxSurge d) ((s.maxR.bind atoi).getD sr) ⟨by omega, hp⟩ ⟨by omega, hab⟩ (by omega)
    rw [wrap32_fits ⟨by omega, hd⟩, hsh.1]
    refine wrap32_fits ?_
    generalize s.spec * (d.replicas + Rolling.maxSurge d) = p at hp hprod
    generalize (s.maxR.bind atoi).getD sr = z at ha hab
    have hb : 0 ≤ Scale.roundDiv junk p z ∧ Scale.roundDiv junk p z ≤ p := by
      unfold Scale.roundDiv
      dsimp only
      rw [if_neg (by omega), if_pos ha, if_pos hprod]
      constructor
      · exact Int.ediv_nonneg (by omega) (by omega)
      · by_cases hp0 : p = 0
        · subst hp0
          rw [Int.mul_zero, Int.zero_add, Int.ediv_eq_zero_of_lt (by omega) (by omega)]
        · have : (2 * p + z) / (2 * z) < p + 1 := by
            rw [Int.ediv_lt_iff_lt_mul (by omega)]
            nlinarith
          omega
    exact ⟨by omega, by omega⟩

/-- **C124**: so is the part of a scaling that a machine set gets. **Partial**: as before. -/
theorem C124_proportion_partial (d : Rolling.Dep) (sr junk : ℤ) (s : Scale.MSet) (toAdd added : ℤ) (h0 : 0 ≤ s.spec) (hs : s.spec < 2 ^ 31) (hr : 0 ≤ d.replicas)
    (hm : 0 ≤ Rolling.maxSurge d) (hd : d.replicas + Rolling.maxSurge d < 2 ^ 31) (hp : s.spec * (d.replicas + Rolling.maxSurge d) < 2 ^ 31)
    (ha : 0 < (s.maxR.bind atoi).getD sr) (hab : (s.maxR.bind atoi).getD sr < 2 ^ 31) :
    proportion d sr s toAdd added = Scale.proportion d sr junk s toAdd added := by
  unfold proportion Scale.proportion
  rw [C124_fraction_partial d sr junk s h0 hs hr hm hd hp ha hab]

/-- a deployment that shrinks from 41 000 to 30 000 machines -/
example : fraction { replicas := 30000, maxSurge := some (.int 1), maxUnavailable := some (.int 0) } 0 { name := "a", spec := 40000, maxR := some "41001" }
    = -10731 := by
  rw [C124_fraction_partial _ 0 0 _ (by decide) (by decide) (by decide) (by decide) (by decide) (by decide) (by decide +kernel) (by decide +kernel)]
  decide +kernel

theorem share_wrap (junk x y z : ℤ) (hz : 0 < z) (hzb : z < 2 ^ 31) : share x y z = Scale.roundDiv junk (wrap32 (x * y)) z := by
  unfold share
  have hw : -2 ^ 31 ≤ wrap32 (x * y) ∧ wrap32 (x * y) < 2 ^ 31 := by unfold wrap32; omega
  generalize wrap32 (x * y) = p at hw
  have hf : fl p = p := by
    refine fl_int p ?_
    rw [abs_lt]; constructor <;> omega
  rw [hf, fl_fits ⟨by omega, hzb⟩]
  unfold Scale.roundDiv
  dsimp only
  rw [if_neg (by omega), if_pos hz]
  by_cases hpp : p ≥ 0
  · rw [if_pos hpp]; exact round_pos p z hpp hz hw.2 hzb
  · rw [if_neg hpp]; exact round_neg p z (by omega) hz hw.1 hzb

/-- a deployment on its way from 100 000 to 60 000 machines, one more allowed -/
def bigDep : Rolling.Dep := { replicas := 60000, maxSurge := some (.int 1), maxUnavailable := some (.int 0) }
/-- the larger of its two sets -/
def bigSet : Scale.MSet := { name := "a", spec := 60000, maxR := some "100001" }
/-- the smaller one -/
def smallSet : Scale.MSet := { name := "b", spec := 40001, maxR := some "100001" }

/-- **C124 fails beyond 32 bits.** Of the 40 000 machines to go, the larger set is to give 24 000 and the smaller one 16 000. The product
60 000 · 60 001 wraps around, the share of the larger set comes out negative, and the whole lot is taken from it. -/
theorem C124_overflow_false :
    Scale.proportion bigDep 0 0 bigSet (-40000) 0 = -24000 ∧ Scale.proportion bigDep 0 0 smallSet (-40000) (-24000) = -16000
      ∧ proportion bigDep 0 bigSet (-40000) 0 = -40000 ∧ proportion bigDep 0 smallSet (-40000) (-40000) = 0 := by
  refine ⟨by decide +kernel, by decide +kernel, ?_, ?_⟩
  · have hf : fraction bigDep 0 bigSet = -66949 := by
      unfold fraction
      rw [if_neg (by decide)]
      have ha : ((bigSet.maxR.bind atoi).getD 0) = 100001 := by decide +kernel
      rw [ha, share_wrap 0 _ _ _ (by decide) (by decide)]
      decide +kernel
    unfold proportion
    rw [if_neg (by decide), hf]
    decide
  · unfold proportion
    rw [if_pos (by decide)]

/-! ## Similarity of descriptions -/

/-- **C124, similarity.** Whether two descriptions of together fewer than 2⁴⁸ bytes count as similar, decided in floating point: as in exact arithmetic. -/
theorem C124_similar (c n : ℤ) (hc : 0 ≤ c) (hcb : c < 2 ^ 48) (hn : 0 < n) (hnb : n < 2 ^ 48) :
    (3 / 4 < ratio c n ↔ 3 / 4 < 1 - (c : ℚ) / (n / 2)) ∧ (3 / 4 < ratio c n ↔ 8 * c < n) := by
  have hnq : (0 : ℚ) < n := by exact_mod_cast hn
  have hcq : (0 : ℚ) ≤ c := by exact_mod_cast hc
  have hn1 : (n : ℚ) ≤ 2 ^ 48 := by exact_mod_cast hnb.le
  have hex : (3 / 4 < 1 - (c : ℚ) / (n / 2) ↔ 8 * c < n) := by
    rw [lt_sub_comm, div_lt_iff₀ (by positivity)]
    constructor
    · intro h
      have : (8 : ℚ) * c < n := by linarith
      exact_mod_cast this
    · intro h
      have : (8 : ℚ) * c < n := by exact_mod_cast h
      linarith
  have hflc : fl c = c := fl_int c (by rw [abs_of_nonneg hc]; omega)
  have hfln : fl n = n := fl_int n (by rw [abs_of_pos hn]; omega)
  have hhalf : fl ((n : ℚ) / 2) = n / 2 := by
    refine fl_exact _ 1 n (by ring) ?_
    rw [abs_of_pos (by positivity)]
    linarith [(by norm_num : (2 : ℚ) ^ 48 < 2 ^ 53)]
  have hr : ratio c n = fl (1 - fl ((c : ℚ) / (n / 2))) := by
    unfold ratio
    rw [hflc, hfln, hhalf]
  have hq0 : 0 ≤ (c : ℚ) / (n / 2) := by positivity
  have e1 := fl_err ((c : ℚ) / (n / 2))
  rw [abs_of_nonneg hq0] at e1
  have e2 := fl_err (1 - fl ((c : ℚ) / (n / 2)))
  have ha0 := fl_nonneg hq0
  have hgap : (1 : ℚ) / 2 ^ 50 ≤ 1 / (4 * n) := by
    apply one_div_le_one_div_of_le (by positivity)
    calc (4 : ℚ) * n ≤ 4 * 2 ^ 48 := by gcongr
      _ = 2 ^ 50 := by norm_num
  have hfloat : (3 / 4 < ratio c n ↔ 8 * c < n) := by
    rw [hr]
    constructor
    · intro h
      by_contra hcon
      by_cases heq : 8 * c = n
      · have hquarter : (c : ℚ) / (n / 2) = 1 / 4 := by
          rw [← heq]; push_cast
          have : (c : ℚ) ≠ 0 := by
            intro h0
            have : c = 0 := by exact_mod_cast h0
            omega
          field_simp; norm_num
        have hA : fl ((c : ℚ) / (n / 2)) = 1 / 4 := by
          rw [hquarter]
          exact fl_exact _ 2 1 (by norm_num) (by rw [abs_of_pos] <;> norm_num)
        have hB : fl (1 - 1 / 4) = (3 / 4 : ℚ) := by
          have : (1 - 1 / 4 : ℚ) = 3 / 4 := by norm_num
          rw [this]
          exact fl_exact _ 2 3 (by norm_num) (by rw [abs_of_pos] <;> norm_num)
        rw [hA, hB] at h
        exact lt_irrefl _ h
      · have hlt : n + 1 ≤ 8 * c := by omega
        have hlt' : (n : ℚ) + 1 ≤ 8 * c := by exact_mod_cast hlt
        have hqlow : 1 / 4 + 1 / (4 * n) ≤ (c : ℚ) / (n / 2) := by
          rw [le_div_iff₀ (by positivity)]
          have : (1 / 4 + 1 / (4 * (n : ℚ))) * (n / 2) = n / 8 + 1 / 8 := by field_simp; ring
          rw [this]; linarith
        generalize hA : fl ((c : ℚ) / (n / 2)) = A at *
        generalize (c : ℚ) / (n / 2) = q at *
        by_cases hA1 : A ≤ 1
        · rw [abs_of_nonneg (by linarith : 0 ≤ 1 - A)] at e2
          have h1 := (abs_le.1 e1).1
          have h2 := (abs_le.1 e2).2
          have hq2 : q ≤ 2 := by
            have : q / 2 ^ 53 ≤ q / 2 := by gcongr; norm_num
            linarith
          have h3 : q / 2 ^ 53 ≤ 2 / 2 ^ 53 := by gcongr
          have h4 : (1 - A) / 2 ^ 53 ≤ 1 / 2 ^ 53 := by gcongr; linarith
          have : (2 : ℚ) / 2 ^ 53 + 1 / 2 ^ 53 < 1 / 2 ^ 50 := by norm_num
          linarith
        · have := fl_neg (by linarith : 1 - A < 0)
          linarith
    · intro h
      have h' : (8 : ℚ) * c + 1 ≤ n := by exact_mod_cast (by omega : 8 * c + 1 ≤ n)
      have hqup : (c : ℚ) / (n / 2) ≤ 1 / 4 - 1 / (4 * n) := by
        rw [div_le_iff₀ (by positivity)]
        have : (1 / 4 - 1 / (4 * (n : ℚ))) * (n / 2) = n / 8 - 1 / 8 := by field_simp; ring
        rw [this]; linarith
      generalize hA : fl ((c : ℚ) / (n / 2)) = A at *
      generalize (c : ℚ) / (n / 2) = q at *
      have h1 := (abs_le.1 e1).2
      have hq1 : q ≤ 1 / 4 := by
        have : (0 : ℚ) < 1 / (4 * n) := by positivity
        linarith
      have h3 : q / 2 ^ 53 ≤ 1 / 2 ^ 53 := by gcongr; linarith
      have hA1 : A ≤ 1 := by
        have : (1 : ℚ) / 2 ^ 53 < 1 / 2 := by norm_num
        linarith
      rw [abs_of_nonneg (by linarith : 0 ≤ 1 - A)] at e2
      have h2 := (abs_le.1 e2).1
      have h4 : (1 - A) / 2 ^ 53 ≤ 1 / 2 ^ 53 := by gcongr; linarith
      have : (1 : ℚ) / 2 ^ 53 + 1 / 2 ^ 53 < 1 / 2 ^ 50 := by norm_num
      linarith
  exact ⟨hfloat.trans hex.symm, hfloat⟩

/-- two descriptions of 40 bytes each: nine changes are similar, ten are not -/
example : 3 / 4 < ratio 9 80 ∧ ¬ 3 / 4 < ratio 10 80 := by
  rw [(C124_similar 9 80 (by norm_num) (by norm_num) (by norm_num) (by norm_num)).2,
    (C124_similar 10 80 (by norm_num) (by norm_num) (by norm_num) (by norm_num)).2]
  decide

/-! ## Attempts of an eviction -/

theorem seconds_interval : seconds Settings.interval = 20 := by
  unfold seconds Settings.interval
  have h1 : ((20 * 1000000000 : ℤ) / 1000000000) = 20 := by decide
  have h2 : ((20 * 1000000000 : ℤ) % 1000000000) = 0 := by decide
  rw [h1, h2]
  have h20 := fl_int 20 (by norm_num)
  push_cast at h20 ⊢
  rw [fl_zero, zero_div, fl_zero, add_zero, h20, h20]

/-- **C124, attempts.** For drain timeouts below 2⁵¹ ns (26 days) the number of attempts is what exact arithmetic says: the timeout divided by twenty seconds, rounded down,
and not more than configured. -/
theorem C124_attempts (max timeout : ℤ) (hm : |max| < 2 ^ 31) (h0 : 0 ≤ timeout) (hb : timeout < 2 ^ 51) :
    retries max timeout = min max ⌊(timeout : ℚ) / 20000000000⌋ ∧ retries max timeout = Settings.limit max timeout := by
  have hdiv := Int.mul_ediv_add_emod timeout 1000000000
  have hr0 : 0 ≤ timeout % 1000000000 := Int.emod_nonneg _ (by norm_num)
  have hr1 : timeout % 1000000000 < 1000000000 := Int.emod_lt_of_pos _ (by norm_num)
  have hs0 : 0 ≤ timeout / 1000000000 := Int.ediv_nonneg h0 (by norm_num)
  have hfm : fl max = max := fl_int max (lt_trans hm (by norm_num))
  have key : ⌊fl (seconds timeout / 20)⌋ = ⌊(timeout : ℚ) / 20000000000⌋ := by
    unfold seconds
    generalize timeout / 1000000000 = sec at *
    generalize timeout % 1000000000 = ns at *
    have hsb : sec < 2 ^ 51 := by omega
    have hfs : fl sec = sec := fl_int sec (by rw [abs_of_nonneg hs0]; omega)
    have hfn : fl ns = ns := fl_int ns (by rw [abs_of_nonneg hr0]; omega)
    rw [hfs, hfn]
    have hsq : (0 : ℚ) ≤ sec := by exact_mod_cast hs0
    have hnq : (0 : ℚ) ≤ ns := by exact_mod_cast hr0
    have hnq1 : (ns : ℚ) ≤ 1000000000 := by exact_mod_cast hr1.le
    have htq : (timeout : ℚ) = 1000000000 * sec + ns := by exact_mod_cast hdiv.symm
    have htb : (timeout : ℚ) ≤ 2 ^ 51 := by exact_mod_cast hb.le
    have hexact : ∀ k : ℤ, (timeout : ℚ) / 20000000000 = k → fl (fl (sec + fl ((ns : ℚ) / 1000000000)) / 20) = k := by
      intro k hk
      have ht : timeout = 20000000000 * k := by
        have : (timeout : ℚ) = 20000000000 * k := by rw [← hk]; ring
        exact_mod_cast this
      have hn0 : ns = 0 := by omega
      have hsk : sec = 20 * k := by omega
      subst hn0
      rw [Int.cast_zero, zero_div, fl_zero, add_zero, hfs, hsk]
      have : (((20 * k : ℤ) : ℚ)) / 20 = k := by push_cast; ring
      rw [this]
      exact fl_int k (by rw [abs_lt]; constructor <;> omega)
    have e1 := fl_err ((ns : ℚ) / 1000000000)
    have hf0 := fl_nonneg (by positivity : 0 ≤ (ns : ℚ) / 1000000000)
    rw [abs_of_nonneg (by positivity : 0 ≤ (ns : ℚ) / 1000000000)] at e1
    generalize fl ((ns : ℚ) / 1000000000) = F at *
    have e2 := fl_err (sec + F)
    have hg0 := fl_nonneg (by linarith : 0 ≤ (sec : ℚ) + F)
    rw [abs_of_nonneg (by linarith : 0 ≤ (sec : ℚ) + F)] at e2
    generalize fl ((sec : ℚ) + F) = G at *
    have e3 := fl_err (G / 20)
    rw [abs_of_nonneg (by positivity : 0 ≤ G / 20)] at e3
    have hst := stable timeout 20000000000 (by norm_num) (fl (G / 20)) ?_ ?_
    · exact_mod_cast hst.1
    · push_cast
      have hnd : (ns : ℚ) / 1000000000 ≤ 1 := by rw [div_le_one (by norm_num)]; exact hnq1
      have hF1 : (ns : ℚ) / 1000000000 / 2 ^ 53 ≤ 1 / 2 ^ 53 := by gcongr
      have hT : (timeout : ℚ) / 20000000000 = (sec + ns / 1000000000) / 20 := by rw [htq]; field_simp; ring
      have hsec : (sec : ℚ) ≤ 2 ^ 51 / 1000000000 := by rw [le_div_iff₀ (by norm_num)]; linarith
      have hFu : F ≤ 2 := by
        have := (abs_le.1 e1).2
        have : (1 : ℚ) / 2 ^ 53 ≤ 1 := by norm_num
        linarith
      have hE2 : (sec + F) / 2 ^ 53 ≤ (2 ^ 51 / 1000000000 + 2) / 2 ^ 53 := by gcongr
      have hGu : G ≤ 2 ^ 51 / 1000000000 + 3 := by
        have := (abs_le.1 e2).2
        have : ((2 : ℚ) ^ 51 / 1000000000 + 2) / 2 ^ 53 ≤ 1 := by norm_num
        linarith
      have hE3 : G / 20 / 2 ^ 53 ≤ (2 ^ 51 / 1000000000 + 3) / 20 / 2 ^ 53 := by gcongr
      rw [hT]
      have t : fl (G / 20) - (sec + (ns : ℚ) / 1000000000) / 20
          = (fl (G / 20) - G / 20) + (G - (sec + F)) / 20 + (F - ns / 1000000000) / 20 := by ring
      rw [t, abs_lt]
      have a1 := abs_le.1 e1
      have a2 := abs_le.1 e2
      have a3 := abs_le.1 e3
      have num : ((2 : ℚ) ^ 51 / 1000000000 + 3) / 20 / 2 ^ 53 + (2 ^ 51 / 1000000000 + 2) / 2 ^ 53 / 20 + 1 / 2 ^ 53 / 20 < 1 / 20000000000 := by
        norm_num
      constructor <;> linarith [a1.1, a1.2, a2.1, a2.2, a3.1, a3.2]
    · intro k hk
      exact hexact k (by exact_mod_cast hk)
  have hfl : ⌊(timeout : ℚ) / 20000000000⌋ = timeout / 20000000000 := by exact_mod_cast floor_div timeout 20000000000 (by norm_num)
  have hmin : retries max timeout = min max ⌊(timeout : ℚ) / 20000000000⌋ := by
    unfold retries
    rw [seconds_interval, hfm]
    have hsn : 0 ≤ seconds timeout := by
      unfold seconds
      refine fl_nonneg (add_nonneg (fl_nonneg (by exact_mod_cast hs0)) (fl_nonneg (div_nonneg (fl_nonneg (by exact_mod_cast hr0)) (by norm_num))))
    have hq := fl_nonneg (div_nonneg hsn (by norm_num) : 0 ≤ seconds timeout / 20)
    rw [← key]
    generalize fl (seconds timeout / 20) = f at hq
    by_cases hmf : (max : ℚ) ≤ f
    · rw [min_eq_left hmf, min_eq_left (Int.le_floor.2 hmf)]
      unfold trunc
      split
      · exact Int.floor_intCast max
      · exact Int.ceil_intCast max
    · have hmf := not_le.1 hmf
      have : ⌊f⌋ ≤ max := by
        have := (Int.floor_lt (a := f) (z := max)).2 hmf
        omega
      rw [min_eq_right hmf.le, min_eq_right this]
      unfold trunc
      rw [if_pos hq]
  refine ⟨hmin, ?_⟩
  rw [hmin, hfl]
  unfold Settings.limit Settings.interval
  have htd : timeout.tdiv (20 * 1000000000) = timeout / 20000000000 := Int.tdiv_eq_ediv_of_nonneg h0
  by_cases hc : max * (20 * 1000000000) ≤ timeout
  · rw [if_pos hc]
    exact min_eq_left (Int.le_ediv_of_mul_le (by norm_num) (by omega))
  · rw [if_neg hc, htd]
    refine min_eq_right ?_
    have : timeout / 20000000000 < max := Int.ediv_lt_of_lt_mul (by norm_num) (by omega)
    omega

/-- two hours: 360 attempts, unless fewer are configured -/
example : retries 1000 7200000000000 = 360 ∧ retries 10 7200000000000 = 10 := by
  rw [(C124_attempts 1000 _ (by norm_num) (by norm_num) (by norm_num)).2, (C124_attempts 10 _ (by norm_num) (by norm_num) (by norm_num)).2]
  decide

end MCM.Float64
