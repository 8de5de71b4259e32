import Mathlib.Tactic.Linarith
import Mathlib.Tactic.Positivity
import Mathlib.Tactic.FieldSimp
import Mathlib.Tactic.Ring
import Mathlib.Tactic.NormNum
import Verif.Model.Float64
/-!
Rounding to 53 bits: the relative error, numbers that are not changed, and when it does not matter for the next integer.
-/
namespace MCM.Float64
open MCM

theorem nearest_err (x : ℚ) : |(nearest x : ℚ) - x| ≤ 1 / 2 := by
  have h1 := Int.floor_le x
  have h2 := Int.lt_floor_add_one x
  unfold nearest
  rw [abs_le]
  split
  · constructor <;> linarith
  · split
    · push_cast; constructor <;> linarith
    · split
      · constructor <;> linarith
      · push_cast; constructor <;> linarith

theorem nearest_int (n : ℤ) : nearest (n : ℚ) = n := by
  unfold nearest
  rw [Int.floor_intCast, sub_self, if_pos (by norm_num)]

theorem ulp_pos (v : ℚ) : 0 < ulp v := zpow_pos (by norm_num) _

theorem fl_zero : fl 0 = 0 := by
  unfold fl
  rw [zero_div]
  have := nearest_int 0
  rw [Int.cast_zero] at this
  rw [this, Int.cast_zero, zero_mul]

/-- the relative error of one operation -/
theorem fl_err (v : ℚ) : |fl v - v| ≤ |v| / 2 ^ 53 := by
  by_cases hv : v = 0
  · subst hv; rw [fl_zero]; norm_num
  · have hu := ulp_pos v
    have h1 := nearest_err (v / ulp v)
    have h2 : fl v - v = (nearest (v / ulp v) - v / ulp v) * ulp v := by
      unfold fl; field_simp
    rw [h2, abs_mul, abs_of_pos hu]
    have h3 : (2 : ℚ) ^ Int.log 2 |v| ≤ |v| := by
      have := Int.zpow_log_le_self (b := 2) (r := |v|) (by norm_num) (abs_pos.2 hv)
      exact_mod_cast this
    have h4 : ulp v = 2 ^ Int.log 2 |v| / 2 ^ 52 := by
      unfold ulp
      rw [zpow_sub₀ (by norm_num)]; norm_cast
    calc |(nearest (v / ulp v) : ℚ) - v / ulp v| * ulp v ≤ 1 / 2 * ulp v := mul_le_mul_of_nonneg_right h1 hu.le
      _ = 2 ^ Int.log 2 |v| / 2 ^ 53 := by rw [h4]; ring
      _ ≤ |v| / 2 ^ 53 := by gcongr

/-- numbers with at most 53 significant bits are not changed -/
theorem fl_exact (v : ℚ) (j : ℕ) (n : ℤ) (hn : v * 2 ^ j = n) (hb : |v| * 2 ^ j < 2 ^ 53) : fl v = v := by
  by_cases hv : v = 0
  · subst hv; exact fl_zero
  · have hu := ulp_pos v
    have h3 : (2 : ℚ) ^ Int.log 2 |v| ≤ |v| := by
      have := Int.zpow_log_le_self (b := 2) (r := |v|) (by norm_num) (abs_pos.2 hv)
      exact_mod_cast this
    have h4 : (2 : ℚ) ^ (Int.log 2 |v| + j) < 2 ^ (53 : ℤ) := by
      rw [zpow_add₀ (by norm_num), zpow_natCast]
      calc (2 : ℚ) ^ Int.log 2 |v| * 2 ^ j ≤ |v| * 2 ^ j := by gcongr
        _ < 2 ^ (53 : ℤ) := by exact_mod_cast hb
    have h5 : Int.log 2 |v| + j < 53 := (zpow_lt_zpow_iff_right₀ (by norm_num)).1 h4
    obtain ⟨k, hk⟩ : ∃ k : ℕ, (52 - Int.log 2 |v| - j : ℤ) = k := ⟨(52 - Int.log 2 |v| - j).toNat, by omega⟩
    have h6 : v / ulp v = ((n * 2 ^ k : ℤ) : ℚ) := by
      have hexp : Int.log 2 |v| - 52 = -(k : ℤ) - j := by omega
      unfold ulp
      rw [hexp, zpow_sub₀ (by norm_num), zpow_neg, zpow_natCast, zpow_natCast]
      push_cast
      rw [← hn]
      field_simp
    unfold fl
    rw [h6, nearest_int, ← h6]
    field_simp

theorem fl_int (n : ℤ) (h : |n| < 2 ^ 53) : fl n = n := by
  refine fl_exact n 0 n (by norm_num) ?_
  rw [pow_zero, mul_one]
  exact_mod_cast h

theorem fl_nonneg {v : ℚ} (h : 0 ≤ v) : 0 ≤ fl v := by
  have := fl_err v
  rw [abs_of_nonneg h, abs_le] at this
  have h2 : v / 2 ^ 53 ≤ v := div_le_self h (by norm_num)
  linarith [this.1]

theorem fl_neg {v : ℚ} (h : v < 0) : fl v < 0 := by
  have := fl_err v
  rw [abs_of_neg h, abs_le] at this
  have h2 : -v / 2 ^ 53 < -v := div_lt_self (by linarith) (by norm_num)
  linarith [this.2]

/-- An approximation of a fraction lies between the same integers, if it is near enough and exact for integers. -/
theorem stable (a b : ℤ) (hb : 0 < b) (q : ℚ) (hq : |q - (a : ℚ) / b| < 1 / b) (he : ∀ k : ℤ, (a : ℚ) / b = k → q = k) :
    ⌊q⌋ = ⌊(a : ℚ) / b⌋ ∧ ⌈q⌉ = ⌈(a : ℚ) / b⌉ := by
  have hbq : (0 : ℚ) < b := by exact_mod_cast hb
  by_cases hk : ∃ k : ℤ, (a : ℚ) / b = k
  · obtain ⟨k, hk⟩ := hk
    rw [he k hk, hk]
    exact ⟨rfl, rfl⟩
  · have h1 := Int.floor_le ((a : ℚ) / b)
    have h2 := Int.lt_floor_add_one ((a : ℚ) / b)
    generalize hf : ⌊(a : ℚ) / b⌋ = k at h1 h2 ⊢
    have hne : (k : ℚ) ≠ a / b := fun h => hk ⟨k, h.symm⟩
    have h3 : (k : ℚ) < a / b := lt_of_le_of_ne h1 hne
    have h4 : k * b < a := by rw [lt_div_iff₀ hbq] at h3; exact_mod_cast h3
    have h5 : a < (k + 1) * b := by rw [div_lt_iff₀ hbq] at h2; exact_mod_cast h2
    have h6 : (k : ℚ) + 1 / b ≤ a / b := by
      rw [le_div_iff₀ hbq, add_mul, one_div, inv_mul_cancel₀ hbq.ne']
      exact_mod_cast (by omega : k * b + 1 ≤ a)
    have h7 : (a : ℚ) / b ≤ k + 1 - 1 / b := by
      rw [div_le_iff₀ hbq, sub_mul, one_div, inv_mul_cancel₀ hbq.ne']
      have : a ≤ (k + 1) * b - 1 := by omega
      exact_mod_cast this
    rw [abs_lt] at hq
    have h8 : (k : ℚ) < q := by linarith [hq.1]
    have h9 : q < k + 1 := by linarith [hq.2]
    constructor
    · exact Int.floor_eq_iff.2 ⟨h8.le, h9⟩
    · have e1 : ⌈q⌉ = k + 1 := Int.ceil_eq_iff.2 ⟨by push_cast; linarith, by push_cast; linarith⟩
      have e2 : ⌈(a : ℚ) / b⌉ = k + 1 := Int.ceil_eq_iff.2 ⟨by push_cast; linarith, by push_cast; linarith⟩
      rw [e1, e2]

theorem floor_div (a b : ℤ) (hb : 0 < b) : ⌊(a : ℚ) / b⌋ = a / b := by
  obtain ⟨n, rfl⟩ := Int.eq_ofNat_of_zero_le hb.le
  exact_mod_cast Rat.floor_intCast_div_natCast a n

theorem ceil_div (a b : ℤ) (hb : 0 < b) : ⌈(a : ℚ) / b⌉ = -(-a / b) := by
  rw [← neg_inj, neg_neg, ← Int.floor_neg, ← neg_div, ← floor_div (-a) b hb]
  push_cast
  rfl

end MCM.Float64
