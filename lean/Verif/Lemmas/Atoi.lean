import Verif.Model.Types
/-! `atoi` reads back what `strconv.Itoa`/`FormatInt` print. -/
namespace MCM

theorem atoi_repr (n : Nat) (h : n < 2^63) : atoi n.repr = some (n : Int) := by
  unfold atoi
  have hd : ∀ c ∈ Nat.toDigits 10 n, c.isDigit := fun c hc => Nat.isDigit_of_mem_toDigits (by omega) (by omega) hc
  have hv : digitsVal (Nat.toDigits 10 n) = some n := by
    have hf := Nat.ofDigitChars_toDigits (b := 10) (n := n) (by omega) (by omega)
    rw [Nat.ofDigitChars_eq_foldl] at hf
    unfold digitsVal
    cases hl : Nat.toDigits 10 n with
    | nil => exact absurd hl Nat.toDigits_ne_nil
    | cons c cs =>
      rw [hl] at hd hf
      simp only [List.all_eq_true]
      rw [if_pos (fun x hx => hd x hx)]
      exact congrArg some hf
  rw [Nat.toList_repr]
  cases hl : Nat.toDigits 10 n with
  | nil => exact absurd hl Nat.toDigits_ne_nil
  | cons c cs =>
    have hc := hd c (by simp [hl])
    rw [hl] at hv
    split
    · rename_i heq; injection heq with h1 _; subst h1; simp at hc
    · rename_i heq; injection heq with h1 _; subst h1; simp at hc
    · rw [hv]; simp [h]

/-- the numbers read fit into 64 bits -/
theorem atoi_range (s : String) (n : Int) (h : atoi s = some n) : -2^63 ≤ n ∧ n < 2^63 := by
  unfold atoi at h
  split at h
  all_goals
    obtain ⟨k, _, h⟩ := Option.bind_eq_some_iff.1 h
    split at h
    · cases h; omega
    · cases h

theorem toString_nat_toList (n : Nat) : (toString n).toList = Nat.toDigits 10 n := Nat.toList_repr

end MCM
