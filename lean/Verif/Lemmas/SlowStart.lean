import Verif.Model.SlowStart
namespace MCM.SlowStart

theorem countOk_le (ok) (s n : Nat) : countOk ok s n ≤ n := by
  unfold countOk
  have := List.length_filter_le ok (List.range' s n)
  simpa using this

theorem countOk_add (ok) (s a b : Nat) : countOk ok s (a + b) = countOk ok s a + countOk ok (s + a) b := by
  unfold countOk
  have : List.range' s (a+b) = List.range' s a ++ List.range' (s+a) b := by
    rw [List.range'_append_1]
  rw [this, List.filter_append, List.length_append]

theorem batches_pos (ok) (issued remaining successes b : Nat) :
    ∀ x ∈ (loop ok issued remaining successes b).batches, 0 < x := by
  fun_induction loop ok issued remaining successes b with
  | case1 => simp; omega
  | case2 issued remaining successes b h cur errs s' herr rem' r ih =>
    intro x hx
    simp at hx
    rcases hx with rfl | hx
    · omega
    · exact ih x hx
  | case3 => simp

theorem loop_spec (ok : Nat → Bool) (issued remaining successes b : Nat) (hb : b ≤ remaining) :
    let r := loop ok issued remaining successes b
    r.issued ≤ remaining
    ∧ r.successes = successes + countOk ok issued r.issued
    ∧ (r.failed = true ↔ countOk ok issued r.issued < r.issued)
    ∧ (r.failed = false → 0 < b → r.issued = remaining)
    ∧ r.issued ≤ 2 * (countOk ok issued r.issued) + b
    ∧ (∀ pre last, r.batches = pre ++ [last] → countOk ok issued pre.sum = pre.sum)
    ∧ (∀ i, (h : i < r.batches.length) → r.batches[i] ≤ b * 2^i
        ∧ (i + 1 < r.batches.length → r.batches[i] = b * 2^i)) := by
  fun_induction loop ok issued remaining successes b with
  | case1 issued remaining successes b h cur errs s' herr =>
    simp only [Result.issued, List.sum_cons, List.sum_nil, Nat.add_zero]
    have := countOk_le ok issued b
    refine ⟨h.2, rfl, by simp; omega, by simp, by omega, ?_, ?_⟩
    · intro pre last hp
      have : pre = [] := by
        rcases pre with _ | ⟨x, xs⟩
        · rfl
        · simp at hp
      subst this; simp [countOk]
    · intro i hi
      simp at hi; subst hi; simp
  | case2 issued remaining successes b h cur errs s' herr rem' r ih =>
    have hle := countOk_le ok issued b
    have hcur : countOk ok issued b = b := by omega
    have hpos : ∀ x ∈ r.batches, 0 < x := fun x hx => batches_pos ok _ _ _ _ x hx
    have ih' := ih (by omega)
    rw [show loop ok (issued+b) rem' s' (min (2*b) rem') = r from rfl] at ih'
    clear_value r
    obtain ⟨i1, i2, i3, i4, i5, i6, i7⟩ := ih'
    have hsum : ({ r with batches := b :: r.batches } : Result).issued = b + r.issued := by
      simp [Result.issued]
    simp only [hsum]
    rw [countOk_add, hcur]
    refine ⟨by omega, by omega, ?_, ?_, ?_, ?_, ?_⟩
    · rw [i3]; omega
    · intro hf hb0
      by_cases h0 : rem' = 0
      · have : r.issued ≤ rem' := i1
        omega
      · have := i4 hf (by omega)
        omega
    · omega
    · intro pre last hp
      rcases pre with _ | ⟨x, xs⟩
      · simp [countOk]
      · simp at hp
        obtain ⟨rfl, hp⟩ := hp
        have := i6 xs last hp
        rw [List.sum_cons, countOk_add, hcur, this]
    · intro i hi
      rcases i with _ | i
      · simp
      · simp at hi
        have := i7 i hi
        constructor
        · have h1 := this.1
          simp only [List.getElem_cons_succ]
          refine Nat.le_trans h1 ?_
          rw [Nat.pow_succ]
          have : min (2*b) rem' ≤ 2 * b := by omega
          calc min (2*b) rem' * 2^i ≤ (2*b) * 2^i := Nat.mul_le_mul_right _ this
            _ = b * (2^i * 2) := by rw [Nat.mul_comm 2 b, Nat.mul_assoc, Nat.mul_comm 2]
        · intro hlt
          simp only [List.length_cons] at hlt
          have h2 := this.2 (by omega)
          simp only [List.getElem_cons_succ]
          rw [h2]
          have hmin : min (2*b) rem' = 2 * b := by
            by_cases hx : 2 * b ≤ rem'
            · omega
            · exfalso
              -- the next batch would already be the last one
              have hm : min (2*b) rem' = rem' := by omega
              have hlen : i + 1 < r.batches.length := by omega
              have hi0 : 0 < r.batches.length := by omega
              have h00 : r.batches[0] = min (2*b) rem' := by
                have := (i7 0 hi0).2 (by omega)
                simpa using this
              have hsumle : r.batches.sum ≤ rem' := i1
              match hr : r.batches, hi0, hlen, h00 with
              | x :: y :: t, _, _, h00 =>
                simp at h00
                rw [hr] at hsumle hpos
                simp at hsumle
                have := hpos y (by simp)
                omega
          rw [hmin, Nat.pow_succ, Nat.mul_comm 2 b, Nat.mul_assoc, Nat.mul_comm 2]
  | case3 issued remaining successes b h =>
    have : b = 0 := by omega
    subst this
    simp [Result.issued, countOk]

end MCM.SlowStart
