import Verif.Lemmas.SlowStart
/-!
# C01 – slow-start creation accounting

Specification vocabulary: a run is described by the list of batch sizes, the returned number and the error
flag.  `ok i` says whether the `i`-th call to the create function succeeds.
-/
namespace MCM.SlowStart

/-- Specification: number of successful calls among the first `n` calls. -/
def successesAmong (ok : Nat → Bool) (n : Nat) : Nat :=
  ((List.range n).filter ok).length

theorem successesAmong_eq (ok : Nat → Bool) (n : Nat) : successesAmong ok n = countOk ok 0 n := by
  simp [successesAmong, countOk, List.range_eq_range']

/-- **C01** (accounting).  For every count, every positive initial batch size and every outcome of the
individual calls: at most `count` calls are issued; the returned number is exactly the number of issued
calls that succeeded; an error is returned iff some issued call failed; and when no error is returned
exactly `count` calls were issued and `count` is returned. -/
theorem C01_slowStart_accounting (ok : Nat → Bool) (count init : Nat) (hinit : 0 < init) :
    let r := slowStartBatch ok count init
    r.issued ≤ count
    ∧ r.successes = successesAmong ok r.issued
    ∧ (r.failed = true ↔ ∃ i, i < r.issued ∧ ok i = false)
    ∧ (r.failed = false → r.issued = count ∧ r.successes = count) := by
  intro r
  obtain ⟨h1, h2, h3, h4, -, -, -⟩ := loop_spec ok 0 count 0 (min count init) (by omega)
  have h2' : r.successes = countOk ok 0 r.issued := h2.trans (Nat.zero_add _)
  have hall : ∀ n, countOk ok 0 n < n ↔ ∃ i, i < n ∧ ok i = false := by
    intro n
    rw [← successesAmong_eq]
    constructor
    · intro h
      apply Classical.byContradiction
      intro hn
      have : (List.range n).filter ok = List.range n := by
        apply List.filter_eq_self.2
        intro a ha
        simp at ha
        cases hk : ok a
        · exact absurd ⟨a, ha, hk⟩ hn
        · rfl
      simp [successesAmong, this] at h
    · rintro ⟨i, hi, hk⟩
      apply Classical.byContradiction
      intro hge
      have hlen := List.length_filter_le ok (List.range n)
      have heq : ((List.range n).filter ok).length = (List.range n).length := by
        simp only [successesAmong, List.length_range] at *
        omega
      rw [List.length_filter_eq_length_iff] at heq
      have := heq i (by simpa using hi)
      simp [hk] at this
  refine ⟨h1, by rw [successesAmong_eq]; exact h2', (h3.trans (hall _)), ?_⟩
  intro hf
  by_cases hc : count = 0
  · have e1 : r.issued ≤ count := h1
    have := countOk_le ok 0 r.issued
    constructor <;> omega
  · have e : r.issued = count := h4 hf (by omega)
    have hnot : ¬ countOk ok 0 r.issued < r.issued := by
      intro h
      have : r.failed = true := h3.2 h
      simp [hf] at this
    have := countOk_le ok 0 r.issued
    exact ⟨e, by omega⟩

/-- **C01** (bounded waste).  With the initial batch size 1 used by the MachineSet controller
(machineset.go:407), if `k` calls succeed then at most `2k+1` calls are ever issued. -/
theorem C01_slowStart_waste (ok : Nat → Bool) (count : Nat) :
    let r := slowStartBatch ok count 1
    r.issued ≤ 2 * r.successes + 1 := by
  intro r
  obtain ⟨h1, h2, -, -, h5, -, -⟩ := loop_spec ok 0 count 0 (min count 1) (by omega)
  have h2' : r.successes = countOk ok 0 r.issued := h2.trans (Nat.zero_add _)
  have h1' : r.issued ≤ count := h1
  have h5' : r.issued ≤ 2 * countOk ok 0 r.issued + min count 1 := h5
  omega

/-- **C01** (rounds).  The rounds have sizes 1, 2, 4, … (the last one possibly smaller), and every
call of every round before the last one succeeded – i.e. the routine stops after the first round
containing a failure. -/
theorem C01_slowStart_rounds (ok : Nat → Bool) (count : Nat) :
    let r := slowStartBatch ok count 1
    (∀ i (h : i < r.batches.length), r.batches[i] ≤ 2 ^ i ∧ 0 < r.batches[i]
        ∧ (i + 1 < r.batches.length → r.batches[i] = 2 ^ i))
    ∧ (∀ pre last, r.batches = pre ++ [last] → ∀ i, i < pre.sum → ok i = true) := by
  intro r
  obtain ⟨-, -, -, -, -, h6, h7⟩ := loop_spec ok 0 count 0 (min count 1) (by omega)
  constructor
  · intro i h
    have hh : r.batches[i] ≤ min count 1 * 2 ^ i
        ∧ (i + 1 < r.batches.length → r.batches[i] = min count 1 * 2 ^ i) := h7 i h
    have hp : 0 < r.batches[i] := batches_pos ok _ _ _ _ _ (List.getElem_mem h)
    have hc : min count 1 = 1 := by
      rcases Nat.eq_zero_or_pos count with h0 | h0
      · exfalso
        subst h0
        have : r.batches = [] := by
          show (slowStartBatch ok 0 1).batches = []
          unfold slowStartBatch loop
          simp
        simp [this] at h
      · omega
    rw [hc, Nat.one_mul] at hh
    exact ⟨hh.1, hp, hh.2⟩
  · intro pre last hp i hi
    have h := h6 pre last hp
    have : ((List.range' 0 pre.sum).filter ok).length = (List.range' 0 pre.sum).length := by
      simpa [countOk] using h
    rw [List.length_filter_eq_length_iff] at this
    exact this i (by simp [List.mem_range'_1, hi])

/-- Non-vacuity: ten machines wanted, the fifth call fails: batches 1, 2, 4; six successes. -/
example : slowStartBatch (fun i => i != 4) 10 1 = { batches := [1, 2, 4], successes := 6, failed := true } := by
  decide +kernel
example : slowStartBatch (fun _ => true) 10 1 = { batches := [1, 2, 4, 3], successes := 10, failed := false } := by
  decide +kernel

end MCM.SlowStart
