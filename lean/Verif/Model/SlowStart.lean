/-
Model of `slowStartBatch`, /repo/pkg/controller/machineset.go:617-643.
-/
namespace MCM.SlowStart

/-- What one run of `slowStartBatch` did: the sizes of the batches it launched (in order), the number
it returned, and whether it returned an error (machineset.go:617, result `(int, error)`). -/
structure Result where
  batches : List Nat
  successes : Nat
  failed : Bool
deriving Repr, DecidableEq

/-- Number of calls among the `n` calls with issue numbers `start, start+1, …` for which `fn` returned
nil.  `ok i` is the outcome of the `i`-th call of `fn`; within one batch the calls run concurrently
(machineset.go:626-633) but all of them are awaited (`wg.Wait()`, :634), so only the set of outcomes
matters. -/
def countOk (ok : Nat → Bool) (start n : Nat) : Nat :=
  ((List.range' start n).filter ok).length

/-- The loop `for batchSize := …; batchSize > 0; batchSize = IntMin(2*batchSize, remaining)`
(machineset.go:620-641).  `issued` is the number of calls issued by earlier batches (it only names the
calls, the Go code has no such variable). -/
def loop (ok : Nat → Bool) (issued remaining successes batchSize : Nat) : Result :=
  if h : batchSize > 0 ∧ batchSize ≤ remaining then
    let cur := countOk ok issued batchSize          -- curSuccesses, :635
    let errs := batchSize - cur                     -- len(errCh)
    let successes' := successes + cur               -- :636
    if errs > 0 then                                -- :637
      { batches := [batchSize], successes := successes', failed := true }
    else
      let remaining' := remaining - batchSize       -- :640
      let r := loop ok (issued + batchSize) remaining' successes' (min (2 * batchSize) remaining')
      { r with batches := batchSize :: r.batches }
  else
    -- batchSize = 0.  (`batchSize ≤ remaining` always holds in the Go loop because of `IntMin`;
    -- it is part of the guard only to make the recursion well founded, see `loop_guard` lemma.)
    { batches := [], successes := successes, failed := false }
termination_by remaining
decreasing_by omega

/-- `slowStartBatch(count, initialBatchSize, fn)` (machineset.go:617-643).  `count` and
`initialBatchSize` are non-negative here: `manageReplicas` calls it with `diff ≥ 1` and `1`. -/
def slowStartBatch (ok : Nat → Bool) (count initialBatchSize : Nat) : Result :=
  loop ok 0 count 0 (min count initialBatchSize)

/-- total number of calls of `fn`. machineset.go:617-643 -/
def Result.issued (r : Result) : Nat := r.batches.sum

end MCM.SlowStart
