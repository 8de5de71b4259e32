import Verif.Model.Types
/-!
Model of the workers and their queue: /repo/pkg/util/worker/worker.go:37-68 and the rate limiting work queue of client-go
(vendored library; its documented behaviour: `dirty`, `processing` and `queue` sets, delayed additions, failure counts).
-/
namespace MCM.Worker

/-- `DefaultMaxRetries`, worker.go:18 -/
def maxRetries : Nat := 15

/-- The queue: keys ready to be taken, keys needing processing, keys being processed, additions waiting for their time, failure
counts; and the outcomes of all runs so far, newest first. (client-go), used at worker.go:37-68. -/
structure Q where
  queue : List String := []
  dirty : List String := []
  processing : List String := []
  delayed : List String := []
  failures : String → Nat := fun _ => 0
  log : List (String × Bool) := []

/-- `Add`; (client-go), worker.go:37-68 -/
def Q.add (q : Q) (k : String) : Q :=
  if k ∈ q.dirty then q
  else if k ∈ q.processing then { q with dirty := k :: q.dirty }
  else { q with dirty := k :: q.dirty, queue := q.queue ++ [k] }

/-- `Done`; (client-go), worker.go:46 -/
def Q.done (q : Q) (k : String) : Q :=
  let q := { q with processing := q.processing.filter (· ≠ k) }
  if k ∈ q.dirty then { q with queue := q.queue ++ [k] } else q

/-- `Forget`; (client-go), worker.go:51, 63 -/
def Q.forget (q : Q) (k : String) : Q := { q with failures := fun x => if x = k then 0 else q.failures x }

/-- `AddAfter`: a key waits at most once, for the earliest of the times asked for; (client-go), e.g. machine.go:108-134 -/
def Q.addAfter (q : Q) (k : String) : Q := { q with delayed := if k ∈ q.delayed then q.delayed else k :: q.delayed }

/-- `AddRateLimited`; (client-go), worker.go:58 -/
def Q.addRateLimited (q : Q) (k : String) : Q :=
  { q with failures := fun x => if x = k then q.failures x + 1 else q.failures x }.addAfter k

/-- the end of a run, worker.go:48-64; `ok`: the reconciler returned no error -/
def Q.finish (q : Q) (forgetAfterSuccess : Bool) (k : String) (ok : Bool) : Q :=
  let q1 := { q with log := (k, ok) :: q.log }
  let q2 := if ok then (if forgetAfterSuccess then q1.forget k else q1)
    else if q1.failures k < maxRetries then q1.addRateLimited k
    else q1.forget k
  q2.done k

/-- Any number of workers, event handlers and timers. worker.go:37-68. -/
inductive Step (f : Bool) : Q → Q → Prop
  | add {q : Q} (k : String) : Step f q (q.add k)
  /-- `AddAfter`, also by the reconciler itself -/
  | addAfter {q : Q} (k : String) : Step f q (q.addAfter k)
  /-- the time of a delayed addition has come -/
  | fire {q : Q} (a b : List String) (k : String) : q.delayed = a ++ k :: b → Step f q ({ q with delayed := a ++ b }.add k)
  /-- `Get` by any worker -/
  | get {q : Q} (k : String) (rest : List String) : q.queue = k :: rest →
      Step f q { q with queue := rest, processing := k :: q.processing, dirty := q.dirty.filter (· ≠ k) }
  | finish {q : Q} (k : String) (ok : Bool) : k ∈ q.processing → Step f q (q.finish f k ok)

/-- The states reached by steps of worker.go:37-68 -/
inductive Reach (f : Bool) : Q → Prop
  | init : Reach f {}
  | step {q q' : Q} : Reach f q → Step f q q' → Reach f q'

end MCM.Worker
