import Verif.Model.Status
/-!
When the deployment controller comes back to a rollout, and what it then finds in the status it stored:
/repo/pkg/controller/deployment_progress.go:40-121 and 154-200, over any sequence of runs.
-/
namespace MCM.Stuck
open MCM MCM.Status

/-- one second, in nanoseconds; `time.Second` (Go's library), deployment_progress.go:190 -/
def second : Int := 1000000000

/-- a time as the API server stores it: `metav1.Time` is written in RFC 3339 with whole seconds;
(apimachinery), machinedeployment_types.go:265-286 -/
def whole (t : Int) : Int := t / second * second

/-- a status as it is read back after having been written; deployment_progress.go:102-118, deployment_sync.go:607-619 -/
def stored (n : DStatus) : DStatus :=
  { n with conds := n.conds.map fun c => { c with updated := whole c.updated, transitioned := whole c.transitioned } }

/-- the deployment with this status; deployment_progress.go:40-118 -/
def at_ (d : DDep) (st : DStatus) : DDep := { d with status := st }

/-- the status the run at this time arrives at, `syncRolloutStatus`, deployment_progress.go:40-107 -/
def aim (d : DDep) (all : List DSet) (new : Option DSet) (st : DStatus) (now : Int) : DStatus := rolloutStatus now (at_ d st) all new

/-- the status afterwards, deployment_progress.go:109-119: written when it differs (`statusUpdateRequired`); writes succeed -/
def after (d : DDep) (all : List DSet) (new : Option DSet) (st : DStatus) (now : Int) : DStatus :=
  if aim d all new st now = st then st else stored (aim d all new st now)

/-- The delay until the next run. A write makes the informer report the deployment, which puts it into the queue at once; without a write
it is put there by `requeueStuckMachineDeployment`, deployment_progress.go:111 and 161-200; `none`: not put there. -/
def delay (d : DDep) (all : List DSet) (new : Option DSet) (st : DStatus) (now : Int) : Option Int :=
  if aim d all new st now = st then requeueStuck now (at_ d st) (aim d all new st now) else some 0

/-- A sequence of runs, in which the sets stay as they are: the time of every run and the status it finds. A run comes no later than `slack`
after the time it was asked for (the informer's, the queue's and the rate limiter's delays); it may come earlier (resync, other events).
Time goes on. deployment_progress.go:40-200. -/
structure Runs (d : DDep) (all : List DSet) (new : Option DSet) (slack : Int) where
  time : Nat → Int
  st : Nat → DStatus
  next : ∀ i, st (i + 1) = after d all new (st i) (time i)
  mono : ∀ i, time i ≤ time (i + 1)
  soon : ∀ i w, delay d all new (st i) (time i) = some w → time (i + 1) ≤ time i + w + slack
  goesOn : ∀ t, ∃ i, t < time i

/-- Runs whose writes may fail (`ok i`: the run `i` writes what it has to write): the status stays, `syncRolloutStatus` returns the error, deployment_progress.go:117-118, and the
queue asks for another run, worker.go:40-66 (after sixteen failures the ten minutes of deployment.go:457 remain); `slack` covers its longest pause. At most `m` runs in a row fail. -/
structure Flaky (d : DDep) (all : List DSet) (new : Option DSet) (slack : Int) (m : Nat) where
  time : Nat → Int
  st : Nat → DStatus
  ok : Nat → Bool
  next : ∀ i, st (i + 1) = if ok i then after d all new (st i) (time i) else st i
  mono : ∀ i, time i ≤ time (i + 1)
  soon : ∀ i w, ok i = true → delay d all new (st i) (time i) = some w → time (i + 1) ≤ time i + w + slack
  again : ∀ i, ok i = false → time (i + 1) ≤ time i + slack
  often : ∀ i, ∃ j, i ≤ j ∧ j ≤ i + m ∧ ok j = true
  goesOn : ∀ t, ∃ i, t < time i

end MCM.Stuck
