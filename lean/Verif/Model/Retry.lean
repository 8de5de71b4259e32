/-!
Model of the loops by which the set and deployment controllers repeat a failing update:
`updateMachineStatus` and `isMachineStatusEqual`, /repo/pkg/controller/machineset.go:795-844; `updateMachineSetFinalizers`, machineset.go:768-793;
`updateMachineDeploymentFinalizers`, /repo/pkg/controller/deployment.go:598-613; `updateMachineSetStatus`, /repo/pkg/controller/deployment_machineset_util.go:39-90;
`UpdateMachineWithRetries`, machineset.go:848-874, and `UpdateISWithRetries`, /repo/pkg/controller/machineset_util.go:50-75.

Every answer of the API server is given by the number of the attempt it belongs to. A loop without bound is cut off after `fuel` attempts and then `running`; a
statement about all `fuel` is a statement about the loop. No loop looks at the context, which is `context.Background()` (machineset.go:459, deployment.go:416).
-/
namespace MCM.Retry

/-- `LastOperation`; machine_types.go:111-127 -/
structure Op where
  description : String := ""
  time : Int := 0
  state : String := ""
  type : String := ""
deriving DecidableEq, Repr

/-- `CurrentStatus`; machine_types.go:243-253 -/
structure Cur where
  phase : String := ""
  timeoutActive : Bool := false
  time : Int := 0
deriving DecidableEq, Repr

/-- `MachineStatus`; the rest of it (addresses, conditions, last known state) is one value; machine_types.go:94-109 -/
structure Status where
  op : Op := {}
  cur : Cur := {}
  rest : String := ""
deriving DecidableEq, Repr

/-- the time after which statuses are written again, machineset.go:826, in nanoseconds -/
def tolerance : Int := 30 * 60 * 1000000000

/-- `isMachineStatusEqual`, machineset.go:825-842, with one clock reading -/
def isEqual (now : Int) (a b : Status) : Bool :=
  if a.op.time < now - tolerance || b.op.time < now - tolerance then false
  else if a.cur.time < now - tolerance || b.cur.time < now - tolerance then false
  else a.op.state == b.op.state && a.op.type == b.op.type && a.cur.phase == b.cur.phase && a.cur.timeoutActive == b.cur.timeoutActive

/-- how a loop ended, if it did; machineset.go:768-874, deployment.go:598-613 -/
inductive Ans (α : Type)
  | running
  | failed
  /-- success; the value stored, or `none` if nothing was written -/
  | done (stored : Option α)
deriving DecidableEq, Repr

/-- what the calls of attempt `i` answer: the object read (`none` is an error) and whether the update is accepted;
machineset.go:768-844, deployment.go:598-613 -/
structure Env (α : Type) where
  now : Nat → Int := fun _ => 0
  get : Nat → Option α
  ok : Nat → Bool

/-- `updateMachineStatus`, machineset.go:795-822: how it ended and what was sent. `cached` is the machine passed. -/
def updateStatus (e : Env Status) (cached : Status) (op : Op) (cur : Cur) : Nat → Nat → Ans Status × List Status
  | 0, _ => (.running, [])
  | fuel + 1, i =>
    match e.get i with
    | none => (.failed, [])
    | some latest =>
      if isEqual (e.now i) { latest with op := op, cur := cur } cached then (.done none, [])
      else if e.ok i then (.done (some { latest with op := op, cur := cur }), [{ latest with op := op, cur := cur }])
      else ((updateStatus e cached op cur fuel (i + 1)).1, { latest with op := op, cur := cur } :: (updateStatus e cached op cur fuel (i + 1)).2)

/-- an object with finalizers; machineset.go:744-793, deployment.go:570-613 -/
structure Obj where
  finalizers : List String := []
  rest : String := ""
deriving DecidableEq, Repr

/-- `updateMachineDeploymentFinalizers`, deployment.go:598-613; it returns nothing -/
def updateDepFinalizers (e : Env Obj) (fs : List String) : Nat → Nat → Ans Obj × List Obj
  | 0, _ => (.running, [])
  | fuel + 1, i =>
    match e.get i with
    | none => (.failed, [])
    | some latest =>
      if e.ok i then (.done (some { latest with finalizers := fs }), [{ latest with finalizers := fs }])
      else ((updateDepFinalizers e fs fuel (i + 1)).1, { latest with finalizers := fs } :: (updateDepFinalizers e fs fuel (i + 1)).2)

/-- `finalizerUpdateRetries`, machineset.go:65 -/
def finalizerUpdateRetries : Nat := 2

/-- the loop of `updateMachineSetFinalizers`, machineset.go:773-789, with `n` attempts left -/
def updateSetFinalizersLoop (e : Env Obj) (fs : List String) : Nat → Nat → Ans Obj × List Obj
  | 0, _ => (.failed, [])
  | n + 1, i =>
    match e.get i with
    | none => (.failed, [])
    | some latest =>
      if e.ok i then (.done (some { latest with finalizers := fs }), [{ latest with finalizers := fs }])
      else ((updateSetFinalizersLoop e fs n (i + 1)).1, { latest with finalizers := fs } :: (updateSetFinalizersLoop e fs n (i + 1)).2)

/-- `updateMachineSetFinalizers`, machineset.go:768-793 -/
def updateSetFinalizers (e : Env Obj) (fs : List String) : Ans Obj × List Obj := updateSetFinalizersLoop e fs finalizerUpdateRetries 0

/-- a machine set: status (with the observed generation apart) and the rest; deployment_machineset_util.go:39-90 -/
structure MSet where
  generation : Nat := 0
  status : String := ""
  observed : Nat := 0
  rest : String := ""
deriving DecidableEq, Repr

/-- `statusUpdateRetries`, machineset.go:62 -/
def statusUpdateRetries : Nat := 1

/-- the loop of `updateMachineSetStatus`, deployment_machineset_util.go:61-87: the first update is made with the object passed; attempt `i` reads after its update failed. -/
def updateSetStatusLoop (e : Env MSet) (status : String) (observed : Nat) : Nat → Nat → MSet → Ans MSet × List MSet
  | n, i, is =>
    if e.ok i then (.done (some { is with status := status, observed := observed }), [{ is with status := status, observed := observed }])
    else
      match n with
      | 0 => (.failed, [{ is with status := status, observed := observed }])
      | n + 1 =>
        match e.get i with
        | none => (.failed, [{ is with status := status, observed := observed }])
        | some latest => ((updateSetStatusLoop e status observed n (i + 1) latest).1,
            { is with status := status, observed := observed } :: (updateSetStatusLoop e status observed n (i + 1) latest).2)

/-- `updateMachineSetStatus`, deployment_machineset_util.go:39-90; the comparison is that of `Status.setWriteNeeded`, here of all of the status -/
def updateSetStatus (e : Env MSet) (is : MSet) (status : String) : Ans MSet × List MSet :=
  if is.status = status ∧ is.generation = is.observed then (.done none, [])
  else updateSetStatusLoop e status is.generation statusUpdateRetries 0 is

/-- answer of the API server to an update; machineset.go:848-874, machineset_util.go:50-75 -/
inductive Upd | ok | conflict | other deriving DecidableEq, Repr

/-- what attempt `i` meets: the cached object (`none` is an error of the lister), and the answer to the update;
machineset.go:848-874, machineset_util.go:50-75 -/
structure CacheEnv (α : Type) where
  get : Nat → Option α
  upd : Nat → Upd

/-- what `applyUpdate` does to the object: an error, `ErrPreconditionViolated`, or a new value;
machineset.go:855-860, machineset_util.go:57-62 -/
inductive Applied (α : Type) | error | precondition | value (a : α)

/-- `RetryOnConflict` around reading the cache, applying and updating, machineset.go:851-871 and machineset_util.go:53-72; `n` attempts left -/
def withRetriesLoop {α : Type} (e : CacheEnv α) (f : α → Applied α) : Nat → Nat → Ans α × List α
  | 0, _ => (.failed, [])
  | n + 1, i =>
    match e.get i with
    | none => (.failed, [])
    | some a =>
      match f a with
      | .error => (.failed, [])
      | .precondition => (.done none, [])
      | .value b =>
        match e.upd i with
        | .ok => (.done (some b), [b])
        | .other => (.failed, [b])
        | .conflict => ((withRetriesLoop e f n (i + 1)).1, b :: (withRetriesLoop e f n (i + 1)).2)

/-- `UpdateMachineWithRetries`, machineset.go:848-874, and `UpdateISWithRetries`, machineset_util.go:50-75; `retry.DefaultBackoff` has four steps (client-go util/retry) -/
def withRetries {α : Type} (e : CacheEnv α) (f : α → Applied α) : Ans α × List α := withRetriesLoop e f 4 0

/-- `terminateMachines`, machineset.go:713-737: it waits for the goroutines of all machines, each of which ends with `updateMachineStatus`; whether it has returned when
every goroutine had `fuel` attempts -/
def terminateReturned (fuel : Nat) (ms : List (Env Status × Status)) (op : Op) (cur : Cur) : Bool :=
  ms.all fun m => (updateStatus m.1 m.2 op cur fuel 0).1 != .running

end MCM.Retry
