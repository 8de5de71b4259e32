import Verif.Model.Types
import Verif.Model.SlowStart
/-
Model of the MachineSet replica management, /repo/pkg/controller/machineset.go and
/repo/pkg/controller/controller_utils.go (victim ordering).
-/
namespace MCM.MachineSet
open MCM

/-- `machineIPriority` in `ActiveMachines.Less`, controller_utils.go:739-759: default 3, overridden by a
non-empty annotation that parses as an integer. -/
def priorityOf (m : Machine) : Int :=
  let a := m.annotations.get machinePriorityKey
  if a != "" then (atoi a).getD 3 else 3

/-- The phase map `m` in `ActiveMachines.Less`, controller_utils.go:764-772; phases absent from the map
give Go's zero value. -/
def phaseRank : Phase → Int
  | .terminating => 0
  | .failed => 1
  | .crashLoopBackOff => 2
  | .unknown => 3
  | .pending => 4
  | .available => 5
  | .running => 6
  | _ => 0

/-- `ActiveMachines.Less`, controller_utils.go:737-787.  (`CreationTimestamp != …` compares the Go structs;
it is modelled as comparing instants, which decides the same since `Before` is false for equal instants.) -/
def less (a b : Machine) : Bool :=
  if priorityOf a ≠ priorityOf b then priorityOf a < priorityOf b
  else if phaseRank a.phase ≠ phaseRank b.phase then phaseRank a.phase < phaseRank b.phase
  else if a.creation ≠ b.creation then a.creation < b.creation
  else false

/-- What `sort.Sort` guarantees for a strict weak order: some permutation in which no later element is
`Less` than an earlier one.  It is not stable, so nothing more is assumed. Called at machineset.go:652. -/
structure IsSortOf (lt : Machine → Machine → Bool) (out inp : List Machine) : Prop where
  perm : out.Perm inp
  sorted : out.Pairwise (fun a b => lt b a = false)

/-- `getMachinesToDelete`, machineset.go:645-655.  `srt` is the result `sort.Sort` leaves in the slice. -/
def getMachinesToDelete (srt : List Machine → List Machine) (ms : List Machine) (diff : Nat) : List Machine :=
  if diff < ms.length then (srt ms).take diff else ms.take diff

/-- `BurstReplicas`, machineset.go:57-59 -/
def burstReplicas : Nat := 100

/-- The MachineSet fields used by `manageReplicas`. `replicas` is an int32 in Go; negative values are
rejected by validation before `manageReplicas` is reached (machineset.go:490-499). -/
structure MSet where
  replicas : Nat
  /-- `Labels["freeze"]` -/
  freezeLabel : String := ""
  /-- `DeletionTimestamp != nil` -/
  deleting : Bool := false
deriving Repr, DecidableEq

/-- stale machines of `manageReplicas`, machineset.go:341-343 -/
def isStale (m : Machine) : Bool := isMachineFailed m || isMachineTriggeredForDeletion m
/-- active machines of `manageReplicas`, machineset.go:341-347 -/
def isLive (m : Machine) : Bool := !isStale m && isMachineActive m

/-- Outcome of one machine-create API call: the error returned and whether the object actually exists
afterwards. machineset.go:390-421. -/
inductive CreateErr | none | timeout | other
deriving Repr, DecidableEq
/-- The error of a create call and whether the object exists afterwards, machineset.go:390-421 -/
structure CreateOutcome where
  err : CreateErr
  landed : Bool
deriving Repr, DecidableEq

/-- The function handed to `slowStartBatch` returns nil on success and on timeout, machineset.go:388-405. -/
def createFnOk (o : CreateOutcome) : Bool := o.err != .other

/-- What one `manageReplicas` call does. machineset.go:333-452. -/
structure Outcome where
  /-- first `terminateMachines` call -/
  staleTerminated : List Machine
  /-- the slow-start run, if any -/
  creation : Option SlowStart.Result
  /-- second `terminateMachines` call -/
  victims : List Machine
  err : Bool
deriving Repr, DecidableEq

/-- `manageReplicas`, machineset.go:333-452.  Expectations bookkeeping (:377, :412-419, :437) is modelled
separately (Model/Expectations.lean) because `reconcileClusterMachineSet` never consults it
(:540-541 is commented out).  Errors of `terminateMachines` are only logged (:354, :444). -/
def manageReplicas (srt : List Machine → List Machine) (createOut : Nat → CreateOutcome)
    (all : List Machine) (ms : MSet) : Outcome :=
  let stale := all.filter isStale
  let active := all.filter isLive
  let diff : Int := (active.length : Int) - ms.replicas
  if diff < 0 then
    if ms.freezeLabel == "True" && !ms.deleting then
      { staleTerminated := stale, creation := none, victims := [], err := false }
    else
      let d := min (ms.replicas - active.length) burstReplicas
      let r := SlowStart.slowStartBatch (fun i => createFnOk (createOut i)) d 1
      { staleTerminated := stale, creation := some r, victims := [], err := r.failed }
  else if diff > 0 then
    let d := min (active.length - ms.replicas) burstReplicas
    { staleTerminated := stale, creation := none,
      victims := getMachinesToDelete srt active d, err := false }
  else
    { staleTerminated := stale, creation := none, victims := [], err := false }

/-- Answers of the API server to the delete call and the following status update for one machine. machineset.go:665-711. -/
structure TermOutcome where
  deleteOk : Bool
  statusOk : Bool
deriving Repr, DecidableEq

/-- `prepareMachineForDeletion`, machineset.go:665-711, effect on the stored object.  A machine whose
DeletionTimestamp is set is skipped (:669); otherwise the delete call sets the DeletionTimestamp (the
object stays because of its finalizer), and *whether or not the delete call succeeded* the phase is set to
Terminating (:694-708).  A successful delete of a machine without finalizers, which removes the object at
once, is not modelled.  `isMachineStatusEqual` suppressing the write (:806-809) needs an object already in
phase Terminating and is therefore invisible here. -/
def prepareMachineForDeletion (o : TermOutcome) (m : Machine) : Machine :=
  if m.deleting then m
  else
    let m1 := if o.deleteOk then { m with deleting := true } else m
    if o.statusOk then { m1 with phase := .terminating } else m1

/-- `terminateMachines`, machineset.go:713-737, effect on the stored objects: every machine of the set
with a name in `targets` is treated by `prepareMachineForDeletion` (concurrently; the objects are
disjoint). -/
def terminateMachines (o : String → TermOutcome) (targets : List Machine) (world : List Machine) : List Machine :=
  world.map fun m => if m.name ∈ targets.map Machine.name then prepareMachineForDeletion (o m.name) m else m

/-- Number of create calls that left an object behind. machineset.go:390-421. -/
def landedCount (createOut : Nat → CreateOutcome) (issued : Nat) : Nat :=
  ((List.range issued).filter fun i => (createOut i).landed).length

/-- Effect of one `manageReplicas` on the stored machines of the set: `new` are the machines that came
into existence through its create calls. machineset.go:333-452, 665-742. -/
def apply (o : String → TermOutcome) (out : Outcome) (new : List Machine) (world : List Machine) : List Machine :=
  terminateMachines o out.victims (terminateMachines o out.staleTerminated world) ++ new

/-- create calls issued by an outcome; machineset.go:390-421, 617-643 -/
def Outcome.issued (out : Outcome) : Nat :=
  match out.creation with
  | none => 0
  | some r => r.issued

end MCM.MachineSet
