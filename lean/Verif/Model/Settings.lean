import Verif.Model.Drain
import Verif.Model.Health
/-!
The settings in force for a machine: /repo/pkg/util/provider/machinecontroller/machine_util.go:1431-1484 (`getEffective…`), their use by the drain
(machine_util.go:1065-1121) and by `isHealthy` (machine_util.go:871-894).
-/
namespace MCM.Settings
open MCM

/-- `MachineConfiguration`, /repo/pkg/apis/machine/v1alpha1/shared_types.go:30-59. Durations are in nanoseconds. Left out: the timeout of in-place
updates, which nothing reads. -/
structure Conf where
  drainTimeout : Option Int := none
  healthTimeout : Option Int := none
  creationTimeout : Option Int := none
  /-- nothing reads it -/
  disableHealthTimeout : Option Bool := none
  maxEvictRetries : Option Int := none
  nodeConditions : Option String := none
deriving DecidableEq, Repr

/-- The flags, /repo/pkg/util/provider/app/options/options.go:60-112, with their defaults (/repo/pkg/util/provider/drain/drain.go:133 and 163 for the drain). -/
structure Flags where
  drainTimeout : Int := 2 * 60 * 60 * 1000000000
  healthTimeout : Int := 10 * 60 * 1000000000
  creationTimeout : Int := 20 * 60 * 1000000000
  maxEvictRetries : Int := 360
  nodeConditions : String := "KernelDeadlock,ReadonlyFilesystem,DiskPressure,NetworkUnavailable"
deriving DecidableEq, Repr

/-- `Spec.MachineConfiguration`, a pointer, and the flags; machine_types.go:51-68, shared_types.go:30-60; machine_util.go:1431-1484 -/
structure Source where
  conf : Option Conf
  flags : Flags
deriving DecidableEq, Repr

/-- `getEffectiveDrainTimeout`, machine_util.go:1431-1440 -/
def drainTimeout (s : Source) : Int :=
  match s.conf with
  | some c => match c.drainTimeout with
    | some d => d
    | none => s.flags.drainTimeout
  | none => s.flags.drainTimeout

/-- `getEffectiveMaxEvictRetries`, machine_util.go:1442-1451 -/
def maxEvictRetries (s : Source) : Int :=
  match s.conf with
  | some c => match c.maxEvictRetries with
    | some d => d
    | none => s.flags.maxEvictRetries
  | none => s.flags.maxEvictRetries

/-- `getEffectiveHealthTimeout`, machine_util.go:1453-1462 -/
def healthTimeout (s : Source) : Int :=
  match s.conf with
  | some c => match c.healthTimeout with
    | some d => d
    | none => s.flags.healthTimeout
  | none => s.flags.healthTimeout

/-- `getEffectiveCreationTimeout`, machine_util.go:1464-1473 -/
def creationTimeout (s : Source) : Int :=
  match s.conf with
  | some c => match c.creationTimeout with
    | some d => d
    | none => s.flags.creationTimeout
  | none => s.flags.creationTimeout

/-- `getEffectiveNodeConditions`, machine_util.go:1475-1484 -/
def nodeConditions (s : Source) : String :=
  match s.conf with
  | some c => match c.nodeConditions with
    | some d => d
    | none => s.flags.nodeConditions
  | none => s.flags.nodeConditions

/-- `PodEvictionRetryInterval`, drain.go:142-143 -/
def interval : Int := 20 * 1000000000

/-- `int32(math.Min(float64(*maxEvictRetries), drainTimeout.Seconds()/PodEvictionRetryInterval.Seconds()))`, machine_util.go:1065: towards zero.
The quotient is exact here; the program's floating point numbers give the same for timeouts below 26 days: `C124_attempts`. -/
def limit (max timeout : Int) : Int := if max * interval ≤ timeout then max else timeout.tdiv interval

/-- `MaxEvictRetries` of a drain, machine_util.go:1065 and 1121. `forced`: the label force-deletion is set or the drain timeout is over. -/
def evictions (s : Source) (forced : Bool) : Int := if forced then 1 else limit (maxEvictRetries s) (drainTimeout s)

/-- the number of rounds of the loops `for i := 0; i < nretries; i++`, drain.go:644 and 1034-1038 -/
def rounds (s : Source) (forced : Bool) : Nat := (evictions s forced).toNat

/-- `strings.Split(text, ",")` on characters: `cur` is the current piece, reversed; machine_util.go:1473-1484 -/
def splitChars (cur : List Char) : List Char → List String
  | [] => [String.ofList cur.reverse]
  | c :: cs => if c = ',' then String.ofList cur.reverse :: splitChars [] cs else splitChars (c :: cur) cs

/-- `strings.Split(text, ",")`, machine_util.go:885 -/
def split (text : String) : List String := splitChars [] text.toList

/-- The machine as a health check sees it, machine_util.go:885, 736, 752. -/
def machine (s : Source) (phase : Health.Phase) (since : Int) (conds : List Conditions.Cond) (creating : Bool) : Health.Machine :=
  { phase, since, conds, creating, creationTimeout := creationTimeout s, healthTimeout := healthTimeout s, bad := split (nodeConditions s) }

end MCM.Settings
