/-
Shared vocabulary: string maps, phases, `strconv.Atoi`, machines as seen by the MachineSet controller.
-/
namespace MCM

/-- A Go `map[string]string`, as an association list; the first binding of a key is the one that counts.
A nil map behaves like the empty map for reads. E.g. labels and annotations of machine_types.go:36-48. -/
abbrev SMap := List (String × String)

/-- Go's `m[k]` on a `map[string]string` (missing key gives the empty string). (Go's language; e.g. controller_utils.go:737-789). -/
def SMap.get (m : SMap) (k : String) : String := (List.lookup k m).getD ""

/-- Go's `_, ok := m[k]`. (Go's language; e.g. machineset.go:337-346). -/
def SMap.has (m : SMap) (k : String) : Bool := (List.lookup k m).isSome

/-- Go's `m[k] = v`; (Go's language; e.g. deployment_util.go:600-617) -/
def SMap.set (m : SMap) (k v : String) : SMap := (k, v) :: m.filter (fun e => e.1 != k)

/-- Go's `delete(m, k)`; (Go's language; e.g. annotations.go:63-73) -/
def SMap.del (m : SMap) (k : String) : SMap := m.filter (fun e => e.1 != k)

/-- Machine phases, /repo/pkg/apis/machine/v1alpha1/machine_types.go:130-163 (type MachinePhase); `empty` is the
phase `""` of a machine whose status was never written. -/
inductive Phase
  | empty | pending | available | running | terminating | unknown | failed | crashLoopBackOff
  | inPlaceUpdating | inPlaceUpdateSuccessful | inPlaceUpdateFailed
deriving Repr, DecidableEq, Inhabited

/-- Value of a decimal digit string, most significant first; `none` on an empty string or a non-digit.
Part of `strconv.Atoi` (Go's library), used at controller_utils.go:737-789. -/
def digitsVal : List Char → Option Nat
  | [] => none
  | cs => if cs.all Char.isDigit then some (cs.foldl (fun a c => 10 * a + (c.toNat - 48)) 0) else none

/-- `strconv.Atoi` (and `strconv.ParseInt(s, 10, 64)` for base-10 strings): optional sign, decimal digits,
64-bit range. -/
def atoi (s : String) : Option Int :=
  match s.toList with
  | '+' :: ds => (digitsVal ds).bind fun n => if n < 2^63 then some (n : Int) else none
  | '-' :: ds => (digitsVal ds).bind fun n => if n ≤ 2^63 then some (-(n : Int)) else none
  | ds => (digitsVal ds).bind fun n => if n < 2^63 then some (n : Int) else none

/-- machineutils.MachinePriority, /repo/pkg/util/provider/machineutils/utils.go:44-48 -/
def machinePriorityKey : String := "machinepriority.machine.sapcloud.io"
/-- machineutils.TriggerDeletionByMCM, utils.go:56-59 -/
def triggerDeletionKey : String := "node.machine.sapcloud.io/trigger-deletion-by-mcm"

/-- The part of a Machine object the MachineSet controller's replica management looks at.
machine_types.go:36-128, machineset.go:333-452, controller_utils.go:737-789. -/
structure Machine where
  name : String
  annotations : SMap := []
  phase : Phase := .empty
  creation : Int := 0
  /-- `DeletionTimestamp != nil` -/
  deleting : Bool := false
deriving Repr, DecidableEq, Inhabited

/-- `IsMachineFailed`, machineutils/utils.go:114-116 -/
def isMachineFailed (m : Machine) : Bool := m.phase == .failed
/-- `IsMachineActive`, machineutils/utils.go:109-111 -/
def isMachineActive (m : Machine) : Bool := m.phase != .failed && m.phase != .terminating
/-- `IsMachineTriggeredForDeletion`, machineutils/utils.go:119-121 -/
def isMachineTriggeredForDeletion (m : Machine) : Bool :=
  m.annotations.get machinePriorityKey == "1" || m.annotations.get triggerDeletionKey == "true"

end MCM
