import Verif.Model.Rolling
/-!
Model of /repo/pkg/apis/machine/validation/machinedeployment.go:20-99, machineset.go:14-40, machine.go:14-41, and of where it is called:
/repo/pkg/controller/deployment.go:442-454, machineset.go:482-493, /repo/pkg/util/provider/machinecontroller/machine.go:184-194.
-/
namespace MCM.Validation
open MCM MCM.Rolling

/-- `metav1.LabelSelectorRequirement`; (apimachinery), machinedeployment.go:85-99 -/
inductive Req
  | isIn (key : String) (values : List String)
  | notIn (key : String) (values : List String)
  | exists_ (key : String)
  | notExists (key : String)
deriving DecidableEq, Repr

/-- `metav1.LabelSelector`; (apimachinery), machinedeployment.go:85-99 -/
structure Selector where
  labels : SMap := []
  exprs : List Req := []
deriving DecidableEq, Repr

/-- one requirement, apimachinery labels/selector.go `Requirement.Matches`; selectors are used at machineset.go:503 and deployment.go:357 -/
def Req.matches (ls : SMap) : Req → Bool
  | .isIn k vs => match ls.lookup k with
    | some v => vs.contains v
    | none => false
  | .notIn k vs => match ls.lookup k with
    | some v => !vs.contains v
    | none => true
  | .exists_ k => (ls.lookup k).isSome
  | .notExists k => (ls.lookup k).isNone

/-- `LabelSelectorAsSelector` followed by `Matches` (apimachinery), at machineset.go:503 and deployment.go:357 -/
def Selector.matches (s : Selector) (ls : SMap) : Bool := s.labels.all (fun e => decide (ls.lookup e.1 = some e.2)) && s.exprs.all (Req.matches ls)

/-- `ClassSpec`: kind and name; machine.go:30-41 -/
structure ClassRef where
  kind : String
  name : String
deriving DecidableEq, Repr

/-- `validateClassReference`, machine.go:30-41, also `ValidateMachine` -/
def classOk (c : ClassRef) : Bool := !(c.kind == "") && !(c.name == "")

/-- `spec.Template.Labels[k] != v` for all labels of the selector, machinedeployment.go:91-96, machineset.go:31-36: a missing key reads as
the empty string. `none`: the selector is nil, and its labels are read (panic) -/
def selectorOk (sel : Option Selector) (template : SMap) : Option Bool :=
  sel.map fun s => s.labels.all fun e => (template.lookup e.1).getD "" == e.2

/-- outcome of `ValidateMachineDeployment` and `ValidateMachineSet`, machinedeployment.go:20-28, machineset.go:14-22 -/
inductive Verdict
  | accepted | rejected | panic
deriving DecidableEq, Repr

/-- machinedeployment.go:20-28, machineset.go:14-22; `none`: the selector is nil and is dereferenced -/
def verdict (rest : Bool) : Option Bool → Verdict
  | none => .panic
  | some b => if rest && b then .accepted else .rejected

/-- `intstr.GetScaledValueFromIntOrPercent`: a string must end with `%`, which is cut off; (apimachinery), machinedeployment.go:30-39 -/
def scaledSafe (x : Option IntOrStr) (total : Int) (roundUp : Bool) : Option Int :=
  match x with
  | none => none
  | some (.int v) => some v
  | some (.str s) =>
    if s.toList.getLast? = some '%' then
      match atoi (String.ofList s.toList.dropLast) with
      | none => none
      | some v => some (if roundUp then ceilPct v total else floorPct v total)
    else none

/-- `canConvertIntOrStringToInt32`, machinedeployment.go:30-39 -/
def convertible (x : Option IntOrStr) (replicas : Int) : Bool :=
  match scaledSafe x replicas true with
  | none => false
  | some v => !(decide (v < -2147483648) || decide (v > 2147483647))

/-- `validateUpdateConfiguration`, machinedeployment.go:74-83 -/
structure UpdateConfig where
  maxUnavailable : Option IntOrStr
  maxSurge : Option IntOrStr
deriving Repr

/-- `validateUpdateConfiguration`, machinedeployment.go:74-83 -/
def configOk (c : UpdateConfig) (replicas : Int) : Bool := convertible c.maxUnavailable replicas && convertible c.maxSurge replicas

/-- the strategy: its type and parameters; machinedeployment_types.go:104-176 -/
structure Strategy where
  type : String
  rolling : Option UpdateConfig := none
  /-- parameters and orchestration type -/
  inPlace : Option (UpdateConfig × String) := none
deriving Repr

/-- `validateUpdateStrategy`, machinedeployment.go:41-72 -/
def strategyOk (s : Strategy) (replicas : Int) : Bool :=
  ["Recreate", "RollingUpdate", "InPlaceUpdate"].contains s.type &&
  (if s.type = "RollingUpdate" then
    match s.rolling with
    | none => false
    | some c => configOk c replicas
  else true) &&
  (if s.type = "InPlaceUpdate" then
    match s.inPlace with
    | none => false
    | some (c, o) => configOk c replicas && (o == "Auto" || o == "Manual")
  else true)

/-- the parts of `MachineDeploymentSpec` validated, machinedeployment.go:41-99 -/
structure DeploymentSpec where
  replicas : Int
  strategy : Strategy
  selector : Option Selector
  templateLabels : SMap
  cls : ClassRef
deriving Repr

/-- `validateMachineDeploymentSpec`, machinedeployment.go:85-99 -/
def validateDeployment (d : DeploymentSpec) : Verdict :=
  verdict (decide (0 ≤ d.replicas) && strategyOk d.strategy d.replicas && classOk d.cls) (selectorOk d.selector d.templateLabels)

/-- the parts of `MachineSetSpec` validated, machineset.go:24-40 -/
structure SetSpec where
  replicas : Int
  selector : Option Selector
  templateLabels : SMap
  cls : ClassRef
deriving Repr

/-- `validateMachineSetSpec`, machineset.go:24-40 -/
def validateSet (s : SetSpec) : Verdict := verdict (decide (0 ≤ s.replicas) && classOk s.cls) (selectorOk s.selector s.templateLabels)

/-- the end of `reconcileClusterMachineDeployment`, deployment.go:543-550: whether there is a handler for the strategy; without one every
reconcile that is not about scaling ends with an error -/
def handled (type : String) : Bool := type == "Recreate" || type == "RollingUpdate"

/-- The first part of the reconcile functions: after a rejection nothing else happens. `rest` is what the rest of the function does, a list
of requests. deployment.go:442-454, machineset.go:482-493, machine.go:184-194. -/
def guarded {α : Type} (v : Verdict) (rest : List α) : List α :=
  match v with
  | .accepted => rest
  | _ => []

end MCM.Validation
