import Verif.Model.Taints
/-!
Model of what a rolling update does to the nodes: /repo/pkg/controller/deployment_rolling.go:47-116, 294-489,
/repo/pkg/controller/deployment_rollback.go:143-226, /repo/pkg/controller/controller_utils.go:902-1023 and
/repo/pkg/util/annotations/annotations.go:16-73.
-/
namespace MCM.RolloutNodes
open Taints

/-- The parts of a node written in deployment_rolling.go:294-489 and deployment_rollback.go:144-226 -/
structure Node where
  taints : List Taint := []
  annotations : SMap := []
deriving DecidableEq, Repr

/-- the nodes of the target cluster, by name; controller_utils.go:902-1023 -/
abbrev Nodes := String → Option Node

/-- An update of a node: controller_utils.go:943-956 -/
def Nodes.put (ns : Nodes) (name : String) (n : Node) : Nodes := fun k => if k = name then some n else ns k

/-- A machine set: whether it carries the annotation deployment.machine.sapcloud.io/prefer-no-schedule, the node labels of the machines
`claimMachines` returns for it (empty: none yet), and the counters looked at by `machineSetsScaledToZero`.
deployment_rolling.go:294-489. -/
structure MSet where
  name : String
  marked : Bool := false
  machines : List String := []
  replicas : Int := 0
  available : Int := 0
  fullyLabeled : Int := 0
  ready : Int := 0
  statusReplicas : Int := 0
deriving DecidableEq, Repr

/-- the taint of old nodes, deployment_rolling.go:63-67 -/
def oldTaint : Taint := { key := "deployment.machine.sapcloud.io/prefer-no-schedule", value := "True", effect := "PreferNoSchedule" }

/-- Whether the requests for a node succeed (read and write); one that does not changes nothing. A conflict is not retried, see
`Taints.addOnNode`. controller_utils.go:902-1003. -/
abbrev Ok := String → Bool

/-- `AddOrUpdateTaintOnNode` for the one taint, nodeops/taints.go:33-69 -/
def taintNode (ok : Ok) (ns : Nodes) (name : String) : Nodes :=
  match ns name with
  | none => ns
  | some n => if ok name then ns.put name { n with taints := (addOrUpdate n.taints oldTaint).1 } else ns

/-- the loop over the machines, deployment_rolling.go:322-334; errors are logged only -/
def taintMachines (ok : Ok) (ns : Nodes) : List String → Nodes
  | [] => ns
  | m :: ms => taintMachines ok (if m ≠ "" then taintNode ok ns m else ns) ms

/-- the loop that marks the set, deployment_rolling.go:336-369: one entry per attempt before the deadline, telling whether the GET
and the UPDATE succeed. A GET that fails returns an empty object, and all later ones ask for the name "". -/
def markSet : List (Bool × Bool) → Bool
  | [] => false
  | (get, update) :: rest => if ¬ get then false else if update then true else markSet rest

/-- `taintNodesBackingMachineSets`, deployment_rolling.go:294-374: the nodes, the sets marked, and whether it succeeded -/
def taintSets (ok : Ok) (attempts : String → List (Bool × Bool)) : Nodes → List MSet → Nodes × List String × Bool
  | ns, [] => (ns, [], true)
  | ns, s :: ss =>
    if s.marked then taintSets ok attempts ns ss
    else
      let ns' := taintMachines ok ns s.machines
      if markSet (attempts s.name) then
        let r := taintSets ok attempts ns' ss
        (r.1, s.name :: r.2.1, r.2.2)
      else (ns', [], false)

/-- deployment_rollback.go:172-189: read the node, and `RemoveTaintOffNode` -/
def untaintNode (ok : Ok) (ns : Nodes) (name : String) : Nodes :=
  match ns name with
  | none => ns
  | some n => if ok name then ns.put name { n with taints := (remove n.taints oldTaint).1 } else ns

/-- The loop over the machines of a set, deployment_rollback.go:173-191 -/
def untaintMachines (ok : Ok) (ns : Nodes) : List String → Nodes
  | [] => ns
  | m :: ms => untaintMachines ok (if m ≠ "" then untaintNode ok ns m else ns) ms

/-- the loop that removes the mark, deployment_rollback.go:191-222: here a failing UPDATE, too, leaves an empty object -/
def unmarkSet : List (Bool × Bool) → Bool
  | [] => false
  | (get, update) :: _ => get && update

/-- `removeTaintNodesBackingMachineSet`, deployment_rollback.go:143-226: the nodes, whether the set is still marked, and whether it
succeeded -/
def untaintSet (ok : Ok) (attempts : List (Bool × Bool)) (ns : Nodes) (s : MSet) : Nodes × Bool × Bool :=
  if ¬ s.marked then (ns, false, true)
  else
    let ns' := untaintMachines ok ns s.machines
    if unmarkSet attempts then (ns', false, true) else (ns', true, false)

/-! ### the annotations for the cluster autoscaler -/

/-- autoscaler.ClusterAutoscalerScaleDownDisabledAnnotationKey; set at deployment_rolling.go:50 -/
def sdKey : String := "cluster-autoscaler.kubernetes.io/scale-down-disabled"
/-- autoscaler.ClusterAutoscalerScaleDownDisabledAnnotationByMCMKey; set at deployment_rolling.go:53, read at 471 -/
def mcmKey : String := "cluster-autoscaler.kubernetes.io/scale-down-disabled-by-mcm"

/-- `AddOrUpdateAnnotation`, annotations.go:18-43, with the two annotations of deployment_rolling.go:48-52 -/
def addAnnotations (m : SMap) : SMap :=
  let m1 := if List.lookup sdKey m = some "true" then m else m.set sdKey "true"
  if List.lookup mcmKey m1 = some "true" then m1 else m1.set mcmKey "true"

/-- `DeleteAnnotation`, annotations.go:61-73 -/
def removeAnnotations (m : SMap) : SMap := m.filter fun e => ¬ (e.1 = sdKey ∨ e.1 = mcmKey)

/-- `AddOrUpdateAnnotationOnNode`, controller_utils.go:902-939 -/
def annotateNode (ok : Ok) (ns : Nodes) (name : String) : Nodes :=
  match ns name with
  | none => ns
  | some n => if ok name then ns.put name { n with annotations := addAnnotations n.annotations } else ns

/-- The loop over the machines of a set, deployment_rolling.go:405-418 -/
def annotateMachines (ok : Ok) (ns : Nodes) : List String → Nodes
  | [] => ns
  | m :: ms => annotateMachines ok (if m ≠ "" then annotateNode ok ns m else ns) ms

/-- `annotateNodesBackingMachineSets`, deployment_rolling.go:377-422; listing and claiming are taken to succeed -/
def annotateSets (ok : Ok) (ns : Nodes) : List MSet → Nodes
  | [] => ns
  | s :: ss => annotateSets ok (annotateMachines ok ns s.machines) ss

/-- `machineSetsScaledToZero`, deployment_rolling.go:424-431 -/
def scaledToZero (ss : List MSet) : Bool :=
  ss.all fun s => ¬ (s.replicas ≠ 0 ∧ s.available ≠ 0 ∧ s.fullyLabeled ≠ 0 ∧ s.ready ≠ 0 ∧ s.statusReplicas ≠ 0)

/-- the inner loop of `removeAutoscalerAnnotationsIfRequired`, deployment_rolling.go:455-484 (`GetAnnotationsFromNode` of a missing
node is no error); `none` in place of success when an error ends it -/
def unannotateMachines (ok : Ok) (ns : Nodes) : List String → Nodes × Bool
  | [] => (ns, true)
  | m :: ms =>
    if m = "" then unannotateMachines ok ns ms
    else match ns m with
      | none => unannotateMachines ok ns ms
      | some n =>
        if ¬ ok m then (ns, false)
        else if n.annotations.has mcmKey then unannotateMachines ok (ns.put m { n with annotations := removeAnnotations n.annotations }) ms
        else unannotateMachines ok ns ms

/-- `removeAutoscalerAnnotationsIfRequired`, deployment_rolling.go:434-489 -/
def unannotateSets (ok : Ok) (ns : Nodes) : List MSet → Nodes × Bool
  | [] => (ns, true)
  | s :: ss =>
    let r := unannotateMachines ok ns s.machines
    if r.2 then unannotateSets ok r.1 ss else r

/-- The beginning of `rolloutRolling`, deployment_rolling.go:61-86: `flag` is `autoscalerScaleDownAnnotationDuringRollout`. A failure to
taint is logged only (line 85; the error is overwritten). -/
def rolloutStart (flag : Bool) (ok : Ok) (attempts : String → List (Bool × Bool)) (ns : Nodes) (old : List MSet) (new : MSet) : Nodes × List String :=
  let r := taintSets ok attempts ns old
  (if flag ∧ old ≠ [] ∧ ¬ scaledToZero old then annotateSets ok r.1 (old ++ [new]) else r.1, r.2.1)

/-- `rolloutRolling` when nothing is left to be scaled, deployment_rolling.go:104-112 -/
def rolloutEnd (flag complete : Bool) (ok : Ok) (ns : Nodes) (all : List MSet) : Nodes × Bool :=
  if complete ∧ flag then unannotateSets ok ns all else (ns, true)

end MCM.RolloutNodes
