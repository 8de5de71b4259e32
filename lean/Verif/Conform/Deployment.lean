import Verif.Model.Dispatch
import Verif.Model.Wake
import Verif.Model.RolloutNodes
/-!
Tests, not proofs: cases of the project's own unit tests of the deployment controller
(/repo/pkg/controller/deployment_test.go, deployment_sync_test.go, deployment_rolling_test.go, deployment_rollback_test.go, deployment_util_test.go) evaluated in the
model.
-/
namespace MCM.Conform.Deployment
open MCM

/-! ## `scale`, deployment_sync_test.go:349-849 -/
section scale
open MCM.Scale

/-- the deployment: surge 2, no machine unavailable, deployment_sync_test.go:360-370, 460-470 -/
def dep (n : Int) : Rolling.Dep := { replicas := n, maxSurge := some (.int 2), maxUnavailable := some (.int 0) }
/-- a set -/
def ms (name : String) (n : Int) (desired maxR : String) : MSet := { name, spec := n, desired := some desired, maxR := some maxR }
/-- larger sets first; sets of one size do not occur in these entries -/
def bySize : List MSet → List MSet
  | [] => []
  | s :: l => (bySize l).takeWhile (fun t => decide (t.spec > s.spec)) ++ s :: (bySize l).dropWhile (fun t => decide (t.spec > s.spec))
/-- name, size and annotations of the sets afterwards, and the error -/
def scaled (n : Int) (old : List MSet) (new : Option MSet) : List (String × Int × Option String × Option String) × Bool :=
  let r := scale (dep n) { srtSize := bySize } old new
  ((["ms1", "ms2", "ms3"].flatMap fun n => r.1.filter fun s => s.name = n).map fun s => (s.name, s.spec, s.desired, s.maxR), r.2)

/-- scale-up: only the new set grows, :498-581 -/
example : scaled 10 [ms "ms1" 1 "7" "9", ms "ms2" 3 "7" "9"] (some (ms "ms3" 5 "7" "9")) =
    ([("ms1", 1, some "10", some "12"), ("ms2", 3, some "10", some "12"), ("ms3", 8, some "10", some "12")], false) := by decide +kernel
/-- scale-down with a rest, :582-665 -/
example : scaled 3 [ms "ms1" 1 "7" "9", ms "ms2" 3 "7" "9"] (some (ms "ms3" 5 "7" "9")) =
    ([("ms1", 1, some "3", some "5"), ("ms2", 2, some "3", some "5"), ("ms3", 2, some "3", some "5")], false) := by decide +kernel
/-- scale-down without a rest, :666-749 -/
example : scaled 5 [ms "ms1" 1 "8" "10", ms "ms2" 3 "8" "10"] (some (ms "ms3" 6 "8" "10")) =
    ([("ms1", 1, some "5", some "7"), ("ms2", 2, some "5", some "7"), ("ms3", 4, some "5", some "7")], false) := by decide +kernel
/-- nothing to do, :750-833 -/
example : scaled 7 [ms "ms1" 1 "7" "9", ms "ms2" 3 "7" "9"] (some (ms "ms3" 5 "7" "9")) =
    ([("ms1", 1, some "7", some "9"), ("ms2", 3, some "7", some "9"), ("ms3", 5, some "7", some "9")], false) := by decide +kernel
/-- only the annotations of the only active set are outdated, :834-849 -/
example : scaled 1 [ms "ms1" 1 "2" "3"] none = ([("ms1", 1, some "1", some "3")], false) := by decide +kernel
end scale

/-! ## `reconcileClusterMachineDeployment`, deployment_test.go:1389-1803 -/
section dispatch
open MCM.Dispatch MCM.Template

/-- the deployment of the tests -/
def d0 : FDep :=
  { spec := { replicas := 5, maxSurge := some (.int 1), maxUnavailable := some (.int 1) }
    template := { labels := [("test-label", "test-label")], classKind := "MachineClass", body := "MachineClass-test" }, finalizer := false }
/-- its set -/
def s0 : FSet :=
  { set := { name := "MachineSet-test", spec := 5, avail := 5 }, tmpl := d0.template, annotations := [("deployment.kubernetes.io/revision", "1")], status := 5, generation := 5,
    observed := 5 }
/-- a created set is called so; one machine of the set exists -/
def e0 : Dispatch.Env := { fresh := "MachineDeployment-test-new", hash := "1", machines := fun n => if n = "MachineSet-test" then 1 else 0 }
/-- the deployment with a new class -/
def d1 : FDep := { d0 with template := { d0.template with body := "MachineClass-test-new" } }
/-- names and sizes afterwards -/
def sizes (d : FDep) (l : List FSet) : List (String × Int) := ((reconcile d e0 l).sets).map fun f => (f.set.name, f.set.spec)

/-- "create a machineSet while reconciling", :1595-1608 -/
example : (sizes d0 []).map (·.1) = ["MachineDeployment-test-new"] := by decide +kernel
/-- "should not create new machineSet if labelSelector is empty", :1609-1620 -/
example : sizes { d0 with selectsAll := true } [s0] = [("MachineSet-test", 5)] := by decide +kernel
/-- "should remove the finalizer from deployment when deleted": the deployment of the test has none in the first place, :1621-1631 -/
example : (reconcile { d0 with deleting := true } e0 [s0]).dep.finalizer = false := by decide +kernel
/-- "should not create new machineSet with dummy-unknown strategy", :1632-1648 -/
example : sizes { d0 with spec := { d0.spec with strategy := .other } } [] = [] := by decide +kernel
/-- "Recreate case: should create new machineSet", :1649-1665 -/
example : (sizes { d0 with spec := { d0.spec with strategy := .recreate } } []).length = 1 := by decide +kernel
/-- "Recreate case: should completely scale-down the old machineSet", :1666-1680 -/
example : sizes { d1 with spec := { d1.spec with strategy := .recreate } } [s0] = [("MachineSet-test", 0)] := by decide +kernel
/-- "Recreate case: should fully scale-up the new machineSet", :1681-1709; the test's machine is gone -/
example :
    let old : FSet := { s0 with set := { s0.set with spec := 0, avail := 0 }, status := 0 }
    ((reconcile { d1 with spec := { d1.spec with strategy := .recreate } } { e0 with machines := fun _ => 0 } [old]).sets.map fun f => (f.set.name, f.set.spec)) =
      [("MachineSet-test", 0), ("MachineDeployment-test-new", 5)] := by decide +kernel
/-- "rolling-update case: both new and old machineSet should have appropriate desired replicas": 2 and 5 in one run, because the set just created has no machine in its status
yet, :1710-1749 -/
example : sizes d1 [s0] = [("MachineSet-test", 5), ("MachineDeployment-test-new", 2)] := by decide +kernel
/-- "rolling-back case", :1750-1772 -/
example : (reconcile { d1 with rollbackTo := some 1 } e0 [s0]).dep.rollbackTo = none ∧
    (reconcile { d1 with rollbackTo := some 1 } e0 [s0]).dep.template.body = "MachineClass-test" := by decide +kernel
/-- "paused case", :1773-1791 -/
example : sizes { d1 with paused := true } [s0] = [("MachineSet-test", 5)] := by decide +kernel
end dispatch

/-! ## Handlers, deployment_test.go:232-725 -/
section wake
open MCM.Wake

/-- the deployment -/
def wd : Obj := { name := "MachineDeployment-test", uid := "1234567", labels := [("test-label", "test-label")], selector := { labels := [("test-label", "test-label")] } }
/-- the set -/
def ws : Obj :=
  { name := "MachineSet-test", uid := "1234567", version := 123, labels := [("test-label", "test-label")],
    owners := [{ kind := "MachineDeployment", name := "MachineDeployment-test", uid := "1234567" }] }
/-- length of the queue -/
def added (s : Obj) : Nat := (addSet [wd] (lookup [wd]) s).length
/-- `addMachineSetToDeployment`, :323-353 -/
example : added ws = 1 ∧ added { ws with deleting := true } = 1 ∧ added { ws with owners := [] } = 1 ∧ added { ws with owners := [], labels := [] } = 0 ∧
    added { ws with owners := [{ kind := "MachineDeployment", name := "MachineDeployment-test-dummy", uid := "1234567" }] } = 0 := by decide +kernel
/-- the queue after an update: a key is in it once -/
def updated (old new : Obj) : Nat := ((updateSet [wd] (lookup [wd]) old new).eraseDups).length
/-- `updateMachineSetToDeployment`, :452-497 -/
example :
    let n : Obj := { ws with version := 345 }
    updated ws ws = 0 ∧ updated { ws with deleting := true } n = 1 ∧ updated ws { n with labels := [("dummy", "dummy")] } = 1 ∧ updated ws { n with owners := [] } = 1 ∧
    updated { ws with owners := [] } { n with owners := [] } = 0 ∧
    updated ws { n with owners := [{ kind := "MachineDeployment", name := "MachineSet-test-dummy", uid := "1234567" }] } = 1 := by decide +kernel
/-- `deleteMachineSetToDeployment`, :591-605 -/
example : (deleteSet (lookup [wd]) (.seen ws)).length = 1 ∧ (deleteSet (lookup [wd]) (.seen { ws with owners := [] })).length = 0 ∧
    (deleteSet (lookup [wd]) (.seen { ws with owners := [{ kind := "MachineDeployment", name := "MachineDeployment-test", uid := "111-dummy" }] })).length = 0 := by decide +kernel
end wake

/-! ## Nodes, deployment_rolling_test.go and deployment_rollback_test.go -/
section nodes
open MCM.RolloutNodes

/-- one node -/
def one (n : Node) : Nodes := fun k => if k = "node-0" then some n else none
/-- `taintNodesBackingMachineSets`, deployment_rolling_test.go:111-184: the node is tainted and the set marked -/
example :
    let r := taintSets (fun _ => true) (fun _ => [(true, true)]) (one {}) [{ name := "machineset-0", machines := ["node-0"] }]
    r.1 "node-0" = some { taints := [oldTaint] } ∧ r.2 = (["machineset-0"], true) := by decide +kernel
/-- `removeTaintNodesBackingMachineSet`, deployment_rollback_test.go:116-190 -/
example :
    let r := untaintSet (fun _ => true) [(true, true)] (one { taints := [oldTaint] }) { name := "machineset-0", marked := true, machines := ["node-0"] }
    r.1 "node-0" = some {} ∧ r.2 = (false, true) := by decide +kernel
/-- the annotations of the node after `annotateNodesBackingMachineSets` -/
def annotatedWith (m : SMap) : Option SMap := (annotateSets (fun _ => true) (one { annotations := m }) [{ name := "machineset-0", machines := ["node-0"] }] "node-0").map (·.annotations)
/-- with another annotation; with none; with another value; the order of the map is not the code's, deployment_rolling_test.go:274-427 -/
example : annotatedWith [("anno1", "anno1")] = some [(mcmKey, "true"), (sdKey, "true"), ("anno1", "anno1")] ∧ annotatedWith [] = some [(mcmKey, "true"), (sdKey, "true")] ∧
    annotatedWith [(sdKey, "false")] = some [(mcmKey, "true"), (sdKey, "true")] := by decide +kernel
/-- no node backs the set, deployment_rolling_test.go:428-480 -/
example : (annotateSets (fun _ => true) (fun _ => none) [{ name := "machineset-0", machines := ["node-0"] }] "node-0") = none := by decide +kernel
/-- the annotations of the node after `removeAutoscalerAnnotationsIfRequired` -/
def cleared (m : SMap) : Option SMap × Bool :=
  let r := unannotateSets (fun _ => true) (one { annotations := m }) [{ name := "machineset-0", machines := ["node-0"] }]
  ((r.1 "node-0").map (·.annotations), r.2)
/-- with and without the annotation saying that this controller set them; without any, deployment_rolling_test.go:570-731 -/
example : cleared [("anno1", "anno1"), (sdKey, "true"), (mcmKey, "true")] = (some [("anno1", "anno1")], true) ∧
    cleared [("anno1", "anno1"), (sdKey, "true")] = (some [("anno1", "anno1"), (sdKey, "true")], true) ∧
    cleared [("anno1", "anno1")] = (some [("anno1", "anno1")], true) := by decide +kernel
end nodes

end MCM.Conform.Deployment
