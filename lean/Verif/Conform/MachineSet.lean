import Verif.Model.MachineSet
import Verif.Model.Claim
import Verif.Model.Wake
/-!
Tests, not proofs: cases of the project's own unit tests of the machine set controller (/repo/pkg/controller/machineset_test.go, controller_utils_test.go) evaluated in the
model.
-/
namespace MCM.Conform.MachineSet
open MCM MCM.MachineSet

/-- a machine -/
def m (name : String) (p : Phase) : Machine := { name, phase := p }
/-- three running machines -/
def run3 : List Machine := [m "machine-1" .running, m "machine-2" .running, m "machine-3" .running]
/-- every create call succeeds -/
def allOk : Nat → CreateOutcome := fun _ => ⟨.none, true⟩
/-- sorting by the order of the code -/
def sorted : List Machine → List Machine
  | [] => []
  | s :: l => (sorted l).takeWhile (fun t => less t s) ++ s :: (sorted l).dropWhile (fun t => less t s)

/-- `manageReplicas`, machineset_test.go:562-800: one machine of three missing; a hundred at most are created at once; nothing to do; a failed machine is deleted -/
example :
    let two := run3.take 2
    (manageReplicas sorted allOk two { replicas := 3 }).issued = 1 ∧ (manageReplicas sorted allOk two { replicas := 3 }).err = false ∧
    (manageReplicas sorted allOk two { replicas := 200 }).issued = 100 ∧
    (manageReplicas sorted allOk run3 { replicas := 3 }) = ⟨[], none, [], false⟩ ∧
    (manageReplicas sorted allOk (run3 ++ [m "machine-4" .failed]) { replicas := 3 }) = ⟨[m "machine-4" .failed], none, [], false⟩ := by decide +kernel
/-- "should delete MachinePriority=1 machines and spawn replacement machine", machineset_test.go:844-880 -/
example :
    let p : Machine := { m "machine-1" .running with annotations := [("machinepriority.machine.sapcloud.io", "1")] }
    (manageReplicas sorted allOk (p :: run3.drop 1) { replicas := 3 }).staleTerminated = [p] ∧
    (manageReplicas sorted allOk (p :: run3.drop 1) { replicas := 3 }).issued = 1 := by decide +kernel
/-- `slowStartBatch`: ten in batches beginning with two; none; all failing -/
example : SlowStart.slowStartBatch (fun _ => true) 10 2 = ⟨[2, 4, 4], 10, false⟩ ∧ (SlowStart.slowStartBatch (fun _ => true) 10 0).successes = 0 ∧
    (SlowStart.slowStartBatch (fun _ => true) 10 0).failed = false ∧ (SlowStart.slowStartBatch (fun _ => false) 10 2).successes = 0 ∧
    (SlowStart.slowStartBatch (fun _ => false) 10 2).failed = true := by decide +kernel
/-- `getMachinesToDelete`: of a running and a failed machine the failed one -/
example : getMachinesToDelete sorted [m "machine-1" .running, m "machine-2" .failed] 1 = [m "machine-2" .failed] := by decide +kernel
/-- the order of deletion by priority, phase, age; controller_utils_test.go -/
example :
    let pr : String → String → Machine := fun n v => { m n .running with annotations := [("machinepriority.machine.sapcloud.io", v)] }
    let at_ : String → Int → Machine := fun n c => { m n .running with creation := c }
    (sorted [pr "c" "5", m "b" .running, pr "a" "1"]).map (·.name) = ["a", "b", "c"] ∧
    (sorted [m "g" .running, m "f" .available, m "e" .pending, m "d" .unknown, m "c" .crashLoopBackOff, m "b" .failed, m "a" .terminating]).map (·.name) =
      ["a", "b", "c", "d", "e", "f", "g"] ∧
    (sorted [at_ "b" 5, at_ "a" 1]).map (·.name) = ["a", "b"] := by decide +kernel

/-! ## Claiming -/
section claim
open MCM.Claim

/-- a machine that matches is adopted, one with other labels is left alone -/
example :
    let sel : SMap → Bool := fun l => decide (l.lookup "test-label" = some "test-label")
    let a : Obj := { name := "Machine-test", uid := "1", labels := [("test-label", "test-label")] }
    let b : Obj := { name := "Machine-other", uid := "2", labels := [("test-label", "test-label2")] }
    claimAll { uid := "1234567" } sel (some { uid := "1234567" }) (fun _ => none) none [a, b] = ([a], false, [.recheck true, .adopt a]) := by decide +kernel
end claim

/-! ## Handlers, machineset_test.go:20-560 -/
section wake
open MCM.Wake

/-- the set -/
def ws : Wake.Obj := { name := "MachineSet-test", uid := "1234567", labels := [("test-label", "test-label")], selector := { labels := [("test-label", "test-label")] } }
/-- the machine -/
def wm : Wake.Obj :=
  { name := "Machine-test", uid := "1", version := 123, labels := [("test-label", "test-label")], owners := [{ kind := "MachineSet", name := "MachineSet-test", uid := "1234567" }] }
/-- keys in the queue of machine sets -/
def keys (l : List Action) : Nat := ((l.filterMap fun a => match a with | .set n => some n | _ => none).eraseDups).length
/-- `addMachineToMachineSet` -/
example : keys (addMachine [ws] wm) = 1 ∧ keys (addMachine [ws] { wm with deleting := true }) = 1 ∧ keys (addMachine [ws] { wm with owners := [] }) = 1 ∧
    keys (addMachine [ws] { wm with owners := [{ kind := "MachineSet", name := "MachineSet-test-dummy", uid := "1234567" }] }) = 0 := by decide +kernel
/-- `updateMachineToMachineSet` -/
example :
    let n : Wake.Obj := { wm with version := 345 }
    keys (updateMachine [ws] wm wm) = 0 ∧ keys (updateMachine [ws] wm { n with deleting := true }) = 1 ∧ keys (updateMachine [ws] wm { n with labels := [("dummy", "dummy")] }) = 1 ∧
    keys (updateMachine [ws] wm { n with owners := [] }) = 1 ∧
    keys (updateMachine [ws] wm { n with owners := [{ kind := "MachineSet", name := "MachineSet-test-dummy", uid := "1234567" }] }) = 1 := by decide +kernel
/-- `resolveMachineSetControllerRef`: the kind and the UID must be right -/
example : (resolve "MachineSet" (lookup [ws]) { kind := "MachineSet", name := "MachineSet-test", uid := "1234567" }).isSome = true ∧
    resolve "MachineSet" (lookup [ws]) { kind := "MachineSet", name := "MachineSet-test", uid := "1234567-wrong" } = none ∧
    resolve "MachineSet" (lookup [ws]) { kind := "MachineSet-wrong", name := "MachineSet-test", uid := "1234567" } = none := by decide +kernel
/-- `getMachineMachineSets`: a machine without labels matches nothing -/
example : matching [ws] [] = [] ∧ matching [ws] wm.labels = [ws] := by decide +kernel
end wake

end MCM.Conform.MachineSet
