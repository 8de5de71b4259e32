import Verif.Model.Health
import Verif.Model.ApiFreeze
import Verif.Model.Orphan
import Verif.Model.NodeSync
import Verif.Model.Similar
/-!
Tests, not proofs: cases of the project's own unit tests of health checks, safety loops and node templates
(/repo/pkg/util/provider/machinecontroller/machine_test.go, machine_util_test.go, machine_safety_test.go) evaluated in the model.
-/
namespace MCM.Conform.Node
open MCM

/-! ## Health -/
section health
open MCM.Health MCM.Conditions

/-- the conditions that make a machine unhealthy, controller_suite_test.go:569-571 -/
def bad : List String := ["KernelDeadlock", "ReadonlyFilesystem", "DiskPressure", "NetworkUnavailable"]

/-- conditions of the machine of `isHealthy`'s tests, machine_test.go:45-75, with one changed -/
def four (type status : String) : List Cond :=
  [{ type := "DiskPressure", status := "False" }, { type := "MemoryPressure", status := "False" },
   { type := "NetworkUnavailable", status := "False" }, { type := "Ready", status := "True" }].map fun c => if c.type = type then { c with status } else c

/-- the table of `isHealthy`, machine_test.go:77-110 -/
example : isHealthy bad (four "Ready" "True") = true ∧ isHealthy bad (four "Ready" "False") = false ∧ isHealthy bad (four "Ready" "Unknown") = false ∧
    isHealthy bad (four "DiskPressure" "True") = false ∧ isHealthy bad (four "DiskPressure" "False") = true ∧ isHealthy bad (four "DiskPressure" "Unknown") = false ∧
    isHealthy bad (four "MemoryPressure" "True") = true ∧ isHealthy bad (four "MemoryPressure" "Unknown") = true ∧ isHealthy bad (four "MemoryPressure" "False") = true ∧
    isHealthy bad (four "NetworkUnavailable" "True") = false ∧ isHealthy bad (four "NetworkUnavailable" "Unknown") = false ∧
    isHealthy bad (four "NetworkUnavailable" "False") = true := by decide +kernel

/-- `nodeConditions`, controller_suite_test.go:484-510 -/
def conds (ready readonly network disk kernel : Bool) : List Cond :=
  let s : Bool → String := fun b => if b then "True" else "False"
  [⟨"Ready", s ready, "", "", 0, 0⟩, ⟨"KernelDeadlock", s kernel, "", "", 0, 0⟩, ⟨"ReadonlyFilesystem", s readonly, "", "", 0, 0⟩,
   ⟨"DiskPressure", s disk, "", "", 0, 0⟩, ⟨"NetworkUnavailable", s network, "", "", 0, 0⟩]

/-- a machine of the tests of `reconcileMachineHealth`; times in minutes, the tests' time is 1000; creation timeout 20 minutes, health timeout 10 minutes,
controller_suite_test.go:573-576 -/
def mach (phase : Health.Phase) (age : Int) (cs : List Cond) : Health.Machine :=
  { phase, since := 1000 - age, conds := cs, creationTimeout := 20, healthTimeout := 10, bad }

/-- "simple machine with creation Timeout": no node after 25 minutes → Failed, machine_util_test.go:2172-2192 -/
example : check 1000 (mach .pending 25 []) .notFound = .status (some .failed) [] false := by decide +kernel
/-- a machine without conditions whose node is healthy → Running -/
example : check 1000 (mach .unknown 0 []) (.found { conds := conds true false false false false }) = .status (some .running) (conds true false false false false) false := by
  decide +kernel
/-- a running machine whose kubelet is not ready → Unknown -/
example : check 1000 (mach .running 0 (conds true false false false false)) (.found { conds := conds false false false false false }) =
    .status (some .unknown) (conds false false false false false) false := by decide +kernel
/-- a running machine whose file system is read only → Unknown -/
example : check 1000 (mach .running 0 (conds true false false false false)) (.found { conds := conds true true false false false }) =
    .status (some .unknown) (conds true true false false false) false := by decide +kernel
/-- a running machine whose node has vanished → Unknown -/
example : check 1000 (mach .running 0 (conds true false false false false)) .notFound = .status (some .unknown) (conds true false false false false) false := by decide +kernel
/-- unhealthy for 15 minutes, with and without node → an attempt to mark it Failed -/
example : check 1000 (mach .unknown 15 (conds false false false false false)) (.found { conds := conds false false false false false }) = .tryFail ∧
    check 1000 (mach .unknown 15 (conds false false false false false)) .notFound = .tryFail := by decide +kernel
/-- Pending since 15 minutes, node not found → stays Pending and is looked at again -/
example : check 1000 (mach .pending 15 (conds true false false false false)) .notFound = .recheck := by decide +kernel
/-- healthy but with the taint of critical components: Pending stays, Unknown becomes Running; without the taint both become Running -/
example :
    let n : Bool → NodeLookup := fun c => .found { conds := conds true false false false false, critical := c }
    let m : Health.Phase → Health.Machine := fun p => mach p 0 (conds true false false false false)
    check 1000 (m .pending) (n true) = .recheck ∧ check 1000 (m .pending) (n false) = .status (some .running) (conds true false false false false) false ∧
    check 1000 (m .unknown) (n true) = .status (some .running) (conds true false false false false) false ∧
    check 1000 (m .unknown) (n false) = .status (some .running) (conds true false false false false) false := by decide +kernel

/-- the other machine of the meltdown tests, machine_util_test.go:2480-2714 -/
def two (deploy : Option String) (p : Health.Phase) : List Mach :=
  [{ name := "machine-0", deploy := some "md", phase := .unknown, cached := .unknown }, { name := "machine-1", deploy, phase := p, cached := p }]
/-- one machine of a deployment at a time is replaced -/
example : canMark (two (some "md") .unknown) (some "md") = true ∧ canMark (two (some "md") .running) (some "md") = true ∧
    canMark (two (some "md") .failed) (some "md") = false ∧ canMark (two (some "md") .terminating) (some "md") = false ∧
    canMark (two (some "md") .none) (some "md") = false ∧ canMark (two (some "md") .pending) (some "md") = false ∧
    canMark (two (some "md") .crashLoop) (some "md") = false ∧ canMark (two (some "other") .failed) (some "md") = true ∧
    canMark (two none .failed) (some "md") = true := by decide +kernel
end health

/-! ## Safety -/
section safety

/-- one entry of the table of the freeze; times in seconds -/
def freeze (control target : Bool) (inactive : Int) (pre : Bool) : Bool :=
  let a : Bool → ApiFreeze.Answer := fun up => if up then .notFound else .error
  (ApiFreeze.check 30 { frozen := pre, start := some (100000 - inactive) } (fun n => if n = "testmachine1" then some .unknown else none)
    { now := 100000, control := a control, target := a target, cache := [("testmachine1", .unknown)] }).st.frozen

/-- the 24 entries, machine_safety_test.go:190-243 -/
example :
    [freeze true true 0 false, freeze true true 0 true, freeze true true 5 false, freeze true true 5 true, freeze true true 300 false, freeze true true 300 true] =
      [false, false, false, false, false, false] ∧
    [freeze true false 0 false, freeze true false 0 true, freeze true false 5 false, freeze true false 5 true, freeze true false 300 false, freeze true false 300 true] =
      [false, true, false, true, true, true] ∧
    [freeze false true 0 false, freeze false true 0 true, freeze false true 5 false, freeze false true 5 true, freeze false true 300 false, freeze false true 300 true] =
      [false, true, false, true, true, true] ∧
    [freeze false false 0 false, freeze false false 0 true, freeze false false 5 false, freeze false false 5 true, freeze false false 300 false, freeze false false 300 true] =
      [false, true, false, true, true, true] := by decide +kernel

open MCM.Orphan
/-- the three entries of the collection of orphans, machine_safety_test.go:340-402 -/
example :
    let c : Class := { vms := [("testmachine-ip1", "testmachine_1")] }
    (checkClass (inCache []) c).deletes = [("testmachine-ip1", "testmachine_1")] ∧
    (checkClass (inCache [{ name := "testmachine_1", phase := .crashLoopBackOff }]) c).deletes = [] ∧
    (checkClass (inCache [{ name := "testmachine_1", phase := .running }]) c).deletes = [("testmachine-ip1", "testmachine_1")] := by decide +kernel

/-- machines and nodes of `AnnotateNodesUnmanagedByMCM`, machine_safety_test.go:430-545; times in minutes; the test's nodes 1 and 2 have the zero time -/
def annotated (backed : Bool) (n : Orphan.Node) : NOut :=
  annotate ((if backed then [{ name := "testmachine_0", phase := .running, node := some "test-node-0" }] else []) ++
    [{ name := "testmachine_1", phase := .running, node := some "test-node-1" }, { name := "testmachine_2", phase := .running, node := some "test-node-2" },
     { name := "testmachine_3", phase := .running, node := some "test-node-2" }]) 1000 20 (fun _ => true)
    [n, { name := "test-node-1", annotations := [("anno1", "value1")] }, { name := "test-node-2", annotations := [("anno1", "value1")] }]

/-- nodes 1 and 2, which no entry changes -/
def others : List Orphan.Node := [{ name := "test-node-1", annotations := [("anno1", "value1")] }, { name := "test-node-2", annotations := [("anno1", "value1")] }]

/-- the four entries: 21 minutes old, 19 minutes old, annotated, annotated although it has a machine; machine_safety_test.go:562-798 -/
example :
    let n : SMap → Int → Orphan.Node := fun a c => { name := "test-node-0", annotations := a, created := c }
    annotated false (n [("anno1", "value1")] 979) = { nodes := n [(notManaged, "1"), ("anno1", "value1")] 979 :: others } ∧
    annotated false (n [("anno1", "value1")] 981) = { nodes := n [("anno1", "value1")] 981 :: others } ∧
    annotated false (n [("anno1", "value1"), (notManaged, "1")] 0) = { nodes := n [("anno1", "value1"), (notManaged, "1")] 0 :: others } ∧
    annotated true (n [("anno1", "value1"), (notManaged, "1")] 0) = { nodes := n [("anno1", "value1")] 0 :: others } := by decide +kernel
end safety

/-! ## Node templates -/
section nodesync
open MCM.NodeSync MCM.Taints

/-- same map, whatever the order -/
def sameMap (a b : SMap) : Bool := a.length = b.length && a.all fun e => b.lookup e.1 = some e.2

/-- the seven entries of `SyncMachineLabels`, machine_util_test.go:465-848: unchanged; value changed; key added; key removed; value overwritten on the node; label added on
the node; label removed from the node -/
example :
    let t : SMap → SMap → SMap → SMap → Bool → Bool := fun m n last want changed => sameMap (syncMap m n last).1 want && (syncMap m n last).2 == changed
    t [("key1", "value1")] [("key1", "value1")] [("key1", "value1")] [("key1", "value1")] false ∧
    t [("key1", "valueChanged")] [("key1", "value1")] [("key1", "value1")] [("key1", "valueChanged")] true ∧
    t [("key1", "value1"), ("key2", "value2")] [("key1", "value1")] [("key1", "value1")] [("key1", "value1"), ("key2", "value2")] true ∧
    t [("key1", "value1")] [("key1", "value1"), ("key2", "value2")] [("key1", "value1"), ("key2", "value2")] [("key1", "value1")] true ∧
    t [("key1", "value1")] [("key1", "value2")] [("key1", "value1")] [("key1", "value1")] true ∧
    t [("key1", "value1")] [("key1", "value1"), ("keyNew", "valueNew")] [("key1", "value1")] [("key1", "value1"), ("keyNew", "valueNew")] false ∧
    t [("key1", "value1"), ("key2", "value2")] [] [("key1", "value1")] [("key1", "value1"), ("key2", "value2")] true := by decide +kernel

/-- a taint of the tests -/
def tt (k v e : String) : Taint := { key := k, value := v, effect := e }
/-- same elements of lists without duplicates (`ConsistOf`) -/
def sameTaints (a b : List Taint) : Bool := a.length = b.length && a.all (· ∈ b)

/-- the seven entries of `SyncMachineTaints`, machine_util_test.go:1312-1842 -/
example :
    let t : List Taint → List Taint → List Taint → List Taint → Bool → Bool := fun m n last want changed => sameTaints (syncTaints m n last).1 want && (syncTaints m n last).2 == changed
    let a := tt "Key1" "Value1" "NoSchedule"
    let b := tt "Key2" "Value2" "NoSchedule"
    t [a] [a] [a] [a] false ∧
    t [tt "Key1" "NewValue" "NoSchedule"] [tt "Key1" "OldValue" "NoSchedule"] [tt "Key1" "OldValue" "NoSchedule"] [tt "Key1" "NewValue" "NoSchedule"] true ∧
    t [a, b] [a] [a] [a, b] true ∧ t [a] [a, b] [a, b] [a] true ∧
    t [a, tt "Key1" "Value1" "NoExecute"] [tt "Key1" "Value2" "NoSchedule"] [a] [a, tt "Key1" "Value1" "NoExecute"] true ∧
    t [a] [a, tt "KeyNew" "ValueNew" "NoSchedule"] [a] [a, tt "KeyNew" "ValueNew" "NoSchedule"] false ∧
    t [a, b] [] [a] [a, b] true := by decide +kernel

/-- "Sync node templates": labels and annotations applied before, two taints of one key new, machine_util_test.go:190-300 -/
example :
    let t : Template := { annotations := [("anno1", "anno1")], labels := [("key1", "value1")], taints := [tt "key1" "value1" "NoSchedule", tt "key1" "value1" "NoExecute"] }
    let n : NodeSync.Node := { annotations := [("anno1", "anno1")], labels := [("key1", "value1")], last := some (some { t with taints := [] }) }
    (match decide_ t n with
      | .update n' => n'.annotations == t.annotations && n'.labels == t.labels && sameTaints n'.taints t.taints && n'.last == some (some t)
      | _ => false) = true := by decide +kernel
end nodesync

/-! ## Similar statuses -/
section similar
open MCM.Similar

/-- one minute, in nanoseconds -/
def minute : Int := 60 * 1000000000
/-- the long description of the tests -/
def long (req : String) : String :=
  "Error occurred with decoding machine error status while getting VM status, aborting without retry. gRPC code: AuthFailure: AWS was not able to validate the provided access credentials\n\tstatus code: 401, request id: " ++ req ++ " Set machine status to termination. Now, getting VM Status"
/-- the short description -/
def short (req : String) : String := "AWS was not able to validate the provided access credentials\n\tstatus code: 401, request id: " ++ req
/-- a status with this description -/
def st (d : String) (age : Int) : MStatus := { desc := d, opTime := 100000 * minute - age * minute }

/-- entries of `isMachineStatusSimilar`, machine_util_test.go:1862-1975: short similar texts; different texts. (The entry with two long similar texts takes too much memory in the
kernel and is left out; the distance used is the edit distance for all texts, `C44_levenshtein`.) -/
example :
    let sim : MStatus → MStatus → Bool := isSimilar (100000 * minute)
    sim (st (short "fbc513f0-ca27-4a42-a203-42048d5773a2") 0) (st (short "23423424-342f-sdff-45cs-3242sdfsdfd") 0) = true ∧
    sim (st "Initiate node object deletion" 0) (st "Initiate machine object finalizer removal" 0) = false := by decide +kernel

/-- the same text: written now, a minute ago, an hour ago -/
example (r : String) : isSimilar (100000 * minute) (st (long r) 0) (st (long r) 0) = true ∧ isSimilar (100000 * minute) (st (long r) 0) (st (long r) 1) = true ∧
    isSimilar (100000 * minute) (st (long r) 0) (st (long r) 60) = false := by
  refine ⟨?_, ?_, ?_⟩ <;> simp [isSimilar, st, minute, tolerance]
end similar

end MCM.Conform.Node
