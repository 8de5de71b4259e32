import Verif.Model.Creation
import Verif.Model.Termination
/-!
Tests, not proofs: cases of the project's own unit tests
(/repo/pkg/util/provider/machinecontroller/machine_test.go) evaluated in the model. Each `example` has the set-up of one
table entry and the values the entry expects; a model that does not behave like the code in one of these cases does not build.
-/
namespace MCM.Conform.Machine
open MCM MCM.Similar MCM.Codes

/-- one minute, in nanoseconds -/
def minute : Int := 60 * 1000000000
/-- the time of the tests -/
def now : Int := 10000000 * minute

/-! ## `triggerCreationFlow`, machine_test.go:450-1120 -/
section creation
open MCM.Creation

/-- the machine of the tests -/
def m0 : Obj := { name := "machine-0", finalizer := true, created := now }
/-- the fake driver without VM: pkg/util/provider/driver/fake.go:90-99 -/
def noVM : StatusAns :=
  .err (render .notFound "Fake plugin is returning no VM instances backing this machine object") none
/-- the answers of a fake driver without errors -/
def env0 : Env := { now := now, status := noVM, create := .ok "fakeNode-0" "fakeID-0" }

/-- "Machine creation succeeds with object UPDATE", machine_test.go:518-560 -/
example : (creation env0 m0).wrote = some { m0 with node := some "fakeNode-0", prio := some "3", pid := "fakeID-0" } ∧
    (creation env0 m0).retry = shortRetry ∧ (creation env0 m0).err = true := by decide +kernel

/-- the machine of the entries in which a VM exists already -/
def m1 : Obj := { m0 with node := some "fakeID-0", prio := some "3", pid := "fakeID" }
/-- the fake driver with a VM -/
def envVM : Env := { env0 with status := .ok "fakeNode-0" "fakeID-0" }

/-- "Machine creation succeeds with status UPDATE", machine_test.go:561-640 -/
example : ((creation envVM m1).wrote.map (·.st.phase)) = some .pending ∧
    ((creation envVM m1).wrote.map fun o => (o.node, o.pid)) = some (some "fakeID-0", "fakeID") ∧
    (creation envVM m1).retry = shortRetry ∧ (creation envVM m1).err = true := by decide +kernel

/-- "Machine creation has already succeeded, so no update", machine_test.go:641-753 -/
example :
    let v : Obj := { m1 with st := { desc := "Creating machine on cloud provider", state := "Processing", opType := "Create", opTime := now, phase := .pending, phaseTime := now } }
    (creation envVM v).wrote = none ∧ (creation envVM v).retry = longRetry ∧ (creation envVM v).err = false := by
  decide +kernel

/-- "Machine creation fails with CrashLoopBackOff due to Internal error", machine_test.go:754-806 -/
example :
    let o := creation { env0 with create := .err (render .internal "Provider is returning error on create call") "" } m0
    o.wrote.map (fun w => (w.st.phase, w.st.errorCode, w.node)) = some (.crashLoopBackOff, "Internal", none) ∧
    o.retry = mediumRetry ∧ o.err = true := by decide +kernel

/-- "Machine creation fails with CrashLoopBackOff due to resource exhaustion", machine_test.go:807-859 -/
example :
    let o := creation { env0 with create := .err (render .resourceExhausted "Provider does not have capacity to create VM") "" } m0
    o.wrote.map (fun w => (w.st.phase, w.st.errorCode, w.node)) = some (.crashLoopBackOff, "ResourceExhausted", none) ∧
    o.retry = mediumRetry ∧ o.err = true := by decide +kernel

/-- "Machine creation fails with Failure due to timeout", machine_test.go:860-912 -/
example :
    let o := creation { env0 with create := .err (render .internal "Provider is returning error on create call") "" } { m0 with created := now - 60 * minute }
    o.wrote.map (fun w => (w.st.phase, w.st.errorCode, w.node)) = some (.failed, "Internal", none) ∧
    o.retry = mediumRetry ∧ o.err = true := by decide +kernel

/-- "Machine creation fails with Failure due to VM using stale node obj", machine_test.go:913-968 -/
example :
    let o := creation { env0 with nodes := ["fakeNode-0"] } m0
    o.wrote.map (fun w => (w.st.phase, w.st.errorCode, w.node)) = some (.failed, "", none) ∧
    o.retry = shortRetry ∧ o.err = false := by decide +kernel

/-- "CLBF machine turns to Pending if VM is present", machine_test.go:969-1054 -/
example :
    let o := creation envVM { m1 with st := { phase := .crashLoopBackOff } }
    o.wrote.map (fun w => (w.st.phase, w.node, w.pid)) = some (.pending, some "fakeID-0", "fakeID") ∧
    o.retry = shortRetry ∧ o.err = true := by decide +kernel

/-- "Machine initialization failed due to VM instance initialization error", machine_test.go:1055-1120 -/
example :
    let text := render .uninitialized "VM instance could not be initialized"
    let o := creation { env0 with nodes := ["fakeNode-0"], status := .err text (some ("fakeNode-0", "fakeID-0")), init := some text } m0
    o.wrote.map (fun w => (w.st.phase, w.st.errorCode, w.node, w.pid)) =
      some (.crashLoopBackOff, "Uninitialized", some "fakeNode-0", "fakeID-0") ∧
    o.wrote.map (fun w => (w.st.desc, w.st.state, w.st.opType)) =
      some ("Provider error: " ++ text ++ ". Initialize VM Instance", "Failed", "Create") ∧
    o.retry = shortRetry ∧ o.err = true := by decide +kernel

end creation

/-! ## `triggerDeletionFlow`, machine_test.go:1170-3105 -/
section deletion
open MCM.Termination

/-- the machine of the tests: the node's label, the finalizer, created and deleted at the time of the test; the drain timeout
is that of controller_suite_test.go:576 -/
def d0 (phase : Phase) (desc state opType : String) : Obj :=
  { name := "machine-0", node := "fakeID-0", deleting := some now, drainTimeout := 5 * minute,
    st := { desc := desc, state := state, opType := opType, opTime := now, phase := phase, phaseTime := now } }
/-- a fake driver with a VM -/
def denv : Env := { now := now + 1, getStatus := .ok "fakeNode-0" }

/-- what the tests look at: phase, description, state, type, finalizer; retry and error -/
def look (e : Env) (v : Obj) : (Phase × String × String × String × Bool) × Nat × Bool :=
  let o := run e v
  ((o.st.phase, o.st.desc, o.st.state, o.st.opType, o.finalizer), (flow e v).retry, (flow e v).err)

/-- "Do not process machine deletion for object without finalizer", machine_test.go:1250-1329 -/
example : look denv { d0 .running "Machine machine-0 successfully joined the cluster" "Successful" "Create" with finalizer := false } =
    ((.running, "Machine machine-0 successfully joined the cluster", "Successful", "Create", false), longRetry, true) := by
  decide +kernel

/-- "Change machine phase to termination successfully", machine_test.go:1330-1424 -/
example : look denv (d0 .running "Machine machine-0 successfully joined the cluster" "Successful" "Create") =
    ((.terminating, "Set machine status to termination. Now, getting VM Status", "Processing", "Delete", true), shortRetry, true) := by
  decide +kernel

/-- "Checking existance of VM at provider successfully", machine_test.go:1425-1567 -/
example : look denv (d0 .terminating TStep.getVM.text "Processing" "Delete") =
    ((.terminating, "Initiate node drain", "Processing", "Delete", true), shortRetry, true) := by
  decide +kernel

/-- "Drain machine successfully", machine_test.go:1568-1670 -/
example : look denv { d0 .terminating TStep.drain.text "Processing" "Delete" with node := "fakeNode-0" } =
    ((.terminating, "Drain successful. Initiate VM deletion", "Processing", "Delete", true), shortRetry, true) := by
  decide +kernel

/-- "Drain skipping as nodeName is not valid", machine_test.go:1671-1772 -/
example : look { denv with getStatus := .ok "" }
      { d0 .terminating TStep.drain.text "Processing" "Delete" with node := "", ready := some ⟨false, now - 6 * minute⟩ } =
    ((.terminating, "Skipping drain as nodeName is not a valid one for machine. Initiate VM deletion", "Processing", "Delete", true),
      shortRetry, true) := by
  decide +kernel

/-- "Force Drain as machine is NotReady for a long time (5 minutes)", machine_test.go:1773-1874 -/
example : look denv { d0 .terminating TStep.drain.text "Processing" "Delete" with ready := some ⟨false, now - 6 * minute⟩ } =
    ((.terminating, "Force Drain successful. Delete Volume Attachments", "Processing", "Delete", true), shortRetry, true) := by
  decide +kernel

/-- "Force Drain as machine is in ReadonlyFilesystem for a long time (5 minutes)", machine_test.go:1875-1976 -/
example : look denv { d0 .terminating TStep.drain.text "Processing" "Delete" with readonly := some ⟨false, now - 6 * minute⟩ } =
    ((.terminating, "Force Drain successful. Delete Volume Attachments", "Processing", "Delete", true), shortRetry, true) := by
  decide +kernel

/-- "Force Drain as machine is NotReady for a long time(5 min) ,also ReadonlyFilesystem is true for a long time (5 minutes)",
machine_test.go:1977-2083 -/
example : look denv { d0 .terminating TStep.drain.text "Processing" "Delete" with
      ready := some ⟨false, now - 6 * minute⟩, readonly := some ⟨false, now - 6 * minute⟩ } =
    ((.terminating, "Force Drain successful. Delete Volume Attachments", "Processing", "Delete", true), shortRetry, true) := by
  decide +kernel

/-- "No Drain skipping as ReadonlyFilesystem is true for a short time(<5min)", machine_test.go:2084-2185 -/
example : look denv { d0 .terminating TStep.drain.text "Processing" "Delete" with readonly := some ⟨false, now - 2 * minute⟩ } =
    ((.terminating, "Drain successful. Initiate VM deletion", "Processing", "Delete", true), shortRetry, true) := by
  decide +kernel

/-- "No Drain skipping as ReadonlyFilesystem is false", machine_test.go:2186-2287 -/
example : look denv { d0 .terminating TStep.drain.text "Processing" "Delete" with readonly := some ⟨true, now - 6 * minute⟩ } =
    ((.terminating, "Drain successful. Initiate VM deletion", "Processing", "Delete", true), shortRetry, true) := by
  decide +kernel

/-- the node cannot be updated, neither by the condition nor by the drain -/
def broken (node : String) : Env := { denv with
  condErr := some ("failed to create update conditions for node \"" ++ node ++ "\": Failed to update node"),
  drainErr := some "Failed to update node" }

/-- "Drain machine failure, but since force deletion label is present deletion continues", machine_test.go:2288-2395 -/
example : look (broken "fakeID-0") { d0 .terminating TStep.drain.text "Processing" "Delete" with forceLabel := true } =
    ((.terminating, "Drain failed due to - Failed to update node. However, since it's a force deletion shall continue deletion of VM. Delete Volume Attachments",
      "Processing", "Delete", true), shortRetry, true) := by
  decide +kernel

/-- "Drain machine failure before drain timeout, hence deletion fails", machine_test.go:2396-2502 -/
example : look (broken "fakeID-0") { d0 .terminating TStep.drain.text "Processing" "Delete" with deleting := some (now - 3 * minute) } =
    ((.terminating, "Drain failed due to failure in update of node conditions - failed to create update conditions for node \"fakeID-0\": Failed to update node. Will retry in next sync. Initiate node drain",
      "Failed", "Delete", true), shortRetry, true) := by
  decide +kernel

/-- "Drain machine failure after drain timeout, hence deletion continues", machine_test.go:2503-2609 -/
example : look (broken "fakeID-0") { d0 .terminating TStep.drain.text "Processing" "Delete" with
      deleting := some (now - 3 * 60 * minute) } =
    ((.terminating, "Drain failed due to - Failed to update node. However, since it's a force deletion shall continue deletion of VM. Delete Volume Attachments",
      "Processing", "Delete", true), shortRetry, true) := by
  decide +kernel

/-- "Drain machine failure due to node update failure", machine_test.go:2610-2716 -/
example : look (broken "fakeNode-0") { d0 .terminating TStep.drain.text "Processing" "Delete" with node := "fakeNode-0" } =
    ((.terminating, "Drain failed due to failure in update of node conditions - failed to create update conditions for node \"fakeNode-0\": Failed to update node. Will retry in next sync. Initiate node drain",
      "Failed", "Delete", true), shortRetry, true) := by
  decide +kernel

/-- "Delete VM successfully", machine_test.go:2717-2811 -/
example : look denv (d0 .terminating "Drain successful. Initiate VM deletion" "Processing" "Delete") =
    ((.terminating, "VM deletion was successful. Initiate node object deletion", "Processing", "Delete", true), shortRetry, true) := by
  decide +kernel

/-- "Delete node object successfully", machine_test.go:2812-2914 -/
example : look denv (d0 .terminating "VM deletion was successful. Initiate node object deletion" "Processing" "Delete") =
    ((.terminating, "Deletion of Node Object \"fakeID-0\" is successful. Initiate machine object finalizer removal", "Processing",
      "Delete", true), shortRetry, true) ∧
    (flow denv (d0 .terminating "VM deletion was successful. Initiate node object deletion" "Processing" "Delete")).events =
      [.deleteNode "fakeID-0" .ok] := by
  decide +kernel

/-- "Delete machine finalizer successfully", machine_test.go:2915-3008 -/
example : look denv (d0 .terminating "Deletion of Node Object \"fakeID-0\" is successful. Initiate machine object finalizer removal"
      "Processing" "Delete") =
    ((.terminating, "Deletion of Node Object \"fakeID-0\" is successful. Initiate machine object finalizer removal", "Processing",
      "Delete", false), longRetry, false) := by
  decide +kernel

/-- "Unable to decode deletion flow state for machine", machine_test.go:3009-3104 -/
example : look denv (d0 .terminating "Some random last op description" "Failed" "Delete") =
    ((.terminating, "Set machine status to termination. Now, getting VM Status", "Processing", "Delete", true), shortRetry, true) := by
  decide +kernel

end deletion
end MCM.Conform.Machine
