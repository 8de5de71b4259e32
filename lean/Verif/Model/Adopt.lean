import Verif.Model.Template
/-!
Model of adding the hash label to an adopted machine set and its machines: `addHashKeyToISAndMachines`,
/repo/pkg/controller/deployment_sync.go:157-228, with `LabelMachinesWithHash` and the two waits
(/repo/pkg/controller/deployment_util.go:898-946), `UpdateISWithRetries` (/repo/pkg/controller/machineset_util.go:48-76) and
`UpdateMachineWithRetries` (/repo/pkg/controller/machineset.go:848-874).

A call with retries is one step that works or fails. The hash itself is `Hash.computeHash` of the set's template; here it is given.
-/
namespace MCM.Adopt
open MCM MCM.Template

/-- A stored machine that belongs to the set.
The fields of pkg/apis/machine/v1alpha1/machine_types.go:36-109 used in deployment_util.go:898-946. -/
structure Mach where
  name : String
  labels : SMap := []
  phase : Phase := .running
deriving DecidableEq, Repr

/-- `IsMachineActive`, machineutils/utils.go:109-111 -/
def Mach.active (m : Mach) : Bool := m.phase != .failed && m.phase != .terminating

/-- The machine set. The fields of pkg/apis/machine/v1alpha1/machineset_types.go:26-72 used in deployment_sync.go:157-228. -/
structure Set' where
  labels : SMap := []
  /-- `Spec.Selector.MatchLabels` -/
  selector : SMap := []
  /-- `Spec.Template.Labels` -/
  template : SMap := []
  replicas : Int := 0
deriving DecidableEq, Repr

/-- Outcomes of the calls. These are the calls at deployment_sync.go:170-226. -/
structure Calls where
  /-- step 1: update of the set's template -/
  templateOk : Bool := true
  /-- `WaitForMachineSetUpdated` ends in time -/
  observedOk : Bool := true
  /-- update of a machine -/
  machineOk : String → Bool := fun _ => true
  /-- `Status.FullyLabeledReplicas` as finally seen by `WaitForMachinesHashPopulated`; `none`: an error -/
  labelled : Option Int := none
  /-- step 3: the set is still in the cache -/
  cached : Bool := true
  /-- step 3: update of the set's labels and selector -/
  selectorOk : Bool := true

/-- The set and its machines as stored afterwards and the result of `addHashKeyToISAndMachines`, deployment_sync.go:157-228 -/
structure Out where
  set : Set'
  machines : List Mach
  ok : Bool
  /-- the process crashed -/
  crash : Bool := false
deriving DecidableEq, Repr

/-- the label is written into the stored machine of this name; `LabelMachinesWithHash`, deployment_util.go:924-946 -/
def setLabel (hash : String) (name : String) (ms : List Mach) : List Mach :=
  ms.map fun m => if m.name == name then { m with labels := m.labels.set hashKey hash } else m

/-- `LabelMachinesWithHash`, deployment_util.go:922-946: `listed` are the machines as listed at the start of the run, `ms` those stored now. A machine that does
not exist any more is an error. -/
def labelMachines (hash : String) (c : Calls) : List Mach → List Mach → List Mach × Bool
  | [], ms => (ms, true)
  | l :: ls, ms =>
    if !l.active then labelMachines hash c ls ms
    else if l.labels.get hashKey == hash then labelMachines hash c ls ms
    else if c.machineOk l.name && ms.any (fun m => m.name == l.name) then labelMachines hash c ls (setLabel hash l.name ms)
    else (ms, false)

/-- `addHashKeyToISAndMachines`, deployment_sync.go:157-228 -/
def addHash (hash : String) (c : Calls) (s : Set') (listed ms : List Mach) : Out :=
  if s.selector.get hashKey ≠ "" then ⟨s, ms, true, false⟩
  else if !c.templateOk then ⟨s, ms, false, false⟩
  else
    let s1 := { s with template := s.template.set hashKey hash }
    if !c.observedOk then ⟨s1, ms, false, false⟩
    else
      let r := labelMachines hash c listed ms
      if !r.2 then ⟨s1, r.1, false, false⟩
      else if c.labelled ≠ some s.replicas then ⟨s1, r.1, false, false⟩
      -- the lister returns nil with its error, and the error message is made from the name of the result (:222)
      else if !c.cached then ⟨s1, r.1, false, true⟩
      else if !c.selectorOk then ⟨s1, r.1, false, false⟩
      else ⟨{ s1 with labels := s.labels.set hashKey hash, selector := s.selector.set hashKey hash }, r.1, true, false⟩

/-- machines whose labels contain those of the template, as `calculateMachineSetStatus` counts them, deployment_machineset_util.go:106-110 -/
def countLabelled (template : SMap) (ms : List Mach) : Int :=
  (ms.filter fun m => template.all fun e => List.lookup e.1 m.labels == some e.2).length

end MCM.Adopt
