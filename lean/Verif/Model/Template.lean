import Verif.Model.Types
/-!
Model of template comparison and of finding the machine set of the current template,
/repo/pkg/controller/deployment_util.go:836-896.
-/
namespace MCM.Template
open MCM

/-- `v1alpha1.DefaultMachineDeploymentUniqueLabelKey`, /repo/pkg/apis/machine/v1alpha1/machinedeployment_types.go:97-100 -/
def hashKey : String := "machine-template-hash"

/-- A `MachineTemplateSpec`. Everything that is compared as a whole with `Semantic.DeepEqual` is the opaque `body`; the three
fields that the comparison blanks out are kept apart. shared_types.go:16-28, deployment_util.go:840-862. -/
structure Tmpl where
  labels : SMap := []
  nodeTemplate : String := ""
  config : String := ""
  classKind : String := ""
  body : String := ""
deriving Repr, DecidableEq

/-- The label loop of `EqualIgnoreHash`, deployment_util.go:844-853: swap so that the second map is at least as long, then
look every entry of the second map up in the first one. -/
def labelsMatch (l1 l2 : SMap) : Bool :=
  let p := if l1.length > l2.length then (l2, l1) else (l1, l2)
  p.2.all fun e => !(p.1.get e.1 != e.2 && e.1 != hashKey)

/-- `EqualIgnoreHash`, deployment_util.go:840-861 -/
def equalIgnoreHash (t1 t2 : Tmpl) : Bool := labelsMatch t1.labels t2.labels && t1.body == t2.body

/-- A MachineSet as far as templates and revisions matter. deployment_util.go:249-290, 864-897. -/
structure MSet where
  name : String
  template : Tmpl := {}
  annotations : SMap := []
  creation : Int := 0
deriving Repr, DecidableEq

/-- `FindNewMachineSet`, deployment_util.go:864-877; `sorted` is the list after `sort.Sort(MachineSetsByCreationTimestamp(..))`
(ties are broken by name, controller_utils.go:809-820). -/
def findNew (template : Tmpl) (sorted : List MSet) : Option MSet :=
  sorted.find? fun s => equalIgnoreHash s.template template

/-- `FindOldMachineSets` (second result), deployment_util.go:881-896; names stand for UIDs. -/
def findOld (template : Tmpl) (sorted : List MSet) : List MSet :=
  match findNew template sorted with
  | none => sorted
  | some n => sorted.filter fun s => !(s.name == n.name)

end MCM.Template
