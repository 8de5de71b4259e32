import Verif.Model.Claim
import Verif.Model.MachineSet
import Verif.Model.Wake
/-!
Model of how a machine set makes machines: `GetMachineFromTemplate`, `createMachines`, `validateControllerRef` and helpers,
/repo/pkg/controller/controller_utils.go:453-600, called from /repo/pkg/controller/machineset.go:390-401.
-/
namespace MCM.Make
open MCM

/-- `v1alpha1.MachineTemplateSpec`; the machine's spec is one value, which is copied as a whole; shared_types.go:16-28 -/
structure Tmpl where
  labels : SMap := []
  annotations : SMap := []
  finalizers : List String := []
  spec : String := ""
deriving DecidableEq, Repr

/-- the machine set; as used in controller_utils.go:527-600 -/
structure Set' where
  name : String
  uid : String
  template : Tmpl := {}
  /-- `Spec.Selector.MatchLabels` -/
  selector : SMap := []
deriving DecidableEq, Repr

/-- the machine sent to the API server; controller_utils.go:535-567 -/
structure New where
  generateName : String
  labels : SMap
  annotations : SMap
  finalizers : List String
  owners : List Wake.Ref
  spec : String
deriving DecidableEq, Repr

/-- the loops of `getMachinesLabelSet` and `getMachinesAnnotationSet`, controller_utils.go:495-515 -/
def copyMap (m : SMap) : SMap := m.foldl (fun acc e => acc.set e.1 e.2) []

/-- `getMachinesPrefix`, controller_utils.go:517-524. The name is that of an existing object, so a DNS subdomain; with the dash at its end
(`NameIsDNSSubdomain` with `prefix` ignores it) it can only be too long. Names are ASCII. -/
def prefixOf (name : String) : String := if (name ++ "-").length ≤ 253 then name ++ "-" else name

/-- `validateControllerRef`, controller_utils.go:453-470, as to what a `Wake.Ref` contains -/
def refOk (r : Wake.Ref) : Bool := r.kind != "" && r.controller

/-- the reference passed, machineset.go:391-398 -/
def refOf (s : Set') : Wake.Ref := { kind := "MachineSet", name := s.name, uid := s.uid, controller := true }

/-- `GetMachineFromTemplate`, controller_utils.go:535-566 -/
def fromTemplate (s : Set') (r : Wake.Ref) : New :=
  { generateName := prefixOf s.name, labels := copyMap s.template.labels, annotations := copyMap s.template.annotations,
    finalizers := s.template.finalizers, owners := [r], spec := s.template.spec }

/-- `CreateMachinesWithControllerRef`, controller_utils.go:527-532, and `createMachines`, 573-600: the machine the API server is asked to create, if any -/
def make (s : Set') : Option New :=
  if !refOk (refOf s) then none
  else if (fromTemplate s (refOf s)).labels.isEmpty then none
  else some (fromTemplate s (refOf s))

/-- the new machine as the claiming code sees it; controller_ref_manager.go:75-131 -/
def New.obj (n : New) (name uid : String) : Claim.Obj :=
  { name := name, uid := uid, labels := n.labels, owners := n.owners.map fun r => ⟨r.uid, r.controller⟩ }

/-- the new machine as the replica management sees it; machineset.go:333-452 -/
def New.machine (n : New) (name : String) : Machine := { name := name, annotations := n.annotations }

end MCM.Make
