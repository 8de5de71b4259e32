import Verif.Model.Template
/-!
Model of naming the machine set of a new template and of resolving name collisions: /repo/pkg/controller/deployment_sync.go:292-400,
`ComputeHash` (/repo/pkg/controller/controller_utils.go:882-899), `CloneSelectorAndAddLabel` (/repo/pkg/util/labels/labels.go:72-110).

The printed form of a template (`DeepHashObject`, /repo/pkg/util/hash/hash.go) is an arbitrary function `text` to bytes. Names stand for
namespaced names; annotations, replica counts, conditions and events are in other modules (`Dispatch`, `Status`).
-/
namespace MCM.Hash
open MCM MCM.Template

/-- one byte of FNV-1a, 32 bit (Go's `hash/fnv`, `sum32a.Write`) -/
def step (h : UInt32) (b : UInt8) : UInt32 := (h ^^^ b.toUInt32) * 16777619

/-- `sum32a.Write`; hash/fnv of Go's library, used at controller_utils.go:884-898 -/
def write (h : UInt32) (bytes : List UInt8) : UInt32 := bytes.foldl step h

/-- the eight bytes of the collision count: `binary.LittleEndian.PutUint32` fills four of them, controller_utils.go:888-890 -/
def countBytes (c : UInt32) : List UInt8 := [c.toUInt8, (c >>> 8).toUInt8, (c >>> 16).toUInt8, (c >>> 24).toUInt8, 0, 0, 0, 0]

/-- `ComputeHash`, controller_utils.go:882-899, over the printed template -/
def computeHash (text : List UInt8) (count : Option UInt32) : UInt32 :=
  match count with
  | none => write 2166136261 text
  | some c => write (write 2166136261 text) (countBytes c)

/-- the hash label, `fmt.Sprintf("%d", …)`, deployment_sync.go:294 -/
def label (h : UInt32) : String := toString h.toNat

/-- `alphanums` of k8s.io/apimachinery/pkg/util/rand, used at deployment_sync.go:296-298 -/
def alphanums : List Char := "bcdfghjklmnpqrstvwxz2456789".toList

/-- one character of `rand.SafeEncodeString`: `alphanums[int(r) % len(alphanums)]`; (apimachinery), used at deployment_sync.go:296-298 -/
def encodeChar (c : Char) : Char := alphanums.getD (c.toNat % 27) 'b'

/-- the shortened encoded hash, deployment_sync.go:299-303 -/
def suffix (h : UInt32) : List Char := ((label h).toList.map encodeChar).take 5

/-- name of the set, deployment_sync.go:309 -/
def setName (dep : String) (h : UInt32) : String := dep ++ String.ofList ('-' :: suffix h)

/-- A stored MachineSet. Fields of machineset_types.go:26-72 used in deployment_sync.go:292-400. -/
structure Stored where
  name : String
  /-- UID of the controlling owner -/
  owner : Option String := none
  template : Tmpl := {}
  /-- `Spec.Selector.MatchLabels` -/
  selector : SMap := []
deriving Repr, DecidableEq

/-- A MachineDeployment. Fields of machinedeployment_types.go:30-232 used in deployment_sync.go:292-400. -/
structure Dep where
  name : String
  uid : String
  template : Tmpl := {}
  selector : SMap := []
  /-- `Status.CollisionCount` -/
  count : Option UInt32 := none
deriving Repr, DecidableEq

/-- the set to create, deployment_sync.go:293-321 -/
def fresh (text : Tmpl → List UInt8) (d : Dep) : Stored :=
  let h := computeHash (text d.template) d.count
  { name := setName d.name h
    owner := some d.uid
    template := { d.template with labels := d.template.labels.set hashKey (label h) }
    selector := d.selector.set hashKey (label h) }

/-- Outcomes of the calls of one attempt. deployment_sync.go:330-390 -/
structure Calls where
  /-- Create fails for another reason than an existing set -/
  createFails : Bool := false
  /-- what the lister returns for the name -/
  view : Option Stored := none
  /-- UpdateStatus works -/
  statusOk : Bool := true

/-- the set an attempt ends with; deployment_sync.go:330-400 -/
inductive Result
  | created (s : Stored)
  | existing (s : Stored)
  | failed
deriving Repr, DecidableEq

/-- `*d.Status.CollisionCount++`, deployment_sync.go:359-363 -/
def bump : Option UInt32 → Option UInt32
  | none => some 1
  | some c => some (c + 1)

/-- is the set with the wanted name the one of this deployment and template? deployment_sync.go:349-350 -/
def ours (d : Dep) (s : Stored) : Bool := s.owner == some d.uid && equalIgnoreHash d.template s.template

/-- creation of the set of a new template, deployment_sync.go:292-400; `sets` are the sets of the namespace. Returned are the deployment,
the sets and the set to go on with. -/
def attempt (text : Tmpl → List UInt8) (d : Dep) (sets : List Stored) (e : Calls) : Dep × List Stored × Result :=
  let n := fresh text d
  if sets.any fun x => x.name == n.name then
    match e.view with
    | none => (d, sets, .failed)
    | some v =>
      if ours d v then (d, sets, .existing v)
      else if e.statusOk then ({ d with count := bump d.count }, sets, .failed)
      else (d, sets, .failed)
  else if e.createFails then (d, sets, .failed)
  else (d, sets ++ [n], .created n)

/-- Attempts one after the other, as the work queue retries them. Each finds the sets that exist then: anybody may create and delete
sets in between. deployment_sync.go:292-400 repeated. -/
def runs (text : Tmpl → List UInt8) (d : Dep) : List (List Stored × Calls) → Dep × List Result
  | [] => (d, [])
  | r :: rs => ((runs text (attempt text d r.1 r.2).1 rs).1, (attempt text d r.1 r.2).2.2 :: (runs text (attempt text d r.1 r.2).1 rs).2)

end MCM.Hash
