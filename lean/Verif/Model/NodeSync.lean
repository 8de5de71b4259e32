import Verif.Model.Taints
/-!
Model of the propagation of a machine's node template to its node:
/repo/pkg/util/provider/machinecontroller/machine_util.go:271-499.
-/
namespace MCM.NodeSync
open Taints

/-- `NodeTemplateSpec`: annotations, labels and taints; machine_types.go:83-91 -/
structure Template where
  annotations : SMap := []
  labels : SMap := []
  taints : List Taint := []
deriving DecidableEq, Repr

/-- The node. The annotation `node.machine.sapcloud.io/last-applied-anno-labels-taints` holds the template applied last, as JSON; it
is kept apart here as `last`: absent, not decodable, or a template (encoding and decoding is taken to be the identity). Templates
do not contain this annotation themselves. machine_util.go:271-347. -/
structure Node where
  annotations : SMap := []
  labels : SMap := []
  taints : List Taint := []
  last : Option (Option Template) := none
deriving DecidableEq, Repr

/-- the first loop of `SyncMachineAnnotations` and `SyncMachineLabels`, machine_util.go:371-376, 410-415 -/
def dropKeys (m : SMap) : SMap → SMap → SMap × Bool
  | [], n => (n, false)
  | (k, _) :: l, n =>
    if ¬ m.has k then ((dropKeys m l (n.del k)).1, true) else dropKeys m l n

/-- the second loop, machine_util.go:379-384, 418-423 -/
def addKeys : SMap → SMap → SMap × Bool
  | [], n => (n, false)
  | (k, v) :: l, n =>
    if List.lookup k n ≠ some v then ((addKeys l (n.set k v)).1, true) else addKeys l n

/-- `SyncMachineAnnotations` and `SyncMachineLabels`, machine_util.go:351-425 -/
def syncMap (m n last : SMap) : SMap × Bool :=
  let r := dropKeys m last n
  let r' := addKeys m r.1
  (r'.1, r.2 || r'.2)

/-- a `map[taintKeyEffect]*Taint` as a list; `m[k] = t`; machine_util.go:447-463 -/
def tset (m : List Taint) (t : Taint) : List Taint := t :: m.filter fun u => ¬ u.matches t
/-- `delete(m, k)`; machine_util.go:465-480 -/
def tdel (m : List Taint) (t : Taint) : List Taint := m.filter fun u => ¬ u.matches t
/-- the map made from a slice, machine_util.go:447-463 -/
def tmap (l : List Taint) : List Taint := l.foldl tset []

/-- machine_util.go:466-477 -/
def tdrop (m : List Taint) : List Taint → List Taint → List Taint × Bool
  | [], n => (n, false)
  | t :: l, n => if ¬ exists_ m t then ((tdrop m l (tdel n t)).1, true) else tdrop m l n

/-- `*nV != *mV`, machine_util.go:481: the fields `TimeAdded` are pointers, and those of the node and of the machine are never the
same pointer unless both are nil -/
def tdiffers (n m : Taint) : Bool := ¬ (n.value = m.value ∧ n.timeAdded = none ∧ m.timeAdded = none)

/-- machine_util.go:480-485 -/
def tadd : List Taint → List Taint → List Taint × Bool
  | [], n => (n, false)
  | t :: l, n =>
    match n.find? (fun u => u.matches t) with
    | some u => if tdiffers u t then ((tadd l (tset n t)).1, true) else tadd l n
    | none => ((tadd l (tset n t)).1, true)

/-- `SyncMachineTaints`, machine_util.go:436-499. The slice written has the order in which Go iterates the map, so nothing is
claimed about the order. -/
def syncTaints (m n last : List Taint) : List Taint × Bool :=
  let r := tdrop (tmap m) last (tmap n)
  let r' := tadd (tmap m) r.1
  if r.2 || r'.2 then (r'.1, true) else (n, false)

/-- What a sync decides: an error, nothing to do, or the node to be written. machine_util.go:271-347 -/
inductive Decision
  | error | nothing | update (n : Node)
deriving DecidableEq, Repr

/-- `syncMachineNodeTemplates`, machine_util.go:271-347, up to the update request. A node without annotations is written in any
case (`initializedNodeAnnotation`). -/
def decide_ (t : Template) (n : Node) : Decision :=
  match n.last with
  | some none => .error
  | l =>
    let last : Template := match l with
      | some (some x) => x
      | _ => {}
    let a := syncMap t.annotations n.annotations last.annotations
    let b := syncMap t.labels n.labels last.labels
    let c := syncTaints t.taints n.taints last.taints
    if (n.annotations = [] ∧ n.last = none) ∨ a.2 ∨ b.2 ∨ c.2 then
      .update { annotations := a.1, labels := b.1, taints := c.1, last := some (some t) }
    else .nothing

/-! ### The node over time -/

/-- A node and the template its machine has. machine_util.go:271-347. -/
structure World where
  tpl : Template
  node : Node

/-- What others may do to a node: `foreign w n` says that the node may be changed to `n`. Syncs: machine_util.go:271-347. -/
inductive Step (foreign : Node → Node → Prop) : World → World → Prop
  | template {w : World} (t : Template) : Step foreign w { w with tpl := t }
  | other {w : World} (n : Node) : foreign w.node n → n.last = w.node.last → Step foreign w { w with node := n }
  /-- a sync whose update is accepted; a sync reading an old state of the node, or failing, changes nothing -/
  | sync {w : World} (n : Node) : decide_ w.tpl w.node = .update n → Step foreign w { w with node := n }

end MCM.NodeSync
