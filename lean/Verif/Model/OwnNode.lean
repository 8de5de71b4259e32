import Verif.Model.Creation
import Verif.Model.Termination
/-!
Which node belongs to a machine: the label `node` of machines, written by the creation (/repo/pkg/util/provider/machinecontroller/machine.go:625-653) and by
the termination (machine_util.go:936-955, 1711-1753), the label with the machine's name on nodes (`syncMachineNameToNode`, machine_util.go:236-266), and
the nodes on which the termination acts (machine_util.go:1051-1299, 1373-1429).
-/
namespace MCM.OwnNode
open MCM

/-- A Node object. `owner` is not part of it: the machine on whose VM the node's kubelet runs. machine_util.go:236-266, 1740-1753. -/
structure Node where
  name : String
  /-- label `node.gardener.cloud/machine-name`; "" stands for absent -/
  label : String := ""
  owner : String
deriving DecidableEq, Repr

/-- `fetchMatchingNodeName`, machine_util.go:1741-1753: the first node with the machine's name as label -/
def fetch (view : List Node) (machine : String) : Option String := (view.find? fun n => n.label = machine).map (·.name)

/-- `syncMachineNameToNode`, machine_util.go:236-266: the node as written, if it is; `node` is the machine's label -/
def syncName (view : List Node) (machine node : String) : Option Node :=
  match view.find? fun n => n.name = node with
  | none => none
  | some n => if n.label = machine then none else some { n with label := machine }

/-- The node on which a run of the termination acts: it is given the termination condition, cordoned and drained (`drainNode`), its volume
attachments are deleted (`deleteNodeVolAttachments`), or its object is deleted (`deleteNodeObject`).
machine_util.go:1051-1299, 1373-1429. -/
def touched (v : Termination.Obj) : Option String :=
  if !v.finalizer then none
  else if v.st.phase ≠ .terminating then none
  else match Termination.decode v.st.desc with
    | some .drain => if v.node = "" then none else some v.node
    | some .vols => some v.node
    | some .node => if v.node ≠ "" then some v.node else none
    | _ => none

/-- All machines and nodes. `labels`: for each machine the versions of its label `node`, newest first. `nodes`: the stored nodes. `seen`: all versions of
all nodes so far, which caches may show. `given`: the names the provider gave to the VMs of machines. `acts`: the nodes acted upon by terminations, with
the machine terminated and the owner of the node, if the node existed. machine.go:625-653, machine_util.go:236-266, 919-1037, 1711-1753. -/
structure World where
  labels : String → List (Option String) := fun _ => []
  nodes : List Node := []
  seen : List Node := []
  given : List (String × String) := []
  acts : List (String × String × Option String) := []

/-- a new version of a machine's label; machine.go:625-653, machine_util.go:1711-1725 -/
def World.relabel (w : World) (m : String) (l : Option String) : World :=
  { w with labels := fun x => if x = m then l :: w.labels x else w.labels x }

/-- a node is stored; machine_util.go:236-266 -/
def World.store (w : World) (n : Node) : World :=
  { w with nodes := n :: w.nodes.filter (fun x => x.name ≠ n.name), seen := n :: w.seen }

/-- what the provider tells the creation of a machine; answers at machine.go:468 and 495 -/
def Truthful (given : List (String × String)) (m : String) (e : Creation.Env) : Prop :=
  (∀ n p, e.status = .ok n p → (m, n) ∈ given) ∧ (∀ t n p, e.status = .err t (some (n, p)) → (m, n) ∈ given) ∧
  (∀ n p, e.create = .ok n p → (m, n) ∈ given)

/-- One step. `reuse`: the provider may give a name a second time. machine.go:446-653, machine_util.go:236-266, 919-1037, 1051-1430. -/
inductive Step (reuse : Bool) : World → World → Prop
  /-- a machine object appears -/
  | machine {w : World} (m : String) : m ≠ "" → w.labels m = [] → Step reuse w (w.relabel m none)
  /-- the provider starts a VM of a machine -/
  | vm {w : World} (m n : String) : n ≠ "" → (reuse = false → ∀ m', (m', n) ∈ w.given → m' = m) → Step reuse w { w with given := (m, n) :: w.given }
  /-- the VM's node registers -/
  | join {w : World} (m n : String) : (m, n) ∈ w.given → (∀ x ∈ w.nodes, x.name ≠ n) → Step reuse w (w.store { name := n, owner := m })
  /-- the VM's node finds an object of its name and goes on with it -/
  | rejoin {w : World} (m : String) (x : Node) : (m, x.name) ∈ w.given → x ∈ w.nodes → Step reuse w (w.store { x with owner := m })
  /-- a node object is deleted, by a termination or from outside -/
  | leave {w : World} (n : String) : Step reuse w { w with nodes := w.nodes.filter fun x => x.name ≠ n }
  /-- a run of the creation writes its machine -/
  | create {w : World} (e : Creation.Env) (v o : Creation.Obj) (old : List (Option String)) : w.labels v.name = v.node :: old → Truthful w.given v.name e →
      (Creation.reconcile e v).wrote = some o → Step reuse w (w.relabel v.name o.node)
  /-- a run of the termination writes the label -/
  | label {w : World} (e : Termination.Env) (v : Termination.Obj) (l : Option String) (old : List (Option String)) (view : List Node) (n : String) :
      w.labels v.name = l :: old → v.node = l.getD "" → (∀ x ∈ view, x ∈ w.seen) → e.nodeByLabel = fetch view v.name →
      (∀ n, e.getStatus = .ok n → n = "" ∨ (v.name, n) ∈ w.given) → Termination.labelOf e v = some n → Step reuse w (w.relabel v.name (some n))
  /-- the machine's name is written to the node; the write is accepted if the cached node is the stored one -/
  | sync {w : World} (m : String) (l : Option String) (view : List Node) (n : Node) : l ∈ w.labels m → l.getD "" ≠ "" → (∀ x ∈ view, x ∈ w.seen) →
      syncName view m (l.getD "") = some n → (∃ x ∈ w.nodes, x.name = n.name ∧ x.owner = n.owner) → Step reuse w (w.store n)
  /-- a run of the termination of any version acts on a node -/
  | act {w : World} (v : Termination.Obj) (l : Option String) (n : String) : l ∈ w.labels v.name → v.node = l.getD "" → touched v = some n →
      Step reuse w { w with acts := (v.name, n, (w.nodes.find? fun x => x.name = n).map (·.owner)) :: w.acts }

/-- The states reachable by steps of machine.go:446-653 and machine_util.go:236-266, 919-1430 -/
inductive Reach (reuse : Bool) : World → Prop
  | start : Reach reuse {}
  | step {w w' : World} : Reach reuse w → Step reuse w w' → Reach reuse w'

end MCM.OwnNode
