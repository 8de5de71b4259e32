import Verif.Model.Termination
/-!
Deletion of volume attachments before a VM is deleted after a forced drain: /repo/pkg/util/provider/machinecontroller/machine_util.go:1238-1299
(`deleteNodeVolAttachments`), 1671-1698. The decisions are those of `Termination.volStep`; here the attachments are looked at.
-/
namespace MCM.Attach
open MCM

/-- A VolumeAttachment object; (`storagev1.VolumeAttachment`), the fields used in machine_util.go:1671-1698 -/
structure Att where
  name : String
  /-- `Spec.NodeName` -/
  node : String
  /-- `DeletionTimestamp` is set -/
  deleting : Bool := false
deriving DecidableEq, Repr

/-- `getLiveVolumeAttachmentsForNode`, machine_util.go:1671-1683 -/
def live (node : String) (listed : List Att) : List Att := listed.filter fun a => a.node = node && !a.deleting

/-- The outside world during one run: the node, the attachments as listed (`none`: listing fails), and which deletion requests are accepted (an attachment
that is gone counts as not accepted, machine_util.go:1685-1698). -/
structure Env where
  t : Termination.Env := {}
  listed : Option (List Att)
  accept : String → Bool := fun _ => true

/-- what the termination sees; in deleteNodeVolAttachments, machine_util.go:1238-1299: whether live attachments were listed -/
def Env.term (e : Env) (node : String) : Termination.Env := { e.t with liveVols := e.listed.map fun l => !(live node l).isEmpty }

/-- The names in the deletion requests of one run, in order: `deleteVolumeAttachmentsForNode`, machine_util.go:1685-1698, tries all. -/
def requests (e : Env) (node : String) : List String :=
  match e.t.nodeGet with
  | .found true => match e.listed with
    | some l => (live node l).map (·.name)
    | none => []
  | _ => []

/-- The stored attachments after the requests: an accepted one marks the attachment (its finalizer keeps it until the volume is detached).
Requests: machine_util.go:1685-1698. -/
def deleted (accept : String → Bool) (reqs : List String) (store : List Att) : List Att :=
  store.map fun a => if reqs.contains a.name && accept a.name then { a with deleting := true } else a

/-- One run of the step on the stored object and attachments, with all writes accepted: `Termination.run` in the step `vols`.
machine_util.go:1238-1299. -/
def run (e : Env) (s : Termination.Obj × List Att) : Termination.Obj × List Att :=
  (Termination.run (e.term s.1.node) s.1, deleted e.accept (requests e s.1.node) s.2)

end MCM.Attach
