import Verif.Model.Teardown
/-!
Disturbed runs of all controllers: any call may fail, with or without effect, and any run may stop anywhere. The machine controller and the termination
(/repo/pkg/util/provider/machinecontroller/machine.go:171-292, 446-761) with a provider that is honest but unreliable, and the machine set
controller (/repo/pkg/controller/machineset.go:333-452, 660-737) with stale caches, refused and lost requests.

It extends `Fleet` and `Lifecycle.live`, whose provider never fails. As there, runs of the machine controller and the termination for one machine do not overlap.
-/
namespace MCM.Lifecycle
open MCM MCM.Similar

/-- What goes wrong at the provider during a run of the machine controller. machine.go:446-623. -/
structure Trouble where
  /-- `GetMachineStatus` fails with this text and no response, machine.go:476-578 -/
  status : Option String := none
  /-- `GetMachineStatus` finds the VM but fails with this text, e.g. since it is not initialised, machine.go:560-567 -/
  uninit : Option String := none
  /-- `CreateMachine` fails with this text and last known state, machine.go:493-495 -/
  create : Option (String × String) := none
  /-- although it failed, there is a VM -/
  made : Bool := false

/-- what it answers to `GetMachineStatus`; machine.go:468 -/
def statusOf (t : Trouble) (vms : List Creation.VM) : Creation.StatusAns :=
  match t.status with
  | some text => .err text none
  | none => match vms with
    | x :: _ => match t.uninit with
      | some text => .err text (some (x.node, x.pid))
      | none => .ok x.node x.pid
    | [] => .err (Codes.render .notFound "no such VM") none

/-- what it answers to `CreateMachine`; machine.go:495 -/
def createOf (t : Trouble) (vm : Creation.VM) : Creation.CreateAns :=
  match t.create with
  | some (text, lks) => .err text lks
  | none => .ok vm.node vm.pid

/-- the outside world with such a provider, that has the VMs `vms` and creates `vm` when asked; machine.go:446-623 -/
def troubled (e : Env) (t : Trouble) (vm : Creation.VM) (vms : List Creation.VM) : Env :=
  { e with c := { e.c with status := statusOf t vms, create := createOf t vm } }

/-- the VMs that are there because of a call of `CreateMachine`: one whose node's name is in use is deleted again, machine.go:505-533 -/
def delivered (e : Env) (t : Trouble) (vm : Creation.VM) (v : Obj) : List Creation.VM :=
  match t.create with
  | some _ => if t.made then [vm] else []
  | none => if vm.node ∈ e.c.nodes ∧ vm.node ≠ v.name ∧ e.c.delStale = none then [] else [vm]

/-- One run of the machine controller, machine.go:171-238, with such a provider. That a write does not arrive, or that the run stops before it, is the same. -/
def rough (e : Env) (t : Trouble) (vm : Creation.VM) (s : List Creation.VM × Obj) : List Creation.VM × Obj :=
  (if asks (troubled e t vm s.1) s.2 then delivered e t vm s.2 ++ s.1 else s.1, (run (troubled e t vm s.1) s.2).getD s.2)

end MCM.Lifecycle

namespace MCM.Fleet
open MCM MCM.Similar

/-- such a run for the machine `n`; machine.go:171-238 -/
def roughRun (n : String) (e : Lifecycle.Env) (t : Lifecycle.Trouble) (vm : Creation.VM) : M → Option M
  | .live vms v x =>
    if v.name = n then some (.live (Lifecycle.rough e t vm (vms, v)).1 (Lifecycle.rough e t vm (vms, v)).2 x) else some (.live vms v x)
  | m => some m

/-- A run of the termination for the machine `n`, machine.go:240-292, 699-761. `landed`: its write arrives; `gone`: the VM is gone, whatever the call that deletes it answered. -/
def roughTerm (n : String) (e : Termination.Env) (landed gone : Bool) : M → Option M
  | .dying vms t prio created trig =>
    if t.name = n then
      if landed then
        if (Termination.run e t).finalizer then some (.dying (if gone then [] else vmsAfter e t vms) (Termination.run e t) prio created trig) else none
      else some (.dying (if gone then [] else vmsAfter e t vms) t prio created trig)
    else some (.dying vms t prio created trig)
  | m => some m

/-- What a run of the machine set controller, or a user, may do to a machine, machineset.go:666-711. -/
inductive Deed
  | none
  /-- delete it and announce it -/
  | kill
  /-- delete it without announcing it: by a user, or the run stops in between -/
  | request
  /-- announce a deletion without one: the request is refused -/
  | announce
  /-- the safety controller resets a machine that its cache shows unknown, machine_safety.go:64-103 -/
  | reset
  /-- a user changes the priority, the trigger and force-deletion marks, timeouts and node conditions -/
  | edit (prio : String) (x : Extra) (creation health : Int) (bad : List String)

/-- the status written by the safety controller, machine_safety.go:80-96 -/
def resetStatus (now : Int) (s : MStatus) : MStatus :=
  { s with
    desc := "Machine Health Timeout was reset due to APIServer being unreachable", errorCode := "", state := "Successful"
    opType := "HealthCheck", opTime := now, phase := .running, timeoutActive := false, phaseTime := now }

/-- its effect; machine.go:240-292, machineset.go:665-711 -/
def Deed.effect (now : Int) (m : M) : Deed → Option M
  | .none => some m
  | .kill => Fleet.kill now m
  | .request => Teardown.request now m
  | .announce => some (Teardown.announced now m)
  | .reset => match m with
    | .live vms v x => some (.live vms { v with st := resetStatus now v.st } x)
    | .dying vms t p c tr => some (.dying vms { t with st := resetStatus now t.st } p c tr)
  | .edit p x c h b => match m with
    | .live vms v _ => some (.live vms { v with prio := some p, creationTimeout := c, healthTimeout := h, bad := b } x)
    | m => some m

end MCM.Fleet
