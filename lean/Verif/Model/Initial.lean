import Verif.Model.Tokens
/-!
The initialisation of a machine's VM: calls of `CreateMachine`, `InitializeMachine` and the clean-up of a VM with a stale node
(/repo/pkg/util/provider/machinecontroller/machine.go:446-697) and their effect at a provider that answers truthfully, together with all writers of the machine's phase. It extends
`Lifecycle`, whose runs of the machine controller are used as they are.

Simplifications: one machine; a run is one step (one worker handles a key at a time); the VM does not vanish while the machine is not being deleted.
-/
namespace MCM.Initial
open MCM MCM.Lifecycle

/-- A VM at the provider; `ready`: its initialisation was successful, or none is necessary. machine.go:468-500, 655-697 -/
structure VM where
  node : String
  pid : String
  ready : Bool
deriving DecidableEq, Repr

/-- what may happen besides the ordinary (besides machine.go:446-697) -/
structure Opts where
  /-- the node of a VM may be healthy before the VM is initialised -/
  early : Bool := false
  /-- the driver does not implement `GetMachineStatus` -/
  blind : Bool := false

/-- What a truthful driver answers to `GetMachineStatus`, docs/development/machine_error_codes.md:313-328: the VM, that it is not initialised, that there is none, or some other error.
Called at machine.go:468. -/
inductive Answers (opts : Opts) : Option VM → Creation.StatusAns → Prop
  | ready {vm : VM} : vm.ready = true → Answers opts (some vm) (.ok vm.node vm.pid)
  | raw {vm : VM} {text msg : String} : vm.ready = false → Codes.fromError text = some (.uninitialized, msg) → Answers opts (some vm) (.err text (some (vm.node, vm.pid)))
  | missing {text msg : String} {resp : Option (String × String)} : Codes.fromError text = some (.notFound, msg) → Answers opts none (.err text resp)
  | trouble {vm : Option VM} {text : String} {resp : Option (String × String)} :
      (∀ c m, Codes.fromError text = some (c, m) → c ≠ .notFound ∧ c ≠ .unimplemented ∧ c ≠ .uninitialized) → Answers opts vm (.err text resp)
  | blind {vm : Option VM} {text msg : String} {resp : Option (String × String)} : opts.blind = true → Codes.fromError text = some (.unimplemented, msg) → Answers opts vm (.err text resp)

/-- the calls made by a run of the machine controller, machine.go:171-238: none if it ends with the health check or the node syncs -/
def calls (e : Env) (v : Obj) : List Creation.Event := if ends e v then [] else (Creation.reconcile { e.c with health := none } v.toObj).events

/-- The effect of a call at the provider. `raw`: a new VM has to be initialised; `left`: what a failing `CreateMachine` leaves. machine.go:495, 526, 662 -/
def effect (raw : Bool) (left : Option VM) (vm : Option VM) : Creation.Event → Option VM
  | .getStatus _ => vm
  | .create _ (.ok n p) => some ⟨n, p, !raw⟩
  | .create _ (.err ..) => left
  | .delete _ none => none
  | .delete _ (some _) => vm
  | .init _ none => vm.map fun x => { x with ready := true }
  | .init _ (some _) => vm

/-- the stored versions of the machine, newest first, and its VM; machine.go:171-238 -/
structure S where
  hist : List Obj
  vm : Option VM := none

/-- One step. machine.go:171-292, machine_safety.go:72-96, machineset.go:665-711. -/
inductive Step (opts : Opts) : S → S → Prop
  /-- a run of the machine controller that has read some version; its write, if there is one, may arrive if that is the stored one -/
  | run {s : S} (e : Env) (v : Obj) (raw lands : Bool) (left : Option VM) : v ∈ s.hist → (lands = true → s.hist.head? = some v) → Answers opts s.vm e.c.status →
      (opts.early = false → (∀ vm, s.vm = some vm → vm.ready = false) → ∀ n, e.node = .found n → Health.isHealthy v.bad (Health.seen (asHealth v) n) = false) →
      Step opts s { hist := (if lands then (Lifecycle.run e v).toList else []) ++ s.hist, vm := (calls e v).foldl (effect raw left) s.vm }
  /-- a write by somebody else: the request to delete the machine, the safety controller, labels and annotations; anything if the machine is being deleted -/
  | write {s : S} {cur new : Obj} {old : List Obj} : s.hist = cur :: old → Tokens.Foreign {} cur new → Step opts s { s with hist := new :: s.hist }
  /-- the VM of a machine being deleted goes -/
  | gone {s : S} {cur : Obj} {old : List Obj} : s.hist = cur :: old → cur.deleting = true → Step opts s { s with vm := none }

/-- the states reached from a new machine, controller_utils.go:535-567 -/
inductive Reach (opts : Opts) : S → Prop
  | new {o : Obj} : New o → Reach opts { hist := [o] }
  | step {s s' : S} : Reach opts s → Step opts s s' → Reach opts s'

end MCM.Initial
