/-!
Model of the propagation of a machine set's node template, configuration and class kind to its machines:
/repo/pkg/controller/machineset_util.go:85-205, machineset.go:524-539, 848-874.
-/
namespace MCM.SyncMachines

/-- the three parts of a machine's spec that are propagated; their contents are compared as a whole only; machine_types.go:51-68 -/
structure Spec where
  template : String
  config : String
  kind : String
deriving DecidableEq, Repr

/-- /repo/pkg/controller/machineset_util.go:85-204 -/
inductive Field
  | template | config | kind
deriving DecidableEq, Repr

/-- /repo/pkg/controller/machineset_util.go:85-204 -/
def Spec.get (s : Spec) : Field → String
  | .template => s.template
  | .config => s.config
  | .kind => s.kind

/-- the assignments in machineset_util.go:143, 188 and 198 -/
def Spec.copy (s want : Spec) : Field → Spec
  | .template => { s with template := want.template }
  | .config => { s with config := want.config }
  | .kind => { s with kind := want.kind }

/-- a stored machine with its resource version, /repo/pkg/controller/machineset_util.go:85-204 -/
structure Obj where
  version : Nat
  spec : Spec
deriving DecidableEq, Repr

/-- A machine: stored by the API server, and the object in the cache of the lister, which the controller writes into.
`active` is `IsMachineActive`, machineutils/utils.go:109-111. -/
structure Mach where
  name : String
  active : Bool := true
  stored : Obj
  cached : Obj
deriving DecidableEq, Repr

/-- the watch replaces the cached object; /repo/pkg/controller/machineset_util.go:98, 125, 166 -/
def Mach.refresh (m : Mach) : Mach := { m with cached := m.stored }

/-- An attempt to write: whether the watch replaces the cached object before it is looked up, and whether the request fails for a
reason other than a conflict (or the machine is not in the cache). /repo/pkg/controller/machineset.go:848-874. -/
structure Attempt where
  refresh : Bool := false
  error : Bool := false
deriving DecidableEq, Repr

/-- `UpdateMachineWithRetries` with a function that changes nothing, machineset.go:848-874: the object in the cache is written; a
conflict is followed by the next attempt, of which there are at most four -/
def write : List Attempt → Mach → Mach × Bool
  | [], m => (m, false)
  | a :: as, m =>
    let m := if a.refresh then m.refresh else m
    if a.error then (m, false)
    else if m.cached.version = m.stored.version then
      ({ m with stored := { version := m.stored.version + 1, spec := m.cached.spec } }, true)
    else write as m

/-- inactive machines are skipped for template and configuration, machineset_util.go:92-94, 157-159, not for the class kind, 118 -/
def Mach.skipped (m : Mach) : Field → Bool
  | .kind => false
  | _ => !m.active

/-- the body of the loops: the cached object is compared and changed, then written;
/repo/pkg/controller/machineset_util.go:87-110, 115-135, 153-178 -/
def syncOne (f : Field) (want : Spec) (attempts : List Attempt) (m : Mach) : Mach × Bool :=
  if m.skipped f then (m, true)
  else if m.cached.spec.get f = want.get f then (m, true)
  else write (attempts.take 4) { m with cached := { m.cached with spec := m.cached.spec.copy want f } }

/-- `syncMachinesNodeTemplates`, `syncMachinesConfig`, `syncMachinesClassKind`: machines in order; the first error ends the loop.
`att` gives the attempts for a machine. /repo/pkg/controller/machineset_util.go:85-179. -/
def sync (f : Field) (want : Spec) (att : String → List Attempt) : List Mach → List Mach × Bool
  | [] => ([], true)
  | m :: ms =>
    let r := syncOne f want (att m.name) m
    if r.2 then
      let r' := sync f want att ms
      (r.1 :: r'.1, r'.2)
    else (r.1 :: ms, false)

/-- the three loops, machineset.go:524-539: an error ends the reconcile -/
def reconcile (want : Spec) (att : Field → String → List Attempt) (ms : List Mach) : List Mach × Bool :=
  let r1 := sync .template want (att .template) ms
  if r1.2 then
    let r2 := sync .config want (att .config) r1.1
    if r2.2 then sync .kind want (att .kind) r2.1 else r2
  else r1

end MCM.SyncMachines
