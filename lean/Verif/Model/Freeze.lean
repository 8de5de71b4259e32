import Verif.Model.Rolling
/-!
Model of the overshooting safety controller, /repo/pkg/controller/machine_safety.go. Objects are read from listers
(a `View`, possibly stale and different at each of the four stages) and written to the live `Store`. Each API call
consumes one answer of an oracle `ok : Nat → Bool`; a negative answer stands for any error, a conflict or a crash.
-/
namespace MCM.Freeze
open MCM MCM.Rolling

/-- A MachineSet, as far as this controller uses it. machine_safety.go:199-279, 366-408 -/
structure FSet where
  name : String
  replicas : Int
  /-- `Spec.Template.Labels` -/
  tmpl : SMap := []
  /-- `Labels["freeze"] == "True"` -/
  label : Bool := false
  /-- condition `MachineSetFrozen` present -/
  cond : Bool := false
  /-- annotation `safety.machine.sapcloud.io/unfreeze` present -/
  ann : Bool := false
deriving Repr, DecidableEq

/-- A MachineDeployment, as far as this controller uses it. machine_safety.go:142-195, 411-491 -/
structure FDep where
  name : String
  replicas : Int
  /-- `Spec.Strategy.RollingUpdate`: `none` is a nil pointer (Recreate), otherwise the `MaxSurge` pointer -/
  rolling : Option (Option IntOrStr) := some (some (.int 1))
  label : Bool := false
  cond : Bool := false
  ann : Bool := false
deriving Repr, DecidableEq

/-- A Machine: labels and the names in its owner references. machine_safety.go:215-226 -/
structure FMachine where
  labels : SMap := []
  owners : List String := []
deriving Repr, DecidableEq

/-- What the listers show at one moment. `owner` gives the first deployment whose selector matches the set
(getMachineDeploymentsForMachineSet, deployment.go:123-139), `children` the sets of a deployment
(getMachineSetsForMachineDeployment); both by name. -/
structure View where
  sets : List FSet
  deps : List FDep
  machines : List FMachine := []
  owner : String → Option String := fun _ => none
  children : String → List String := fun _ => []

/-- `safetyOptions.SafetyUp`, `safetyOptions.SafetyDown`; machine_safety.go:229-231 -/
structure Opts where
  up : Int
  down : Int

/-- The live objects, with the number of API calls made so far. Written in machine_safety.go:293-491. -/
structure Store where
  sets : List FSet
  deps : List FDep
  calls : Nat := 0

/-- how a function returned; in machine_safety.go:75-491 (`panic`: `Strategy.RollingUpdate.MaxSurge` at line 239 with a nil pointer) -/
inductive Res | done | err | panic
deriving Repr, DecidableEq

/-- Labels match a selector made of `m` (`labels.Set.AsSelectorPreValidated().Matches`). machine_safety.go:216-218 -/
def selects (m l : SMap) : Bool := m.all fun e => List.lookup e.1 l == some e.2

/-- `fullyLabeledReplicasCount`, machine_safety.go:215-226: every owner reference with the set's name counts. -/
def count (v : View) (s : FSet) : Int :=
  ((v.machines.map fun m =>
    if selects s.tmpl m.labels then (m.owners.filter fun o => o == s.name).length else 0).sum : Nat)

/-- the deployment found for a set; machine_safety.go:233-237, 326-328, 348-350 -/
def depOf (v : View) (s : FSet) : Option FDep :=
  (v.owner s.name).bind fun n => v.deps.find? fun d => d.name == n

/-- `higherThreshold`, machine_safety.go:229-250. -/
def higher (o : Opts) (v : View) (s : FSet) : Except Res Int :=
  match depOf v s with
  | none => .ok (2 * s.replicas + o.up)
  | some d =>
    match d.rolling with
    | none => .error .panic
    | some surge =>
      match scaledValue surge d.replicas true with
      | none => .error .err
      | some g => .ok (d.replicas + g + o.up)

/-- One API call changing a set: fails if the answer is negative or the set is gone. The update calls of machine_safety.go:90-112, 293-408. -/
def writeSet (ok : Nat → Bool) (n : String) (f : FSet → FSet) (st : Store) : Store × Res :=
  if ok st.calls && st.sets.any (fun s => s.name == n) then
    ({ st with sets := st.sets.map (fun s => if s.name == n then f s else s), calls := st.calls + 1 }, .done)
  else ({ st with calls := st.calls + 1 }, .err)

/-- One API call changing a deployment. The update calls of machine_safety.go:411-491. -/
def writeDep (ok : Nat → Bool) (n : String) (f : FDep → FDep) (st : Store) : Store × Res :=
  if ok st.calls && st.deps.any (fun d => d.name == n) then
    ({ st with deps := st.deps.map (fun d => if d.name == n then f d else d), calls := st.calls + 1 }, .done)
  else ({ st with calls := st.calls + 1 }, .err)

/-- `if err != nil { return err }`; throughout machine_safety.go:75-491 -/
def andThen (r : Store × Res) (k : Store → Store × Res) : Store × Res :=
  if r.2 = .done then k r.1 else r

/-- `freezeMachineDeployment`, machine_safety.go:411-449 (GET and status update, then label update) -/
def freezeDep (ok : Nat → Bool) (n : String) (st : Store) : Store × Res :=
  andThen (writeDep ok n (fun d => { d with cond := true }) st) fun st =>
    writeDep ok n (fun d => { d with label := true }) st

/-- `unfreezeMachineDeployment`, machine_safety.go:452-491 -/
def unfreezeDep (ok : Nat → Bool) (n : String) (st : Store) : Store × Res :=
  andThen (writeDep ok n (fun d => { d with cond := false }) st) fun st =>
    writeDep ok n (fun d => { d with label := false, ann := false }) st

/-- `freezeMachineSetAndDeployment`, machine_safety.go:293-341 -/
def freezeSet (ok : Nat → Bool) (v : View) (s : FSet) (st : Store) : Store × Res :=
  andThen (writeSet ok s.name (fun s => { s with cond := true }) st) fun st =>
  andThen (writeSet ok s.name (fun s => { s with label := true }) st) fun st =>
    match depOf v s with
    | none => (st, .done)
    | some d => freezeDep ok d.name st

/-- `unfreezeMachineSet`, machine_safety.go:366-408 -/
def unfreezeSet (ok : Nat → Bool) (n : String) (st : Store) : Store × Res :=
  andThen (writeSet ok n (fun s => { s with cond := false }) st) fun st =>
    writeSet ok n (fun s => { s with label := false, ann := false }) st

/-- `unfreezeMachineSetAndDeployment`, machine_safety.go:344-363 -/
def unfreezeSetAndDep (ok : Nat → Bool) (v : View) (s : FSet) (st : Store) : Store × Res :=
  match depOf v s with
  | none => unfreezeSet ok s.name st
  | some d => andThen (unfreezeDep ok d.name st) fun st => unfreezeSet ok s.name st

/-- what the loop body does with one set; machine_safety.go:205-277 -/
inductive Act | skip | freeze | unfreeze | stop (r : Res)
deriving DecidableEq

/-- the decision, machine_safety.go:259-276 -/
def decideSet (o : Opts) (v : View) (s : FSet) : Act :=
  match higher o v s with
  | .error r => .stop r
  | .ok h =>
    if !s.label && decide (count v s ≥ h) then .freeze
    else if decide (count v s ≤ h - o.down) && (s.label || s.cond) then .unfreeze
    else .skip

/-- `checkAndFreezeORUnfreezeMachineSets`, machine_safety.go:199-279: returns after the first set acted upon. -/
def checkSets (o : Opts) (ok : Nat → Bool) (v : View) : List FSet → Store → Store × Res
  | [], st => (st, .done)
  | s :: rest, st =>
    match decideSet o v s with
    | .stop r => (st, r)
    | .freeze => freezeSet ok v s st
    | .unfreeze => unfreezeSetAndDep ok v s st
    | .skip => checkSets o ok v rest st

/-- a deployment has a frozen set, machine_safety.go:156-168 -/
def hasFrozen (v : View) (d : FDep) : Bool :=
  (v.children d.name).any fun n => v.sets.any fun s => s.name == n && (s.label || s.cond)

/-- `syncMachineDeploymentFreezeState`, machine_safety.go:142-195 -/
def syncDeps (ok : Nat → Bool) (v : View) : List FDep → Store → Store × Res
  | [], st => (st, .done)
  | d :: rest, st =>
    if hasFrozen v d then
      if !d.label || !d.cond then andThen (freezeDep ok d.name st) (syncDeps ok v rest)
      else syncDeps ok v rest st
    else if d.label || d.cond then andThen (unfreezeDep ok d.name st) (syncDeps ok v rest)
    else syncDeps ok v rest st

/-- the unfreeze annotation put on the sets of a deployment, machine_safety.go:90-112 -/
def annotateSets (ok : Nat → Bool) : List String → Store → Store × Res
  | [], st => (st, .done)
  | n :: rest, st => andThen (writeSet ok n (fun s => { s with ann := true }) st) (annotateSets ok rest)

/-- `unfreezeMachineDeploymentsWithUnfreezeAnnotation`, machine_safety.go:75-118 -/
def unfreezeAnnotatedDeps (ok : Nat → Bool) (v : View) : List FDep → Store → Store × Res
  | [], st => (st, .done)
  | d :: rest, st =>
    if d.ann then
      andThen (unfreezeDep ok d.name st) fun st =>
      andThen (annotateSets ok (v.children d.name) st) (unfreezeAnnotatedDeps ok v rest)
    else unfreezeAnnotatedDeps ok v rest st

/-- `unfreezeMachineSetsWithUnfreezeAnnotation`, machine_safety.go:121-139 -/
def unfreezeAnnotatedSets (ok : Nat → Bool) : List FSet → Store → Store × Res
  | [], st => (st, .done)
  | s :: rest, st =>
    if s.ann then andThen (unfreezeSet ok s.name st) (unfreezeAnnotatedSets ok rest)
    else unfreezeAnnotatedSets ok rest st

/-- the four views of one run; between the calls of `cache.WaitForCacheSync`, machine_safety.go:49-70 -/
structure Views where
  v1 : View
  v2 : View
  v3 : View
  v4 : View

/-- `reconcileClusterMachineSafetyOvershooting`, machine_safety.go:38-72: the four stages run one after the other, whatever
the result of the earlier ones; a panic ends the process. The listers return objects in any order: the views' lists are
in the order met. -/
def run (o : Opts) (ok : Nat → Bool) (w : Views) (st : Store) : Store × Res :=
  let r1 := checkSets o ok w.v1 w.v1.sets st
  if r1.2 = .panic then r1
  else
    let r2 := syncDeps ok w.v2 w.v2.deps r1.1
    let r3 := unfreezeAnnotatedDeps ok w.v3 w.v3.deps r2.1
    unfreezeAnnotatedSets ok w.v4.sets r3.1

/-- A view that shows exactly the live objects. Listers of machine_safety.go:75-279 that are up to date. -/
def fresh (machines : List FMachine) (owner : String → Option String) (children : String → List String) (st : Store) : View :=
  { sets := st.sets, deps := st.deps, machines := machines, owner := owner, children := children }

/-- A run whose stages each see the live objects, all calls succeeding. machine_safety.go:38-72. -/
def idealRun (o : Opts) (machines : List FMachine) (owner : String → Option String) (children : String → List String)
    (st : Store) : Store :=
  let ok : Nat → Bool := fun _ => true
  let v := fresh machines owner children
  let r1 := checkSets o ok (v st) st.sets st
  if r1.2 = .panic then r1.1
  else
    let r2 := syncDeps ok (v r1.1) r1.1.deps r1.1
    let r3 := unfreezeAnnotatedDeps ok (v r2.1) r2.1.deps r2.1
    (unfreezeAnnotatedSets ok r3.1.sets r3.1).1

end MCM.Freeze
