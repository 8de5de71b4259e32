import Verif.Model.Types
/-!
Model of the rolling-update logic: /repo/pkg/controller/deployment_rolling.go and the budget functions of
/repo/pkg/controller/deployment_util.go. Replica counts are `Int` (Go int32; validation bounds them, overflow is
not modelled).
-/
namespace MCM.Rolling
open MCM

/-- `intstr.IntOrString`; (apimachinery); fields at machinedeployment_types.go:139-176 -/
inductive IntOrStr
  | int (v : Int)
  | str (s : String)
deriving Repr, DecidableEq

/-- exact floor of v*total/100 (`math.Floor(float64(value)*float64(total)/100)`; the float computation gives the same for
products below 2^53: `C124_percent`); (apimachinery `GetScaledValueFromIntOrPercent`), called at deployment_util.go:1167-1186 -/
def floorPct (v total : Int) : Int := (v * total) / 100
/-- exact ceiling of v*total/100; (apimachinery `GetScaledValueFromIntOrPercent`), called at deployment_util.go:1167-1186 -/
def ceilPct (v total : Int) : Int := -((-(v * total)) / 100)

/-- `intstr.GetValueFromIntOrPercent` (k8s.io/apimachinery), called at deployment_util.go:1167-1186: an integer is taken as is; of a string every `%` is dropped
and the rest parsed with `Atoi` as a percentage of `total`. `none` models a nil pointer; the result `none` an error. -/
def scaledValue (x : Option IntOrStr) (total : Int) (roundUp : Bool) : Option Int :=
  match x with
  | none => none
  | some (.int v) => some v
  | some (.str s) =>
    match atoi (String.ofList (s.toList.filter (· != '%'))) with
    | none => none
    | some v => some (if roundUp then ceilPct v total else floorPct v total)

/-- Strategy type of a MachineDeployment. machinedeployment_types.go:104-136 -/
inductive Strategy | rolling | recreate | other
deriving Repr, DecidableEq

/-- The MachineDeployment fields used. machinedeployment_types.go:46-100 -/
structure Dep where
  replicas : Int
  strategy : Strategy := .rolling
  maxSurge : Option IntOrStr
  maxUnavailable : Option IntOrStr
deriving Repr, DecidableEq

/-- `ResolveFenceposts`, deployment_util.go:1167-1185 -/
def resolveFenceposts (surge unav : Option IntOrStr) (desired : Int) : Option (Int × Int) :=
  match scaledValue surge desired true with
  | none => none
  | some s =>
    match scaledValue unav desired false with
    | none => none
    | some u => if s = 0 ∧ u = 0 then some (s, 1) else some (s, u)

/-- `MaxUnavailable`, deployment_util.go:621-631; on an error `ResolveFenceposts` returns zeros. -/
def maxUnavailable (d : Dep) : Int :=
  if d.strategy ≠ .rolling ∨ d.replicas = 0 then 0
  else
    let u := ((resolveFenceposts d.maxSurge d.maxUnavailable d.replicas).getD (0, 0)).2
    if u > d.replicas then d.replicas else u

/-- `MinAvailable`, deployment_util.go:634-639 -/
def minAvailable (d : Dep) : Int :=
  if d.strategy ≠ .rolling then 0 else d.replicas - maxUnavailable d

/-- `MaxSurge`, deployment_util.go:642-649 -/
def maxSurge (d : Dep) : Int :=
  if d.strategy ≠ .rolling then 0
  else ((resolveFenceposts d.maxSurge d.maxUnavailable d.replicas).getD (0, 0)).1

/-- A MachineSet as the deployment controller's cache shows it. deployment_rolling.go:126-292. -/
structure MS where
  name : String := ""
  /-- `Spec.Replicas` -/
  spec : Int
  /-- `Status.Replicas` -/
  status : Int := 0
  /-- `Status.AvailableReplicas` -/
  avail : Int := 0
  creation : Int := 0
deriving Repr, DecidableEq

/-- `GetReplicaCountForMachineSets`, deployment_util.go:959-967 -/
def specSum (l : List MS) : Int := (l.map (·.spec)).sum
/-- `GetActualReplicaCountForMachineSets`, deployment_util.go:970-978 -/
def statusSum (l : List MS) : Int := (l.map (·.status)).sum
/-- `GetAvailableReplicaCountForMachineSets`, deployment_util.go:992-1000 -/
def availSum (l : List MS) : Int := (l.map (·.avail)).sum

/-- `NewISNewReplicas`, deployment_util.go:1085-1111; `none` = error. -/
def newReplicas (d : Dep) (all : List MS) (new : MS) : Option Int :=
  match d.strategy with
  | .rolling =>
    match scaledValue d.maxSurge d.replicas true with
    | none => none
    | some surge =>
      let current := statusSum all
      let maxTotal := d.replicas + surge
      if current ≥ maxTotal then some new.spec
      else some (new.spec + min (maxTotal - current) (d.replicas - new.spec))
  | .recreate => some d.replicas
  | .other => none

/-- `scaleMachineSetAndRecordEvent`/`scaleMachineSet`, deployment_sync.go:530-565, effect on the set's size: nothing if
equal, else one Update call whose success is `ok`. Result: stored set, whether it was scaled, whether an error occurred. -/
def scaleTo (ok : Bool) (s : MS) (n : Int) : MS × Bool × Bool :=
  if s.spec = n then (s, false, false)
  else if ok then ({ s with spec := n }, true, false) else (s, false, true)

/-- `reconcileNewMachineSet`, deployment_rolling.go:126-142 -/
def reconcileNew (d : Dep) (ok : Bool) (all : List MS) (new : MS) : MS × Bool × Bool :=
  if new.spec = d.replicas then (new, false, false)
  else if new.spec > d.replicas then scaleTo ok new d.replicas
  else match newReplicas d all new with
    | none => (new, false, true)
    | some n => scaleTo ok new n

/-- The loop of `cleanupUnhealthyReplicas`, deployment_rolling.go:219-244, after sorting; `ok s` is the outcome of the
update of set `s`. Result: stored sets, total scaled down, error. -/
def cleanupLoop (ok : MS → Bool) (maxC : Int) : List MS → Int → List MS × Int × Bool
  | [], t => ([], t, false)
  | s :: rest, t =>
    if t ≥ maxC then (s :: rest, t, false)
    else if s.spec = 0 ∨ s.spec = s.avail then
      let r := cleanupLoop ok maxC rest t
      (s :: r.1, r.2)
    else
      let c := min (maxC - t) (s.spec - s.avail)
      let n := s.spec - c
      if n > s.spec then (s :: rest, 0, true)
      else
        let (s', _, err) := scaleTo (ok s) s n
        if err then (s :: rest, t, true)
        else
          let r := cleanupLoop ok maxC rest (t + c)
          (s' :: r.1, r.2)

/-- The loop of `scaleDownOldMachineSetsForRollingUpdate`, deployment_rolling.go:266-288, after sorting. -/
def scaleDownLoop (ok : MS → Bool) (total : Int) : List MS → Int → List MS × Int × Bool
  | [], t => ([], t, false)
  | s :: rest, t =>
    if t ≥ total then (s :: rest, t, false)
    else if s.spec = 0 then
      let r := scaleDownLoop ok total rest t
      (s :: r.1, r.2)
    else
      let c := min s.spec (total - t)
      let n := s.spec - c
      if n > s.spec then (s :: rest, 0, true)
      else
        let (s', _, err) := scaleTo (ok s) s n
        if err then (s :: rest, t, true)
        else
          let r := scaleDownLoop ok total rest (t + c)
          (s' :: r.1, r.2)

/-- `scaleDownOldMachineSetsForRollingUpdate`, deployment_rolling.go:250-291. `all` = cleaned old sets plus the new one. -/
def scaleDownOld (d : Dep) (ok : MS → Bool) (srt : List MS → List MS) (all old : List MS) : List MS × Int × Bool :=
  let minA := d.replicas - maxUnavailable d
  let a := availSum all
  if a ≤ minA then (old, 0, false)
  else scaleDownLoop ok (a - minA) (srt old) 0

/-- Outcomes and orders the code leaves to its environment in one rollout step. `srt1`, `srt2` are the results of
`sort.Sort(MachineSetsByCreationTimestamp(..))`. deployment_rolling.go:48-292. -/
structure Env where
  okNew : Bool := true
  okClean : MS → Bool := fun _ => true
  okDown : MS → Bool := fun _ => true
  srt1 : List MS → List MS := id
  srt2 : List MS → List MS := id
  /-- the steps before scaling (revision sync, node annotations) returned no error -/
  preOk : Bool := true

/-- `reconcileOldMachineSets`, deployment_rolling.go:144-210, on the active old sets `old` (spec > 0); `allSpec` is
`allMachinesCount`. Result: stored old sets, whether it reports a scale-down. -/
def reconcileOld (d : Dep) (env : Env) (allSpec : Int) (old : List MS) (new : MS) : List MS × Bool :=
  if specSum old = 0 then (old, false)
  else
    let minA := d.replicas - maxUnavailable d
    let maxDown := allSpec - minA - (new.spec - new.avail)
    if maxDown ≤ 0 then (old, false)
    else
      let (o1, c1, e1) := cleanupLoop env.okClean maxDown (env.srt1 old) 0
      if e1 then (o1, false)
      else
        let (o2, c2, e2) := scaleDownOld d env.okDown env.srt2 (o1 ++ [new]) o1
        if e2 then (o2, false) else (o2, c1 + c2 > 0)

/-- One `rolloutRolling`, deployment_rolling.go:48-124, effect on set sizes. Tainting/annotating nodes, history clean-up
and status are other modules. The old sets are returned in some order. -/
def rolloutStep (d : Dep) (env : Env) (old : List MS) (new : MS) : List MS × MS :=
  if !env.preOk then (old, new)
  else
    let (new', scaled, err) := reconcileNew d env.okNew (old ++ [new]) new
    if err || scaled then (old, new')
    else
      let active := old.filter (fun s => s.spec > 0)
      let inactive := old.filter (fun s => !(s.spec > 0))
      (inactive ++ (reconcileOld d env (specSum (old ++ [new'])) active new').1, new')

/-- Size of a freshly created new machine set, `getNewMachineSet` deployment_sync.go:317-334. -/
def initialNew (d : Dep) (old : List MS) : Option MS :=
  (newReplicas d (old ++ [{ spec := 0 }]) { spec := 0 }).map fun n => { spec := n }

end MCM.Rolling
