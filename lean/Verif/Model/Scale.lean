import Verif.Model.Rolling
/-!
Model of scaling a MachineDeployment outside of a rollout step: `scale` and its helpers,
/repo/pkg/controller/deployment_sync.go:402-565, with /repo/pkg/controller/deployment_util.go:555-700, and
`isScalingEvent` (deployment_sync.go:673-698).
-/
namespace MCM.Scale
open MCM MCM.Rolling

/-- A MachineSet: size, availability and the two bookkeeping annotations. deployment_util.go:91-102, 578-616. -/
structure MSet where
  name : String
  spec : Int
  avail : Int := 0
  /-- annotation `deployment.kubernetes.io/desired-replicas` -/
  desired : Option String := none
  /-- annotation `deployment.kubernetes.io/max-replicas` -/
  maxR : Option String := none
  creation : Int := 0
deriving Repr, DecidableEq

/-- `Spec.Replicas` summed, deployment_util.go:959-967 -/
def total (l : List MSet) : Int := (l.map (·.spec)).sum

/-- `FilterActiveMachineSets`, controller_utils.go:847-852 -/
def active (l : List MSet) : List MSet := l.filter fun s => s.spec > 0

/-- the values `SetReplicasAnnotations` writes, deployment_util.go:600-618 (`fmt.Sprintf("%d", ..)`) -/
def desiredText (d : Dep) : String := toString d.replicas
/-- The value of deployment.kubernetes.io/max-replicas, deployment_util.go:609-613 -/
def maxText (d : Dep) : String := toString (d.replicas + maxSurge d)

/-- `scaleMachineSet`, deployment_sync.go:546-565: writes when the size or an annotation differs (one Update call with
outcome `ok`). Result: stored set, error. A missing annotation reads as the empty string, which never equals a number. -/
def scaleSet (d : Dep) (ok : Bool) (s : MSet) (n : Int) : MSet × Bool :=
  if s.spec ≠ n ∨ s.desired ≠ some (desiredText d) ∨ s.maxR ≠ some (maxText d) then
    if ok then ({ s with spec := n, desired := some (desiredText d), maxR := some (maxText d) }, false) else (s, true)
  else (s, false)

/-- `scaleMachineSetAndRecordEvent`, deployment_sync.go:530-544 -/
def scaleSetEv (d : Dep) (ok : Bool) (s : MSet) (n : Int) : MSet × Bool :=
  if s.spec = n then (s, false) else scaleSet d ok s n

/-- `integer.RoundToInt32` of the quotient `x / y` (half away from zero), exact arithmetic instead of float64 and without
int32 overflow of the product: the same for 32-bit products, `C124_share`. Division by zero gives ±Inf/NaN whose conversion is unspecified: `junk`. deployment_util.go:677-700 -/
def roundDiv (junk x y : Int) : Int :=
  let r (x y : Int) : Int := if x ≥ 0 then (2 * x + y) / (2 * y) else -((2 * (-x) + y) / (2 * y))
  if y = 0 then junk else if y > 0 then r x y else r (-x) (-y)

/-- `getMachineSetFraction`, deployment_util.go:677-699; `statusReplicas` is the deployment's `Status.Replicas`. -/
def fraction (d : Dep) (statusReplicas junk : Int) (s : MSet) : Int :=
  if d.replicas = 0 then -s.spec
  else
    let annotated := (s.maxR.bind atoi).getD statusReplicas
    roundDiv junk (s.spec * (d.replicas + maxSurge d)) annotated - s.spec

/-- `GetProportion`, deployment_util.go:654-673 -/
def proportion (d : Dep) (statusReplicas junk : Int) (s : MSet) (toAdd added : Int) : Int :=
  if s.spec = 0 ∨ toAdd = 0 ∨ toAdd = added then 0
  else
    let f := fraction d statusReplicas junk s
    let allowed := toAdd - added
    if toAdd > 0 then min f allowed else max f allowed

/-- `scaleMachineSetsProportionally`, deployment_sync.go:506-528: new sizes in list order, replicas added. The map keyed by
name is a list here (names are unique in a namespace). -/
def proportional (d : Dep) (statusReplicas junk toAdd : Int) : List MSet → Int → List (MSet × Int) × Int
  | [], added => ([], added)
  | s :: rest, added =>
    let p := if toAdd ≠ 0 then proportion d statusReplicas junk s toAdd added else 0
    let r := proportional d statusReplicas junk toAdd rest (added + p)
    ((s, s.spec + p) :: r.1, r.2)

/-- `scaleNewMachineSet`, deployment_sync.go:491-504 -/
def upSizes (newName : Option String) (toAdd : Int) (l : List MSet) : List (MSet × Int) :=
  l.map fun s => (s, if some s.name = newName then s.spec + toAdd else s.spec)

/-- the leftover goes to the first set, deployment_sync.go:468-477 -/
def addLeftover (toAdd added : Int) : List (MSet × Int) → List (MSet × Int)
  | [] => []
  | (s, n) :: rest =>
    if toAdd ≠ 0 then
      let n' := n + (toAdd - added)
      (s, if n' < 0 then 0 else n') :: rest
    else (s, n) :: rest

/-- the update loop, deployment_sync.go:464-486: stops at the first failing call -/
def writeAll (d : Dep) (ok : MSet → Bool) : List (MSet × Int) → List MSet × Bool
  | [] => ([], false)
  | (s, n) :: rest =>
    let r := scaleSet d (ok s) s n
    if r.2 then (r.1 :: rest.map (·.1), true)
    else
      let q := writeAll d ok rest
      (r.1 :: q.1, q.2)

/-- `IsSaturated`, deployment_util.go:1117-1131 -/
def isSaturated (d : Dep) (s : Option MSet) : Bool :=
  match s with
  | none => false
  | some s =>
    match (s.desired.getD "" |> atoi) with
    | none => false
    | some v => s.spec == d.replicas && v == d.replicas && s.avail == d.replicas

/-- environment of one call: API outcomes, sort results, `Status.Replicas`, unspecified float conversion; deployment_sync.go:402-565 -/
structure Env where
  ok : MSet → Bool := fun _ => true
  /-- result of sorting by creation time, newest first -/
  srtNewest : List MSet → List MSet := id
  /-- result of `sort.Sort(MachineSetsBySizeOlder(..))` -/
  srtSize : List MSet → List MSet := id
  statusReplicas : Int := 0
  junk : Int := 0

/-- `FindActiveOrLatest`, deployment_util.go:555-575 -/
def findActiveOrLatest (env : Env) (old : List MSet) (new : Option MSet) : Option MSet :=
  match active (env.srtNewest old ++ new.toList) with
  | [] => match new with
    | some n => some n
    | none => (env.srtNewest old).head?
  | [s] => some s
  | _ => none

/-- replace the set with the given name;
The pointers in the slices at deployment_sync.go:470-492 denote the same objects; here they are replaced by name -/
def replaceSet (l : List MSet) (s : MSet) : List MSet := l.map fun x => if x.name = s.name then s else x

/-- scale the given sets to zero one after the other, stop at the first error (deployment_sync.go:423-427) -/
def zeroAll (d : Dep) (ok : MSet → Bool) : List MSet → List MSet × Bool
  | [] => ([], false)
  | s :: rest =>
    let r := scaleSetEv d (ok s) s 0
    if r.2 then (r.1 :: rest, true)
    else
      let q := zeroAll d ok rest
      (r.1 :: q.1, q.2)

/-- size the whole deployment may have while rolling, deployment_sync.go:440-443 -/
def allowedSize (d : Dep) : Int := if d.replicas > 0 then d.replicas + maxSurge d else 0

/-- `scale`, deployment_sync.go:402-489. Result: all machine sets (old and new, in some order) and the error flag. -/
def scale (d : Dep) (env : Env) (old : List MSet) (new : Option MSet) : List MSet × Bool :=
  let all := old ++ new.toList
  match findActiveOrLatest env old new with
  | some s =>
    let r := if s.spec = d.replicas then scaleSet d (env.ok s) s d.replicas else scaleSetEv d (env.ok s) s d.replicas
    (replaceSet all r.1, r.2)
  | none =>
    if isSaturated d new then
      let r := zeroAll d env.ok (active old)
      ((old.filter fun s => !(s.spec > 0)) ++ r.1 ++ new.toList, r.2)
    else if d.strategy = .rolling then
      let act := active all
      let toAdd := allowedSize d - total act
      let inactive := all.filter fun s => !(s.spec > 0)
      if toAdd ≥ 0 then
        let sizes := upSizes (new.map (·.name)) toAdd act
        let r := writeAll d env.ok (addLeftover toAdd toAdd sizes)
        (inactive ++ r.1, r.2)
      else
        let p := proportional d env.statusReplicas env.junk toAdd (env.srtSize act) 0
        let r := writeAll d env.ok (addLeftover toAdd p.2 p.1)
        (inactive ++ r.1, r.2)
    else (all, false)

/-- `isScalingEvent`, deployment_sync.go:673-698 -/
def isScalingEvent (d : Dep) (old : List MSet) (new : Option MSet) : Bool :=
  match new with
  | none => false
  | some n =>
    let act := active (old ++ [n])
    if act.length = 0 ∧ d.replicas > 0 then true
    else act.any fun s =>
      match s.desired.bind atoi with
      | none => false
      | some v => v != d.replicas

end MCM.Scale
