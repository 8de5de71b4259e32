import Verif.Model.Template
/-!
Model of revision numbers: /repo/pkg/controller/deployment_util.go:234-551 and the revision part of `getNewMachineSet`,
/repo/pkg/controller/deployment_sync.go:235-400.
-/
namespace MCM.Revision
open MCM MCM.Template

/-- `RevisionAnnotation`, `RevisionHistoryAnnotation`, deployment_util.go:99-102 -/
def revKey : String := "deployment.kubernetes.io/revision"
/-- `RevisionHistoryAnnotation`, deployment_util.go:101-102 -/
def histKey : String := "deployment.kubernetes.io/revision-history"

/-- `annotationsToSkip`, deployment_util.go:452-461 -/
def skipped (k : String) : Bool :=
  ["kubectl.kubernetes.io/last-applied-configuration", revKey, histKey, "deployment.kubernetes.io/desired-replicas",
    "deployment.kubernetes.io/max-replicas", "deployment.machine.sapcloud.io/prefer-no-schedule", "safety.machine.sapcloud.io/unfreeze"].contains k

/-- `Revision`, deployment_util.go:280-292 (`none` = parse error) -/
def revision (ann : SMap) : Option Int := if ann.has revKey then atoi (ann.get revKey) else some 0

/-- `MaxRevision`, deployment_util.go:249-261 -/
def maxRevision : List SMap → Int → Int
  | [], m => m
  | a :: rest, m =>
    match revision a with
    | none => maxRevision rest m
    | some v => maxRevision rest (if v > m then v else m)

/-- `LastRevision`, deployment_util.go:264-278, with the running values of `max` and `secMax` -/
def lastRevision : List SMap → Int → Int → Int
  | [], _, sec => sec
  | a :: rest, mx, sec =>
    match revision a with
    | none => lastRevision rest mx sec
    | some v => if v ≥ mx then lastRevision rest v mx else if v > sec then lastRevision rest mx v else lastRevision rest mx sec

/-- int64 addition wraps around; (at deployment_sync.go:241) -/
def wrap64 (x : Int) : Int := (x + 2^63) % 2^64 - 2^63

/-- `strconv.FormatInt(maxOldRevision+1, 10)`, deployment_sync.go:238-241 -/
def newRevisionText (old : List SMap) : String := toString (wrap64 (maxRevision old 0 + 1))

/-- `copyMachineDeploymentAnnotationsToMachineSet`, deployment_util.go:474-491: one iteration per deployment annotation.
Result: annotations, changed. -/
def copyAnnotations : SMap → SMap → Bool → SMap × Bool
  | [], ann, ch => (ann, ch)
  | (k, v) :: rest, ann, ch =>
    if skipped k || ann.get k == v then copyAnnotations rest ann ch else copyAnnotations rest (ann.set k v) true

/-- The history annotation after recording `old`, deployment_util.go:331-338: `strings.Split`/`Join` at commas leave the text as it
is; only an empty first element makes the history start anew. -/
def recordHistory (hist old : String) : String :=
  match hist.toList with
  | [] => old
  | c :: _ => if c = ',' then old else hist ++ "," ++ old

/-- The part shared by `SetNewMachineSetAnnotations`, `SetNewMachineSetNodeTemplate` and `SetNewMachineSetConfig`,
deployment_util.go:299-338, 350-388, 400-438. `changed` is the result of the copying step before it.
Result: annotations, changed. -/
def bumpRevision (newRev : String) (ann : SMap) (changed : Bool) : SMap × Bool :=
  let oldRev := ann.get revKey
  let had := ann.has revKey
  match (if oldRev == "" then some 0 else atoi oldRev), atoi newRev with
  | some o, some n =>
    let ann1 := if o < n then ann.set revKey newRev else ann
    let ch := changed || decide (o < n)
    (if had && ch then ann1.set histKey (recordHistory (ann1.get histKey) oldRev) else ann1, ch)
  | _, _ => (ann, false)

/-- What else differs between the deployment and its current machine set. deployment_sync.go:249-290 -/
structure Diff where
  minReady : Bool := false
  nodeTemplate : Bool := false
  config : Bool := false
  classKind : Bool := false

/-- The annotations of the updated copy and whether the copy is written, deployment_sync.go:247-262. -/
def synced (depAnn : SMap) (df : Diff) (newRev : String) (ann : SMap) : SMap × Bool :=
  let c := copyAnnotations depAnn ann false
  let a1 := bumpRevision newRev c.1 c.2
  let a2 := bumpRevision newRev a1.1 df.nodeTemplate
  let a3 := bumpRevision newRev a2.1 df.config
  (a3.1, a1.2 || df.minReady || a2.2 || a3.2 || df.classKind)

/-- Stored annotations of the existing current machine set after `getNewMachineSet`, deployment_sync.go:246-263; `ok` is the outcome of
the Update call. -/
def syncExisting (depAnn : SMap) (df : Diff) (old : List SMap) (ok : Bool) (ann : SMap) : SMap :=
  let r := synced depAnn df (newRevisionText old) ann
  if r.2 && ok then r.1 else ann

/-- Annotations of a machine set created for a new template, deployment_sync.go:300-329 (replica annotations, which use other keys, are
in `Scale`). -/
def createdAnnotations (depAnn : SMap) (old : List SMap) : SMap :=
  let c := copyAnnotations depAnn [] false
  (bumpRevision (newRevisionText old) c.1 c.2).1

/-- `SetMachineDeploymentAnnotationsTo`, deployment_util.go:534-551 -/
def annotationsFromSet (depAnn setAnn : SMap) : SMap :=
  setAnn.foldl (fun acc e => if skipped e.1 then acc else acc.set e.1 e.2) (depAnn.filter fun e => skipped e.1)

end MCM.Revision
