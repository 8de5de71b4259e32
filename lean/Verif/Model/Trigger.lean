import Verif.Model.Types
/-!
Model of the deletion of machines named by an annotation of their deployment: /repo/pkg/util/annotations/annotations.go:75-87 and
/repo/pkg/controller/deployment.go:615-671.
-/
namespace MCM.Trigger

/-- Machine names and annotation values, as lists of characters. annotations.go:75-88. -/
abbrev Str := List Char

/-- `strings.Split(s, ",")`; (Go's library), annotations.go:81 -/
def split : Str → List Str
  | [] => [[]]
  | c :: s =>
    if c = ',' then [] :: split s
    else match split s with
      | [] => [[c]]
      | w :: ws => (c :: w) :: ws

/-- `strings.Join(names, ",")`; (Go's library), annotations.go:87 -/
def join : List Str → Str
  | [] => []
  | [w] => w
  | w :: ws => w ++ ',' :: join ws

/-- `GetMachineNamesTriggeredForDeletion`, annotations.go:77-82; a missing annotation is the empty value -/
def getNames (value : Str) : List Str := if value = [] then [] else split value

/-- `CreateMachinesTriggeredForDeletionAnnotValue`, annotations.go:85-88; `sort` is any function sorting the names -/
def createValue (sort : List Str → List Str) (names : List Str) : Str := join (sort names)

/-- what is looked at of a machine; `priority` says that its annotation machinepriority.machine.sapcloud.io is "1"; deployment.go:615-669 -/
structure Mach where
  name : Str
  deleting : Bool := false
  failed : Bool := false
  priority : Bool := false
  /-- the deployment the machine belongs to; not looked at -/
  deployment : Str := []
deriving DecidableEq, Repr

/-- `IsMachineFailedOrTerminating`, machineutils/utils.go:101-106 -/
def Mach.done (m : Mach) : Bool := m.deleting || m.failed

/-- the write requests; deployment.go:635-665 -/
inductive Action
  | setPriority (name : Str)
  /-- the new value of the annotation; empty: it is removed -/
  | setAnnotation (value : Str)
deriving DecidableEq, Repr

/-- the machine found by the lister; deployment.go:623 -/
def find (cache : List Mach) (n : Str) : Option Mach := cache.find? fun m => m.name = n

/-- the loop, deployment.go:622-650: the requests made, the names to be skipped, and whether it came to its end; `ok i` tells whether
the `i`th update of a machine succeeds -/
def loop (cache : List Mach) (ok : Nat → Bool) : Nat → List Str → List Action × List Str × Bool
  | _, [] => ([], [], true)
  | i, n :: ns =>
    match find cache n with
    | none => let r := loop cache ok i ns; (r.1, n :: r.2.1, r.2.2)
    | some m =>
      if m.done then let r := loop cache ok i ns; (r.1, n :: r.2.1, r.2.2)
      else if m.priority then loop cache ok i ns
      else if ok i then let r := loop cache ok (i + 1) ns; (.setPriority n :: r.1, r.2.1, r.2.2)
      else ([], [], false)

/-- `setMachinePriorityAnnotationAndUpdateTriggeredForDeletion`, deployment.go:615-671: the requests that succeed, and whether all do.
`annOk` tells whether the update of the deployment succeeds. `sets.NewString(..).Delete(..).List()` is the list of the names
without duplicates and without those skipped. -/
def trigger (sort : List Str → List Str) (cache : List Mach) (ok : Nat → Bool) (annOk : Bool) (value : Str) : List Action × Bool :=
  let names := getNames value
  if names = [] then ([], true)
  else
    let r := loop cache ok 0 names
    if ¬ r.2.2 then (r.1, false)
    else if r.2.1 = [] then (r.1, true)
    else
      let rest := names.eraseDups.filter fun n => ¬ r.2.1.contains n
      if annOk then (r.1 ++ [.setAnnotation (createValue sort rest)], true) else (r.1, false)

/-- the state of the API server: machines and the annotation's value; deployment.go:615-669 -/
structure World where
  machines : List Mach
  value : Str
deriving Repr, DecidableEq

/-- the effect of a request; the update of a machine from an old cached version would be refused, so it changes the annotation only;
deployment.go:635-665 -/
def World.apply (w : World) : Action → World
  | .setPriority n => { w with machines := w.machines.map fun m => if m.name = n then { m with priority := true } else m }
  | .setAnnotation v => { w with value := v }

end MCM.Trigger
