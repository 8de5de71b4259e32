import Verif.Model.Finalizers
/-!
Model of the handlers and queues by which the finalizers of secrets and machine classes are kept up to date:
/repo/pkg/util/provider/machinecontroller/secret.go:23-77, 128-194, machineclass.go:25-96 and 193-199, registered in controller.go:145-166.
-/
namespace MCM.RefWake
open MCM.Finalizers

/-- key of a queue after `SplitMetaNamespaceKey`: no namespace is the empty string; in secret.go:27 and machineclass.go:64 -/
structure Key where
  ns : String
  name : String
deriving DecidableEq, Repr

/-- a reference as key: `secretRef.Namespace + "/" + secretRef.Name`; secret.go:153 -/
def keyOf (r : String × String) : Key := ⟨r.1, r.2⟩

/-- `DeleteFunc` gets the last state seen, or a tombstone around it if the watch missed the deletion;
(client-go cache.DeletedFinalStateUnknown), machineclass.go:40-47 -/
inductive Gone (α : Type)
  | seen (a : α)
  | tombstone (a : α)
deriving DecidableEq, Repr

/-! ### secrets -/

/-- `enqueueSecretForReferences`, secret.go:150-156 -/
def enqueueRefs (l : List (Option (String × String))) : List Key := l.filterMap fun r => r.map keyOf

/-- `enqueueSecretForReferenceIfChanged`, secret.go:158-167 -/
def enqueueIfChanged (old new : Option (String × String)) : List Key := if old = new then [] else enqueueRefs [old, new]

/-- `machineClassToSecretAdd`, secret.go:169-176 -/
def classAdded (c : ClassRefs) : List Key :=
  match c.secretRef with
  | none => []
  | some r => enqueueRefs [some r, c.credentialsRef]

/-- `machineClassToSecretUpdate`, secret.go:178-190 -/
def classUpdated (old new : ClassRefs) : List Key :=
  match old.secretRef, new.secretRef with
  | some a, some b => enqueueIfChanged (some a) (some b) ++ enqueueIfChanged old.credentialsRef new.credentialsRef
  | _, _ => []

/-- `machineClassToSecretDelete`, secret.go:192-194: the object is not unwrapped -/
def classDeleted : Gone ClassRefs → List Key
  | .seen c => classAdded c
  | .tombstone _ => []

/-- `secretAdd` and `secretDelete`, secret.go:129-140; there is no handler for changes of secrets (controller.go:145-148) -/
def secretEvent (k : Key) : List Key := [k]

/-- what the cache says about the secret: an error, absent, present; secret.go:35-44 -/
inductive Cached (α : Type)
  | error
  | absent
  | present (a : α)
deriving DecidableEq, Repr

/-- result of a pass: the edit made, the delay (in seconds) after which the key is put back, and whether an error is returned, upon which the worker puts it back with
a growing delay; worker.go:45-62, secret.go:30-77, machineclass.go:46-96 -/
structure Pass where
  edit : Option Edit := none
  after : Option Nat := none
  err : Bool := false
deriving DecidableEq, Repr

/-- `reconcileClusterSecretKey`, secret.go:25-47, and `reconcileClusterSecret`, secret.go:49-77. `classes` is the list from the cache or its error; `ok`: the update of the
finalizers succeeds. -/
def secretPass (controllerNs : String) (classes : Option (List ClassRefs)) (k : Key) (secret : Cached Obj) (ok : Bool) : Pass :=
  if k.ns ≠ controllerNs then {}
  else
    match secret with
    | .error => { err := true }
    | .absent => {}
    | .present o =>
      match classes with
      | none => { after := some 600, err := true }
      | some cs =>
        match reconcileSecret controllerNs cs k.ns k.name o with
        | none => { after := some 600 }
        | some e => if ok then { edit := some e, after := some 600 } else { after := some 600, err := true }

/-! ### machine classes -/

/-- `machineToMachineClassAdd`, machineclass.go:25-34: the key is the name without a namespace -/
def machineAdded (m : Mach) : List Key := if m.kind = "MachineClass" then [⟨"", m.cls⟩] else []

/-- `machineToMachineClassDelete`, machineclass.go:36-38 -/
def machineDeleted : Gone Mach → List Key
  | .seen m => machineAdded m
  | .tombstone _ => []

/-- there is no handler for changes of machines, controller.go:157-160 -/
def machineUpdated (_old _new : Mach) : List Key := []

/-- `machineClassAdd`, `machineClassUpdate`, `machineClassDelete`, machineclass.go:40-64; tombstones have keys too -/
def classEvent (ns : String) (name : String) : List Key := [⟨ns, name⟩]

/-- `ShortRetry`, /repo/pkg/util/provider/machineutils/utils.go:89, in seconds -/
def shortRetry : Nat := 5
/-- `LongRetry`, /repo/pkg/util/provider/machineutils/utils.go:93, in seconds -/
def longRetry : Nat := 600

/-- `reconcileClusterMachineClassKey`, machineclass.go:68-96: edit, delay, and machines put into their queue. The namespace of the key is ignored. `machines` is the list from
the cache or its error. -/
def classPass (machines : Option (List Mach)) (k : Key) (cls : String → Cached Class) (ok : Bool) : Pass × List String :=
  match cls k.name with
  | .error => ({ err := true }, [])
  | .absent => ({}, [])
  | .present c =>
    match machines with
    | none => ({ after := some shortRetry }, [])
    | some ms =>
      match reconcileClass ms c with
      | .nothing => ({ after := some longRetry }, [])
      | .retry wake => ({ after := some shortRetry }, wake)
      | .edit e wake => if ok then ({ edit := some e, after := some longRetry }, wake) else ({ after := some shortRetry }, [])

end MCM.RefWake
