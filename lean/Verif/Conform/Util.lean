import Verif.Model.Taints
import Verif.Model.UserData
import Verif.Model.Validation
import Verif.Model.Finalizers
import Verif.Model.Permits
/-!
Tests, not proofs: cases of the project's own unit tests of taints, user data, validation, finalizers and permits evaluated in the model
(/repo/pkg/util/taints/taints_test.go, /repo/pkg/util/permits/permits_test.go,
/repo/pkg/apis/machine/validation/machinedeployment_test.go,
/repo/pkg/util/provider/machinecontroller/{userdata_test.go, machineclass_test.go, secret_test.go, machine_util_test.go}).
-/
namespace MCM.Conform.Util
open MCM

/-! ## Taints -/
section taints
open MCM.Taints

/-- texts parsed, taints_test.go:36-61; the validity of names is not in question -/
def parsed (s : String) : Option (List (String × String × String)) :=
  match Taints.set (fun _ => true) (fun _ => true) s.toList with
  | .ok l => some (l.map fun t => (String.ofList t.key, String.ofList t.value, String.ofList t.effect))
  | _ => none

example : parsed "foo=bar:NoSchedule" = some [("foo", "bar", "NoSchedule")] := by decide +kernel
example : parsed "foo=bar:NoSchedule,bing=bang:PreferNoSchedule" = some [("foo", "bar", "NoSchedule"), ("bing", "bang", "PreferNoSchedule")] := by
  decide +kernel
example : parsed "dedicated-for=user1:NoExecute" = some [("dedicated-for", "user1", "NoExecute")] := by decide +kernel

-- taints_test.go:87-127
example : addOrUpdate [] { key := "foo", value := "bar", effect := "NoSchedule" } = ([{ key := "foo", value := "bar", effect := "NoSchedule" }], true) := by
  decide
example : addOrUpdate [{ key := "foo", value := "bar", effect := "NoSchedule" }] { key := "foo", value := "bar_1", effect := "NoSchedule" } =
    ([{ key := "foo", value := "bar_1", effect := "NoSchedule" }], true) := by decide
example : addOrUpdate [{ key := "foo", value := "bar_1", effect := "NoSchedule" }] { key := "foo", value := "bar_1", effect := "NoSchedule" } =
    ([{ key := "foo", value := "bar_1", effect := "NoSchedule" }], false) := by decide
end taints

/-! ## User data -/
section userData
open MCM.UserData

example : replaceAll tokenPlaceholder "abcdef.0123456789".toList "token: <<BOOTSTRAP_TOKEN>>, end".toList = "token: abcdef.0123456789, end".toList := by
  decide +kernel
example : userData "abcdef.0123456789".toList "machine-0".toList "<<MACHINE_NAME>>: <<BOOTSTRAP_TOKEN>>".toList = "machine-0: abcdef.0123456789".toList := by
  decide +kernel
example : userData "abcdef.0123456789".toList "machine-0".toList "%3C%3CMACHINE_NAME%3E%3E".toList = "machine-0".toList := by decide +kernel
-- no placeholder: nothing is changed
example : userData "abcdef.0123456789".toList "machine-0".toList "no placeholder".toList = "no placeholder".toList := by decide +kernel
end userData

/-! ## Validation of machine deployments, machinedeployment_test.go -/
section validation
open MCM.Validation

/-- the deployment of the tests -/
def dep (s : Strategy) (kind name : String := "x") (labels : SMap := [("foo", "bar")]) : DeploymentSpec :=
  { replicas := 3, strategy := s, selector := some { labels := [("foo", "bar")] }, templateLabels := labels, cls := { kind, name } }

/-- maxUnavailable and maxSurge are 1 -/
def ones : UpdateConfig := { maxUnavailable := some (.int 1), maxSurge := some (.int 1) }

/-- a valid rolling update -/
def roll : Strategy := { type := "RollingUpdate", rolling := some ones }

example : validateDeployment (dep roll) = .accepted := by decide +kernel
example : validateDeployment (dep roll (labels := [("foo", "baz")])) = .rejected := by decide +kernel
example : validateDeployment (dep roll (kind := "")) = .rejected := by decide +kernel
example : validateDeployment (dep roll (name := "")) = .rejected := by decide +kernel
example : validateDeployment (dep { roll with type := "invalid" }) = .rejected := by decide +kernel
example : validateDeployment (dep { type := "RollingUpdate", rolling := some { ones with maxUnavailable := none } }) = .rejected := by decide +kernel
example : validateDeployment (dep { type := "RollingUpdate", rolling := some { ones with maxSurge := none } }) = .rejected := by decide +kernel
example : validateDeployment (dep { type := "RollingUpdate" }) = .rejected := by decide +kernel
example : validateDeployment (dep { type := "InPlaceUpdate", inPlace := some (ones, "Auto") }) = .accepted := by decide +kernel
example : validateDeployment (dep { type := "InPlaceUpdate", inPlace := some ({ ones with maxUnavailable := none }, "Auto") }) = .rejected := by decide +kernel
example : validateDeployment (dep { type := "InPlaceUpdate", inPlace := some ({ ones with maxSurge := none }, "Auto") }) = .rejected := by decide +kernel
example : validateDeployment (dep { type := "InPlaceUpdate", inPlace := some (ones, "invalid") }) = .rejected := by decide +kernel
end validation

/-! ## Finalizers of classes and secrets, machineclass_test.go, secret_test.go; node templates, machine_util_test.go:1979-2085 -/
section finalizers
open MCM.Finalizers

/-- the class of the tests -/
def cls (fins : List String) (deleting : Bool := false) : Class := { name := "c", deleting, obj := { version := 1, finalizers := fins } }

/-- a machine that uses it -/
def user : Mach := { name := "m", cls := "c" }

example : reconcileClass [user] (cls []) = .edit .add ["m"] := by decide
example : reconcileClass [] (cls []) = .nothing := by decide
example : reconcileClass [user] (cls [mcmFinalizer]) = .nothing := by decide
example : reconcileClass [user] (cls [mcmFinalizer] true) = .retry ["m"] := by decide
example : reconcileClass [] (cls [mcmFinalizer] true) = .edit .remove [] := by decide
example : (editLatest mcmFinalizer .add { version := 1, finalizers := [] } { version := 1, finalizers := [] } true).finalizers = [mcmFinalizer] := by decide
example : (editLatest mcmFinalizer .remove { version := 1, finalizers := [mcmFinalizer] } { version := 1, finalizers := [mcmFinalizer] } true).finalizers = [] := by
  decide

-- secrets
example : (editLatest mcFinalizer .add { version := 1, finalizers := [] } { version := 1, finalizers := [] } true).finalizers = [mcFinalizer] := by decide
example : (editLatest mcFinalizer .remove { version := 1, finalizers := [mcFinalizer] } { version := 1, finalizers := [mcFinalizer] } true).finalizers = [] := by
  decide
example : (editLatest mcFinalizer .remove { version := 1, finalizers := [mcmFinalizer] } { version := 1, finalizers := [mcmFinalizer] } true).finalizers =
    [mcmFinalizer] := by decide

-- node templates
example : templateValid (some { capacity := ["cpu", "gpu", "memory"], region := "test-region", zone := "test-zone", instanceType := "test-instance-type" }) = true := by
  decide
example : templateValid (some { capacity := ["gpu", "memory"], region := "test-region", zone := "test-zone", instanceType := "test-instance-type" }) = false := by
  decide
example : templateValid (some { capacity := ["cpu", "gpu", "memory"], region := "", zone := "test-zone", instanceType := "test-instance-type" }) = false := by
  decide
end finalizers

/-! ## Permits, permits_test.go -/
section permits
open MCM.Permits

/-- after the registration of a key -/
def reg : State := ({} : State).register "key1" 1 0

example : (({} : State).map "key1").isSome = false := by decide
example : (reg.map "key1").isSome = true := by decide
-- a second registration changes nothing
example : ((reg.register "key1" 2 1).map "key1").map (fun e => ((reg.register "key1" 2 1).chans e.chan).cap) = some 1 := by decide

/-- a permit is held -/
def held : State := { reg with holding := [("key1", 0)], chans := setChan reg.chans 0 { reg.chans 0 with used := 1 }, lastUse := fun x => if x = "key1" then 1 else 0 }

-- reached by the steps of `TryPermit`
example : Reach 5 1 (fun _ _ => True) held := by
  have h1 : Reach 5 1 (fun _ _ => True) reg := .step .start (.register "key1" 0) trivial
  have h2 := Reach.step h1 (Step.load "key1" { chan := 0, time := 0 } rfl) trivial
  have h3 := Reach.step h2 (Step.acquire "key1" 0 1 (by decide) (by decide) (by decide)) trivial
  exact h3
example : (held.release "key1" 0).holding = [] ∧ ((held.release "key1" 0).chans 0).used = 0 := by decide
-- the janitor: unused for more than five seconds, and not
example : (held.release "key1" 0).stale 5 "key1" 7 = true := by decide
example : (held.release "key1" 0).stale 5 "key1" 4 = false := by decide
end permits

end MCM.Conform.Util
