import Verif.Model.Types
/-!
Model of /repo/pkg/controller/controller_ref_manager.go and of the patches it sends.
-/
namespace MCM.Claim
open MCM

/-- metav1.OwnerReference, restricted to what decides ownership. The patches are built in controller_ref_manager.go:226-262, 356-390. -/
structure OwnerRef where
  uid : String
  controller : Bool
deriving Repr, DecidableEq, Inhabited

/-- A Machine or MachineSet as the ref manager sees it. controller_ref_manager.go:75-131 (`metav1.Object`). -/
structure Obj where
  name : String
  uid : String
  labels : SMap := []
  deleting : Bool := false
  owners : List OwnerRef := []
deriving Repr, DecidableEq, Inhabited

/-- `metav1.GetControllerOf`: the first owner reference with controller=true. Called at controller_ref_manager.go:76. -/
def controllerOf (o : Obj) : Option String := (o.owners.find? (·.controller)).map (·.uid)

/-- The claiming MachineSet (MachineDeployment), as cached at the start of the reconcile.
`m.Controller` in controller_ref_manager.go:41-49. -/
structure Ctrl where
  uid : String
  deleting : Bool := false
deriving Repr, DecidableEq, Inhabited

/-- The errors told apart in controller_ref_manager.go:93-128 and 242-262. -/
inductive ApiErr | notFound | invalid | other
deriving Repr, DecidableEq, Inhabited

/-- What a claim run does to the outside world, in order. controller_ref_manager.go:51-131, 226-262, 400-412. -/
inductive Eff
  /-- the uncached read of the controller made by `RecheckDeletionTimestamp`, and whether it passed -/
  | recheck (ok : Bool)
  /-- the adoption patch for this object -/
  | adopt (o : Obj)
  /-- the release patch for this object -/
  | release (o : Obj)
deriving Repr, DecidableEq

/-- `CanAdoptFunc`: controller_ref_manager.go:400-411 around the closures of machineset.go:589-604 and
deployment.go:360-369: read the live controller; fail if the read fails, if the UID differs, or if it is being
deleted.  `live` is the answer of the API server (`none` = any error). -/
def canAdoptFunc (self : Ctrl) (live : Option Ctrl) : Bool :=
  match live with
  | none => false
  | some fresh => fresh.uid == self.uid && !fresh.deleting

/-- Result of one `ClaimObject` call; `memo` is the state of `canAdoptOnce` afterwards. controller_ref_manager.go:75-131; `CanAdopt` 51-58. -/
structure Res where
  claimed : Bool
  err : Bool
  effs : List Eff
  memo : Option Bool

/-- `CanAdopt`, controller_ref_manager.go:51-58: evaluated once per manager, the result remembered. -/
def canAdopt (self : Ctrl) (live : Option Ctrl) (memo : Option Bool) : Bool × List Eff :=
  match memo with
  | some b => (b, [])
  | none => (canAdoptFunc self live, [.recheck (canAdoptFunc self live)])

/-- `ClaimObject` with the `adopt`/`release` closures of `ClaimMachines`/`ClaimMachineSets` inlined:
controller_ref_manager.go:75-131, AdoptMachine 226-237, ReleaseMachine 241-269, AdoptMachineSet/ReleaseMachineSet
325-397.  `patchErr` is the API server's answer to the patch for an object. -/
def claimObject (self : Ctrl) (sel : SMap → Bool) (live : Option Ctrl) (patchErr : Obj → Option ApiErr)
    (memo : Option Bool) (o : Obj) : Res :=
  match controllerOf o with
  | some u =>
    if u ≠ self.uid then ⟨false, false, [], memo⟩
    else if sel o.labels then ⟨true, false, [], memo⟩
    else if self.deleting then ⟨false, false, [], memo⟩
    else match patchErr o with
      | none => ⟨false, false, [.release o], memo⟩
      | some .notFound => ⟨false, false, [.release o], memo⟩
      | some .invalid => ⟨false, false, [.release o], memo⟩
      | some .other => ⟨false, true, [.release o], memo⟩
  | none =>
    if self.deleting || !sel o.labels then ⟨false, false, [], memo⟩
    else if o.deleting then ⟨false, false, [], memo⟩
    else
      let (ok, effs) := canAdopt self live memo
      if !ok then ⟨false, true, effs, some ok⟩
      else match patchErr o with
        | none => ⟨true, false, effs ++ [.adopt o], some ok⟩
        | some .notFound => ⟨false, false, effs ++ [.adopt o], some ok⟩
        | some _ => ⟨false, true, effs ++ [.adopt o], some ok⟩

/-- `ClaimMachines` 185-222 / `ClaimMachineSets` (no filters are ever passed by the callers): one pass over the
listed objects; an error does not stop the pass. Result: claimed objects, whether any error occurred, effects. -/
def claimAll (self : Ctrl) (sel : SMap → Bool) (live : Option Ctrl) (patchErr : Obj → Option ApiErr) :
    Option Bool → List Obj → List Obj × Bool × List Eff
  | _, [] => ([], false, [])
  | memo, o :: os =>
    let r := claimObject self sel live patchErr memo o
    let (cs, e, effs) := claimAll self sel live patchErr r.memo os
    ((if r.claimed then o :: cs else cs), r.err || e, r.effs ++ effs)

/-! ## The API server's side -/

/-- Entry of the `ownerReferences` array inside a patch document. The adoption patch (234) and the release patch
(244) carry the same `uid`/`controller:true`; the release patch additionally carries the member
`"$patch":"delete"`. controller_ref_manager.go:234, 244. -/
structure PatchOwner where
  directive : Option String
  ref : OwnerRef
deriving Repr, DecidableEq

/-- AdoptMachine's patch document, 233-236 -/
def adoptDoc (self : Ctrl) : List PatchOwner := [⟨none, ⟨self.uid, true⟩⟩]
/-- ReleaseMachine's patch document, 244-247 -/
def releaseDoc (self : Ctrl) : List PatchOwner := [⟨some "delete", ⟨self.uid, true⟩⟩]

/-- Effect of a patch of type `types.MergePatchType` — the type both `PatchMachine` (controller_utils.go:603) and
`PatchMachineSet` (controller_utils.go:428) use — on `metadata.ownerReferences`: RFC 7396 merge replaces arrays as a
whole, and members that are not part of `OwnerReference` (`$patch`) are dropped when the object is decoded.
(The `$patch` directive is only interpreted by strategic merge patch, which custom resources do not support.) -/
def mergeOwners (_old : List OwnerRef) (doc : List PatchOwner) : List OwnerRef := doc.map (·.ref)

/-- What the same patch would do as a patch of type `types.StrategicMergePatchType`, for comparison (controller_ref_manager.go:242-260): the owner references are merged by `uid`, and an entry with the directive `delete` removes
the one with its `uid` (k8s.io/apimachinery/pkg/util/strategicpatch). The code does not use it. -/
def strategicOwners : List OwnerRef → List PatchOwner → List OwnerRef
  | old, [] => old
  | old, p :: ps =>
    if p.directive = some "delete" then strategicOwners (old.filter fun r => r.uid != p.ref.uid) ps
    else if old.any (fun r => r.uid == p.ref.uid) then strategicOwners (old.map fun r => if r.uid == p.ref.uid then p.ref else r) ps
    else strategicOwners (old ++ [p.ref]) ps

/-- The cluster's stored objects, by name. What the patches of controller_ref_manager.go:226-262 act on. -/
abbrev Store := String → Option Obj

/-- The API server handling one of the two patches for object `(name, uid)`: missing object → NotFound; the document
contains `metadata.uid`, a different live uid → error; otherwise the owner references are merged. API validation
(`ValidateOwnerReferences`: at most one controller) holds for the one-element result.
The requests are sent in controller_ref_manager.go:226-262, 356-390; the server's side is not in /repo. -/
def applyPatch (s : Store) (name uid : String) (doc : List PatchOwner) : Store × Option ApiErr :=
  match s name with
  | none => (s, some .notFound)
  | some o =>
    if o.uid ≠ uid then (s, some .other)
    else (fun n => if n = name then some { o with owners := mergeOwners o.owners doc } else s n, none)

/-- One step of the cluster. Claims: controller_ref_manager.go:75-131; the rest is the environment. -/
inductive Op
  /-- a controller claims one object, deciding on a possibly stale cached `view`; `lost` = the request never
  reaches the API server -/
  | claim (self : Ctrl) (sel : SMap → Bool) (live : Option Ctrl) (view : Obj) (lost : Bool)
  /-- somebody else creates or replaces an object; rejected if it has two controllers -/
  | put (o : Obj)
  /-- an object disappears -/
  | remove (name : String)

/-- the API server's rule for owner references (k8s.io/apimachinery ValidateOwnerReferences), for the patches of controller_ref_manager.go:226-260 -/
def validOwners (l : List OwnerRef) : Bool := (l.filter (·.controller)).length ≤ 1

/-- Patches the effects of a claim run send, applied in order. controller_ref_manager.go:226-262. -/
def applyEffs (self : Ctrl) (s : Store) : List Eff → Store
  | [] => s
  | .recheck _ :: es => applyEffs self s es
  | .adopt o :: es => applyEffs self (applyPatch s o.name o.uid (adoptDoc self)).1 es
  | .release o :: es => applyEffs self (applyPatch s o.name o.uid (releaseDoc self)).1 es

/-- Effect of one step on the store; a claim is controller_ref_manager.go:75-131 for one object -/
def step (s : Store) : Op → Store
  | .claim self sel live view lost =>
    if lost then s
    else applyEffs self s (claimObject self sel live (fun _ => none) none view).effs
  | .put o => if validOwners o.owners then fun n => if n = o.name then some o else s n else s
  | .remove name => fun n => if n = name then none else s n

/-- The store after a sequence of steps (claims, controller_ref_manager.go:75-131, and changes by others) -/
def run (s : Store) (ops : List Op) : Store := ops.foldl step s

end MCM.Claim
