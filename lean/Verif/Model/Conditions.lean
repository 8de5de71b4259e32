import Verif.Model.Types
/-!
Model of /repo/pkg/util/nodeops/conditions.go:18-50 and of `nodeConditionsHaveChanged`,
/repo/pkg/util/provider/machinecontroller/machine_util.go:188-220.
-/
namespace MCM.Conditions

/-- `v1.NodeCondition`; (k8s.io/api), as used in nodeops/conditions.go:18-50 and machine_util.go:189-220 -/
structure Cond where
  type : String
  status : String
  reason : String := ""
  message : String := ""
  heartbeat : Int := 0
  transition : Int := 0
deriving DecidableEq, Repr

/-- the loop of `CloneAndAddCondition`, conditions.go:26-36: the conditions copied, and the new condition, whose transition time
may be replaced on the way -/
def addLoop (acc : List Cond) (c : Cond) : List Cond → List Cond × Cond
  | [] => (acc, c)
  | e :: l =>
    if e.type ≠ c.type then addLoop (acc ++ [e]) c l
    else if e.status = c.status ∧ e.reason = c.reason then addLoop acc { c with transition := e.transition } l
    else addLoop acc c l

/-- `CloneAndAddCondition`, conditions.go:19-40 -/
def cloneAndAdd (conds : List Cond) (c : Cond) : List Cond :=
  if c.type = "" ∨ c.status = "" then conds
  else (addLoop [] c conds).1 ++ [(addLoop [] c conds).2]

/-- a Go map built from a list by type: a later entry replaces an earlier one; the maps of machine_util.go:190-200 -/
def byType : List Cond → String → Option Cond
  | [], _ => none
  | c :: l, t => match byType l t with
    | some d => some d
    | none => if c.type = t then some c else none

/-- `addedOrUpdatedConditions`, machine_util.go:206-211 -/
def addedOrUpdated (old new : List Cond) : List Cond := new.filter fun c =>
  match byType old c.type with
  | none => true
  | some o => decide (o.status ≠ c.status)

/-- `removedConditions`, machine_util.go:214-218 -/
def removed (old new : List Cond) : List Cond := old.filter fun c => (byType new c.type).isNone

/-- `nodeConditionsHaveChanged`, machine_util.go:189-220 (third result) -/
def haveChanged (old new : List Cond) : Bool := (addedOrUpdated old new).length ≠ 0 || (removed old new).length ≠ 0

end MCM.Conditions
