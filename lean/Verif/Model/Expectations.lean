/-!
Model of /repo/pkg/controller/controller_utils.go, expectations (lines 119-400).
-/
namespace MCM.Expectations

/-- `ControlleeExpectations`, controller_utils.go:268-275; `timestamp` in nanoseconds. -/
structure Exp where
  add : Int
  del : Int
  timestamp : Int
deriving Repr, DecidableEq

/-- `ExpectationsTimeout`, controller_utils.go:63-73 (5 minutes) in nanoseconds -/
def expectationsTimeout : Int := 5 * 60 * 1000000000

/-- The two stores: `ContExpectations.Store` and `UIDTrackingContExpectations.uidStore`, as functions from controller
key. A UID set is a duplicate-free list. Store errors (which the in-memory cache never returns) are not modelled.
controller_utils.go:159-162, 320-331. -/
structure State where
  exps : String → Option Exp
  uids : String → Option (List String)

/-- Nothing expected yet, `NewUIDTrackingContExpectations`, controller_utils.go:391-393 -/
def init : State := ⟨fun _ => none, fun _ => none⟩

/-- Operations; each is atomic (atomic counters, `uidStoreLock`). `now` is the clock reading. controller_utils.go:174-260, 336-389. -/
inductive Op
  | expectCreations (key : String) (n : Int) (now : Int)
  | expectDeletions (key : String) (ds : List String) (now : Int)
  | creationObserved (key : String)
  | deletionObserved (key : String) (d : String)
  | deleteExpectations (key : String)
deriving Repr, DecidableEq

/-- Change of one entry of a store (`cache.Store.Add`, controller_utils.go:220-226, 356-358) -/
def upd {α : Type} (f : String → α) (k : String) (v : α) : String → α := fun x => if x = k then v else f x

/-- `LowerExpectations`, 236-242: only if a record exists. -/
def lower (s : State) (k : String) (add del : Int) : State :=
  match s.exps k with
  | none => s
  | some e => { s with exps := upd s.exps k (some { e with add := e.add - add, del := e.del - del }) }

/-- insertion into a `sets.String`; as `sets.NewString(deletedKeys...)` does, controller_utils.go:352 -/
def insertUid (l : List String) (k : String) : List String := if k ∈ l then l else l ++ [k]

/-- `SetExpectations` 220-224, `ExpectCreations` 227-229, `UIDTracking.ExpectDeletions` 350-366 with
`ContExpectations.ExpectDeletions` 232-234, `CreationObserved` 254-256, `UIDTracking.DeletionObserved` 369-379,
`UIDTracking.DeleteExpectations` 383-393. -/
def step (s : State) : Op → State
  | .expectCreations k n now => { s with exps := upd s.exps k (some ⟨n, 0, now⟩) }
  | .expectDeletions k ds now =>
    let set := ds.foldl insertUid []
    { exps := upd s.exps k (some ⟨0, set.length, now⟩), uids := upd s.uids k (some set) }
  | .creationObserved k => lower s k 1 0
  | .deletionObserved k d =>
    match s.uids k with
    | none => s
    | some u =>
      if d ∈ u then
        let s' := lower s k 0 1
        { s' with uids := upd s'.uids k (some (u.filter (· != d))) }
      else s
  | .deleteExpectations k => { exps := upd s.exps k none, uids := upd s.uids k none }

/-- `Fulfilled` 283-286, `isExpired` 215-217, `SatisfiedExpectations` 187-210 -/
def satisfied (s : State) (k : String) (now : Int) : Bool :=
  match s.exps k with
  | none => true
  | some e => if e.add ≤ 0 ∧ e.del ≤ 0 then true else decide (now - e.timestamp > expectationsTimeout)

/-- The stores after a sequence of operations, controller_utils.go:159-393 -/
def run (ops : List Op) : State := ops.foldl step init

end MCM.Expectations
