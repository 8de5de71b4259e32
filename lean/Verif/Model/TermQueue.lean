import Verif.Model.Types
/-!
Model of the termination queue of the machine controller for one machine name: the handlers `addMachine`, `updateMachine`,
`deleteMachine` and the worker `reconcileClusterMachineTermination` in
/repo/pkg/util/provider/machinecontroller/machine.go:38-134, 240-290.
-/
namespace MCM.TermQueue
open MCM

/-- A machine object of the name: its uid and whether it carries a deletion timestamp; machine.go:38-90 -/
structure Inst where
  uid : Nat
  deleting : Bool
deriving Repr, DecidableEq

/-- All states of the name at the API server so far (the last one is the present), the position the informer's cache has
reached, whether the key is in the termination queue (ready, delayed or being retried), and the machines the worker handed to
`triggerDeletionFlow`. machine.go:38-134, 240-292 -/
structure World where
  hist : List (Option Inst) := [none]
  pos : Nat := 0
  queued : Bool := false
  log : List Inst := []

/-- the object at the API server now; read at machine.go:247-255 through the cache -/
def World.live (w : World) : Option Inst := w.hist.getLast?.join
/-- the object in the informer's cache, machine.go:247-255 -/
def World.cache (w : World) : Option Inst := (w.hist[w.pos]?).join

/-- the handlers: does this change of the cache put the key into the termination queue? `gen`: the generation differs; machine.go:38-90 -/
def enqueues (gen : Bool) : Option Inst → Option Inst → Bool
  | none, none => false
  | none, some n => n.deleting
  | some _, some n => gen && n.deleting
  | some _, none => true

/-- The worker, machine.go:240-290: nothing is done and the key is dropped if the machine is not in the cache. Otherwise the flow
runs (unless the class is invalid) and the key is added again. The deletion timestamp is not looked at. -/
def World.work (w : World) (classOk : Bool) : World :=
  match w.cache with
  | none => { w with queued := false }
  | some i => { w with log := if classOk then i :: w.log else w.log }

/-- One step; `G` says when a machine of this name may be created. machine.go:38-134, 240-292. -/
inductive Step (G : World → Prop) : World → World → Prop
  | create {w : World} (uid : Nat) : G w → w.live = none → Step G w { w with hist := w.hist ++ [some ⟨uid, false⟩] }
  /-- a write that does not request the deletion -/
  | update {w : World} (i : Inst) : w.live = some i → Step G w { w with hist := w.hist ++ [some i] }
  | request {w : World} (i : Inst) : w.live = some i → Step G w { w with hist := w.hist ++ [some { i with deleting := true }] }
  /-- the object goes away (no finalizer is left) -/
  | remove {w : World} (i : Inst) : w.live = some i → Step G w { w with hist := w.hist ++ [none] }
  /-- the informer moves on to a later state: the next one, or after a re-list any later one -/
  | observe {w : World} (gen : Bool) (pos : Nat) : w.pos < pos → pos < w.hist.length →
      Step G w { w with pos := pos, queued := w.queued || enqueues gen w.cache (w.hist[pos]?).join }
  /-- restart of the controller: empty queue, fresh cache -/
  | restart {w : World} : Step G w { w with
      pos := w.hist.length - 1
      queued := enqueues true none w.live }
  | work {w : World} (classOk : Bool) : w.queued = true → Step G w (w.work classOk)

/-- The states reached by steps of machine.go:38-134, 240-292 -/
inductive Reach (G : World → Prop) : World → Prop
  | init : Reach G {}
  | step {w w' : World} : Reach G w → Step G w w' → Reach G w'

end MCM.TermQueue
