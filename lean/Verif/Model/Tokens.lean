import Verif.Model.Lifecycle
/-!
The bootstrap token of a machine during its life: made by the creation flow (/repo/pkg/util/provider/machinecontroller/machine.go:446-465,
userdata.go:41-62, 107-142), handed to the provider with the user data (machine.go:465, 495), deleted when the machine has joined
(machine_util.go:669-678, userdata.go:144-152). It extends `Lifecycle`, whose runs of the machine controller are used as they are.

Simplifications: one machine, whose secret has a name no other machine uses (for names that collide see `C45_shared_false`); a run takes no time, so that the token is made, handed
over and deleted at the time of the run; the machine's name has at least five bytes (`C45_short_name_false`).
-/
namespace MCM.Tokens
open MCM MCM.Lifecycle

/-- A bootstrap token: its secret part and the time until which the API server accepts it, userdata.go:118-126. -/
structure Tok where
  value : String
  expires : Int
deriving DecidableEq, Repr

/-- one second, in nanoseconds (Go's library), userdata.go:122 -/
def second : Int := 1000000000

/-- a time in the format RFC 3339: whole seconds (Go's library), userdata.go:122 -/
def whole (t : Int) : Int := t / second * second

/-- The stored versions of the machine, newest first; the token's secret in the target cluster; the calls of `CreateMachine` so far with their time and the token in the user data, newest
first; the times at which a run entered the creation flow, with the creation timeout then in force (not part of the program); the present time.
machine.go:446-500, userdata.go:107-152. -/
structure S where
  hist : List Obj
  tok : Option Tok := none
  given : List (Int × Tok) := []
  attempts : List (Int × Int) := []
  now : Int := 0

/-- The run gets past the health check and the node syncs, machine.go:209-224. After a machine was marked failed it goes on (with the old version, whose updates are then refused),
machine_util.go:1652-1665. -/
def goesOn (e : Env) (v : Obj) : Bool :=
  !decide (gate e v = true ∧ v.node.getD "" ≠ "" ∧ v.st.phase ≠ .empty) ||
  match Health.check e.c.now (asHealth v) e.node with
  | .recheck => !e.sync
  | .nothing => !e.sync
  | .tryFail => e.mark && !e.sync
  | _ => false

/-- the run gets to `triggerCreationFlow`, machine.go:226-235 -/
def enters (e : Env) (v : Obj) : Bool :=
  gate e v && goesOn e v && (decide (v.pid = "") || decide (v.st.phase = .empty) || decide (v.st.phase = .crashLoopBackOff))

/-- the run calls `CreateMachine`, machine.go:495 -/
def calls (e : Env) (v : Obj) : Bool := goesOn e v && Creation.creates { e.c with health := none } v.toObj

/-- the run asks for the deletion of the token, machine_util.go:669-678 -/
def deletes (e : Env) (v : Obj) : Bool :=
  decide (gate e v = true ∧ v.node.getD "" ≠ "" ∧ v.st.phase ≠ .empty) &&
  match Health.check e.c.now (asHealth v) e.node with
  | .status _ _ d => d
  | _ => false

/-- `getBootstrapTokenOrCreateIfNotExist`, userdata.go:107-142: the token stored, however old, or a new one -/
def fetch (e : Env) (v : Obj) (random : String) (tok : Option Tok) : Tok :=
  tok.getD { value := random, expires := whole (e.c.now + v.creationTimeout) }

/-- How a run ends as far as tokens are concerned: the random text; whether a run that fails to prepare the user data has made the token nevertheless (e.g. the answer is lost); whether
the request to delete the token succeeds, machine_util.go:675-678 (an error is logged); whether the write of the object, if there is one, arrives.
userdata.go:107-152 -/
structure Luck where
  random : String := ""
  made : Bool := false
  deleted : Bool := true
  lands : Bool := true

/-- the token after a run of the machine controller, machine.go:209-235, machine_util.go:669-678 -/
def tokAfter (e : Env) (v : Obj) (l : Luck) (tok : Option Tok) : Option Tok :=
  if deletes e v then if l.deleted then none else tok
  else if enters e v then if e.c.userData || l.made then some (fetch e v l.random tok) else tok
  else tok

/-- A run of the machine controller that has read the version `v`. machine.go:171-238. -/
def S.run (s : S) (e : Env) (v : Obj) (l : Luck) : S :=
  { hist := (if l.lands then (Lifecycle.run e v).toList else []) ++ s.hist
    tok := tokAfter e v l s.tok
    given := (if calls e v then [(e.c.now, fetch e v l.random s.tok)] else []) ++ s.given
    attempts := (if enters e v then [(e.c.now, v.creationTimeout)] else []) ++ s.attempts
    now := e.c.now }

/-- What may happen besides the ordinary. (besides machine.go:171-238) -/
structure Opts where
  /-- runs from outdated caches -/
  stale : Bool := false
  /-- requests to delete the token may fail -/
  refused : Bool := false
  /-- anybody may write anything to the machine, and the provider may give empty names and ids -/
  wild : Bool := false

/-- Writers other than the machine controller. A machine being deleted: the termination and the machine set controller, machine.go:240-292, machineset.go:665-711. Then the request to
delete it, the safety controller (machine_safety.go:72-96), and changes that leave the status, the node label, the priority and the provider id alone. -/
inductive Foreign (opts : Opts) : Obj → Obj → Prop
  | dying {cur new : Obj} : cur.deleting = true → new.deleting = true → Foreign opts cur new
  | delete {cur : Obj} : Foreign opts cur { cur with deleting := true }
  | reset {cur : Obj} (now : Int) : cur.st.phase = .unknown →
      Foreign opts cur { cur with st := { cur.st with
        desc := "Machine Health Timeout was reset due to APIServer being unreachable", errorCode := "", state := "Successful",
        opType := "HealthCheck", opTime := now, phase := .running, timeoutActive := false, phaseTime := now } }
  | edit {cur new : Obj} : new.st = cur.st → new.deleting = cur.deleting → new.created = cur.created → new.node = cur.node → new.pid = cur.pid → new.prio = cur.prio →
      Foreign opts cur new
  | wild {cur new : Obj} : opts.wild = true → Foreign opts cur new

/-- One step. machine.go:171-292, machine_safety.go:72-96, machineset.go:665-711. -/
inductive Step (opts : Opts) : S → S → Prop
  /-- a run of the machine controller; its write is accepted only if it has read the stored version -/
  | run {s : S} (e : Env) (v : Obj) (l : Luck) : s.now ≤ e.c.now → v ∈ s.hist → (opts.stale = false ∨ l.lands = true → s.hist.head? = some v) → (opts.refused = false → l.deleted = true) →
      (opts.wild = false → Proper e.c) → Step opts s (s.run e v l)
  /-- a write by somebody else -/
  | write {s : S} {cur new : Obj} {old : List Obj} : s.hist = cur :: old → Foreign opts cur new → Step opts s { s with hist := new :: s.hist }
  /-- time passes -/
  | wait {s : S} (t : Int) : s.now ≤ t → Step opts s { s with now := t }
  /-- the cluster removes an expired token (kube-controller-manager's token cleaner) -/
  | clean {s : S} {t : Tok} : s.tok = some t → t.expires ≤ s.now → Step opts s { s with tok := none }

/-- The states reached from a new machine that has no token, controller_utils.go:535-567 -/
inductive Reach (opts : Opts) : S → Prop
  | new {o : Obj} (now : Int) : New o → Reach opts { hist := [o], now := now }
  | step {s s' : S} : Reach opts s → Step opts s s' → Reach opts s'

end MCM.Tokens
