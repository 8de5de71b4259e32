/-!
Model of the permit giver: /repo/pkg/util/permits/permits.go:25-177, used by
/repo/pkg/util/provider/machinecontroller/machine_util.go:756, 1640-1642 with one permit per machine deployment.

The threads are not modelled individually: `waiting` and `holding` list, for each thread inside `TryPermit` or between a successful
`TryPermit` and its `ReleasePermit`, the key and the channel loaded. `ReleasePermit` is one step. Steps of different threads and of the
janitor interleave freely. `DeletePermits` is not called by any other code and is left out.
-/
namespace MCM.Permits

/-- a buffered channel, permits.go:25-28; `used` is its length -/
structure Chan where
  cap : Nat
  used : Nat := 0
  closed : Bool := false
deriving Repr

/-- The value stored in the map, a struct `permit`, not a pointer to it: the assignment of `lastAcquiredPermitTime` in permits.go:100
changes a copy, so `time` stays the time of the registration. -/
structure Entry where
  chan : Nat
  time : Int
deriving DecidableEq, Repr

/-- The threads, the map and the channels of permits.go:25-52. -/
structure State where
  map : String → Option Entry := fun _ => none
  chans : Nat → Chan := fun _ => { cap := 0 }
  /-- channels created so far -/
  next : Nat := 0
  waiting : List (String × Nat) := []
  holding : List (String × Nat) := []
  /-- keys the janitor has found stale but not deleted yet -/
  doomed : Option String := none
  /-- when a permit for the key was last acquired; not part of the program -/
  lastUse : String → Int := fun _ => 0
  /-- a thread has panicked -/
  panic : Bool := false

/-- `sync.Map.Store`/`Delete`, permits.go:62-70, 158-167 -/
def setMap (f : String → Option Entry) (k : String) (e : Option Entry) : String → Option Entry := fun x => if x = k then e else f x
/-- The channel of one entry, permits.go:96-121 -/
def setChan (f : Nat → Chan) (i : Nat) (c : Chan) : Nat → Chan := fun x => if x = i then c else f x

/-- `RegisterPermits`, permits.go:57-71 -/
def State.register (s : State) (k : String) (n : Nat) (now : Int) : State :=
  match s.map k with
  | some _ => s
  | none => { s with map := setMap s.map k (some { chan := s.next, time := now }), chans := setChan s.chans s.next { cap := n }, next := s.next + 1 }

/-- `ReleasePermit`, permits.go:111-126, by a thread that holds channel `c`: the channel in the map is emptied by one -/
def State.release (s : State) (k : String) (c : Nat) : State :=
  let s := { s with holding := s.holding.erase (k, c) }
  match s.map k with
  | none => s
  | some e => if (s.chans e.chan).used = 0 then s else { s with chans := setChan s.chans e.chan { s.chans e.chan with used := (s.chans e.chan).used - 1 } }

/-- the test in permits.go:161-162; also `pg.cleanupStalePermitEntries` is the only user of the time -/
def State.stale (s : State) (timeout : Int) (k : String) (now : Int) : Bool :=
  match s.map k with
  | none => false
  | some e => decide (now - timeout - e.time > 0) && (s.chans e.chan).used == 0

/-- permits.go:57-167 -/
inductive Step (timeout : Int) (n : Nat) : State → State → Prop
  | register {s : State} (k : String) (now : Int) : Step timeout n s (s.register k n now)
  /-- `TryPermit`, permits.go:85-94 -/
  | load {s : State} (k : String) (e : Entry) : s.map k = some e → Step timeout n s { s with waiting := (k, e.chan) :: s.waiting }
  /-- permits.go:99-101 -/
  | acquire {s : State} (k : String) (c : Nat) (now : Int) : (k, c) ∈ s.waiting → (s.chans c).closed = false → (s.chans c).used < (s.chans c).cap →
      Step timeout n s { s with waiting := s.waiting.erase (k, c), holding := (k, c) :: s.holding, chans := setChan s.chans c { s.chans c with used := (s.chans c).used + 1 }, lastUse := fun x => if x = k then now else s.lastUse x }
  /-- sending to a closed channel panics -/
  | panic {s : State} (k : String) (c : Nat) : (k, c) ∈ s.waiting → (s.chans c).closed = true → Step timeout n s { s with panic := true }
  /-- permits.go:102-106 -/
  | giveUp {s : State} (k : String) (c : Nat) : (k, c) ∈ s.waiting → Step timeout n s { s with waiting := s.waiting.erase (k, c) }
  | release {s : State} (k : String) (c : Nat) : (k, c) ∈ s.holding → Step timeout n s (s.release k c)
  /-- `cleanupStalePermitEntries`, permits.go:158-167: the test … -/
  | check {s : State} (k : String) (now : Int) : s.stale timeout k now = true → Step timeout n s { s with doomed := some k }
  /-- … and the deletion -/
  | delete {s : State} (k : String) : s.doomed = some k → Step timeout n s { s with map := setMap s.map k none, doomed := none }
  /-- `Close`, permits.go:169-177: all channels in the map are closed -/
  | close {s : State} : Step timeout n s { s with chans := fun i => { s.chans i with closed := true } }

/-- States reached from the start by steps that satisfy a condition. Steps of permits.go:57-167. -/
inductive Reach (timeout : Int) (n : Nat) (ok : State → State → Prop) : State → Prop
  | start : Reach timeout n ok {}
  | step {s s' : State} : Reach timeout n ok s → Step timeout n s s' → ok s s' → Reach timeout n ok s'

end MCM.Permits
