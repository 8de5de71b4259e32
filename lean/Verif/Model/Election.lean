/-!
The election of the process that works, among the processes of one program: `leaderelection.RunOrDie` as it is called at
/repo/cmd/machine-controller-manager/app/controllermanager.go:165-198 and /repo/pkg/util/provider/app/app.go:162-195, with the times of
/repo/pkg/util/client/leaderelectionconfig/config.go.

The library (client-go v0.31.0, `tools/leaderelection`) is not part of /repo and is modelled after its `tryAcquireOrRenew` and `renew`; what /repo adds are the identity (the host name,
controllermanager.go:165), the times, which are not checked further, and the end of the process when the lease is lost (193-195).

Simplifications: all clocks run at the same rate (processes compare times of their own clock only). A write takes effect when it is sent; its answer comes later, or not at all.
-/
namespace MCM.Election

/-- `--leader-elect-lease-duration`, `--leader-elect-renew-deadline`, `--leader-elect-retry-period` in seconds, config.go:31-64; `slow`: the longest time until the answer to a write -/
structure Times where
  lease : Nat
  renew : Nat
  retry : Nat
  slow : Nat

/-- config.go:31-37 -/
def defaults (slow : Nat) : Times := { lease := 15, renew := 10, retry := 2, slow }

/-- what `leaderelection.NewLeaderElector` accepts: the lease is longer than the deadline, the deadline longer than 1.2 retry periods, all positive;
called from controllermanager.go:184-196 and app.go:181-193 (client-go v0.31.0, leaderelection.go:77-115) -/
def accepted (t : Times) : Bool := decide (t.renew < t.lease) && decide (12 * t.retry < 10 * t.renew) && decide (0 < t.retry)

/-- the lock object: its holder, its resource version, and when it was written (which nobody reads);
(client-go v0.31.0, resourcelock/interface.go); made at controllermanager.go:172-182 -/
structure Rec where
  holder : String
  ver : Nat
  at_ : Nat
deriving DecidableEq, Repr

/-- a process: host name, version of the lock it has observed last and when it observed it first, the write that is not answered yet (its time and the version it made), whether it leads, and the time of the last answer;
controllermanager.go:165-196 -/
structure Proc where
  id : String
  seen : Option Nat := none
  seenAt : Nat := 0
  flight : Option (Nat × Nat) := none
  leads : Bool := false
  ack : Nat := 0
deriving DecidableEq, Repr

/-- Time, lock object and processes; controllermanager.go:165-198, app.go:162-195 -/
structure S where
  time : Nat
  lock : Option Rec
  procs : Nat → Proc

/-- process `i` becomes `p`; (one of the processes of controllermanager.go:165-198) -/
def S.set (s : S) (i : Nat) (p : Proc) : S := { s with procs := fun j => if j = i then p else s.procs j }

/-- `isLeaseValid` is false or the holder is the process itself: the lock may be written;
(client-go v0.31.0, leaderelection.go, `tryAcquireOrRenew`) -/
def mayWrite (t : Times) (s : S) (p : Proc) (r : Rec) : Bool := r.holder == "" || r.holder == p.id || decide (p.seenAt + t.lease ≤ s.time)

/-- the lock after a write; (client-go v0.31.0, leaderelection.go, `tryAcquireOrRenew`) -/
def S.written (s : S) (p : Proc) : Rec := { holder := p.id, ver := (s.lock.map (·.ver)).getD 0 + 1, at_ := s.time }

/-- A process leads until `renew` after the begin of an attempt to renew, which comes `retry` after the last answer.
(client-go v0.31.0, leaderelection.go, `renew`); then the process ends, controllermanager.go:190-195 -/
def inTime (t : Times) (s : S) (p : Proc) : Prop := (p.leads = true → s.time < p.ack + t.retry + t.renew) ∧ ∀ w, p.flight = some w → s.time < w.1 + t.slow

/-- What the clock, the API server and the processes do: controllermanager.go:184-196 with client-go v0.31.0, leaderelection.go -/
inductive Step (t : Times) : S → S → Prop
  /-- time passes; who has to stop, or to give up waiting, has done so -/
  | tick {s : S} : (∀ i, inTime t s (s.procs i)) → Step t s { s with time := s.time + 1 }
  /-- `Get`: a version that has not been seen before sets the clock of the observer -/
  | observe {s : S} (i : Nat) (r : Rec) : s.lock = some r → (s.procs i).seen ≠ some r.ver → Step t s (s.set i { s.procs i with seen := some r.ver, seenAt := s.time })
  /-- `Create` -/
  | create {s : S} (i : Nat) : s.lock = none → (s.procs i).flight = none → Step t s { s.set i { s.procs i with flight := some (s.time, (s.written (s.procs i)).ver) } with lock := some (s.written (s.procs i)) }
  /-- `Update` of the version observed -/
  | write {s : S} (i : Nat) (r : Rec) : s.lock = some r → (s.procs i).flight = none → (s.procs i).seen = some r.ver → mayWrite t s (s.procs i) r = true →
      Step t s { s.set i { s.procs i with flight := some (s.time, (s.written (s.procs i)).ver) } with lock := some (s.written (s.procs i)) }
  /-- the answer: the process leads -/
  | answer {s : S} (i w ver : Nat) : (s.procs i).flight = some (w, ver) →
      Step t s (s.set i { s.procs i with flight := none, leads := true, ack := s.time, seen := some ver, seenAt := s.time })
  /-- the answer is lost -/
  | lose {s : S} (i : Nat) : Step t s (s.set i { s.procs i with flight := none })
  /-- the process ends, because it could not renew (controllermanager.go:193-195) or for any other reason, and is started again on the same host -/
  | restart {s : S} (i : Nat) : Step t s (s.set i { id := (s.procs i).id })

/-- Any number of steps, controllermanager.go:184-196 -/
inductive Steps (t : Times) : S → S → Prop
  | refl {s : S} : Steps t s s
  | tail {s u v : S} : Steps t s u → Step t u v → Steps t s v

end MCM.Election
