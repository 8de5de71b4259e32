import Verif.Model.Worker
/-!
Model of the safety loop that stops the machine controller while an API server cannot be reached:
/repo/pkg/util/provider/machinecontroller/machine_safety.go:53-151. The flag it maintains is the one read by
`reconcileClusterMachine` (machine.go, `MachineControllerFrozen`; module Creation).
-/
namespace MCM.ApiFreeze

/-- answer to the request for an object that does not exist, machine_safety.go:131-149 -/
inductive Answer
  | ok | notFound | error
deriving DecidableEq, Repr

/-- `isAPIServerUp`, machine_safety.go:131-151 -/
def isUp (control target : Answer) : Bool := control ≠ .error && target ≠ .error

/-- The state kept in `safetyOptions`: the flag and the time when the servers were first found unreachable.
Fields `MachineControllerFrozen` and `APIserverInactiveStartTime`, written in machine_safety.go:53-129. -/
structure St where
  frozen : Bool := false
  start : Option Int := none
deriving DecidableEq, Repr

/-- The machines at the API server, by name. Read and written in machine_safety.go:72-103; only the phase matters there. -/
abbrev Store := String → Option Phase

/-- What the requests made for one machine do (GET and UpdateStatus, lines 74-96). -/
structure Api where
  get : String → Bool := fun _ => true
  update : String → Bool := fun _ => true

/-- the loop over the cached machines (name, phase), lines 72-103: the store afterwards, and whether an error ended the loop -/
def resetAll (api : Api) (store : Store) : List (String × Phase) → Store × Bool
  | [] => (store, false)
  | (n, p) :: l =>
    if p = .unknown then
      match store n with
      | none => (store, true)
      | some _ =>
        if api.get n && api.update n then resetAll api (fun x => if x = n then some .running else store x) l
        else (store, true)
    else resetAll api store l

/-- One check: its time, what the servers answer, the machines in the cache and how requests for them end.
The inputs of machine_safety.go:53-129. -/
structure Check where
  now : Int
  control : Answer
  target : Answer
  cache : List (String × Phase) := []
  api : Api := {}

/-- Result of a check; `again`: the key was put into the queue again by the check itself.
The result of machine_safety.go:53-129 (`AddAfter` at lines 122 and 127). -/
structure Out where
  st : St
  store : Store
  err : Bool := false
  again : Bool := true

/-- `reconcileClusterMachineSafetyAPIServer`, machine_safety.go:56-129. The reading of the clock on line 112 and that on line 114
are taken to be the same. -/
def check (timeout : Int) (s : St) (store : Store) (c : Check) : Out :=
  if s.frozen then
    if isUp c.control c.target then
      match resetAll c.api store c.cache with
      | (store', true) => { st := s, store := store', err := true, again := false }
      | (store', false) => { st := { frozen := false, start := none }, store := store' }
    else { st := s, store := store }
  else if ¬ isUp c.control c.target then
    let t0 := s.start.getD c.now
    { st := { frozen := decide (c.now - t0 > timeout), start := some t0 }, store := store }
  else { st := s, store := store }

/-- the state after a sequence of checks, oldest first; `check` (machine_safety.go:53-129) repeated -/
def run (timeout : Int) : St × Store → List Check → St × Store
  | s, [] => s
  | s, c :: cs => run timeout ((check timeout s.1 s.2 c).st, (check timeout s.1 s.2 c).store) cs

/-- one round of the loop as the worker runs it: the check, then the handling of its result;
pkg/util/worker/worker.go:36-68 around machine_safety.go:53-129; the delays of `AddAfter` are taken to pass before the next round -/
def round (timeout : Int) (w : St × Store × Worker.Q) (c : Check) : St × Store × Worker.Q :=
  match w.2.2.queue with
  | [] => w
  | k :: rest =>
    let q := { w.2.2 with queue := rest, processing := k :: w.2.2.processing, dirty := w.2.2.dirty.filter (· ≠ k) }
    let o := check timeout w.1 w.2.1 c
    let q := if o.again then q.addAfter k else q
    let q := q.finish true k (!o.err)
    -- the delays pass
    let q := match q.delayed with
      | [] => q
      | d :: ds => { q with delayed := ds }.add d
    (o.st, o.store, q)

end MCM.ApiFreeze
