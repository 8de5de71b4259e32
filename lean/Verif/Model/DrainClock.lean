import Verif.Model.Drain
/-!
The drain of `Drain.lean` with a clock: how long requests, sleeps and waits take, and what the deadline of the drain's context ends.
/repo/pkg/util/provider/drain/drain.go:141-152, 218-248, 437-439, 470-476, 490-536, 628-821, 861-986, 1025-1121. Times are milliseconds.
-/
namespace MCM.DrainClock
open MCM.Drain

/-- `PodEvictionRetryInterval`, drain.go:142-143 -/
def retryInterval : Nat := 20000

/-- `Interval`, drain.go:139-140 -/
def pollInterval : Nat := 5000

/-- `VolumeDetachPollInterval`, drain.go:149-150 -/
def detachInterval : Nat := 5000

/-- `bufferPeriod`, drain.go:1086 -/
def buffer : Nat := 30000

/-- A request to the API server: how long it would take, and the answer; drain.go:392-421. -/
structure Call where
  dur : Nat
  resp : Resp
deriving DecidableEq, Repr

/-- A request sent at `t` with a context that ends at `d`: its answer, and when it is there. Once the context has ended, the client returns an error that is
none of those told apart (client-go). drain.go:392-421, called at 734-736 and 1041-1043. -/
def send (d t : Nat) (c : Call) : Resp × Nat := if t + c.dur < d then (c.resp, t + c.dur) else (.error, max t d)

/-- The settings: `deadline` is the end of the drain's context (drain.go:219-220), `timeout` is `o.Timeout`; the others are those of drain.go:470-476, 771 and 794.
`awaited`: the pod has volumes that are waited for (see `Volumes.lean`). -/
structure Cfg where
  deadline : Nat
  timeout : Nat
  grace : Pod → Nat
  pvDetach : Nat
  pvReattach : Nat
  awaited : Pod → Bool

/-! ### pods without volumes -/

/-- One reading of a pod: how long after the one before it is started, how long it would take, and its answer; drain.go:1100-1104. -/
structure Look where
  wait : Nat
  dur : Nat
  ans : GetAns
deriving DecidableEq, Repr

/-- reading the pod at `t` with the context of the drain; drain.go:434-436 -/
def read (d t : Nat) (l : Look) : GetAns × Nat := if t + l.dur < d then (l.ans, t + l.dur) else (.error, max t d)

/-- The answers that `waitForDelete` gets and the time when it ends, drain.go:1099-1121; `stop` is the end of its own timeout. `wait.PollImmediate` (apimachinery) reads
at once, then at most five seconds after the last reading, and a last time at the end. -/
def watch (d stop : Nat) (p : Pod) (looks : Nat → Look) (i t : Nat) : List GetAns × Nat :=
  if (read d t (looks i)).1 = .notFound ∨ (read d t (looks i)).1.uid ≠ p.uid ∨ (read d t (looks i)).1 = .error ∨ stop ≤ (read d t (looks i)).2 then
    ([(read d t (looks i)).1], (read d t (looks i)).2)
  else ((read d t (looks i)).1 :: (watch d stop p looks (i + 1) (min ((read d t (looks i)).2 + max 1 (min (looks (i + 1)).wait pollInterval)) stop)).1,
    (watch d stop p looks (i + 1) (min ((read d t (looks i)).2 + max 1 (min (looks (i + 1)).wait pollInterval)) stop)).2)
termination_by stop - t
decreasing_by
  all_goals
    rename_i h
    have hr : t ≤ (read d t (looks i)).2 := by unfold read; split <;> dsimp only <;> omega
    simp only [not_or, Nat.not_le] at h
    omega

/-- The surroundings of a pod without volumes, drain.go:1025-1097: the requests' answers, whether the budget is misconfigured, the readings. -/
structure Env1 where
  call : Nat → Call
  pdb : Nat → Bool
  looks : Nat → Look

/-- after a successful request, drain.go:1072-1096 -/
def afterT (c : Cfg) (force : Bool) (e : Env1) (p : Pod) (t : Nat) : List (Nat × Ev) :=
  if force then [(t, .result p true)]
  else [((watch c.deadline (t + min (c.grace p) c.timeout + buffer) p e.looks 0 t).2,
    .result p (decide (waitForDelete p (watch c.deadline (t + min (c.grace p) c.timeout + buffer) p e.looks 0 t).1 = .gone)))]

/-- `evictPodWithoutPVInternal`, drain.go:1025-1097, from time `t` on: `Drain.noPv` with times. -/
def noPvT (c : Cfg) (attempt force : Bool) (e : Env1) (p : Pod) (t i : Nat) : Nat → List (Nat × Ev)
  | 0 =>
    ((send c.deadline t (e.call i)).2, .req p .delete (send c.deadline t (e.call i)).1) :: match (send c.deadline t (e.call i)).1 with
      | .ok => afterT c force e p (send c.deadline t (e.call i)).2
      | .notFound => [((send c.deadline t (e.call i)).2, .result p true)]
      | _ => [((send c.deadline t (e.call i)).2, .result p false)]
  | n + 1 =>
    if attempt then
      ((send c.deadline t (e.call i)).2, .req p .evict (send c.deadline t (e.call i)).1) :: match (send c.deadline t (e.call i)).1 with
        | .ok => afterT c force e p (send c.deadline t (e.call i)).2
        | .notFound => [((send c.deadline t (e.call i)).2, .result p true)]
        | .error => [((send c.deadline t (e.call i)).2, .result p false)]
        | .tooMany =>
          if e.pdb i then [((send c.deadline t (e.call i)).2, .result p false)]
          else noPvT c attempt force e p ((send c.deadline t (e.call i)).2 + retryInterval) (i + 1) n
    else
      ((send c.deadline t (e.call i)).2, .req p .delete (send c.deadline t (e.call i)).1) :: match (send c.deadline t (e.call i)).1 with
        | .ok => afterT c force e p (send c.deadline t (e.call i)).2
        | .notFound => [((send c.deadline t (e.call i)).2, .result p true)]
        | _ => [((send c.deadline t (e.call i)).2, .result p false)]

/-! ### pods with volumes -/

/-- what a reading of the node shows: it is gone, there is an error, or one of the pod's volumes is attached or not; drain.go:883-916 -/
inductive NodeRead
  | notFound | error
  | attached (b : Bool)
deriving DecidableEq, Repr

/-- The surroundings of one visit of a pod with volumes, drain.go:704-821: request, budget, readings of the node with their durations, and after how long the volumes are
attached elsewhere, if at all (without a handler they never are). -/
structure Env where
  call : Call
  pdb : Bool := false
  polls : Nat → Nat × NodeRead := fun _ => (0, .attached false)
  reattach : Option Nat := some 0

/-- `waitForDetach`, drain.go:861-922, with volumes to be waited for; `dl` is the end of its context. The context is looked at before each reading, not during the sleep. -/
def detachT (dl : Nat) (polls : Nat → Nat × NodeRead) (i t : Nat) : Detach × Nat :=
  if dl ≤ t then (.error, t)
  else if t + (polls i).1 < dl then
    match (polls i).2 with
    | .notFound => (.nodeGone, t + (polls i).1)
    | .error => (.error, t + (polls i).1)
    | .attached true => detachT dl polls (i + 1) (t + (polls i).1 + detachInterval)
    | .attached false => (.ok, t + (polls i).1)
  else (.error, dl)
termination_by dl - t
decreasing_by unfold detachInterval; omega

/-- `waitForReattach`, drain.go:937-986, with volumes to be waited for; it watches its context, which ends at `rl`, all the time -/
def reattachT (rl : Nat) (w : Option Nat) (t : Nat) : Reattach × Nat :=
  match w with
  | some w => if t + w < rl then (.ok, t + w) else (.timeout, max t rl)
  | none => (.timeout, max t rl)

/-- the wait for the detachment of the volumes of a pod, drain.go:770-773, 861-866 -/
def detachFrom (c : Cfg) (e : Env) (p : Pod) (t : Nat) : Detach × Nat :=
  if c.awaited p then detachT (min c.deadline (t + c.grace p + c.pvDetach)) e.polls 0 t else (.ok, t)

/-- the wait for their attachment elsewhere, drain.go:794-796, 937-942 -/
def reattachFrom (c : Cfg) (e : Env) (p : Pod) (t : Nat) : Reattach × Nat :=
  if c.awaited p then reattachT (min c.deadline (t + c.pvReattach)) e.reattach t else (.ok, t)

/-- the waits after a successful request, drain.go:768-816: `Drain.waits` with times; last the time of their end -/
def waitsT (c : Cfg) (e : Env) (p : Pod) (t : Nat) : List (Nat × Ev) × Next × Nat :=
  let x := detachFrom c e p t
  match x.1 with
  | .nodeGone => ([(x.2, .detach p .nodeGone), (x.2, .result p true)], .stop, x.2)
  | .error => ([(x.2, .detach p .error), (x.2, .result p false)], .settled, x.2)
  | .ok =>
    let y := reattachFrom c e p x.2
    ([(x.2, .detach p .ok), (y.2, .reattach p y.1), (y.2, .result p true)], .settled, y.2)

/-- one pass through the loop of `evictPodsWithPVInternal`, drain.go:705-817: `Drain.visit` with times -/
def visitT (c : Cfg) (attempt : Bool) (e : Env) (p : Pod) (t : Nat) : List (Nat × Ev) × Next × Nat :=
  if c.deadline ≤ t then ([(t, .result p true)], .stop, t)
  else
    let x := send c.deadline t e.call
    if attempt && x.1 = .tooMany then
      if e.pdb then ([(x.2, .req p .evict .tooMany), (x.2, .result p false)], .settled, x.2) else ([(x.2, .req p .evict .tooMany)], .retry, x.2)
    else match x.1 with
      | .notFound => ([(x.2, .req p (if attempt then .evict else .delete) .notFound), (x.2, .result p true)], .settled, x.2)
      | .ok => ((x.2, .req p (if attempt then .evict else .delete) .ok) :: (waitsT c e p x.2).1, (waitsT c e p x.2).2)
      | r => ([(x.2, .req p (if attempt then .evict else .delete) r)], .retry, x.2)

/-- result of a round, and the time of its end; drain.go:692-821 -/
structure RoundT where
  evs : List (Nat × Ev)
  rem : List Pod
  fast : Bool
  t : Nat
deriving DecidableEq, Repr

/-- `evictPodsWithPVInternal`, drain.go:692-821: `Drain.internal` with times -/
def internalT (c : Cfg) (attempt : Bool) (e : Pod → Env) : List Pod → Nat → RoundT
  | [], t => ⟨[], [], false, t⟩
  | p :: ps, t =>
    let v := visitT c attempt (e p) p t
    match v.2.1 with
    | .stop => ⟨v.1, ps, true, v.2.2⟩
    | .settled => let r := internalT c attempt e ps v.2.2; ⟨v.1 ++ r.evs, r.rem, r.fast, r.t⟩
    | .retry => let r := internalT c attempt e ps v.2.2; ⟨v.1 ++ r.evs, p :: r.rem, r.fast, r.t⟩

/-- the loop drain.go:644-660: `Drain.rounds` with times; it sleeps after the last round too -/
def roundsT (c : Cfg) (e : Nat → Pod → Env) (r : Nat) : Nat → List Pod → Nat → RoundT
  | 0, _, t => ⟨[], [], false, t⟩
  | n + 1, ps, t =>
    let x := internalT c true (e r) ps t
    if x.fast || x.rem.isEmpty then x
    else if n = 0 then { x with t := x.t + retryInterval }
    else
      let y := roundsT c e (r + 1) n x.rem (x.t + retryInterval)
      ⟨x.evs ++ y.evs, y.rem, y.fast, y.t⟩

/-- `evictPodsWithPv`, drain.go:628-682, after sorting, from time `t` on: `Drain.withPv` with times -/
def withPvT (c : Cfg) (attempt : Bool) (n : Nat) (e : Nat → Pod → Env) (ps : List Pod) (t : Nat) : List (Nat × Ev) :=
  if attempt then
    let x := roundsT c e 0 n ps t
    if !x.fast && !x.rem.isEmpty then
      let y := internalT c false (e n) x.rem x.t
      x.evs ++ y.evs ++ y.rem.map fun p => (y.t, Ev.result p false)
    else x.evs ++ x.rem.map fun p => (x.t, Ev.result p x.fast)
  else
    let y := internalT c false (e 0) ps t
    y.evs ++ y.rem.map fun p => (y.t, Ev.result p false)

/-- `evictPods`, drain.go:490-536: `Drain.processes` with times. `t` is when the process for the pods with volumes makes its first request, after it has read their
volumes (drain.go:636), `t1` when that of another pod starts. -/
def processesT (c : Cfg) (force attempt : Bool) (n : Nat) (e : Nat → Pod → Env) (e1 : Pod → Env1) (ps sorted : List Pod) (t t1 : Nat) : List (List (Nat × Ev)) :=
  if force then ps.map fun p => noPvT c attempt force (e1 p) p t1 0 n
  else withPvT c attempt n e sorted t :: (splitPv ps).2.map fun p => noPvT c attempt force (e1 p) p t1 0 n

end MCM.DrainClock
