import Verif.Model.Drain
/-!
Model of volumes during a drain: /repo/pkg/util/provider/drain/drain.go:549-626, 823-1023 and volume_attachment.go.
-/
namespace MCM.Drain

/-! ### which volumes are waited for -/

/-- `getPersistentVolumeNamesForPod`, drain.go:823-859. `claim` gives the volume of a claim; `none`: the claim is not found, or reading it
fails three times. -/
def pvNames (claim : String → String → Option String) (p : Pod) : List String :=
  p.vols.filterMap fun v => match v with
    | .pvc c => claim p.ns c
    | _ => none

/-- the entry `true` of `sharedVol`, drain.go:599-611: the volume was met more than once -/
def shared (m : List (String × List String)) (v : String) : Bool := decide (2 ≤ (m.flatMap (·.2)).count v)

/-- `filterSharedPVs`, drain.go:592-626. The map is keyed by namespace/name of pods. -/
def filterShared (m : List (String × List String)) : List (String × List String) :=
  m.map fun e => (e.1, e.2.filter fun v => !shared m v)

/-- `VolumeInfo`, drain.go:549-590 -/
structure Volume where
  pv : String
  id : String
deriving DecidableEq, Repr

/-- drain.go:565-583 with `getVolumeIDFromDriver`, 988-1023: volumes for which there is no identifier, or an error, are left out; an
identifier that is empty counts as none -/
def infos (driver : String → Option String) (names : List String) : List Volume :=
  names.filterMap fun n => match driver n with
    | some id => if id = "" then none else some ⟨n, id⟩
    | none => none

/-- `getPodVolumeInfos`, drain.go:549-590; the pods have different keys -/
def podInfos (claim : String → String → Option String) (driver : String → Option String) (ps : List Pod) : List (String × List Volume) :=
  (filterShared (ps.map fun p => (p.ns ++ "/" ++ p.name, pvNames claim p))).map fun e => (e.1, infos driver e.2)

/-! ### regular expressions

`regexp.MatchString(volumeID, name)`: the identifier is used as a pattern. Modelled are patterns of ordinary characters, `.`, and sets such
as `[abc]`; for the others nothing is known. -/

/-- The parts of a pattern modelled; used at drain.go:861-922 -/
inductive Tok
  | lit (c : Char)
  | any
  | set (cs : List Char)
deriving DecidableEq, Repr

/-- characters with a meaning of their own outside sets, other than `.` and `[`; (Go's package regexp, used at drain.go:861-922) -/
def special : List Char := ['\\', '+', '*', '?', '(', ')', '|', '{', '}', '^', '$', ']']

/-- the rest of a set and what follows it; sets with ranges, complements, escapes and classes are not modelled;
(Go's package regexp, used at drain.go:861-922) -/
def parseSet : List Char → Option (List Char × List Char)
  | [] => none
  | c :: cs =>
    if c = ']' then some ([], cs)
    else if c ∈ ['-', '^', '\\', '['] then none
    else (parseSet cs).map fun r => (c :: r.1, r.2)

/-- the tokens of a pattern; the number bounds the length; (Go's package regexp, used at drain.go:861-922) -/
def parse : Nat → List Char → Option (List Tok)
  | 0, _ => none
  | _ + 1, [] => some []
  | n + 1, c :: cs =>
    if c = '.' then (parse n cs).map (.any :: ·)
    else if c = '[' then
      match parseSet cs with
      | some (s, rest) => if s = [] then none else (parse n rest).map (.set s :: ·)
      | none => none
    else if c ∈ special then none
    else (parse n cs).map (.lit c :: ·)

/-- one token fits one character; (Go's package regexp, used at drain.go:861-922) -/
def Tok.fits : Tok → Char → Bool
  | .lit c, d => c == d
  | .any, d => d != '\n'
  | .set cs, d => cs.contains d

/-- the tokens fit the beginning; (Go's package regexp, used at drain.go:861-922) -/
def fitsStart : List Tok → List Char → Bool
  | [], _ => true
  | _ :: _, [] => false
  | t :: ts, d :: ds => t.fits d && fitsStart ts ds

/-- the tokens fit somewhere; (Go's package regexp, used at drain.go:861-922) -/
def fitsSomewhere (ts : List Tok) : List Char → Bool
  | [] => fitsStart ts []
  | d :: ds => fitsStart ts (d :: ds) || fitsSomewhere ts ds

/-- `found, _ = regexp.MatchString(volumeID, name)`; `other`: the result for patterns not modelled (false for invalid ones);
drain.go:861-922 -/
def matchString (other : List Char → List Char → Bool) (pat s : List Char) : Bool :=
  match parse (pat.length + 1) pat with
  | some ts => fitsSomewhere ts s
  | none => other pat s

/-! ### waiting -/

/-- one pass through the loop of `waitForDetach`: the wait has timed out; reading the node fails; the node reports these volumes;
drain.go:878-920 -/
inductive Poll
  | timeout | notFound | error
  | attached (names : List (List Char))
deriving DecidableEq, Repr

/-- `waitForDetach`, drain.go:861-922; `none`: not ended yet. -/
def waitForDetach (other : List Char → List Char → Bool) (ids : List (List Char)) (node : String) (polls : List Poll) : Option Detach :=
  if ids = [] ∨ node = "" then some .ok else go polls
where
  go : List Poll → Option Detach
    | [] => none
    | .timeout :: _ => some .error
    | .notFound :: _ => some .nodeGone
    | .error :: _ => some .error
    | .attached names :: ps => if names.any (fun n => ids.any fun i => matchString other i n) then go ps else some .ok

/-- what arrives while waiting for the attachment to other nodes: the timeout, or an event of a volume attachment (which has the name of a
persistent volume, or an inline volume); drain.go:955-982 -/
inductive REv
  | timeout
  | event (pv : Option String) (attached : Bool) (node : String)
deriving DecidableEq, Repr

/-- How `waitForReattach` ends, drain.go:937-986 -/
inductive REnd | ok | timeout | panic
deriving DecidableEq, Repr

/-- the volumes still waited for after an event, drain.go:968-975 -/
def left (prev : String) (pending : List String) (pv : String) (att : Bool) (node : String) : List String :=
  if att = true ∧ node ≠ prev then pending.filter (· ≠ pv) else pending

/-- the loop of `waitForReattach`, drain.go:955-982 -/
def reattachLoop (prev : String) (pending : List String) : List REv → Option REnd
  | [] => none
  | .timeout :: _ => some .timeout
  | .event none _ _ :: _ => some .panic
  | .event (some pv) att node :: es =>
    if left prev pending pv att node = [] then some .ok else reattachLoop prev (left prev pending pv att node) es

/-- `waitForReattach`, drain.go:937-986, with `isDesiredReattachment`, 924-932. Without a handler of volume attachments there are no
events. -/
def waitForReattach (handler : Bool) (pvs : List String) (prev : String) (es : List REv) : Option REnd :=
  if pvs = [] ∨ prev = "" then some .ok
  else reattachLoop prev (if handler then pvs else []) (if handler then es else es.filter (· = .timeout))

/-! ### the handler of volume attachments, volume_attachment.go -/

/-- an event: the name of the persistent volume, if there is one; volume_attachment.go:30-58 -/
abbrev VA := Option String

/-- the channel of a worker and the events in it, volume_attachment.go:17-21, 72-88 -/
structure Worker where
  id : Nat
  buf : List VA
deriving DecidableEq, Repr

/-- `closed`: the channels closed so far; `crashed`: a nil pointer was dereferenced, a channel was closed twice, or a value was sent to a
closed channel; volume_attachment.go:17-111 -/
structure Handler where
  next : Nat := 0
  workers : List Worker := []
  closed : List Nat := []
  crashed : Bool := false
deriving DecidableEq, Repr

/-- volume_attachment.go:78 -/
def chanSize : Nat := 20

/-- volume_attachment.go:30-111 -/
inductive HOp
  | add | delete (id : Nat) | dispatch (v : VA) | receive (id : Nat)
deriving DecidableEq, Repr

/-- a worker with a closed channel is closed again, or sent to; volume_attachment.go:30-58, 91-111 -/
def Handler.misuse (h : Handler) (p : Worker → Bool) : Bool := h.workers.any fun w => p w && h.closed.contains w.id

/-- one channel gets a value unless it is full; volume_attachment.go:44-56 -/
def Worker.put (w : Worker) (v : VA) : Worker := if w.buf.length < chanSize then { w with buf := w.buf ++ [v] } else w

/-- The operations are atomic because of the lock. `AddWorker` 73-89, `DeleteWorker` 92-111, `dispatch` 31-58 (the name of the volume is
dereferenced, for logging, whatever the log level); `receive` is the other end of the channel, drain.go:964. -/
def Handler.step (h : Handler) : HOp → Handler
  | .add => { h with next := h.next + 1, workers := h.workers ++ [⟨h.next, []⟩] }
  | .delete id => { h with workers := h.workers.filter (fun w => !(w.id == id)), closed := h.closed ++ (h.workers.filter (fun w => w.id == id)).map (·.id), crashed := h.crashed || h.misuse (fun w => w.id == id) }
  | .dispatch v =>
    if h.workers = [] then h
    else if v = none then { h with crashed := true }
    else { h with workers := h.workers.map (·.put v), crashed := h.crashed || h.misuse (fun _ => true) }
  | .receive id => { h with workers := h.workers.map fun w => if w.id = id then { w with buf := w.buf.drop 1 } else w }

/-- volume_attachment.go:30-111 -/
def Handler.run (h : Handler) (ops : List HOp) : Handler := ops.foldl Handler.step h

end MCM.Drain
