import Verif.Model.Types
/-!
Model of the machine status writes of the machine controller: `machineStatusUpdate` and `isMachineStatusSimilar`,
/repo/pkg/util/provider/machinecontroller/machine_util.go:545-598, and /repo/pkg/util/strings/string.go.
Times are in nanoseconds.
-/
namespace MCM.Similar
open MCM

/-- `minimum`, string.go:44-55 -/
def minimum (a b c : Nat) : Nat :=
  if a < b then (if a < c then a else c) else (if b < c then b else c)

/-- The inner loop of `Levenshtein`, string.go:28-39: `as` is the rest of str1, `olds` the entries of `column` still to be
overwritten, `prev` the entry just written (`column[y-1]`), `last` is `lastkey`. -/
def row {α : Type} [DecidableEq α] (c : α) : List α → List Nat → Nat → Nat → List Nat
  | a :: as, old :: olds, prev, last =>
    let v := minimum (old + 1) (prev + 1) (last + if a ≠ c then 1 else 0)
    v :: row c as olds v old
  | _, _, _, _ => []

/-- The outer loop, string.go:25-40: `x` is the loop variable, the slice `column` is `c0 :: col`. -/
def cols {α : Type} [DecidableEq α] (s1 : List α) : List α → Nat → List Nat → Nat → List Nat
  | [], _, col, c0 => c0 :: col
  | b :: s2, x, col, _ => cols s1 s2 (x + 1) (row b s1 col x (x - 1)) x

/-- `Levenshtein`, string.go:18-41, on the bytes of the strings -/
def levenshtein {α : Type} [DecidableEq α] (s1 s2 : List α) : Nat :=
  (cols s1 s2 1 ((List.range s1.length).map (· + 1)) 0).getLastD 0

/-- the bytes of a Go string; (Go's library), util/strings/string.go:10-40 -/
def bytes (s : String) : List UInt8 := s.toList.flatMap String.utf8EncodeChar

/-- `StringSimilarityRatio(s1, s2) > 0.75`, string.go:10-14. `1 - changes/avgLen > 3/4` is computed in float64 in the source;
for lengths below 2^47 this agrees (`C124_similar`) with the exact comparison `8 * changes < len1 + len2` (for two empty strings the ratio is
NaN and the comparison false, as here). -/
def textSimilar (a b : String) : Bool :=
  decide (8 * levenshtein (bytes a) (bytes b) < (bytes a).length + (bytes b).length)

/-- `LastOperation` and `CurrentStatus` of a machine, /repo/pkg/apis/machine/v1alpha1/machine_types.go:111-127, 243-253, and
`LastKnownState`, 104-107. -/
structure MStatus where
  desc : String := ""
  errorCode : String := ""
  state : String := ""
  opType : String := ""
  /-- `LastOperation.LastUpdateTime` -/
  opTime : Int := 0
  phase : Phase := .empty
  timeoutActive : Bool := false
  /-- `CurrentStatus.LastUpdateTime` -/
  phaseTime : Int := 0
  lastKnownState : String := ""
deriving Repr, DecidableEq, Inhabited

/-- 30 minutes, machine_util.go:580 -/
def tolerance : Int := 30 * 60 * 1000000000

/-- `isMachineStatusSimilar`, machine_util.go:578-598. `LastKnownState` and the conditions are not looked at. -/
def isSimilar (now : Int) (s1 s2 : MStatus) : Bool :=
  if s1.opTime < now - tolerance || s2.opTime < now - tolerance then false
  else
    (textSimilar s1.desc s2.desc || s1.desc == s2.desc) &&
    s1.errorCode == s2.errorCode && s1.state == s2.state && s1.opType == s2.opType &&
    s1.phase == s2.phase && s1.timeoutActive == s2.timeoutActive

/-- Answer of the API server to an update; machine_util.go:563-575 -/
inductive ApiRes | ok | conflict | fail
deriving Repr, DecidableEq

/-- retry periods, machineutils/utils.go:86-93, in milliseconds -/
def conflictRetry : Nat := 200
/-- machineutils/utils.go:89 -/
def shortRetry : Nat := 5000
/-- machineutils/utils.go:91 -/
def mediumRetry : Nat := 180000
/-- machineutils/utils.go:93 -/
def longRetry : Nat := 600000

/-- `machineStatusUpdate`, machine_util.go:545-575: `cur` is the status in the cached object, `new` the status to be written.
Result: the status to be stored if a write was made and accepted, the retry period, and whether an error was returned. -/
def statusUpdate (now : Int) (api : ApiRes) (cur new : MStatus) : Option MStatus × Nat × Bool :=
  if isSimilar now new cur then (none, shortRetry, false)
  else match api with
    | .ok => (some new, shortRetry, false)
    | .conflict => (none, conflictRetry, true)
    | .fail => (none, shortRetry, true)

end MCM.Similar
