import Verif.Model.Types
/-!
Model of /repo/pkg/util/taints/taints.go:46-323 and of /repo/pkg/util/nodeops/taints.go:33-125.
-/
namespace MCM.Taints

/-- `v1.Taint`; (k8s.io/api), taints.go:158-323 -/
structure Taint where
  key : String
  value : String := ""
  effect : String
  timeAdded : Option Int := none
deriving DecidableEq, Repr

/-- `MatchTaint` of k8s.io/api: the same key and effect; used at taints.go:195, 239, 276, 299 -/
def Taint.matches (t u : Taint) : Bool := t.key = u.key && t.effect = u.effect

/-- `TaintExists`, taints.go:297-304 -/
def exists_ (l : List Taint) (t : Taint) : Bool := l.any fun u => u.matches t

/-- `DeleteTaintsByKey`, taints.go:221-232 -/
def deleteByKey : List Taint → String → List Taint × Bool
  | [], _ => ([], false)
  | u :: l, k =>
    let r := deleteByKey l k
    if k = u.key then (r.1, true) else (u :: r.1, r.2)

/-- `DeleteTaint`, taints.go:235-246 -/
def delete : List Taint → Taint → List Taint × Bool
  | [], _ => ([], false)
  | u :: l, t =>
    let r := delete l t
    if t.matches u then (r.1, true) else (u :: r.1, r.2)

/-- `RemoveTaint`, taints.go:250-264, on the taints of the node -/
def remove (l : List Taint) (t : Taint) : List Taint × Bool :=
  if l = [] then (l, false)
  else if ¬ exists_ l t then (l, false)
  else ((delete l t).1, true)

/-- the loop of `AddOrUpdateTaint`, taints.go:275-287: `none` when the taint is found as it should be -/
def addLoop (t : Taint) : List Taint → List Taint → Bool → Option (List Taint × Bool)
  | [], acc, updated => some (acc, updated)
  | u :: l, acc, updated =>
    if t.matches u then (if t = u then none else addLoop t l (acc ++ [t]) true)
    else addLoop t l (acc ++ [u]) updated

/-- `AddOrUpdateTaint`, taints.go:268-294, on the taints of the node -/
def addOrUpdate (l : List Taint) (t : Taint) : List Taint × Bool :=
  match addLoop t l [] false with
  | none => (l, false)
  | some (r, updated) => (if updated then r else r ++ [t], true)

/-- `TaintSetDiff`, taints.go:307-323 -/
def diff (t1 t2 : List Taint) : List Taint × List Taint :=
  (t1.filter fun t => ¬ exists_ t2 t, t2.filter fun t => ¬ exists_ t1 t)

/-- `addTaints`, taints.go:191-205: first the new taints, then every old one that none of these matches -/
def addTaints : List Taint → List Taint → List Taint
  | [], new => new
  | o :: old, new => addTaints old (if new.any (fun u => u.matches o) then new else new ++ [o])

/-- the loop over the taints in `AddOrUpdateTaintOnNode`, nodeops/taints.go:53-64 -/
def addAll : List Taint → List Taint → List Taint × Bool
  | l, [] => (l, false)
  | l, t :: ts =>
    let r := addOrUpdate l t
    let r' := addAll r.1 ts
    (r'.1, r.2 || r'.2)

/-- the loop over the taints in `RemoveTaintOffNode`, nodeops/taints.go:112-121 -/
def removeAll : List Taint → List Taint → List Taint × Bool
  | l, [] => (l, false)
  | l, t :: ts =>
    let r := remove l t
    let r' := removeAll r.1 ts
    (r'.1, r.2 || r'.2)

/-- What a request to a node meets: the node as the API server's cache returns it (line 46 asks for resource version "0"), which may
be older than the stored one; errors. -/
structure Api where
  read : Option (List Taint)
  updateOk : Bool := true

/-- of nodeops/taints.go:33-125 -/
inductive Result
  | done | failed
deriving DecidableEq, Repr

/-- `AddOrUpdateTaintOnNode`, nodeops/taints.go:33-69, on a node with the taints `stored`. An update based on an old version is
refused with a conflict. That error is wrapped by `UpdateNodeTaints` with `%v` (line 161), so that `RetryOnConflict` does not
recognise it: there is one attempt only. -/
def addOnNode (stored : List Taint) (api : Api) (ts : List Taint) : List Taint × Result :=
  if ts = [] then (stored, .done)
  else match api.read with
    | none => (stored, .failed)
    | some l =>
      if (addAll l ts).2 = false then (stored, .done)
      else if l = stored ∧ api.updateOk then ((addAll l ts).1, .done)
      else (stored, .failed)

/-- `RemoveTaintOffNode`, nodeops/taints.go:72-125: as `addOnNode`, but nothing is asked if the node given by the caller has none of the taints -/
def removeOffNode (stored : List Taint) (known : Option (List Taint)) (api : Api) (ts : List Taint) : List Taint × Result :=
  if ts = [] then (stored, .done)
  else if known.any (fun k => !ts.any fun t => exists_ k t) then (stored, .done)
  else match api.read with
    | none => (stored, .failed)
    | some l =>
      if (removeAll l ts).2 = false then (stored, .done)
      else if l = stored ∧ api.updateOk then ((removeAll l ts).1, .done)
      else (stored, .failed)

/-- the loop of `deleteTaints`, taints.go:173-188: what is left, the taints not found, and whether the last one was -/
def deleteTaints : List Taint → List Taint → Bool → List Taint × List Taint × Bool
  | [], l, removed => (l, [], removed)
  | t :: ts, l, _ =>
    let d := if t.effect ≠ "" then delete l t else deleteByKey l t.key
    let r := deleteTaints ts d.1 d.2
    (r.1, (if d.2 then [] else [t]) ++ r.2.1, r.2.2)

/-- `ReorganizeTaints`, taints.go:158-171: the word, the new taints, the taints to remove that were not found -/
def reorganize (old : List Taint) (overwrite : Bool) (add rem : List Taint) : String × List Taint × List Taint :=
  let new := addTaints old add
  let d := deleteTaints rem new false
  (if (old.length ≠ new.length ∧ d.2.2 = true) ∨ overwrite = true then "modified" else if old.length ≠ new.length then "tainted" else "untainted", d.1, d.2.1)

/-! ### The notation of taints -/

/-- `strings.Split` at one character; (Go's library), taints.go:48, 53, 88, 143 -/
def split (c : Char) : List Char → List (List Char)
  | [] => [[]]
  | x :: s => if x = c then [] :: split c s else match split c s with
    | h :: r => (x :: h) :: r
    | [] => [[x]]

/-- How parsing ends; `panic`: an index is out of range. taints.go:46-72, 87-99. -/
inductive Parsed (α : Type)
  | ok (x : α) | error | panic
deriving DecidableEq, Repr

/-- A taint as it is written. taints.go:67-69. -/
structure Spec where
  key : List Char
  value : List Char := []
  effect : List Char
deriving DecidableEq, Repr

/-- the effects there are; (k8s.io/api), taints.go:63 -/
def effects : List (List Char) := ["NoSchedule".toList, "PreferNoSchedule".toList, "NoExecute".toList]

/-- `parseTaint`, taints.go:46-72. `qual` and `label`: `IsQualifiedName` and `IsValidLabelValue` of k8s.io/apimachinery find nothing wrong. Line 55 reads the second part before line 58 counts
the parts. -/
def parseTaint (qual label : List Char → Bool) (st : List Char) : Parsed Spec :=
  match split '=' st with
  | [k, v] =>
    if v = [] ∨ qual k = false then .error
    else match split ':' v with
      | [a, e] => if label a = false then .error else if e ∈ effects then .ok ⟨k, a, e⟩ else .error
      | [_] => .panic
      | _ => .error
  | _ => .error

/-- all taints of a list, taints.go:90-96 -/
def parseAll (qual label : List Char → Bool) : List (List Char) → Parsed (List Spec)
  | [] => .ok []
  | st :: r => match parseTaint qual label st with
    | .ok t => match parseAll qual label r with
      | .ok ts => .ok (t :: ts)
      | .error => .error
      | .panic => .panic
    | .error => .error
    | .panic => .panic

/-- `Var.Set`, taints.go:87-99 -/
def set (qual label : List Char → Bool) (s : List Char) : Parsed (List Spec) := parseAll qual label (split ',' s)

/-- one taint in `Var.String`, taints.go:108 -/
def Spec.text (t : Spec) : List Char := t.key ++ '=' :: t.value ++ ':' :: t.effect

/-- `strings.Join` with a comma; (Go's library), taints.go:110 -/
def join : List (List Char) → List Char
  | [] => []
  | [x] => x
  | x :: y :: r => x ++ ',' :: join (y :: r)

/-- `Var.String`, taints.go:102-111 -/
def text (ts : List Spec) : List Char := if ts = [] then "<nil>".toList else join (ts.map Spec.text)

/-- `ParseTaints`, taints.go:119-155: the taints to add, which are checked against those before, and the taints to remove. -/
def parseTaints (qual label : List Char → Bool) : List (List Char) → List Spec → List Spec → Parsed (List Spec × List Spec)
  | [], add, rem => .ok (add, rem)
  | st :: r, add, rem =>
    if '=' ∈ st ∧ ':' ∈ st then
      match parseTaint qual label st with
      | .ok t => if add.any (fun u => u.key = t.key ∧ u.effect = t.effect) then .error else parseTaints qual label r (add ++ [t]) rem
      | .error => .error
      | .panic => .panic
    else if st.getLast? = some '-' then
      let k := st.dropLast
      match split ':' k with
      | a :: e :: _ => parseTaints qual label r add (rem ++ [⟨a, [], e⟩])
      | _ => parseTaints qual label r add (rem ++ [⟨k, [], []⟩])
    else .error

end MCM.Taints
