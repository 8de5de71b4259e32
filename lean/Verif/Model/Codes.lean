import Verif.Model.Types
/-!
Model of the provider error codes: /repo/pkg/util/provider/machinecodes/codes/codes.go, code_string.go and
status/status.go.
-/
namespace MCM.Codes
open MCM

/-- `codes.Code`, codes.go:25-152; `other n` stands for the numbers without a name (18 and above) -/
inductive Code
  | ok | canceled | unknown | invalidArgument | deadlineExceeded | notFound | alreadyExists | permissionDenied
  | resourceExhausted | failedPrecondition | aborted | outOfRange | unimplemented | internal | unavailable | dataLoss
  | unauthenticated | uninitialized | other (n : Nat)
deriving Repr, DecidableEq, Inhabited

/-- `Code.String`, code_string.go:29-70 -/
def Code.str : Code → String
  | .ok => "OK" | .canceled => "Canceled" | .unknown => "Unknown" | .invalidArgument => "InvalidArgument"
  | .deadlineExceeded => "DeadlineExceeded" | .notFound => "NotFound" | .alreadyExists => "AlreadyExists"
  | .permissionDenied => "PermissionDenied" | .resourceExhausted => "ResourceExhausted"
  | .failedPrecondition => "FailedPrecondition" | .aborted => "Aborted" | .outOfRange => "OutOfRange"
  | .unimplemented => "Unimplemented" | .internal => "Internal" | .unavailable => "Unavailable"
  | .dataLoss => "DataLoss" | .unauthenticated => "Unauthenticated" | .uninitialized => "Uninitialized"
  | .other n => "Code(" ++ toString n ++ ")"

/-- `strToCode`, codes.go:154-173 -/
def table : List (String × Code) :=
  [("OK", .ok), ("Canceled", .canceled), ("Unknown", .unknown), ("InvalidArgument", .invalidArgument),
   ("DeadlineExceeded", .deadlineExceeded), ("NotFound", .notFound), ("AlreadyExists", .alreadyExists),
   ("PermissionDenied", .permissionDenied), ("ResourceExhausted", .resourceExhausted),
   ("FailedPrecondition", .failedPrecondition), ("Aborted", .aborted), ("OutOfRange", .outOfRange),
   ("Unimplemented", .unimplemented), ("Internal", .internal), ("Unavailable", .unavailable), ("DataLoss", .dataLoss),
   ("Unauthenticated", .unauthenticated), ("Uninitialized", .uninitialized)]

/-- `StringToCode`, codes.go:176-181 -/
def stringToCode (s : String) : Code := (List.lookup s table).getD .unknown

/-- `(*Status).Error`, status.go:74-76: the text of an error with a code -/
def render (c : Code) (msg : String) : String :=
  "machine codes error: code = [" ++ c.str ++ "] message = [" ++ msg ++ "]"

/-- state of the scanner in `findCodeAndMessage`: pieces decoded so far, the piece being read (with its opening bracket),
and the bracket depth; variables `decoded`, `temp`, `counter` of status.go:121-123 -/
structure Scan where
  decoded : List String := []
  temp : List Char := []
  depth : Nat := 0

/-- one character in `findCodeAndMessage`, status.go:125-146. `tempString[1:len-1]` drops the outer brackets (one byte each). -/
def scanStep (s : Scan) (c : Char) : Scan :=
  if c = '[' then { s with depth := s.depth + 1, temp := s.temp ++ [c] }
  else if c = ']' then
    if s.depth > 0 then
      if s.depth - 1 = 0 then
        { decoded := s.decoded ++ [String.ofList ((s.temp ++ [c]).drop 1).dropLast], temp := [], depth := 0 }
      else { s with depth := s.depth - 1, temp := s.temp ++ [c] }
    else s
  else if s.depth > 0 then { s with temp := s.temp ++ [c] }
  else s

/-- `findCodeAndMessage`, status.go:120-151 -/
def findCodeAndMessage (text : String) : Option (String × String) :=
  match (text.toList.foldl scanStep {}).decoded with
  | [a, b] => some (a, b)
  | _ => none

/-- `FromError` of a non-nil error with this text, status.go:100-118: `some` = decoded, `none` = `ok` is false. -/
def fromError (text : String) : Option (Code × String) :=
  (findCodeAndMessage text).map fun p => (stringToCode p.1, p.2)

end MCM.Codes
