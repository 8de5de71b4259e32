/-!
Model of bootstrap tokens and user data: /repo/pkg/util/provider/machinecontroller/userdata.go:28-173 and machine.go:450-465.
Strings are lists of characters; machine names consist of one-byte characters.
-/
namespace MCM.UserData

/-- `BootstrapTokenPlaceholder`, userdata.go:30 -/
def tokenPlaceholder : List Char := "<<BOOTSTRAP_TOKEN>>".toList
/-- `MachineNamePlaceholder`, userdata.go:32 -/
def namePlaceholder : List Char := "<<MACHINE_NAME>>".toList
/-- the same after `url.QueryEscape`, userdata.go:36-39 -/
def tokenPlaceholderEnc : List Char := "%3C%3CBOOTSTRAP_TOKEN%3E%3E".toList
/-- userdata.go:37-38 -/
def namePlaceholderEnc : List Char := "%3C%3CMACHINE_NAME%3E%3E".toList

/-- `strings.Contains`; (Go's library), userdata.go:64, 67, 92, 95 -/
def contains (s p : List Char) : Bool := p.isPrefixOf s || match s with
  | [] => false
  | _ :: s => contains s p

/-- `strings.ReplaceAll` for a non-empty text `p`: occurrences are replaced from left to right, without overlap; `skip` counts the
characters of the present occurrence still to be passed over; userdata.go:66, 69, 94, 97 -/
def replaceFrom (p t : List Char) : Nat → List Char → List Char
  | _, [] => []
  | k + 1, _ :: s => replaceFrom p t k s
  | 0, c :: s => if p.isPrefixOf (c :: s) then t ++ replaceFrom p t (p.length - 1) s else c :: replaceFrom p t 0 s

/-- `strings.ReplaceAll`, userdata.go:66, 69, 94, 97 -/
def replaceAll (p t s : List Char) : List Char := replaceFrom p t 0 s

/-- userdata.go:62-71 and 90-99; `t` and `tEnc` are the text to insert and its URL encoding -/
def fill (p pEnc t tEnc s : List Char) : List Char :=
  if contains s p then replaceAll p t s
  else if contains s pEnc then replaceAll pEnc tEnc s
  else s

/-- machine.go:459-464: the token, then the name. Bootstrap tokens and machine names consist of characters that `url.QueryEscape` leaves
as they are (a-z, 0-9, `.`, `-`), so both encodings are the identity. -/
def userData (token name s : List Char) : List Char :=
  fill namePlaceholder namePlaceholderEnc name name (fill tokenPlaceholder tokenPlaceholderEnc token token s)

/-- one digit of `hex.EncodeToString`; (Go's library), userdata.go:170 -/
def hexDigit (n : Nat) : Char := if n < 10 then Char.ofNat (48 + n) else Char.ofNat (87 + n)

/-- `hex.EncodeToString`; (Go's library), userdata.go:170 -/
def hex : List UInt8 → List Char
  | [] => []
  | b :: bs => hexDigit (b.toNat / 16) :: hexDigit (b.toNat % 16) :: hex bs

/-- `getTokenIDAndSecretName`, userdata.go:169-173: the first six digits of the last five bytes of the name; `none`: the slice expression
panics -/
def tokenID (name : List UInt8) : Option (List Char) :=
  if name.length < 5 then none else some ((hex (name.drop (name.length - 5))).take 6)

/-- `BootstrapTokenSecretName`; (k8s.io/cluster-bootstrap), userdata.go:171 -/
def secretName (id : List Char) : List Char := "bootstrap-token-".toList ++ id

/-- The bootstrap-token secrets of the target cluster by name, with the token secrets in them. userdata.go:104-165. -/
abbrev Secrets := List (List Char × List Char)

/-- `getBootstrapTokenOrCreateIfNotExist`, userdata.go:107-142, without errors: the secret found, or a new one with the random text given -/
def getOrCreate (name : List UInt8) (random : List Char) (s : Secrets) : Option (Secrets × List Char) :=
  (tokenID name).map fun id =>
    match s.lookup (secretName id) with
    | some x => (s, id ++ '.' :: x)
    | none => ((secretName id, random) :: s, id ++ '.' :: random)

/-- `deleteBootstrapToken`, userdata.go:144-152, called when the node of the machine has joined, machine_util.go:675 -/
def deleteToken (name : List UInt8) (s : Secrets) : Option Secrets :=
  (tokenID name).map fun id => s.filter fun e => ¬ (e.1 = secretName id)

end MCM.UserData
