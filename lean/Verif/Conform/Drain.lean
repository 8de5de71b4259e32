import Verif.Model.Drain
import Verif.Model.Volumes
/-!
Tests, not proofs: cases of the project's own unit tests of the drain (/repo/pkg/util/provider/drain/drain_test.go) evaluated in the model. The times that the tests expect are
not in the model.
-/
namespace MCM.Conform.Drain
open MCM.Drain

/-! ## `RunDrain`, drain_test.go:415-861 -/

/-- `getPodWithoutPV`, drain_test.go:992-1011 -/
def without (name : String) : Pod := { ns := "test", name, uid := "", node := "old-node", controller := some "" }
/-- `getPodWithPV`, drain_test.go:1021-1044 -/
def withVols (name : String) (claims : List String) : Pod := { without name with vols := claims.map .pvc }

/-- the pods of the set-up, drain_test.go:84-99 and 1046-1063: without volumes, with own ones, with shared ones (two pods share one), with both; `k` volumes of its own for each -/
def pods (n ex sh both k : Nat) : List Pod :=
  (List.range n).map (fun i => without s!"nopv-{i}") ++
  (List.range ex).map (fun i => withVols s!"expv-{i}" ((List.range k).map fun j => s!"expv-{i}-{j}")) ++
  (List.range sh).map (fun i => withVols s!"shpv-{i}" [s!"shpv-{i % (sh / 2)}"]) ++
  (List.range both).map fun i => withVols s!"exshpv-{i}" ((List.range k).map (fun j => s!"exshexpv-{i}-{j}") ++ [s!"exshshpv-{i % (both / 2)}"])

/-- the numbers of evictions and deletions granted, and how the drain ends -/
def outcome (force supported : Bool) (retries : Nat) (evict : Resp) (ps : List Pod) : Nat × Nat × End :=
  match podsForDeletion flags "old-node" ps with
  | none => (0, 0, .failure)
  | some l =>
    let attempt := attempts force supported
    let evs := (processes force attempt retries (fun _ _ => { resp := if attempt then evict else .ok })
      (fun _ => { resp := fun _ => if attempt then evict else .ok, pdb := fun _ => false, gets := [.notFound] }) l (splitPv l).1).flatten
    let granted := fun v => (evs.filter fun e => match e with
      | .req _ v' .ok => v' = v
      | _ => false).length
    (granted .evict, granted .delete, collect l.length (results evs))

/-- "Successful drain … of pods without volume", without and with evictions -/
example : outcome false false 3 .ok (pods 10 0 0 0 1) = (0, 10, .success) ∧ outcome false true 3 .ok (pods 10 0 0 0 1) = (10, 0, .success) := by decide +kernel
/-- "… of pods with exclusive volumes", without and with evictions, with volume attachments, with two volumes -/
example : outcome false false 3 .ok (pods 0 2 0 0 1) = (0, 2, .success) ∧ outcome false true 3 .ok (pods 0 2 0 0 1) = (2, 0, .success) ∧
    outcome false true 3 .ok (pods 0 1 0 0 2) = (1, 0, .success) := by decide +kernel
/-- "… of pods with shared volumes" -/
example : outcome false false 3 .ok (pods 0 0 2 0 1) = (0, 2, .success) ∧ outcome false true 3 .ok (pods 0 0 2 0 1) = (2, 0, .success) := by decide +kernel
/-- "… of pods with exclusive and shared volumes" -/
example : outcome false false 3 .ok (pods 0 0 0 2 1) = (0, 2, .success) ∧ outcome false true 3 .ok (pods 0 0 0 2 1) = (2, 0, .success) := by decide +kernel
/-- "… of pods with and without volume"; also "with long termination grace period" -/
example : outcome false false 3 .ok (pods 10 2 0 0 1) = (0, 12, .success) ∧ outcome false true 3 .ok (pods 10 2 0 0 1) = (12, 0, .success) := by decide +kernel
/-- "Successful forced drain …", without and with evictions, and when evictions fail: no evictions -/
example : outcome true false 3 .ok (pods 10 2 0 0 1) = (0, 12, .success) ∧ outcome true true 3 .ok (pods 10 2 0 0 1) = (0, 12, .success) ∧
    outcome true true 1 .tooMany (pods 10 2 0 0 1) = (0, 12, .success) := by decide +kernel

/-! ## `getPodVolumeInfos`, drain_test.go:863-989 -/

/-- every claim has a volume of its name, and every volume an identifier with a suffix -/
def infosOf (claims vols : Bool) (suffix : String) (ps : List Pod) : List (String × List Volume) :=
  podInfos (fun _ c => if claims then some c else none) (fun v => if vols then some (v ++ suffix) else none) ps

/-- no pods; pods without volumes -/
example : infosOf true true "" [] = [] ∧
    infosOf true true "" [{ without "bar0" with ns := "foo" }, { without "bar1" with ns := "foo" }] = [("foo/bar0", []), ("foo/bar1", [])] := by decide +kernel
/-- "should return list of exclusive volumes" -/
example : infosOf true true "-id" [{ withVols "bar" ["exclusive-0"] with ns := "foo" }] = [("foo/bar", [⟨"exclusive-0", "exclusive-0-id"⟩])] := by decide +kernel
/-- "should filter out shared volumes" -/
example : infosOf true true "" [{ withVols "bar0" ["exclusive0-0", "shared0"] with ns := "foo" }, { withVols "bar1" ["exclusive1-0", "shared0"] with ns := "foo" }] =
    [("foo/bar0", [⟨"exclusive0-0", "exclusive0-0"⟩]), ("foo/bar1", [⟨"exclusive1-0", "exclusive1-0"⟩])] := by decide +kernel
/-- "should filter out provider-unrelated volumes" and "non-existing persistent volumes": no identifier; "non-existing PVCs" -/
example : infosOf true false "" [{ withVols "bar" ["exclusive-0"] with ns := "foo" }] = [("foo/bar", [])] ∧
    infosOf false true "" [{ withVols "bar" ["exclusive-0"] with ns := "foo" }] = [("foo/bar", [])] := by decide +kernel

end MCM.Conform.Drain
