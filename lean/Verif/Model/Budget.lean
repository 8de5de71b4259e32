import Verif.Model.Drain
import Verif.Model.Types
/-!
Model of how a drain treats disruption budgets: /repo/pkg/util/provider/drain/drain.go:1178-1200, used at 731-748 and 1055-1067
(`Drain.visit` and `Drain.noPv`, where the answer is a parameter).
-/
namespace MCM.Budget
open MCM MCM.Drain

/-- `policyv1.PodDisruptionBudget`: the parts read in drain.go:1178-1200, and `desired`, which is read only by specifications.
`sel`: the selector; an invalid one selects nothing (client-go, `GetPodPodDisruptionBudgets`). -/
structure Pdb where
  ns : String
  name : String
  sel : SMap → Bool
  generation : Nat
  /-- `Status.ObservedGeneration` -/
  observed : Nat
  /-- `Status.ExpectedPods` -/
  expected : Int
  /-- `Status.CurrentHealthy` -/
  healthy : Int
  /-- `Status.DesiredHealthy` -/
  desired : Int
  /-- `Status.DisruptionsAllowed` -/
  allowed : Int

/-- `GetPodPodDisruptionBudgets` of the lister (client-go), called at drain.go:1181: the budgets of the namespace of the pod that select it,
in the order of the cache (any). -/
def budgetsOf (cache : List Pdb) (ns : String) (labels : SMap) : List Pdb := cache.filter fun b => b.ns == ns && b.sel labels

/-- `getPdbForPod`, drain.go:1178-1192: the first one -/
def getPdb (cache : List Pdb) (ns : String) (labels : SMap) : Option Pdb := (budgetsOf cache ns labels).head?

/-- `isMisconfiguredPdb`, drain.go:1194-1200 -/
def misconfigured (b : Pdb) : Bool :=
  if b.generation ≠ b.observed then false
  else decide (b.expected > 0) && decide (b.healthy ≥ b.expected) && decide (b.allowed = 0)

/-- whether an eviction that was refused is given up because of the budget, drain.go:735-744 and 1059-1067 -/
def gaveUp (cache : List Pdb) (ns : String) (labels : SMap) : Bool :=
  match getPdb cache ns labels with
  | none => false
  | some b => misconfigured b

/-- The surroundings of a pod with volumes in `Drain.visit`, with the budgets cached when it is refused; drain.go:731-748 -/
def ansOf (cache : List Pdb) (labels : SMap) (p : Pod) (a : Ans) : Ans := { a with pdb := gaveUp cache p.ns labels }

/-- The surroundings of a pod without volumes in `Drain.noPv`; `caches i`: the budgets cached at attempt `i`; drain.go:1055-1067 -/
def ans1Of (caches : Nat → List Pdb) (labels : SMap) (p : Pod) (a : Ans1) : Ans1 := { a with pdb := fun i => gaveUp (caches i) p.ns labels }

end MCM.Budget
