import Mathlib.Data.Int.Log
import Mathlib.Data.Rat.Floor
import Verif.Model.Scale
import Verif.Model.Similar
import Verif.Model.Settings
/-!
The floating point computations of the controllers, with the rounding of every operation: sizes given as percentages
(/repo/pkg/controller/deployment_util.go:1167-1186 through apimachinery's `intstr`), the share of a machine set in a scale-in (deployment_util.go:677-699), the similarity of
two descriptions (/repo/pkg/util/strings/string.go:10-14) and the number of eviction attempts (/repo/pkg/util/provider/machinecontroller/machine_util.go:1065).
The other models compute the same with exact numbers.

A finite `float64` is a rational number; every operation gives the exact result rounded to 53 significant bits, half to even (IEEE 754, as the Go specification
demands). Left out: numbers so large or so small that the exponent does not fit (none of the computations gets near them), and the fusing of a multiplication with an addition,
which the Go compiler may do on some processors (none of the four multiplies and then adds).
-/
namespace MCM.Float64
open MCM

/-- the nearest integer, half to even; (IEEE 754), used by every operation of deployment_util.go:695 -/
def nearest (x : ℚ) : ℤ :=
  if x - ⌊x⌋ < 1 / 2 then ⌊x⌋ else if 1 / 2 < x - ⌊x⌋ then ⌊x⌋ + 1 else if ⌊x⌋ % 2 = 0 then ⌊x⌋ else ⌊x⌋ + 1

/-- the distance of the numbers with 53 bits around `v`; (IEEE 754), used by every operation of deployment_util.go:695 -/
def ulp (v : ℚ) : ℚ := 2 ^ (Int.log 2 |v| - 52)

/-- the `float64` for `v`; (IEEE 754), used by every operation of deployment_util.go:695 -/
def fl (v : ℚ) : ℚ := nearest (v / ulp v) * ulp v

/-- `int(x)` and `int32(x)`: towards zero; (Go's language), in deployment_util.go:695 and machine_util.go:1065. Only for results that fit, which is part of the theorems. -/
def trunc (x : ℚ) : ℤ := if 0 ≤ x then ⌊x⌋ else ⌈x⌉

/-- `float64(value) * float64(total) / 100`; (apimachinery `GetValueFromIntOrPercent`), called at deployment_util.go:1167-1186 -/
def pct (value total : ℤ) : ℚ := fl (fl (fl value * fl total) / 100)

/-- `RoundToInt32`; (k8s.io/utils/integer), called at deployment_util.go:695 -/
def roundToInt32 (a : ℚ) : ℤ := if a < 0 then trunc (fl (a - 1 / 2)) else trunc (fl (a + 1 / 2))

/-- the numbers of 32 bits wrap around; (Go's language), in deployment_util.go:683, 695 -/
def wrap32 (x : ℤ) : ℤ := (x + 2 ^ 31) % 2 ^ 32 - 2 ^ 31

/-- `integer.RoundToInt32((float64(x * y)) / float64(z))`, deployment_util.go:695, for `z` other than zero -/
def share (x y z : ℤ) : ℤ := roundToInt32 (fl (fl (wrap32 (x * y)) / fl z))

/-- `getMachineSetFraction`, deployment_util.go:677-699, as `Scale.fraction`, with the arithmetic of the program -/
def fraction (d : Rolling.Dep) (statusReplicas : ℤ) (s : Scale.MSet) : ℤ :=
  if d.replicas = 0 then wrap32 (-s.spec)
  else wrap32 (share s.spec (wrap32 (d.replicas + Rolling.maxSurge d)) ((s.maxR.bind atoi).getD statusReplicas) - s.spec)

/-- `GetProportion`, deployment_util.go:648-673, as `Scale.proportion`, with the arithmetic of the program -/
def proportion (d : Rolling.Dep) (statusReplicas : ℤ) (s : Scale.MSet) (toAdd added : ℤ) : ℤ :=
  if s.spec = 0 ∨ toAdd = 0 ∨ toAdd = added then 0
  else if toAdd > 0 then min (fraction d statusReplicas s) (toAdd - added) else max (fraction d statusReplicas s) (toAdd - added)

/-- `StringSimilarityRatio`, string.go:10-14, for texts of `n` bytes together that are `c` changes apart; not for two empty texts -/
def ratio (c n : ℤ) : ℚ := fl (1 - fl (fl c / fl (fl n / 2)))

/-- `Duration.Seconds`; (Go's library), called at machine_util.go:1065; `d` in nanoseconds, not negative -/
def seconds (d : ℤ) : ℚ := fl (fl (d / 1000000000 : ℤ) + fl (fl (d % 1000000000 : ℤ) / 1000000000))

/-- `int32(math.Min(float64(max), timeout.Seconds()/PodEvictionRetryInterval.Seconds()))`, machine_util.go:1065 -/
def retries (max timeout : ℤ) : ℤ := trunc (min (fl max) (fl (seconds timeout / seconds Settings.interval)))

end MCM.Float64
