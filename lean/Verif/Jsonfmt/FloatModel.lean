import Verif.Jsonfmt.IntModel

/-!
# Model of the lossy float writers of `msgfmt/jsonfmt/encoder_float.go`

A finite non-negative double in the lossy range is `m / 2^k` with natural `m`
and `k`.  Rounding of an operation result to 53 significant bits (to nearest,
ties to even) is modelled exactly; gradual underflow is not (a product below
2^-1000 does not influence the result, because 0.5 is added to it).  Values
above `0x4ffffff`, NaN and infinities go through `strconv.FormatFloat`, which is
not modelled.
-/

namespace Verif.Jsonfmt

/-- Rounds `m` to 53 significant bits, nearest, ties to even (IEEE 754 double
arithmetic used at msgfmt/jsonfmt/encoder_float.go:53, 94). -/
def round53 (m : Nat) : Nat :=
  let s := m.log2 + 1 - 53
  let q := m / 2 ^ s
  let r := m % 2 ^ s
  if 2 * r > 2 ^ s ∨ (2 * r = 2 ^ s ∧ q % 2 = 1) then (q + 1) * 2 ^ s else q * 2 ^ s

/-- `lval := uint64(val*float64(exp) + 0.5)` for `val = m / 2^k`,
msgfmt/jsonfmt/encoder_float.go:52-53 (and 93-94, where the float32 is first
widened, which is exact). -/
def lossyLval (m k : Nat) : Nat :=
  let p := round53 (m * 1000000)          -- over 2^k
  let s := round53 (2 * p + 2 ^ k)        -- over 2^(k+1)
  s / 2 ^ (k + 1)

/-- `pow10`, msgfmt/jsonfmt/encoder_float.go:10-14. -/
def pow10 : List UInt64 := [1, 10, 100, 1000, 10000, 100000, 1000000]

/-- `for p := precision - 1; p > 0 && fval < pow10[p]; p--`,
msgfmt/jsonfmt/encoder_float.go:60-62 (99-101). -/
def padLoop (space : Bytes) (fval : UInt64) : Nat → Bytes
  | 0 => space
  | p + 1 =>
    if fval < pow10.getD (p + 1) 0 then padLoop (space ++ [48]) fval p else space

/-- `for space[len(space)-1] == '0'`, msgfmt/jsonfmt/encoder_float.go:64-66
(105-107).  On an empty slice Go panics; here the result is empty (a text with a
point always stops the loop). -/
def trimZeros (space : Bytes) : Bytes :=
  (space.reverse.dropWhile (· = 48)).reverse

/-- `WriteFloat64Lossy` from `lval` on, msgfmt/jsonfmt/encoder_float.go:54-67
(`WriteFloat32Lossy`, 95-108, is the same text). -/
def writeLossyTail (space : Bytes) (lval : UInt64) : Bytes :=
  let exp : UInt64 := 1000000
  let space := writeUint64 space (lval / exp)
  let fval := lval % exp
  if fval = 0 then space
  else
    let space := space ++ [46]
    let space := padLoop space fval 5
    let space := writeUint64 space fval
    trimZeros space

/-- `WriteFloat64Lossy`/`WriteFloat32Lossy`, msgfmt/jsonfmt/encoder_float.go:43-68
and 84-109, for a value in the lossy range: `neg` is `val < 0` (false for -0.0),
the magnitude is `m / 2^k`. -/
def writeFloatLossy (space : Bytes) (neg : Bool) (m k : Nat) : Bytes :=
  let space := if neg then space ++ [45] else space
  writeLossyTail space (UInt64.ofNat (lossyLval m k))

end Verif.Jsonfmt
