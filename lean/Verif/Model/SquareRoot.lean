import Verif.Model.GenWitness

/-! `packages/Spartan-secq/src/math.rs`: `square_root`, the one helper of the trait `Math` that computes with floating-point
numbers.  (The others are in `Model/Poly`.) -/

namespace Spartan

/-- The square root of an integer, rounded to a multiple of `1 / c`, times `c`.  No square root lies in the middle between two
multiples.  `f64::sqrt` in `math.rs` l. 11. -/
def roundedSqrt (x c : ℕ) : ℕ :=
  let t := Nat.sqrt (x * (c * c))
  if t * t + t < x * (c * c) then t + 1 else t

/-- `(self as f64).sqrt() as usize`: the nearest number of 53 significant bits, the nearest such number to its square root, and
the part before the point.  For a root with `k + 1` digits before the point, `c = 2^(52-k)`.  `math.rs` l. 10–12. -/
def squareRoot (n : ℕ) : ℕ :=
  let x := Wc.roundTo (2 ^ (n.log2 - 52)) n
  let c := 2 ^ (52 - (Nat.sqrt x).log2)
  roundedSqrt x c / c

end Spartan
