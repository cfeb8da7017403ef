import Verif.Model.Limbs

/-! The private keys of the benchmark programs, `packages/benchmark/node/src/node.bench_pubkey_membership.ts` (and the other
benchmark programs, with the same lines): `Buffer.from("".padStart(16, member), "utf16le")`. -/

namespace Spartan.Bench

/-- `String.prototype.padStart` on UTF-16 code units: the filler is repeated and cut off.
External, called at `node.bench_pubkey_membership.ts` l. 16, 40. -/
def padStart (s : List UInt16) (len : ℕ) (fill : List UInt16) : List UInt16 :=
  if len ≤ s.length ∨ fill = [] then s
  else (List.replicate (len - s.length) fill).flatten.take (len - s.length) ++ s

/-- `Buffer.from(s, "utf16le")`: two bytes for every code unit, the low one first; halves of surrogate pairs are kept.
External, called at `node.bench_pubkey_membership.ts` l. 16, 40. -/
def utf16le (s : List UInt16) : List UInt8 := s.flatMap fun u => [UInt8.ofNat (u.toNat % 256), UInt8.ofNat (u.toNat / 256)]

/-- The private key made from a name.  `node.bench_pubkey_membership.ts` l. 16, 40, `node.bench_addr_membership.ts` l. 15, 42,
`benchmark/web/pages/index.tsx` l. 23, 44, 94, 115. -/
def privateKey (member : List UInt16) : List UInt8 := utf16le (padStart [] 16 member)

end Spartan.Bench
